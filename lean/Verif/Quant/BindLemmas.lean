import Verif.Quant.BindModel
import Mathlib.Data.List.Forall2
import Mathlib.Data.List.Nodup

/-! # Lemmas on argument passing -/

namespace Verif.Quant.Bind

variable {A : Type}

/-- The order of the kinds in a Python signature. -/
def Kind.rank : Kind → Nat
  | .posOnly => 0
  | .posOrKw => 1
  | .varPos => 2
  | .kwOnly => 3
  | .varKw => 4

/-- A signature Python accepts: different names, kinds in order, at most one `*args` and one `**kwargs`. (That parameters without default come before
those with one is not needed.) -/
structure Valid (sig : Sig A) : Prop where
  names : (sig.map Param.name).Nodup
  order : sig.Pairwise fun p q => p.kind.rank < q.kind.rank ∨ (p.kind.rank = q.kind.rank ∧ p.kind ≠ .varPos ∧ p.kind ≠ .varKw)

theorem Valid.tail {p : Param A} {ps : Sig A} (h : Valid (p :: ps)) : Valid ps :=
  ⟨(List.nodup_cons.mp h.names).2, (List.pairwise_cons.mp h.order).2⟩

theorem Valid.ne {p : Param A} {ps : Sig A} (h : Valid (p :: ps)) {q : Param A} (hq : q ∈ ps) : q.name ≠ p.name := fun e =>
  (List.nodup_cons.mp h.names).1 (e ▸ List.mem_map_of_mem hq)

theorem Valid.rank_le {p : Param A} {ps : Sig A} (h : Valid (p :: ps)) {q : Param A} (hq : q ∈ ps) : p.kind.rank ≤ q.kind.rank := by
  rcases (List.pairwise_cons.mp h.order).1 q hq with h | h
  · exact h.le
  · exact h.1.le

theorem Valid.varKw_last {p : Param A} {ps : Sig A} (h : Valid (p :: ps)) (hp : p.kind = .varKw) : ps = [] := by
  cases ps with
  | nil => rfl
  | cons q qs =>
    have := (List.pairwise_cons.mp h.order).1 q (by simp)
    rw [hp] at this
    rcases this with h | h
    · cases hk : q.kind <;> rw [hk] at h <;> simp [Kind.rank] at h
    · exact absurd rfl h.2.2

theorem Valid.after_varPos {p : Param A} {ps : Sig A} (h : Valid (p :: ps)) (hp : p.kind = .varPos) :
    ∀ q ∈ ps, q.kind = .kwOnly ∨ q.kind = .varKw := by
  intro q hq
  have := (List.pairwise_cons.mp h.order).1 q hq
  rw [hp] at this
  rcases this with h | h
  · cases hk : q.kind <;> rw [hk] at h <;> simp [Kind.rank] at h <;> simp
  · exact absurd rfl h.2.1

/-- The form of the value of a parameter. -/
def Shape (p : Param A) : Val A → Prop
  | .one _ => p.kind ≠ .varPos ∧ p.kind ≠ .varKw
  | .tup _ => p.kind = .varPos
  | .dict _ => p.kind = .varKw

/-- Positional. -/
def Kind.pos : Kind → Bool
  | .posOnly => true
  | .posOrKw => true
  | .varPos => true
  | _ => false

/-- The parameters after the positional ones that are there. -/
def rest (b : Bound A) (sig : Sig A) : Sig A := sig.dropWhile fun p => p.kind.pos && b.has p.name

/-- The keywords passed for a list of parameters. -/
def kwList (b : Bound A) (sig : Sig A) : PyDict String A := sig.flatMap fun p => match b.get? p.name with
  | some (.one a) => [(p.name, a)]
  | some (.dict d) => d
  | _ => []

/-- Bound arguments that can be passed on. -/
structure Good (b : Bound A) (ps : Sig A) : Prop where
  shape : ∀ p ∈ ps, ∀ v, b.get? p.name = some v → Shape p v
  posOnly : ∀ p ∈ ps, p.kind = .posOnly → b.get? p.name ≠ none
  varPos : ∀ p ∈ ps, p.kind = .varPos → b.get? p.name ≠ none → ∀ q ∈ ps, q.kind.rank < 2 → b.get? q.name ≠ none
  required : ∀ p ∈ ps, b.get? p.name = none → p.dfl ≠ none
  dict : ∀ p ∈ ps, ∀ d, b.get? p.name = some (.dict d) → d.keys.Nodup ∧ ∀ q ∈ ps, q.kind = .posOrKw ∨ q.kind = .kwOnly → q.name ∉ d.keys

theorem Good.tail {b : Bound A} {p : Param A} {ps : Sig A} (h : Good b (p :: ps)) : Good b ps where
  shape q hq := h.shape q (by simp [hq])
  posOnly q hq := h.posOnly q (by simp [hq])
  varPos q hq a c r hr := h.varPos q (by simp [hq]) a c r (by simp [hr])
  required q hq := h.required q (by simp [hq])
  dict q hq d hd := ⟨(h.dict q (by simp [hq]) d hd).1, fun r hr => (h.dict q (by simp [hq]) d hd).2 r (by simp [hr])⟩

theorem has_true (b : PyDict String A) (k : String) : b.has k = true ↔ b.get? k ≠ none := by
  unfold PyDict.has
  cases b.get? k <;> simp

theorem has_false (b : PyDict String A) (k : String) : b.has k = false ↔ b.get? k = none := by
  unfold PyDict.has
  cases b.get? k <;> simp

theorem argsOf_kw {b : Bound A} {sig : Sig A} (h : ∀ p ∈ sig, p.kind = .kwOnly ∨ p.kind = .varKw) : argsOf b sig = [] := by
  cases sig with
  | nil => rfl
  | cons p ps =>
    have := h p (by simp)
    unfold argsOf
    rw [if_pos (by tauto)]

theorem rest_kw {b : Bound A} {ps : Sig A} (h : ∀ q ∈ ps, q.kind = .kwOnly ∨ q.kind = .varKw) : rest b ps = ps := by
  cases ps with
  | nil => rfl
  | cons p ps =>
    unfold rest
    rw [List.dropWhile_cons_of_neg]
    rcases h p (by simp) with h | h <;> simp [h, Kind.pos]

theorem rest_sub (b : Bound A) (ps : Sig A) : ∀ p ∈ rest b ps, p ∈ ps := fun _ h => (List.dropWhile_sublist _).subset h

theorem mem_kwList_keys {b : Bound A} {ps : Sig A} {k : String} (h : k ∈ (kwList b ps).keys) :
    (∃ p ∈ ps, p.name = k ∧ ∃ a, b.get? p.name = some (.one a)) ∨ ∃ p ∈ ps, ∃ d, b.get? p.name = some (.dict d) ∧ k ∈ d.keys := by
  unfold kwList PyDict.keys at h
  simp only [List.mem_map, List.mem_flatMap] at h
  obtain ⟨x, ⟨p, hp, hx⟩, rfl⟩ := h
  cases hv : b.get? p.name with
  | none => rw [hv] at hx; simp at hx
  | some v =>
    rw [hv] at hx
    cases v with
    | one a =>
      simp only [List.mem_singleton] at hx
      exact .inl ⟨p, hp, by rw [hx], a, hv⟩
    | tup l => simp at hx
    | dict d => exact .inr ⟨p, hp, d, hv, List.mem_map_of_mem hx⟩

/-- A keyword that can be passed is not among those passed for the other parameters. -/
theorem not_mem_kwList {b : Bound A} {p : Param A} {ps : Sig A} (hv : Valid (p :: ps)) (hg : Good b (p :: ps))
    (hp : p.kind = .posOrKw ∨ p.kind = .kwOnly) : p.name ∉ (kwList b ps).keys := by
  intro h
  rcases mem_kwList_keys h with ⟨q, hq, hn, -⟩ | ⟨q, hq, d, hd, hk⟩
  · exact hv.ne hq hn
  · exact (hg.dict q (by simp [hq]) d hd).2 p (by simp) hp hk

theorem pop_of_not_mem {d : PyDict String A} {k : String} (h : k ∉ d.keys) : d.pop k = d := by
  unfold PyDict.pop
  rw [List.filter_eq_self]
  intro x hx
  have : x.1 ∈ d.keys := List.mem_map_of_mem hx
  have : x.1 ≠ k := fun e => h (e ▸ this)
  simpa using this

theorem kwList_cons (b : Bound A) (p : Param A) (ps : Sig A) : kwList b (p :: ps) = (match b.get? p.name with
  | some (.one a) => [(p.name, a)]
  | some (.dict d) => d
  | _ => []) ++ kwList b ps := by simp [kwList]

/-- The end of `bind`. -/
def finish (s : Bound A × PyDict String A × Option String) : Except Err (Bound A) :=
  match s.2.1, s.2.2 with
  | [], _ => .ok s.1
  | rest, some n => .ok (s.1.set n (.dict rest))
  | _ :: _, none => .error .typeError

theorem bind_eq (sig : Sig A) (args : List A) (kw : PyDict String A) :
    bind sig args kw = (bindPos kw sig args [] >>= fun r => bindKw r.2 kw r.1 none >>= finish) := rfl

/-- The names of the parameters that can be passed as keywords. -/
def kwNames (ps : Sig A) : List String := (ps.filter fun p => p.kind = .posOrKw ∨ p.kind = .kwOnly).map Param.name

theorem mem_kwNames {ps : Sig A} {n : String} : n ∈ kwNames ps ↔ ∃ p ∈ ps, (p.kind = .posOrKw ∨ p.kind = .kwOnly) ∧ p.name = n := by
  simp [kwNames, List.mem_map, List.mem_filter, and_assoc]

/-- The keywords that go to `**kwargs`. -/
def surplus (K : PyDict String A) (ps : Sig A) : PyDict String A := K.filter fun x => x.1 ∉ kwNames ps

/-- The values of positional parameters, as passed. -/
def valsOf (b : Bound A) (pre : Sig A) : List A := pre.flatMap fun p => match b.get? p.name with
  | some (.one a) => [a]
  | some (.tup l) => l
  | _ => []

theorem valsOf_cons (b : Bound A) (p : Param A) (ps : Sig A) : valsOf b (p :: ps) = (match b.get? p.name with
  | some (.one a) => [a]
  | some (.tup l) => l
  | _ => []) ++ valsOf b ps := by simp [valsOf]

/-- Passing keywords `K` for the parameters `suf` amounts to `b`. -/
structure PassKw (b : Bound A) (suf : Sig A) (K : PyDict String A) : Prop where
  nopos : ∀ p ∈ suf, p.kind ≠ .posOnly ∧ (p.kind = .varPos → b.get? p.name = none)
  kw : ∀ p ∈ suf, p.kind = .posOrKw ∨ p.kind = .kwOnly → (K.get? p.name).map Val.one = b.get? p.name
  required : ∀ p ∈ suf, b.get? p.name = none → p.dfl ≠ none
  left : (∃ v ∈ suf, v.kind = .varKw ∧ (b.get? v.name).or v.dfl = some (.dict (surplus K suf))) ∨ (surplus K suf = [] ∧ ∀ v ∈ suf, v.kind ≠ .varKw)

/-- Passing the first parameters `pre` by position and `K` as keywords amounts to `b`. -/
structure Passes (b : Bound A) (pre suf : Sig A) (K : PyDict String A) : Prop extends PassKw b suf K where
  pos : ∀ p ∈ pre, p.kind.pos = true ∧ b.get? p.name ≠ none
  shape : ∀ p ∈ pre, ∀ v, b.get? p.name = some v → Shape p v
  nokw : ∀ p ∈ pre, p.kind = .posOrKw → K.get? p.name = none

theorem default_of_dfl {p : Param A} (hp : p.kind = .posOrKw ∨ p.kind = .kwOnly) (h : p.dfl ≠ none) : p.default.isSome = true := by
  unfold Param.dfl at h
  rcases hp with h' | h' <;> rw [h'] at h <;> cases hdd : p.default <;> simp [hdd] at h ⊢

/-- The second phase of `bind`. -/
theorem bindKw_pass {b : Bound A} : ∀ {ps : Sig A} (K : PyDict String A) (acc : Bound A), Valid ps → PassKw b ps K →
    (∀ p ∈ ps, acc.get? p.name = none) →
    ∃ b' : Bound A, (bindKw ps K acc none >>= finish) = .ok b' ∧
      (∀ n, n ∉ ps.map Param.name → b'.get? n = acc.get? n) ∧ (∀ p ∈ ps, (b'.get? p.name).or p.dfl = (b.get? p.name).or p.dfl) := by
  intro ps
  induction ps with
  | nil =>
    intro K acc _ hP _
    rcases hP.left with ⟨v, hv, -⟩ | ⟨h, -⟩
    · exact absurd hv (by simp)
    · have : K = [] := by simpa [surplus, kwNames] using h
      subst this
      exact ⟨acc, rfl, by simp, by simp⟩
  | cons p ps ih =>
    intro K acc hv hP hacc
    have hacct : ∀ q ∈ ps, acc.get? q.name = none := fun q hq => hacc q (by simp [hq])
    by_cases hk : p.kind = .varKw
    · -- the last parameter
      have hnil := hv.varKw_last hk
      subst hnil
      have hsur : surplus K [p] = K := by simp [surplus, kwNames, hk]
      have hl := hP.left
      rw [hsur] at hl
      have hr : bindKw [p] K acc none = .ok (acc, K, some p.name) := by simp [bindKw, hk]
      have ha := hacc p (by simp)
      have hdfl : p.dfl = some (.dict []) := by simp [Param.dfl, hk]
      have hl' : (b.get? p.name).or p.dfl = some (.dict K) := by
        rcases hl with ⟨v, hv, -, h⟩ | ⟨-, h⟩
        · rw [List.mem_singleton] at hv; subst hv; exact h
        · exact absurd hk (h p (by simp))
      rw [hr]
      cases K with
      | nil => exact ⟨acc, rfl, by simp, by
          intro q hq
          rw [List.mem_singleton] at hq
          subst hq
          rw [ha, hl', hdfl]
          rfl⟩
      | cons x d =>
        refine ⟨acc.set p.name (.dict (x :: d)), rfl, ?_, ?_⟩
        · intro n hn
          rw [PyDict.get?_set, if_neg (by simpa using Ne.symm (by simpa using hn))]
        · intro q hq
          rw [List.mem_singleton] at hq
          subst hq
          rw [PyDict.get?_set, if_pos rfl, hl']
          rfl
    · have step : ∀ (K1 : PyDict String A) (acc1 : Bound A), bindKw (p :: ps) K acc none = bindKw ps K1 acc1 none →
          (∀ q ∈ ps, K1.get? q.name = K.get? q.name) → surplus K1 ps = surplus K (p :: ps) →
          (∀ n, n ≠ p.name → acc1.get? n = acc.get? n) → acc1.get? p.name = b.get? p.name →
          ∃ b' : Bound A, (bindKw (p :: ps) K acc none >>= finish) = .ok b' ∧
            (∀ n, n ∉ (p :: ps).map Param.name → b'.get? n = acc.get? n) ∧
            (∀ q ∈ p :: ps, (b'.get? q.name).or q.dfl = (b.get? q.name).or q.dfl) := by
        intro K1 acc1 he hK1 hsur h1 h2
        have hP1 : PassKw b ps K1 := by
          refine ⟨fun q hq => hP.nopos q (by simp [hq]), fun q hq hqk => by rw [hK1 q hq]; exact hP.kw q (by simp [hq]) hqk,
            fun q hq => hP.required q (by simp [hq]), ?_⟩
          rw [hsur]
          rcases hP.left with ⟨v, hv, hvk, h⟩ | ⟨h, h'⟩
          · rcases List.mem_cons.mp hv with rfl | hv
            · exact absurd hvk hk
            · exact .inl ⟨v, hv, hvk, h⟩
          · exact .inr ⟨h, fun v hv => h' v (by simp [hv])⟩
        obtain ⟨b', hr, h3, h4⟩ := ih K1 acc1 hv.tail hP1 (fun q hq => by rw [h1 _ (hv.ne hq)]; exact hacct q hq)
        refine ⟨b', by rw [he, hr], ?_, ?_⟩
        · intro n hn
          simp only [List.map_cons, List.mem_cons, not_or] at hn
          rw [h3 n hn.2, h1 n hn.1]
        · intro q hq
          rcases List.mem_cons.mp hq with rfl | hq
          · rw [h3 _ (List.nodup_cons.mp hv.names).1, h2]
          · exact h4 q hq
      by_cases hvpk : p.kind = .varPos
      · have hb := (hP.nopos p (by simp)).2 hvpk
        exact step K acc (by simp [bindKw, hvpk]) (fun _ _ => rfl) (by simp [surplus, kwNames, hvpk]) (fun _ _ => rfl)
          (by rw [hb]; exact hacc p (by simp))
      · have hp0 := (hP.nopos p (by simp)).1
        have hpk : p.kind = .posOrKw ∨ p.kind = .kwOnly := by
          revert hp0 hvpk hk
          cases p.kind <;> simp
        have hkw := hP.kw p (by simp) hpk
        have hnames : kwNames (p :: ps) = p.name :: kwNames ps := by simp [kwNames, hpk]
        cases hKp : K.get? p.name with
        | none =>
          rw [hKp] at hkw
          have hb : b.get? p.name = none := hkw.symm
          have hd' := default_of_dfl hpk (hP.required p (by simp) hb)
          refine step K acc ?_ (fun _ _ => rfl) ?_ (fun _ _ => rfl) (by rw [hb]; exact hacc p (by simp))
          · rw [bindKw, if_neg hk, if_neg hvpk, hKp]
            simp [hd']
          · unfold surplus
            rw [hnames]
            apply List.filter_congr
            intro x hx
            have : x.1 ≠ p.name := by
              intro e
              exact (PyDict.get?_eq_none_iff _ _).mp hKp (e ▸ List.mem_map_of_mem hx)
            simp [this]
        | some a =>
          rw [hKp] at hkw
          refine step (K.pop p.name) (acc.set p.name (.one a)) ?_ ?_ ?_ (fun n hn => by rw [PyDict.get?_set, if_neg (Ne.symm hn)])
            (by rw [PyDict.get?_set, if_pos rfl, ← hkw]; rfl)
          · rw [bindKw, if_neg hk, if_neg hvpk, hKp]
            simp only [hp0, if_false]
          · intro q hq
            rw [PyDict.get?_pop, if_neg (Ne.symm (hv.ne hq))]
          · unfold surplus PyDict.pop
            rw [hnames, List.filter_filter]
            apply List.filter_congr
            intro x _
            simp [not_or, Bool.and_comm]

theorem bindPos_end {b : Bound A} {K : PyDict String A} {suf : Sig A} (acc : Bound A) (hP : PassKw b suf K) :
    ∃ suf' : Sig A, bindPos K suf [] acc = .ok (acc, suf') ∧ (suf' = suf ∨ ∃ v : Param A, v.kind = .varPos ∧ suf = v :: suf') := by
  cases suf with
  | nil => exact ⟨[], rfl, .inl rfl⟩
  | cons p ps =>
    have hp0 := (hP.nopos p (by simp)).1
    by_cases hk : p.kind = .varPos
    · exact ⟨ps, by simp [bindPos, hk], .inr ⟨p, hk, rfl⟩⟩
    · refine ⟨p :: ps, ?_, .inl rfl⟩
      rw [bindPos, if_neg hk]
      by_cases hKh : K.has p.name = true
      · rw [if_pos hKh, if_neg hp0]
      · rw [if_neg hKh, if_pos]
        by_cases hkw : p.kind = .varKw
        · exact .inl hkw
        · right
          have hpk : p.kind = .posOrKw ∨ p.kind = .kwOnly := by
            revert hp0 hk hkw
            cases p.kind <;> simp
          refine default_of_dfl hpk (hP.required p (by simp) ?_)
          rw [← hP.kw p (by simp) hpk, (has_false _ _).mp (by simpa using hKh)]
          rfl

/-- The first phase of `bind`. -/
theorem bindPos_pass {b : Bound A} {K : PyDict String A} {suf : Sig A} : ∀ {pre : Sig A} (acc : Bound A), Valid (pre ++ suf) → Passes b pre suf K →
    (∀ p ∈ pre ++ suf, acc.get? p.name = none) →
    ∃ (acc' : Bound A) (suf' : Sig A), bindPos K (pre ++ suf) (valsOf b pre) acc = .ok (acc', suf') ∧
      (suf' = suf ∨ ∃ v : Param A, v.kind = .varPos ∧ suf = v :: suf') ∧
      (∀ n, n ∉ pre.map Param.name → acc'.get? n = acc.get? n) ∧
      (∀ p ∈ pre, (acc'.get? p.name).or p.dfl = (b.get? p.name).or p.dfl) := by
  intro pre
  induction pre with
  | nil =>
    intro acc _ hP _
    obtain ⟨suf', h1, h2⟩ := bindPos_end acc hP.toPassKw
    exact ⟨acc, suf', h1, h2, fun _ _ => rfl, by simp⟩
  | cons p ps ih =>
    intro acc hv hP hacc
    have hP' : Passes b ps suf K :=
      ⟨hP.toPassKw, fun q hq => hP.pos q (by simp [hq]), fun q hq => hP.shape q (by simp [hq]), fun q hq => hP.nokw q (by simp [hq])⟩
    obtain ⟨hpos, hpb⟩ := hP.pos p (by simp)
    have hnk : ¬ (p.kind = .varKw ∨ p.kind = .kwOnly) := by
      rintro (h | h) <;> rw [h] at hpos <;> simp [Kind.pos] at hpos
    obtain ⟨v, hbv⟩ := Option.ne_none_iff_exists'.mp hpb
    have hs := hP.shape p (by simp) v hbv
    cases v with
    | dict d => exact absurd (.inl hs) hnk
    | tup l =>
      have hk : p.kind = .varPos := hs
      have hps : ps = [] := by
        cases ps with
        | nil => rfl
        | cons q qs =>
          have h1 := hv.after_varPos hk q (by simp)
          have h2 := (hP'.pos q (by simp)).1
          rcases h1 with h | h <;> rw [h] at h2 <;> simp [Kind.pos] at h2
      subst hps
      have hargs : valsOf b [p] = l := by rw [valsOf_cons, hbv]; simp [valsOf]
      rw [hargs]
      have hdfl : p.dfl = some (.tup []) := by simp [Param.dfl, hk]
      cases l with
      | nil =>
        refine ⟨acc, suf, by simp [bindPos, hk], .inl rfl, fun _ _ => rfl, ?_⟩
        intro q hq
        rw [List.mem_singleton] at hq
        subst hq
        rw [hacc q (by simp), hbv, hdfl]; rfl
      | cons x l =>
        refine ⟨acc.set p.name (.tup (x :: l)), suf, by simp [bindPos, hk], .inl rfl, ?_, ?_⟩
        · intro n hn
          rw [PyDict.get?_set, if_neg (by simpa using Ne.symm (by simpa using hn))]
        · intro q hq
          rw [List.mem_singleton] at hq
          subst hq
          rw [PyDict.get?_set, if_pos rfl, hbv]
    | one a =>
      have hk : p.kind ≠ .varPos := hs.1
      have hargs : valsOf b (p :: ps) = a :: valsOf b ps := by rw [valsOf_cons, hbv]; rfl
      have hKp : ¬ (K.has p.name = true ∧ p.kind ≠ .posOnly) := by
        rintro ⟨h1, h2⟩
        have h3 : p.kind = .posOrKw := by
          revert h2 hk hpos
          cases p.kind <;> simp [Kind.pos]
        exact (has_true K p.name).mp h1 (hP.nokw p (by simp) h3)
      obtain ⟨acc', suf', h1, h2, h3, h4⟩ := ih (acc.set p.name (.one a)) hv.tail hP'
        (fun q hq => by rw [PyDict.get?_set, if_neg (Ne.symm (hv.ne hq))]; exact hacc q (by simp only [List.cons_append, List.mem_cons]; exact .inr hq))
      rw [hargs]
      refine ⟨acc', suf', ?_, h2, ?_, ?_⟩
      · rw [List.cons_append, bindPos, if_neg hnk, if_neg hk, if_neg hKp, h1]
      · intro n hn
        simp only [List.map_cons, List.mem_cons, not_or] at hn
        rw [h3 n hn.2, PyDict.get?_set, if_neg (Ne.symm hn.1)]
      · intro q hq
        rcases List.mem_cons.mp hq with rfl | hq
        · have : q.name ∉ ps.map Param.name := by
            intro hc
            obtain ⟨r, hr, hrn⟩ := List.mem_map.mp hc
            exact hv.ne (List.mem_append_left _ hr) hrn
          rw [h3 _ this, PyDict.get?_set, if_pos rfl, hbv]
        · exact h4 q hq

/-- Any way of passing `b` arrives as `b`, once the defaults are filled in. -/
theorem bind_pass {b : Bound A} {K : PyDict String A} {pre suf : Sig A} (hv : Valid (pre ++ suf)) (hP : Passes b pre suf K) :
    ∃ b', bind (pre ++ suf) (valsOf b pre) K = .ok b' ∧ ∀ p ∈ pre ++ suf, (b'.get? p.name).or p.dfl = (b.get? p.name).or p.dfl := by
  obtain ⟨acc', suf', h1, h2, h3, h4⟩ := bindPos_pass (b := b) (K := K) [] hv hP (by simp [PyDict.get?])
  have hdisj : ∀ p ∈ suf, p.name ∉ pre.map Param.name := by
    intro p hp hc
    have := hv.names
    rw [List.map_append, List.nodup_append] at this
    exact this.2.2 _ hc _ (List.mem_map_of_mem hp) rfl
  have haccs : ∀ p ∈ suf, acc'.get? p.name = none := fun p hp => by rw [h3 _ (hdisj p hp)]; rfl
  have hvs : Valid suf := ⟨hv.names.sublist ((List.sublist_append_right pre suf).map _), hv.order.sublist (List.sublist_append_right pre suf)⟩
  have hP1 := hP.toPassKw
  have key : ∃ b' : Bound A, (bindKw suf' K acc' none >>= finish) = .ok b' ∧ (∀ n, n ∉ suf.map Param.name → b'.get? n = acc'.get? n) ∧
      (∀ p ∈ suf, (b'.get? p.name).or p.dfl = (b.get? p.name).or p.dfl) := by
    rcases h2 with rfl | ⟨v, hvk, rfl⟩
    · exact bindKw_pass K acc' hvs hP1 haccs
    · have hskip : bindKw (v :: suf') K acc' none = bindKw suf' K acc' none := by simp [bindKw, hvk]
      rw [← hskip]
      exact bindKw_pass K acc' hvs hP1 haccs
  obtain ⟨b', h7, h8, h9⟩ := key
  refine ⟨b', by rw [bind_eq, h1, ← h7]; rfl, ?_⟩
  intro p hp
  rcases List.mem_append.mp hp with hp | hp
  · have : p.name ∉ suf.map Param.name := by
      intro hc
      obtain ⟨q, hq, hqn⟩ := List.mem_map.mp hc
      exact hdisj q hq (hqn ▸ List.mem_map_of_mem hp)
    rw [h8 _ this, h4 p hp]
  · exact h9 p hp

/-! ### What `args` and `kwargs` pass on -/

theorem set_fresh {d : PyDict String A} {k : String} (v : A) (h : k ∉ d.keys) : d.set k v = d ++ [(k, v)] := by
  induction d with
  | nil => rfl
  | cons x d ih =>
    obtain ⟨a, w⟩ := x
    simp only [PyDict.keys_cons, List.mem_cons, not_or] at h
    simp [PyDict.set, Ne.symm h.1, ih h.2]

theorem update_fresh {e : PyDict String A} : ∀ {d : PyDict String A}, e.keys.Nodup → (∀ k ∈ e.keys, k ∉ d.keys) → d.update e = d ++ e := by
  induction e with
  | nil => intro d _ _; simp [PyDict.update]
  | cons x e ih =>
    intro d hn hd
    obtain ⟨a, w⟩ := x
    rw [PyDict.keys_cons, List.nodup_cons] at hn
    have h1 : d.update ((a, w) :: e) = (d.set a w).update e := rfl
    rw [h1, set_fresh w (hd a (by simp [PyDict.keys_cons])), ih hn.2]
    · simp
    · intro k hk
      have h2 := hd k (by simp [PyDict.keys_cons, hk])
      have h3 : k ≠ a := fun e => hn.1 (e ▸ hk)
      simp only [PyDict.keys, List.map_append, List.map_cons, List.map_nil, List.mem_append, List.mem_singleton, not_or] at h2 ⊢
      exact ⟨h2, h3⟩

/-- Single arguments as values. -/
def lift (d : PyDict String A) : PyDict String (Val A) := d.map fun x => (x.1, .one x.2)

theorem lift_keys (d : PyDict String A) : (lift d).keys = d.keys := by simp [lift, PyDict.keys]

theorem plainKw_lift (d : PyDict String A) : plainKw (lift d) = .ok d := by
  induction d with
  | nil => rfl
  | cons x d ih =>
    have : lift (x :: d) = (x.1, Val.one x.2) :: lift d := rfl
    rw [this, plainKw, ih]
    rfl

theorem kwargsOf_started {b : Bound A} : ∀ {ps : Sig A} (d : PyDict String A), Valid ps → Good b ps → (∀ p ∈ ps, p.kind ≠ .posOnly) →
    (∀ p ∈ ps, p.kind = .varPos → b.get? p.name = none) → (∀ k ∈ (kwList b ps).keys, k ∉ d.keys) →
    kwargsOf b ps true (lift d) = lift (d ++ kwList b ps) := by
  intro ps
  induction ps with
  | nil => intro d _ _ _ _ _; simp [kwargsOf, kwList]
  | cons p ps ih =>
    intro d hv hg hpo hvp hd
    have hpot : ∀ q ∈ ps, q.kind ≠ .posOnly := fun q hq => hpo q (by simp [hq])
    have hvpt : ∀ q ∈ ps, q.kind = .varPos → b.get? q.name = none := fun q hq => hvp q (by simp [hq])
    rw [kwargsOf, if_pos (.inl rfl)]
    cases hb : b.get? p.name with
    | none =>
      have hl : kwList b (p :: ps) = kwList b ps := by rw [kwList_cons, hb]; rfl
      rw [hl] at hd ⊢
      exact ih d hv.tail hg.tail hpot hvpt hd
    | some v =>
      have hs := hg.shape p (by simp) v hb
      cases v with
      | tup l => rw [hvp p (by simp) hs] at hb; exact absurd hb (by simp)
      | one a =>
        have hl : kwList b (p :: ps) = (p.name, a) :: kwList b ps := by rw [kwList_cons, hb]; rfl
        rw [hl] at hd ⊢
        have hpk : p.kind = .posOrKw ∨ p.kind = .kwOnly := by
          have := hpo p (by simp)
          obtain ⟨h1, h2⟩ := hs
          revert this h1 h2
          cases p.kind <;> simp
        have h1 : p.name ∉ d.keys := hd _ (by simp [PyDict.keys_cons])
        have h2 : (lift d).set p.name (.one a) = lift (d ++ [(p.name, a)]) := by
          rw [set_fresh _ (by rw [lift_keys]; exact h1)]
          simp [lift]
        have hnm := not_mem_kwList hv hg hpk
        show kwargsOf b ps true ((lift d).set p.name (.one a)) = _
        rw [h2, ih (d ++ [(p.name, a)]) hv.tail hg.tail hpot hvpt]
        · simp
        · intro k hk
          have h3 := hd k (by simp [PyDict.keys_cons, hk])
          have h4 : k ≠ p.name := fun e => hnm (e ▸ hk)
          simp only [PyDict.keys, List.map_append, List.map_cons, List.map_nil, List.mem_append, List.mem_singleton, not_or] at h3 ⊢
          exact ⟨h3, h4⟩
      | dict e =>
        have hk : p.kind = .varKw := hs
        have hnil := hv.varKw_last hk
        subst hnil
        have hl : kwList b [p] = e := by rw [kwList_cons, hb]; simp [kwList]
        rw [hl] at hd ⊢
        have h2 : (lift d).update (lift e) = lift (d ++ e) := by
          rw [update_fresh (by rw [lift_keys]; exact (hg.dict p (by simp) e hb).1) (by rw [lift_keys, lift_keys]; exact hd)]
          simp [lift]
        show (if p.kind = .varKw then kwargsOf b [] true ((lift d).update (lift e)) else _) = _
        rw [if_pos hk, h2]
        rfl

theorem kwargsOf_eq {b : Bound A} : ∀ {ps : Sig A}, Valid ps → Good b ps → (∀ p ∈ rest b ps, p.kind ≠ .posOnly ∧ (p.kind = .varPos → b.get? p.name = none)) →
    kwargsOf b ps false [] = lift (kwList b (rest b ps)) := by
  intro ps
  induction ps with
  | nil => intro _ _ _; rfl
  | cons p ps ih =>
    intro hv hg hr
    by_cases hhead : (p.kind.pos && b.has p.name) = true
    · have hrest : rest b (p :: ps) = rest b ps := by
        simp [rest, List.dropWhile_cons, hhead]
      rw [hrest] at hr ⊢
      simp only [Bool.and_eq_true] at hhead
      have hnk : ¬ (false = true ∨ p.kind = .varKw ∨ p.kind = .kwOnly) := by
        have := hhead.1
        revert this
        cases p.kind <;> simp [Kind.pos]
      rw [kwargsOf, if_neg hnk, if_pos hhead.2]
      exact ih hv.tail hg.tail hr
    · have hrest : rest b (p :: ps) = p :: ps := by
        simp [rest, List.dropWhile_cons, hhead]
      rw [hrest] at hr ⊢
      have key := kwargsOf_started (b := b) (ps := p :: ps) [] hv hg (fun q hq => (hr q hq).1) (fun q hq => (hr q hq).2) (by simp [PyDict.keys])
      rw [List.nil_append] at key
      rw [← key]
      by_cases hk : p.kind = .varKw ∨ p.kind = .kwOnly
      · rw [kwargsOf, kwargsOf, if_pos (.inr hk), if_pos (.inl rfl)]
        rfl
      · have hpos : p.kind.pos = true := by
          revert hk
          cases p.kind <;> simp [Kind.pos]
        have hb : b.has p.name = false := by
          rw [hpos] at hhead
          simpa using hhead
        have e1 : kwargsOf b (p :: ps) false [] = kwargsOf b ps true [] := by
          rw [kwargsOf, if_neg (by simpa using hk), if_neg (by simp [hb])]
        have e2 : kwargsOf b (p :: ps) true (lift []) = kwargsOf b ps true [] := by
          rw [kwargsOf, if_pos (Or.inl rfl), (has_false _ _).mp hb]
          rfl
        rw [e1, e2]

/-- `Entry`-wise equality of bound arguments after the defaults are filled in. -/
theorem withDefaults_congr {b b' : Bound A} : ∀ {ps : Sig A}, (∀ p ∈ ps, (b'.get? p.name).or p.dfl = (b.get? p.name).or p.dfl) →
    withDefaults ps b' = withDefaults ps b := by
  intro ps h
  unfold withDefaults
  induction ps with
  | nil => rfl
  | cons p ps ih =>
    rw [List.mapM_cons, List.mapM_cons, h p (by simp), ih fun q hq => h q (by simp [hq])]

/-- `BoundArguments.args` and `.kwargs` are a way of passing `b`. -/
theorem valsOf_eq (b : Bound A) : ∀ {ps : Sig A}, Valid ps → (∀ p ∈ ps, ∀ v, b.get? p.name = some v → Shape p v) →
    argsOf b ps = valsOf b (ps.takeWhile fun p => p.kind.pos && b.has p.name) := by
  intro ps
  induction ps with
  | nil => intro _ _; rfl
  | cons p ps ih =>
    intro hv hs
    by_cases hhead : (p.kind.pos && b.has p.name) = true
    · simp only [List.takeWhile_cons, hhead, if_true]
      simp only [Bool.and_eq_true] at hhead
      have hnk : ¬ (p.kind = .varKw ∨ p.kind = .kwOnly) := by
        have := hhead.1
        revert this
        cases p.kind <;> simp [Kind.pos]
      rw [argsOf, if_neg hnk, valsOf_cons, ih hv.tail fun q hq => hs q (by simp [hq])]
      cases hb : b.get? p.name with
      | none => exact absurd hb ((has_true _ _).mp hhead.2)
      | some v =>
        cases v with
        | one a => rfl
        | tup l => rfl
        | dict d => exact absurd (.inl (hs p (by simp) _ hb)) hnk
    · have : (p.kind.pos && b.has p.name) = false := by simpa using hhead
      simp only [List.takeWhile_cons, this, Bool.false_eq_true, if_false]
      rw [argsOf]
      by_cases hnk : p.kind = .varKw ∨ p.kind = .kwOnly
      · rw [if_pos hnk]; rfl
      · rw [if_neg hnk]
        have hpos : p.kind.pos = true := by
          revert hnk
          cases p.kind <;> simp [Kind.pos]
        rw [hpos, Bool.true_and] at this
        rw [(has_false _ _).mp this]
        rfl

theorem kwList_get {b : Bound A} {p : Param A} : ∀ {ps : Sig A}, Valid ps → Good b ps → p ∈ ps → p.kind = .posOrKw ∨ p.kind = .kwOnly →
    ((kwList b ps).get? p.name).map Val.one = b.get? p.name := by
  intro ps
  induction ps with
  | nil => intro _ _ h; exact absurd h (by simp)
  | cons q ps ih =>
    intro hv hg hp hk
    rw [kwList_cons, PyDict.get?_append]
    rcases List.mem_cons.mp hp with rfl | hp
    · have hnm := (PyDict.get?_eq_none_iff _ _).mpr (not_mem_kwList hv hg hk)
      rw [hnm]
      cases hb : b.get? p.name with
      | none => rfl
      | some v =>
        have hs := hg.shape p (by simp) v hb
        cases v with
        | one a => simp [PyDict.get?]
        | tup l => simp only [Shape] at hs; rcases hk with h | h <;> rw [h] at hs <;> exact absurd hs (by decide)
        | dict d => simp only [Shape] at hs; rcases hk with h | h <;> rw [h] at hs <;> exact absurd hs (by decide)
    · have h1 : PyDict.get? (match b.get? q.name with
          | some (.one a) => [(q.name, a)]
          | some (.dict d) => d
          | _ => []) p.name = none := by
        cases hb : b.get? q.name with
        | none => rfl
        | some v =>
          cases v with
          | one a => simp [PyDict.get?, Ne.symm (hv.ne hp)]
          | tup l => rfl
          | dict d => exact (PyDict.get?_eq_none_iff _ _).mpr ((hg.dict q (by simp) d hb).2 p (by simp [hp]) hk)
      rw [h1, Option.none_or]
      exact ih hv.tail hg.tail hp hk

theorem kwList_surplus {b : Bound A} {ps₀ : Sig A} (hg : Good b ps₀) : ∀ {ps : Sig A}, Valid ps → (∀ p ∈ ps, p ∈ ps₀) → (∀ p ∈ ps, p.kind ≠ .posOnly) →
    (∃ v ∈ ps, v.kind = .varKw ∧ (b.get? v.name).or v.dfl = some (.dict (surplus (kwList b ps) ps₀))) ∨
      (surplus (kwList b ps) ps₀ = [] ∧ ∀ v ∈ ps, v.kind ≠ .varKw) := by
  intro ps
  induction ps with
  | nil => intro _ _ _; exact .inr ⟨rfl, by simp⟩
  | cons p ps ih =>
    intro hv hsub hpo
    by_cases hk : p.kind = .varKw
    · have hnil := hv.varKw_last hk
      subst hnil
      refine .inl ⟨p, by simp, hk, ?_⟩
      have hdfl : p.dfl = some (.dict []) := by simp [Param.dfl, hk]
      cases hb : b.get? p.name with
      | none => simp [surplus, kwList, hb, hdfl]
      | some v =>
        have hs := hg.shape p (hsub p (by simp)) v hb
        cases v with
        | one a => exact absurd hk hs.2
        | tup l => simp only [Shape] at hs; rw [hk] at hs; exact absurd hs (by decide)
        | dict d =>
          have hl : kwList b [p] = d := by rw [kwList_cons, hb]; simp [kwList]
          have hd := (hg.dict p (hsub p (by simp)) d hb).2
          have : surplus d ps₀ = d := by
            unfold surplus
            rw [List.filter_eq_self]
            intro x hx
            have : x.1 ∉ kwNames ps₀ := by
              rw [mem_kwNames]
              rintro ⟨q, hq, hqk, hqn⟩
              exact hd q hq hqk (hqn ▸ List.mem_map_of_mem hx)
            simpa using this
          rw [hl, this]
          rfl
    · have hs : surplus (kwList b (p :: ps)) ps₀ = surplus (kwList b ps) ps₀ := by
        rw [kwList_cons]
        cases hb : b.get? p.name with
        | none => rfl
        | some v =>
          have hs := hg.shape p (hsub p (by simp)) v hb
          cases v with
          | tup l => rfl
          | dict d => exact absurd hs hk
          | one a =>
            have hpk : p.kind = .posOrKw ∨ p.kind = .kwOnly := by
              have h0 := hpo p (by simp)
              have h1 := hs.1
              revert h0 h1 hk
              cases p.kind <;> simp
            have : p.name ∈ kwNames ps₀ := mem_kwNames.mpr ⟨p, hsub p (by simp), hpk, rfl⟩
            simp [surplus, this]
      rw [hs]
      rcases ih hv.tail (fun q hq => hsub q (by simp [hq])) (fun q hq => hpo q (by simp [hq])) with ⟨v, hv', h⟩ | ⟨h, h'⟩
      · exact .inl ⟨v, by simp [hv'], h⟩
      · exact .inr ⟨h, by simpa [hk] using h'⟩

/-- After the first missing positional argument there is no positional-only parameter and no `*args`. -/
theorem rest_nopos {b : Bound A} : ∀ {ps : Sig A}, Valid ps → Good b ps → ∀ p ∈ rest b ps, p.kind ≠ .posOnly ∧ (p.kind = .varPos → b.get? p.name = none) := by
  intro ps
  induction ps with
  | nil => intro _ _ p hp; exact absurd hp (by simp [rest])
  | cons p ps ih =>
    intro hv hg
    by_cases hhead : (p.kind.pos && b.has p.name) = true
    · have hrest : rest b (p :: ps) = rest b ps := by
        simp [rest, List.dropWhile_cons, hhead]
      rw [hrest]
      exact ih hv.tail hg.tail
    · have hrest : rest b (p :: ps) = p :: ps := by
        simp [rest, List.dropWhile_cons, hhead]
      rw [hrest]
      have hp0 : p.kind ≠ .posOnly := by
        intro h
        have := hg.posOnly p (by simp) h
        apply hhead
        rw [h, (has_true _ _).mpr this]
        rfl
      intro q hq
      refine ⟨?_, ?_⟩
      · rcases List.mem_cons.mp hq with rfl | hq
        · exact hp0
        · intro h
          have := hv.rank_le hq
          rw [h] at this
          apply hp0
          revert this
          cases p.kind <;> simp [Kind.rank]
      · intro h
        by_contra hc
        have hh : b.get? p.name ≠ none ∧ p.kind.pos = true := by
          rcases List.mem_cons.mp hq with rfl | hq'
          · exact ⟨hc, by rw [h]; rfl⟩
          · have h1 := hv.rank_le hq'
            have h2 : p.kind ≠ .varPos := by
              intro h2
              rcases hv.after_varPos h2 q hq' with h3 | h3 <;> rw [h3] at h <;> exact absurd h (by decide)
            have h3 : p.kind.rank < 2 := by
              rw [h] at h1
              revert h1 h2
              cases p.kind <;> simp [Kind.rank]
            refine ⟨hg.varPos q hq h hc p (by simp) h3, ?_⟩
            revert h3
            cases p.kind <;> simp [Kind.rank, Kind.pos]
        apply hhead
        rw [hh.2, (has_true _ _).mpr hh.1]
        rfl

theorem withDefaults_some {b : Bound A} : ∀ {ps : Sig A}, (∀ p ∈ ps, b.get? p.name = none → p.dfl ≠ none) → ∃ vals, withDefaults ps b = some vals := by
  intro ps
  induction ps with
  | nil => exact fun _ => ⟨[], rfl⟩
  | cons p ps ih =>
    intro h
    obtain ⟨vals, hvals⟩ := ih fun q hq => h q (by simp [hq])
    have hp : ∃ v, (b.get? p.name).or p.dfl = some v := by
      cases hb : b.get? p.name with
      | some v => exact ⟨v, rfl⟩
      | none => exact Option.ne_none_iff_exists'.mp (h p (by simp) hb)
    obtain ⟨v, hv⟩ := hp
    refine ⟨v :: vals, ?_⟩
    unfold withDefaults at hvals ⊢
    rw [List.mapM_cons, hv, hvals]
    rfl

theorem received_of_bind {sig : Sig A} {b b' : Bound A} {args : List A} {K : PyDict String A} {vals : List (Val A)} (h : bind sig args K = .ok b')
    (hb : ∀ p ∈ sig, (b'.get? p.name).or p.dfl = (b.get? p.name).or p.dfl) (hvals : withDefaults sig b = some vals) :
    received sig args K = .ok vals := by
  unfold received
  rw [h]
  show (match withDefaults sig b' with | some vals => Except.ok vals | none => Except.error Err.typeError) = _
  rw [withDefaults_congr hb, hvals]

/-- A call with `b.args` and `b.kwargs` arrives as `b` with defaults. -/
theorem received_roundtrip {b : Bound A} {sig : Sig A} (hv : Valid sig) (hg : Good b sig) :
    ∃ K, plainKw (kwargsOf b sig false []) = .ok K ∧ ∃ vals, withDefaults sig b = some vals ∧ received sig (argsOf b sig) K = .ok vals := by
  have hnp := rest_nopos hv hg
  have hvr : Valid (rest b sig) :=
    ⟨hv.names.sublist ((List.dropWhile_sublist _).map _), hv.order.sublist (List.dropWhile_sublist _)⟩
  have hs := rest_sub b sig
  have hgr : Good b (rest b sig) :=
    ⟨fun p hp => hg.shape p (hs p hp), fun p hp => hg.posOnly p (hs p hp),
      fun p hp h1 h2 q hq => hg.varPos p (hs p hp) h1 h2 q (hs q hq), fun p hp => hg.required p (hs p hp),
      fun p hp d hd => ⟨(hg.dict p (hs p hp) d hd).1, fun q hq => (hg.dict p (hs p hp) d hd).2 q (hs q hq)⟩⟩
  set pre := sig.takeWhile fun p => p.kind.pos && b.has p.name with hpre
  have happ : pre ++ rest b sig = sig := List.takeWhile_append_dropWhile
  have hpresub : ∀ p ∈ pre, p ∈ sig := fun p hp => (List.takeWhile_sublist _).subset hp
  have hP : Passes b pre (rest b sig) (kwList b (rest b sig)) := by
    refine ⟨⟨hnp, fun p hp hk => kwList_get hvr hgr hp hk, hgr.required, kwList_surplus hgr hvr (fun _ h => h) (fun p hp => (hnp p hp).1)⟩, ?_,
      fun p hp => hg.shape p (hpresub p hp), ?_⟩
    · intro p hp
      have := List.all_eq_true.mp List.all_takeWhile p hp
      simp only [Bool.and_eq_true] at this
      exact ⟨this.1, (has_true _ _).mp this.2⟩
    · intro p hp hk
      rw [PyDict.get?_eq_none_iff]
      intro h
      rcases mem_kwList_keys h with ⟨q, hq, hn, -⟩ | ⟨q, hq, d, hd, hkk⟩
      · have := hv.names
        rw [← happ, List.map_append, List.nodup_append] at this
        exact this.2.2 _ (List.mem_map_of_mem hp) _ (List.mem_map_of_mem hq) hn.symm
      · exact (hg.dict q (hs q hq) d hd).2 p (hpresub p hp) (.inl hk) hkk
  obtain ⟨b', h1, h2⟩ := bind_pass (by rw [happ]; exact hv) hP
  rw [happ] at h1 h2
  obtain ⟨vals, hvals⟩ := withDefaults_some hg.required
  refine ⟨kwList b (rest b sig), by rw [kwargsOf_eq hv hg hnp, plainKw_lift], vals, hvals, ?_⟩
  rw [valsOf_eq b hv hg.shape]
  exact received_of_bind h1 h2 hvals

/-! ### What `bind` delivers -/

/-- The first loop: a prefix of the parameters is consumed. -/
theorem bindPos_inv {K : PyDict String A} : ∀ {ps : Sig A} {args : List A} {acc acc' : Bound A} {ps' : Sig A}, Valid ps →
    (∀ p ∈ ps, acc.get? p.name = none) → bindPos K ps args acc = .ok (acc', ps') →
    ∃ pre : Sig A, ps = pre ++ ps' ∧ (∀ n, n ∉ pre.map Param.name → acc'.get? n = acc.get? n) ∧
      (∀ p ∈ pre, p.kind = .varPos ∧ (acc'.get? p.name = none ∨ ∃ l, acc'.get? p.name = some (.tup l)) ∨
        (p.kind = .posOnly ∨ p.kind = .posOrKw) ∧ ∃ a, acc'.get? p.name = some (.one a)) ∧
      (∀ p ∈ pre, p.kind = .posOrKw → K.get? p.name = none) ∧ valsOf acc' pre = args := by
  intro ps
  induction ps with
  | nil =>
    intro args acc acc' ps' _ _ h
    cases args with
    | nil =>
      simp only [bindPos, Except.ok.injEq, Prod.mk.injEq] at h
      obtain ⟨rfl, rfl⟩ := h
      exact ⟨[], rfl, by simp, by simp, by simp, rfl⟩
    | cons a as => simp [bindPos] at h
  | cons p ps ih =>
    intro args acc acc' ps' hv hacc h
    cases args with
    | nil =>
      rw [bindPos] at h
      by_cases hk : p.kind = .varPos
      · rw [if_pos hk] at h
        simp only [Except.ok.injEq, Prod.mk.injEq] at h
        obtain ⟨rfl, rfl⟩ := h
        refine ⟨[p], rfl, by simp, ?_, ?_, by rw [valsOf_cons, hacc p (by simp)]; rfl⟩
        · intro q hq
          rw [List.mem_singleton] at hq
          subst hq
          exact .inl ⟨hk, .inl (hacc q (by simp))⟩
        · intro q hq hqk
          rw [List.mem_singleton] at hq
          subst hq
          rw [hk] at hqk
          exact absurd hqk (by decide)
      · rw [if_neg hk] at h
        have : acc' = acc ∧ ps' = p :: ps := by
          split at h
          · split at h
            · exact absurd h (by simp)
            · simp only [Except.ok.injEq, Prod.mk.injEq] at h
              exact ⟨h.1.symm, h.2.symm⟩
          · split at h
            · simp only [Except.ok.injEq, Prod.mk.injEq] at h
              exact ⟨h.1.symm, h.2.symm⟩
            · exact absurd h (by simp)
        obtain ⟨rfl, rfl⟩ := this
        exact ⟨[], rfl, by simp, by simp, by simp, rfl⟩
    | cons a as =>
      rw [bindPos] at h
      by_cases h1 : p.kind = .varKw ∨ p.kind = .kwOnly
      · rw [if_pos h1] at h; exact absurd h (by simp)
      rw [if_neg h1] at h
      by_cases hk : p.kind = .varPos
      · rw [if_pos hk] at h
        simp only [Except.ok.injEq, Prod.mk.injEq] at h
        obtain ⟨rfl, rfl⟩ := h
        refine ⟨[p], rfl, ?_, ?_, ?_, by rw [valsOf_cons, PyDict.get?_set, if_pos rfl]; simp [valsOf]⟩
        · intro n hn
          rw [PyDict.get?_set, if_neg (by simpa using Ne.symm (by simpa using hn))]
        · intro q hq
          rw [List.mem_singleton] at hq
          subst hq
          exact .inl ⟨hk, .inr ⟨a :: as, by rw [PyDict.get?_set, if_pos rfl]⟩⟩
        · intro q hq hqk
          rw [List.mem_singleton] at hq
          subst hq
          rw [hk] at hqk
          exact absurd hqk (by decide)
      rw [if_neg hk] at h
      by_cases h2 : K.has p.name = true ∧ p.kind ≠ .posOnly
      · rw [if_pos h2] at h; exact absurd h (by simp)
      rw [if_neg h2] at h
      have hpk : p.kind = .posOnly ∨ p.kind = .posOrKw := by
        revert h1 hk
        cases p.kind <;> simp
      obtain ⟨pre, rfl, h4, h5, h6, h7⟩ := ih hv.tail
        (fun q hq => by rw [PyDict.get?_set, if_neg (Ne.symm (hv.ne hq))]; exact hacc q (by simp [hq])) h
      have hpp : p.name ∉ pre.map Param.name := by
        intro hc
        obtain ⟨r, hr, hrn⟩ := List.mem_map.mp hc
        exact hv.ne (List.mem_append_left _ hr) hrn
      refine ⟨p :: pre, rfl, ?_, ?_, ?_, by rw [valsOf_cons, h4 _ hpp, PyDict.get?_set, if_pos rfl, h7]; rfl⟩
      · intro n hn
        simp only [List.map_cons, List.mem_cons, not_or] at hn
        rw [h4 n hn.2, PyDict.get?_set, if_neg (Ne.symm hn.1)]
      · intro q hq
        rcases List.mem_cons.mp hq with rfl | hq
        · refine .inr ⟨hpk, a, ?_⟩
          have : q.name ∉ pre.map Param.name := by
            intro hc
            obtain ⟨r, hr, hrn⟩ := List.mem_map.mp hc
            exact hv.ne (List.mem_append_left _ hr) hrn
          rw [h4 _ this, PyDict.get?_set, if_pos rfl]
        · exact h5 q hq
      · intro q hq hqk
        rcases List.mem_cons.mp hq with rfl | hq
        · have : ¬ K.has q.name = true := by
            intro hc
            apply h2
            refine ⟨hc, ?_⟩
            rw [hqk]
            decide
          exact (has_false _ _).mp (by simpa using this)
        · exact h6 q hq hqk

/-- The second loop. -/
theorem bindKw_inv : ∀ {ps : Sig A} {K K' : PyDict String A} {acc acc' : Bound A} {vk vk' : Option String}, Valid ps →
    bindKw ps K acc vk = .ok (acc', K', vk') →
    (∀ n, n ∉ ps.map Param.name → acc'.get? n = acc.get? n) ∧
      (∀ p ∈ ps, p.kind = .varPos ∨ p.kind = .varKw → acc'.get? p.name = acc.get? p.name) ∧
      (∀ p ∈ ps, p.kind ≠ .varPos → p.kind ≠ .varKw → (K.get? p.name = none ∧ acc'.get? p.name = acc.get? p.name ∧ p.default.isSome = true) ∨
        (p.kind ≠ .posOnly ∧ ∃ a, K.get? p.name = some a ∧ acc'.get? p.name = some (.one a))) ∧
      K' = K.filter (fun x => x.1 ∉ kwNames ps) ∧
      ((vk' = vk ∧ ∀ p ∈ ps, p.kind ≠ .varKw) ∨ ∃ p ∈ ps, p.kind = .varKw ∧ vk' = some p.name) := by
  intro ps
  induction ps with
  | nil =>
    intro K K' acc acc' vk vk' _ h
    simp only [bindKw, Except.ok.injEq, Prod.mk.injEq] at h
    obtain ⟨rfl, rfl, rfl⟩ := h
    exact ⟨by simp, by simp, by simp, by simp [kwNames], .inl ⟨rfl, by simp⟩⟩
  | cons p ps ih =>
    intro K K' acc acc' vk vk' hv h
    rw [bindKw] at h
    have hpn : p.name ∉ ps.map Param.name := (List.nodup_cons.mp hv.names).1
    by_cases hk : p.kind = .varKw
    · rw [if_pos hk] at h
      have hnil := hv.varKw_last hk
      subst hnil
      simp only [bindKw, Except.ok.injEq, Prod.mk.injEq] at h
      obtain ⟨rfl, rfl, rfl⟩ := h
      refine ⟨by simp, by simp, ?_, by simp [kwNames, hk], .inr ⟨p, by simp, hk, rfl⟩⟩
      intro q hq _ h2
      rw [List.mem_singleton] at hq
      subst hq
      exact absurd hk h2
    rw [if_neg hk] at h
    by_cases hvp : p.kind = .varPos
    · rw [if_pos hvp] at h
      obtain ⟨h1, h2, h3, h4, h5⟩ := ih hv.tail h
      refine ⟨?_, ?_, ?_, ?_, ?_⟩
      · intro n hn
        simp only [List.map_cons, List.mem_cons, not_or] at hn
        exact h1 n hn.2
      · intro q hq hqk
        rcases List.mem_cons.mp hq with rfl | hq
        · exact h1 _ hpn
        · exact h2 q hq hqk
      · intro q hq hq1 hq2
        rcases List.mem_cons.mp hq with rfl | hq
        · exact absurd hvp hq1
        · exact h3 q hq hq1 hq2
      · rw [h4]; simp [kwNames, hvp]
      · rcases h5 with ⟨h5, h6⟩ | ⟨q, hq, h5⟩
        · exact .inl ⟨h5, by simpa [hk] using h6⟩
        · exact .inr ⟨q, by simp [hq], h5⟩
    rw [if_neg hvp] at h
    cases hKp : K.get? p.name with
    | none =>
      rw [hKp] at h
      simp only at h
      by_cases hd : p.default.isSome = true
      · rw [if_pos hd] at h
        obtain ⟨h1, h2, h3, h4, h5⟩ := ih hv.tail h
        refine ⟨?_, ?_, ?_, ?_, ?_⟩
        · intro n hn
          simp only [List.map_cons, List.mem_cons, not_or] at hn
          exact h1 n hn.2
        · intro q hq hqk
          rcases List.mem_cons.mp hq with rfl | hq
          · exact h1 _ hpn
          · exact h2 q hq hqk
        · intro q hq hq1 hq2
          rcases List.mem_cons.mp hq with rfl | hq
          · exact .inl ⟨hKp, h1 _ hpn, hd⟩
          · exact h3 q hq hq1 hq2
        · rw [h4]
          apply List.filter_congr
          intro x hx
          have : x.1 ≠ p.name := by
            intro e
            exact (PyDict.get?_eq_none_iff _ _).mp hKp (e ▸ List.mem_map_of_mem hx)
          have : x.1 ∈ kwNames (p :: ps) ↔ x.1 ∈ kwNames ps := by
            rw [mem_kwNames, mem_kwNames]
            constructor
            · rintro ⟨q, hq, h1, h2⟩
              rcases List.mem_cons.mp hq with rfl | hq
              · exact absurd h2.symm this
              · exact ⟨q, hq, h1, h2⟩
            · rintro ⟨q, hq, h1, h2⟩
              exact ⟨q, by simp [hq], h1, h2⟩
          simp [this]
        · rcases h5 with ⟨h5, h6⟩ | ⟨q, hq, h5⟩
          · exact .inl ⟨h5, by simpa [hk] using h6⟩
          · exact .inr ⟨q, by simp [hq], h5⟩
      · rw [if_neg hd] at h; exact absurd h (by simp)
    | some a =>
      rw [hKp] at h
      simp only at h
      by_cases hpo : p.kind = .posOnly
      · rw [if_pos hpo] at h; exact absurd h (by simp)
      rw [if_neg hpo] at h
      have hpk : p.kind = .posOrKw ∨ p.kind = .kwOnly := by
        revert hk hvp hpo
        cases p.kind <;> simp
      obtain ⟨h1, h2, h3, h4, h5⟩ := ih hv.tail h
      have hset : ∀ q ∈ ps, PyDict.get? (acc.set p.name (.one a)) q.name = acc.get? q.name := by
        intro q hq
        rw [PyDict.get?_set, if_neg (Ne.symm (hv.ne hq))]
      have hpop : ∀ q ∈ ps, (K.pop p.name).get? q.name = K.get? q.name := by
        intro q hq
        rw [PyDict.get?_pop, if_neg (Ne.symm (hv.ne hq))]
      refine ⟨?_, ?_, ?_, ?_, ?_⟩
      · intro n hn
        simp only [List.map_cons, List.mem_cons, not_or] at hn
        rw [h1 n hn.2, PyDict.get?_set, if_neg (Ne.symm hn.1)]
      · intro q hq hqk
        rcases List.mem_cons.mp hq with rfl | hq
        · rcases hqk with h | h
          · exact absurd h hvp
          · exact absurd h hk
        · rw [h2 q hq hqk, hset q hq]
      · intro q hq hq1 hq2
        rcases List.mem_cons.mp hq with rfl | hq
        · exact .inr ⟨hpo, a, hKp, by rw [h1 _ hpn, PyDict.get?_set, if_pos rfl]⟩
        · have := h3 q hq hq1 hq2
          rw [hset q hq, hpop q hq] at this
          exact this
      · rw [h4]
        have hnames : kwNames (p :: ps) = p.name :: kwNames ps := by simp [kwNames, hpk]
        unfold PyDict.pop
        rw [hnames, List.filter_filter]
        apply List.filter_congr
        intro x _
        simp [not_or, Bool.and_comm]
      · rcases h5 with ⟨h5, h6⟩ | ⟨q, hq, h5⟩
        · exact .inl ⟨h5, by simpa [hk] using h6⟩
        · exact .inr ⟨q, by simp [hq], h5⟩

/-- Bound arguments can be passed on (positional-only parameters with a default are a separate matter, see `C127_positional_only`). -/
theorem bind_good {sig : Sig A} {args : List A} {K : PyDict String A} {b : Bound A} (hv : Valid sig) (hK : K.keys.Nodup)
    (hpo : ∀ p ∈ sig, p.kind = .posOnly → p.default = none) (h : bind sig args K = .ok b) : Good b sig := by
  rw [bind_eq] at h
  cases h1 : bindPos K sig args [] with
  | error e => rw [h1] at h; exact absurd h (by intro h; cases h)
  | ok r =>
    obtain ⟨acc, suf⟩ := r
    rw [h1] at h
    have h' : (bindKw suf K acc none >>= finish) = .ok b := h
    obtain ⟨pre, rfl, hout, hpre, hnokw, -⟩ := bindPos_inv hv (by simp [PyDict.get?]) h1
    cases h2 : bindKw suf K acc none with
    | error e => rw [h2] at h'; exact absurd h' (by intro h; cases h)
    | ok s =>
      obtain ⟨acc', K', vk⟩ := s
      rw [h2] at h'
      have hfin : finish (acc', K', vk) = .ok b := h'
      have hvs : Valid suf := ⟨hv.names.sublist ((List.sublist_append_right pre suf).map _), hv.order.sublist (List.sublist_append_right pre suf)⟩
      obtain ⟨k1, k2, k3, k4, k5⟩ := bindKw_inv hvs h2
      have hdisj : ∀ p ∈ suf, p.name ∉ pre.map Param.name := by
        intro p hp hc
        have := hv.names
        rw [List.map_append, List.nodup_append] at this
        exact this.2.2 _ hc _ (List.mem_map_of_mem hp) rfl
      have hdisj' : ∀ p ∈ pre, p.name ∉ suf.map Param.name := by
        intro p hp hc
        obtain ⟨q, hq, hqn⟩ := List.mem_map.mp hc
        exact hdisj q hq (hqn ▸ List.mem_map_of_mem hp)
      have haccs : ∀ p ∈ suf, acc.get? p.name = none := fun p hp => by rw [hout _ (hdisj p hp)]; rfl
      -- the last step touches only the `**kwargs` parameter
      have hb : (∀ p ∈ pre ++ suf, p.kind ≠ .varKw → b.get? p.name = acc'.get? p.name) ∧
          (∀ p ∈ pre ++ suf, p.kind = .varKw → b.get? p.name = none ∨ b.get? p.name = some (.dict K')) := by
        have hvkname : ∀ p ∈ pre ++ suf, p.kind = .varKw → p ∈ suf := by
          intro p hp hk
          rcases List.mem_append.mp hp with hp | hp
          · rcases hpre p hp with ⟨h, -⟩ | ⟨h | h, -⟩ <;> rw [hk] at h <;> exact absurd h (by decide)
          · exact hp
        cases K' with
        | nil =>
          have : b = acc' := by
            cases vk <;> simpa [finish] using hfin.symm
          subst this
          refine ⟨fun _ _ _ => rfl, fun p hp hk => .inl ?_⟩
          have := hvkname p hp hk
          rw [k2 p this (.inr hk), haccs p this]
        | cons x d =>
          cases vk with
          | none => simp [finish] at hfin
          | some n =>
            have hbe : b = acc'.set n (.dict (x :: d)) := by simpa [finish] using hfin.symm
            rcases k5 with ⟨h, -⟩ | ⟨q, hq, hqk, hqn⟩
            · exact absurd h (by simp)
            · simp only [Option.some.injEq] at hqn
              subst hqn
              refine ⟨?_, ?_⟩
              · intro p hp hk
                rw [hbe, PyDict.get?_set, if_neg]
                intro hc
                have : q = p := List.inj_on_of_nodup_map hv.names (List.mem_append_right _ hq) hp hc
                exact hk (this ▸ hqk)
              · intro p hp hk
                rw [hbe, PyDict.get?_set]
                split
                · exact .inr rfl
                · have := hvkname p hp hk
                  exact .inl (by rw [k2 p this (.inr hk), haccs p this])
      obtain ⟨hb1, hb2⟩ := hb
      have hbpre : ∀ p ∈ pre, b.get? p.name = acc.get? p.name := by
        intro p hp
        have hk : p.kind ≠ .varKw := by
          intro hk
          rcases hpre p hp with ⟨h, -⟩ | ⟨h | h, -⟩ <;> rw [hk] at h <;> exact absurd h (by decide)
        rw [hb1 p (List.mem_append_left _ hp) hk, k1 _ (hdisj' p hp)]
      have hbsuf : ∀ p ∈ suf, p.kind ≠ .varPos → p.kind ≠ .varKw → (b.get? p.name = none ∧ p.default.isSome = true) ∨
          (p.kind ≠ .posOnly ∧ ∃ a, b.get? p.name = some (.one a)) := by
        intro p hp h1 h2
        rw [hb1 p (List.mem_append_right _ hp) h2]
        rcases k3 p hp h1 h2 with ⟨-, h3, h4⟩ | ⟨h3, a, -, h4⟩
        · exact .inl ⟨by rw [h3, haccs p hp], h4⟩
        · exact .inr ⟨h3, a, h4⟩
      have hbvp : ∀ p ∈ suf, p.kind = .varPos → b.get? p.name = none := by
        intro p hp hk
        rw [hb1 p (List.mem_append_right _ hp) (by rw [hk]; decide), k2 p hp (.inl hk), haccs p hp]
      refine ⟨?_, ?_, ?_, ?_, ?_⟩
      · intro p hp v hv'
        rcases List.mem_append.mp hp with hp' | hp'
        · rw [hbpre p hp'] at hv'
          rcases hpre p hp' with ⟨hk, h | ⟨l, h⟩⟩ | ⟨hk, a, h⟩
          · rw [h] at hv'; exact absurd hv' (by simp)
          · rw [h] at hv'; cases hv'; exact hk
          · rw [h] at hv'; cases hv'
            rcases hk with hk | hk <;> exact ⟨by rw [hk]; decide, by rw [hk]; decide⟩
        · by_cases h1 : p.kind = .varPos
          · rw [hbvp p hp' h1] at hv'; exact absurd hv' (by simp)
          by_cases h2 : p.kind = .varKw
          · rcases hb2 p hp h2 with h | h
            · rw [h] at hv'; exact absurd hv' (by simp)
            · rw [h] at hv'; cases hv'; exact h2
          rcases hbsuf p hp' h1 h2 with ⟨h, -⟩ | ⟨-, a, h⟩
          · rw [h] at hv'; exact absurd hv' (by simp)
          · rw [h] at hv'; cases hv'; exact ⟨h1, h2⟩
      · intro p hp hk
        rcases List.mem_append.mp hp with hp' | hp'
        · rw [hbpre p hp']
          rcases hpre p hp' with ⟨h, -⟩ | ⟨-, a, h⟩
          · rw [hk] at h; exact absurd h (by decide)
          · rw [h]; simp
        · rcases hbsuf p hp' (by rw [hk]; decide) (by rw [hk]; decide) with ⟨-, h⟩ | ⟨h, -⟩
          · rw [hpo p hp hk] at h; exact absurd h (by simp)
          · exact absurd hk h
      · intro p hp hk hbp q hq hqr
        have hp' : p ∈ pre := by
          rcases List.mem_append.mp hp with hp' | hp'
          · exact hp'
          · exact absurd (hbvp p hp' hk) hbp
        have hq' : q ∈ pre := by
          rcases List.mem_append.mp hq with hq' | hq'
          · exact hq'
          · have := (List.pairwise_append.mp hv.order).2.2 p hp' q hq'
            rw [hk] at this
            have h2 : Kind.varPos.rank = 2 := rfl
            rw [h2] at this
            omega
        rw [hbpre q hq']
        rcases hpre q hq' with ⟨h, -⟩ | ⟨-, a, h⟩
        · rw [h] at hqr; exact absurd hqr (by decide)
        · rw [h]; simp
      · intro p hp hb0
        by_cases h1 : p.kind = .varPos
        · simp [Param.dfl, h1]
        by_cases h2 : p.kind = .varKw
        · simp [Param.dfl, h2]
        rcases List.mem_append.mp hp with hp' | hp'
        · rw [hbpre p hp'] at hb0
          rcases hpre p hp' with ⟨h, -⟩ | ⟨-, a, h⟩
          · exact absurd h h1
          · rw [h] at hb0; exact absurd hb0 (by simp)
        · rcases hbsuf p hp' h1 h2 with ⟨-, h⟩ | ⟨-, a, h⟩
          · unfold Param.dfl
            cases hd : p.default with
            | none => rw [hd] at h; exact absurd h (by simp)
            | some a => revert h1 h2; cases p.kind <;> simp
          · rw [h] at hb0; exact absurd hb0 (by simp)
      · intro p hp d hd
        have hk : p.kind = .varKw := by
          by_contra hk
          rcases List.mem_append.mp hp with hp' | hp'
          · rw [hbpre p hp'] at hd
            rcases hpre p hp' with ⟨_, h | ⟨l, h⟩⟩ | ⟨_, a, h⟩ <;> rw [h] at hd <;> simp at hd
          · by_cases h1 : p.kind = .varPos
            · rw [hbvp p hp' h1] at hd; exact absurd hd (by simp)
            · rcases hbsuf p hp' h1 hk with ⟨h, -⟩ | ⟨-, a, h⟩ <;> rw [h] at hd <;> simp at hd
        have hd' : d = K' := by
          rcases hb2 p hp hk with h | h
          · rw [h] at hd; exact absurd hd (by simp)
          · rw [h] at hd; simpa using hd.symm
        subst hd'
        refine ⟨?_, ?_⟩
        · rw [k4]
          exact hK.sublist (List.filter_sublist.map _)
        · intro q hq hqk hc
          obtain ⟨x, hx, hxn⟩ := List.mem_map.mp hc
          rw [k4] at hx
          rw [List.mem_filter] at hx
          rcases List.mem_append.mp hq with hq' | hq'
          · have hqk' : q.kind = .posOrKw := by
              rcases hqk with h | h
              · exact h
              · rcases hpre q hq' with ⟨h', -⟩ | ⟨h' | h', -⟩ <;> rw [h] at h' <;> exact absurd h' (by decide)
            have := hnokw q hq' hqk'
            rw [PyDict.get?_eq_none_iff] at this
            exact this (hxn ▸ List.mem_map_of_mem hx.1)
          · have : x.1 ∈ kwNames suf := mem_kwNames.mpr ⟨q, hq', hqk, hxn.symm⟩
            simp [this] at hx

end Verif.Quant.Bind

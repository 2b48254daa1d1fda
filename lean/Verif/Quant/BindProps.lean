import Verif.Quant.BindLemmas
import Verif.Quant.Props

/-! # C127: what the torch function receives from `TensorQuantity.__torch_function__` -/

namespace Verif.Quant.Bind

open Verif.Units (SetOrder)

variable {A : Type}

/-! ### Specification -/

/-- `n` has the structure of `o`: a single argument, a tuple of the same length, a dict with the same keys in the same order. -/
def Like : Val A → Val A → Prop
  | .one _, .one _ => True
  | .tup l, .tup l' => l.length = l'.length
  | .dict d, .dict d' => d.keys = d'.keys
  | _, _ => False

/-- Python's calling convention for a signature of ordinary and keyword-only parameters: `vs` are the values of the parameters `ps` when the remaining
positional arguments are `as` and the keyword arguments are `K`. -/
def PlainCall (K : PyDict String A) : Sig A → List A → List A → Prop
  | [], [], [] => True
  -- a positional argument goes to the next parameter, which must not be keyword-only nor be given again by name
  | p :: ps, a :: as, v :: vs => p.kind = .posOrKw ∧ K.get? p.name = none ∧ v = a ∧ PlainCall K ps as vs
  -- after them come the keyword of that name or the default
  | p :: ps, [], v :: vs => (K.get? p.name).or p.default = some v ∧ PlainCall K ps [] vs
  | _, _, _ => False

/-! ### The rewriting of the arguments -/

theorem withDefaults_forall {b : Bound A} : ∀ {ps : Sig A} {vals : List (Val A)}, withDefaults ps b = some vals ↔
    List.Forall₂ (fun p v => (b.get? p.name).or p.dfl = some v) ps vals := by
  intro ps
  induction ps with
  | nil =>
    intro vals
    cases vals with
    | nil => simp [withDefaults]
    | cons v vals => simp [withDefaults, List.mapM_nil]
  | cons p ps ih =>
    intro vals
    unfold withDefaults at ih ⊢
    rw [List.mapM_cons]
    cases h : (b.get? p.name).or p.dfl with
    | none =>
      constructor
      · intro h'; exact absurd h' (by simp)
      · intro h'
        cases h' with
        | cons h1 _ => rw [h] at h1; exact absurd h1 (by simp)
    | some w =>
      cases vals with
      | nil =>
        simp only [List.forall₂_nil_right_iff, reduceCtorEq, iff_false]
        intro h'
        cases hm : List.mapM (fun p => (b.get? p.name).or p.dfl) ps with
        | none => rw [hm] at h'; simp at h'
        | some l => rw [hm] at h'; simp at h'
      | cons v vals =>
        rw [List.forall₂_cons, ← ih, h]
        cases hm : List.mapM (fun p => (b.get? p.name).or p.dfl) ps with
        | none => simp
        | some l => simp

theorem forall₂_mem {α β : Type} {R S : α → β → Prop} : ∀ {l : List α} {l' : List β}, List.Forall₂ R l l' → (∀ a ∈ l, ∀ c, R a c → S a c) →
    List.Forall₂ S l l' := by
  intro l l' h
  induction h with
  | nil => exact fun _ => .nil
  | cons h _ ih => exact fun hm => .cons (hm _ (by simp) _ h) (ih fun a ha => hm a (by simp [ha]))

theorem received_cases (sig : Sig A) (args : List A) (kw : PyDict String A) :
    (∃ e, bind sig args kw = .error e ∧ received sig args kw = .error e) ∨
    (∃ b, bind sig args kw = .ok b ∧ withDefaults sig b = none ∧ received sig args kw = .error .typeError) ∨
    ∃ b vals, bind sig args kw = .ok b ∧ withDefaults sig b = some vals ∧ received sig args kw = .ok vals := by
  unfold received
  cases hb : bind sig args kw with
  | error e => exact .inl ⟨e, rfl, rfl⟩
  | ok b =>
    right
    simp only [_root_.Bind.bind, Except.bind]
    cases hw : withDefaults sig b with
    | none => exact .inl ⟨b, rfl, hw, rfl⟩
    | some l => exact .inr ⟨b, l, rfl, hw, rfl⟩

theorem forall₂_append {α β : Type} {R : α → β → Prop} {l m : List α} {l' m' : List β} (h : List.Forall₂ R l l') (h' : List.Forall₂ R m m') :
    List.Forall₂ R (l ++ m) (l' ++ m') := by
  induction h with
  | nil => exact h'
  | cons h _ ih => exact .cons h ih

theorem forall₂_left {α β : Type} {R : α → β → Prop} {l : List α} {l' : List β} (h : List.Forall₂ R l l') : ∀ a ∈ l, ∃ c, R a c := by
  induction h with
  | nil => simp
  | cons h _ ih =>
    intro a ha
    rcases List.mem_cons.mp ha with rfl | ha
    · exact ⟨_, h⟩
    · exact ih a ha

theorem rewrite_out {same : Val A → Val A → Bool} : ∀ {ps : Sig A} {os ns : List (Val A)} {b : Bound A} {n : String}, n ∉ ps.map Param.name →
    (rewrite same ps os ns b).get? n = b.get? n := by
  intro ps
  induction ps with
  | nil => intros; simp [rewrite]
  | cons p ps ih =>
    intro os ns b n hn
    simp only [List.map_cons, List.mem_cons, not_or] at hn
    cases os with
    | nil => simp [rewrite]
    | cons o os =>
      cases ns with
      | nil => simp [rewrite]
      | cons v ns =>
        rw [rewrite, ih hn.2]
        split
        · rw [PyDict.get?_set, if_neg (Ne.symm hn.1)]
        · rfl

/-- The values after the loop: those of the dimension spec, then the old ones. -/
theorem rewrite_vals {same : Val A → Val A → Bool} (hs : ∀ o n, same o n = true → o = n) : ∀ {ps : Sig A} {os ns : List (Val A)} {b b₀ : Bound A}, Valid ps →
    (∀ p ∈ ps, b.get? p.name = b₀.get? p.name) → List.Forall₂ (fun p v => (b₀.get? p.name).or p.dfl = some v) ps os →
    List.Forall₂ (fun p v => ((rewrite same ps os ns b).get? p.name).or p.dfl = some v) ps (ns.take os.length ++ os.drop ns.length) ∧
    ∀ p ∈ ps, (rewrite same ps os ns b).get? p.name = b₀.get? p.name ∨ ∃ o n, (o, n) ∈ os.zip ns ∧ (b₀.get? p.name).or p.dfl = some o ∧
      (rewrite same ps os ns b).get? p.name = some n ∧ (b₀.get? p.name ≠ none ∨ same o n = false) := by
  intro ps
  induction ps with
  | nil =>
    intro os ns b b₀ _ _ h
    cases h
    exact ⟨by simp, by simp⟩
  | cons p ps ih =>
    intro os ns b b₀ hv hb h
    cases h with
    | cons h1 h2 =>
    rename_i o os
    cases ns with
    | nil =>
      simp only [rewrite, List.take_nil, List.length_nil, List.drop_zero, List.nil_append]
      refine ⟨List.Forall₂.cons (by rw [hb p (by simp)]; exact h1) ?_, fun q hq => .inl (hb q hq)⟩
      exact forall₂_mem h2 fun q hq v hqv => by rw [hb q (by simp [hq])]; exact hqv
    | cons n ns =>
      rw [rewrite]
      set b1 := if b.has p.name || !same o n then b.set p.name n else b with hb1
      have hb1q : ∀ q ∈ ps, b1.get? q.name = b₀.get? q.name := by
        intro q hq
        rw [hb1]
        split
        · rw [PyDict.get?_set, if_neg (Ne.symm (hv.ne hq))]; exact hb q (by simp [hq])
        · exact hb q (by simp [hq])
      obtain ⟨i1, i2⟩ := ih (ns := ns) hv.tail hb1q h2
      have hout : (rewrite same ps os ns b1).get? p.name = b1.get? p.name := rewrite_out (List.nodup_cons.mp hv.names).1
      have hp : b1.get? p.name = some n ∧ (b₀.get? p.name ≠ none ∨ same o n = false) ∨ b1.get? p.name = none ∧ b₀.get? p.name = none ∧ same o n = true := by
        rw [hb1]
        have hbp := hb p (by simp)
        by_cases hc : b.has p.name = true
        · left
          simp only [hc, Bool.true_or, if_true, PyDict.get?_set, true_and]
          left
          rw [← hbp]
          exact (has_true _ _).mp hc
        · have hc' : b.has p.name = false := by simpa using hc
          have hbn := (has_false _ _).mp hc'
          cases hsm : same o n with
          | true =>
            right
            simp only [hc', Bool.not_true, Bool.or_self, Bool.false_eq_true, if_false]
            exact ⟨hbn, by rw [← hbp]; exact hbn, trivial⟩
          | false =>
            left
            simp only [hc', Bool.not_false, Bool.or_true, if_true, PyDict.get?_set, true_and]
            right
            trivial
      refine ⟨?_, ?_⟩
      · simp only [List.length_cons, List.take_succ_cons, List.drop_succ_cons, List.cons_append]
        refine List.Forall₂.cons ?_ i1
        rw [hout]
        rcases hp with ⟨h, -⟩ | ⟨h, h', hsm⟩
        · rw [h]; rfl
        · rw [h, Option.none_or]
          rw [h', Option.none_or] at h1
          rw [h1, hs _ _ hsm]
      · intro q hq
        rcases List.mem_cons.mp hq with rfl | hq
        · rw [hout]
          rcases hp with ⟨h, h'⟩ | ⟨h, h', -⟩
          · exact .inr ⟨o, n, by simp, h1, h, h'⟩
          · exact .inl (by rw [h, h'])
        · rcases i2 q hq with h | ⟨o', n', hm, h⟩
          · exact .inl h
          · exact .inr ⟨o', n', by simp [hm], h⟩

/-- After the loop the arguments can still be passed on. -/
theorem rewrite_good {same : Val A → Val A → Bool} {sig : Sig A} {b : Bound A} {os ns : List (Val A)} (hs : ∀ o n, same o n = true → o = n)
    (hunit : same (.tup []) (.tup []) = true) (hlike : ∀ on ∈ os.zip ns, Like on.1 on.2) (hv : Valid sig) (hg : Good b sig)
    (ho : withDefaults sig b = some os) : Good (rewrite same sig os ns b) sig := by
  obtain ⟨-, h2⟩ := rewrite_vals (ns := ns) hs hv (fun p _ => rfl) (withDefaults_forall.mp ho)
  set b' := rewrite same sig os ns b
  have hkeep : ∀ p ∈ sig, b'.get? p.name = none → b.get? p.name = none := by
    intro p hp h
    rcases h2 p hp with h' | ⟨o, n, -, -, h', -⟩
    · rw [← h', h]
    · rw [h'] at h; exact absurd h (by simp)
  have hshape : ∀ p ∈ sig, ∀ o, (b.get? p.name).or p.dfl = some o → Shape p o := by
    intro p hp o hpo
    cases hb : b.get? p.name with
    | some v => rw [hb] at hpo; cases hpo; exact hg.shape p hp _ hb
    | none =>
      rw [hb, Option.none_or] at hpo
      unfold Param.dfl at hpo
      cases hk : p.kind <;> rw [hk] at hpo <;> simp only [Option.some.injEq, Option.map_eq_some_iff] at hpo
      · obtain ⟨a, -, rfl⟩ := hpo; exact ⟨by rw [hk]; decide, by rw [hk]; decide⟩
      · obtain ⟨a, -, rfl⟩ := hpo; exact ⟨by rw [hk]; decide, by rw [hk]; decide⟩
      · subst hpo; exact hk
      · obtain ⟨a, -, rfl⟩ := hpo; exact ⟨by rw [hk]; decide, by rw [hk]; decide⟩
      · subst hpo; exact hk
  refine ⟨?_, ?_, ?_, ?_, ?_⟩
  · intro p hp v hpv
    rcases h2 p hp with h' | ⟨o, n, hm, h', h'', -⟩
    · rw [h'] at hpv; exact hg.shape p hp v hpv
    · rw [h''] at hpv
      cases hpv
      have h1 := hshape p hp o h'
      have h3 := hlike _ hm
      cases o <;> cases v <;> simp only [Like] at h3 <;> first | exact h1 | exact h3.elim
  · intro p hp hk h
    exact hg.posOnly p hp hk (hkeep p hp h)
  · intro p hp hk hbp q hq hqr h
    refine hg.varPos p hp hk ?_ q hq hqr (hkeep q hq h)
    intro hb
    rcases h2 p hp with h' | ⟨o, n, hm, h', h'', h3⟩
    · rw [h', hb] at hbp; exact hbp rfl
    · rw [hb, Option.none_or] at h'
      have hdfl : p.dfl = some (.tup []) := by simp [Param.dfl, hk]
      rw [hdfl] at h'
      cases h'
      have h4 := hlike _ hm
      cases n <;> simp only [Like] at h4
      rename_i l
      have : l = [] := List.eq_nil_of_length_eq_zero h4.symm
      subst this
      rcases h3 with h3 | h3
      · exact h3 hb
      · rw [hunit] at h3; exact absurd h3 (by simp)
  · intro p hp h
    exact hg.required p hp (hkeep p hp h)
  · intro p hp d hd
    rcases h2 p hp with h' | ⟨o, n, hm, h', h'', -⟩
    · rw [h'] at hd; exact hg.dict p hp d hd
    · rw [h''] at hd
      cases hd
      have h4 := hlike _ hm
      cases o <;> simp only [Like] at h4
      rename_i e
      rw [← h4]
      cases hb : b.get? p.name with
      | some v => rw [hb] at h'; cases h'; exact hg.dict p hp e hb
      | none =>
        rw [hb, Option.none_or] at h'
        have : e = [] := by
          unfold Param.dfl at h'
          cases hk : p.kind <;> rw [hk] at h' <;> simp at h' <;> first | exact h' | exact h'.symm
        subst this
        exact ⟨by simp [PyDict.keys], by simp [PyDict.keys]⟩

/-- **C127** (what the function receives). The call of the torch function made for quantity arguments: whichever arguments are passed by position, by
name or left to their defaults, the torch function receives, parameter by parameter, what the dimension spec made of the complete list of arguments
(and unchanged arguments for the parameters the spec says nothing about: the power spec returns two values only). -/
theorem C127_kernel_sees {R P : Type} {same : Val A → Val A → Bool} {sig : Sig A} {spec : List (Val A) → Except Err (List (Val A) × P)}
    {args : List A} {kw : PyDict String A} {old new : List (Val A)} {post : P}
    (hv : Valid sig) (hkw : kw.keys.Nodup) (hpo : ∀ p ∈ sig, p.kind = .posOnly → p.default = none)
    (hs : ∀ o n, same o n = true → o = n) (hunit : same (.tup []) (.tup []) = true)
    (hold : received sig args kw = .ok old) (hspec : spec old = .ok (new, post)) (hlike : ∀ on ∈ old.zip new, Like on.1 on.2) :
    ∃ args' kw', received sig args' kw' = .ok (new.take old.length ++ old.drop new.length) ∧
      ∀ F : List A → PyDict String A → Except Err R, dispatch same sig spec F args kw = (F args' kw').map fun r => (r, post) := by
  unfold received at hold
  cases hb : bind sig args kw with
  | error e => rw [hb] at hold; exact absurd hold (by intro h; cases h)
  | ok b =>
    have hold' : (match withDefaults sig b with | some vals => Except.ok vals | none => Except.error Err.typeError) = Except.ok old := by
      rw [hb] at hold; exact hold
    have ho : withDefaults sig b = some old := by
      cases hw : withDefaults sig b with
      | none => rw [hw] at hold'; exact absurd hold' (by simp)
      | some l => rw [hw] at hold'; simpa using hold'
    have hg := bind_good hv hkw hpo hb
    have hg' := rewrite_good hs hunit hlike hv hg ho
    obtain ⟨K, h1, vals, h2, h3⟩ := received_roundtrip hv hg'
    have h4 := (rewrite_vals (ns := new) hs hv (fun p _ => rfl) (withDefaults_forall.mp ho)).1
    have hvals : vals = new.take old.length ++ old.drop new.length := by
      have := withDefaults_forall.mpr h4
      rw [h2] at this
      simpa using this
    subst hvals
    refine ⟨_, K, h3, ?_⟩
    intro F
    unfold dispatch
    rw [hb]
    simp only [_root_.Bind.bind, Except.bind]
    rw [ho]
    simp only [hspec, h1, pure, Except.pure]
    cases F (argsOf (rewrite same sig old new b) sig) K <;> rfl

/-! ### Ordinary signatures -/

/-- Only ordinary and keyword-only parameters. -/
def Plain (sig : Sig A) : Prop := ∀ p ∈ sig, p.kind = .posOrKw ∨ p.kind = .kwOnly

theorem Plain.dfl {sig : Sig A} (h : Plain sig) {p : Param A} (hp : p ∈ sig) : p.dfl = p.default.map Val.one := by
  unfold Param.dfl
  rcases h p hp with hk | hk <;> rw [hk]

/-- **C127** (calling convention). For ordinary signatures `received` is Python's calling convention as one would write it down. -/
theorem C127_received {sig : Sig A} (hv : Valid sig) (hp : Plain sig) (args : List A) (K : PyDict String A) (vals : List (Val A)) :
    received sig args K = .ok vals ↔ ∃ vs, vals = vs.map Val.one ∧ PlainCall K sig args vs ∧ ∀ k ∈ K.keys, k ∈ sig.map Param.name := by
  constructor
  · intro h
    unfold received at h
    cases hb : bind sig args K with
    | error e => rw [hb] at h; exact absurd h (by intro h; cases h)
    | ok b =>
      have ho : withDefaults sig b = some vals := by
        have hold' : (match withDefaults sig b with | some vals => Except.ok vals | none => Except.error Err.typeError) = Except.ok vals := by
          rw [hb] at h; exact h
        cases hw : withDefaults sig b with
        | none => rw [hw] at hold'; exact absurd hold' (by simp)
        | some l => rw [hw] at hold'; simpa using hold'
      have ho' := withDefaults_forall.mp ho
      rw [bind_eq] at hb
      cases h1 : bindPos K sig args [] with
      | error e => rw [h1] at hb; exact absurd hb (by intro h; cases h)
      | ok r =>
        obtain ⟨acc, suf⟩ := r
        rw [h1] at hb
        have hb' : (bindKw suf K acc none >>= finish) = .ok b := hb
        obtain ⟨pre, rfl, hout, hpre, hnokw, hargs⟩ := bindPos_inv hv (by simp [PyDict.get?]) h1
        cases h2 : bindKw suf K acc none with
        | error e => rw [h2] at hb'; exact absurd hb' (by intro h; cases h)
        | ok s =>
          obtain ⟨acc', K', vk⟩ := s
          rw [h2] at hb'
          have hfin : finish (acc', K', vk) = .ok b := hb'
          have hvs : Valid suf := ⟨hv.names.sublist ((List.sublist_append_right pre suf).map _), hv.order.sublist (List.sublist_append_right pre suf)⟩
          obtain ⟨k1, k2, k3, k4, k5⟩ := bindKw_inv hvs h2
          have hvk : vk = none := by
            rcases k5 with ⟨h, -⟩ | ⟨p, hp', hk, -⟩
            · exact h
            · rcases hp p (List.mem_append_right _ hp') with h | h <;> rw [h] at hk <;> exact absurd hk (by decide)
          subst hvk
          have hK' : K' = [] ∧ b = acc' := by
            cases K' with
            | nil => exact ⟨rfl, by simpa [finish] using hfin.symm⟩
            | cons x d => simp [finish] at hfin
          obtain ⟨rfl, rfl⟩ := hK'
          have hdisj : ∀ p ∈ suf, p.name ∉ pre.map Param.name := by
            intro p hp hc
            have := hv.names
            rw [List.map_append, List.nodup_append] at this
            exact this.2.2 _ hc _ (List.mem_map_of_mem hp) rfl
          have hkeys : ∀ k ∈ K.keys, k ∈ (pre ++ suf).map Param.name := by
            intro k hk
            obtain ⟨x, hx, rfl⟩ := List.mem_map.mp hk
            by_contra hc
            have : x ∈ K.filter (fun x => x.1 ∉ kwNames suf) := by
              rw [List.mem_filter]
              refine ⟨hx, ?_⟩
              have : x.1 ∉ kwNames suf := by
                intro hc'
                obtain ⟨p, hp', -, hn⟩ := mem_kwNames.mp hc'
                exact hc (hn ▸ List.mem_map_of_mem (List.mem_append_right _ hp'))
              simpa using this
            rw [← k4] at this
            exact absurd this (by simp)
          -- the keyword part
          have hsuf : ∀ p ∈ suf, b.get? p.name = (K.get? p.name).map Val.one := by
            intro p hp'
            have hpk := hp p (List.mem_append_right _ hp')
            rcases k3 p hp' (by rcases hpk with h | h <;> rw [h] <;> decide) (by rcases hpk with h | h <;> rw [h] <;> decide) with ⟨h3, h4, -⟩ | ⟨-, a, h3, h4⟩
            · rw [h3, h4, hout _ (hdisj p hp')]; rfl
            · rw [h3, h4]; rfl
          have hbpre : ∀ p ∈ pre, b.get? p.name = acc.get? p.name := by
            intro p hp'
            apply k1
            intro hc
            obtain ⟨q, hq, hqn⟩ := List.mem_map.mp hc
            exact hdisj q hq (hqn ▸ List.mem_map_of_mem hp')
          have main : ∀ (pre : Sig A) (args : List A) (vals : List (Val A)), (∀ p ∈ pre, ∃ a, b.get? p.name = some (.one a)) →
              (∀ p ∈ pre, p.kind = .posOrKw ∧ K.get? p.name = none) → valsOf b pre = args → Plain (pre ++ suf) →
              List.Forall₂ (fun p v => (b.get? p.name).or p.dfl = some v) (pre ++ suf) vals → ∃ vs, vals = vs.map Val.one ∧ PlainCall K (pre ++ suf) args vs := by
            intro pre
            induction pre with
            | nil =>
              intro args vals _ _ ha hpl hf
              have : args = [] := by rw [← ha]; rfl
              subst this
              rw [List.nil_append] at hf hpl ⊢
              have : ∀ (suf : Sig A) (vals : List (Val A)), (∀ p ∈ suf, b.get? p.name = (K.get? p.name).map Val.one) → Plain suf →
                  List.Forall₂ (fun p v => (b.get? p.name).or p.dfl = some v) suf vals → ∃ vs, vals = vs.map Val.one ∧ PlainCall K suf [] vs := by
                intro suf
                induction suf with
                | nil => intro vals _ _ hf; cases hf; exact ⟨[], rfl, trivial⟩
                | cons p ps ih =>
                  intro vals hb hpl hf
                  cases hf with
                  | cons h1 h2 =>
                  obtain ⟨vs, rfl, h3⟩ := ih _ (fun q hq => hb q (by simp [hq])) (fun q hq => hpl q (by simp [hq])) h2
                  rw [hb p (by simp), hpl.dfl (by simp)] at h1
                  cases hK : K.get? p.name with
                  | some a =>
                    rw [hK] at h1
                    cases h1
                    exact ⟨a :: vs, rfl, by simp [hK], h3⟩
                  | none =>
                    rw [hK] at h1
                    cases hd : p.default with
                    | none => rw [hd] at h1; exact absurd h1 (by simp)
                    | some a =>
                      rw [hd] at h1
                      cases h1
                      exact ⟨a :: vs, rfl, by simp [hK, hd], h3⟩
              exact this suf vals hsuf hpl hf
            | cons p ps ih =>
              intro args vals h1 h2 ha hpl hf
              obtain ⟨a, hpa⟩ := h1 p (by simp)
              rw [valsOf_cons, hpa] at ha
              rw [List.cons_append] at hf
              cases hf with
              | cons h3 h4 =>
              obtain ⟨vs, rfl, h5⟩ := ih (valsOf b ps) _ (fun q hq => h1 q (by simp [hq])) (fun q hq => h2 q (by simp [hq])) rfl
                (fun q hq => hpl q (by simp only [List.cons_append, List.mem_cons]; exact .inr hq)) h4
              rw [hpa] at h3
              cases h3
              subst ha
              exact ⟨a :: vs, rfl, (h2 p (by simp)).1, (h2 p (by simp)).2, rfl, h5⟩
          have hposkw : ∀ p ∈ pre, p.kind = .posOrKw ∧ ∃ a, acc.get? p.name = some (.one a) := by
            intro p hp'
            rcases hpre p hp' with ⟨hk, -⟩ | ⟨hk, h⟩
            · rcases hp p (List.mem_append_left _ hp') with h | h <;> rw [h] at hk <;> exact absurd hk (by decide)
            · refine ⟨?_, h⟩
              rcases hp p (List.mem_append_left _ hp') with h | h
              · exact h
              · rcases hk with hk | hk <;> rw [h] at hk <;> exact absurd hk (by decide)
          have hvals : valsOf b pre = args := by
            rw [← hargs]
            unfold valsOf
            rw [List.flatMap_def, List.flatMap_def]
            congr 1
            apply List.map_congr_left
            intro p hp'
            rw [hbpre p hp']
          obtain ⟨vs, h5, h6⟩ := main pre args vals (fun p hp' => by rw [hbpre p hp']; exact (hposkw p hp').2)
            (fun p hp' => ⟨(hposkw p hp').1, hnokw p hp' (hposkw p hp').1⟩) hvals hp ho'
          exact ⟨vs, h5, h6, hkeys⟩
  · rintro ⟨vs, rfl, hc, hk⟩
    -- the dict of the arguments that are passed
    have hsplit : ∀ (sig : Sig A) (args vs : List A), Valid sig → PlainCall K sig args vs →
        ∃ pre suf, sig = pre ++ suf ∧ pre.length = args.length ∧ (∀ p ∈ pre, p.kind = .posOrKw ∧ K.get? p.name = none) ∧
          PlainCall K suf [] (vs.drop args.length) ∧ vs.take args.length = args := by
      intro sig
      induction sig with
      | nil =>
        intro args vs _ h
        cases args <;> cases vs <;> simp only [PlainCall] at h
        exact ⟨[], [], rfl, rfl, by simp, trivial, rfl⟩
      | cons p ps ih =>
        intro args vs hv h
        cases args with
        | nil => exact ⟨[], p :: ps, rfl, rfl, by simp, by simpa using h, by simp⟩
        | cons a as =>
          cases vs with
          | nil => simp only [PlainCall] at h
          | cons v vs =>
            simp only [PlainCall] at h
            obtain ⟨h1, h2, rfl, h3⟩ := h
            obtain ⟨pre, suf, rfl, h4, h5, h6, h7⟩ := ih as vs hv.tail h3
            refine ⟨p :: pre, suf, rfl, by simp [h4], ?_, by simpa using h6, by simp [h7]⟩
            intro q hq
            rcases List.mem_cons.mp hq with rfl | hq
            · exact ⟨h1, h2⟩
            · exact h5 q hq
    obtain ⟨pre, suf, rfl, hlen, hpre, hcs, htake⟩ := hsplit sig args vs hv hc
    have hdisj : ∀ p ∈ suf, p.name ∉ pre.map Param.name := by
      intro p hp hc
      have := hv.names
      rw [List.map_append, List.nodup_append] at this
      exact this.2.2 _ hc _ (List.mem_map_of_mem hp) rfl
    set b : Bound A := (List.zipWith (fun (p : Param A) a => (p.name, Val.one a)) pre args) ++ lift K with hb
    have hzip : ∀ (pre : Sig A) (args : List A), (pre.map Param.name).Nodup → pre.length = args.length →
        List.Forall₂ (fun p a => PyDict.get? (List.zipWith (fun (p : Param A) a => (p.name, Val.one a)) pre args) p.name = some (.one a)) pre args := by
      intro pre
      induction pre with
      | nil => intro args _ h; cases args with
        | nil => exact .nil
        | cons a as => exact absurd h (by simp)
      | cons p ps ih =>
        intro args hn h
        cases args with
        | nil => exact absurd h (by simp)
        | cons a as =>
          simp only [List.map_cons, List.nodup_cons] at hn
          refine .cons (by simp [PyDict.get?]) ?_
          refine forall₂_mem (ih as hn.2 (by simpa using h)) ?_
          intro q hq c hqc
          have : p.name ≠ q.name := fun e => hn.1 (e ▸ List.mem_map_of_mem hq)
          simp only [List.zipWith_cons_cons, PyDict.get?, this, if_false]
          exact hqc
    have hn : (pre.map Param.name).Nodup := hv.names.sublist ((List.sublist_append_left pre suf).map _)
    have hpreval : List.Forall₂ (fun p a => b.get? p.name = some (.one a)) pre args := by
      refine (hzip pre args hn hlen).imp ?_
      intro p a h
      rw [hb, PyDict.get?_append, h]
      rfl
    have hlift : ∀ (K : PyDict String A) n, (lift K).get? n = (K.get? n).map Val.one := by
      intro K n
      induction K with
      | nil => rfl
      | cons x K ih =>
        show (PyDict.get? ((x.1, Val.one x.2) :: lift K) n) = _
        obtain ⟨k, a⟩ := x
        simp only [PyDict.get?]
        split
        · rfl
        · exact ih
    have hsufval : ∀ p ∈ suf, b.get? p.name = (K.get? p.name).map Val.one := by
      intro p hp'
      rw [hb, PyDict.get?_append, hlift]
      have : PyDict.get? (List.zipWith (fun (p : Param A) a => (p.name, Val.one a)) pre args) p.name = none := by
        rw [PyDict.get?_eq_none_iff]
        intro hc
        apply hdisj p hp'
        obtain ⟨x, hx, hxn⟩ := List.mem_map.mp hc
        rw [List.mem_iff_getElem] at hx
        obtain ⟨i, hi, hx⟩ := hx
        rw [List.getElem_zipWith] at hx
        rw [← hxn, ← hx]
        exact List.mem_map_of_mem (List.getElem_mem _)
      rw [this, Option.none_or]
    have hvalsOf : valsOf b pre = args := by
      have : ∀ (pre : Sig A) (args : List A), List.Forall₂ (fun p a => b.get? p.name = some (.one a)) pre args → valsOf b pre = args := by
        intro pre args h
        induction h with
        | nil => rfl
        | cons h _ ih => rw [valsOf_cons, h, ih]; rfl
      exact this pre args hpreval
    have hreq : ∀ (suf : Sig A) (vs : List A), PlainCall K suf [] vs → ∀ p ∈ suf, (K.get? p.name).or p.default ≠ none := by
      intro suf
      induction suf with
      | nil => intro _ _ p hp; exact absurd hp (by simp)
      | cons q qs ih =>
        intro vs h p hp
        cases vs with
        | nil => simp only [PlainCall] at h
        | cons v vs =>
          simp only [PlainCall] at h
          rcases List.mem_cons.mp hp with rfl | hp
          · rw [h.1]; simp
          · exact ih vs h.2 p hp
    have hP : Passes b pre suf K := by
      refine ⟨⟨?_, ?_, ?_, ?_⟩, ?_, ?_, ?_⟩
      · intro p hp'
        rcases hp p (List.mem_append_right _ hp') with h | h <;> rw [h] <;> simp
      · intro p hp' _
        exact (hsufval p hp').symm
      · intro p hp' h0
        have := hreq suf _ hcs p hp'
        rw [hsufval p hp'] at h0
        rw [hp.dfl (List.mem_append_right _ hp')]
        cases hK : K.get? p.name with
        | some a => rw [hK] at h0; exact absurd h0 (by simp)
        | none =>
          rw [hK, Option.none_or] at this
          simpa using this
      · right
        refine ⟨?_, ?_⟩
        · unfold surplus
          rw [List.filter_eq_nil_iff]
          intro x hx
          have h1 : x.1 ∈ K.keys := List.mem_map_of_mem hx
          have h2 := hk _ h1
          rw [List.map_append, List.mem_append] at h2
          rcases h2 with h2 | h2
          · obtain ⟨q, hq, hqn⟩ := List.mem_map.mp h2
            have := (hpre q hq).2
            rw [PyDict.get?_eq_none_iff, hqn] at this
            exact absurd h1 this
          · obtain ⟨q, hq, hqn⟩ := List.mem_map.mp h2
            have : x.1 ∈ kwNames suf := mem_kwNames.mpr ⟨q, hq, hp q (List.mem_append_right _ hq), hqn⟩
            simpa using this
        · intro v hv' hk'
          rcases hp v (List.mem_append_right _ hv') with h | h <;> rw [h] at hk' <;> exact absurd hk' (by decide)
      · intro p hp'
        refine ⟨by rw [(hpre p hp').1]; rfl, ?_⟩
        obtain ⟨a, ha⟩ := forall₂_left hpreval p hp'
        rw [ha]; simp
      · intro p hp' v hv'
        obtain ⟨a, ha⟩ := forall₂_left hpreval p hp'
        rw [ha] at hv'
        cases hv'
        rw [Shape, (hpre p hp').1]
        decide
      · intro p hp' _
        exact (hpre p hp').2
    obtain ⟨b', h1, h2⟩ := bind_pass hv hP
    rw [hvalsOf] at h1
    refine received_of_bind h1 h2 ?_
    rw [withDefaults_forall]
    have hvs : vs.map Val.one = args.map Val.one ++ (vs.drop args.length).map Val.one := by
      rw [← List.map_append]
      congr 1
      conv_lhs => rw [← List.take_append_drop args.length vs, htake]
    rw [hvs]
    refine forall₂_append ?_ ?_
    · have : ∀ (pre : Sig A) (args : List A), List.Forall₂ (fun p a => b.get? p.name = some (.one a)) pre args →
          List.Forall₂ (fun p v => (b.get? p.name).or p.dfl = some v) pre (args.map Val.one) := by
        intro pre args h
        induction h with
        | nil => exact .nil
        | cons h _ ih => exact .cons (by rw [h]; rfl) ih
      exact this pre args hpreval
    · have : ∀ (suf : Sig A) (vs : List A), Plain suf → (∀ p ∈ suf, b.get? p.name = (K.get? p.name).map Val.one) → PlainCall K suf [] vs →
          List.Forall₂ (fun p v => (b.get? p.name).or p.dfl = some v) suf (vs.map Val.one) := by
        intro suf
        induction suf with
        | nil =>
          intro vs _ _ h
          cases vs with
          | nil => exact .nil
          | cons v vs => simp only [PlainCall] at h
        | cons q qs ih =>
          intro vs hpl hb h
          cases vs with
          | nil => simp only [PlainCall] at h
          | cons v vs =>
            simp only [PlainCall] at h
            refine .cons ?_ (ih vs (fun p hp => hpl p (by simp [hp])) (fun p hp => hb p (by simp [hp])) h.2)
            rw [hb q (by simp), hpl.dfl (by simp)]
            have := h.1
            cases hK : K.get? q.name with
            | some a => rw [hK] at this; simpa using this
            | none => rw [hK] at this; simpa using this
      exact this suf _ (fun p hp' => hp p (List.mem_append_right _ hp')) hsufval hcs

theorem perm_get? {d e : PyDict String A} (h : d.Perm e) (hd : d.keys.Nodup) (k : String) : d.get? k = e.get? k := by
  have he : e.keys.Nodup := (h.map Prod.fst).nodup_iff.mp hd
  cases hk : d.get? k with
  | none =>
    symm
    rw [PyDict.get?_eq_none_iff] at hk ⊢
    exact fun hc => hk ((h.map Prod.fst).mem_iff.mpr hc)
  | some v => exact (PyDict.get?_of_mem he (h.mem_iff.mp (PyDict.mem_of_get? hk))).symm

/-- Moving positional arguments to keywords. -/
theorem PlainCall.move {K : PyDict String A} : ∀ {ps : Sig A} {K' : PyDict String A} {as bs vs : List A}, Valid ps → PlainCall K ps (as ++ bs) vs →
    (∀ n, n ∉ ((ps.drop as.length).take bs.length).map Param.name → K'.get? n = K.get? n) →
    List.Forall₂ (fun p c => K'.get? (Param.name p) = some c) ((ps.drop as.length).take bs.length) bs → PlainCall K' ps as vs := by
  intro ps
  induction ps with
  | nil =>
    intro K' as bs vs _ h _ _
    cases as <;> cases bs <;> cases vs <;> simp_all [PlainCall]
  | cons p ps ih =>
    intro K' as bs vs hv h h1 h2
    cases vs with
    | nil => cases as <;> cases bs <;> simp [PlainCall] at h
    | cons v vs =>
      cases as with
      | nil =>
        cases bs with
        | nil =>
          simp only [List.nil_append, PlainCall] at h ⊢
          refine ⟨by rw [h1 _ (by simp)]; exact h.1, ?_⟩
          exact ih (as := []) (bs := []) hv.tail h.2 (fun n _ => h1 n (by simp)) (by simp)
        | cons c bs =>
          simp only [List.nil_append, PlainCall, List.length_nil, List.drop_zero, List.length_cons, List.take_succ_cons] at h h1 h2 ⊢
          cases h2 with
          | cons h3 h4 =>
          obtain ⟨-, h5, rfl, h6⟩ := h
          refine ⟨by rw [h3]; rfl, ?_⟩
          have hpn : p.name ∉ (ps.take bs.length).map Param.name := fun hc =>
            (List.nodup_cons.mp hv.names).1 (((List.take_sublist _ _).map _).subset hc)
          -- the keywords for the rest of the signature, without this one
          have key : ∀ {K K' L : PyDict String A} {ps : Sig A} {as vs : List A}, (∀ q ∈ ps, K.get? q.name = L.get? q.name) → PlainCall K ps as vs → PlainCall L ps as vs := by
            intro K K' L ps
            induction ps with
            | nil => intro as vs _ h; cases as <;> cases vs <;> simp_all [PlainCall]
            | cons q qs ih =>
              intro as vs hq h
              cases vs with
              | nil => cases as <;> simp [PlainCall] at h
              | cons w vs =>
                cases as with
                | nil => exact ⟨by rw [← hq q (by simp)]; exact h.1, ih (fun r hr => hq r (by simp [hr])) h.2⟩
                | cons a as =>
                  exact ⟨h.1, by rw [← hq q (by simp)]; exact h.2.1, h.2.2.1, ih (fun r hr => hq r (by simp [hr])) h.2.2.2⟩
          refine key (K := K'.pop p.name) (K' := K') (fun q hq => by rw [PyDict.get?_pop, if_neg (Ne.symm (hv.ne hq))]) ?_
          refine ih (as := []) (bs := bs) hv.tail h6 ?_ ?_
          · intro n hn
            simp only [List.length_nil, List.drop_zero] at hn
            rw [PyDict.get?_pop]
            split
            · rename_i e; rw [← e, h5]
            · rename_i hne
              apply h1
              simp only [List.map_cons, List.mem_cons, not_or]
              exact ⟨Ne.symm hne, hn⟩
          · simp only [List.length_nil, List.drop_zero]
            refine forall₂_mem h4 ?_
            intro q hq c' hqc
            rw [PyDict.get?_pop, if_neg (Ne.symm (hv.ne ((List.take_sublist _ _).subset hq)))]
            exact hqc
      | cons a as =>
        simp only [List.cons_append, PlainCall, List.length_cons, List.drop_succ_cons] at h h1 h2 ⊢
        refine ⟨h.1, ?_, h.2.2.1, ih hv.tail h.2.2.2 h1 h2⟩
        rw [h1]
        · exact h.2.1
        · intro hc
          exact (List.nodup_cons.mp hv.names).1 (((List.drop_sublist _ _).map _).subset (((List.take_sublist _ _).map _).subset hc))

/-- **C127** (by position or by name). The last positional arguments of a call may as well be passed by the names of their parameters, with the
keywords in any order: the torch function receives the same, and so does the dimension spec, so the result is the same. -/
theorem C127_by_name {sig : Sig A} {as bs : List A} {K K' : PyDict String A} {vals : List (Val A)} (hv : Valid sig) (hp : Plain sig)
    (hK' : K'.keys.Nodup) (hperm : K'.Perm ((((sig.drop as.length).take bs.length).map Param.name).zip bs ++ K))
    (h : received sig (as ++ bs) K = .ok vals) : received sig as K' = .ok vals := by
  rw [C127_received hv hp] at h ⊢
  obtain ⟨vs, rfl, hc, hk⟩ := h
  have hget : ∀ n, K'.get? n = ((PyDict.get? ((((sig.drop as.length).take bs.length).map Param.name).zip bs) n).or (K.get? n)) := by
    intro n
    rw [perm_get? hperm hK', PyDict.get?_append]
  -- there are enough parameters
  have hlen : ∀ (ps : Sig A) (as bs vs : List A), PlainCall K ps (as ++ bs) vs → as.length + bs.length ≤ ps.length := by
    intro ps
    induction ps with
    | nil => intro as bs vs h; cases as <;> cases bs <;> cases vs <;> simp_all [PlainCall]
    | cons p ps ih =>
      intro as bs vs h
      cases vs with
      | nil => cases as <;> cases bs <;> simp [PlainCall] at h
      | cons v vs =>
        cases as with
        | nil =>
          cases bs with
          | nil => simp
          | cons c bs =>
            have := ih [] bs vs h.2.2.2
            simp at this ⊢
            omega
        | cons a as =>
          have := ih as bs vs h.2.2.2
          simp at this ⊢
          omega
  have hl := hlen _ _ _ _ hc
  set ns := (sig.drop as.length).take bs.length with hns
  have hnl : ns.length = bs.length := by
    rw [hns, List.length_take, List.length_drop]
    omega
  have hnn : (ns.map Param.name).Nodup := hv.names.sublist (((List.take_sublist _ _).trans (List.drop_sublist _ _)).map _)
  refine ⟨vs, rfl, hc.move hv ?_ ?_, ?_⟩
  · intro n hn
    rw [hget]
    have : PyDict.get? ((ns.map Param.name).zip bs) n = none := by
      rw [PyDict.get?_eq_none_iff]
      intro hc'
      apply hn
      obtain ⟨x, hx, rfl⟩ := List.mem_map.mp hc'
      exact (List.of_mem_zip hx).1
    rw [this, Option.none_or]
  · have : ∀ (ns : Sig A) (bs : List A), ns.length = bs.length → (ns.map Param.name).Nodup →
        List.Forall₂ (fun p c => PyDict.get? ((ns.map Param.name).zip bs) (Param.name p) = some c) ns bs := by
      intro ns
      induction ns with
      | nil => intro bs h _; cases bs with
        | nil => exact .nil
        | cons _ _ => exact absurd h (by simp)
      | cons p ns ih =>
        intro bs h hn
        cases bs with
        | nil => exact absurd h (by simp)
        | cons c bs =>
          simp only [List.map_cons, List.nodup_cons] at hn
          refine .cons (by simp [PyDict.get?]) (forall₂_mem (ih bs (by simpa using h) hn.2) ?_)
          intro q hq d hqd
          have : p.name ≠ q.name := fun e => hn.1 (e ▸ List.mem_map_of_mem hq)
          simp only [List.map_cons, List.zip_cons_cons, PyDict.get?, this, if_false]
          exact hqd
    exact (this ns bs hnl hnn).imp fun p c h => by rw [hget, h]; rfl
  · intro k hk'
    have := (hperm.map Prod.fst).mem_iff.mp hk'
    rw [List.map_append, List.mem_append] at this
    rcases this with h | h
    · obtain ⟨x, hx, rfl⟩ := List.mem_map.mp h
      have := (List.of_mem_zip hx).1
      exact (((List.take_sublist _ _).trans (List.drop_sublist _ _)).map _).subset this
    · exact hk k h

/-- **C127** (a limitation, and why `C127_kernel_sees` asks for positional-only parameters without default). When two positional-only parameters with
defaults are left out and the dimension spec changes the second, it is passed on by keyword and the call fails, although the arguments were good. -/
theorem C127_positional_only : ∃ (sig : Sig ℕ) (spec : List (Val ℕ) → Except Err (List (Val ℕ) × Unit)) (same : Val ℕ → Val ℕ → Bool),
    Valid sig ∧ (∀ o n, same o n = true → o = n) ∧ received sig [] [] = .ok [.one 1, .one 2] ∧
      spec [.one 1, .one 2] = .ok ([.one 1, .one 5], ()) ∧
      dispatch same sig spec (received sig) [] [] = .error .typeError := by
  refine ⟨[⟨"a", .posOnly, some 1⟩, ⟨"b", .posOnly, some 2⟩], fun _ => .ok ([.one 1, .one 5], ()),
    fun o n => match o, n with | .one a, .one c => decide (a = c) | _, _ => false, ⟨by decide, by simp [Kind.rank]⟩, ?_, rfl, rfl, rfl⟩
  intro o n h
  cases o <;> cases n <;> simp_all

/-! ### Functions with a `DimSpec` -/

section
variable {L : Type}

theorem cut_flatten : ∀ (ls : List (List L)) (xs : List L), xs.length = ls.flatten.length → (cut ls xs).flatten = xs := by
  intro ls
  induction ls with
  | nil => intro xs h; simpa [cut] using (List.eq_nil_of_length_eq_zero (by simpa using h)).symm
  | cons l ls ih =>
    intro xs h
    rw [cut, List.flatten_cons, ih _ (by rw [List.length_drop, h]; simp), List.take_append_drop]

theorem cut_length : ∀ (ls : List (List L)) (xs : List L), (cut ls xs).length = ls.length := by
  intro ls
  induction ls with
  | nil => intro xs; rfl
  | cons l ls ih => intro xs; simp [cut, ih]

theorem refill_like (v : Val (List L)) (xs : List L) : Like v (v.refill xs) := by
  cases v with
  | one l => trivial
  | tup ls => exact (cut_length ls xs).symm
  | dict d =>
    show PyDict.keys d = PyDict.keys ((d.map Prod.fst).zip (cut (d.map Prod.snd) xs))
    unfold PyDict.keys
    rw [List.map_fst_zip]
    rw [cut_length]
    simp

theorem refill_leaves (v : Val (List L)) (xs : List L) (h : xs.length = v.leaves.length) : (v.refill xs).leaves = xs := by
  cases v with
  | one l => rfl
  | tup ls => exact cut_flatten ls xs h
  | dict d =>
    show (((d.map Prod.fst).zip (cut (d.map Prod.snd) xs)).map Prod.snd).flatten = xs
    rw [List.map_snd_zip]
    · exact cut_flatten _ xs h
    · rw [cut_length]; simp

theorem refillAll_leaves : ∀ (vs : List (Val (List L))) (xs : List L), xs.length = (vs.map Val.leaves).flatten.length →
    ((refillAll vs xs).map Val.leaves).flatten = xs ∧ (refillAll vs xs).length = vs.length ∧ ∀ on ∈ vs.zip (refillAll vs xs), Like on.1 on.2 := by
  intro vs
  induction vs with
  | nil => intro xs h; exact ⟨by simpa [refillAll] using (List.eq_nil_of_length_eq_zero (by simpa using h)).symm, rfl, by simp [refillAll]⟩
  | cons v vs ih =>
    intro xs h
    simp only [List.map_cons, List.flatten_cons, List.length_append] at h
    obtain ⟨h1, h2, h3⟩ := ih (xs.drop v.leaves.length) (by rw [List.length_drop, h]; omega)
    refine ⟨?_, by simp [refillAll, h2], ?_⟩
    · rw [refillAll, List.map_cons, List.flatten_cons, h1, refill_leaves, List.take_append_drop]
      rw [List.length_take, h]
      omega
    · intro on hon
      rw [refillAll, List.zip_cons_cons] at hon
      rcases List.mem_cons.mp hon with rfl | hon
      · exact refill_like _ _
      · exact h3 on hon

end

section
variable {V : Type} [Ring V] [Algebra ℝ V]

theorem run_length {σ : SetOrder} : ∀ (l : List (PSpec × Leaf V)) {ctx ctx' : Ctx} {as : List (Leaf V)}, run σ ctx l = .ok (ctx', as) → as.length = l.length := by
  intro l
  induction l with
  | nil =>
    intro ctx ctx' as h
    simp only [run, Except.ok.injEq, Prod.mk.injEq] at h
    rw [← h.2]
    rfl
  | cons x l ih =>
    intro ctx ctx' as h
    obtain ⟨p, a⟩ := x
    rw [run, except_bind_ok] at h
    obtain ⟨r, -, h⟩ := h
    rw [except_bind_ok] at h
    obtain ⟨r', h1, h⟩ := h
    simp only [pure, Except.pure, Except.ok.injEq, Prod.mk.injEq] at h
    rw [← h.2, List.length_cons, ih h1, List.length_cons]

/-- **C127** (all functions with a `DimSpec`). However the arguments are passed, the result is that of the model used for the other properties of
quantities, on the complete list of arguments in the order of the signature. -/
theorem C127_torch_function (same : Val (List (Leaf V)) → Val (List (Leaf V)) → Bool) (σ : SetOrder) (name : String) (sig : Sig (List (Leaf V)))
    (F : Kernel V) (args : List (List (Leaf V))) (kw : PyDict String (List (Leaf V))) (hd : (famOf name).isDimSpec = true)
    (hn : forbidden.contains name = false) (hv : Valid sig) (hkw : kw.keys.Nodup) (hpo : ∀ p ∈ sig, p.kind = .posOnly → p.default = none)
    (hs : ∀ o n, same o n = true → o = n) (hunit : same (.tup []) (.tup []) = true) :
    torchFunction same σ (famOf name) sig F args kw = (received sig args kw >>= fun vals => torchCall σ name F (vals.map Val.leaves)) := by
  cases hr : received sig args kw with
  | error e =>
    have hdisp : dispatch same sig (dimSpecCall σ (famOf name)) (kernelCall sig F) args kw = .error e := by
      unfold dispatch
      rcases received_cases sig args kw with ⟨e', h1, h2⟩ | ⟨b, h1, h2, h3⟩ | ⟨b, vals, h1, h2, h3⟩
      · rw [hr] at h2
        cases h2
        rw [h1]
        rfl
      · rw [hr] at h3
        cases h3
        simp only [h1, _root_.Bind.bind, Except.bind]
        rw [h2]
      · rw [hr] at h3
        cases h3
    unfold torchFunction
    rw [hdisp]
    rfl
  | ok vals =>
    show _ = torchCall σ name F (vals.map Val.leaves)
    rw [torchCall_dimSpec F _ rfl hd hn]
    cases hrun : run σ [] (pairs (famOf name) (vals.map Val.leaves)) with
    | error e =>
      have hdisp : dispatch same sig (dimSpecCall σ (famOf name)) (kernelCall sig F) args kw = .error e := by
        unfold dispatch
        rcases received_cases sig args kw with ⟨e', h1, h2⟩ | ⟨b, h1, h2, h3⟩ | ⟨b, vals', h1, h2, h3⟩
        · rw [hr] at h2
          cases h2
        · rw [hr] at h3
          cases h3
        · rw [hr] at h3
          cases h3
          simp only [h1, _root_.Bind.bind, Except.bind]
          rw [h2]
          simp only [dimSpecCall, hrun, _root_.Bind.bind, Except.bind]
      unfold torchFunction call
      rw [hdisp, hrun]
      rfl
    | ok r =>
      obtain ⟨ctx, ls⟩ := r
      have hlen : ls.length = (vals.map Val.leaves).flatten.length := by
        rw [run_length _ hrun, ← pairs_snd (famOf name) (vals.map Val.leaves), List.length_map]
      obtain ⟨h1, h2, h3⟩ := refillAll_leaves vals ls hlen
      have hspec : dimSpecCall σ (famOf name) vals = .ok (refillAll vals ls, ctx) := by
        unfold dimSpecCall
        rw [hrun]
        rfl
      obtain ⟨args', kw', h4, h5⟩ := C127_kernel_sees (R := List (V × Bool)) hv hkw hpo hs hunit hr hspec h3
      have h6 : (refillAll vals ls).take vals.length ++ vals.drop (refillAll vals ls).length = refillAll vals ls := by
        rw [h2, List.drop_length, List.append_nil, ← h2, List.take_length]
      rw [h6] at h4
      have hk : kernelCall sig F args' kw' = (raws ls >>= F) := by
        unfold kernelCall
        rw [h4]
        show (raws ((refillAll vals ls).map Val.leaves).flatten >>= F) = _
        rw [h1]
      unfold torchFunction call
      rw [h5, hk, hrun]
      simp only [_root_.Bind.bind, Except.bind, pure, Except.pure]
      cases raws ls with
      | error e => rfl
      | ok xs =>
        simp only
        cases F xs <;> rfl

end

/-! ### A case of each -/

section Examples

/-- The signature `torch.add(input, other, *, alpha=1, out=None)`. -/
def addSig : Sig (List (Leaf (Unit → ℝ))) :=
  [⟨"input", .posOrKw, none⟩, ⟨"other", .posOrKw, none⟩, ⟨"alpha", .kwOnly, some [.num 1]⟩, ⟨"out", .kwOnly, some [.other]⟩]

theorem addSig_valid : Valid addSig := ⟨by decide, by simp [addSig, Kind.rank]⟩

theorem addSig_plain : Plain addSig := by simp [Plain, addSig]

open Classical in
/-- `torch.add(1 km, other=500 m)`: the hypotheses of C127 are met; `alpha`, left to its default, goes to the kernel as 1/1000. -/
example (σ : SetOrder) (F : Kernel (Unit → ℝ)) :
    torchFunction (fun o n => decide (o = n)) σ .addsub addSig F [[.q 1 ⟨[("L", 1)], 1000⟩]] [("other", [.q 500 ⟨[("L", 1)], 1⟩])] =
      torchCall σ "add" F [[.q 1 ⟨[("L", 1)], 1000⟩], [.q 500 ⟨[("L", 1)], 1⟩], [.num 1], [.other]] := by
  have h := C127_torch_function (fun o n => decide (o = n)) σ "add" addSig F [[.q 1 ⟨[("L", 1)], 1000⟩]] [("other", [.q 500 ⟨[("L", 1)], 1⟩])]
    (by decide +kernel) (by decide +kernel) addSig_valid (by simp [PyDict.keys]) (by simp [addSig]) (by simp) (by simp)
  have hf : famOf "add" = .addsub := by decide +kernel
  rw [hf] at h
  exact h

/-- The same call with the second argument by position and by name. -/
example (a b : List (Leaf (Unit → ℝ))) : received addSig [a] [("other", b)] = .ok [.one a, .one b, .one [.num 1], .one [.other]] :=
  C127_by_name (as := [a]) (bs := [b]) (K := []) addSig_valid addSig_plain (by simp [PyDict.keys]) (by simp [addSig]) rfl

/-- Variadic signatures, `f(x, *rest, flag=0, **options)`. -/
def varSig : Sig ℕ := [⟨"x", .posOrKw, none⟩, ⟨"rest", .varPos, none⟩, ⟨"flag", .kwOnly, some 0⟩, ⟨"options", .varKw, none⟩]

open Classical in
/-- A spec adding one to the single arguments, on `f(1, 2, 3, z=9)`. -/
example : ∃ args' kw', received varSig args' kw' = .ok [.one 2, .tup [2, 3], .one 1, .dict [("z", 9)]] ∧
    ∀ F : List ℕ → PyDict String ℕ → Except Err ℕ, dispatch (fun o n => decide (o = n)) varSig
      (fun l => .ok (l.map (fun v => match v with | .one a => .one (a + 1) | v => v), ())) F [1, 2, 3] [("z", 9)] = (F args' kw').map fun r => (r, ()) := by
  have := C127_kernel_sees (A := ℕ) (R := ℕ) (P := Unit) (same := fun o n => decide (o = n)) (sig := varSig) (args := [1, 2, 3]) (kw := [("z", 9)])
    (spec := fun l => .ok (l.map (fun v => match v with | .one a => .one (a + 1) | v => v), ()))
    (old := [.one 1, .tup [2, 3], .one 0, .dict [("z", 9)]]) (new := [.one 2, .tup [2, 3], .one 1, .dict [("z", 9)]]) (post := ())
    ⟨by decide, by simp [varSig, Kind.rank]⟩ (by simp [PyDict.keys]) (by simp [varSig]) (by simp) (by simp) rfl rfl (by simp [Like])
  simpa using this

end Examples

/-! ## C128: signatures are looked up once and for all -/

section Signatures
variable {Fn S : Type} [DecidableEq Fn]

/-- What a lookup should give: the signature found for the function, or for the function it is an alias of. -/
def resolve (look : Fn → Lookup Fn S) (f : Fn) : Except Err (Option S) :=
  match look f with
  | .value s => .ok s
  | .raises => .error .torch
  | .sameAs g => match look g with
    | .value s => .ok s
    | _ => .error .torch

/-- Ways to access the dict: `sigdict[f]`, `f in sigdict`, `sigdict.get(f, default)`. -/
inductive Access (Fn S : Type)
  | getitem (f : Fn)
  | contains (f : Fn)
  | get (f : Fn) (default : Option S)

/-- The dict after an access (the aliases of the code have length one, hence the fuel). -/
def Access.after (look : Fn → Lookup Fn S) (d : PyDict Fn (Option S)) : Access Fn S → PyDict Fn (Option S)
  | .getitem f => (sigGet look 1 d f).1
  | .contains f => (sigContains look 1 d f).1
  | .get f s => (sigGetDefault look 1 d f s).1

/-- Everything stored is right. -/
def Right (look : Fn → Lookup Fn S) (d : PyDict Fn (Option S)) : Prop := ∀ f s, d.get? f = some s → resolve look f = .ok s

theorem sigGet_right {look : Fn → Lookup Fn S} (hal : ∀ f g, look f = .sameAs g → ∀ g', look g ≠ .sameAs g') {d : PyDict Fn (Option S)} (hd : Right look d) (f : Fn) :
    (sigGet look 1 d f).2 = resolve look f ∧ Right look (sigGet look 1 d f).1 ∧ (∀ s, (sigGet look 1 d f).2 = .ok s → (sigGet look 1 d f).1.get? f = some s) := by
  have hset : ∀ (d : PyDict Fn (Option S)) (f : Fn) (s : Option S), Right look d → resolve look f = .ok s → Right look (d.set f s) := by
    intro d f s hd hs g t ht
    rw [PyDict.get?_set] at ht
    split at ht
    · rename_i e; subst e; cases ht; exact hs
    · exact hd g t ht
  unfold sigGet
  cases hf : d.get? f with
  | some s => exact ⟨(hd f s hf).symm, hd, by intro t ht; cases ht; exact hf⟩
  | none =>
    cases hl : look f with
    | value s =>
      have : resolve look f = .ok s := by simp [resolve, hl]
      exact ⟨this.symm, hset d f s hd this, by intro t ht; cases ht; simp [PyDict.get?_set]⟩
    | raises => exact ⟨by simp [resolve, hl], hd, by intro t ht; cases ht⟩
    | sameAs g =>
      have hg : (sigGet look 0 d g).2 = resolve look f ∧ Right look (sigGet look 0 d g).1 := by
        unfold sigGet
        cases hg : d.get? g with
        | some s =>
          refine ⟨?_, hd⟩
          have h1 := hd g s hg
          unfold resolve at h1 ⊢
          rw [hl]
          cases hlg : look g with
          | value t => rw [hlg] at h1; simp only [hlg]; exact h1.symm
          | raises => rw [hlg] at h1; cases h1
          | sameAs g' => exact absurd hlg (hal f g hl g')
        | none =>
          cases hlg : look g with
          | value t => exact ⟨by simp [resolve, hl, hlg], hset d g t hd (by simp [resolve, hlg])⟩
          | raises => exact ⟨by simp [resolve, hl, hlg], hd⟩
          | sameAs g' => exact absurd hlg (hal f g hl g')
      generalize hr : sigGet look 0 d g = r at hg
      obtain ⟨d', x⟩ := r
      cases x with
      | ok s => 
        simp only at hg ⊢
        refine ⟨?_, ?_, ?_⟩
        · rw [hr]; exact hg.1
        · rw [hr]; exact hset d' f s hg.2 hg.1.symm
        · rw [hr]; intro t ht; cases ht; simp [PyDict.get?_set]
      | error e =>
        simp only at hg ⊢
        refine ⟨?_, ?_, ?_⟩
        · rw [hr]; exact hg.1
        · rw [hr]; exact hg.2
        · rw [hr]; intro t ht; cases ht

theorem sigContains_eq (look : Fn → Lookup Fn S) (d : PyDict Fn (Option S)) (f : Fn) :
    sigContains look 1 d f = ((sigGet look 1 d f).1, (sigGet look 1 d f).2.map fun _ => true) := by
  unfold sigContains
  generalize sigGet look 1 d f = r
  obtain ⟨d', x⟩ := r
  cases x <;> rfl

theorem sigGetDefault_eq {look : Fn → Lookup Fn S} (hal : ∀ f g, look f = .sameAs g → ∀ g', look g ≠ .sameAs g') {d : PyDict Fn (Option S)} (hd : Right look d)
    (f : Fn) (s : Option S) : sigGetDefault look 1 d f s = sigGet look 1 d f := by
  unfold sigGetDefault
  rw [sigContains_eq]
  have h := sigGet_right hal hd f
  generalize hr : sigGet look 1 d f = r at h
  obtain ⟨d', x⟩ := r
  cases x with
  | error e => rfl
  | ok t =>
    simp only [Except.map]
    have h1 := h.2.2 t rfl
    simp only at h1
    unfold sigGet
    rw [h1]

/-- **C128** (history). Whatever was looked up before, in whatever way, the signature found for a function is the one `resolve` gives: the dict only
remembers answers. -/
theorem C128_history {look : Fn → Lookup Fn S} (hal : ∀ f g, look f = .sameAs g → ∀ g', look g ≠ .sameAs g') (history : List (Access Fn S)) (f : Fn)
    (default : Option S) :
    (sigGet look 1 (history.foldl (Access.after look) []) f).2 = resolve look f ∧
      (sigGetDefault look 1 (history.foldl (Access.after look) []) f default).2 = resolve look f := by
  have hinv : ∀ (history : List (Access Fn S)) (d : PyDict Fn (Option S)), Right look d → Right look (history.foldl (Access.after look) d) := by
    intro history
    induction history with
    | nil => exact fun d hd => hd
    | cons a history ih =>
      intro d hd
      refine ih _ ?_
      cases a with
      | getitem g => exact (sigGet_right hal hd g).2.1
      | contains g =>
        show Right look (sigContains look 1 d g).1
        rw [sigContains_eq]
        exact (sigGet_right hal hd g).2.1
      | get g s =>
        show Right look (sigGetDefault look 1 d g s).1
        rw [sigGetDefault_eq hal hd]
        exact (sigGet_right hal hd g).2.1
  have hd := hinv history [] (by intro f s h; simp [PyDict.get?] at h)
  refine ⟨(sigGet_right hal hd f).1, ?_⟩
  rw [sigGetDefault_eq hal hd]
  exact (sigGet_right hal hd f).1

/-- **C128** (lookups are remembered). After a successful lookup the function is not inspected again: the answer stays, even if inspection would give
something else now. -/
theorem C128_remembered {look look' : Fn → Lookup Fn S} (hal : ∀ f g, look f = .sameAs g → ∀ g', look g ≠ .sameAs g') {d : PyDict Fn (Option S)}
    (hd : Right look d) {f : Fn} {s : Option S} (h : (sigGet look 1 d f).2 = .ok s) :
    sigGet look' 1 (sigGet look 1 d f).1 f = ((sigGet look 1 d f).1, .ok s) := by
  have h1 := (sigGet_right hal hd f).2.2 s h
  generalize sigGet look 1 d f = r at h1
  obtain ⟨d', x⟩ := r
  simp only at h1 ⊢
  unfold sigGet
  rw [h1]

/-- **C128** (`in` and `get`). `f in sigdict` is never `False`, and the default handed to `get` is never returned: a function without signature gives
`None` instead, one whose inspection fails an exception. -/
theorem C128_default_unused (look : Fn → Lookup Fn S) (d : PyDict Fn (Option S)) (f : Fn) :
    (sigContains look 1 d f).2 ≠ .ok false ∧ ∀ s t, sigGetDefault look 1 d f s = sigGetDefault look 1 d f t := by
  constructor
  · rw [sigContains_eq]
    cases (sigGet look 1 d f).2 <;> simp [Except.map]
  · intro s t
    unfold sigGetDefault
    rw [sigContains_eq]
    generalize (sigGet look 1 d f).2 = x
    cases x <;> rfl

/-- `max` is looked up as the method of the same name, `sum` directly, `secret` has no signature. -/
example : let look : String → Lookup String String := fun f => if f = "max" then .sameAs "Tensor.max" else if f = "secret" then .value none else .value (some (f ++ "(...)"))
    (sigGet look 1 ([Access.contains "secret", .get "max" none].foldl (Access.after look) []) "max").2 = .ok (some "Tensor.max(...)") ∧
    (sigGetDefault look 1 [] "secret" (some "default")).2 = .ok none := by
  intro look
  exact ⟨rfl, rfl⟩

end Signatures

end Verif.Quant.Bind

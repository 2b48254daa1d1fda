import Verif.Ellred.RedGrad

/-! # Caching by object identity in `elliptic_integral`: C107

`EllipticReduction.Im` is decorated with `functools.cache` (core.py:298); the key is `(self, m)`, and `EllipticReduction` is a dataclass with
`unsafe_hash=True` (core.py:64), so it is hashed and compared through the identity of its tensors.  The cache is shared by all instances.
`elliptic_integral` (functional.py:43-44) passes tensors on as they are, except that numbers and the real ones among `a` are
converted to new tensors (`torch.as_tensor`, `to_complex`).  The caches of the inner methods are not modelled (they hold values that the outer one
was computed from); nor are hash collisions. -/

namespace Verif.Ellred.Cache

open Verif.Ellred

/-- An argument: a tensor that is passed on as it is, or a value that is converted to a new tensor. -/
inductive Arg where
  | obj (i : ℕ)
  | fresh (v : ℂ)

/-- A call `elliptic_integral(z1, z2, *a, m=m, h=h)`; `args` are `z1`, `z2` and `a`. -/
structure Query where
  m : List ℤ
  h : ℕ
  args : List Arg

/-- Tensors by identity, and the cache: exponents, `h` and the tensors of a past call, and the tensor it returned. -/
structure St where
  val : ℕ → ℂ
  next : ℕ
  cache : List ((List ℤ × ℕ × List ℕ) × ℕ)

/-- The arguments as tensors: `torch.as_tensor` and `to_complex` (functional.py:44, utils/complex.py:19-26). -/
def resolve (s : St) : List Arg → St × List ℕ
  | [] => (s, [])
  | .obj i :: l => ((resolve s l).1, i :: (resolve s l).2)
  | .fresh v :: l =>
    let p := resolve ⟨fun j => if j = s.next then v else s.val j, s.next + 1, s.cache⟩ l
    (p.1, s.next :: p.2)

/-- The call: look up the cache, or compute `F` of the current values, put the result into a new tensor and store it. -/
def call (F : List ℤ → ℕ → List ℂ → ℂ) (s : St) (q : Query) : St × ℕ :=
  let p := resolve s q.args
  match p.1.cache.lookup (q.m, q.h, p.2) with
  | some r => (p.1, r)
  | none => (⟨fun j => if j = p.1.next then F q.m q.h (p.2.map p.1.val) else p.1.val j, p.1.next + 1,
      ((q.m, q.h, p.2), p.1.next) :: p.1.cache⟩, p.1.next)

/-- What can happen: a call (with the tensor it returned), a tensor is created, a tensor is modified in place. -/
inductive Event where
  | called (q : Query) (r : ℕ)
  | created (i : ℕ)
  | wrote (i : ℕ)

/-- The tensors the user holds: created, or returned by a call. -/
def Held (es : List Event) (i : ℕ) : Prop := .created i ∈ es ∨ ∃ q, .called q i ∈ es

/-- Histories (latest event first) and the states they lead to: the user passes on and modifies tensors they hold. -/
inductive Hist (F : List ℤ → ℕ → List ℂ → ℂ) : List Event → St → Prop
  | init (v : ℕ → ℂ) : Hist F [] ⟨v, 0, []⟩
  | call {es s} (q : Query) : Hist F es s → (∀ i, Arg.obj i ∈ q.args → Held es i) → Hist F (.called q (call F s q).2 :: es) (call F s q).1
  | new {es s} (v : ℂ) : Hist F es s → Hist F (.created s.next :: es) ⟨fun j => if j = s.next then v else s.val j, s.next + 1, s.cache⟩
  | write {es s} (i : ℕ) (v : ℂ) : Hist F es s → Held es i → Hist F (.wrote i :: es) ⟨fun j => if j = i then v else s.val j, s.next, s.cache⟩

/-- No tensor is modified in place after it has been an argument or the result of a call. -/
def Safe : List Event → Prop
  | [] => True
  | .wrote i :: es => Safe es ∧ ∀ q r, .called q r ∈ es → r ≠ i ∧ .obj i ∉ q.args
  | _ :: es => Safe es

/-- The value of an argument now. -/
def Arg.now (s : St) : Arg → ℂ
  | .obj i => s.val i
  | .fresh v => v

theorem resolve_spec (l : List Arg) : ∀ s : St, (∀ i, Arg.obj i ∈ l → i < s.next) →
    (resolve s l).1.cache = s.cache ∧ s.next ≤ (resolve s l).1.next ∧ (∀ j < s.next, (resolve s l).1.val j = s.val j) ∧
    (resolve s l).2.map (resolve s l).1.val = l.map (Arg.now s) ∧ ∀ i ∈ (resolve s l).2, i < (resolve s l).1.next ∧ (Arg.obj i ∈ l ∨ s.next ≤ i) := by
  induction l with
  | nil => intro s _; simp [resolve]
  | cons a l ih =>
    intro s hs
    cases a with
    | obj i =>
      obtain ⟨h1, h2, h3, h4, h5⟩ := ih s fun j hj => hs j (List.mem_cons_of_mem _ hj)
      have hi := hs i List.mem_cons_self
      refine ⟨h1, h2, h3, ?_, ?_⟩
      · simp only [resolve, List.map_cons, h4, Arg.now, h3 i hi]
      · intro j hj
        rcases List.mem_cons.mp hj with rfl | hj
        · exact ⟨lt_of_lt_of_le hi h2, Or.inl List.mem_cons_self⟩
        · exact ⟨(h5 j hj).1, (h5 j hj).2.imp_left (List.mem_cons_of_mem _)⟩
    | fresh v =>
      obtain ⟨h1, h2, h3, h4, h5⟩ := ih ⟨fun j => if j = s.next then v else s.val j, s.next + 1, s.cache⟩
        fun j hj => Nat.lt_succ_of_lt (hs j (List.mem_cons_of_mem _ hj))
      simp only at h1 h2 h3 h5
      refine ⟨h1, by simp only [resolve]; omega, fun j hj => ?_, ?_, ?_⟩
      · simp only [resolve]
        rw [h3 j (by omega), if_neg (by omega)]
      · simp only [resolve, List.map_cons, h4]
        congr 1
        · rw [h3 _ (by omega), if_pos rfl]; rfl
        · refine List.map_congr_left fun b hb => ?_
          cases b with
          | obj j =>
            have := hs j (List.mem_cons_of_mem _ hb)
            simp only [Arg.now]
            rw [if_neg (by omega)]
          | fresh w => rfl
      · intro j hj
        simp only [resolve] at hj ⊢
        rcases List.mem_cons.mp hj with rfl | hj
        · exact ⟨by omega, Or.inr le_rfl⟩
        · refine ⟨(h5 j hj).1, (h5 j hj).2.imp (List.mem_cons_of_mem _) (by omega)⟩

/-- What safe histories maintain. -/
structure Inv (F : List ℤ → ℕ → List ℂ → ℂ) (es : List Event) (s : St) : Prop where
  held : ∀ i, Held es i → i < s.next
  entry : ∀ k r, (k, r) ∈ s.cache → s.val r = F k.1 k.2.1 (k.2.2.map s.val) ∧ (∃ q, .called q r ∈ es) ∧
    ∀ i ∈ k.2.2, i < s.next ∧ ((∃ q r', .called q r' ∈ es ∧ .obj i ∈ q.args) ∨ ¬Held es i)

theorem lookup_mem {α β : Type} [BEq α] [LawfulBEq α] {l : List (α × β)} {a : α} {b : β} (h : l.lookup a = some b) : (a, b) ∈ l := by
  induction l with
  | nil => simp at h
  | cons p l ih =>
    obtain ⟨c, d⟩ := p
    rw [List.lookup_cons] at h
    by_cases e : a == c
    · simp only [e] at h
      obtain rfl := eq_of_beq e
      obtain rfl : d = b := by simpa using h
      exact List.mem_cons_self
    · simp only [e] at h
      exact List.mem_cons_of_mem _ (ih h)

theorem Inv.call {F : List ℤ → ℕ → List ℂ → ℂ} {es : List Event} {s : St} (h : Inv F es s) (q : Query) (hq : ∀ i, Arg.obj i ∈ q.args → Held es i) :
    Inv F (.called q (call F s q).2 :: es) (call F s q).1 ∧ (Cache.call F s q).1.val (Cache.call F s q).2 = F q.m q.h (q.args.map (Arg.now s)) := by
  obtain ⟨h1, h2, h3, h4, h5⟩ := resolve_spec q.args s fun i hi => h.held i (hq i hi)
  have old : ∀ k r, (k, r) ∈ s.cache → ((resolve s q.args).1.val r = F k.1 k.2.1 (k.2.2.map (resolve s q.args).1.val)) ∧ r < s.next := by
    intro k r hk
    obtain ⟨e1, ⟨q', e2⟩, e3⟩ := h.entry k r hk
    have hr := h.held r (Or.inr ⟨q', e2⟩)
    refine ⟨?_, hr⟩
    rw [h3 r hr, e1]
    congr 1
    exact List.map_congr_left fun i hi => (h3 i (e3 i hi).1).symm
  unfold Cache.call
  simp only
  split
  · rename_i r hr
    have hm := lookup_mem hr
    rw [h1] at hm
    obtain ⟨e1, ⟨q', e2⟩, e3⟩ := h.entry _ _ hm
    have hsame : ∀ i, Held (.called q r :: es) i → Held es i := by
      rintro i (hi | ⟨q'', hi⟩)
      · left; simpa using hi
      · rcases List.mem_cons.mp hi with hi | hi
        · injection hi with _ hi; subst hi; exact Or.inr ⟨q', e2⟩
        · exact Or.inr ⟨q'', hi⟩
    refine ⟨⟨fun i hi => lt_of_lt_of_le (h.held i (hsame i hi)) h2, fun k r' hk => ?_⟩, ?_⟩
    · rw [h1] at hk
      obtain ⟨f1, ⟨q'', f2⟩, f3⟩ := h.entry k r' hk
      refine ⟨(old k r' hk).1, ⟨q'', List.mem_cons_of_mem _ f2⟩, fun i hi => ⟨lt_of_lt_of_le (f3 i hi).1 h2, ?_⟩⟩
      rcases (f3 i hi).2 with ⟨a, b, c, d⟩ | hn
      · exact Or.inl ⟨a, b, List.mem_cons_of_mem _ c, d⟩
      · exact Or.inr fun hh => hn (hsame i hh)
    · rw [(old _ _ hm).1]
      simp only
      rw [h4]
  · set p := resolve s q.args with hp
    have hheld : ∀ i, Held (.called q p.1.next :: es) i → Held es i ∨ i = p.1.next := by
      rintro i (hi | ⟨q'', hi⟩)
      · exact Or.inl (Or.inl (by simpa using hi))
      · rcases List.mem_cons.mp hi with hi | hi
        · injection hi with _ hi; exact Or.inr hi
        · exact Or.inl (Or.inr ⟨q'', hi⟩)
    have vals : ∀ (l : List ℕ) (w : ℂ), (∀ i ∈ l, i < p.1.next) → l.map (fun j => if j = p.1.next then w else p.1.val j) = l.map p.1.val := by
      intro l w hl
      refine List.map_congr_left fun i hi => ?_
      rw [if_neg (hl i hi).ne]
    refine ⟨⟨fun i hi => ?_, fun k r' hk => ?_⟩, ?_⟩
    · rcases hheld i hi with hi | rfl
      · exact Nat.lt_succ_of_lt (lt_of_lt_of_le (h.held i hi) h2)
      · exact Nat.lt_succ_self _
    · rcases List.mem_cons.mp hk with hk | hk
      · obtain ⟨rfl, rfl⟩ : k = (q.m, q.h, p.2) ∧ r' = p.1.next := by simpa using hk
        refine ⟨?_, ⟨q, List.mem_cons_self⟩, fun i hi => ?_⟩
        · simp only [if_true]
          rw [vals _ _ fun i hi => (h5 i hi).1]
        · refine ⟨Nat.lt_succ_of_lt (h5 i hi).1, ?_⟩
          rcases (h5 i hi).2 with ho | hge
          · exact Or.inl ⟨q, _, List.mem_cons_self, ho⟩
          · refine Or.inr fun hh => ?_
            rcases hheld i hh with hh | rfl
            · have := h.held i hh; omega
            · exact absurd (h5 _ hi).1 (lt_irrefl _)
      · rw [h1] at hk
        obtain ⟨f1, ⟨q'', f2⟩, f3⟩ := h.entry k r' hk
        have o := old k r' hk
        refine ⟨?_, ⟨q'', List.mem_cons_of_mem _ f2⟩, fun i hi => ⟨Nat.lt_succ_of_lt (lt_of_lt_of_le (f3 i hi).1 h2), ?_⟩⟩
        · simp only
          rw [if_neg (lt_of_lt_of_le o.2 h2).ne, vals _ _ fun i hi => lt_of_lt_of_le (f3 i hi).1 h2]
          exact o.1
        · rcases (f3 i hi).2 with ⟨a, b, c, d⟩ | hn
          · exact Or.inl ⟨a, b, List.mem_cons_of_mem _ c, d⟩
          · refine Or.inr fun hh => ?_
            rcases hheld i hh with hh | rfl
            · exact hn hh
            · exact absurd (lt_of_lt_of_le (f3 _ hi).1 h2) (lt_irrefl _)
    · simp only [if_true]
      rw [h4]

theorem Hist.inv {F : List ℤ → ℕ → List ℂ → ℂ} {es : List Event} {s : St} (h : Hist F es s) (hs : Safe es) : Inv F es s := by
  induction h with
  | init v => exact ⟨fun i hi => by rcases hi with hi | ⟨q, hi⟩ <;> simp at hi, fun k r hk => by simp at hk⟩
  | call q h hq ih => exact ((ih hs).call q hq).1
  | @new es s v h ih =>
    have I := ih hs
    have hheld : ∀ i, Held (.created s.next :: es) i → Held es i ∨ i = s.next := by
      rintro i (hi | ⟨q'', hi⟩)
      · rcases List.mem_cons.mp hi with hi | hi
        · injection hi with hi; exact Or.inr hi
        · exact Or.inl (Or.inl hi)
      · exact Or.inl (Or.inr ⟨q'', by simpa using hi⟩)
    refine ⟨fun i hi => ?_, fun k r hk => ?_⟩
    · rcases hheld i hi with hi | rfl
      · exact Nat.lt_succ_of_lt (I.held i hi)
      · exact Nat.lt_succ_self _
    · obtain ⟨e1, ⟨q', e2⟩, e3⟩ := I.entry k r hk
      have hr := I.held r (Or.inr ⟨q', e2⟩)
      refine ⟨?_, ⟨q', List.mem_cons_of_mem _ e2⟩, fun i hi => ⟨Nat.lt_succ_of_lt (e3 i hi).1, ?_⟩⟩
      · simp only
        rw [if_neg hr.ne, e1]
        congr 1
        exact List.map_congr_left fun i hi => by rw [if_neg (e3 i hi).1.ne]
      · rcases (e3 i hi).2 with ⟨a, b, c, d⟩ | hn
        · exact Or.inl ⟨a, b, List.mem_cons_of_mem _ c, d⟩
        · refine Or.inr fun hh => ?_
          rcases hheld i hh with hh | rfl
          · exact hn hh
          · exact absurd (e3 _ hi).1 (lt_irrefl _)
  | @write es s i v h hi ih =>
    obtain ⟨hs, hw⟩ := hs
    have I := ih hs
    have hheld : ∀ j, Held (.wrote i :: es) j ↔ Held es j := fun j => by simp [Held]
    refine ⟨fun j hj => I.held j ((hheld j).mp hj), fun k r hk => ?_⟩
    obtain ⟨e1, ⟨q', e2⟩, e3⟩ := I.entry k r hk
    refine ⟨?_, ⟨q', List.mem_cons_of_mem _ e2⟩, fun j hj => ⟨(e3 j hj).1, ?_⟩⟩
    · simp only
      rw [if_neg (hw q' r e2).1, e1]
      congr 1
      refine List.map_congr_left fun j hj => ?_
      rw [if_neg ?_]
      rintro rfl
      rcases (e3 j hj).2 with ⟨a, b, c, d⟩ | hn
      · exact (hw a b c).2 d
      · exact hn hi
    · rcases (e3 j hj).2 with ⟨a, b, c, d⟩ | hn
      · exact Or.inl ⟨a, b, List.mem_cons_of_mem _ c, d⟩
      · exact Or.inr fun hh => hn ((hheld j).mp hh)

/-- C107: as long as no tensor that has been an argument or a result of a call is modified in place, every call returns the function of the
values that its arguments have at that time.  Missing: with such modifications it is false (`C107_stale`, `C107_overwritten`). -/
theorem C107_cached_partial (F : List ℤ → ℕ → List ℂ → ℂ) {es : List Event} {s : St} (h : Hist F es s) (hs : Safe es) (q : Query)
    (hq : ∀ i, Arg.obj i ∈ q.args → Held es i) : (call F s q).1.val (call F s q).2 = F q.m q.h (q.args.map (Arg.now s)) :=
  ((h.inv hs).call q hq).2

theorem resolve_objs (l : List Arg) (s : St) (hl : ∀ a ∈ l, ∃ i, a = .obj i) : (resolve s l).1 = s ∧ ∀ s', (resolve s' l).2 = (resolve s l).2 := by
  induction l with
  | nil => exact ⟨rfl, fun _ => rfl⟩
  | cons a l ih =>
    obtain ⟨i, rfl⟩ := hl _ List.mem_cons_self
    obtain ⟨h1, h2⟩ := ih fun b hb => hl b (List.mem_cons_of_mem _ hb)
    exact ⟨h1, fun s' => by simp only [resolve, h2 s']⟩

theorem call_hit (F : List ℤ → ℕ → List ℂ → ℂ) {s : St} {q : Query} {r : ℕ} (h : (resolve s q.args).1.cache.lookup (q.m, q.h, (resolve s q.args).2) = some r) :
    call F s q = ((resolve s q.args).1, r) := by
  unfold call
  simp only [h]

/-- A second call with the same tensors returns the same tensor, whatever has been written to them. -/
theorem call_again (F : List ℤ → ℕ → List ℂ → ℂ) (s : St) (q : Query) (hq : ∀ a ∈ q.args, ∃ i, a = .obj i) (v : ℕ → ℂ) :
    call F ⟨v, (call F s q).1.next, (call F s q).1.cache⟩ q = (⟨v, (call F s q).1.next, (call F s q).1.cache⟩, (call F s q).2) := by
  obtain ⟨h1, h2⟩ := resolve_objs q.args s hq
  obtain ⟨h3, -⟩ := resolve_objs q.args ⟨v, (call F s q).1.next, (call F s q).1.cache⟩ hq
  have hit : (call F s q).1.cache.lookup (q.m, q.h, (resolve s q.args).2) = some (call F s q).2 := by
    unfold call
    simp only
    split
    · rename_i r hr
      exact hr
    · simp only
      rw [List.lookup_cons_self]
  rw [call_hit F (r := (call F s q).2) (by rw [h3, h2]; exact hit), h3]

/-- C107: after a call, whatever is written to a tensor other than its result, the same call returns the old value. -/
theorem C107_stale (F : List ℤ → ℕ → List ℂ → ℂ) (s : St) (q : Query) (hq : ∀ a ∈ q.args, ∃ i, a = .obj i) (i : ℕ) (v : ℂ) (hi : i ≠ (call F s q).2) :
    let s' : St := ⟨fun j => if j = i then v else (call F s q).1.val j, (call F s q).1.next, (call F s q).1.cache⟩
    (call F s' q).1.val (call F s' q).2 = (call F s q).1.val (call F s q).2 := by
  intro s'
  rw [call_again F s q hq]
  exact if_neg hi.symm

/-- C107: whatever is written to the result, the same call returns it. -/
theorem C107_overwritten (F : List ℤ → ℕ → List ℂ → ℂ) (s : St) (q : Query) (hq : ∀ a ∈ q.args, ∃ i, a = .obj i) (v : ℂ) :
    let s' : St := ⟨fun j => if j = (call F s q).2 then v else (call F s q).1.val j, (call F s q).1.next, (call F s q).1.cache⟩
    (call F s' q).1.val (call F s' q).2 = v := by
  intro s'
  rw [call_again F s q hq]
  exact if_pos rfl

open Classical in
/-- `EllipticIntegral.forward` on the values of `z1`, `z2` and `a`. -/
noncomputable def elliptic (m : List ℤ) (h : ℕ) : List ℂ → ℂ
  | z1 :: z2 :: a => if hh : h = 3 ∨ h = 4 then forward m ⟨h, hh⟩ z1.re z2.re a else 0
  | _ => 0

open MeasureTheory in
theorem forward_pos : forward [0, 0, 0] ⟨3, Or.inl rfl⟩ 0 1 [1, 2, 3] ≠ 0 := by
  have h : forward [0, 0, 0] ⟨3, Or.inl rfl⟩ 0 1 [1, 2, 3] = ∫ t in (0 : ℝ)..1, integrand [1, 2, 3] 3 [0, 0, 0] t := by
    refine C37_cubic 1 0 [1, 2, 3] (by simp) ?_ ?_ ?_ (by simp) (by simp)
    · simp
    · intro b hb t ht
      rw [Set.uIcc_of_le zero_le_one] at ht
      have := ht.1
      simp only [List.mem_cons, List.not_mem_nil, or_false] at hb
      rcases hb with rfl | rfl | rfl <;> left <;> simp <;> linarith
    · simp only [List.take, List.map_cons, List.map_nil, map_one, Complex.conj_ofNat]
      exact List.Perm.refl _
  have e : ∀ t ∈ Set.uIcc (0 : ℝ) 1, integrand [1, 2, 3] 3 [0, 0, 0] t =
      (((1 + t) ^ (-(1 / 2) : ℝ) * (2 + t) ^ (-(1 / 2) : ℝ) * (3 + t) ^ (-(1 / 2) : ℝ) : ℝ) : ℂ) := by
    intro t ht
    rw [Set.uIcc_of_le zero_le_one] at ht
    have := ht.1
    have p : ∀ c : ℝ, 0 ≤ c → ((c : ℂ) + (t : ℂ)) ^ (-(1 / 2) : ℂ) = (((c + t) ^ (-(1 / 2) : ℝ) : ℝ) : ℂ) := by
      intro c hc
      rw [Complex.ofReal_cpow (by linarith)]
      push_cast
      rfl
    have p1 := p 1 (by norm_num)
    have p2 := p 2 (by norm_num)
    have p3 := p 3 (by norm_num)
    rw [integrand]
    change ∏ i : Fin 3, _ = _
    rw [Fin.prod_univ_three]
    push_cast at p1 p2 p3 ⊢
    rw [← p1, ← p2, ← p3]
    simp
  rw [h, intervalIntegral.integral_congr e, intervalIntegral.integral_ofReal, Complex.ofReal_ne_zero]
  refine (intervalIntegral.intervalIntegral_pos_of_pos_on ?_ (fun t ht => ?_) zero_lt_one).ne'
  · apply ContinuousOn.intervalIntegrable
    intro t ht
    rw [Set.uIcc_of_le zero_le_one] at ht
    have := ht.1
    apply ContinuousAt.continuousWithinAt
    refine ((ContinuousAt.rpow_const ?_ ?_).mul (ContinuousAt.rpow_const ?_ ?_)).mul (ContinuousAt.rpow_const ?_ ?_)
    · fun_prop
    · left; linarith
    · fun_prop
    · left; linarith
    · fun_prop
    · left; linarith
  · have := ht.1
    have h1 : 0 < 1 + t := by linarith
    have h2 : 0 < 2 + t := by linarith
    have h3 : 0 < 3 + t := by linarith
    positivity

/-- C107: integrate from 0 to 0, set the upper limit to 1 in place, integrate again: the result is 0 although the integral is not. -/
theorem C107_wrong : ∃ es s q, Hist elliptic es s ∧ (∀ i, Arg.obj i ∈ q.args → Held es i) ∧
    (call elliptic s q).1.val (call elliptic s q).2 ≠ elliptic q.m q.h (q.args.map (Arg.now s)) := by
  set q : Query := ⟨[0, 0, 0], 3, [.obj 0, .obj 1, .obj 2, .obj 3, .obj 4]⟩ with hq
  have H0 : Hist elliptic [] ⟨fun _ => 0, 0, []⟩ := .init _
  have H5 := ((((H0.new 0).new 0).new 1).new 2).new 3
  simp only at H5
  set s : St := ⟨_, _, _⟩ with hs
  change Hist elliptic _ s at H5
  have hheld : ∀ i, Arg.obj i ∈ q.args → Held [.created (0 + 1 + 1 + 1 + 1), .created (0 + 1 + 1 + 1), .created (0 + 1 + 1), .created (0 + 1), .created 0] i := by
    intro i hi
    left
    simp [hq] at hi ⊢
    omega
  have Hc := H5.call q hheld
  have hall : ∀ a ∈ q.args, ∃ i, a = .obj i := by
    intro a ha
    simp [hq] at ha
    rcases ha with rfl | rfl | rfl | rfl | rfl <;> exact ⟨_, rfl⟩
  have hc : call elliptic s q = (⟨fun j => if j = 5 then elliptic [0, 0, 0] 3 [0, 0, 1, 2, 3] else s.val j, 6, [(([0, 0, 0], 3, [0, 1, 2, 3, 4]), 5)]⟩, 5) := by
    rfl
  have Hw := Hc.write 1 1 (by left; simp)
  refine ⟨_, _, q, Hw, fun i hi => ?_, ?_⟩
  · have := hheld i hi
    rcases this with h | ⟨_, h⟩
    · left; simp at h ⊢; omega
    · simp at h
  · have st := C107_stale elliptic s q hall 1 1 (by rw [hc]; simp)
    simp only at st
    rw [st]
    have v1 : (call elliptic s q).1.val (call elliptic s q).2 = 0 := by
      rw [hc]
      simp only [if_true]
      rw [elliptic, dif_pos (Or.inl rfl), forward, EllRed.Im, if_pos (by simp)]
      exact EllRed.Ie_zero rfl 0
    rw [v1]
    have v2 : q.args.map (Arg.now ⟨fun j => if j = 1 then 1 else (call elliptic s q).1.val j, (call elliptic s q).1.next, (call elliptic s q).1.cache⟩) = [0, 1, 1, 2, 3] := by
      rw [hc]
      simp [hq, Arg.now, hs]
    rw [v2, hq, elliptic, dif_pos (Or.inl rfl)]
    simp only [Complex.zero_re, Complex.one_re]
    exact forward_pos.symm

/-- A safe history: two tensors are created, one is modified, and a call takes both and a number; then a third tensor is created and modified. -/
example : ∃ es s, Hist elliptic es s ∧ Safe es ∧ (∃ q r, .called q r ∈ es) ∧ (∃ i, .wrote i ∈ es) ∧ Held es 0 ∧ Held es 1 := by
  have H1 := (((Hist.init (F := elliptic) fun _ => 0).new 0).new 0).write 1 1 (by left; simp)
  have H2 := H1.call ⟨[0, 0, 0], 3, [.obj 0, .obj 1, .fresh 1, .fresh 2, .fresh 3]⟩ (fun i hi => by
    left
    simp at hi ⊢
    omega)
  have H3 := (H2.new 7)
  have H4 := H3.write _ 8 (Or.inl List.mem_cons_self)
  refine ⟨_, _, H4, ⟨⟨trivial, by simp⟩, fun q r hq => ?_⟩, ⟨_, _, by simp; exact ⟨rfl, rfl⟩⟩, ⟨1, by simp⟩, Or.inl (by simp), Or.inl (by simp)⟩
  have e : (call elliptic ⟨fun j => if j = 1 then 1 else if j = 0 + 1 then 0 else if j = 0 then 0 else 0, 0 + 1 + 1, []⟩
    ⟨[0, 0, 0], 3, [.obj 0, .obj 1, .fresh 1, .fresh 2, .fresh 3]⟩).2 = 5 := rfl
  simp at hq
  obtain ⟨rfl, rfl⟩ := hq
  refine ⟨?_, ?_⟩
  · change (5 : ℕ) ≠ 6
    norm_num
  · change Arg.obj 6 ∉ _
    simp

end Verif.Ellred.Cache

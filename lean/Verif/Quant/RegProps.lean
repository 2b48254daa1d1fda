import Verif.Quant.RegModel

/-! # C155: which quantity class `unit * x` makes -/

namespace Verif.Quant.Reg

variable (isinst : ℕ → ℕ → Bool)

/-- The registry of a log. -/
def regOf (l : List (Key × ℕ)) : List (Key × ℕ) := l.foldl (fun r x => setDefault r x.1 x.2) []

theorem run_reg_aux (ds : List ClassDef) : ∀ s : St,
    (ds.foldl define s).reg = (log.go s ds).foldl (fun r x => setDefault r x.1 x.2) s.reg := by
  induction ds with
  | nil => intro s; rfl
  | cons d ds ih =>
    intro s
    rw [List.foldl_cons, ih, log.go]
    cases hi : info s d with
    | none => simp [define, hi]
    | some i =>
      cases hb : backend i with
      | none => simp [define, hi, hb]
      | some k => simp [define, hi, hb]

theorem run_reg (ds : List ClassDef) : (run ds).reg = regOf (log ds) := run_reg_aux ds St.init

theorem regOf_snoc (l : List (Key × ℕ)) (x : Key × ℕ) : regOf (l ++ [x]) = setDefault (regOf l) x.1 x.2 := by
  simp [regOf]

theorem mem_regOf (l : List (Key × ℕ)) : ∀ k : Key, k ∈ (regOf l).map Prod.fst ↔ k ∈ l.map Prod.fst := by
  induction l using List.reverseRecOn with
  | nil => intro k; rfl
  | append_singleton l x ih =>
    intro k
    rw [regOf_snoc]
    unfold setDefault
    split
    · rename_i h
      rw [ih, List.map_append, List.mem_append]
      constructor
      · exact Or.inl
      · rintro (h' | h')
        · exact h'
        · simp only [List.map_cons, List.map_nil, List.mem_singleton] at h'
          subst h'
          exact (ih _).mp h
    · simp only [List.map_append, List.mem_append, ih, List.map_cons, List.map_nil]

/-- The dispatch, from the last definition backwards. -/
theorem find_snoc (τ : ℕ) (l : List (Key × ℕ)) (k : Key) (c : ℕ) :
    find isinst τ (regOf (l ++ [(k, c)])).reverse =
      if k ∈ l.map Prod.fst then find isinst τ (regOf l).reverse
      else match k with
        | .var _ => .typeError
        | .ty t => if isinst τ t then .quantity c else find isinst τ (regOf l).reverse := by
  rw [regOf_snoc]
  unfold setDefault
  by_cases h : k ∈ l.map Prod.fst
  · rw [if_pos h, if_pos ((mem_regOf l k).mpr h)]
  · rw [if_neg h, if_neg (fun h' => h ((mem_regOf l k).mp h')), List.reverse_append]
    cases k <;> rfl

theorem first_snoc {l : List (Key × ℕ)} {x : Key × ℕ} {i : ℕ} {k : Key} {c : ℕ} :
    First (l ++ [x]) i k c ↔ First l i k c ∨ (i = l.length ∧ x = (k, c) ∧ k ∉ l.map Prod.fst) := by
  unfold First
  have key : ∀ j, j < l.length → (l ++ [x])[j]? = l[j]? := fun j hj => List.getElem?_append_left hj
  constructor
  · rintro ⟨h1, h2⟩
    rcases lt_trichotomy i l.length with h | h | h
    · left
      refine ⟨by rwa [key i h] at h1, fun j hj c' => ?_⟩
      rw [← key j (by omega)]; exact h2 j hj c'
    · right
      subst h
      refine ⟨rfl, by simpa using h1, ?_⟩
      intro hm
      obtain ⟨y, hy, rfl⟩ := List.mem_map.mp hm
      obtain ⟨j, hj, rfl⟩ := List.mem_iff_getElem.mp hy
      refine h2 j hj (l[j]).2 ?_
      rw [key j hj, List.getElem?_eq_getElem hj]
    · rw [List.getElem?_eq_none (by simp; omega)] at h1
      cases h1
  · rintro (⟨h1, h2⟩ | ⟨rfl, rfl, h3⟩)
    · have hi : i < l.length := by
        by_contra hc
        rw [List.getElem?_eq_none (by omega)] at h1
        cases h1
      refine ⟨by rw [key i hi]; exact h1, fun j hj c' => ?_⟩
      rw [key j (by omega)]; exact h2 j hj c'
    · refine ⟨by simp, fun j hj c' h => h3 ?_⟩
      rw [key j hj] at h
      exact List.mem_map.mpr ⟨_, List.mem_of_getElem? h, rfl⟩

theorem First.lt {l : List (Key × ℕ)} {i : ℕ} {k : Key} {c : ℕ} (h : First l i k c) : i < l.length := by
  by_contra hc
  have := h.1
  rw [List.getElem?_eq_none (by omega)] at this
  cases this

/-- The rule of the dispatch on a log. -/
theorem find_spec (τ : ℕ) (l : List (Key × ℕ)) :
    match find isinst τ (regOf l).reverse with
    | .quantity c => ∃ i t, First l i (.ty t) c ∧ isinst τ t ∧
        ∀ j k d, i < j → First l j k d → ∃ t', k = .ty t' ∧ isinst τ t' = false
    | .typeError => ∃ i n d, First l i (.var n) d ∧
        ∀ j k d, i < j → First l j k d → ∃ t', k = .ty t' ∧ isinst τ t' = false
    | .notImplemented => ∀ j k d, First l j k d → ∃ t', k = .ty t' ∧ isinst τ t' = false := by
  induction l using List.reverseRecOn with
  | nil =>
    intro j k d h
    exact absurd h.lt (by simp)
  | append_singleton l x ih =>
    obtain ⟨k, c⟩ := x
    rw [find_snoc]
    by_cases hk : k ∈ l.map Prod.fst
    · rw [if_pos hk]
      have hf : ∀ {i k' d}, First (l ++ [(k, c)]) i k' d ↔ First l i k' d := by
        intro i k' d
        rw [first_snoc]
        constructor
        · rintro (h | ⟨-, h, h'⟩)
          · exact h
          · cases h; exact absurd hk h'
        · exact Or.inl
      simp only [hf]
      exact ih
    · rw [if_neg hk]
      have hlast : First (l ++ [(k, c)]) l.length k c := first_snoc.mpr (Or.inr ⟨rfl, rfl, hk⟩)
      have hnone : ∀ j k' d, l.length < j → First (l ++ [(k, c)]) j k' d →
          ∃ t', k' = .ty t' ∧ isinst τ t' = false := by
        intro j k' d hj h
        have := h.lt
        simp at this
        omega
      cases k with
      | var n => exact ⟨_, n, c, hlast, hnone⟩
      | ty t =>
        simp only []
        by_cases ht : isinst τ t = true
        · rw [if_pos ht]
          exact ⟨_, t, hlast, ht, hnone⟩
        · rw [if_neg ht]
          have hlift : ∀ j k' d, First (l ++ [(.ty t, c)]) j k' d → First l j k' d ∨ (k' = .ty t ∧ j = l.length) := by
            intro j k' d h
            rcases first_snoc.mp h with h | ⟨h1, h2, -⟩
            · exact Or.inl h
            · cases h2; exact Or.inr ⟨rfl, h1⟩
          have ht' : isinst τ t = false := by simpa using ht
          revert ih
          cases find isinst τ (regOf l).reverse with
          | quantity c' =>
            rintro ⟨i, t', hi, hti, hl⟩
            refine ⟨i, t', first_snoc.mpr (Or.inl hi), hti, fun j k' d hj h => ?_⟩
            rcases hlift j k' d h with h | ⟨rfl, -⟩
            · exact hl j k' d hj h
            · exact ⟨t, rfl, ht'⟩
          | typeError =>
            rintro ⟨i, n, d', hi, hl⟩
            refine ⟨i, n, d', first_snoc.mpr (Or.inl hi), fun j k' d hj h => ?_⟩
            rcases hlift j k' d h with h | ⟨rfl, -⟩
            · exact hl j k' d hj h
            · exact ⟨t, rfl, ht'⟩
          | notImplemented =>
            intro hl j k' d h
            rcases hlift j k' d h with h | ⟨rfl, -⟩
            · exact hl j k' d h
            · exact ⟨t, rfl, ht'⟩

theorem First.key_inj {l : List (Key × ℕ)} {i j : ℕ} {k : Key} {c d : ℕ} (h : First l i k c) (h' : First l j k d) :
    i = j ∧ c = d := by
  rcases lt_trichotomy i j with h1 | h1 | h1
  · exact absurd h.1 (h'.2 i h1 c)
  · subst h1
    have := h.1.symm.trans h'.1
    simp at this
    exact ⟨rfl, this⟩
  · exact absurd h'.1 (h.2 j h1 d)

/-! ### Statements -/

/-- **C155** (partial: what holds).  After any history of class definitions, `unit * x` makes a quantity of class `c` iff `c`
was the first class for some backend type that `x` is an instance of, and no backend introduced later fits `x` or is
a `TypeVar`. -/
theorem C155_quantity_partial (ds : List ClassDef) (τ c : ℕ) : mulOther isinst (run ds) τ = .quantity c ↔
    ∃ i t, First (log ds) i (.ty t) c ∧ isinst τ t ∧
      ∀ j k d, i < j → First (log ds) j k d → ∃ t', k = .ty t' ∧ isinst τ t' = false := by
  unfold mulOther
  rw [run_reg]
  have h := find_spec isinst τ (log ds)
  constructor
  · intro e; rw [e] at h; exact h
  · rintro ⟨i, t, hi, hti, hl⟩
    revert h
    cases find isinst τ (regOf (log ds)).reverse with
    | quantity c' =>
      rintro ⟨i', t', hi', hti', hl'⟩
      rcases lt_trichotomy i i' with h1 | h1 | h1
      · obtain ⟨t'', e, h2⟩ := hl _ _ _ h1 hi'
        cases e; rw [hti'] at h2; cases h2
      · subst h1
        have := hi.1.symm.trans hi'.1
        simp at this
        rw [this.2]
      · obtain ⟨t'', e, h2⟩ := hl' _ _ _ h1 hi
        cases e; rw [hti] at h2; cases h2
    | typeError =>
      rintro ⟨i', n, d, hi', hl'⟩
      rcases lt_trichotomy i i' with h1 | h1 | h1
      · obtain ⟨t'', e, -⟩ := hl _ _ _ h1 hi'
        cases e
      · subst h1
        have := hi.1.symm.trans hi'.1
        simp at this
      · obtain ⟨t'', e, h2⟩ := hl' _ _ _ h1 hi
        cases e; rw [hti] at h2; cases h2
    | notImplemented =>
      intro h
      obtain ⟨t'', e, h2⟩ := h _ _ _ hi
      cases e; rw [hti] at h2; cases h2

/-- **C155** (partial).  It is refused (`NotImplemented`) iff no class has a `TypeVar` as its backend and `x` is an instance of no
backend type. -/
theorem C155_notImplemented_partial (ds : List ClassDef) (τ : ℕ) : mulOther isinst (run ds) τ = .notImplemented ↔
    ∀ k d, (k, d) ∈ log ds → ∃ t, k = .ty t ∧ isinst τ t = false := by
  have hex : ∀ k d, (k, d) ∈ log ds → ∃ i d', First (log ds) i k d' := by
    intro k d h
    classical
    have : ∃ i : ℕ, ∃ d' : ℕ, (log ds)[i]? = some (k, d') := by
      obtain ⟨i, hi⟩ := List.mem_iff_getElem?.mp h
      exact ⟨i, d, hi⟩
    obtain ⟨d', h'⟩ := Nat.find_spec this
    exact ⟨Nat.find this, d', h', fun j hj c' hc => Nat.find_min this hj ⟨c', hc⟩⟩
  unfold mulOther
  rw [run_reg]
  have h := find_spec isinst τ (log ds)
  constructor
  · intro e k d hm
    rw [e] at h
    obtain ⟨i, d', hf⟩ := hex k d hm
    exact h _ _ _ hf
  · intro hl
    revert h
    cases find isinst τ (regOf (log ds)).reverse with
    | quantity c' =>
      rintro ⟨i', t', hi', hti', -⟩
      obtain ⟨t, e, h2⟩ := hl _ _ (List.mem_of_getElem? hi'.1)
      cases e; rw [hti'] at h2; cases h2
    | typeError =>
      rintro ⟨i', n, d, hi', -⟩
      obtain ⟨t, e, h2⟩ := hl _ _ (List.mem_of_getElem? hi'.1)
      cases e
    | notImplemented => intro _; rfl

/-- **C155** (partial: backends defined from the general to the special).  If every backend is a type and no backend is a
subtype of one introduced later, the backend used is the most special one that fits. -/
theorem C155_most_specific_partial (ds : List ClassDef) (τ c : ℕ)
    (hord : ∀ i j t t' d d', i < j → First (log ds) i (.ty t) d → First (log ds) j (.ty t') d' → isinst t t' = false)
    (h : mulOther isinst (run ds) τ = .quantity c) :
    ∃ t, (∃ i, First (log ds) i (.ty t) c) ∧ isinst τ t ∧
      ∀ t' d j, First (log ds) j (.ty t') d → isinst τ t' → isinst t' t → t' = t := by
  obtain ⟨i, t, hi, hti, hl⟩ := (C155_quantity_partial isinst ds τ c).mp h
  refine ⟨t, ⟨i, hi⟩, hti, fun t' d j hj ht' hsub => ?_⟩
  rcases lt_trichotomy i j with h1 | h1 | h1
  · obtain ⟨t'', e, h2⟩ := hl _ _ _ h1 hj
    cases e; rw [ht'] at h2; cases h2
  · subst h1
    have := hi.1.symm.trans hj.1
    simp at this
    exact this.1.symm
  · rw [hord j i t' t d c h1 hj hi] at hsub
    cases hsub

theorem log_snoc_aux (ds : List ClassDef) (d : ClassDef) : ∀ s : St, log.go s (ds ++ [d]) = log.go s ds ++
    (match (info (ds.foldl define s) d).bind backend with
      | none => []
      | some k => [(k, d.name)]) := by
  induction ds with
  | nil =>
    intro s
    simp only [List.nil_append, log.go, List.foldl_nil]
    cases (info s d).bind backend <;> rfl
  | cons e ds ih =>
    intro s
    simp only [List.cons_append, log.go, List.foldl_cons, ih]
    split <;> simp

/-- The backend of a new class is the first type argument of the base whose number is `_generic_class_index`, where the type
arguments and the index are those of the class body or else those of its parent.  If that base has no type arguments, the
class definition raises and leaves no trace. -/
theorem C155_backend (ds : List ClassDef) (d : ClassDef) (p : Info) (hp : (run ds).classes.lookup d.parent = some p) :
    (∀ k rest, (d.orig.getD p.orig)[d.index.getD p.index]? = some (k :: rest) →
      log (ds ++ [d]) = log ds ++ [(k, d.name)] ∧
      (run (ds ++ [d])).classes.lookup d.name = some ⟨d.orig.getD p.orig, d.index.getD p.index⟩) ∧
    ((d.orig.getD p.orig)[d.index.getD p.index]?.getD [] = [] →
      log (ds ++ [d]) = log ds ∧ run (ds ++ [d]) = run ds) := by
  have hr : run (ds ++ [d]) = define (run ds) d := by simp [run]
  have hl : log (ds ++ [d]) = log ds ++ _ := log_snoc_aux ds d St.init
  have hi : info (run ds) d = some ⟨d.orig.getD p.orig, d.index.getD p.index⟩ := by simp [info, hp]
  have hi' : info (ds.foldl define St.init) d = some ⟨d.orig.getD p.orig, d.index.getD p.index⟩ := hi
  rw [hi'] at hl
  constructor
  · intro k rest hk
    have hb : backend ⟨d.orig.getD p.orig, d.index.getD p.index⟩ = some k := by simp [backend, hk]
    refine ⟨?_, ?_⟩
    · rw [hl]; simp [hb]
    · rw [hr]; simp [define, hi, hb]
  · intro hk
    have hb : backend ⟨d.orig.getD p.orig, d.index.getD p.index⟩ = none := by
      unfold backend
      simp only []
      cases h : (d.orig.getD p.orig)[d.index.getD p.index]? with
      | none => rfl
      | some l => rw [h] at hk; simp only [Option.getD_some] at hk; simp [hk]
    refine ⟨?_, ?_⟩
    · rw [hl]; simp [hb]
    · rw [hr]; simp [define, hi, hb]

theorem classes_inv (ds : List ClassDef) : ∀ s : St,
    (∀ n i, (n, i) ∈ s.classes → n ≠ 0 → ∃ k, backend i = some k ∧ k ∈ s.reg.map Prod.fst) →
    ∀ n i, (n, i) ∈ (ds.foldl define s).classes → n ≠ 0 →
      ∃ k, backend i = some k ∧ k ∈ (ds.foldl define s).reg.map Prod.fst := by
  induction ds with
  | nil => intro s h; exact h
  | cons d ds ih =>
    intro s h
    rw [List.foldl_cons]
    refine ih _ ?_
    cases hi : info s d with
    | none => simpa [define, hi] using h
    | some j =>
      cases hb : backend j with
      | none => simpa [define, hi, hb] using h
      | some k =>
        simp only [define, hi, hb]
        have hk : k ∈ (setDefault s.reg k d.name).map Prod.fst := by
          unfold setDefault
          split
          · assumption
          · simp
        have hmono : ∀ k', k' ∈ s.reg.map Prod.fst → k' ∈ (setDefault s.reg k d.name).map Prod.fst := by
          intro k' h'
          unfold setDefault
          split
          · exact h'
          · rw [List.map_append, List.mem_append]; exact Or.inl h'
        intro n i hm hn
        rcases List.mem_cons.mp hm with h' | h'
        · cases h'; exact ⟨k, hb, hk⟩
        · obtain ⟨k', h1, h2⟩ := h n i h' hn
          exact ⟨k', h1, hmono _ h2⟩

theorem mem_of_lookup {l : List (ℕ × Info)} {n : ℕ} {i : Info} (h : l.lookup n = some i) : (n, i) ∈ l := by
  induction l with
  | nil => cases h
  | cons x l ih =>
    obtain ⟨m, j⟩ := x
    rw [List.lookup_cons] at h
    by_cases hm : n == m
    · simp only [hm] at h
      cases h
      rw [beq_iff_eq] at hm
      subst hm
      exact List.mem_cons_self
    · simp only [hm] at h
      exact List.mem_cons_of_mem _ (ih h)

/-- A class that derives from a quantity class (other than `GenericQuantity`) without type arguments changes the outcome of
no product: `unit * x` never makes its instances. -/
theorem C155_subclass_inert (ds : List ClassDef) (n p : ℕ) (hp : p ≠ 0) (τ : ℕ) :
    mulOther isinst (run (ds ++ [⟨n, p, none, none⟩])) τ = mulOther isinst (run ds) τ := by
  have hinv := classes_inv ds St.init (by
    intro n i hm hn
    simp only [St.init, List.mem_singleton, Prod.mk.injEq] at hm
    exact absurd hm.1 hn)
  have hr : run (ds ++ [⟨n, p, none, none⟩]) = define (run ds) ⟨n, p, none, none⟩ := by simp [run]
  unfold mulOther
  rw [hr]
  congr 2
  unfold define info
  cases hl : (run ds).classes.lookup p with
  | none => rfl
  | some i =>
    obtain ⟨k, h1, h2⟩ := hinv p i (mem_of_lookup hl) hp
    simp only [Option.map_some, Option.getD_none]
    rw [show backend (⟨i.orig, i.index⟩ : Info) = some k from h1]
    simp only [setDefault]
    exact if_pos h2

/-- An abstract class `class Q(GenericQuantity)` or `class Q(GenericQuantity[T])` with a type variable disables the product of
units with everything: whatever was registered before, `unit * x` then raises TypeError for every `x`. -/
theorem C155_abstract_fails (ds : List ClassDef) (n v : ℕ) (orig : List (List Key)) (τ : ℕ)
    (hp : (run ds).classes.lookup 0 = some ⟨[[.var 0], []], 0⟩) (hv : ∀ d, (Key.var v, d) ∉ log ds) :
    mulOther isinst (run (ds ++ [⟨n, 0, some ([.var v] :: orig), none⟩])) τ = .typeError := by
  have hr : run (ds ++ [⟨n, 0, some ([.var v] :: orig), none⟩]) =
      define (run ds) ⟨n, 0, some ([.var v] :: orig), none⟩ := by simp [run]
  have hmem : Key.var v ∉ (run ds).reg.map Prod.fst := by
    rw [run_reg, mem_regOf]
    intro h
    obtain ⟨⟨k, d⟩, h1, h2⟩ := List.mem_map.mp h
    simp only [] at h2
    subst h2
    exact hv d h1
  unfold mulOther
  rw [hr]
  simp [define, info, hp, backend, setDefault, if_neg hmem, find]

/-- The definition of `TensorQuantity(GenericQuantity[Tensor], Tensor)` (tensor_quantity.py 17): class 1, `Tensor` is type 0. -/
def tensorQuantity : ClassDef := ⟨1, 0, some [[.ty 0], []], none⟩

/-- With `TensorQuantity` alone, tensors (and instances of subclasses) are multiplied and nothing else. -/
example (τ : ℕ) : mulOther isinst (run [tensorQuantity]) τ = if isinst τ 0 then .quantity 1 else .notImplemented := by
  simp [mulOther, run, tensorQuantity, define, info, St.init, backend, setDefault, find]

/-- After `class Q(GenericQuantity[T])` not even tensors. -/
example : mulOther isinst (run [tensorQuantity, ⟨2, 0, some [[.var 1]], none⟩]) 0 = .typeError :=
  C155_abstract_fails isinst [tensorQuantity] 2 1 [] 0 rfl (by
    intro d h; simp [log, log.go, tensorQuantity, info, St.init, backend] at h)

/-- The most special backend is not always used: with a quantity class for a type of tensors (type 1) defined before the one for
tensors, instances of type 1 become quantities of the latter. -/
theorem C155_most_specific_fails : ¬ ∀ (isinst : ℕ → ℕ → Bool) (ds : List ClassDef) (τ c : ℕ), (∀ t, isinst t t = true) →
    mulOther isinst (run ds) τ = .quantity c →
    ∃ t, (∃ i, First (log ds) i (.ty t) c) ∧ isinst τ t ∧
      ∀ t' d j, First (log ds) j (.ty t') d → isinst τ t' → isinst t' t → t' = t := by
  intro h
  have hl : log [⟨2, 0, some [[.ty 1], []], none⟩, tensorQuantity] = [(.ty 1, 2), (.ty 0, 1)] := by
    decide
  obtain ⟨t, ⟨i, hi⟩, -, h3⟩ := h (fun a b => decide (b ≤ a)) [⟨2, 0, some [[.ty 1], []], none⟩, tensorQuantity] 1 1
    (by simp) (by decide)
  rw [hl] at hi h3
  have ht : t = 0 := by
    have := List.mem_of_getElem? hi.1
    simpa using this
  subst ht
  have := h3 1 2 0 ⟨rfl, by intro j hj; omega⟩ (by simp) (by simp)
  omega

/-- The hypotheses of the partial theorems are met: tensors first, then a special type of tensors. -/
example : mulOther (fun a b => decide (b ≤ a)) (run [tensorQuantity, ⟨2, 0, some [[.ty 1], []], none⟩]) 1 = .quantity 2 := by
  decide

/-- `class Q(Mixin, GenericQuantity[T])` raises IndexError; with `_generic_class_index = 1` it is registered. -/
example : run [⟨2, 0, some [[], [.ty 3]], none⟩] = run [] ∧ log [⟨2, 0, some [[], [.ty 3]], some 1⟩] = [(.ty 3, 2)] :=
  ⟨((C155_backend [] ⟨2, 0, some [[], [.ty 3]], none⟩ ⟨[[.var 0], []], 0⟩ rfl).2 rfl).2, by decide⟩

end Verif.Quant.Reg

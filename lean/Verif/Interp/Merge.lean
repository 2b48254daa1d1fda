import Verif.Interp.Linear

/-! # `Linear1dInterpolator.merge` (C147) -/

namespace Verif.Interp.Merge

open Verif.Interp

/-! ### Model -/

/-- Exceptions. -/
inductive Err
  | assertion | attribute | runtime
  deriving DecidableEq

/-- Attributes of an interpolator: tensors, shapes and numbers of dimensions. -/
inductive Val
  | tensor (l : List ℝ)
  | shape (l : List ℕ)
  | int (n : ℕ)

/-- An instance, by its attributes. -/
abbrev Inst := List (String × Val)

/-- `o.name` for an attribute that holds a tensor. -/
def getTensor (o : Inst) (name : String) : Except Err (List ℝ) :=
  match o.lookup name with
  | some (.tensor l) => .ok l
  | _ => .error .attribute

/-- `Linear1dInterpolator.__init__` (Linear1dInterpolator.py:28-30, abc.py:14-27) for `x` and `y` without batch and channel dimensions. -/
def mk1d (x y : List ℝ) : Except Err Inst :=
  if x.length = y.length then
    .ok [("grid_shape", .shape [x.length]), ("ndim", .int 1), ("channel_shape", .shape []), ("channel_ndim", .int 0), ("batch_shape", .shape []),
      ("batch_ndim", .int 0), ("x", .tensor x), ("y", .tensor y)]
  else .error .assertion

/-- The constructor of a subclass that also provides an attribute `values` with the ordinates, as `LinearNDGridInterpolator` does
(LinearNDGridInterpolator.py:16). -/
def mkValued (x y : List ℝ) : Except Err Inst := (mk1d x y).map fun o => ("values", .tensor y) :: o

/-- `o(t)` (Linear1dInterpolator.py:45-49) for a one-dimensional `t`. -/
noncomputable def callAll (o : Inst) (t : List ℝ) : Except Err (List ℝ) := do
  let x ← getTensor o "x"
  let y ← getTensor o "y"
  return t.map (linear1d x y)

/-- `merge` (Linear1dInterpolator.py:54-73) for interpolators without batch and channel dimensions (where `channel_first`, `aligned_expand` and `movedim` change
nothing). `make` is `type(self)`, `op` acts elementwise. The assignments through the masks are `scatter`; a failed one raises. -/
noncomputable def merge (make : List ℝ → List ℝ → Except Err Inst) (self other : Inst) (op : ℝ → ℝ → ℝ) : Except Err Inst := do
  let xl ← getTensor self "x"
  let xr ← getTensor other "x"
  match mergeGrids xl xr with
  | none => .error .runtime
  | some (x, _, mright) =>
    -- s, o = self, other
    let v0 ← getTensor self "values"
    let w0 ← callAll self xr
    match scatter mright v0 w0 with
    | none => .error .runtime
    | some y0 =>
      -- s, o = other, self
      let v1 ← getTensor other "values"
      let w1 ← callAll other xl
      match scatter mright w1 v1 with
      | none => .error .runtime
      | some y1 => make x (List.zipWith op y0 y1)

open Classical in
/-- `o(t)` for a number; `none` is NaN (`dydx` divides by zero in an interval of length 0). -/
noncomputable def call (o : Inst) (t : ℝ) : Except Err (Option ℝ) := do
  let x ← getTensor o "x"
  let y ← getTensor o "y"
  return if at' (diff x) (projectOne x t) = 0 then none else some (linear1d x y t)

/-! ### Proofs -/

theorem scatter_map (f : ℝ → ℝ) (m : List Bool) (l r g : List ℝ) (h : scatter m l r = some g) : scatter m (l.map f) (r.map f) = some (g.map f) := by
  induction m generalizing l r g with
  | nil => cases l <;> cases r <;> simp_all [scatter]
  | cons b m ih =>
    cases b with
    | false =>
      cases l with
      | nil => cases r <;> simp [scatter] at h
      | cons a l =>
        simp only [scatter, Option.map_eq_some_iff] at h
        obtain ⟨g', h1, rfl⟩ := h
        simp [scatter, ih l r g' h1]
    | true =>
      cases r with
      | nil => cases l <;> simp [scatter] at h
      | cons a r =>
        simp only [scatter, Option.map_eq_some_iff] at h
        obtain ⟨g', h1, rfl⟩ := h
        simp [scatter, ih l r g' h1]

theorem mk1d_ok {x y : List ℝ} {o : Inst} (h : mk1d x y = .ok o) :
    x.length = y.length ∧ getTensor o "x" = .ok x ∧ getTensor o "y" = .ok y ∧ getTensor o "values" = .error .attribute := by
  unfold mk1d at h
  split_ifs at h with hl
  cases h
  exact ⟨hl, rfl, rfl, rfl⟩

theorem mkValued_eq {x y : List ℝ} (hl : x.length = y.length) : ∃ o, mkValued x y = .ok o ∧ getTensor o "x" = .ok x ∧ getTensor o "y" = .ok y ∧
    getTensor o "values" = .ok y := by
  simp only [mkValued, mk1d, if_pos hl, Except.map]
  exact ⟨_, rfl, rfl, rfl, rfl⟩

theorem at'_map (f : ℝ → ℝ) (g : List ℝ) (i : ℕ) (h : i < g.length) : at' (g.map f) i = f (at' g i) := by
  rw [at'_eq _ _ (by simpa), at'_eq _ _ h]
  simp

theorem values_eq {x y : List ℝ} (hl : x.length = y.length) (h2 : 2 ≤ x.length) (hs : x.Pairwise (· < ·)) : x.map (linear1d x y) = y := by
  apply List.ext_getElem (by simpa using hl)
  intro i h1 h3
  have hi : i < x.length := by simpa using h1
  rw [List.getElem_map, ← at'_eq x i hi, C52_knots x y hl h2 hs i hi, at'_eq]

/-- On an interval that contains no knot inside, extended beyond the grid at its ends, the interpolant is affine. -/
theorem affine_on {x y : List ℝ} (hl : x.length = y.length) (h2 : 2 ≤ x.length) (hs : x.Pairwise (· < ·)) {a b t : ℝ} (hab : a < b)
    (hno : ∀ k ∈ x, k ≤ a ∨ b ≤ k) (h0 : a ≤ t ∨ ∀ k ∈ x, a ≤ k) (h1 : t ≤ b ∨ ∀ k ∈ x, k ≤ b) :
    linear1d x y t = linear1d x y a + (t - a) * ((linear1d x y b - linear1d x y a) / (b - a)) := by
  have hw := strict_weak hs
  obtain ⟨hj, c1, c2, c3, c4⟩ := C51_bracket x hw h2 a
  set j := projectOne x a with hjd
  have hlt := sorted_lt x hs j (j + 1) (by omega) hj
  have ja : at' x j ≤ a ∨ j = 0 := by
    by_cases h : at' x 0 ≤ a
    · exact Or.inl (c1 h)
    · exact Or.inr (c3 (not_le.mp h))
  have jb : b ≤ at' x (j + 1) ∨ j + 2 = x.length := by
    by_cases h : a < at' x (x.length - 1)
    · rcases hno _ (at'_mem x (j + 1) hj) with h' | h'
      · exact absurd (c2 h) (not_lt.mpr h')
      · exact Or.inl h'
    · exact Or.inr (c4 (not_lt.mp h))
  have jt0 : at' x j ≤ t ∨ j = 0 := by
    rcases h0 with h | h
    · exact ja.imp_left fun h' => h'.trans h
    · by_contra hc
      push Not at hc
      have := sorted_lt x hs 0 j (by omega) (by omega)
      have := h _ (at'_mem x 0 (by omega))
      rcases ja with h' | h'
      · linarith
      · exact hc.2 h'
  have jt1 : t ≤ at' x (j + 1) ∨ j + 2 = x.length := by
    rcases h1 with h | h
    · exact jb.imp_left fun h' => h.trans h'
    · by_contra hc
      push Not at hc
      have := sorted_lt x hs (j + 1) (x.length - 1) (by omega) (by omega)
      have := h _ (at'_mem x (x.length - 1) (by omega))
      rcases jb with h' | h'
      · linarith
      · exact hc.2 h'
  have ja1 : a ≤ at' x (j + 1) ∨ j + 2 = x.length := jb.imp_left fun h => hab.le.trans h
  have jb0 : at' x j ≤ b ∨ j = 0 := ja.imp_left fun h => h.trans hab.le
  rw [linear1d_on x y hl h2 hs j hj t jt0 jt1, linear1d_on x y hl h2 hs j hj a ja ja1, linear1d_on x y hl h2 hs j hj b jb0 jb]
  have : b - a ≠ 0 := by linarith
  have : at' x (j + 1) - at' x j ≠ 0 := by linarith
  field_simp
  ring

/-- **C147** `merge` of two interpolators of this class never succeeds: on sorted grids it raises `AttributeError` (the class has no attribute `values`), on others
that or the error of `merge_grids`. -/
theorem C147_raises (x1 y1 x2 y2 : List ℝ) (o1 o2 : Inst) (h1 : mk1d x1 y1 = .ok o1) (h2 : mk1d x2 y2 = .ok o2) (op : ℝ → ℝ → ℝ) :
    (merge mk1d o1 o2 op = .error .attribute ∨ merge mk1d o1 o2 op = .error .runtime) ∧
    (x1.Pairwise (· ≤ ·) → x2.Pairwise (· ≤ ·) → merge mk1d o1 o2 op = .error .attribute) := by
  obtain ⟨-, a1, -, a3⟩ := mk1d_ok h1
  obtain ⟨-, b1, -, -⟩ := mk1d_ok h2
  have e : merge mk1d o1 o2 op = match mergeGrids x1 x2 with
      | none => .error .runtime
      | some _ => .error .attribute := by
    unfold merge
    rw [a1, b1, a3]
    simp only [bind, Except.bind]
    cases mergeGrids x1 x2 <;> rfl
  constructor
  · rw [e]
    cases mergeGrids x1 x2
    · exact Or.inr rfl
    · exact Or.inl rfl
  · intro s1 s2
    obtain ⟨g, ml, mr, h, -⟩ := C55_merge x1 x2 s1 s2
    rw [e, h]

/-- The merged interpolator. -/
theorem merge_eq {x1 y1 x2 y2 : List ℝ} (l1 : x1.length = y1.length) (l2 : x2.length = y2.length) (n1 : 2 ≤ x1.length) (n2 : 2 ≤ x2.length)
    (s1 : x1.Pairwise (· < ·)) (s2 : x2.Pairwise (· < ·)) (op : ℝ → ℝ → ℝ) :
    ∃ o1 o2 o g, mkValued x1 y1 = .ok o1 ∧ mkValued x2 y2 = .ok o2 ∧ merge mkValued o1 o2 op = .ok o ∧ g.Pairwise (· ≤ ·) ∧ g.Perm (x1 ++ x2) ∧
      getTensor o "x" = .ok g ∧ getTensor o "y" = .ok (g.map fun t => op (linear1d x1 y1 t) (linear1d x2 y2 t)) := by
  obtain ⟨o1, e1, a1, a2, a3⟩ := mkValued_eq l1
  obtain ⟨o2, e2, b1, b2, b3⟩ := mkValued_eq l2
  obtain ⟨g, h1, h2⟩ := scatter_sorted x1 x2 (strict_weak s1) (strict_weak s2)
  obtain ⟨-, -, -, s4⟩ := scatter_select _ _ _ _ h1
  have k1 := scatter_map (linear1d x1 y1) _ _ _ _ h1
  have k2 := scatter_map (linear1d x2 y2) _ _ _ _ h1
  rw [values_eq l1 n1 s1] at k1
  rw [values_eq l2 n2 s2] at k2
  obtain ⟨o, e3, c1, c2, -⟩ := mkValued_eq (x := g) (y := g.map fun t => op (linear1d x1 y1 t) (linear1d x2 y2 t)) (by simp)
  refine ⟨o1, o2, o, g, e1, e2, ?_, h2, s4, c1, c2⟩
  unfold merge
  rw [a1, b1, a3, b3]
  simp only [bind, Except.bind, mergeGrids, h1, Option.map_some, callAll, a1, a2, b1, b2, pure, Except.pure, k1, k2]
  rw [List.zipWith_map, List.zipWith_self, e3]

/-- Value of the merged interpolator on an interval of positive length. -/
theorem call_eq {o : Inst} {g : List ℝ} {h : ℝ → ℝ} (c1 : getTensor o "x" = .ok g) (c2 : getTensor o "y" = .ok (g.map h)) (hg : 2 ≤ g.length) (t : ℝ)
    (hne : at' g (projectOne g t) < at' g (projectOne g t + 1)) :
    call o t = .ok (some (h (at' g (projectOne g t)) + (t - at' g (projectOne g t)) *
      ((h (at' g (projectOne g t + 1)) - h (at' g (projectOne g t))) / (at' g (projectOne g t + 1) - at' g (projectOne g t))))) := by
  have hi := project_lt g hg t
  simp only [call, c1, c2, bind, Except.bind, pure, Except.pure]
  rw [at'_diff g _ hi, if_neg (by linarith), linear1d_eq g _ (by simp) hg, at'_map h g _ (by omega), at'_map h g _ hi]

theorem twice {x1 x2 g : List ℝ} (s1 : x1.Pairwise (· < ·)) (s2 : x2.Pairwise (· < ·)) (hp : g.Perm (x1 ++ x2)) {i j : ℕ} (hij : i < j) (hj : j < g.length)
    (he : at' g i = at' g j) : at' g i ∈ x1 ∧ at' g i ∈ x2 := by
  have hd : List.Duplicate (at' g i) g := by
    rw [List.duplicate_iff_exists_distinct_get]
    refine ⟨⟨i, by omega⟩, ⟨j, hj⟩, hij, ?_, ?_⟩
    · rw [List.get_eq_getElem, at'_eq]
    · rw [List.get_eq_getElem, he, at'_eq]
  rw [List.duplicate_iff_two_le_count, hp.count_eq, List.count_append] at hd
  have c1 : x1.count (at' g i) ≤ 1 := List.nodup_iff_count_le_one.mp (s1.imp fun h => ne_of_lt h) _
  have c2 : x2.count (at' g i) ≤ 1 := List.nodup_iff_count_le_one.mp (s2.imp fun h => ne_of_lt h) _
  exact ⟨List.count_pos_iff.mp (by omega), List.count_pos_iff.mp (by omega)⟩

theorem first_le {x : List ℝ} (s : x.Pairwise (· < ·)) {k : ℝ} (hk : k ∈ x) : at' x 0 ≤ k := by
  obtain ⟨i, hi, rfl⟩ := List.getElem_of_mem hk
  rw [← at'_eq x i hi]
  exact sorted_le x (strict_weak s) 0 i (by omega) hi

theorem le_last {x : List ℝ} (s : x.Pairwise (· ≤ ·)) {k : ℝ} (hk : k ∈ x) : k ≤ at' x (x.length - 1) := by
  obtain ⟨i, hi, rfl⟩ := List.getElem_of_mem hk
  rw [← at'_eq x i hi]
  exact sorted_le x s i (x.length - 1) (by omega) (by omega)

section
variable {x1 x2 g : List ℝ} (n1 : 2 ≤ x1.length) (n2 : 2 ≤ x2.length) (s1 : x1.Pairwise (· < ·)) (s2 : x2.Pairwise (· < ·)) (hg : g.Pairwise (· ≤ ·))
  (hp : g.Perm (x1 ++ x2))
include n1 n2 s1 s2 hg hp

theorem first_iff : at' g 0 = at' g 1 ↔ at' x1 0 = at' x2 0 := by
  have hlen : g.length = x1.length + x2.length := by rw [hp.length_eq, List.length_append]
  have hmin : ∀ k ∈ x1 ++ x2, at' g 0 ≤ k := fun k hk => by
    obtain ⟨i, hi, rfl⟩ := List.getElem_of_mem (hp.mem_iff.mpr hk)
    rw [← at'_eq g i hi]
    exact sorted_le g hg 0 i (by omega) hi
  have m1 : at' x1 0 ∈ x1 := at'_mem _ _ (by omega)
  have m2 : at' x2 0 ∈ x2 := at'_mem _ _ (by omega)
  constructor
  · intro h
    obtain ⟨h1, h2⟩ := twice s1 s2 hp (i := 0) (j := 1) (by omega) (by omega) h
    rw [le_antisymm (first_le s1 h1) (hmin _ (by simp [m1])), le_antisymm (first_le s2 h2) (hmin _ (by simp [m2]))]
  · intro h
    have c : 2 ≤ g.count (at' x1 0) := by
      rw [hp.count_eq, List.count_append]
      have := List.count_pos_iff.mpr m1
      rw [← h] at m2
      have := List.count_pos_iff.mpr m2
      omega
    rw [← List.duplicate_iff_two_le_count, List.duplicate_iff_exists_distinct_get] at c
    obtain ⟨i, j, hij, e1, e2⟩ := c
    have hij' : i.1 < j.1 := hij
    rw [List.get_eq_getElem, ← at'_eq] at e2
    have h0 : at' g 0 ≤ at' g 1 := sorted_le g hg 0 1 (by omega) (by omega)
    have h1 : at' g 1 ≤ at' g j.1 := sorted_le g hg 1 j.1 (by omega) j.2
    have hle : at' x1 0 ≤ at' g 0 := by
      have := hp.mem_iff.mp (at'_mem g 0 (by omega))
      rcases List.mem_append.mp this with hm | hm
      · exact first_le s1 hm
      · rw [h]; exact first_le s2 hm
    linarith

theorem last_iff : at' g (g.length - 2) = at' g (g.length - 1) ↔ at' x1 (x1.length - 1) = at' x2 (x2.length - 1) := by
  have hlen : g.length = x1.length + x2.length := by rw [hp.length_eq, List.length_append]
  have hmax : ∀ k ∈ x1 ++ x2, k ≤ at' g (g.length - 1) := fun k hk => le_last hg (hp.mem_iff.mpr hk)
  have m1 : at' x1 (x1.length - 1) ∈ x1 := at'_mem _ _ (by omega)
  have m2 : at' x2 (x2.length - 1) ∈ x2 := at'_mem _ _ (by omega)
  constructor
  · intro h
    obtain ⟨h1, h2⟩ := twice s1 s2 hp (i := g.length - 2) (j := g.length - 1) (by omega) (by omega) h
    rw [h] at h1 h2
    rw [le_antisymm (hmax _ (by simp [m1])) (le_last (strict_weak s1) h1), le_antisymm (hmax _ (by simp [m2])) (le_last (strict_weak s2) h2)]
  · intro h
    have c : 2 ≤ g.count (at' x1 (x1.length - 1)) := by
      rw [hp.count_eq, List.count_append]
      have := List.count_pos_iff.mpr m1
      rw [← h] at m2
      have := List.count_pos_iff.mpr m2
      omega
    rw [← List.duplicate_iff_two_le_count, List.duplicate_iff_exists_distinct_get] at c
    obtain ⟨i, j, hij, e1, e2⟩ := c
    have hij' : i.1 < j.1 := hij
    have hj := j.2
    rw [List.get_eq_getElem, ← at'_eq] at e1
    have h0 : at' g (g.length - 2) ≤ at' g (g.length - 1) := sorted_le g hg _ _ (by omega) (by omega)
    have h1 : at' g i.1 ≤ at' g (g.length - 2) := sorted_le g hg i.1 _ (by omega) (by omega)
    have hle : at' g (g.length - 1) ≤ at' x1 (x1.length - 1) := by
      have := hp.mem_iff.mp (at'_mem g (g.length - 1) (by omega))
      rcases List.mem_append.mp this with hm | hm
      · exact le_last (strict_weak s1) hm
      · rw [h]; exact le_last (strict_weak s2) hm
    linarith

/-- The interval used for `t` has positive length unless `t` is outside and the grids share that end. -/
theorem cell {t : ℝ} (h0 : at' x1 0 = at' x2 0 → at' x1 0 ≤ t) (h1 : at' x1 (x1.length - 1) = at' x2 (x2.length - 1) → t < at' x1 (x1.length - 1)) :
    at' g (projectOne g t) < at' g (projectOne g t + 1) ∧ (at' g (projectOne g t) ≤ t ∨ projectOne g t = 0) ∧
      (t < at' g (projectOne g t + 1) ∨ projectOne g t + 2 = g.length) := by
  have hlen : g.length = x1.length + x2.length := by rw [hp.length_eq, List.length_append]
  obtain ⟨hi, c1, c2, c3, c4⟩ := C51_bracket g hg (by omega) t
  set i := projectOne g t
  have hle : at' g i ≤ at' g (i + 1) := sorted_le g hg i (i + 1) (by omega) hi
  have hmem : ∀ k ∈ x1 ++ x2, at' g 0 ≤ k := fun k hk => by
    obtain ⟨i, hi, rfl⟩ := List.getElem_of_mem (hp.mem_iff.mpr hk)
    rw [← at'_eq g i hi]
    exact sorted_le g hg 0 i (by omega) hi
  have d0 : at' g i ≤ t ∨ i = 0 := by
    by_cases h : at' g 0 ≤ t
    · exact Or.inl (c1 h)
    · exact Or.inr (c3 (not_le.mp h))
  have d1 : t < at' g (i + 1) ∨ i + 2 = g.length := by
    by_cases h : t < at' g (g.length - 1)
    · exact Or.inl (c2 h)
    · exact Or.inr (c4 (not_lt.mp h))
  refine ⟨lt_of_le_of_ne hle fun he => ?_, d0, d1⟩
  by_cases k0 : at' g 0 ≤ t
  · by_cases k1 : t < at' g (g.length - 1)
    · linarith [c1 k0, c2 k1]
    · have h4 := c4 (not_lt.mp k1)
      have e := (last_iff n1 n2 s1 s2 hg hp).mp (by rw [show g.length - 2 = i by omega, show g.length - 1 = i + 1 by omega]; exact he)
      have := h1 e
      have := le_last hg (hp.mem_iff.mpr (List.mem_append_left x2 (at'_mem x1 (x1.length - 1) (by omega))))
      linarith [not_lt.mp k1]
  · have h3 := c3 (not_le.mp k0)
    rw [h3] at he
    have := h0 ((first_iff n1 n2 s1 s2 hg hp).mp he)
    have := hmem _ (List.mem_append_left x2 (at'_mem x1 0 (by omega)))
    exact k0 (by linarith)

end

/-- **C147** what `merge` does for a subclass that provides `values`: it succeeds, the grid is the sorted union of both (with multiplicity); the merged interpolator
has the value `op (f t) (g t)` at every knot of either; it is `op (f t) (g t)` everywhere, also outside the grids, if `op` is affine; all that unless the grids share
their first (last) knot and `t` is below (not below) it, where the value is NaN. -/
theorem C147_merge_partial (x1 y1 x2 y2 : List ℝ) (l1 : x1.length = y1.length) (l2 : x2.length = y2.length) (n1 : 2 ≤ x1.length) (n2 : 2 ≤ x2.length)
    (s1 : x1.Pairwise (· < ·)) (s2 : x2.Pairwise (· < ·)) (op : ℝ → ℝ → ℝ) :
    ∃ o1 o2 o g, mkValued x1 y1 = .ok o1 ∧ mkValued x2 y2 = .ok o2 ∧ merge mkValued o1 o2 op = .ok o ∧ getTensor o "x" = .ok g ∧ g.Pairwise (· ≤ ·) ∧
      g.Perm (x1 ++ x2) ∧
      (∀ t ∈ x1 ++ x2, (at' x1 (x1.length - 1) = at' x2 (x2.length - 1) → t < at' x1 (x1.length - 1)) →
        call o t = .ok (some (op (linear1d x1 y1 t) (linear1d x2 y2 t)))) ∧
      ((∃ α β γ : ℝ, ∀ a b, op a b = α * a + β * b + γ) → ∀ t, (at' x1 0 = at' x2 0 → at' x1 0 ≤ t) →
        (at' x1 (x1.length - 1) = at' x2 (x2.length - 1) → t < at' x1 (x1.length - 1)) →
        call o t = .ok (some (op (linear1d x1 y1 t) (linear1d x2 y2 t)))) ∧
      (∀ t, (at' x1 0 = at' x2 0 ∧ t < at' x1 0) ∨ (at' x1 (x1.length - 1) = at' x2 (x2.length - 1) ∧ at' x1 (x1.length - 1) ≤ t) → call o t = .ok none) := by
  obtain ⟨o1, o2, o, g, e1, e2, e3, hg, hp, c1, c2⟩ := merge_eq l1 l2 n1 n2 s1 s2 op
  have hlen : g.length = x1.length + x2.length := by rw [hp.length_eq, List.length_append]
  refine ⟨o1, o2, o, g, e1, e2, e3, c1, hg, hp, fun t ht h1 => ?_, ?_, ?_⟩
  · have h0 : at' x1 0 = at' x2 0 → at' x1 0 ≤ t := fun h => by
      rcases List.mem_append.mp ht with hm | hm
      · exact first_le s1 hm
      · rw [h]; exact first_le s2 hm
    obtain ⟨hne, d0, d1⟩ := cell n1 n2 s1 s2 hg hp h0 h1
    rw [call_eq c1 c2 (by omega) t hne]
    have hi := project_lt g (by omega) t
    set i := projectOne g t
    obtain ⟨k, hk, hkt⟩ := List.getElem_of_mem (hp.mem_iff.mpr ht)
    rw [← at'_eq g k hk] at hkt
    have : t = at' g i ∨ t = at' g (i + 1) := by
      rcases Nat.lt_or_ge i k with hik | hik
      · have := sorted_le g hg (i + 1) k hik hk
        rcases d1 with h | h
        · linarith
        · right; rw [← hkt, show k = i + 1 by omega]
      · have := sorted_le g hg k i hik (by omega)
        rcases d0 with h | h
        · left; linarith
        · left; rw [← hkt, show k = i by omega]
    have hd : at' g (i + 1) - at' g i ≠ 0 := by linarith
    rcases this with h | h
    · rw [← h]; simp
    · rw [← h] at hd ⊢
      rw [mul_div_cancel₀ _ hd]
      simp
  · rintro ⟨α, β, γ, hop⟩ t h0 h1
    obtain ⟨hne, d0, d1⟩ := cell n1 n2 s1 s2 hg hp h0 h1
    rw [call_eq c1 c2 (by omega) t hne]
    have hi := project_lt g (by omega) t
    set i := projectOne g t
    have hno : ∀ k ∈ g, k ≤ at' g i ∨ at' g (i + 1) ≤ k := fun k hk => by
      obtain ⟨j, hj, rfl⟩ := List.getElem_of_mem hk
      rw [← at'_eq g j hj]
      rcases Nat.lt_or_ge i j with h | h
      · exact Or.inr (sorted_le g hg (i + 1) j h hj)
      · exact Or.inl (sorted_le g hg j i h (by omega))
    have k0 : at' g i ≤ t ∨ ∀ k ∈ g, at' g i ≤ k := d0.imp_right fun h k hk => by
      obtain ⟨j, hj, rfl⟩ := List.getElem_of_mem hk
      rw [← at'_eq g j hj, h]
      exact sorted_le g hg 0 j (by omega) hj
    have k1 : t ≤ at' g (i + 1) ∨ ∀ k ∈ g, k ≤ at' g (i + 1) := d1.imp le_of_lt fun h k hk => by
      rw [show i + 1 = g.length - 1 by omega]
      exact le_last hg hk
    have i1 : ∀ k ∈ x1, k ∈ g := fun k hk => hp.mem_iff.mpr (List.mem_append_left _ hk)
    have i2 : ∀ k ∈ x2, k ∈ g := fun k hk => hp.mem_iff.mpr (List.mem_append_right _ hk)
    have f1 := affine_on l1 n1 s1 hne (fun k hk => hno k (i1 k hk)) (k0.imp_right fun h k hk => h k (i1 k hk)) (k1.imp_right fun h k hk => h k (i1 k hk)) (y := y1)
    have f2 := affine_on l2 n2 s2 hne (fun k hk => hno k (i2 k hk)) (k0.imp_right fun h k hk => h k (i2 k hk)) (k1.imp_right fun h k hk => h k (i2 k hk)) (y := y2)
    rw [f1, f2]
    simp only [hop]
    congr 2
    ring
  · have key : ∀ t, at' g (projectOne g t) = at' g (projectOne g t + 1) → call o t = .ok none := fun t h => by
      simp only [call, c1, c2, bind, Except.bind, pure, Except.pure]
      rw [at'_diff g _ (project_lt g (by omega) t), if_pos (by linarith)]
    intro t ht
    obtain ⟨hi, k1, k2, k3, k4⟩ := C51_bracket g hg (by omega) t
    apply key
    rcases ht with ⟨h, ht⟩ | ⟨h, ht⟩
    · have h01 := (first_iff n1 n2 s1 s2 hg hp).mpr h
      have : at' x1 0 ≤ at' g 0 := by
        rcases List.mem_append.mp (hp.mem_iff.mp (at'_mem g 0 (by omega))) with hm | hm
        · exact first_le s1 hm
        · rw [h]; exact first_le s2 hm
      rw [k3 (by linarith)]
      exact h01
    · have h01 := (last_iff n1 n2 s1 s2 hg hp).mpr h
      have : at' g (g.length - 1) ≤ at' x1 (x1.length - 1) := by
        rcases List.mem_append.mp (hp.mem_iff.mp (at'_mem g (g.length - 1) (by omega))) with hm | hm
        · exact le_last (strict_weak s1) hm
        · rw [h]; exact le_last (strict_weak s2) hm
      have h4 := k4 (by linarith)
      rw [show projectOne g t = g.length - 2 by omega, show g.length - 2 + 1 = g.length - 1 by omega]
      exact h01

/-- Two interpolators on `0, 1, 3` and `0, 1/2, 4`, with a common first knot. -/
example : ∃ o, mk1d [0, 1, 3] [2, 5, 7] = .ok o ∧ merge mk1d o o (· + ·) = .error .attribute :=
  ⟨_, rfl, (C147_raises [0, 1, 3] [2, 5, 7] [0, 1, 3] [2, 5, 7] _ _ rfl rfl (· + ·)).2 (by norm_num) (by norm_num)⟩

example := C147_merge_partial [0, 1, 3] [2, 5, 7] [0, 1 / 2, 4] [1, 0, 1] rfl rfl (by simp) (by simp) (by norm_num) (by norm_num) (· + ·)

example : ∃ α β γ : ℝ, ∀ a b : ℝ, a + b = α * a + β * b + γ := ⟨1, 1, 0, fun a b => by ring⟩

end Verif.Interp.Merge

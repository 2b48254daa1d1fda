import Verif.Interp.Lemmas
import Mathlib.Topology.Order.Lattice
import Mathlib.Topology.ContinuousOn
import Mathlib.Topology.Algebra.Order.Field
import Mathlib.Analysis.Calculus.Deriv.Basic
import Mathlib.Analysis.Calculus.Deriv.Mul
import Mathlib.Analysis.Calculus.Deriv.Add

/-! # C51, C52, C55: projection, one-dimensional interpolation, merging of grids -/

namespace Verif.Interp

/-! ### C51 -/

/-- **C51** the returned index always selects an interval of the grid; a query within the grid lies in the selected
interval, `[g i, g (i+1))`, closed on the right for the last one; a query below the grid selects the first interval
and one above it the last. -/
theorem C51_bracket (g : List ℝ) (hs : g.Pairwise (· ≤ ·)) (h2 : 2 ≤ g.length) (x : ℝ) :
    let i := projectOne g x
    i + 1 < g.length ∧
    (at' g 0 ≤ x → at' g i ≤ x) ∧
    (x < at' g (g.length - 1) → x < at' g (i + 1)) ∧
    (x < at' g 0 → i = 0) ∧
    (at' g (g.length - 1) ≤ x → i + 2 = g.length) := by
  intro i
  have hi : i = min (max (searchsortedRight g x) 1) (g.length - 1) - 1 := rfl
  have hlt : i + 1 < g.length := project_lt g h2 x
  refine ⟨hlt, ?_, ?_, ?_, ?_⟩
  · intro h
    rw [ssr_iff g hs x i (by omega)]
    have := (ssr_iff g hs x 0 (by omega)).mp h
    omega
  · intro h
    have h1 := mt (ssr_iff g hs x (g.length - 1) (by omega)).mpr (by linarith)
    have h3 := mt (ssr_iff g hs x (i + 1) hlt).mp (by omega)
    linarith
  · intro h
    have h1 := mt (ssr_iff g hs x 0 (by omega)).mpr (by linarith)
    omega
  · intro h
    have h1 := (ssr_iff g hs x (g.length - 1) (by omega)).mp h
    omega

/-- **C51** on a strictly increasing grid the interval is the only one with that property. -/
theorem C51_unique (g : List ℝ) (hs : g.Pairwise (· ≤ ·)) (x : ℝ) (i : ℕ) (hi : i + 1 < g.length)
    (h1 : at' g i ≤ x) (h2 : x < at' g (i + 1)) : projectOne g x = i :=
  project_eq g hs x i hi (.inl h1) (.inl h2)

example : ([0, 1, 3] : List ℝ).Pairwise (· ≤ ·) ∧ at' [0, 1, 3] 1 ≤ (2 : ℝ) ∧ (2 : ℝ) < at' [0, 1, 3] 2 := by
  simp [at']; norm_num

/-! ### C52 -/

/-- **C52** exact at every knot. -/
theorem C52_knots (xs ys : List ℝ) (hl : xs.length = ys.length) (h2 : 2 ≤ xs.length) (hs : xs.Pairwise (· < ·))
    (i : ℕ) (hi : i < xs.length) : linear1d xs ys (at' xs i) = at' ys i := by
  have hw := strict_weak hs
  rw [linear1d_eq xs ys hl h2]
  rcases Nat.lt_or_ge (i + 1) xs.length with h | h
  · rw [project_eq xs hw _ i h (.inl le_rfl) (.inl (sorted_lt xs hs i (i + 1) (by omega) h))]
    ring
  · obtain ⟨j, rfl⟩ : ∃ j, i = j + 1 := ⟨i - 1, by omega⟩
    have hj := sorted_lt xs hs j (j + 1) (by omega) hi
    rw [project_eq xs hw _ j hi (.inl hj.le) (.inr (by omega))]
    have : at' xs (j + 1) - at' xs j ≠ 0 := by linarith
    field_simp
    ring

/-- **C52** reproduces every affine function at every point, also outside the grid. -/
theorem C52_affine (xs : List ℝ) (h2 : 2 ≤ xs.length) (hs : xs.Pairwise (· < ·)) (a b x : ℝ) :
    linear1d xs (xs.map fun t => a + b * t) x = a + b * x := by
  have hi := project_lt xs h2 x
  rw [linear1d_eq xs _ (by simp) h2]
  have hd := sorted_lt xs hs _ _ (Nat.lt_succ_self (projectOne xs x)) hi
  have e : ∀ j, j < xs.length → at' (xs.map fun t => a + b * t) j = a + b * at' xs j := by
    intro j hj
    rw [at'_eq _ _ (by simpa using hj), at'_eq _ _ hj]; simp
  rw [e _ (by omega), e _ hi]
  have : at' xs (projectOne xs x + 1) - at' xs (projectOne xs x) ≠ 0 := by
    simp only [Nat.succ_eq_add_one] at hd; linarith
  field_simp
  ring

/-- **C52** within the grid the value lies between the two neighbouring values. -/
theorem C52_between (xs ys : List ℝ) (hl : xs.length = ys.length) (h2 : 2 ≤ xs.length) (hs : xs.Pairwise (· < ·))
    (i : ℕ) (hi : i + 1 < xs.length) (x : ℝ) (h0 : at' xs i ≤ x) (h1 : x ≤ at' xs (i + 1)) :
    min (at' ys i) (at' ys (i + 1)) ≤ linear1d xs ys x ∧ linear1d xs ys x ≤ max (at' ys i) (at' ys (i + 1)) := by
  rcases h1.lt_or_eq with h1 | rfl
  · rw [linear1d_eq xs ys hl h2, project_eq xs (strict_weak hs) x i hi (.inl h0) (.inl h1)]
    have hd : 0 < at' xs (i + 1) - at' xs i := by linarith
    set t := (x - at' xs i) / (at' xs (i + 1) - at' xs i) with ht
    have ht0 : 0 ≤ t := div_nonneg (by linarith) hd.le
    have ht1 : t ≤ 1 := by rw [ht, div_le_one hd]; linarith
    have e : at' ys i + (x - at' xs i) * ((at' ys (i + 1) - at' ys i) / (at' xs (i + 1) - at' xs i)) =
        (1 - t) * at' ys i + t * at' ys (i + 1) := by rw [ht]; field_simp; ring
    rw [e]
    constructor
    · have a1 := min_le_left (at' ys i) (at' ys (i + 1))
      have a2 := min_le_right (at' ys i) (at' ys (i + 1))
      nlinarith
    · have a1 := le_max_left (at' ys i) (at' ys (i + 1))
      have a2 := le_max_right (at' ys i) (at' ys (i + 1))
      nlinarith
  · rw [C52_knots xs ys hl h2 hs (i + 1) hi]
    exact ⟨min_le_right _ _, le_max_right _ _⟩

/-- **C52** if the values increase with the knots so does the interpolant, on the whole real line. -/
theorem C52_monotone (xs ys : List ℝ) (hl : xs.length = ys.length) (h2 : 2 ≤ xs.length) (hs : xs.Pairwise (· < ·))
    (hy : ys.Pairwise (· ≤ ·)) : Monotone (linear1d xs ys) := by
  have hw := strict_weak hs
  intro x y hxy
  set i := projectOne xs x with hi
  set j := projectOne xs y with hj
  have hil := project_lt xs h2 x
  have hjl := project_lt xs h2 y
  obtain ⟨-, bx1, bx2, bx3, bx4⟩ := C51_bracket xs hw h2 x
  obtain ⟨-, by1, by2, by3, by4⟩ := C51_bracket xs hw h2 y
  simp only [← hi, ← hj] at hil hjl bx1 bx2 bx3 bx4 by1 by2 by3 by4
  have hij : i ≤ j := by
    have hm : searchsortedRight xs x ≤ searchsortedRight xs y := by
      apply List.countP_mono_left
      intro a _ h
      simp at h ⊢; linarith
    rw [hi, hj]; unfold projectOne; omega
  have slope : ∀ k, k + 1 < xs.length → 0 ≤ (at' ys (k + 1) - at' ys k) / (at' xs (k + 1) - at' xs k) := by
    intro k hk
    apply div_nonneg
    · linarith [sorted_le ys hy k (k + 1) (by omega) (by omega)]
    · linarith [sorted_le xs hw k (k + 1) (by omega) hk]
  rw [linear1d_eq xs ys hl h2, linear1d_eq xs ys hl h2, ← hi, ← hj]
  rcases hij.lt_or_eq with h | h
  · -- pass through knots i+1 ≤ j
    have hx : x < at' xs (i + 1) := by
      apply bx2
      by_contra hc
      have := bx4 (by linarith)
      omega
    have hyj : at' xs j ≤ y := by
      apply by1
      by_contra hc
      have := by3 (by linarith)
      omega
    have e1 : at' ys i + (x - at' xs i) * ((at' ys (i + 1) - at' ys i) / (at' xs (i + 1) - at' xs i)) ≤ at' ys (i + 1) := by
      have hd : 0 < at' xs (i + 1) - at' xs i := by linarith [sorted_lt xs hs i (i + 1) (by omega) hil]
      have := slope i hil
      have hq : (at' xs (i + 1) - at' xs i) * ((at' ys (i + 1) - at' ys i) / (at' xs (i + 1) - at' xs i)) =
        at' ys (i + 1) - at' ys i := by field_simp
      nlinarith
    have e2 : at' ys j ≤ at' ys j + (y - at' xs j) * ((at' ys (j + 1) - at' ys j) / (at' xs (j + 1) - at' xs j)) := by
      have := slope j hjl
      nlinarith
    have e3 := sorted_le ys hy (i + 1) j h (by omega)
    linarith
  · rw [← h]
    have := slope i hil
    nlinarith

/-- **C52** away from the knots, `derivative` is the derivative of the interpolant. -/
theorem C52_derivative (xs ys : List ℝ) (hl : xs.length = ys.length) (h2 : 2 ≤ xs.length) (hs : xs.Pairwise (· < ·))
    (x : ℝ) (hx : x ∉ xs) : HasDerivAt (linear1d xs ys) (derivative xs ys x) x := by
  have hw := strict_weak hs
  -- the projection is locally constant
  have hconst : ∀ᶠ t in nhds x, projectOne xs t = projectOne xs x := by
    have : ∀ l : List ℝ, (∀ a ∈ l, a ≠ x) → ∀ᶠ t in nhds x, searchsortedRight l t = searchsortedRight l x := by
      intro l hl'
      induction l with
      | nil => simp [searchsortedRight]
      | cons a l ih =>
        have ih' := ih (fun b hb => hl' b (List.mem_cons_of_mem _ hb))
        have ha := hl' a List.mem_cons_self
        have : ∀ᶠ t in nhds x, (a ≤ t ↔ a ≤ x) := by
          rcases lt_or_gt_of_ne ha with h | h
          · filter_upwards [Ioi_mem_nhds h] with t ht
            exact ⟨fun _ => h.le, fun _ => le_of_lt ht⟩
          · filter_upwards [Iio_mem_nhds h] with t ht
            exact ⟨fun h' => absurd h' (not_le.mpr ht), fun h' => absurd h' (not_le.mpr h)⟩
        filter_upwards [ih', this] with t h1 h3
        simp only [searchsortedRight, List.countP_cons] at h1 ⊢
        rw [h1]
        by_cases h4 : a ≤ x
        · simp [h4, h3.mpr h4]
        · simp [h4, mt h3.mp h4]
    filter_upwards [this xs (fun a ha h => hx (h ▸ ha))] with t ht
    unfold projectOne
    rw [ht]
  have hd : HasDerivAt (fun t => at' ys (projectOne xs x) + (t - at' xs (projectOne xs x)) * derivative xs ys x)
      (derivative xs ys x) x := by
    have := (((hasDerivAt_id x).sub_const (at' xs (projectOne xs x))).mul_const (derivative xs ys x)).const_add
      (at' ys (projectOne xs x))
    simpa using this
  refine hd.congr_of_eventuallyEq ?_
  filter_upwards [hconst] with t ht
  unfold linear1d derivative
  rw [ht]

/-- Hypotheses met. -/
example : ([0, 1, 3] : List ℝ).Pairwise (· < ·) ∧ (2 : ℝ) ∉ ([0, 1, 3] : List ℝ) := by
  simp

/-- Value at a single interval, valid also at both closed ends. -/
theorem linear1d_on (xs ys : List ℝ) (hl : xs.length = ys.length) (h2 : 2 ≤ xs.length) (hs : xs.Pairwise (· < ·))
    (i : ℕ) (hi : i + 1 < xs.length) (x : ℝ) (h0 : at' xs i ≤ x ∨ i = 0) (h1 : x ≤ at' xs (i + 1) ∨ i + 2 = xs.length) :
    linear1d xs ys x = at' ys i + (x - at' xs i) * ((at' ys (i + 1) - at' ys i) / (at' xs (i + 1) - at' xs i)) := by
  have hw := strict_weak hs
  have hd := sorted_lt xs hs i (i + 1) (by omega) hi
  by_cases he : x < at' xs (i + 1) ∨ i + 2 = xs.length
  · rw [linear1d_eq xs ys hl h2, project_eq xs hw x i hi h0 he]
  · have hx : x = at' xs (i + 1) := by
      rcases h1 with h1 | h1
      · exact le_antisymm h1 (not_lt.mp fun h => he (.inl h))
      · exact absurd (.inr h1) he
    subst hx
    rw [C52_knots xs ys hl h2 hs (i + 1) hi]
    have : at' xs (i + 1) - at' xs i ≠ 0 := by linarith
    field_simp
    ring

/-- **C52** the interpolant is continuous on the whole line. -/
theorem C52_continuous (xs ys : List ℝ) (hl : xs.length = ys.length) (h2 : 2 ≤ xs.length) (hs : xs.Pairwise (· < ·)) :
    Continuous (linear1d xs ys) := by
  rw [continuous_iff_continuousAt]
  intro x
  by_cases hx : x ∈ xs
  · obtain ⟨i, hi, rfl⟩ := List.getElem_of_mem hx
    rw [← at'_eq xs i hi]
    rw [continuousAt_iff_continuous_left_right]
    have key : ∀ j, j + 1 < xs.length → ∀ s : Set ℝ, ∀ y, y ∈ s →
        (∀ t ∈ s, (at' xs j ≤ t ∨ j = 0) ∧ (t ≤ at' xs (j + 1) ∨ j + 2 = xs.length)) →
        ContinuousWithinAt (linear1d xs ys) s y := by
      intro j hj s y hy hsub
      have hc : Continuous fun t : ℝ => at' ys j + (t - at' xs j) *
          ((at' ys (j + 1) - at' ys j) / (at' xs (j + 1) - at' xs j)) := by fun_prop
      exact hc.continuousWithinAt.congr (fun t ht => linear1d_on xs ys hl h2 hs j hj t (hsub t ht).1 (hsub t ht).2)
        (linear1d_on xs ys hl h2 hs j hj y (hsub y hy).1 (hsub y hy).2)
    constructor
    · -- from the left
      cases i with
      | zero =>
        refine key 0 (by omega) (Set.Iic _) _ Set.self_mem_Iic fun t ht => ⟨.inr rfl, ?_⟩
        left
        exact le_trans ht (sorted_lt xs hs 0 1 (by omega) (by omega)).le
      | succ i =>
        have hlt := sorted_lt xs hs i (i + 1) (by omega) hi
        have hk := key i hi (Set.Ioc (at' xs i) (at' xs (i + 1))) (at' xs (i + 1)) ⟨hlt, le_rfl⟩
          fun t ht => ⟨.inl ht.1.le, .inl ht.2⟩
        exact hk.mono_of_mem_nhdsWithin (Ioc_mem_nhdsLE hlt)
    · rcases Nat.lt_or_ge (i + 1) xs.length with h | h
      · have hlt := sorted_lt xs hs i (i + 1) (by omega) h
        have hk := key i h (Set.Ico (at' xs i) (at' xs (i + 1))) (at' xs i) ⟨le_rfl, hlt⟩
          fun t ht => ⟨.inl ht.1, .inl ht.2.le⟩
        exact hk.mono_of_mem_nhdsWithin (Ico_mem_nhdsGE hlt)
      · obtain ⟨j, rfl⟩ : ∃ j, i = j + 1 := ⟨i - 1, by omega⟩
        have hlt := sorted_lt xs hs j (j + 1) (by omega) hi
        exact key j hi (Set.Ici _) _ Set.self_mem_Ici fun t ht => ⟨.inl (le_trans hlt.le ht), .inr (by omega)⟩
  · exact (C52_derivative xs ys hl h2 hs x hx).continuousAt

/-! ### C55 -/

/-- The entries of `g` where the mask holds (`g[mask]`). -/
def select : List ℝ → List Bool → List ℝ
  | a :: g, b :: m => if b then a :: select g m else select g m
  | _, _ => []

theorem mergePositions_cons (left : List ℝ) (b : ℝ) (r : List ℝ) :
    mergePositions left (b :: r) = searchsortedLeft left b :: (mergePositions left r).map (· + 1) := by
  simp only [mergePositions, List.mapIdx_cons, Nat.add_zero, List.cons.injEq, true_and]
  apply List.ext_getElem
  · simp
  · intro i h1 h2
    simp only [List.getElem_mapIdx, List.getElem_map]
    omega

theorem mem_positions_shift (a : ℝ) (l right : List ℝ) (h : ∀ b ∈ right, a < b) :
    mergePositions (a :: l) right = (mergePositions l right).map (· + 1) := by
  apply List.ext_getElem
  · simp [mergePositions]
  · intro i h1 h2
    simp only [mergePositions, List.getElem_mapIdx, List.getElem_map]
    have hi : i < right.length := by simpa [mergePositions] using h1
    have : a < right[i] := h _ (List.getElem_mem hi)
    simp [searchsortedLeft, this]
    omega

theorem maskRight_left (a : ℝ) (l right : List ℝ) (h : ∀ b ∈ right, a < b) :
    maskRight (a :: l) right = false :: maskRight l right := by
  unfold maskRight
  rw [mem_positions_shift a l right h, show (a :: l).length + right.length = (l.length + right.length) + 1 by
    simp; omega, List.range_succ_eq_map]
  simp [Function.comp_def]

theorem maskRight_right (left : List ℝ) (b : ℝ) (r : List ℝ) (h : ∀ a ∈ left, b ≤ a) :
    maskRight left (b :: r) = true :: maskRight left r := by
  have h0 : searchsortedLeft left b = 0 := by
    unfold searchsortedLeft
    rw [List.countP_eq_zero]
    intro a ha
    simpa using h a ha
  unfold maskRight
  rw [mergePositions_cons, h0, show left.length + (b :: r).length = (left.length + r.length) + 1 by
    simp; omega, List.range_succ_eq_map]
  simp [Function.comp_def]

/-- What boolean-mask assignment does, given it succeeds. -/
theorem scatter_select (m : List Bool) (l r g : List ℝ) (h : scatter m l r = some g) :
    select g (m.map (!·)) = l ∧ select g m = r ∧ g.length = m.length ∧ g.Perm (l ++ r) := by
  induction m generalizing l r g with
  | nil =>
    cases l <;> cases r <;> simp [scatter] at h
    subst h; simp [select]
  | cons b m ih =>
    cases b with
    | false =>
      cases l with
      | nil => cases r <;> simp [scatter] at h
      | cons a l =>
        simp only [scatter, Option.map_eq_some_iff] at h
        obtain ⟨g', h1, rfl⟩ := h
        obtain ⟨i1, i2, i3, i4⟩ := ih l r g' h1
        refine ⟨by simp [select, i1], by simp [select, i2], by simp [i3], by simpa using i4⟩
    | true =>
      cases r with
      | nil => cases l <;> simp [scatter] at h
      | cons a r =>
        simp only [scatter, Option.map_eq_some_iff] at h
        obtain ⟨g', h1, rfl⟩ := h
        obtain ⟨i1, i2, i3, i4⟩ := ih l r g' h1
        refine ⟨by simp [select, i1], by simp [select, i2], by simp [i3], ?_⟩
        exact (List.Perm.cons a i4).trans List.perm_middle.symm

theorem scatter_sorted (left right : List ℝ) (hl : left.Pairwise (· ≤ ·)) (hr : right.Pairwise (· ≤ ·)) :
    ∃ g, scatter (maskRight left right) left right = some g ∧ g.Pairwise (· ≤ ·) := by
  match left, right with
  | [], [] => exact ⟨[], by simp [maskRight, scatter], by simp⟩
  | a :: l, [] =>
    obtain ⟨g, h1, h2⟩ := scatter_sorted l [] (List.pairwise_cons.mp hl).2 hr
    refine ⟨a :: g, by rw [maskRight_left a l [] (by simp), scatter, h1]; rfl, ?_⟩
    rw [List.pairwise_cons]
    refine ⟨fun b hb => ?_, h2⟩
    have := (scatter_select _ _ _ _ h1).2.2.2.mem_iff.mp hb
    exact (List.pairwise_cons.mp hl).1 b (by simpa using this)
  | [], b :: r =>
    obtain ⟨g, h1, h2⟩ := scatter_sorted [] r hl (List.pairwise_cons.mp hr).2
    refine ⟨b :: g, by rw [maskRight_right [] b r (by simp), scatter, h1]; rfl, ?_⟩
    rw [List.pairwise_cons]
    refine ⟨fun c hc => ?_, h2⟩
    have := (scatter_select _ _ _ _ h1).2.2.2.mem_iff.mp hc
    exact (List.pairwise_cons.mp hr).1 c (by simpa using this)
  | a :: l, b :: r =>
    obtain ⟨hl1, hl2⟩ := List.pairwise_cons.mp hl
    obtain ⟨hr1, hr2⟩ := List.pairwise_cons.mp hr
    by_cases hab : a < b
    · have hall : ∀ c ∈ b :: r, a < c := by
        intro c hc
        rcases List.mem_cons.mp hc with rfl | hc
        · exact hab
        · exact lt_of_lt_of_le hab (hr1 c hc)
      obtain ⟨g, h1, h2⟩ := scatter_sorted l (b :: r) hl2 hr
      refine ⟨a :: g, by rw [maskRight_left a l (b :: r) hall, scatter, h1]; rfl, ?_⟩
      rw [List.pairwise_cons]
      refine ⟨fun c hc => ?_, h2⟩
      rcases List.mem_append.mp ((scatter_select _ _ _ _ h1).2.2.2.mem_iff.mp hc) with h | h
      · exact hl1 c h
      · exact (hall c h).le
    · have hall : ∀ c ∈ a :: l, b ≤ c := by
        intro c hc
        rcases List.mem_cons.mp hc with rfl | hc
        · exact not_lt.mp hab
        · exact le_trans (not_lt.mp hab) (hl1 c hc)
      obtain ⟨g, h1, h2⟩ := scatter_sorted (a :: l) r hl hr2
      refine ⟨b :: g, by rw [maskRight_right (a :: l) b r hall, scatter, h1]; rfl, ?_⟩
      rw [List.pairwise_cons]
      refine ⟨fun c hc => ?_, h2⟩
      rcases List.mem_append.mp ((scatter_select _ _ _ _ h1).2.2.2.mem_iff.mp hc) with h | h
      · exact hall c h
      · exact hr1 c h
termination_by left.length + right.length

/-- **C55** merging two sorted grids succeeds; the result is sorted and consists of the entries of both, with
multiplicity; the masks are complementary, cover the result and pick out the two inputs in order. -/
theorem C55_merge (left right : List ℝ) (hl : left.Pairwise (· ≤ ·)) (hr : right.Pairwise (· ≤ ·)) :
    ∃ g ml mr, mergeGrids left right = some (g, ml, mr) ∧ g.Pairwise (· ≤ ·) ∧ g.Perm (left ++ right) ∧
      ml = mr.map (!·) ∧ mr.length = g.length ∧ select g ml = left ∧ select g mr = right := by
  obtain ⟨g, h1, h2⟩ := scatter_sorted left right hl hr
  obtain ⟨s1, s2, s3, s4⟩ := scatter_select _ _ _ _ h1
  exact ⟨g, _, _, by simp only [mergeGrids, h1]; rfl, h2, s4, rfl, s3.symm, s1, s2⟩

/-- **C55** for an unsorted right grid two entries can claim the same position, and the assignment fails. -/
theorem C55_unsorted : mergeGrids [1, 2] [3, 0, 0] = none := by
  simp [mergeGrids, maskRight, mergePositions, searchsortedLeft, List.range_succ, List.mapIdx_cons]
  norm_num [scatter]

/-- The knots 0, 1, 3 with values 2, 5, 7: `C51_bracket`, `C52_knots`, `C52_affine`, `C52_between`, `C52_monotone`,
`C52_continuous`; merging them with the grid 0.5, 1: `C55_merge`. -/
example := C51_bracket [0, 1, 3] (by norm_num) (by simp) 2
example := C52_knots [0, 1, 3] [2, 5, 7] rfl (by simp) (by norm_num) 1 (by simp)
example := C52_affine [0, 1, 3] (by simp) (by norm_num) 4 (-2) 10
example := C52_between [0, 1, 3] [2, 5, 7] rfl (by simp) (by norm_num) 1 (by simp) 2 (by norm_num [at']) (by norm_num [at'])
example := C52_monotone [0, 1, 3] [2, 5, 7] rfl (by simp) (by norm_num) (by norm_num)
example := C52_continuous [0, 1, 3] [2, 5, 7] rfl (by simp) (by norm_num)
example := C55_merge [0, 1, 3] [1 / 2, 1] (by norm_num) (by norm_num)

end Verif.Interp

import Verif.Interp.Spline
import Verif.Interp.Nd
import Mathlib.Analysis.Calculus.ContDiff.Deriv

/-! # C56, C76: the evaluated spline -/

namespace Verif.Interp

/-! ### Piecewise functions on the knots -/

/-- The piece selected by `pick_poly`. -/
noncomputable def pw (x0 : List ℝ) (p : ℕ → ℝ → ℝ) (x : ℝ) : ℝ := p (pickPoly x0 x) x

theorem pick_lt (x0 : List ℝ) (h2 : 2 ≤ x0.length) (x : ℝ) : pickPoly x0 x + 1 < x0.length := by
  unfold pickPoly; omega

/-- **C56** the polynomial chosen for a query is the one of the interval `(x_i, x_{i+1}]` that contains it; queries
at or below the first knot use the first and queries above the last knot the last. -/
theorem C56_pick (x0 : List ℝ) (hs : x0.Pairwise (· ≤ ·)) (h2 : 2 ≤ x0.length) (x : ℝ) :
    pickPoly x0 x + 1 < x0.length ∧
    (at' x0 (pickPoly x0 x) < x ∨ pickPoly x0 x = 0) ∧ (x ≤ at' x0 (pickPoly x0 x + 1) ∨ pickPoly x0 x + 2 = x0.length) := by
  have hlt := pick_lt x0 h2 x
  refine ⟨hlt, ?_, ?_⟩
  · rcases Nat.eq_zero_or_pos (pickPoly x0 x) with h | h
    · exact .inr h
    · left
      rw [ssl_iff x0 hs x _ (by omega)]
      unfold pickPoly at h ⊢; omega
  · rcases Nat.lt_or_ge (pickPoly x0 x + 2) x0.length with h | h
    · left
      by_contra hc
      have := (ssl_iff x0 hs x _ hlt).mp (not_le.mp hc)
      unfold pickPoly at h this; omega
    · right; omega

theorem pick_eq (x0 : List ℝ) (hs : x0.Pairwise (· ≤ ·)) (x : ℝ) (i : ℕ) (hi : i + 1 < x0.length)
    (h1 : at' x0 i < x ∨ i = 0) (h2 : x ≤ at' x0 (i + 1) ∨ i + 2 = x0.length) : pickPoly x0 x = i := by
  unfold pickPoly
  have a1 : at' x0 i < x → i < searchsortedLeft x0 x := (ssl_iff x0 hs x i (by omega)).mp
  have a2 : x ≤ at' x0 (i + 1) → ¬ i + 1 < searchsortedLeft x0 x :=
    fun h h' => absurd ((ssl_iff x0 hs x (i + 1) hi).mpr h') (by linarith)
  have a3 := ssl_le x0 x
  rcases h1 with h1 | h1 <;> rcases h2 with h2 | h2
  · have := a1 h1; have := a2 h2; omega
  · have := a1 h1; omega
  · have := a2 h2; omega
  · omega

/-- Neighbouring pieces agree at the knot between them. -/
def Agree (x0 : List ℝ) (p : ℕ → ℝ → ℝ) : Prop :=
  ∀ i, i + 2 < x0.length → p i (at' x0 (i + 1)) = p (i + 1) (at' x0 (i + 1))

theorem pw_on (x0 : List ℝ) (hs : x0.Pairwise (· < ·)) (p : ℕ → ℝ → ℝ) (ha : Agree x0 p) (i : ℕ)
    (hi : i + 1 < x0.length) (x : ℝ) (h1 : at' x0 i ≤ x ∨ i = 0) (h2 : x ≤ at' x0 (i + 1) ∨ i + 2 = x0.length) :
    pw x0 p x = p i x := by
  have hw := strict_weak hs
  by_cases h : at' x0 i < x ∨ i = 0
  · rw [pw, pick_eq x0 hw x i hi h h2]
  · rw [not_or] at h
    obtain ⟨j, rfl⟩ : ∃ j, i = j + 1 := ⟨i - 1, by omega⟩
    have hx : x = at' x0 (j + 1) := by
      rcases h1 with h1 | h1
      · exact le_antisymm (not_lt.mp h.1) h1
      · omega
    subst hx
    rw [pw, pick_eq x0 hw _ j (by omega) (.inl (sorted_step hs j (by omega))) (.inl le_rfl)]
    exact ha j (by omega)

/-- A neighbourhood on each side of any point on which one piece is used. -/
theorem sides (x0 : List ℝ) (hs : x0.Pairwise (· < ·)) (h2 : 2 ≤ x0.length) (x : ℝ) :
    ∃ i j, i + 1 < x0.length ∧ j + 1 < x0.length ∧
      ((at' x0 i ≤ x ∨ i = 0) ∧ (x ≤ at' x0 (i + 1) ∨ i + 2 = x0.length)) ∧
      ((at' x0 j ≤ x ∨ j = 0) ∧ (x ≤ at' x0 (j + 1) ∨ j + 2 = x0.length)) ∧
      (∀ᶠ t in nhdsWithin x (Set.Iic x), (at' x0 i ≤ t ∨ i = 0) ∧ (t ≤ at' x0 (i + 1) ∨ i + 2 = x0.length)) ∧
      (∀ᶠ t in nhdsWithin x (Set.Ici x), (at' x0 j ≤ t ∨ j = 0) ∧ (t ≤ at' x0 (j + 1) ∨ j + 2 = x0.length)) := by
  have hw := strict_weak hs
  obtain ⟨p1, p2, p3⟩ := C56_pick x0 hw h2 x
  obtain ⟨q1, q2, q3, q4, q5⟩ := C51_bracket x0 hw h2 x
  have q2' : at' x0 (projectOne x0 x) ≤ x ∨ projectOne x0 x = 0 := by
    by_cases h : at' x0 0 ≤ x
    · exact .inl (q2 h)
    · exact .inr (q4 (not_le.mp h))
  have q3' : x < at' x0 (projectOne x0 x + 1) ∨ projectOne x0 x + 2 = x0.length := by
    by_cases h : at' x0 (x0.length - 1) ≤ x
    · exact .inr (q5 h)
    · exact .inl (q3 (not_le.mp h))
  refine ⟨pickPoly x0 x, projectOne x0 x, p1, q1, ⟨p2.imp_left le_of_lt, p3⟩, ⟨q2', q3'.imp_left le_of_lt⟩, ?_, ?_⟩
  · have e1 : ∀ᶠ t in nhdsWithin x (Set.Iic x), at' x0 (pickPoly x0 x) ≤ t ∨ pickPoly x0 x = 0 := by
      rcases p2 with h | h
      · exact Filter.mem_of_superset (mem_nhdsWithin_of_mem_nhds (Ioi_mem_nhds h)) fun t ht => .inl (le_of_lt ht)
      · exact Filter.Eventually.of_forall fun t => .inr h
    filter_upwards [e1, self_mem_nhdsWithin] with t h1 ht
    exact ⟨h1, p3.imp_left fun h => le_trans ht h⟩
  · have e1 : ∀ᶠ t in nhdsWithin x (Set.Ici x), t ≤ at' x0 (projectOne x0 x + 1) ∨ projectOne x0 x + 2 = x0.length := by
      rcases q3' with h | h
      · exact Filter.mem_of_superset (mem_nhdsWithin_of_mem_nhds (Iio_mem_nhds h)) fun t ht => .inl (le_of_lt ht)
      · exact Filter.Eventually.of_forall fun t => .inr h
    filter_upwards [e1, self_mem_nhdsWithin] with t h1 ht
    exact ⟨q2'.imp_left fun h => le_trans h ht, h1⟩

theorem pw_continuous (x0 : List ℝ) (hs : x0.Pairwise (· < ·)) (h2 : 2 ≤ x0.length) (p : ℕ → ℝ → ℝ) (ha : Agree x0 p)
    (hc : ∀ i, Continuous (p i)) : Continuous (pw x0 p) := by
  rw [continuous_iff_continuousAt]
  intro x
  obtain ⟨i, j, hi, hj, hi', hj', el, er⟩ := sides x0 hs h2 x
  rw [continuousAt_iff_continuous_left_right]
  constructor
  · refine (hc i).continuousWithinAt.congr_of_eventuallyEq ?_ (pw_on x0 hs p ha i hi x hi'.1 hi'.2)
    filter_upwards [el] with t ht using pw_on x0 hs p ha i hi t ht.1 ht.2
  · refine (hc j).continuousWithinAt.congr_of_eventuallyEq ?_ (pw_on x0 hs p ha j hj x hj'.1 hj'.2)
    filter_upwards [er] with t ht using pw_on x0 hs p ha j hj t ht.1 ht.2

theorem pw_hasDeriv (x0 : List ℝ) (hs : x0.Pairwise (· < ·)) (h2 : 2 ≤ x0.length) (p q : ℕ → ℝ → ℝ) (ha : Agree x0 p)
    (hq : Agree x0 q) (hd : ∀ i x, HasDerivAt (p i) (q i x) x) (x : ℝ) : HasDerivAt (pw x0 p) (pw x0 q x) x := by
  obtain ⟨i, j, hi, hj, hi', hj', el, er⟩ := sides x0 hs h2 x
  rw [← hasDerivWithinAt_univ, ← Set.Iic_union_Ici (a := x)]
  apply HasDerivWithinAt.union
  · rw [pw_on x0 hs q hq i hi x hi'.1 hi'.2]
    refine (hd i x).hasDerivWithinAt.congr_of_eventuallyEq ?_ (pw_on x0 hs p ha i hi x hi'.1 hi'.2)
    filter_upwards [el] with t ht using pw_on x0 hs p ha i hi t ht.1 ht.2
  · rw [pw_on x0 hs q hq j hj x hj'.1 hj'.2]
    refine (hd j x).hasDerivWithinAt.congr_of_eventuallyEq ?_ (pw_on x0 hs p ha j hj x hj'.1 hj'.2)
    filter_upwards [er] with t ht using pw_on x0 hs p ha j hj t ht.1 ht.2

/-! ### C56 -/

theorem polyval_block (c : List ℝ) (i : ℕ) (h : 4 * i + 4 ≤ c.length) (x : ℝ) :
    polyval (block 3 c i) x = (cubicAt c i).val x := by
  unfold block nvarsp polyval
  rw [show i * (3 + 1) = 4 * i by omega, drop_cons4 c _ h]
  simp only [List.take_succ_cons, List.take_zero, List.foldl_cons, List.foldl_nil, cubicAt, Cubic.val]
  ring

theorem evaluate_eq (x0 c : List ℝ) (h2 : 2 ≤ x0.length) (hc : c.length = nvars x0 3) (x : ℝ) :
    evaluate x0 3 c x = pw x0 (fun i => (cubicAt c i).val) x := by
  unfold evaluate pw
  rw [polyval_block]
  have := pick_lt x0 h2 x
  rw [hc]
  simp only [nvars, nvarsp, npolys]
  omega

/-- **C56** the evaluated cubic spline passes through every data point, is twice continuously differentiable on the
whole real line, and its second derivative vanishes at the two end knots (natural boundary). -/
theorem C56_spline (x0 y0 c : List ℝ) (h2 : 2 ≤ x0.length) (hs : x0.Pairwise (· < ·)) (hy : y0.length = x0.length)
    (hsol : Solves x0 3 y0 c) :
    (∀ i < x0.length, evaluate x0 3 c (at' x0 i) = at' y0 i) ∧
    ∃ f' f'' : ℝ → ℝ, (∀ x, HasDerivAt (evaluate x0 3 c) (f' x) x) ∧ (∀ x, HasDerivAt f' (f'' x) x) ∧ Continuous f'' ∧
      f'' (at' x0 0) = 0 ∧ f'' (at' x0 (x0.length - 1)) = 0 := by
  obtain ⟨hc, hn⟩ := (solves_iff x0 y0 c h2 hy).mp hsol
  have he : evaluate x0 3 c = pw x0 fun i => (cubicAt c i).val := funext fun x => evaluate_eq x0 c h2 hc x
  have a0 : Agree x0 fun i => (cubicAt c i).val := fun i hi => by
    show (cubicAt c i).val _ = (cubicAt c (i + 1)).val _
    rw [hn.right i (by omega), hn.left (i + 1) (by omega)]
  have a1 : Agree x0 fun i => (cubicAt c i).d1 := fun i hi => hn.smooth1 i hi
  have a2 : Agree x0 fun i => (cubicAt c i).d2 := fun i hi => hn.smooth2 i hi
  refine ⟨fun i hi => ?_, pw x0 fun i => (cubicAt c i).d1, pw x0 fun i => (cubicAt c i).d2, ?_, ?_, ?_, ?_, ?_⟩
  · rw [he]
    cases i with
    | zero =>
      rw [pw_on x0 hs _ a0 0 (by omega) _ (.inr rfl) (.inl (sorted_step hs 0 (by omega)).le)]
      exact hn.left 0 (by omega)
    | succ i =>
      rw [pw_on x0 hs _ a0 i hi _ (.inl (sorted_step hs i hi).le) (.inl le_rfl)]
      exact hn.right i hi
  · intro x
    rw [he]
    exact pw_hasDeriv x0 hs h2 _ _ a0 a1 (fun i x => (cubicAt c i).hasDeriv x) x
  · intro x
    exact pw_hasDeriv x0 hs h2 _ _ a1 a2 (fun i x => (cubicAt c i).hasDeriv2 x) x
  · exact pw_continuous x0 hs h2 _ a2 fun i => (cubicAt c i).cont2
  · rw [pw_on x0 hs _ a2 0 (by omega) _ (.inr rfl) (.inl (sorted_step hs 0 (by omega)).le)]
    exact hn.natural0
  · rw [pw_on x0 hs _ a2 (x0.length - 2) (by omega) _
      (.inl (sorted_le x0 (strict_weak hs) _ _ (by omega) (by omega))) (.inr (by omega))]
    exact hn.naturalN

/-- **C56** in particular it is of class C². -/
theorem C56_contDiff (x0 y0 c : List ℝ) (h2 : 2 ≤ x0.length) (hs : x0.Pairwise (· < ·)) (hy : y0.length = x0.length)
    (hsol : Solves x0 3 y0 c) : ContDiff ℝ 2 (evaluate x0 3 c) := by
  obtain ⟨-, f', f'', h1, h3, h4, -⟩ := C56_spline x0 y0 c h2 hs hy hsol
  have e1 : deriv (evaluate x0 3 c) = f' := funext fun x => (h1 x).deriv
  have e2 : deriv f' = f'' := funext fun x => (h3 x).deriv
  rw [show (2 : WithTop ℕ∞) = 1 + 1 from one_add_one_eq_two.symm, contDiff_succ_iff_deriv]
  refine ⟨fun x => (h1 x).differentiableAt, by simp, ?_⟩
  rw [e1, contDiff_one_iff_deriv, e2]
  exact ⟨fun x => (h3 x).differentiableAt, h4⟩

/-- Every strictly increasing set of knots and every data vector give a spline: the hypotheses of the theorems above
are always met. -/
theorem C56_exists (x0 y0 : List ℝ) (h2 : 2 ≤ x0.length) (hs : x0.Pairwise (· < ·)) (hy : y0.length = x0.length) :
    ∃! c, Solves x0 3 y0 c := by
  apply C56_solvable x0 h2 hs
  simp [Y0, repeat2_eq y0 (by omega), hy, nvars, nvarsp, npolys]
  omega

example : ∃ c, Solves [0, 1, 3, 4] 3 [2, 5, 1, 1] c :=
  (C56_exists [0, 1, 3, 4] [2, 5, 1, 1] (by simp) (by simp; norm_num) rfl).exists

/-- The knots 0, 1, 3 with the values 4, 9, 1: `C56_pick`, `C56_spline`, `C56_contDiff`. -/
example := C56_pick [0, 1, 3] (by norm_num) (by simp) 2
example : ∃ c, ContDiff ℝ 2 (evaluate [0, 1, 3] 3 c) ∧ evaluate [0, 1, 3] 3 c (at' [0, 1, 3] 1) = at' [4, 9, 1] 1 := by
  obtain ⟨c, hc, -⟩ := C56_exists [0, 1, 3] [4, 9, 1] (by simp) (by simp) (by simp)
  exact ⟨c, C56_contDiff [0, 1, 3] [4, 9, 1] c (by simp) (by simp) (by simp) hc,
    (C56_spline [0, 1, 3] [4, 9, 1] c (by simp) (by simp) (by simp) hc).1 1 (by simp)⟩

end Verif.Interp

import Verif.Units.CloseModel
import Verif.Units.NumProps

/-! # C160: `Unit.isclose` -/

namespace Verif.Units

open Verif.Round

variable (P : Plat)

theorem mathIsclose_ok {a b rel abs : ℝ} (hr : 0 ≤ rel) (ha : 0 ≤ abs) : ∃ t, mathIsclose P a b rel abs = .ok t ∧
    (t = true ↔ a = b ∨ |P.fl (b - a)| ≤ |P.fl (rel * b)| ∨ |P.fl (b - a)| ≤ |P.fl (rel * a)| ∨ |P.fl (b - a)| ≤ abs) := by
  unfold mathIsclose
  rw [if_neg (by push Not; exact ⟨hr, ha⟩)]
  by_cases h : a = b
  · exact ⟨true, by rw [if_pos h], by simp [h]⟩
  · exact ⟨_, by rw [if_neg h], by simp [h, or_assoc]⟩

theorem isclose_unit (u v : NUnit) {rel abs : ℝ} (hr : 0 ≤ rel) (ha : 0 ≤ abs) : ∃ t, u.isclose P (.unit v) rel abs = .ok t ∧
    (t = true ↔ dictEq u.dims v.dims = true ∧ (u.value.toFloat P = v.value.toFloat P ∨
      |P.fl (v.value.toFloat P - u.value.toFloat P)| ≤ |P.fl (rel * v.value.toFloat P)| ∨
      |P.fl (v.value.toFloat P - u.value.toFloat P)| ≤ |P.fl (rel * u.value.toFloat P)| ∨
      |P.fl (v.value.toFloat P - u.value.toFloat P)| ≤ abs)) := by
  obtain ⟨t, ht, e⟩ := mathIsclose_ok P (a := u.value.toFloat P) (b := v.value.toFloat P) hr ha
  rw [← e]
  unfold NUnit.isclose
  simp only [ht]
  cases t
  · exact ⟨false, rfl, by simp⟩
  · exact ⟨dictEq u.dims v.dims, rfl, by simp⟩

theorem toFloat_eq {a : Num} (h : a.OK) : a.toFloat P = P.fl a.val := by
  cases a with
  | int n => rfl
  | frac q => rfl
  | flt x => exact (P.near.self h).symm

/-- **C160** anything that is not a unit is not close, whatever the tolerances. -/
theorem C160_other (u : NUnit) (rel abs : ℝ) : u.isclose P .other rel abs = .ok false := rfl

/-- **C160** with a unit: `ValueError` iff a tolerance is negative, even if the dimensions differ. -/
theorem C160_raises (u v : NUnit) (rel abs : ℝ) : u.isclose P (.unit v) rel abs = .error .valueError ↔ rel < 0 ∨ abs < 0 := by
  constructor
  · intro h
    by_contra hc
    push Not at hc
    obtain ⟨t, ht, -⟩ := isclose_unit P u v hc.1 hc.2
    rw [ht] at h; cases h
  · intro h
    have e : mathIsclose P (u.value.toFloat P) (v.value.toFloat P) rel abs = .error .valueError := by
      unfold mathIsclose; exact if_pos h
    simp only [NUnit.isclose, e]; rfl

/-- **C160** units of different dimension are never close. -/
theorem C160_dims (u v : NUnit) (hu : u.toUnit.WF) (hv : v.toUnit.WF) (rel abs : ℝ)
    (h : u.isclose P (.unit v) rel abs = .ok true) (k : Dim) : u.toUnit.exp k = v.toUnit.exp k := by
  by_cases hc : rel < 0 ∨ abs < 0
  · rw [(C160_raises P u v rel abs).mpr hc] at h; cases h
  · push Not at hc
    obtain ⟨t, ht, e⟩ := isclose_unit P u v hc.1 hc.2
    rw [ht] at h; cases h
    exact (dictEq_iff (wf_iff.mp hu) (wf_iff.mp hv)).mp (e.mp rfl).1 k

/-- **C160** equal units are close, for all tolerances that do not raise. -/
theorem C160_of_eq (u v : NUnit) (hu : u.value.OK) (hv : v.value.OK) (h : u.eq v = true) (rel abs : ℝ) (hr : 0 ≤ rel) (ha : 0 ≤ abs) :
    u.isclose P (.unit v) rel abs = .ok true := by
  unfold NUnit.eq at h
  rw [Bool.and_eq_true, decide_eq_true_iff] at h
  obtain ⟨t, ht, e⟩ := isclose_unit P u v hr ha
  rw [ht, e.mpr ⟨h.2, .inl (by rw [toFloat_eq P hu, toFloat_eq P hv, h.1])⟩]

/-- **C160** `isclose` is symmetric, if the rounding treats both signs alike (as IEEE 754's does). -/
theorem C160_symm (hodd : ∀ x, P.fl (-x) = -P.fl x) (u v : NUnit) (hu : u.toUnit.WF) (hv : v.toUnit.WF) (rel abs : ℝ) :
    u.isclose P (.unit v) rel abs = v.isclose P (.unit u) rel abs := by
  by_cases hc : rel < 0 ∨ abs < 0
  · rw [(C160_raises P u v rel abs).mpr hc, (C160_raises P v u rel abs).mpr hc]
  · push Not at hc
    obtain ⟨t, ht, e⟩ := isclose_unit P u v hc.1 hc.2
    obtain ⟨s, hs, f⟩ := isclose_unit P v u hc.1 hc.2
    rw [ht, hs]
    have hd : dictEq u.dims v.dims = true ↔ dictEq v.dims u.dims = true := by
      have h1 := dictEq_iff (wf_iff.mp hu) (wf_iff.mp hv)
      have h2 := dictEq_iff (wf_iff.mp hv) (wf_iff.mp hu)
      exact h1.trans (Iff.trans ⟨fun h k => (h k).symm, fun h k => (h k).symm⟩ h2.symm)
    have hab : |P.fl (u.value.toFloat P - v.value.toFloat P)| = |P.fl (v.value.toFloat P - u.value.toFloat P)| := by
      rw [← neg_sub, hodd, abs_neg]
    rw [hab, ← hd, @eq_comm _ (v.value.toFloat P) (u.value.toFloat P)] at f
    have : (t = true) ↔ (s = true) := by rw [e, f]; tauto
    rw [Bool.eq_iff_iff.mpr this]

/-- **C160** units of the same dimension whose values differ by less than `rel_tol` times the larger one are close, and those that differ
by more are not, if the difference to `rel_tol` exceeds `2 ^ (-50)`. -/
theorem C160_close (u v : NUnit) (hu : u.toUnit.WF) (hv : v.toUnit.WF) (hu' : u.value.OK) (hv' : v.value.OK)
    (hd : ∀ k, u.toUnit.exp k = v.toUnit.exp k) (rel : ℝ) (hr : 0 ≤ rel) (hr1 : rel ≤ 1) :
    (|u.value.val - v.value.val| ≤ (rel - (2 ^ 50)⁻¹) * max |u.value.val| |v.value.val| →
      u.isclose P (.unit v) rel 0 = .ok true) ∧
    ((rel + (2 ^ 50)⁻¹) * max |u.value.val| |v.value.val| < |u.value.val - v.value.val| →
      u.isclose P (.unit v) rel 0 = .ok false) := by
  obtain ⟨t, ht, e⟩ := isclose_unit P u v hr le_rfl
  rw [ht]
  have hde : dictEq u.dims v.dims = true := (dictEq_iff (wf_iff.mp hu) (wf_iff.mp hv)).mpr hd
  rw [toFloat_eq P hu', toFloat_eq P hv', and_iff_right hde] at e
  clear ht
  generalize u.value.val = a at *
  generalize v.value.val = b at *
  have two : ((2 : ℝ) ^ 53)⁻¹ = (2 ^ 50)⁻¹ / 8 := by norm_num
  have hfac : ∀ y : ℝ, |P.fl y - y| ≤ (2 ^ 50)⁻¹ / 8 * |y| := fun y => by
    obtain ⟨δ, hδ, h⟩ := P.near.factor (by norm_num) y
    rw [h, show y * (1 + δ) - y = δ * y by ring, abs_mul, ← two]
    exact mul_le_mul_of_nonneg_right hδ (abs_nonneg _)
  set u := ((2 : ℝ) ^ 50)⁻¹ / 8 with hu
  have hu0 : 0 ≤ u := by positivity
  have hu1 : u ≤ 1 / 1000 := by rw [hu]; norm_num
  have e8 : ((2 : ℝ) ^ 50)⁻¹ = 8 * u := by rw [hu]; ring
  rw [e8]
  clear_value u
  -- bounds for a rounded number
  have lo : ∀ y, (1 - u) * |y| ≤ |P.fl y| := fun y => by
    have := hfac y
    have h2 := abs_sub_abs_le_abs_sub y (P.fl y)
    rw [abs_sub_comm] at h2
    linarith
  have hi : ∀ y, |P.fl y| ≤ (1 + u) * |y| := fun y => by
    have := hfac y
    have h2 := abs_sub_abs_le_abs_sub (P.fl y) y
    linarith
  set M := max |a| |b| with hM
  have ma : |a| ≤ M := le_max_left _ _
  have mb : |b| ≤ M := le_max_right _ _
  have hM0 : 0 ≤ M := (abs_nonneg _).trans ma
  have diff : |(P.fl b - P.fl a) - (b - a)| ≤ 2 * u * M := by
    rw [show (P.fl b - P.fl a) - (b - a) = (P.fl b - b) - (P.fl a - a) by ring]
    refine (abs_sub _ _).trans ?_
    have h1 := (hfac a).trans (mul_le_mul_of_nonneg_left ma hu0)
    have h2 := (hfac b).trans (mul_le_mul_of_nonneg_left mb hu0)
    linarith
  rw [abs_sub_comm a b]
  have dhi : |P.fl b - P.fl a| ≤ |b - a| + 2 * u * M := by
    have := abs_sub_abs_le_abs_sub (P.fl b - P.fl a) (b - a); linarith
  have dlo : |b - a| - 2 * u * M ≤ |P.fl b - P.fl a| := by
    have := abs_sub_abs_le_abs_sub (b - a) (P.fl b - P.fl a)
    rw [abs_sub_comm (b - a) (P.fl b - P.fl a)] at this; linarith
  have uM : 0 ≤ u * M := mul_nonneg hu0 hM0
  have uuM : u * (u * M) ≤ 1 / 1000 * (u * M) := mul_le_mul_of_nonneg_right hu1 uM
  have ruM : rel * (u * M) ≤ 1 * (u * M) := mul_le_mul_of_nonneg_right hr1 uM
  have ruM0 : 0 ≤ rel * (u * M) := mul_nonneg hr uM
  have rM : 0 ≤ rel * M := mul_nonneg hr hM0
  constructor
  · intro h
    rw [e.mpr]
    right
    have key : ∀ c, |c| = M → |P.fl (P.fl b - P.fl a)| ≤ |P.fl (rel * P.fl c)| := fun c hc => by
      have h1 := (hi (P.fl b - P.fl a)).trans (mul_le_mul_of_nonneg_left (dhi.trans (add_le_add_left h _)) (by linarith))
      have h2 : (1 - u) * (rel * ((1 - u) * M)) ≤ |P.fl (rel * P.fl c)| := by
        refine le_trans ?_ (lo _)
        rw [abs_mul, abs_of_nonneg hr, ← hc]
        exact mul_le_mul_of_nonneg_left (mul_le_mul_of_nonneg_left (lo c) hr) (by linarith)
      refine h1.trans (le_trans ?_ h2)
      have h5 : (0 : ℝ) ≤ rel * (u * (u * M)) := by positivity
      have h6 : (0 : ℝ) ≤ u * (u * M) := by positivity
      linarith
    rcases max_choice |a| |b| with hc | hc
    · exact .inr (.inl (key a (by rw [hM, hc])))
    · exact .inl (key b (by rw [hM, hc]))
  · intro h
    have ht : ¬ t = true := by
      rw [e]
      have hD : (1 - u) * ((rel + 8 * u) * M - 2 * u * M) < |P.fl (P.fl b - P.fl a)| := by
        refine lt_of_lt_of_le ?_ (lo _)
        exact mul_lt_mul_of_pos_left (by linarith) (by linarith)
      have hT : ∀ c, |c| ≤ M → |P.fl (rel * P.fl c)| ≤ (1 + u) * (rel * ((1 + u) * M)) := fun c hc => by
        refine (hi _).trans ?_
        rw [abs_mul, abs_of_nonneg hr]
        exact mul_le_mul_of_nonneg_left (mul_le_mul_of_nonneg_left ((hi c).trans (mul_le_mul_of_nonneg_left hc (by linarith))) hr) (by linarith)
      have gap : (1 + u) * (rel * ((1 + u) * M)) ≤ (1 - u) * ((rel + 8 * u) * M - 2 * u * M) := by
        have : rel * (u * (u * M)) ≤ 1 * (u * (u * M)) := mul_le_mul_of_nonneg_right hr1 (mul_nonneg hu0 uM)
        linarith
      have pos : 0 < |P.fl (P.fl b - P.fl a)| := by
        refine lt_of_le_of_lt ?_ hD
        have : 0 ≤ (1 + u) * (rel * ((1 + u) * M)) := by positivity
        linarith
      rintro (h1 | h1 | h1 | h1)
      · rw [h1, sub_self, P.near.self isFl_zero, abs_zero] at pos
        exact lt_irrefl _ pos
      · have := hT b mb; linarith
      · have := hT a ma; linarith
      · linarith
    simpa using ht

/-- **C160** with both tolerances 0 the units are close iff they have the same dimension and their values are the same number after
conversion to `float`. -/
theorem C160_zero (u v : NUnit) (hu : u.toUnit.WF) (hv : v.toUnit.WF) : u.isclose P (.unit v) 0 0 = .ok true ↔
    (∀ k, u.toUnit.exp k = v.toUnit.exp k) ∧ u.value.toFloat P = v.value.toFloat P := by
  obtain ⟨t, ht, e⟩ := isclose_unit P u v le_rfl le_rfl
  have hd : dictEq u.dims v.dims = true ↔ _ := dictEq_iff (wf_iff.mp hu) (wf_iff.mp hv)
  rw [ht, Except.ok.injEq, e, hd]
  refine and_congr Iff.rfl ⟨fun h => ?_, .inl⟩
  simp only [zero_mul, P.near.self isFl_zero, abs_zero, abs_nonpos_iff, or_self] at h
  rcases h with h | h
  · exact h
  · by_contra hne
    obtain ⟨δ, hδ, e'⟩ := P.near.factor (by norm_num) (v.value.toFloat P - u.value.toFloat P)
    rw [h] at e'
    have h1 : v.value.toFloat P - u.value.toFloat P ≠ 0 := sub_ne_zero.mpr fun h => hne h.symm
    have h2 : (1 : ℝ) + δ ≠ 0 := by
      have := (abs_le.mp hδ).1
      have h3 : ((2 : ℝ) ^ 53)⁻¹ < 1 := by norm_num
      intro h4; linarith
    exact mul_ne_zero h1 h2 e'.symm

/-! ### Cases -/

/-- A unit of length of value `q`. -/
def lenQ (q : ℚ) : NUnit := NUnit.mk' [("L", 1)] (.frac q)

theorem lenQ_wf (q : ℚ) : (lenQ q).toUnit.WF := wf_mk _ _

theorem defaultRel_near : |defaultRel P - 1 / 10 ^ 9| ≤ 1 / 10 ^ 9 / 2 ^ 53 := by
  obtain ⟨δ, hδ, h⟩ := P.near.factor (by norm_num) (1 / 10 ^ 9)
  unfold defaultRel
  rw [h, show (1 : ℝ) / 10 ^ 9 * (1 + δ) - 1 / 10 ^ 9 = δ * (1 / 10 ^ 9) by ring, abs_mul,
    abs_of_pos (by norm_num : (0 : ℝ) < 1 / 10 ^ 9)]
  calc _ ≤ ((2 : ℝ) ^ 53)⁻¹ * (1 / 10 ^ 9) := mul_le_mul_of_nonneg_right hδ (by norm_num)
    _ = _ := by ring

/-- **C160** not transitive: with the default tolerances `u` is close to `v` and `v` to `w`, but `u` not to `w`. -/
theorem C160_not_transitive : (lenQ 1).isclose P (.unit (lenQ (1 + 9 / 10 ^ 10))) (defaultRel P) 0 = .ok true ∧
    (lenQ (1 + 9 / 10 ^ 10)).isclose P (.unit (lenQ (1 + 18 / 10 ^ 10))) (defaultRel P) 0 = .ok true ∧
    (lenQ 1).isclose P (.unit (lenQ (1 + 18 / 10 ^ 10))) (defaultRel P) 0 = .ok false := by
  have hr := abs_le.mp (defaultRel_near P)
  have h0 : 0 ≤ defaultRel P := by have := hr.1; norm_num at this ⊢; linarith
  have h1 : defaultRel P ≤ 1 := by have := hr.2; norm_num at this ⊢; linarith
  have v : ∀ q, (lenQ q).value.val = (q : ℝ) := fun q => rfl
  have close := fun q r : ℚ => C160_close P (lenQ q) (lenQ r) (lenQ_wf q) (lenQ_wf r) trivial trivial (fun _ => rfl) _ h0 h1
  simp only [v] at close
  have m1 : max |((1 : ℚ) : ℝ)| |((1 + 9 / 10 ^ 10 : ℚ) : ℝ)| = 1 + 9 / 10 ^ 10 := by
    push_cast; rw [abs_of_pos (by norm_num), abs_of_pos (by norm_num), max_eq_right (by norm_num)]
  have m2 : max |((1 + 9 / 10 ^ 10 : ℚ) : ℝ)| |((1 + 18 / 10 ^ 10 : ℚ) : ℝ)| = 1 + 18 / 10 ^ 10 := by
    push_cast; rw [abs_of_pos (by norm_num), abs_of_pos (by norm_num), max_eq_right (by norm_num)]
  have m3 : max |((1 : ℚ) : ℝ)| |((1 + 18 / 10 ^ 10 : ℚ) : ℝ)| = 1 + 18 / 10 ^ 10 := by
    push_cast; rw [abs_of_pos (by norm_num), abs_of_pos (by norm_num), max_eq_right (by norm_num)]
  have d1 : |((1 : ℚ) : ℝ) - ((1 + 9 / 10 ^ 10 : ℚ) : ℝ)| = 9 / 10 ^ 10 := by
    push_cast; rw [abs_of_neg (by norm_num)]; norm_num
  have d2 : |((1 + 9 / 10 ^ 10 : ℚ) : ℝ) - ((1 + 18 / 10 ^ 10 : ℚ) : ℝ)| = 9 / 10 ^ 10 := by
    push_cast; rw [abs_of_neg (by norm_num)]; norm_num
  have d3 : |((1 : ℚ) : ℝ) - ((1 + 18 / 10 ^ 10 : ℚ) : ℝ)| = 18 / 10 ^ 10 := by
    push_cast; rw [abs_of_neg (by norm_num)]; norm_num
  obtain ⟨r1, r2⟩ := hr
  norm_num at r1 r2
  refine ⟨(close _ _).1 ?_, (close _ _).1 ?_, (close _ _).2 ?_⟩
  · rw [m1, d1]; norm_num; linarith
  · rw [m2, d2]; norm_num; linarith
  · rw [m3, d3]; norm_num; linarith

/-- **C160** close for zero tolerances is not `==`: `Fraction(1, 3)` and `float(Fraction(1, 3))` are close, but not equal. -/
theorem C160_zero_ne :
    (lenQ (1 / 3)).isclose P (.unit (NUnit.mk' [("L", 1)] (.flt (P.fl (1 / 3))))) 0 0 = .ok true ∧
    (lenQ (1 / 3)).eq (NUnit.mk' [("L", 1)] (.flt (P.fl (1 / 3)))) = false := by
  constructor
  · rw [C160_zero P _ (NUnit.mk' [("L", 1)] (.flt (P.fl (1 / 3)))) (lenQ_wf _) (wf_mk [("L", 1)] (P.fl (1 / 3)))]
    refine ⟨fun _ => rfl, ?_⟩
    simp [lenQ, NUnit.mk', Num.toFloat]
  · rw [NUnit.eq, Bool.and_eq_false_iff]
    left
    rw [decide_eq_false_iff_not]
    show ¬(((1 / 3 : ℚ) : ℝ) = P.fl (1 / 3))
    push_cast
    intro h
    have hm := P.near.mem (1 / 3)
    rw [← h] at hm
    obtain ⟨k, hk⟩ := isFl_inv_int (n := 3) (by norm_num) (by simpa using hm)
    have h3 : (3 : ℕ) = 2 ^ k := by
      have : ((3 : ℕ) : ℤ) = ((2 ^ k : ℕ) : ℤ) := by push_cast; rw [← hk]; norm_num
      exact_mod_cast this
    have h5 : (3 : ℕ) ∣ 2 ^ k := h3 ▸ dvd_rfl
    have := (Nat.Prime.dvd_of_dvd_pow Nat.prime_three h5)
    norm_num at this

/-- A rounding that treats both signs alike. -/
noncomputable def rndOdd (x : ℝ) : ℝ := if 0 ≤ x then rnd 53 x else -rnd 53 (-x)

theorem nearest_rndOdd : Nearest 53 rndOdd where
  mem x := by
    have h := nearest_rnd (p := 53) (by norm_num)
    unfold rndOdd; split_ifs
    · exact h.mem _
    · exact isFl_neg (h.mem _)
  near x y hy := by
    have h := nearest_rnd (p := 53) (by norm_num)
    unfold rndOdd; split_ifs
    · exact h.near _ _ hy
    · have := h.near (-x) (-y) (isFl_neg hy)
      rw [show -rnd 53 (-x) - x = -(rnd 53 (-x) - -x) by ring, abs_neg, show y - x = -(-y - -x) by ring, abs_neg]
      exact this

theorem rndOdd_neg (x : ℝ) : rndOdd (-x) = -rndOdd x := by
  rcases lt_trichotomy x 0 with h | rfl | h
  · rw [rndOdd, rndOdd, if_pos (by linarith), if_neg (by linarith), neg_neg]
  · rw [neg_zero, nearest_rndOdd.self isFl_zero, neg_zero]
  · rw [rndOdd, rndOdd, if_neg (by linarith), if_pos h.le, neg_neg]

/-- Arithmetic with it. -/
noncomputable def platOdd : Plat where
  fl := rndOdd
  near := nearest_rndOdd
  pw x n := rndOdd (x ^ n)
  pw_mem _ _ := nearest_rndOdd.mem _
  pw_exact _ _ h := nearest_rndOdd.self h
  pw_near x n := by
    refine (nearest_rndOdd.error (by norm_num) _).trans ?_
    have := abs_nonneg (x ^ n)
    rw [div_le_div_iff₀ (by positivity) (by positivity)]
    nlinarith

example (q r : ℚ) : (lenQ q).isclose platOdd (.unit (lenQ r)) (defaultRel platOdd) 0 =
    (lenQ r).isclose platOdd (.unit (lenQ q)) (defaultRel platOdd) 0 :=
  C160_symm platOdd rndOdd_neg _ _ (lenQ_wf q) (lenQ_wf r) _ _

/-- A metre and a second: not close, but with a negative tolerance an exception. -/
example : (lenQ 1).isclose P (.unit (NUnit.mk' [("T", 1)] (.frac 1))) 1 1 ≠ .ok true ∧
    (lenQ 1).isclose P (.unit (NUnit.mk' [("T", 1)] (.frac 1))) (-1) 0 = .error .valueError := by
  refine ⟨fun h => ?_, (C160_raises P _ _ _ _).mpr (.inl (by norm_num))⟩
  have := C160_dims P _ (NUnit.mk' [("T", 1)] (.frac 1)) (lenQ_wf _) (wf_mk [("T", 1)] _) _ _ h "L"
  change dget (mkDims [("L", 1)]) "L" = dget (mkDims [("T", 1)]) "L" at this
  rw [dget_mkDims (by simp [keys]), dget_mkDims (by simp [keys]), limDen_of_le (by simp [dget, maxDen]),
    show dget [("T", 1)] "L" = 0 from rfl, limDen_zero] at this
  simp [dget] at this

example : (lenQ 1).isclose P (.unit (NUnit.mk' [("L", 1)] (.int 1))) (defaultRel P) 0 = .ok true := by
  refine C160_of_eq P (lenQ 1) (NUnit.mk' [("L", 1)] (.int 1)) trivial trivial ?_ _ _ ?_ le_rfl
  · rw [NUnit.eq, Bool.and_eq_true]
    exact ⟨by simp [lenQ, NUnit.mk', Num.val], (dictEq_iff (mkDims_normal _) (mkDims_normal _)).mpr fun _ => rfl⟩
  · have := (abs_le.mp (defaultRel_near P)).1; norm_num at this ⊢; linarith

end Verif.Units

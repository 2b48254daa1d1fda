import Verif.Roots.Poly
import Mathlib.Data.Real.Sqrt
import Mathlib.Analysis.Complex.Norm

/-! # The closed forms for degrees 2, 3, 4 -/

namespace Verif.Roots

theorem roots2_vieta {sq : ℂ → ℂ} (h : IsSqrt sq) (b c : ℂ) :
    (roots2 sq b c).1 + (roots2 sq b c).2 = -b ∧ (roots2 sq b c).1 * (roots2 sq b c).2 = c := by
  unfold roots2
  by_cases hc : c = 0
  · simp [hc]
  · rw [if_neg hc]
    have hs := h (b * b - 4 * c)
    generalize sq (b * b - 4 * c) = s at hs
    dsimp only
    have key : ∀ q : ℂ, q * q + b * q + c = 0 → q + c / q = -b ∧ q * (c / q) = c := by
      intro q hq
      have hq0 : q ≠ 0 := by
        rintro rfl
        apply hc
        simpa using hq
      constructor
      · field_simp
        linear_combination hq
      · field_simp
    apply key
    split_ifs <;> linear_combination hs / 4

/-- The combination `R ± S` under the cube root. -/
theorem cubic_core {b Q R W A B : ℂ} (hW : W * W - 2 * R * W + Q * Q * Q = 0) (hA : A * A * A = -W)
    (hB : (A ≠ 0 → B = Q / A) ∧ (A = 0 → B = 0)) (hdeg : W = 0 → R = 0) :
    A * B = Q ∧ A * A * A + B * B * B = -2 * R := by
  by_cases hA0 : A = 0
  · have hW0 : W = 0 := by rw [hA0] at hA; simpa using hA.symm
    have hR := hdeg hW0
    have hQ : Q = 0 := by
      rw [hW0] at hW
      have : Q * Q * Q = 0 := by linear_combination hW
      simpa using this
    rw [hB.2 hA0, hA0, hQ, hR]; simp
  · have hW0 : W ≠ 0 := by
      intro h0
      apply hA0
      rw [h0, neg_zero] at hA
      simpa using hA
    rw [hB.1 hA0]
    refine ⟨by field_simp, ?_⟩
    have h2 : W * (2 * R - W) = Q * Q * Q := by linear_combination -hW
    have h3 : (Q / A) * (Q / A) * (Q / A) = -(2 * R - W) := by
      have : (Q / A) * (Q / A) * (Q / A) = (Q * Q * Q) / (A * A * A) := by field_simp
      rw [this, hA, ← h2]
      field_simp
    rw [h3, hA]; ring

theorem roots3_vieta {sq cb : ℂ → ℂ} (hs : IsPrincipalSqrt sq) (hcb : IsCbrt cb) (b c d : ℂ)
    (hreg : CubicRegular b c d) :
    let r := roots3 sq cb b c d
    r.1 + r.2.1 + r.2.2 = -b ∧ r.1 * r.2.1 + r.1 * r.2.2 + r.2.1 * r.2.2 = c ∧ r.1 * r.2.1 * r.2.2 = -d := by
  classical
  set Q := (b * b - 3 * c) / 9 with hQ
  set R := (2 * b * b * b - 9 * b * c + 27 * d) / 54 with hR
  have hS := hs.1 (R * R - Q * Q * Q)
  have hSre := hs.2 (R * R - Q * Q * Q)
  set S := sq (R * R - Q * Q * Q) with hSdef
  set W := (if 0 ≤ R.re then R + S else R - S) with hWdef
  have hW : W * W - 2 * R * W + Q * Q * Q = 0 := by
    rw [hWdef]
    split_ifs <;> linear_combination hS
  set A := -cb W with hAdef
  have hA : A * A * A = -W := by
    rw [hAdef]
    linear_combination -hcb W
  set B := (if A = 0 then 0 else Q / A) with hBdef
  have hB : (A ≠ 0 → B = Q / A) ∧ (A = 0 → B = 0) :=
    ⟨fun h => by rw [hBdef, if_neg h], fun h => by rw [hBdef, if_pos h]⟩
  have hdeg : W = 0 → R = 0 := by
    intro h0
    rw [h0] at hW
    have hQ0 : Q = 0 := by
      have : Q * Q * Q = 0 := by linear_combination hW
      simpa using this
    have hbc : b * b = 3 * c := by
      have := hQ0
      rw [hQ, div_eq_zero_iff] at this
      rcases this with h | h
      · exact sub_eq_zero.mp h
      · norm_num at h
    have hR' : R = (27 * d - b * b * b) / 54 := by
      rw [hR]
      have : c = b * b / 3 := by rw [hbc]; ring
      rw [this]; ring
    have hre : R.re = 0 := by
      rw [hWdef] at h0
      split_ifs at h0 with hr
      · have : S = -R := by linear_combination h0
        rw [this] at hSre
        simp only [Complex.neg_re] at hSre
        linarith
      · have : S = R := by linear_combination -h0
        rw [this] at hSre
        exact absurd hSre hr
    have hre2 : (27 * d - b * b * b).re = 0 := by
      have h54 : 27 * d - b * b * b = ((54 : ℝ) : ℂ) * R := by rw [hR']; push_cast; ring
      rw [h54, Complex.re_ofReal_mul, hre, mul_zero]
    rw [hR', hreg hbc hre2]; simp
  obtain ⟨h1, h2⟩ := cubic_core (b := b) hW hA hB hdeg
  have h3 : ((Real.sqrt 3 / 2 : ℝ) : ℂ) * ((Real.sqrt 3 / 2 : ℝ) : ℂ) = 3 / 4 := by
    rw [← Complex.ofReal_mul]
    have : Real.sqrt 3 / 2 * (Real.sqrt 3 / 2) = 3 / 4 := by
      have := Real.mul_self_sqrt (show (0 : ℝ) ≤ 3 by norm_num)
      linear_combination this / 4
    rw [this]; push_cast; ring
  have hI := Complex.I_mul_I
  have hr : roots3 sq cb b c d = (A + B - b / 3,
      -(A + B) / 2 - b / 3 + Complex.I * (((Real.sqrt 3 / 2 : ℝ) : ℂ) * (A - B)),
      -(A + B) / 2 - b / 3 - Complex.I * (((Real.sqrt 3 / 2 : ℝ) : ℂ) * (A - B))) := rfl
  rw [hr]
  generalize ((Real.sqrt 3 / 2 : ℝ) : ℂ) = t at h3
  have hcQ : c = (b * b - 9 * Q) / 3 := by rw [hQ]; ring
  have hdR : d = (54 * R - 2 * b * b * b + 9 * b * c) / 27 := by rw [hR]; ring
  clear_value A B Q R
  have hprod : (-(A + B) / 2 - b / 3 + Complex.I * (t * (A - B))) * (-(A + B) / 2 - b / 3 - Complex.I * (t * (A - B)))
      = (A * A - A * B + B * B) + (A + B) * b / 3 + b * b / 9 := by
    linear_combination (-(t * t) * (A - B) * (A - B)) * hI + (A - B) * (A - B) * h3
  have hab3 : (A + B) * (A * A - A * B + B * B) = -2 * R := by linear_combination h2
  dsimp only
  refine ⟨by ring, ?_, ?_⟩
  · rw [hcQ]
    linear_combination hprod - 3 * h1
  · rw [mul_assoc, hprod, hdR, hcQ]
    linear_combination hab3 + b * h1

theorem roots4Depressed_vieta {sq cb : ℂ → ℂ} (hs : IsPrincipalSqrt sq) (hcb : IsCbrt cb) (p q r : ℂ)
    (hreg : q = 0 ∨ CubicRegular (2 * p) (p * p - 4 * r) (-q * q)) (x : ℂ) :
    let y := roots4Depressed sq cb p q r
    (x - y.1) * (x - y.2.1) * (x - y.2.2.1) * (x - y.2.2.2) = x ^ 4 + p * x ^ 2 + q * x + r := by
  unfold roots4Depressed
  by_cases hq : q = 0
  · rw [if_pos hq]
    obtain ⟨h1, h2⟩ := roots2_vieta hs.1 p r
    have e1 := hs.1 (roots2 sq p r).1
    have e2 := hs.1 (roots2 sq p r).2
    dsimp only
    generalize sq (roots2 sq p r).1 = s1 at *
    generalize sq (roots2 sq p r).2 = s2 at *
    rw [← e1, ← e2] at h1 h2
    rw [hq]
    linear_combination (-x ^ 2) * h1 + h2
  · rw [if_neg hq]
    obtain ⟨h1, h2, h3⟩ := roots3_vieta hs hcb _ _ _ (hreg.resolve_left hq)
    have e1 := hs.1 (roots3 sq cb (2 * p) (p * p - 4 * r) (-q * q)).2.1
    have e2 := hs.1 (roots3 sq cb (2 * p) (p * p - 4 * r) (-q * q)).2.2
    dsimp only at h1 h2 h3 ⊢
    generalize (roots3 sq cb (2 * p) (p * p - 4 * r) (-q * q)) = y at *
    generalize sq y.2.1 = s1 at *
    generalize sq y.2.2 = s2 at *
    rw [← e1, ← e2] at h1 h2 h3
    have h12 : s1 * s2 ≠ 0 := by
      intro h0
      apply hq
      have : q * q = 0 := by
        have : y.1 * (s1 * s1) * (s2 * s2) = y.1 * (s1 * s2) * (s1 * s2) := by ring
        rw [this, h0] at h3
        linear_combination -h3
      simpa using this
    set s3 := -q / (s1 * s2) with hs3
    have h4 : s1 * s2 * s3 = -q := by rw [hs3, mul_div_cancel₀ _ h12]
    clear_value s3
    have h5 : y.1 = s3 * s3 := by
      have : (s1 * s2) * (s1 * s2) * (y.1 - s3 * s3) = 0 := by
        linear_combination h3 - (s1 * s2 * s3) * h4 + q * h4
      have h6 : (s1 * s2) * (s1 * s2) ≠ 0 := mul_ne_zero h12 h12
      have := (mul_eq_zero.mp this).resolve_left h6
      linear_combination this
    rw [h5] at h1 h2
    have hr : r = (p * p - (s3 * s3 * (s1 * s1) + s3 * s3 * (s2 * s2) + s1 * s1 * (s2 * s2))) / 4 := by
      linear_combination h2 / 4
    have hp : p = -(s1 * s1 + s2 * s2 + s3 * s3) / 2 := by linear_combination h1 / 2
    have hqq : q = -(s1 * s2 * s3) := by linear_combination h4
    rw [hr, hqq, hp]
    ring

theorem sort4_perm {α T : Type*} [LinearOrder α] (v1 : α) (r1 : T) (v2 : α) (r2 : T) (v3 : α) (r3 : T) (v4 : α) (r4 : T) :
    let s := sort4 v1 r1 v2 r2 v3 r3 v4 r4
    [s.1, s.2.1, s.2.2.1, s.2.2.2].Perm [r1, r2, r3, r4] := by
  classical
  rw [List.perm_iff_count]
  intro a
  unfold sort4
  split_ifs <;> simp only [List.count_cons, List.count_nil] <;> omega

end Verif.Roots

import Verif.Ellred.ComplexRot

/-! # The series of `R_F` for nearly equal complex arguments -/

namespace Verif.Ellred

open MeasureTheory Set Filter Topology Verif.Carlson

/-- An approximation to the inverse square root. -/
theorem cinv_sqrt_bound (w p : ℂ) (B : ℝ) (hw : ‖w‖ ≤ 1 / 4) (hp : ‖p - 1‖ ≤ 1 / 4) (hB : ‖1 - p ^ 2 * (1 + w)‖ ≤ B) :
    ‖1 / csqrt (1 + w) - p‖ ≤ 5 / 4 * B := by
  have hre : 3 / 4 ≤ (1 + w).re := by
    have := (Complex.abs_re_le_norm w).trans hw
    rw [Complex.add_re, Complex.one_re]
    linarith [(abs_le.mp this).1]
  have hs := csqrt_sq (1 + w)
  have h0 : csqrt (1 + w) ≠ 0 := csqrt_ne0 fun e => by rw [e] at hre; norm_num at hre
  have hr := csqrt_re (1 + w)
  set s := csqrt (1 + w) with hsd
  have hs1 : ‖s - 1‖ ≤ 1 / 4 := by
    have e : (s - 1) * (s + 1) = w := by linear_combination hs
    have h1 : 1 ≤ ‖s + 1‖ := by
      refine le_trans ?_ (Complex.re_le_norm _)
      rw [Complex.add_re, Complex.one_re]
      linarith
    calc ‖s - 1‖ ≤ ‖s - 1‖ * ‖s + 1‖ := le_mul_of_one_le_right (norm_nonneg _) h1
      _ = ‖w‖ := by rw [← norm_mul, e]
      _ ≤ _ := hw
  have hsn : 4 / 5 ≤ ‖s‖ := by
    have h2 : ‖s‖ * ‖s‖ = ‖1 + w‖ := by rw [← norm_mul, hs]
    have h3 : 3 / 4 ≤ ‖1 + w‖ := hre.trans (Complex.re_le_norm _)
    by_contra hc
    have := not_le.mp hc
    nlinarith [norm_nonneg s]
  have hps : ‖p * s - 1‖ ≤ 9 / 16 := by
    have e : p * s - 1 = (p - 1) * (s - 1) + (p - 1) + (s - 1) := by ring
    rw [e]
    calc _ ≤ ‖p - 1‖ * ‖s - 1‖ + ‖p - 1‖ + ‖s - 1‖ := by
          rw [← norm_mul]
          exact norm_add₃_le
      _ ≤ 1 / 4 * (1 / 4) + 1 / 4 + 1 / 4 := by gcongr
      _ = _ := by norm_num
  have hbig : 1 ≤ ‖1 + p * s‖ := by
    refine le_trans ?_ (Complex.re_le_norm _)
    have := (Complex.abs_re_le_norm _).trans hps
    rw [Complex.sub_re, Complex.one_re] at this
    rw [Complex.add_re, Complex.one_re]
    linarith [(abs_le.mp this).1]
  have key : (1 / s - p) * (s * (1 + p * s)) = 1 - p ^ 2 * (1 + w) := by
    rw [← hs]
    field_simp
    ring
  have hn : ‖1 / s - p‖ * (‖s‖ * ‖1 + p * s‖) ≤ B := by
    rw [← norm_mul, ← norm_mul, key]
    exact hB
  have h5 : ‖1 / s - p‖ * (4 / 5) ≤ B := by
    refine le_trans ?_ hn
    apply mul_le_mul_of_nonneg_left _ (norm_nonneg _)
    nlinarith
  linarith

theorem ctaylor2 (w : ℂ) (hw : ‖w‖ ≤ 1 / 4) : ‖1 / csqrt (1 + w) - (1 - w / 2 + 3 / 8 * w ^ 2)‖ ≤ 5 / 4 * ‖w‖ ^ 3 := by
  have h0 := norm_nonneg w
  apply cinv_sqrt_bound w _ _ hw
  · have e : 1 - w / 2 + 3 / 8 * w ^ 2 - 1 = w * (-(1 / 2) + 3 / 8 * w) := by ring
    rw [e, norm_mul]
    have : ‖(-(1 / 2) + 3 / 8 * w : ℂ)‖ ≤ 1 / 2 + 3 / 8 * ‖w‖ := by
      refine (norm_add_le _ _).trans ?_
      rw [norm_mul, norm_neg]
      norm_num
    nlinarith [norm_nonneg (-(1 / 2) + 3 / 8 * w : ℂ)]
  · have e : 1 - (1 - w / 2 + 3 / 8 * w ^ 2) ^ 2 * (1 + w) = w ^ 3 * (-(5 / 8) + 15 / 64 * w - 9 / 64 * w ^ 2) := by ring
    rw [e, norm_mul, norm_pow]
    apply mul_le_of_le_one_right (by positivity)
    calc ‖(-(5 / 8) + 15 / 64 * w - 9 / 64 * w ^ 2 : ℂ)‖ ≤ ‖(-(5 / 8) : ℂ)‖ + ‖15 / 64 * w‖ + ‖9 / 64 * w ^ 2‖ :=
          (norm_sub_le _ _).trans (add_le_add_left (norm_add_le _ _) _)
      _ = 5 / 8 + 15 / 64 * ‖w‖ + 9 / 64 * ‖w‖ ^ 2 := by
          rw [norm_mul, norm_mul, norm_pow, norm_neg]
          norm_num
      _ ≤ 1 := by nlinarith

/-- The complex form of `integral_approx`. -/
theorem cintegral_approx (F : ℝ → ℂ) (hF : IntegrableOn F (Ioi 0)) (c : ℕ → ℂ) (n K : ℕ) (C : ℝ)
    (h : ∀ t > 0, ‖F t - ∑ k ∈ Finset.range n, c k * ((1 / √(t + 1) ^ (2 * k + 3) : ℝ) : ℂ)‖ ≤ C * (1 / √(t + 1) ^ (2 * K + 3))) :
    ‖(∫ t in Ioi (0 : ℝ), F t) - ∑ k ∈ Finset.range n, c k * (2 / (2 * k + 1))‖ ≤ C * (2 / (2 * K + 1)) := by
  have hi : ∀ k ∈ Finset.range n, IntegrableOn (fun t : ℝ => c k * ((1 / √(t + 1) ^ (2 * k + 3) : ℝ) : ℂ)) (Ioi 0) :=
    fun k _ => ((integrable_base k).ofReal (𝕜 := ℂ)).const_mul _
  have hs : IntegrableOn (fun t : ℝ => ∑ k ∈ Finset.range n, c k * ((1 / √(t + 1) ^ (2 * k + 3) : ℝ) : ℂ)) (Ioi 0) :=
    integrable_finset_sum _ hi
  have e : ∫ t in Ioi (0 : ℝ), ∑ k ∈ Finset.range n, c k * ((1 / √(t + 1) ^ (2 * k + 3) : ℝ) : ℂ) =
      ∑ k ∈ Finset.range n, c k * (2 / (2 * k + 1)) := by
    rw [integral_finset_sum _ hi]
    apply Finset.sum_congr rfl
    intro k _
    rw [MeasureTheory.integral_const_mul, integral_complex_ofReal, integral_base]
    push_cast
    rfl
  rw [← e, ← integral_sub hF hs, ← integral_base K, ← MeasureTheory.integral_const_mul]
  refine norm_integral_le_of_norm_le ((integrable_base K).const_mul C) ?_
  rw [ae_restrict_iff' measurableSet_Ioi]
  exact Eventually.of_forall fun t ht => h t ht

/-- The product of roots near equal arguments. -/
theorem csqrt_prod3 (t : ℝ) (X Y Z : ℂ) (ht : 0 < t) (hX : ‖X‖ ≤ 1 / 4) (hY : ‖Y‖ ≤ 1 / 4) (hZ : ‖Z‖ ≤ 1 / 4)
    (hs : X + Y + Z = 0) (u : ℝ) (hu : u = 1 / (t + 1)) (hw : ‖(X * Y + X * Z + Y * Z) * u ^ 2 - X * Y * Z * u ^ 3‖ ≤ 1 / 4) :
    csqrt (t + (1 - X)) * csqrt (t + (1 - Y)) * csqrt (t + (1 - Z)) =
      ((√(t + 1) ^ 3 : ℝ) : ℂ) * csqrt (1 + ((X * Y + X * Z + Y * Z) * u ^ 2 - X * Y * Z * u ^ 3)) := by
  have h1 : 0 < t + 1 := by linarith
  have hu0 : 0 < u := by rw [hu]; positivity
  have hu1 : u ≤ 1 := by rw [hu, div_le_one h1]; linarith
  have h1c : ((t : ℂ) + 1) ≠ 0 := by exact_mod_cast h1.ne'
  have key : ∀ {X : ℂ}, ‖X‖ ≤ 1 / 4 → csqrt (t + (1 - X)) = (√(t + 1) : ℝ) * csqrt (1 - X * u) ∧ ‖X * u‖ ≤ 1 / 4 := by
    intro X hX
    constructor
    · rw [← csqrt_mul_pos h1]
      congr 1
      rw [hu]
      push_cast
      field_simp
      ring
    · rw [norm_mul, Complex.norm_real, Real.norm_of_nonneg hu0.le]
      nlinarith [norm_nonneg X]
  obtain ⟨a1, b1⟩ := key hX
  obtain ⟨a2, b2⟩ := key hY
  obtain ⟨a3, b3⟩ := key hZ
  have root : ∀ {w : ℂ}, ‖w‖ ≤ 1 / 4 → ‖csqrt (1 - w) - 1‖ ≤ 1 / 7 := by
    intro w hw
    have hre : 3 / 4 ≤ (1 - w).re := by
      have := (Complex.abs_re_le_norm w).trans hw
      rw [Complex.sub_re, Complex.one_re]
      linarith [(abs_le.mp this).2]
    have hsq := csqrt_sq (1 - w)
    have hr := csqrt_re (1 - w)
    have hr2 : 3 / 4 ≤ (csqrt (1 - w)).re := by
      have : (1 - w).re = (csqrt (1 - w)).re * (csqrt (1 - w)).re - (csqrt (1 - w)).im * (csqrt (1 - w)).im := by rw [← Complex.mul_re, hsq]
      nlinarith [mul_self_nonneg (csqrt (1 - w)).im]
    have e : (csqrt (1 - w) - 1) * (csqrt (1 - w) + 1) = -w := by linear_combination hsq
    have h2 : 7 / 4 ≤ ‖csqrt (1 - w) + 1‖ := by
      refine le_trans ?_ (Complex.re_le_norm _)
      rw [Complex.add_re, Complex.one_re]
      linarith
    have h3 : ‖csqrt (1 - w) - 1‖ * ‖csqrt (1 - w) + 1‖ ≤ 1 / 4 := by rw [← norm_mul, e, norm_neg]; exact hw
    have h4 : ‖csqrt (1 - w) - 1‖ * (7 / 4) ≤ ‖csqrt (1 - w) - 1‖ * ‖csqrt (1 - w) + 1‖ := by gcongr
    linarith
  have r1 := root b1
  have r2 := root b2
  have r3 := root b3
  rw [a1, a2, a3]
  have e1 : csqrt (1 - X * u) * csqrt (1 - Y * u) * csqrt (1 - Z * u) = csqrt (1 + ((X * Y + X * Z + Y * Z) * u ^ 2 - X * Y * Z * u ^ 3)) := by
    have e : (csqrt (1 - X * u) * csqrt (1 - Y * u) * csqrt (1 - Z * u)) ^ 2 = 1 + ((X * Y + X * Z + Y * Z) * u ^ 2 - X * Y * Z * u ^ 3) := by
      rw [mul_pow, mul_pow, pow_two, pow_two, pow_two, csqrt_sq, csqrt_sq, csqrt_sq]
      linear_combination -u * hs
    rw [← e, csqrt_of_sq]
    have hn : ‖csqrt (1 - X * u) * csqrt (1 - Y * u) * csqrt (1 - Z * u) - 1‖ ≤ 1 / 2 := by
      generalize csqrt (1 - X * u) = a at *
      generalize csqrt (1 - Y * u) = b at *
      generalize csqrt (1 - Z * u) = c at *
      have e : a * b * c - 1 = (a - 1) * (b - 1) * (c - 1) + (a - 1) * (b - 1) + (a - 1) * (c - 1) + (b - 1) * (c - 1) + (a - 1) + (b - 1) + (c - 1) := by ring
      rw [e]
      generalize a - 1 = a at *
      generalize b - 1 = b at *
      generalize c - 1 = c at *
      calc _ ≤ ‖a‖ * ‖b‖ * ‖c‖ + ‖a‖ * ‖b‖ + ‖a‖ * ‖c‖ + ‖b‖ * ‖c‖ + ‖a‖ + ‖b‖ + ‖c‖ := by
            simp only [← norm_mul]
            refine (norm_add_le _ _).trans (add_le_add_left ?_ _)
            refine (norm_add_le _ _).trans (add_le_add_left ?_ _)
            refine (norm_add_le _ _).trans (add_le_add_left ?_ _)
            refine (norm_add_le _ _).trans (add_le_add_left ?_ _)
            exact norm_add₃_le
        _ ≤ 1 / 7 * (1 / 7) * (1 / 7) + 1 / 7 * (1 / 7) + 1 / 7 * (1 / 7) + 1 / 7 * (1 / 7) + 1 / 7 + 1 / 7 + 1 / 7 := by gcongr
        _ ≤ 1 / 2 := by norm_num
    have := (Complex.abs_re_le_norm _).trans hn
    rw [Complex.sub_re, Complex.one_re] at this
    linarith [(abs_le.mp this).1]
  rw [← e1]
  push_cast
  ring

/-- The truncated series of `R_F` around equal arguments, for complex deviations. -/
theorem RFc_series (X Y Z : ℂ) (ε : ℝ) (hε : ε ≤ 1 / 4) (hX : ‖X‖ ≤ ε) (hY : ‖Y‖ ≤ ε) (hZ : ‖Z‖ ≤ ε) (hs : X + Y + Z = 0) :
    ‖RFc (1 - X) (1 - Y) (1 - Z) -
      (1 - (X * Y + X * Z + Y * Z) / 10 + (X * Y + X * Z + Y * Z) ^ 2 / 24 + X * Y * Z / 14 -
        (X * Y + X * Z + Y * Z) * (X * Y * Z) * (3 / 44))‖ ≤ 8 / 13 * ε ^ 6 := by
  have hε0 : 0 ≤ ε := le_trans (norm_nonneg _) hX
  have hsl : ∀ {X : ℂ}, ‖X‖ ≤ ε → (1 - X) ∈ Complex.slitPlane := fun {X} hX => by
    apply re_slit
    have := (Complex.abs_re_le_norm X).trans hX
    rw [Complex.sub_re, Complex.one_re]
    linarith [(abs_le.mp this).2]
  set E2 := X * Y + X * Z + Y * Z with hE2
  set E3 := X * Y * Z with hE3
  have b2 : ‖E2‖ ≤ 3 / 2 * ε ^ 2 := by
    have : E2 = -(1 / 2) * (X ^ 2 + Y ^ 2 + Z ^ 2) := by
      have : Z = -(X + Y) := by linear_combination hs
      rw [hE2, this]; ring
    rw [this, norm_mul]
    have h3 : ‖X ^ 2 + Y ^ 2 + Z ^ 2‖ ≤ 3 * ε ^ 2 := by
      calc _ ≤ ‖X ^ 2‖ + ‖Y ^ 2‖ + ‖Z ^ 2‖ := norm_add₃_le
        _ ≤ ε ^ 2 + ε ^ 2 + ε ^ 2 := by rw [norm_pow, norm_pow, norm_pow]; gcongr
        _ = _ := by ring
    rw [show ‖(-(1 / 2) : ℂ)‖ = 1 / 2 by norm_num]
    linarith
  have b3 : ‖E3‖ ≤ ε ^ 3 := by
    rw [hE3, norm_mul, norm_mul]
    calc _ ≤ ε * ε * ε := by gcongr
      _ = ε ^ 3 := by ring
  have e3 : ε ^ 3 ≤ 1 / 4 * ε ^ 2 := by nlinarith [sq_nonneg ε]
  have bW : ‖E2‖ + ‖E3‖ ≤ 7 / 4 * ε ^ 2 := by linarith
  set c : ℕ → ℂ := fun k => if k = 0 then 1 else if k = 2 then -E2 / 2 else if k = 3 then E3 / 2 else
    if k = 4 then 3 / 8 * E2 ^ 2 else if k = 5 then -(3 / 4) * E2 * E3 else 0 with hc
  have main := cintegral_approx (fun t => 1 / (csqrt (t + (1 - X)) * csqrt (t + (1 - Y)) * csqrt (t + (1 - Z))))
    ((cS_dec (hsl hX) (hsl hY) (hsl hZ)).integrable (by norm_num)) c 6 6 (8 * ε ^ 6) (by
    intro t ht
    have h1 : 0 < t + 1 := by linarith
    have hr : 0 < √(t + 1) := Real.sqrt_pos.mpr h1
    have hu : 0 < 1 / (t + 1) ∧ 1 / (t + 1) ≤ 1 :=
      ⟨by positivity, by rw [div_le_one h1]; linarith⟩
    have hru : 1 / √(t + 1) ^ 2 = 1 / (t + 1) := by rw [Real.sq_sqrt h1.le]
    have hu0 := hu.1
    have hu1 := hu.2
    obtain ⟨u, hudef⟩ : ∃ u : ℝ, u = 1 / (t + 1) := ⟨_, rfl⟩
    rw [← hudef] at hru hu0 hu1
    set w : ℂ := E2 * u ^ 2 - E3 * u ^ 3 with hw
    have bw : ‖w‖ ≤ 7 / 4 * ε ^ 2 * u ^ 2 := by
      have hun : ‖(u : ℂ)‖ = u := by rw [Complex.norm_real, Real.norm_of_nonneg hu0.le]
      have t1 : ‖E2 * u ^ 2‖ = ‖E2‖ * u ^ 2 := by rw [norm_mul, norm_pow, hun]
      have t2 : ‖E3 * u ^ 3‖ ≤ ‖E3‖ * u ^ 2 := by
        rw [norm_mul, norm_pow, hun]
        apply mul_le_mul_of_nonneg_left _ (norm_nonneg _)
        exact pow_le_pow_of_le_one hu0.le hu1 (by norm_num)
      calc ‖w‖ ≤ ‖E2 * u ^ 2‖ + ‖E3 * u ^ 3‖ := norm_sub_le _ _
        _ ≤ (‖E2‖ + ‖E3‖) * u ^ 2 := by
          have : (‖E2‖ + ‖E3‖) * u ^ 2 = ‖E2‖ * u ^ 2 + ‖E3‖ * u ^ 2 := by ring
          linarith
        _ ≤ _ := by gcongr
    have bw4 : ‖w‖ ≤ 1 / 4 := by
      have : u ^ 2 ≤ 1 := pow_le_one₀ hu0.le hu1
      nlinarith [sq_nonneg ε, sq_nonneg u]
    rw [csqrt_prod3 t X Y Z ht (hX.trans hε) (hY.trans hε) (hZ.trans hε) hs u hudef bw4]
    set r := √(t + 1) with hrdef
    have hrc : (r : ℂ) ≠ 0 := by exact_mod_cast hr.ne'
    have hruc : (u : ℂ) = 1 / (r : ℂ) ^ 2 := by rw [← hru]; push_cast; ring
    have hsum : ∑ k ∈ Finset.range 6, c k * ((1 / r ^ (2 * k + 3) : ℝ) : ℂ) =
        1 / (r : ℂ) ^ 3 * (1 - E2 / 2 * u ^ 2 + E3 / 2 * u ^ 3 + 3 / 8 * E2 ^ 2 * u ^ 4 - 3 / 4 * E2 * E3 * u ^ 5) := by
      rw [hruc]
      simp only [Finset.sum_range_succ, Finset.sum_range_zero, hc]
      norm_num
      field_simp
      ring
    rw [hsum]
    have e1 : 1 / (((r ^ 3 : ℝ) : ℂ) * csqrt (1 + w)) - 1 / (r : ℂ) ^ 3 * (1 - E2 / 2 * u ^ 2 + E3 / 2 * u ^ 3 + 3 / 8 * E2 ^ 2 * u ^ 4 -
        3 / 4 * E2 * E3 * u ^ 5) =
        1 / (r : ℂ) ^ 3 * ((1 / csqrt (1 + w) - (1 - w / 2 + 3 / 8 * w ^ 2)) + 3 / 8 * E3 ^ 2 * u ^ 6) := by
      have hsplit : 1 / (((r ^ 3 : ℝ) : ℂ) * csqrt (1 + w)) = 1 / (r : ℂ) ^ 3 * (1 / csqrt (1 + w)) := by rw [one_div_mul_one_div]; push_cast; rfl
      rw [hsplit]
      generalize csqrt (1 + w) = q
      rw [hw]
      clear_value E2 E3 r
      ring
    rw [e1, norm_mul, norm_div, norm_one, norm_pow, Complex.norm_real, Real.norm_of_nonneg hr.le]
    have e2 : 8 * ε ^ 6 * (1 / r ^ (2 * 6 + 3)) = 1 / r ^ 3 * (8 * ε ^ 6 * u ^ 6) := by
      rw [← hru]; field_simp
    rw [e2]
    apply mul_le_mul_of_nonneg_left _ (by positivity)
    have b1 := ctaylor2 w bw4
    have b4 : ‖w‖ ^ 3 ≤ (7 / 4 * ε ^ 2 * u ^ 2) ^ 3 := by gcongr
    have b6 : ‖3 / 8 * E3 ^ 2 * (u : ℂ) ^ 6‖ ≤ 3 / 8 * ε ^ 6 * u ^ 6 := by
      rw [norm_mul, norm_mul, norm_pow, norm_pow, Complex.norm_real, Real.norm_of_nonneg hu0.le, show ‖(3 / 8 : ℂ)‖ = 3 / 8 by norm_num]
      have : ‖E3‖ ^ 2 ≤ ε ^ 6 := by
        calc _ ≤ (ε ^ 3) ^ 2 := by gcongr
          _ = ε ^ 6 := by ring
      gcongr
    calc _ ≤ ‖1 / csqrt (1 + w) - (1 - w / 2 + 3 / 8 * w ^ 2)‖ + ‖3 / 8 * E3 ^ 2 * (u : ℂ) ^ 6‖ := norm_add_le _ _
      _ ≤ 5 / 4 * (7 / 4 * ε ^ 2 * u ^ 2) ^ 3 + 3 / 8 * ε ^ 6 * u ^ 6 := add_le_add (b1.trans (by linarith)) b6
      _ = (5 / 4 * (343 / 64) + 3 / 8) * (ε ^ 6 * u ^ 6) := by ring
      _ ≤ 8 * (ε ^ 6 * u ^ 6) := by
        apply mul_le_mul_of_nonneg_right (by norm_num) (by positivity)
      _ = _ := by ring)
  have e : RFc (1 - X) (1 - Y) (1 - Z) - (1 - E2 / 10 + E2 ^ 2 / 24 + E3 / 14 - E2 * E3 * (3 / 44)) =
      1 / 2 * ((∫ t in Ioi (0 : ℝ), 1 / (csqrt (t + (1 - X)) * csqrt (t + (1 - Y)) * csqrt (t + (1 - Z)))) -
        ∑ k ∈ Finset.range 6, c k * (2 / (2 * k + 1))) := by
    rw [RFc]
    simp only [Finset.sum_range_succ, Finset.sum_range_zero, hc]
    norm_num
    ring
  rw [e, norm_mul, show ‖(1 / 2 : ℂ)‖ = 1 / 2 by norm_num]
  norm_num at main ⊢
  linarith

end Verif.Ellred

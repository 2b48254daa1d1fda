import Verif.Ellred.ComplexSeries

/-! # The duplication theorem, homogeneity and series of `R_D` for complex arguments -/

namespace Verif.Ellred

open MeasureTheory Set Filter Topology Verif.Carlson

/-! ### Duplication -/

/-- The derivative of `R_F` in its last argument. -/
theorem RFc_deriv_z {x y z : ℂ} (hx : x ∈ Complex.slitPlane) (hy : y ∈ Complex.slitPlane) (hz : z ∈ Complex.slitPlane) :
    HasDerivAt (fun s : ℝ => RFc x y (z + s)) (RDc x y z / (-6)) 0 := by
  have hd : HasDerivAt (fun s : ℝ => z + (s : ℂ)) 1 0 := ((hasDerivAt_id (0 : ℝ)).ofReal_comp).const_add z
  have h := RFc_deriv (hasDerivAt_const (0 : ℝ) x) (hasDerivAt_const (0 : ℝ) y) hd hx hy (by simpa using hz)
  refine h.congr_deriv ?_
  simp

theorem csqrt_deriv_z {z : ℂ} (hz : z ∈ Complex.slitPlane) : HasDerivAt (fun s : ℝ => csqrt (z + s)) (1 / (2 * csqrt z)) 0 := by
  have := sqrt_deriv hz le_rfl
  simp only [Complex.ofReal_zero, zero_add] at this
  refine this.congr_of_eventuallyEq (Eventually.of_forall fun s => by simp only [add_comm])

/-- The duplication theorem for `R_D` (DLMF 19.26.20) with complex arguments. -/
theorem RDc_dup {x y z : ℂ} (hx : x ∈ Complex.slitPlane) (hy : y ∈ Complex.slitPlane) (hz : z ∈ Complex.slitPlane) :
    RDc x y z = RDc ((x + lmOf x y z) / 4) ((y + lmOf x y z) / 4) ((z + lmOf x y z) / 4) / 4 + 3 / (csqrt z * (z + lmOf x y z)) := by
  have hs := csqrt_deriv_z hz
  have hl : HasDerivAt (fun s : ℝ => lmOf x y (z + s)) ((csqrt x + csqrt y) / (2 * csqrt z)) 0 := by
    simp only [lmOf]
    refine (((hs.const_mul (csqrt x)).const_add (csqrt x * csqrt y)).add (hs.const_mul (csqrt y))).congr_deriv ?_
    ring
  have hd : HasDerivAt (fun s : ℝ => z + (s : ℂ)) 1 0 := ((hasDerivAt_id (0 : ℝ)).ofReal_comp).const_add z
  obtain ⟨k1, k2, k3⟩ := dup_slit hx hy hz
  have h := RFc_deriv ((hl.const_add x).div_const 4) ((hl.const_add y).div_const 4) ((hd.add hl).div_const 4)
    (by simpa using k1) (by simpa using k2) (by simpa using k3)
  have hev : (fun s : ℝ => RFc ((x + lmOf x y (z + s)) / 4) ((y + lmOf x y (z + s)) / 4) (((fun s : ℝ => z + (s : ℂ)) + fun s : ℝ => lmOf x y (z + s)) s / 4)) =ᶠ[𝓝 0]
      fun s : ℝ => RFc x y (z + s) := by
    have hc : ContinuousAt (fun s : ℝ => z + (s : ℂ)) 0 := hd.continuousAt
    have := hc.eventually_mem (Complex.isOpen_slitPlane.mem_nhds (by simpa using hz))
    filter_upwards [this] with s hs'
    exact RFc_dup hx hy hs'
  have e := (h.congr_of_eventuallyEq hev.symm).unique (RFc_deriv_z hx hy hz)
  simp only [Pi.add_apply, Complex.ofReal_zero, add_zero] at e
  have hsum := RD_sum k1 k2 k3
  rw [dup_sqrt hx hy hz] at hsum
  have m1 : csqrt x + csqrt y ≠ 0 := fun e => by simpa [e] using re_sum_pos hx hy
  have m2 : csqrt x + csqrt z ≠ 0 := fun e => by simpa [e] using re_sum_pos hx hz
  have m3 : csqrt y + csqrt z ≠ 0 := fun e => by simpa [e] using re_sum_pos hy hz
  have m4 := csqrt_ne0 (Complex.slitPlane_ne_zero hz)
  have ef := dup_factor3 x y z
  generalize RDc ((y + lmOf x y z) / 4) ((z + lmOf x y z) / 4) ((x + lmOf x y z) / 4) = D1 at *
  generalize RDc ((x + lmOf x y z) / 4) ((z + lmOf x y z) / 4) ((y + lmOf x y z) / 4) = D2 at *
  generalize RDc ((x + lmOf x y z) / 4) ((y + lmOf x y z) / 4) ((z + lmOf x y z) / 4) = D3 at *
  rw [ef]
  generalize csqrt x = a at *
  generalize csqrt y = b at *
  generalize csqrt z = c at *
  have e' : RDc x y z = D3 / 4 + (D1 + D2 + D3) * ((a + b) / (2 * c) / 4) := by linear_combination 6 * e
  rw [e', hsum]
  field_simp
  ring

/-! ### Homogeneity -/

/-- `R_D` is homogeneous of degree `-3/2` under rotations that do not pass the cut. -/
theorem RDc_rotate {k x y z : ℂ} (hk : k ≠ 0) (hx : KGood k x) (hy : KGood k y) (hz : KGood k z) :
    RDc (k * x) (k * y) (k * z) = RDc x y z / (k * csqrt k) := by
  have hd : HasDerivAt (fun s : ℝ => z + (s : ℂ)) 1 0 := ((hasDerivAt_id (0 : ℝ)).ofReal_comp).const_add z
  have h := RFc_deriv (hasDerivAt_const (0 : ℝ) (k * x)) (hasDerivAt_const (0 : ℝ) (k * y)) (hd.const_mul k) (hx.slit hk) (hy.slit hk) (by simpa using hz.slit hk)
  have hev : (fun s : ℝ => RFc (k * x) (k * y) (k * (z + s))) =ᶠ[𝓝 0] fun s : ℝ => RFc x y (z + s) / csqrt k := by
    have h1 : ∀ᶠ s : ℝ in 𝓝 0, 0 < (z + (s : ℂ)).re :=
      (Complex.continuous_re.continuousAt.comp hd.continuousAt).eventually_const_lt (by simpa using hz.1)
    have h2 : ∀ᶠ s : ℝ in 𝓝 0, k.re < 0 → 0 < (k * (z + (s : ℂ))).im * k.im := by
      by_cases hkr : k.re < 0
      · have hc : ContinuousAt (fun s : ℝ => (k * (z + (s : ℂ))).im * k.im) 0 :=
          (Complex.continuous_im.continuousAt.comp (hd.const_mul k).continuousAt).mul_const _
        filter_upwards [hc.eventually_const_lt (by simpa using hz.2 hkr)] with s hs _ using hs
      · exact Eventually.of_forall fun s h => absurd h hkr
    filter_upwards [h1, h2] with s a b
    exact RFc_rotate hk hx hy ⟨a, b⟩
  have e := (h.congr_of_eventuallyEq hev.symm).unique ((RFc_deriv_z (re_slit hx.1) (re_slit hy.1) (re_slit hz.1)).div_const (csqrt k))
  simp only [Complex.ofReal_zero, add_zero, mul_zero, zero_add, mul_one] at e
  have h3 := csqrt_ne0 hk
  field_simp at e ⊢
  linear_combination -e

/-! ### Series -/

theorem norm_mul_le' {a b : ℂ} {A B : ℝ} (ha : ‖a‖ ≤ A) (hb : ‖b‖ ≤ B) : ‖a * b‖ ≤ A * B := by
  rw [norm_mul]
  exact mul_le_mul ha hb (norm_nonneg _) ((norm_nonneg _).trans ha)

theorem norm_pow_le' {a : ℂ} {A : ℝ} (n : ℕ) (ha : ‖a‖ ≤ A) : ‖a ^ n‖ ≤ A ^ n := by
  rw [norm_pow]
  gcongr

theorem norm_const_mul {a : ℂ} {c A : ℝ} (hc : 0 ≤ c) (ha : ‖a‖ ≤ A) : ‖(c : ℂ) * a‖ ≤ c * A := by
  rw [norm_mul, Complex.norm_real, Real.norm_of_nonneg hc]
  gcongr

theorem csqrt_near {w : ℂ} (hw : ‖w‖ ≤ 1 / 4) : ‖csqrt (1 - w) - 1‖ ≤ 1 / 7 := by
  have hre : 3 / 4 ≤ (1 - w).re := by
    have := (Complex.abs_re_le_norm w).trans hw
    rw [Complex.sub_re, Complex.one_re]
    linarith [(abs_le.mp this).2]
  have hsq := csqrt_sq (1 - w)
  have hr := csqrt_re (1 - w)
  have hr2 : 3 / 4 ≤ (csqrt (1 - w)).re := by
    have : (1 - w).re = (csqrt (1 - w)).re * (csqrt (1 - w)).re - (csqrt (1 - w)).im * (csqrt (1 - w)).im := by rw [← Complex.mul_re, hsq]
    nlinarith [mul_self_nonneg (csqrt (1 - w)).im]
  have e : (csqrt (1 - w) - 1) * (csqrt (1 - w) + 1) = -w := by linear_combination hsq
  have h2 : 7 / 4 ≤ ‖csqrt (1 - w) + 1‖ := by
    refine le_trans ?_ (Complex.re_le_norm _)
    rw [Complex.add_re, Complex.one_re]
    linarith
  have h3 : ‖csqrt (1 - w) - 1‖ * ‖csqrt (1 - w) + 1‖ ≤ 1 / 4 := by rw [← norm_mul, e, norm_neg]; exact hw
  have h4 : ‖csqrt (1 - w) - 1‖ * (7 / 4) ≤ ‖csqrt (1 - w) - 1‖ * ‖csqrt (1 - w) + 1‖ := by gcongr
  linarith

/-- A product of four numbers near 1 is in the right half plane. -/
theorem prod4_re {a b c d : ℂ} (ha : ‖a - 1‖ ≤ 1 / 7) (hb : ‖b - 1‖ ≤ 1 / 7) (hc : ‖c - 1‖ ≤ 1 / 7) (hd : ‖d - 1‖ ≤ 1 / 4) : 0 < (a * b * c * d).re := by
  have step : ∀ {p q : ℂ} {α β : ℝ}, ‖p - 1‖ ≤ α → ‖q - 1‖ ≤ β → ‖p * q - 1‖ ≤ α * β + α + β := by
    intro p q α β hp hq
    have e : p * q - 1 = (p - 1) * (q - 1) + (p - 1) + (q - 1) := by ring
    rw [e]
    exact norm_add₃_le.trans (add_le_add (add_le_add (norm_mul_le' hp hq) hp) hq)
  have h := step (step (step ha hb) hc) hd
  have h' := (Complex.abs_re_le_norm _).trans h
  rw [Complex.sub_re, Complex.one_re] at h'
  have := (abs_le.mp h').1
  generalize (a * b * c * d).re = v at *
  linarith

/-- The product of roots near equal arguments. -/
theorem csqrt_prod5 (t : ℝ) (X Y Z P : ℂ) (ht : 0 < t) (hX : ‖X‖ ≤ 1 / 4) (hY : ‖Y‖ ≤ 1 / 4) (hZ : ‖Z‖ ≤ 1 / 4) (hP : ‖P‖ ≤ 1 / 4)
    (hs : X + Y + Z + 2 * P = 0) (u : ℝ) (hu : u = 1 / (t + 1)) :
    csqrt (t + (1 - X)) * csqrt (t + (1 - Y)) * csqrt (t + (1 - Z)) * (t + (1 - P)) =
      ((√(t + 1) ^ 5 : ℝ) : ℂ) * csqrt (1 + ((X * Y + X * Z + Y * Z - 3 * P ^ 2) * u ^ 2 -
        (X * Y * Z + 2 * (X * Y + X * Z + Y * Z) * P - 2 * P ^ 3) * u ^ 3 +
        (2 * X * Y * Z * P + (X * Y + X * Z + Y * Z) * P ^ 2) * u ^ 4 - X * Y * Z * P ^ 2 * u ^ 5)) := by
  have h1 : 0 < t + 1 := by linarith
  have hu0 : 0 < u := by rw [hu]; positivity
  have hu1 : u ≤ 1 := by rw [hu, div_le_one h1]; linarith
  have h1c : ((t : ℂ) + 1) ≠ 0 := by exact_mod_cast h1.ne'
  have eu : ∀ X : ℂ, (t : ℂ) + (1 - X) = ((t + 1 : ℝ) : ℂ) * (1 - X * u) := fun X => by
    rw [hu]
    push_cast
    field_simp
    ring
  have key : ∀ {X : ℂ}, ‖X‖ ≤ 1 / 4 → csqrt (t + (1 - X)) = (√(t + 1) : ℝ) * csqrt (1 - X * u) ∧ ‖X * u‖ ≤ 1 / 4 := by
    intro X hX
    constructor
    · rw [← csqrt_mul_pos h1, eu]
    · rw [norm_mul, Complex.norm_real, Real.norm_of_nonneg hu0.le]
      nlinarith [norm_nonneg X]
  obtain ⟨a1, b1⟩ := key hX
  obtain ⟨a2, b2⟩ := key hY
  obtain ⟨a3, b3⟩ := key hZ
  obtain ⟨-, b4⟩ := key hP
  rw [a1, a2, a3, eu P]
  have e1 : csqrt (1 - X * u) * csqrt (1 - Y * u) * csqrt (1 - Z * u) * (1 - P * u) = csqrt (1 + ((X * Y + X * Z + Y * Z - 3 * P ^ 2) * u ^ 2 -
        (X * Y * Z + 2 * (X * Y + X * Z + Y * Z) * P - 2 * P ^ 3) * u ^ 3 +
        (2 * X * Y * Z * P + (X * Y + X * Z + Y * Z) * P ^ 2) * u ^ 4 - X * Y * Z * P ^ 2 * u ^ 5)) := by
    have e : (csqrt (1 - X * u) * csqrt (1 - Y * u) * csqrt (1 - Z * u) * (1 - P * u)) ^ 2 = 1 + ((X * Y + X * Z + Y * Z - 3 * P ^ 2) * u ^ 2 -
        (X * Y * Z + 2 * (X * Y + X * Z + Y * Z) * P - 2 * P ^ 3) * u ^ 3 +
        (2 * X * Y * Z * P + (X * Y + X * Z + Y * Z) * P ^ 2) * u ^ 4 - X * Y * Z * P ^ 2 * u ^ 5) := by
      rw [mul_pow, mul_pow, mul_pow, pow_two (csqrt _), pow_two (csqrt _), pow_two (csqrt _), csqrt_sq, csqrt_sq, csqrt_sq]
      have hZ' : Z = -(X + Y) - 2 * P := by linear_combination hs
      rw [hZ']
      ring
    rw [← e, csqrt_of_sq]
    exact prod4_re (csqrt_near b1) (csqrt_near b2) (csqrt_near b3) (by rw [sub_sub_cancel_left, norm_neg]; exact b4)
  rw [← e1]
  have hq : ((t + 1 : ℝ) : ℂ) = ((√(t + 1) : ℝ) : ℂ) ^ 2 := by
    rw [← Complex.ofReal_pow, Real.sq_sqrt h1.le]
  rw [hq]
  push_cast
  ring

theorem cpoint (E2 E3 E4 E5 : ℂ) (ε u : ℝ) (hε0 : 0 ≤ ε) (hε : ε ≤ 1 / 4) (hu0 : 0 < u) (hu1 : u ≤ 1)
    (b2 : ‖E2‖ ≤ 5 / 2 * ε ^ 2) (b3 : ‖E3‖ ≤ 5 / 3 * ε ^ 3) (b4 : ‖E4‖ ≤ 5 * ε ^ 4) (b5 : ‖E5‖ ≤ ε ^ 5) :
    ‖1 / csqrt (1 + (E2 * u ^ 2 - E3 * u ^ 3 + E4 * u ^ 4 - E5 * u ^ 5)) -
      (1 - E2 / 2 * u ^ 2 + E3 / 2 * u ^ 3 + (-E4 / 2 + 3 / 8 * E2 ^ 2) * u ^ 4 + (E5 / 2 - 3 / 4 * E2 * E3) * u ^ 5)‖ ≤
      60 * ε ^ 6 * u ^ 6 := by
  have u4 : u ^ 4 ≤ u ^ 3 := pow_le_pow_of_le_one hu0.le hu1 (by norm_num)
  have u5 : u ^ 5 ≤ u ^ 3 := pow_le_pow_of_le_one hu0.le hu1 (by norm_num)
  have u6 : u ^ 7 ≤ u ^ 6 := pow_le_pow_of_le_one hu0.le hu1 (by norm_num)
  have u3 : u ^ 3 ≤ u ^ 2 := pow_le_pow_of_le_one hu0.le hu1 (by norm_num)
  have hu2 : u ^ 2 ≤ 1 := pow_le_one₀ hu0.le hu1
  have e2 : ε ^ 2 ≤ 1 / 16 := by
    calc ε ^ 2 ≤ (1 / 4) ^ 2 := by gcongr
      _ = 1 / 16 := by norm_num
  have pw : ∀ n, ε ^ (n + 1) ≤ 1 / 4 * ε ^ n := by
    intro n
    rw [pow_succ, mul_comm]
    exact mul_le_mul_of_nonneg_right hε (pow_nonneg hε0 n)
  have e3 := pw 2
  have e4 := pw 3
  have e5 := pw 4
  have e7 := pw 6
  have hun : ‖(u : ℂ)‖ = u := by rw [Complex.norm_real, Real.norm_of_nonneg hu0.le]
  have bmul : ∀ (E : ℂ) (a b : ℕ) (B : ℝ), ‖E‖ ≤ B → u ^ a ≤ u ^ b → ‖E * u ^ a‖ ≤ B * u ^ b := by
    intro E a b B hE hab
    rw [norm_mul, norm_pow, hun]
    exact mul_le_mul hE hab (pow_pos hu0 a).le (le_trans (norm_nonneg _) hE)
  have t2 := bmul E2 2 2 _ b2 le_rfl
  have t3 := bmul E3 3 3 _ b3 le_rfl
  have t4 := bmul E4 4 3 _ b4 u4
  have t5 := bmul E5 5 3 _ b5 u5
  have b8 := bmul (E2 * E4) 6 6 _ (norm_mul_le' b2 b4) le_rfl
  have b9 := bmul (E2 * E5) 7 6 _ (norm_mul_le' b2 b5) u6
  have hu3 := pow_pos hu0 3
  have hu6 := pow_pos hu0 6
  have k0 : 0 ≤ ε ^ 3 * u ^ 3 := by positivity
  have k0' : 0 ≤ ε ^ 6 * u ^ 6 := by positivity
  have k4 : 5 * ε ^ 4 * u ^ 3 ≤ 5 / 4 * (ε ^ 3 * u ^ 3) := by
    rw [← mul_assoc]; apply mul_le_mul_of_nonneg_right _ hu3.le
    linarith only [e4]
  have k5 : ε ^ 5 * u ^ 3 ≤ 1 / 16 * (ε ^ 3 * u ^ 3) := by
    rw [← mul_assoc]; apply mul_le_mul_of_nonneg_right _ hu3.le
    linarith only [e4, e5]
  obtain ⟨R, hR⟩ : ∃ R : ℂ, R = E3 * u ^ 3 - E4 * u ^ 4 + E5 * u ^ 5 := ⟨_, rfl⟩
  have bR : ‖R‖ ≤ 3 * (ε ^ 3 * u ^ 3) := by
    rw [hR]
    refine (norm_add_le _ _).trans ((add_le_add_left (norm_sub_le _ _) _).trans ?_)
    linarith only [t3, t4, t5, k4, k5, k0]
  have k3 : 3 * (ε ^ 3 * u ^ 3) ≤ 3 / 4 * (ε ^ 2 * u ^ 2) := by
    calc 3 * (ε ^ 3 * u ^ 3) ≤ 3 * ((1 / 4 * ε ^ 2) * u ^ 2) := by gcongr
      _ = _ := by ring
  obtain ⟨w, hw⟩ : ∃ w : ℂ, w = E2 * u ^ 2 - R := ⟨_, rfl⟩
  have hwe : E2 * u ^ 2 - E3 * u ^ 3 + E4 * u ^ 4 - E5 * u ^ 5 = w := by rw [hw, hR]; ring
  have bw : ‖w‖ ≤ 13 / 4 * (ε ^ 2 * u ^ 2) := by
    rw [hw]
    refine (norm_sub_le _ _).trans ?_
    linarith only [t2, bR, k3]
  have bw4 : ‖w‖ ≤ 1 / 4 := by
    have : ε ^ 2 * u ^ 2 ≤ 1 / 16 * 1 := mul_le_mul e2 hu2 (by positivity) (by norm_num)
    linarith only [bw, this]
  rw [hwe]
  have e1 : 1 / csqrt (1 + w) - (1 - E2 / 2 * u ^ 2 + E3 / 2 * u ^ 3 + (-E4 / 2 + 3 / 8 * E2 ^ 2) * u ^ 4 +
        (E5 / 2 - 3 / 4 * E2 * E3) * u ^ 5) =
      (1 / csqrt (1 + w) - (1 - w / 2 + 3 / 8 * w ^ 2)) +
        ((3 / 4 : ℝ) * (E2 * E4 * u ^ 6) - (3 / 4 : ℝ) * (E2 * E5 * u ^ 7) + (3 / 8 : ℝ) * R ^ 2) := by
    generalize csqrt (1 + w) = q
    rw [hw, hR]
    push_cast
    ring
  rw [e1]
  have b1 := ctaylor2 w bw4
  have b6 : ‖w‖ ^ 3 ≤ (13 / 4 * (ε ^ 2 * u ^ 2)) ^ 3 := by gcongr
  have b7 := norm_pow_le' 2 bR
  have k7 : 5 / 2 * ε ^ 2 * ε ^ 5 * u ^ 6 ≤ 5 / 8 * (ε ^ 6 * u ^ 6) := by
    rw [← mul_assoc]; apply mul_le_mul_of_nonneg_right _ hu6.le
    calc 5 / 2 * ε ^ 2 * ε ^ 5 = 5 / 2 * ε ^ 7 := by ring
      _ ≤ 5 / 2 * (1 / 4 * ε ^ 6) := by linarith only [e7]
      _ = _ := by ring
  have k6 : 5 / 2 * ε ^ 2 * (5 * ε ^ 4) * u ^ 6 = 25 / 2 * (ε ^ 6 * u ^ 6) := by ring
  have k8 : (3 * (ε ^ 3 * u ^ 3)) ^ 2 = 9 * (ε ^ 6 * u ^ 6) := by ring
  rw [k6] at b8
  rw [k8] at b7
  have b10 : ‖((3 / 4 : ℝ) : ℂ) * (E2 * E4 * u ^ 6) - ((3 / 4 : ℝ) : ℂ) * (E2 * E5 * u ^ 7) + ((3 / 8 : ℝ) : ℂ) * R ^ 2‖ ≤ 14 * (ε ^ 6 * u ^ 6) := by
    refine (norm_add_le _ _).trans ((add_le_add_left (norm_sub_le _ _) _).trans ?_)
    have c1 := norm_const_mul (c := 3 / 4) (by norm_num) b8
    have c2 := norm_const_mul (c := 3 / 4) (by norm_num) b9
    have c3 := norm_const_mul (c := 3 / 8) (by norm_num) b7
    linarith only [c1, c2, c3, k7, k0']
  calc _ ≤ ‖1 / csqrt (1 + w) - (1 - w / 2 + 3 / 8 * w ^ 2)‖ + _ := norm_add_le _ _
    _ ≤ 5 / 4 * (13 / 4 * (ε ^ 2 * u ^ 2)) ^ 3 + 14 * (ε ^ 6 * u ^ 6) := add_le_add (b1.trans (by linarith only [b6])) b10
    _ = (5 / 4 * (2197 / 64) + 14) * (ε ^ 6 * u ^ 6) := by ring
    _ ≤ 60 * (ε ^ 6 * u ^ 6) := by
      apply mul_le_mul_of_nonneg_right (by norm_num) k0'
    _ = _ := by ring

/-- The truncated series of `R_J` around equal arguments (DLMF 19.36.2), for complex deviations. -/
theorem RJc_series (X Y Z P : ℂ) (ε : ℝ) (hε : ε ≤ 1 / 4) (hX : ‖X‖ ≤ ε) (hY : ‖Y‖ ≤ ε) (hZ : ‖Z‖ ≤ ε) (hP : ‖P‖ ≤ ε)
    (hs : X + Y + Z + 2 * P = 0) (E2 E3 E4 E5 : ℂ) (hE2 : E2 = X * Y + X * Z + Y * Z - 3 * P ^ 2)
    (hE3 : E3 = X * Y * Z + 2 * (X * Y + X * Z + Y * Z) * P - 2 * P ^ 3)
    (hE4 : E4 = 2 * X * Y * Z * P + (X * Y + X * Z + Y * Z) * P ^ 2) (hE5 : E5 = X * Y * Z * P ^ 2) :
    ‖RJc (1 - X) (1 - Y) (1 - Z) (1 - P) -
      (1 - 3 / 14 * E2 + E3 / 6 + 9 / 88 * E2 ^ 2 - 3 / 22 * E4 - 9 / 52 * E2 * E3 + 3 / 26 * E5)‖ ≤ 12 * ε ^ 6 := by
  have hε0 : 0 ≤ ε := le_trans (norm_nonneg _) hX
  have hsl : ∀ {X : ℂ}, ‖X‖ ≤ ε → (1 - X) ∈ Complex.slitPlane := fun {X} hX => by
    apply re_slit
    have := (Complex.abs_re_le_norm X).trans hX
    rw [Complex.sub_re, Complex.one_re]
    linarith [(abs_le.mp this).2]
  have hZ' : Z = -(X + Y) - 2 * P := by linear_combination hs
  have b2 : ‖E2‖ ≤ 5 / 2 * ε ^ 2 := by
    have : E2 = ((1 / 2 : ℝ) : ℂ) * -(X ^ 2 + Y ^ 2 + Z ^ 2 + ((2 : ℝ) : ℂ) * P ^ 2) := by
      rw [hE2, hZ']; push_cast; ring
    rw [this]
    have h4 := norm_const_mul (c := 2) (by norm_num) (norm_pow_le' 2 hP)
    have h5 : ‖-(X ^ 2 + Y ^ 2 + Z ^ 2 + ((2 : ℝ) : ℂ) * P ^ 2)‖ ≤ ε ^ 2 + ε ^ 2 + ε ^ 2 + 2 * ε ^ 2 := by
      rw [norm_neg]
      exact (norm_add_le _ _).trans (add_le_add (norm_add₃_le.trans (add_le_add (add_le_add (norm_pow_le' 2 hX) (norm_pow_le' 2 hY)) (norm_pow_le' 2 hZ))) h4)
    linarith [norm_const_mul (c := 1 / 2) (by norm_num) h5]
  have b3 : ‖E3‖ ≤ 5 / 3 * ε ^ 3 := by
    have : E3 = ((1 / 3 : ℝ) : ℂ) * (X ^ 3 + Y ^ 3 + Z ^ 3 + ((2 : ℝ) : ℂ) * P ^ 3) := by
      rw [hE3, hZ']; push_cast; ring
    rw [this]
    have h4 := norm_const_mul (c := 2) (by norm_num) (norm_pow_le' 3 hP)
    have h5 : ‖X ^ 3 + Y ^ 3 + Z ^ 3 + ((2 : ℝ) : ℂ) * P ^ 3‖ ≤ ε ^ 3 + ε ^ 3 + ε ^ 3 + 2 * ε ^ 3 :=
      (norm_add_le _ _).trans (add_le_add (norm_add₃_le.trans (add_le_add (add_le_add (norm_pow_le' 3 hX) (norm_pow_le' 3 hY)) (norm_pow_le' 3 hZ))) h4)
    linarith [norm_const_mul (c := 1 / 3) (by norm_num) h5]
  have q1 := norm_mul_le' (norm_mul_le' (norm_mul_le' hX hY) hZ) hP
  have q2 := norm_mul_le' (norm_mul_le' (norm_mul_le' hX hY) hP) hP
  have q3 := norm_mul_le' (norm_mul_le' (norm_mul_le' hX hZ) hP) hP
  have q4 := norm_mul_le' (norm_mul_le' (norm_mul_le' hY hZ) hP) hP
  have b4 : ‖E4‖ ≤ 5 * ε ^ 4 := by
    have : E4 = ((2 : ℝ) : ℂ) * (X * Y * Z * P) + X * Y * P * P + X * Z * P * P + Y * Z * P * P := by rw [hE4]; push_cast; ring
    rw [this]
    have h4 := norm_const_mul (c := 2) (by norm_num) q1
    have e : 5 * ε ^ 4 = 2 * (ε * ε * ε * ε) + ε * ε * ε * ε + ε * ε * ε * ε + ε * ε * ε * ε := by ring
    rw [e]
    exact (norm_add_le _ _).trans (add_le_add (norm_add₃_le.trans (add_le_add (add_le_add h4 q2) q3)) q4)
  have b5 : ‖E5‖ ≤ ε ^ 5 := by
    have := norm_mul_le' q1 hP
    rw [hE5, show X * Y * Z * P ^ 2 = X * Y * Z * P * P by ring]
    calc _ ≤ _ := this
      _ = ε ^ 5 := by ring
  set c : ℕ → ℂ := fun k => if k = 1 then 1 else if k = 3 then -E2 / 2 else if k = 4 then E3 / 2 else
    if k = 5 then -E4 / 2 + 3 / 8 * E2 ^ 2 else if k = 6 then E5 / 2 - 3 / 4 * E2 * E3 else 0 with hc
  have main := cintegral_approx (fun t => 1 / (csqrt (t + (1 - X)) * csqrt (t + (1 - Y)) * csqrt (t + (1 - Z)) * (t + (1 - P))))
    ((RJ_dec (hsl hX) (hsl hY) (hsl hZ) (hsl hP)).integrable (by norm_num)) c 7 7 (60 * ε ^ 6) (by
    intro t ht
    have h1 : 0 < t + 1 := by linarith
    have hr : 0 < √(t + 1) := Real.sqrt_pos.mpr h1
    have hu : 0 < 1 / (t + 1) ∧ 1 / (t + 1) ≤ 1 :=
      ⟨by positivity, by rw [div_le_one h1]; linarith⟩
    rw [csqrt_prod5 t X Y Z P ht (hX.trans hε) (hY.trans hε) (hZ.trans hε) (hP.trans hε) hs _ rfl, ← hE2, ← hE3, ← hE4, ← hE5]
    have hru : 1 / (t + 1) = 1 / √(t + 1) ^ 2 := by rw [Real.sq_sqrt h1.le]
    generalize √(t + 1) = r at *
    generalize 1 / (t + 1) = u at *
    obtain ⟨hu0, hu1⟩ := hu
    have hrc : (r : ℂ) ≠ 0 := by exact_mod_cast hr.ne'
    have hruc : (u : ℂ) = 1 / (r : ℂ) ^ 2 := by rw [hru]; push_cast; ring
    have hsum : ∑ k ∈ Finset.range 7, c k * ((1 / r ^ (2 * k + 3) : ℝ) : ℂ) =
        1 / (r : ℂ) ^ 5 * (1 - E2 / 2 * u ^ 2 + E3 / 2 * u ^ 3 + (-E4 / 2 + 3 / 8 * E2 ^ 2) * u ^ 4 +
          (E5 / 2 - 3 / 4 * E2 * E3) * u ^ 5) := by
      rw [hruc]
      simp only [Finset.sum_range_succ, Finset.sum_range_zero, hc]
      norm_num
      field_simp
      ring
    have e2 : 60 * ε ^ 6 * (1 / r ^ (2 * 7 + 3)) = 1 / r ^ 5 * (60 * ε ^ 6 * u ^ 6) := by
      rw [hru]; field_simp
    have hsplit : ∀ q : ℂ, 1 / (((r ^ 5 : ℝ) : ℂ) * q) = 1 / (r : ℂ) ^ 5 * (1 / q) := fun q => by rw [one_div_mul_one_div]; push_cast; rfl
    rw [hsum, e2, hsplit, ← mul_sub, norm_mul, norm_div, norm_one, norm_pow, Complex.norm_real, Real.norm_of_nonneg hr.le]
    apply mul_le_mul_of_nonneg_left _ (by positivity)
    exact cpoint E2 E3 E4 E5 ε u hε0 hε hu0 hu1 b2 b3 b4 b5)
  have e : RJc (1 - X) (1 - Y) (1 - Z) (1 - P) -
      (1 - 3 / 14 * E2 + E3 / 6 + 9 / 88 * E2 ^ 2 - 3 / 22 * E4 - 9 / 52 * E2 * E3 + 3 / 26 * E5) =
      3 / 2 * ((∫ t in Ioi (0 : ℝ), 1 / (csqrt (t + (1 - X)) * csqrt (t + (1 - Y)) * csqrt (t + (1 - Z)) * (t + (1 - P)))) -
        ∑ k ∈ Finset.range 7, c k * (2 / (2 * k + 1))) := by
    rw [RJc]
    simp only [Finset.sum_range_succ, Finset.sum_range_zero, hc]
    norm_num
    ring
  rw [e, norm_mul, show ‖(3 / 2 : ℂ)‖ = 3 / 2 by norm_num]
  have h6 := pow_nonneg hε0 6
  clear_value c
  norm_num at main ⊢
  linarith only [main, h6]

/-- The series of `R_D`. -/
theorem RDc_series (X Y Z : ℂ) (ε : ℝ) (hε : ε ≤ 1 / 4) (hX : ‖X‖ ≤ ε) (hY : ‖Y‖ ≤ ε) (hZ : ‖Z‖ ≤ ε) (hs : X + Y + 3 * Z = 0) :
    ‖RDc (1 - X) (1 - Y) (1 - Z) - dPoly X Y‖ ≤ 12 * ε ^ 6 := by
  have h := RJc_series X Y Z Z ε hε hX hY hZ hZ (by linear_combination hs) _ _ _ _ rfl rfl rfl rfl
  have e : RDc (1 - X) (1 - Y) (1 - Z) = RJc (1 - X) (1 - Y) (1 - Z) (1 - Z) := rfl
  rw [e]
  refine le_trans (le_of_eq ?_) h
  congr 2
  have : Z = -(X + Y) / 3 := by linear_combination hs / 3
  rw [this]
  simp only [dPoly]
  ring

end Verif.Ellred

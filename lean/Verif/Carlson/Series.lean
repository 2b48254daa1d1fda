import Verif.Carlson.Dup

/-! # Truncated series of the integrals for nearly equal arguments, with explicit error bounds -/

namespace Verif.Carlson

open MeasureTheory Set Filter Topology

/-! ### `1/√(1+w)` -/

theorem inv_sqrt_bound (w p B : ℝ) (hw : |w| ≤ 1 / 4) (hp : 17 / 20 ≤ p) (hB : |1 - p ^ 2 * (1 + w)| ≤ B) :
    |1 / √(1 + w) - p| ≤ B := by
  obtain ⟨hw1, hw2⟩ := abs_le.mp hw
  have h1 : 0 < 1 + w := by linarith
  set q := 1 / √(1 + w) with hq
  have hs : 0 < √(1 + w) := Real.sqrt_pos.mpr h1
  have hq0 : 0 < q := by positivity
  have hq2 : q ^ 2 * (1 + w) = 1 := by
    rw [hq, div_pow, Real.sq_sqrt h1.le]
    field_simp
  have hqlow : 4 / 5 ≤ q := by
    by_contra hc
    have : q < 4 / 5 := not_le.mp hc
    nlinarith
  have key : (q - p) * ((q + p) * (1 + w)) = 1 - p ^ 2 * (1 + w) := by linear_combination hq2
  have hbig : 1 ≤ (q + p) * (1 + w) := by nlinarith
  calc |q - p| ≤ |q - p| * ((q + p) * (1 + w)) := le_mul_of_one_le_right (abs_nonneg _) hbig
    _ = |(q - p) * ((q + p) * (1 + w))| := by rw [abs_mul, abs_of_pos (show 0 < (q + p) * (1 + w) by linarith)]
    _ ≤ B := by rw [key]; exact hB

theorem taylor2 (w : ℝ) (hw : |w| ≤ 1 / 4) : |1 / √(1 + w) - (1 - w / 2 + 3 / 8 * w ^ 2)| ≤ |w| ^ 3 := by
  obtain ⟨hw1, hw2⟩ := abs_le.mp hw
  apply inv_sqrt_bound w _ _ hw (by nlinarith [sq_nonneg w])
  have : 1 - (1 - w / 2 + 3 / 8 * w ^ 2) ^ 2 * (1 + w) = w ^ 3 * (-(5 / 8) + 15 / 64 * w - 9 / 64 * w ^ 2) := by ring
  rw [this, abs_mul, abs_pow]
  apply mul_le_of_le_one_right (by positivity)
  rw [abs_le]
  constructor <;> nlinarith [sq_nonneg w, mul_self_nonneg (w - 1 / 4), mul_self_nonneg (w + 1 / 4)]

theorem taylor3 (w : ℝ) (hw : |w| ≤ 1 / 4) :
    |1 / √(1 + w) - (1 - w / 2 + 3 / 8 * w ^ 2 - 5 / 16 * w ^ 3)| ≤ w ^ 4 := by
  obtain ⟨hw1, hw2⟩ := abs_le.mp hw
  have hw3 : |w ^ 3| ≤ 1 / 64 := by
    rw [abs_pow]
    calc |w| ^ 3 ≤ (1 / 4) ^ 3 := by gcongr
      _ = 1 / 64 := by norm_num
  have hw3' := abs_le.mp hw3
  apply inv_sqrt_bound w _ _ hw (by nlinarith [sq_nonneg w])
  have : 1 - (1 - w / 2 + 3 / 8 * w ^ 2 - 5 / 16 * w ^ 3) ^ 2 * (1 + w) =
      w ^ 4 * (35 / 64 - 14 / 64 * w + 35 / 256 * w ^ 2 - 25 / 256 * w ^ 3) := by ring
  rw [this, abs_mul, abs_of_nonneg (show 0 ≤ w ^ 4 by positivity)]
  apply mul_le_of_le_one_right (by positivity)
  rw [abs_le]
  constructor <;> nlinarith [sq_nonneg w, mul_self_nonneg (w - 1 / 4), mul_self_nonneg (w + 1 / 4)]

/-! ### Integrals of `(1+t)^{-(k+3/2)}` -/

theorem hasDerivAt_base (k : ℕ) (t : ℝ) (ht : 0 < t) :
    HasDerivAt (fun t => -(2 / (2 * k + 1)) * (1 / √(t + 1) ^ (2 * k + 1))) (1 / √(t + 1) ^ (2 * k + 3)) t := by
  have h1 : 0 < t + 1 := by linarith
  have hr : 0 < √(t + 1) := Real.sqrt_pos.mpr h1
  have := (((hasDerivAt_sqrt_add 1 t h1).pow (2 * k + 1)).inv (pow_pos hr _).ne').const_mul (-(2 / (2 * (k : ℝ) + 1)))
  have h2 : HasDerivAt (fun t => -(2 / (2 * (k : ℝ) + 1)) * (1 / √(t + 1) ^ (2 * k + 1))) _ t :=
    this.congr_of_eventuallyEq (Eventually.of_forall fun t => by simp)
  refine h2.congr_deriv ?_
  simp only [Pi.pow_apply]
  have e1 : √(t + 1) ^ (2 * k + 1) = √(t + 1) ^ (2 * k) * √(t + 1) := pow_succ _ _
  have e2 : √(t + 1) ^ (2 * k + 3) = √(t + 1) ^ (2 * k) * √(t + 1) ^ 3 := pow_add _ _ _
  rw [e1, e2]
  have e3 : (2 * k + 1 - 1) = 2 * k := by omega
  rw [e3]
  have hp : 0 < √(t + 1) ^ (2 * k) := by positivity
  generalize √(t + 1) ^ (2 * k) = P at *
  generalize √(t + 1) = r at *
  push_cast
  field_simp

theorem tendsto_base (k : ℕ) : Tendsto (fun t : ℝ => -(2 / (2 * (k : ℝ) + 1)) * (1 / √(t + 1) ^ (2 * k + 1))) atTop (𝓝 0) := by
  have h1 : Tendsto (fun t : ℝ => √(t + 1)) atTop atTop :=
    Real.tendsto_sqrt_atTop.comp (tendsto_atTop_add_const_right _ 1 tendsto_id)
  have h2 : Tendsto (fun t : ℝ => 1 / √(t + 1) ^ (2 * k + 1)) atTop (𝓝 0) := by
    have := ((tendsto_pow_atTop (n := 2 * k + 1) (by omega)).comp h1).inv_tendsto_atTop
    exact this.congr fun t => by simp
  simpa using h2.const_mul (-(2 / (2 * (k : ℝ) + 1)))

theorem cont_base (k : ℕ) :
    ContinuousWithinAt (fun t : ℝ => -(2 / (2 * (k : ℝ) + 1)) * (1 / √(t + 1) ^ (2 * k + 1))) (Ici 0) 0 := by
  apply ContinuousAt.continuousWithinAt
  apply ContinuousAt.mul continuousAt_const
  apply ContinuousAt.div continuousAt_const (by fun_prop)
  simp

theorem integrable_base (k : ℕ) : IntegrableOn (fun t : ℝ => 1 / √(t + 1) ^ (2 * k + 3)) (Ioi 0) :=
  integrableOn_Ioi_deriv_of_nonneg (cont_base k) (fun t ht => hasDerivAt_base k t ht) (fun t _ => by positivity)
    (tendsto_base k)

theorem integral_base (k : ℕ) : ∫ t in Ioi (0 : ℝ), 1 / √(t + 1) ^ (2 * k + 3) = 2 / (2 * k + 1) := by
  rw [integral_Ioi_of_hasDerivAt_of_nonneg (cont_base k) (fun t ht => hasDerivAt_base k t ht) (fun t _ => by positivity)
    (tendsto_base k)]
  simp

/-- An integrand within `C r^{-(2K+3)}` of a combination of the `r^{-(2k+3)}` has an integral within `2C/(2K+1)` of
the combination of `2/(2k+1)`. -/
theorem integral_approx (F : ℝ → ℝ) (hF : IntegrableOn F (Ioi 0)) (c : ℕ → ℝ) (n K : ℕ) (C : ℝ)
    (h : ∀ t > 0, |F t - ∑ k ∈ Finset.range n, c k * (1 / √(t + 1) ^ (2 * k + 3))| ≤ C * (1 / √(t + 1) ^ (2 * K + 3))) :
    |(∫ t in Ioi (0 : ℝ), F t) - ∑ k ∈ Finset.range n, c k * (2 / (2 * k + 1))| ≤ C * (2 / (2 * K + 1)) := by
  have hi : ∀ k ∈ Finset.range n, IntegrableOn (fun t : ℝ => c k * (1 / √(t + 1) ^ (2 * k + 3))) (Ioi 0) :=
    fun k _ => (integrable_base k).const_mul _
  have hs : IntegrableOn (fun t : ℝ => ∑ k ∈ Finset.range n, c k * (1 / √(t + 1) ^ (2 * k + 3))) (Ioi 0) :=
    integrable_finset_sum _ hi
  have e : ∫ t in Ioi (0 : ℝ), ∑ k ∈ Finset.range n, c k * (1 / √(t + 1) ^ (2 * k + 3)) =
      ∑ k ∈ Finset.range n, c k * (2 / (2 * k + 1)) := by
    rw [integral_finset_sum _ hi]
    apply Finset.sum_congr rfl
    intro k _
    rw [MeasureTheory.integral_const_mul, integral_base]
  rw [← e, ← integral_sub hF hs, ← integral_base K, ← MeasureTheory.integral_const_mul]
  rw [← Real.norm_eq_abs]
  refine norm_integral_le_of_norm_le ((integrable_base K).const_mul C) ?_
  rw [ae_restrict_iff' measurableSet_Ioi]
  exact Eventually.of_forall fun t ht => h t ht

/-! ### `R_F` -/

theorem sqrt_prod3 (t X Y Z : ℝ) (ht : 0 < t) (hX : |X| ≤ 1 / 4) (hY : |Y| ≤ 1 / 4) (hZ : |Z| ≤ 1 / 4)
    (hs : X + Y + Z = 0) (u : ℝ) (hu : u = 1 / (t + 1)) :
    √(t + (1 - X)) * √(t + (1 - Y)) * √(t + (1 - Z)) =
      √(t + 1) ^ 3 * √(1 + ((X * Y + X * Z + Y * Z) * u ^ 2 - X * Y * Z * u ^ 3)) := by
  have h1 : 0 < t + 1 := by linarith
  have hx := abs_le.mp hX
  have hy := abs_le.mp hY
  have hz := abs_le.mp hZ
  rw [← Real.sqrt_mul (by linarith), ← Real.sqrt_mul (by nlinarith)]
  have e : √(t + 1) ^ 3 = √((t + 1) ^ 3) := by
    rw [show (t + 1) ^ 3 = (√(t + 1) ^ 3) ^ 2 by rw [← pow_mul, mul_comm 3 2, pow_mul, Real.sq_sqrt h1.le]]
    rw [Real.sqrt_sq (by positivity)]
  rw [e, ← Real.sqrt_mul (by positivity)]
  congr 1
  subst hu
  field_simp
  have hZ' : Z = -(X + Y) := by linarith
  subst hZ'
  ring

theorem abs_mul_le {a b A B : ℝ} (ha : |a| ≤ A) (hb : |b| ≤ B) : |a * b| ≤ A * B := by
  rw [abs_mul]
  exact mul_le_mul ha hb (abs_nonneg _) (le_trans (abs_nonneg _) ha)

theorem sq_le_of_abs {a A : ℝ} (h : |a| ≤ A) : a ^ 2 ≤ A ^ 2 := by
  rw [← sq_abs]
  gcongr

/-- The truncated series of `R_F` around equal arguments (DLMF 19.36.1) with the error of the terms left out. -/
theorem RF_series (X Y Z ε : ℝ) (hε : ε ≤ 1 / 4) (hX : |X| ≤ ε) (hY : |Y| ≤ ε) (hZ : |Z| ≤ ε) (hs : X + Y + Z = 0) :
    |RF (1 - X) (1 - Y) (1 - Z) -
      (1 - (X * Y + X * Z + Y * Z) / 10 + (X * Y + X * Z + Y * Z) ^ 2 / 24 + X * Y * Z / 14 -
        (X * Y + X * Z + Y * Z) * (X * Y * Z) * (3 / 44))| ≤ ε ^ 6 / 2 := by
  have hε0 : 0 ≤ ε := le_trans (abs_nonneg _) hX
  have hx := abs_le.mp (hX.trans hε)
  have hy := abs_le.mp (hY.trans hε)
  have hz := abs_le.mp (hZ.trans hε)
  set E2 := X * Y + X * Z + Y * Z with hE2
  set E3 := X * Y * Z with hE3
  have b2 : |E2| ≤ 3 / 2 * ε ^ 2 := by
    have : E2 = -(X ^ 2 + Y ^ 2 + Z ^ 2) / 2 := by
      have : Z = -(X + Y) := by linarith
      rw [hE2, this]; ring
    rw [this, abs_le]
    constructor <;> nlinarith [sq_le_of_abs hX, sq_le_of_abs hY, sq_le_of_abs hZ, sq_nonneg X, sq_nonneg Y, sq_nonneg Z]
  have b3 : |E3| ≤ ε ^ 3 := by
    have := abs_mul_le (abs_mul_le hX hY) hZ
    calc |E3| ≤ ε * ε * ε := this
      _ = ε ^ 3 := by ring
  have hargs : Args (1 - X) (1 - Y) (1 - Z) := by
    constructor <;> linarith
  have e3 : ε ^ 3 ≤ 1 / 4 * ε ^ 2 := by nlinarith [sq_nonneg ε]
  have bW : |E2| + |E3| ≤ 7 / 4 * ε ^ 2 := by linarith
  have bW' : |E2| + |E3| ≤ 1 / 4 := by nlinarith
  set c : ℕ → ℝ := fun k => if k = 0 then 1 else if k = 2 then -E2 / 2 else if k = 3 then E3 / 2 else
    if k = 4 then 3 / 8 * E2 ^ 2 else if k = 5 then -(3 / 4) * E2 * E3 else 0 with hc
  have main := integral_approx _ hargs.integrable c 6 6 (6 * ε ^ 6) (by
    intro t ht
    have h1 : 0 < t + 1 := by linarith
    have hr : 0 < √(t + 1) := Real.sqrt_pos.mpr h1
    have hu : 0 < 1 / (t + 1) ∧ 1 / (t + 1) ≤ 1 :=
      ⟨by positivity, by rw [div_le_one h1]; linarith⟩
    rw [sqrt_prod3 t X Y Z ht (hX.trans hε) (hY.trans hε) (hZ.trans hε) hs _ rfl]
    have hru : 1 / √(t + 1) ^ 2 = 1 / (t + 1) := by rw [Real.sq_sqrt h1.le]
    set r := √(t + 1) with hrdef
    set u := 1 / (t + 1) with hudef
    obtain ⟨hu0, hu1⟩ := hu
    have hsum : ∑ k ∈ Finset.range 6, c k * (1 / r ^ (2 * k + 3)) =
        1 / r ^ 3 * (1 - E2 / 2 * u ^ 2 + E3 / 2 * u ^ 3 + 3 / 8 * E2 ^ 2 * u ^ 4 - 3 / 4 * E2 * E3 * u ^ 5) := by
      rw [← hru]
      simp only [Finset.sum_range_succ, Finset.sum_range_zero, hc]
      norm_num
      field_simp
      ring
    set w := E2 * u ^ 2 - E3 * u ^ 3 with hw
    have bw : |w| ≤ 7 / 4 * ε ^ 2 * u ^ 2 := by
      have t1 : |E2 * u ^ 2| = |E2| * u ^ 2 := by rw [abs_mul, abs_of_nonneg (show 0 ≤ u ^ 2 by positivity)]
      have t2 : |E3 * u ^ 3| ≤ |E3| * u ^ 2 := by
        rw [abs_mul, abs_of_nonneg (show 0 ≤ u ^ 3 by positivity)]
        apply mul_le_mul_of_nonneg_left _ (abs_nonneg _)
        exact pow_le_pow_of_le_one hu0.le hu1 (by norm_num)
      calc |w| ≤ |E2 * u ^ 2| + |E3 * u ^ 3| := abs_sub _ _
        _ ≤ (|E2| + |E3|) * u ^ 2 := by
          have : (|E2| + |E3|) * u ^ 2 = |E2| * u ^ 2 + |E3| * u ^ 2 := by ring
          linarith
        _ ≤ _ := by gcongr
    have bw4 : |w| ≤ 1 / 4 := by
      have : u ^ 2 ≤ 1 := pow_le_one₀ hu0.le hu1
      nlinarith [sq_nonneg ε, sq_nonneg u]
    rw [hsum]
    have e1 : 1 / (r ^ 3 * √(1 + w)) - 1 / r ^ 3 * (1 - E2 / 2 * u ^ 2 + E3 / 2 * u ^ 3 + 3 / 8 * E2 ^ 2 * u ^ 4 -
        3 / 4 * E2 * E3 * u ^ 5) =
        1 / r ^ 3 * ((1 / √(1 + w) - (1 - w / 2 + 3 / 8 * w ^ 2)) + 3 / 8 * E3 ^ 2 * u ^ 6) := by
      have hsplit : 1 / (r ^ 3 * √(1 + w)) = 1 / r ^ 3 * (1 / √(1 + w)) := by rw [one_div_mul_one_div]
      rw [hsplit]
      generalize √(1 + w) = q
      rw [hw]
      clear_value E2 E3 r u
      ring
    rw [e1, abs_mul, abs_of_pos (show 0 < 1 / r ^ 3 by positivity)]
    have e2 : 6 * ε ^ 6 * (1 / r ^ (2 * 6 + 3)) = 1 / r ^ 3 * (6 * ε ^ 6 * u ^ 6) := by
      rw [← hru]; field_simp
    rw [e2]
    apply mul_le_mul_of_nonneg_left _ (by positivity)
    have b1 := taylor2 w bw4
    have b4 : |w| ^ 3 ≤ (7 / 4 * ε ^ 2 * u ^ 2) ^ 3 := by gcongr
    have b5 : E3 ^ 2 ≤ (ε ^ 3) ^ 2 := sq_le_of_abs b3
    have b6 : |3 / 8 * E3 ^ 2 * u ^ 6| ≤ 3 / 8 * ε ^ 6 * u ^ 6 := by
      rw [abs_of_nonneg (by positivity)]
      have : E3 ^ 2 ≤ ε ^ 6 := by calc _ ≤ _ := b5
        _ = ε ^ 6 := by ring
      gcongr
    calc _ ≤ |1 / √(1 + w) - (1 - w / 2 + 3 / 8 * w ^ 2)| + |3 / 8 * E3 ^ 2 * u ^ 6| := abs_add_le _ _
      _ ≤ (7 / 4 * ε ^ 2 * u ^ 2) ^ 3 + 3 / 8 * ε ^ 6 * u ^ 6 := add_le_add (b1.trans b4) b6
      _ = (343 / 64 + 3 / 8) * (ε ^ 6 * u ^ 6) := by ring
      _ ≤ 6 * (ε ^ 6 * u ^ 6) := by
        apply mul_le_mul_of_nonneg_right (by norm_num) (by positivity)
      _ = _ := by ring)
  have e : RF (1 - X) (1 - Y) (1 - Z) - (1 - E2 / 10 + E2 ^ 2 / 24 + E3 / 14 - E2 * E3 * (3 / 44)) =
      1 / 2 * ((∫ t in Ioi (0 : ℝ), 1 / (√(t + (1 - X)) * √(t + (1 - Y)) * √(t + (1 - Z)))) -
        ∑ k ∈ Finset.range 6, c k * (2 / (2 * k + 1))) := by
    rw [RF]
    simp only [Finset.sum_range_succ, Finset.sum_range_zero, hc]
    norm_num
    ring
  rw [e, abs_mul, abs_of_pos (by norm_num : (0 : ℝ) < 1 / 2)]
  have := main
  norm_num at this ⊢
  nlinarith [pow_nonneg hε0 6]

theorem rc_point (v : ℝ) (hv : |v| ≤ 1 / 8) :
    |1 / √(1 + -(v ^ 2 * (3 + 2 * v))) - (1 + 3 / 2 * v ^ 2 + v ^ 3 + 27 / 8 * v ^ 4 + 9 / 2 * v ^ 5 +
          159 / 16 * v ^ 6 + 135 / 8 * v ^ 7)| ≤ 130 * v ^ 8 := by
  have bv' := abs_le.mp hv
  have hv8 : 0 ≤ v ^ 8 := by positivity
  set w := -(v ^ 2 * (3 + 2 * v)) with hwd
  have hv2 : v ^ 2 ≤ (1 / 8) ^ 2 := sq_le_of_abs hv
  have bw4 : |w| ≤ 1 / 4 := by
    rw [hwd, abs_neg, abs_of_nonneg (mul_nonneg (sq_nonneg v) (by linarith))]
    calc v ^ 2 * (3 + 2 * v) ≤ (1 / 8) ^ 2 * (13 / 4) := by
          apply mul_le_mul hv2 (by linarith) (by linarith) (by norm_num)
      _ ≤ 1 / 4 := by norm_num
  have b1 := taylor3 w bw4
  have b2 : w ^ 4 ≤ 112 * v ^ 8 := by
    have h3 : (3 + 2 * v) ^ 4 ≤ 112 := by
      calc (3 + 2 * v) ^ 4 ≤ (13 / 4) ^ 4 := by
            apply pow_le_pow_left₀ <;> linarith
        _ ≤ 112 := by norm_num
    have : w ^ 4 = (3 + 2 * v) ^ 4 * v ^ 8 := by rw [hwd]; ring
    rw [this]
    exact mul_le_mul_of_nonneg_right h3 hv8
  have b3 : |v ^ 8 * (45 / 4 + 5 / 2 * v)| ≤ 12 * v ^ 8 := by
    rw [abs_of_nonneg (mul_nonneg hv8 (by linarith)), mul_comm]
    exact mul_le_mul_of_nonneg_right (by linarith) hv8
  have e : 1 / √(1 + w) - (1 + 3 / 2 * v ^ 2 + v ^ 3 + 27 / 8 * v ^ 4 + 9 / 2 * v ^ 5 +
          159 / 16 * v ^ 6 + 135 / 8 * v ^ 7) =
      (1 / √(1 + w) - (1 - w / 2 + 3 / 8 * w ^ 2 - 5 / 16 * w ^ 3)) + v ^ 8 * (45 / 4 + 5 / 2 * v) := by
    generalize √(1 + w) = q
    rw [hwd]
    ring
  rw [e]
  calc _ ≤ |1 / √(1 + w) - (1 - w / 2 + 3 / 8 * w ^ 2 - 5 / 16 * w ^ 3)| + |v ^ 8 * (45 / 4 + 5 / 2 * v)| :=
        abs_add_le _ _
    _ ≤ 112 * v ^ 8 + 12 * v ^ 8 := add_le_add (b1.trans b2) b3
    _ ≤ _ := by linarith

/-- The truncated series of `R_C` around equal arguments with the error of the terms left out. -/
theorem RC_series (s : ℝ) (hs : |s| ≤ 1 / 8) :
    |RC (1 - 2 * s) (1 + s) -
      (1 + 3 / 10 * s ^ 2 + s ^ 3 / 7 + 3 / 8 * s ^ 4 + 9 / 22 * s ^ 5 + 159 / 208 * s ^ 6 + 9 / 8 * s ^ 7)| ≤ 8 * s ^ 8 := by
  have hs' := abs_le.mp hs
  have hargs : Args (1 - 2 * s) (1 + s) (1 + s) := by constructor <;> linarith
  rw [RC_eq_RF _ _ (by linarith)]
  set c : ℕ → ℝ := fun k => if k = 0 then 1 else if k = 2 then 3 / 2 * s ^ 2 else if k = 3 then s ^ 3 else
    if k = 4 then 27 / 8 * s ^ 4 else if k = 5 then 9 / 2 * s ^ 5 else if k = 6 then 159 / 16 * s ^ 6 else
    if k = 7 then 135 / 8 * s ^ 7 else 0 with hc
  have main := integral_approx _ hargs.integrable c 8 8 (130 * s ^ 8) (by
    intro t ht
    have h1 : 0 < t + 1 := by linarith
    have hr : 0 < √(t + 1) := Real.sqrt_pos.mpr h1
    have hu : 0 < 1 / (t + 1) ∧ 1 / (t + 1) ≤ 1 :=
      ⟨by positivity, by rw [div_le_one h1]; linarith⟩
    have hprod := sqrt_prod3 t (2 * s) (-s) (-s) ht (by rw [abs_le]; constructor <;> linarith)
      (by rw [abs_le]; constructor <;> linarith) (by rw [abs_le]; constructor <;> linarith) (by ring) _ rfl
    simp only [sub_neg_eq_add] at hprod
    rw [hprod]
    have hru : 1 / (t + 1) = 1 / √(t + 1) ^ 2 := by rw [Real.sq_sqrt h1.le]
    generalize √(t + 1) = r at *
    generalize 1 / (t + 1) = u at *
    obtain ⟨hu0, hu1⟩ := hu
    have hsum : ∑ k ∈ Finset.range 8, c k * (1 / r ^ (2 * k + 3)) =
        1 / r ^ 3 * (1 + 3 / 2 * (s * u) ^ 2 + (s * u) ^ 3 + 27 / 8 * (s * u) ^ 4 + 9 / 2 * (s * u) ^ 5 +
          159 / 16 * (s * u) ^ 6 + 135 / 8 * (s * u) ^ 7) := by
      rw [hru]
      simp only [Finset.sum_range_succ, Finset.sum_range_zero, hc]
      norm_num
      field_simp
    have hw : (2 * s * -s + 2 * s * -s + -s * -s) * u ^ 2 - 2 * s * -s * -s * u ^ 3 =
      -((s * u) ^ 2 * (3 + 2 * (s * u))) := by ring
    have e2 : 130 * s ^ 8 * (1 / r ^ (2 * 8 + 3)) = 1 / r ^ 3 * (130 * (s * u) ^ 8) := by
      rw [hru]; field_simp
    rw [hw, hsum, e2, ← one_div_mul_one_div, ← mul_sub, abs_mul, abs_of_pos (show 0 < 1 / r ^ 3 by positivity)]
    apply mul_le_mul_of_nonneg_left _ (by positivity)
    apply rc_point
    rw [abs_mul, abs_of_pos hu0]
    calc |s| * u ≤ |s| * 1 := mul_le_mul_of_nonneg_left hu1 (abs_nonneg s)
      _ ≤ 1 / 8 := by linarith)
  have e : RF (1 - 2 * s) (1 + s) (1 + s) -
      (1 + 3 / 10 * s ^ 2 + s ^ 3 / 7 + 3 / 8 * s ^ 4 + 9 / 22 * s ^ 5 + 159 / 208 * s ^ 6 + 9 / 8 * s ^ 7) =
      1 / 2 * ((∫ t in Ioi (0 : ℝ), 1 / (√(t + (1 - 2 * s)) * √(t + (1 + s)) * √(t + (1 + s)))) -
        ∑ k ∈ Finset.range 8, c k * (2 / (2 * k + 1))) := by
    rw [RF]
    simp only [Finset.sum_range_succ, Finset.sum_range_zero, hc]
    norm_num
    ring
  rw [e, abs_mul, abs_of_pos (by norm_num : (0 : ℝ) < 1 / 2)]
  have h8 : 0 ≤ s ^ 8 := by positivity
  clear_value c
  norm_num at main ⊢
  linarith

/-! ### `R_J` and `R_D` -/

theorem sqrt_prod5 (t X Y Z P : ℝ) (ht : 0 < t) (hX : |X| ≤ 1 / 4) (hY : |Y| ≤ 1 / 4) (hZ : |Z| ≤ 1 / 4) (hP : |P| ≤ 1 / 4)
    (hs : X + Y + Z + 2 * P = 0) (u : ℝ) (hu : u = 1 / (t + 1)) :
    √(t + (1 - X)) * √(t + (1 - Y)) * √(t + (1 - Z)) * (t + (1 - P)) =
      √(t + 1) ^ 5 * √(1 + ((X * Y + X * Z + Y * Z - 3 * P ^ 2) * u ^ 2 -
        (X * Y * Z + 2 * (X * Y + X * Z + Y * Z) * P - 2 * P ^ 3) * u ^ 3 +
        (2 * X * Y * Z * P + (X * Y + X * Z + Y * Z) * P ^ 2) * u ^ 4 - X * Y * Z * P ^ 2 * u ^ 5)) := by
  have h1 : 0 < t + 1 := by linarith
  have hx := abs_le.mp hX
  have hy := abs_le.mp hY
  have hz := abs_le.mp hZ
  have hp := abs_le.mp hP
  have h0 : 0 < t + (1 - P) := by linarith
  have e0 : t + (1 - P) = √((t + (1 - P)) ^ 2) := (Real.sqrt_sq h0.le).symm
  rw [← Real.sqrt_mul (by linarith), ← Real.sqrt_mul (by nlinarith)]
  rw [e0, ← Real.sqrt_mul (mul_nonneg (mul_nonneg (by linarith) (by linarith)) (by linarith))]
  have e : √(t + 1) ^ 5 = √((t + 1) ^ 5) := by
    rw [show (t + 1) ^ 5 = (√(t + 1) ^ 5) ^ 2 by rw [← pow_mul, mul_comm 5 2, pow_mul, Real.sq_sqrt h1.le]]
    rw [Real.sqrt_sq (by positivity)]
  rw [e, ← Real.sqrt_mul (by positivity)]
  congr 1
  subst hu
  field_simp
  have hZ' : Z = -(X + Y) - 2 * P := by linarith
  subst hZ'
  ring

theorem abs_le_cube {a A : ℝ} (h : |a| ≤ A) : |a ^ 3| ≤ A ^ 3 := by
  rw [abs_pow]
  have := abs_nonneg a
  gcongr

theorem rj_point (E2 E3 E4 E5 ε u : ℝ) (hε0 : 0 ≤ ε) (hε : ε ≤ 1 / 4) (hu0 : 0 < u) (hu1 : u ≤ 1)
    (b2 : |E2| ≤ 5 / 2 * ε ^ 2) (b3 : |E3| ≤ 5 / 3 * ε ^ 3) (b4 : |E4| ≤ 5 * ε ^ 4) (b5 : |E5| ≤ ε ^ 5) :
    |1 / √(1 + (E2 * u ^ 2 - E3 * u ^ 3 + E4 * u ^ 4 - E5 * u ^ 5)) -
      (1 - E2 / 2 * u ^ 2 + E3 / 2 * u ^ 3 + (-E4 / 2 + 3 / 8 * E2 ^ 2) * u ^ 4 + (E5 / 2 - 3 / 4 * E2 * E3) * u ^ 5)| ≤
      50 * ε ^ 6 * u ^ 6 := by
  have u4 : u ^ 4 ≤ u ^ 3 := pow_le_pow_of_le_one hu0.le hu1 (by norm_num)
  have u5 : u ^ 5 ≤ u ^ 3 := pow_le_pow_of_le_one hu0.le hu1 (by norm_num)
  have u6 : u ^ 7 ≤ u ^ 6 := pow_le_pow_of_le_one hu0.le hu1 (by norm_num)
  have u3 : u ^ 3 ≤ u ^ 2 := pow_le_pow_of_le_one hu0.le hu1 (by norm_num)
  have hu2 : u ^ 2 ≤ 1 := pow_le_one₀ hu0.le hu1
  have e2 : ε ^ 2 ≤ 1 / 16 := by
    calc ε ^ 2 ≤ (1 / 4) ^ 2 := by gcongr
      _ = 1 / 16 := by norm_num
  have pw : ∀ n, ε ^ (n + 1) ≤ 1 / 4 * ε ^ n := by
    intro n
    rw [pow_succ, mul_comm]
    exact mul_le_mul_of_nonneg_right hε (pow_nonneg hε0 n)
  have e3 := pw 2
  have e4 := pw 3
  have e5 := pw 4
  have e7 := pw 6
  have bmul : ∀ (E : ℝ) (a b : ℕ) (B : ℝ), |E| ≤ B → u ^ a ≤ u ^ b → |E * u ^ a| ≤ B * u ^ b := by
    intro E a b B hE hab
    rw [abs_mul, abs_of_pos (pow_pos hu0 a)]
    exact mul_le_mul hE hab (pow_pos hu0 a).le (le_trans (abs_nonneg _) hE)
  have t2 := abs_le.mp (bmul E2 2 2 _ b2 le_rfl)
  have t3 := abs_le.mp (bmul E3 3 3 _ b3 le_rfl)
  have t4 := abs_le.mp (bmul E4 4 3 _ b4 u4)
  have t5 := abs_le.mp (bmul E5 5 3 _ b5 u5)
  have b8 := abs_le.mp (bmul (E2 * E4) 6 6 _ (abs_mul_le b2 b4) le_rfl)
  have b9 := abs_le.mp (bmul (E2 * E5) 7 6 _ (abs_mul_le b2 b5) u6)
  have hu3 := pow_pos hu0 3
  have hu6 := pow_pos hu0 6
  have k0 : 0 ≤ ε ^ 3 * u ^ 3 := by positivity
  have k0' : 0 ≤ ε ^ 6 * u ^ 6 := by positivity
  have k4 : 5 * ε ^ 4 * u ^ 3 ≤ 5 / 4 * (ε ^ 3 * u ^ 3) := by
    rw [← mul_assoc]; apply mul_le_mul_of_nonneg_right _ hu3.le
    linarith only [e4]
  have k5 : ε ^ 5 * u ^ 3 ≤ 1 / 16 * (ε ^ 3 * u ^ 3) := by
    rw [← mul_assoc]; apply mul_le_mul_of_nonneg_right _ hu3.le
    linarith only [e4, e5]
  obtain ⟨R, hR⟩ : ∃ R, R = E3 * u ^ 3 - E4 * u ^ 4 + E5 * u ^ 5 := ⟨_, rfl⟩
  have bR : |R| ≤ 3 * (ε ^ 3 * u ^ 3) := by
    rw [hR, abs_le]
    constructor <;> linarith only [t3.1, t3.2, t4.1, t4.2, t5.1, t5.2, k4, k5, k0]
  have k3 : 3 * (ε ^ 3 * u ^ 3) ≤ 3 / 4 * (ε ^ 2 * u ^ 2) := by
    calc 3 * (ε ^ 3 * u ^ 3) ≤ 3 * ((1 / 4 * ε ^ 2) * u ^ 2) := by gcongr
      _ = _ := by ring
  obtain ⟨w, hw⟩ : ∃ w, w = E2 * u ^ 2 - R := ⟨_, rfl⟩
  have hwe : E2 * u ^ 2 - E3 * u ^ 3 + E4 * u ^ 4 - E5 * u ^ 5 = w := by rw [hw, hR]; ring
  have bw : |w| ≤ 13 / 4 * (ε ^ 2 * u ^ 2) := by
    have tR := abs_le.mp bR
    rw [hw, abs_le]
    constructor <;> linarith only [t2.1, t2.2, tR.1, tR.2, k3]
  have bw4 : |w| ≤ 1 / 4 := by
    have : ε ^ 2 * u ^ 2 ≤ 1 / 16 * 1 := mul_le_mul e2 hu2 (by positivity) (by norm_num)
    linarith only [bw, this]
  rw [hwe]
  have e1 : 1 / √(1 + w) - (1 - E2 / 2 * u ^ 2 + E3 / 2 * u ^ 3 + (-E4 / 2 + 3 / 8 * E2 ^ 2) * u ^ 4 +
        (E5 / 2 - 3 / 4 * E2 * E3) * u ^ 5) =
      (1 / √(1 + w) - (1 - w / 2 + 3 / 8 * w ^ 2)) +
        (3 / 8 * (2 * (E2 * E4 * u ^ 6) - 2 * (E2 * E5 * u ^ 7)) + 3 / 8 * R ^ 2) := by
    generalize √(1 + w) = q
    rw [hw, hR]
    ring
  rw [e1]
  have b1 := taylor2 w bw4
  have b6 : |w| ^ 3 ≤ (13 / 4 * (ε ^ 2 * u ^ 2)) ^ 3 := by gcongr
  have b7 : R ^ 2 ≤ (3 * (ε ^ 3 * u ^ 3)) ^ 2 := sq_le_of_abs bR
  have k7 : 5 / 2 * ε ^ 2 * ε ^ 5 * u ^ 6 ≤ 5 / 8 * (ε ^ 6 * u ^ 6) := by
    rw [← mul_assoc]; apply mul_le_mul_of_nonneg_right _ hu6.le
    calc 5 / 2 * ε ^ 2 * ε ^ 5 = 5 / 2 * ε ^ 7 := by ring
      _ ≤ 5 / 2 * (1 / 4 * ε ^ 6) := by linarith only [e7]
      _ = _ := by ring
  have k6 : 5 / 2 * ε ^ 2 * (5 * ε ^ 4) * u ^ 6 = 25 / 2 * (ε ^ 6 * u ^ 6) := by ring
  have k8 : (3 * (ε ^ 3 * u ^ 3)) ^ 2 = 9 * (ε ^ 6 * u ^ 6) := by ring
  have b10 : |3 / 8 * (2 * (E2 * E4 * u ^ 6) - 2 * (E2 * E5 * u ^ 7)) + 3 / 8 * R ^ 2| ≤ 14 * (ε ^ 6 * u ^ 6) := by
    rw [k6] at b8
    rw [k8] at b7
    have := sq_nonneg R
    rw [abs_le]
    constructor <;> linarith only [b8.1, b8.2, b9.1, b9.2, k7, b7, this, k0']
  calc _ ≤ |1 / √(1 + w) - (1 - w / 2 + 3 / 8 * w ^ 2)| +
        |3 / 8 * (2 * (E2 * E4 * u ^ 6) - 2 * (E2 * E5 * u ^ 7)) + 3 / 8 * R ^ 2| := abs_add_le _ _
    _ ≤ (13 / 4 * (ε ^ 2 * u ^ 2)) ^ 3 + 14 * (ε ^ 6 * u ^ 6) := add_le_add (b1.trans b6) b10
    _ = (2197 / 64 + 14) * (ε ^ 6 * u ^ 6) := by ring
    _ ≤ 50 * (ε ^ 6 * u ^ 6) := by
      apply mul_le_mul_of_nonneg_right (by norm_num) k0'
    _ = _ := by ring

theorem RJ_integrable {x y z p : ℝ} (h : Args x y z) (hp : 0 < p) :
    IntegrableOn (fun t => 1 / (√(t + x) * √(t + y) * √(t + z) * (t + p))) (Ioi 0) := by
  have := h.integrable_mul (fun t => 1 / (t + p)) (by
    apply ContinuousOn.div continuousOn_const (by fun_prop)
    intro t (ht : 0 < t)
    exact (show 0 < t + p by linarith).ne') (1 / p) (by
    intro t (ht : 0 < t)
    rw [abs_of_pos (by positivity)]
    apply one_div_le_one_div_of_le hp
    linarith)
  refine this.congr_fun (fun t (ht : 0 < t) => ?_) measurableSet_Ioi
  simp only [one_div_mul_one_div]

/-- The truncated series of `R_J` around equal arguments (DLMF 19.36.2) with the error of the terms left out. -/
theorem RJ_series (X Y Z P ε : ℝ) (hε : ε ≤ 1 / 4) (hX : |X| ≤ ε) (hY : |Y| ≤ ε) (hZ : |Z| ≤ ε) (hP : |P| ≤ ε)
    (hs : X + Y + Z + 2 * P = 0) (E2 E3 E4 E5 : ℝ) (hE2 : E2 = X * Y + X * Z + Y * Z - 3 * P ^ 2)
    (hE3 : E3 = X * Y * Z + 2 * (X * Y + X * Z + Y * Z) * P - 2 * P ^ 3)
    (hE4 : E4 = 2 * X * Y * Z * P + (X * Y + X * Z + Y * Z) * P ^ 2) (hE5 : E5 = X * Y * Z * P ^ 2) :
    |RJ (1 - X) (1 - Y) (1 - Z) (1 - P) -
      (1 - 3 / 14 * E2 + E3 / 6 + 9 / 88 * E2 ^ 2 - 3 / 22 * E4 - 9 / 52 * E2 * E3 + 3 / 26 * E5)| ≤ 10 * ε ^ 6 := by
  have hε0 : 0 ≤ ε := le_trans (abs_nonneg _) hX
  have hx := abs_le.mp (hX.trans hε)
  have hy := abs_le.mp (hY.trans hε)
  have hz := abs_le.mp (hZ.trans hε)
  have hp := abs_le.mp (hP.trans hε)
  have hargs : Args (1 - X) (1 - Y) (1 - Z) := by
    constructor <;> linarith
  have hint := RJ_integrable hargs (show 0 < 1 - P by linarith)
  have hZ' : Z = -(X + Y) - 2 * P := by linarith
  have b2 : |E2| ≤ 5 / 2 * ε ^ 2 := by
    have : E2 = -(X ^ 2 + Y ^ 2 + Z ^ 2 + 2 * P ^ 2) / 2 := by
      rw [hE2, hZ']; ring
    rw [this, abs_le]
    have h1 := sq_le_of_abs hX
    have h2 := sq_le_of_abs hY
    have h3 := sq_le_of_abs hZ
    have h4 := sq_le_of_abs hP
    constructor <;> linarith only [h1, h2, h3, h4, sq_nonneg X, sq_nonneg Y, sq_nonneg Z, sq_nonneg P]
  have b3 : |E3| ≤ 5 / 3 * ε ^ 3 := by
    have : E3 = (X ^ 3 + Y ^ 3 + Z ^ 3 + 2 * P ^ 3) / 3 := by
      rw [hE3, hZ']; ring
    rw [this, abs_le]
    have h1 := abs_le.mp (abs_le_cube hX)
    have h2 := abs_le.mp (abs_le_cube hY)
    have h3 := abs_le.mp (abs_le_cube hZ)
    have h4 := abs_le.mp (abs_le_cube hP)
    constructor <;> linarith only [h1.1, h1.2, h2.1, h2.2, h3.1, h3.2, h4.1, h4.2]
  have q1 := abs_mul_le (abs_mul_le (abs_mul_le hX hY) hZ) hP
  have q2 := abs_mul_le (abs_mul_le (abs_mul_le hX hY) hP) hP
  have q3 := abs_mul_le (abs_mul_le (abs_mul_le hX hZ) hP) hP
  have q4 := abs_mul_le (abs_mul_le (abs_mul_le hY hZ) hP) hP
  have b4 : |E4| ≤ 5 * ε ^ 4 := by
    have : E4 = 2 * (X * Y * Z * P) + X * Y * P * P + X * Z * P * P + Y * Z * P * P := by rw [hE4]; ring
    rw [this, abs_le]
    have e : ε ^ 4 = ε * ε * ε * ε := by ring
    rw [e]
    have r1 := abs_le.mp q1
    have r2 := abs_le.mp q2
    have r3 := abs_le.mp q3
    have r4 := abs_le.mp q4
    constructor <;> linarith only [r1.1, r1.2, r2.1, r2.2, r3.1, r3.2, r4.1, r4.2]
  have b5 : |E5| ≤ ε ^ 5 := by
    have := abs_mul_le q1 hP
    rw [hE5, show X * Y * Z * P ^ 2 = X * Y * Z * P * P by ring]
    calc _ ≤ _ := this
      _ = ε ^ 5 := by ring
  set c : ℕ → ℝ := fun k => if k = 1 then 1 else if k = 3 then -E2 / 2 else if k = 4 then E3 / 2 else
    if k = 5 then -E4 / 2 + 3 / 8 * E2 ^ 2 else if k = 6 then E5 / 2 - 3 / 4 * E2 * E3 else 0 with hc
  have main := integral_approx _ hint c 7 7 (50 * ε ^ 6) (by
    intro t ht
    have h1 : 0 < t + 1 := by linarith
    have hr : 0 < √(t + 1) := Real.sqrt_pos.mpr h1
    have hu : 0 < 1 / (t + 1) ∧ 1 / (t + 1) ≤ 1 :=
      ⟨by positivity, by rw [div_le_one h1]; linarith⟩
    rw [sqrt_prod5 t X Y Z P ht (hX.trans hε) (hY.trans hε) (hZ.trans hε) (hP.trans hε) hs _ rfl, ← hE2, ← hE3, ← hE4, ← hE5]
    have hru : 1 / (t + 1) = 1 / √(t + 1) ^ 2 := by rw [Real.sq_sqrt h1.le]
    generalize √(t + 1) = r at *
    generalize 1 / (t + 1) = u at *
    obtain ⟨hu0, hu1⟩ := hu
    have hsum : ∑ k ∈ Finset.range 7, c k * (1 / r ^ (2 * k + 3)) =
        1 / r ^ 5 * (1 - E2 / 2 * u ^ 2 + E3 / 2 * u ^ 3 + (-E4 / 2 + 3 / 8 * E2 ^ 2) * u ^ 4 +
          (E5 / 2 - 3 / 4 * E2 * E3) * u ^ 5) := by
      rw [hru]
      simp only [Finset.sum_range_succ, Finset.sum_range_zero, hc]
      norm_num
      field_simp
      ring
    have e2 : 50 * ε ^ 6 * (1 / r ^ (2 * 7 + 3)) = 1 / r ^ 5 * (50 * ε ^ 6 * u ^ 6) := by
      rw [hru]; field_simp
    rw [hsum, e2, ← one_div_mul_one_div, ← mul_sub, abs_mul, abs_of_pos (show 0 < 1 / r ^ 5 by positivity)]
    apply mul_le_mul_of_nonneg_left _ (by positivity)
    exact rj_point E2 E3 E4 E5 ε u hε0 hε hu0 hu1 b2 b3 b4 b5)
  have e : RJ (1 - X) (1 - Y) (1 - Z) (1 - P) -
      (1 - 3 / 14 * E2 + E3 / 6 + 9 / 88 * E2 ^ 2 - 3 / 22 * E4 - 9 / 52 * E2 * E3 + 3 / 26 * E5) =
      3 / 2 * ((∫ t in Ioi (0 : ℝ), 1 / (√(t + (1 - X)) * √(t + (1 - Y)) * √(t + (1 - Z)) * (t + (1 - P)))) -
        ∑ k ∈ Finset.range 7, c k * (2 / (2 * k + 1))) := by
    rw [RJ]
    simp only [Finset.sum_range_succ, Finset.sum_range_zero, hc]
    norm_num
    ring
  rw [e, abs_mul, abs_of_pos (by norm_num : (0 : ℝ) < 3 / 2)]
  have h6 := pow_nonneg hε0 6
  clear_value c
  norm_num at main ⊢
  linarith only [main, h6]

/-! ### Scaling and lower bounds -/

theorem integral_scale (k : ℝ) (hk : 0 < k) (g : ℝ → ℝ) : ∫ t in Ioi (0 : ℝ), g t = k * ∫ t in Ioi (0 : ℝ), g (k * t) := by
  have := integral_comp_mul_left_Ioi g 0 hk
  rw [this]
  simp only [mul_zero, smul_eq_mul]
  field_simp

theorem RF_scale (k x y z : ℝ) (hk : 0 < k) : RF (k * x) (k * y) (k * z) = RF x y z / √k := by
  rw [RF, RF, integral_scale k hk]
  have hs : 0 < √k := Real.sqrt_pos.mpr hk
  have : ∀ t, 1 / (√(k * t + k * x) * √(k * t + k * y) * √(k * t + k * z)) =
      1 / (k * √k) * (1 / (√(t + x) * √(t + y) * √(t + z))) := by
    intro t
    rw [← mul_add, ← mul_add, ← mul_add, Real.sqrt_mul hk.le, Real.sqrt_mul hk.le, Real.sqrt_mul hk.le, one_div_mul_one_div]
    congr 1
    have : k = √k * √k := (Real.mul_self_sqrt hk.le).symm
    nth_rw 4 [this]
    ring
  simp only [this, MeasureTheory.integral_const_mul]
  field_simp

theorem RJ_scale (k x y z p : ℝ) (hk : 0 < k) : RJ (k * x) (k * y) (k * z) (k * p) = RJ x y z p / (k * √k) := by
  rw [RJ, RJ, integral_scale k hk]
  have hs : 0 < √k := Real.sqrt_pos.mpr hk
  have : ∀ t, 1 / (√(k * t + k * x) * √(k * t + k * y) * √(k * t + k * z) * (k * t + k * p)) =
      1 / (k * √k * k) * (1 / (√(t + x) * √(t + y) * √(t + z) * (t + p))) := by
    intro t
    rw [← mul_add, ← mul_add, ← mul_add, Real.sqrt_mul hk.le, Real.sqrt_mul hk.le, Real.sqrt_mul hk.le, one_div_mul_one_div,
      ← mul_add]
    congr 1
    have : k = √k * √k := (Real.mul_self_sqrt hk.le).symm
    nth_rw 5 [this]
    ring
  simp only [this, MeasureTheory.integral_const_mul]
  field_simp

theorem RD_eq_RJ (x y z : ℝ) : RD x y z = RJ x y z z := rfl

/-- `R_F ≥ 1/√M` when `M > 0` bounds the arguments. -/
theorem RF_lower {x y z M : ℝ} (h : Args x y z) (hx : x ≤ M) (hy : y ≤ M) (hz : z ≤ M) (hM : 0 < M) : 1 / √M ≤ RF x y z := by
  have h1 : RF M M M = 1 / √M := by
    have e := RF_scale M 1 1 1 hM
    rw [mul_one] at e
    rw [e]
    congr 1
    rw [RF]
    have e2 : ∀ t ∈ Ioi (0 : ℝ), 1 / (√(t + 1) * √(t + 1) * √(t + 1)) = 1 / √(t + 1) ^ (2 * 0 + 3) := by
      intro t _
      congr 1
      ring
    rw [setIntegral_congr_fun measurableSet_Ioi e2, integral_base]
    norm_num
  rw [← h1, RF, RF]
  have hM' : Args M M M := ⟨hM.le, hM.le, hM.le, by linarith, by linarith, by linarith⟩
  apply mul_le_mul_of_nonneg_left _ (by norm_num)
  apply setIntegral_mono_on hM'.integrable h.integrable measurableSet_Ioi
  intro t ht
  have ht : 0 < t := ht
  have := h.x0
  have := h.y0
  have := h.z0
  have p1 : 0 < √(t + x) := Real.sqrt_pos.mpr (by linarith)
  have p2 : 0 < √(t + y) := Real.sqrt_pos.mpr (by linarith)
  have p3 : 0 < √(t + z) := Real.sqrt_pos.mpr (by linarith)
  apply one_div_le_one_div_of_le (by positivity)
  gcongr

/-- `R_J ≥ M^{-3/2}` when `M > 0` bounds the arguments. -/
theorem RJ_lower {x y z p M : ℝ} (h : Args x y z) (hp : 0 < p) (hx : x ≤ M) (hy : y ≤ M) (hz : z ≤ M) (hpM : p ≤ M) :
    1 / (M * √M) ≤ RJ x y z p := by
  have hM : 0 < M := hp.trans_le hpM
  have h1 : RJ M M M M = 1 / (M * √M) := by
    have e := RJ_scale M 1 1 1 1 hM
    rw [mul_one] at e
    rw [e]
    congr 1
    rw [RJ]
    have e2 : ∀ t ∈ Ioi (0 : ℝ), 1 / (√(t + 1) * √(t + 1) * √(t + 1) * (t + 1)) = 1 / √(t + 1) ^ (2 * 1 + 3) := by
      intro t ht
      have ht : 0 < t := ht
      congr 1
      have : t + 1 = √(t + 1) * √(t + 1) := (Real.mul_self_sqrt (by linarith)).symm
      nth_rw 4 [this]
      ring
    rw [setIntegral_congr_fun measurableSet_Ioi e2, integral_base]
    norm_num
  rw [← h1, RJ, RJ]
  have hM' : Args M M M := ⟨hM.le, hM.le, hM.le, by linarith, by linarith, by linarith⟩
  apply mul_le_mul_of_nonneg_left _ (by norm_num)
  apply setIntegral_mono_on (RJ_integrable hM' hM) (RJ_integrable h hp) measurableSet_Ioi
  intro t ht
  have ht : 0 < t := ht
  have := h.x0
  have := h.y0
  have := h.z0
  have p1 : 0 < √(t + x) := Real.sqrt_pos.mpr (by linarith)
  have p2 : 0 < √(t + y) := Real.sqrt_pos.mpr (by linarith)
  have p3 : 0 < √(t + z) := Real.sqrt_pos.mpr (by linarith)
  apply one_div_le_one_div_of_le (by positivity)
  gcongr

end Verif.Carlson

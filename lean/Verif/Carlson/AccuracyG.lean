import Verif.Carlson.AccuracyDJ

/-! # Accuracy of `elliprg` (C82) -/

namespace Verif.Carlson

open MeasureTheory Set Filter Topology

theorem RD_swap12 (x y z : ℝ) : RD y x z = RD x y z := by
  rw [RD, RD]
  simp only [mul_comm √(_ + y) √(_ + x)]

theorem RG_swap12 (x y z : ℝ) : RG y x z = RG x y z := by
  rw [RG, RG]
  congr 2
  funext t
  rw [mul_comm √(t + y) √(t + x)]
  ring

theorem RG_swap13 (x y z : ℝ) : RG z y x = RG x y z := by
  rw [RG, RG]
  congr 2
  funext t
  rw [show √(t + z) * √(t + y) * √(t + x) = √(t + x) * √(t + y) * √(t + z) by ring]
  ring

/-- The integrand of `R_F` times `1 / (t + p)`. -/
theorem Args.integrable_inv {x y z : ℝ} (h : Args x y z) {p : ℝ} (hp : 0 < p) :
    IntegrableOn (fun t => 1 / (√(t + x) * √(t + y) * √(t + z)) * (1 / (t + p))) (Ioi 0) := by
  apply h.integrable_mul _ _ (1 / p)
  · intro t ht
    have ht : 0 < t := ht
    rw [abs_of_nonneg (by positivity)]
    exact one_div_le_one_div_of_le hp (by linarith)
  · intro t ht
    have ht : 0 < t := ht
    apply ContinuousAt.continuousWithinAt
    apply ContinuousAt.div continuousAt_const (by fun_prop)
    positivity

/-- The integrand of `R_F` times `t / (t + p)`. -/
theorem Args.integrable_ratio {x y z : ℝ} (h : Args x y z) {p : ℝ} (hp : 0 ≤ p) :
    IntegrableOn (fun t => 1 / (√(t + x) * √(t + y) * √(t + z)) * (t / (t + p))) (Ioi 0) := by
  apply h.integrable_mul _ _ 1
  · intro t ht
    have ht : 0 < t := ht
    rw [abs_of_nonneg (by positivity), div_le_one (by positivity)]
    linarith
  · intro t ht
    have ht : 0 < t := ht
    apply ContinuousAt.continuousWithinAt
    apply ContinuousAt.div continuousAt_id (by fun_prop)
    positivity

/-- `t √t ≤ S`. -/
theorem Args.cube_le {x y z : ℝ} (h : Args x y z) {t : ℝ} (ht : 0 < t) : t * √t ≤ √(t + x) * √(t + y) * √(t + z) := by
  obtain ⟨δ, hδ, hl⟩ := h.lower
  nlinarith [hl t ht, Real.sqrt_nonneg t]

theorem tendsto_const_div_sqrt (K : ℝ) : Tendsto (fun t : ℝ => K / √t) atTop (𝓝 0) :=
  Tendsto.const_div_atTop Real.tendsto_sqrt_atTop K

theorem RG_formula_aux {x y z : ℝ} (h : Args x y z) (hz : 0 < z) (hy : 0 < y) :
    2 * RG x y z = z * RF x y z - (x - z) * (y - z) * RD x y z / 3 + √x * √y / √z := by
  have hx0 := h.x0
  let S : ℝ → ℝ := fun t => √(t + x) * √(t + y) * √(t + z)
  let f : ℝ → ℝ := fun t => (t * (x + y) + x * y) / S t
  have i0 := h.integrable
  have i1 := h.integrable_inv hz
  have ix := h.integrable_ratio h.x0
  have iy := h.integrable_ratio h.y0
  have iz := h.integrable_ratio h.z0
  let f' : ℝ → ℝ := fun t => (z / 2) * (1 / S t) - (x - z) * (y - z) / 2 * (1 / S t * (1 / (t + z)))
    - (1 / 2) * (x * (1 / S t * (t / (t + x))) + y * (1 / S t * (t / (t + y))) + z * (1 / S t * (t / (t + z))))
  have hS : ∀ t, 0 < t → 0 < S t := fun t ht => by
    have h1 : 0 < t + x := by linarith
    simp only [S]
    positivity
  have hd : ∀ t ∈ Ioi (0 : ℝ), HasDerivAt f (f' t) t := by
    intro t ht
    have ht : 0 < t := ht
    have h1 : 0 < t + x := by linarith
    have h2 : 0 < t + y := by linarith
    have h3 : 0 < t + z := by linarith
    have da := hasDerivAt_sqrt_add x t h1
    have db := hasDerivAt_sqrt_add y t h2
    have dc := hasDerivAt_sqrt_add z t h3
    have ha : 0 < √(t + x) := Real.sqrt_pos.mpr h1
    have hb : 0 < √(t + y) := Real.sqrt_pos.mpr h2
    have hc : 0 < √(t + z) := Real.sqrt_pos.mpr h3
    have dn : HasDerivAt (fun t => t * (x + y) + x * y) (1 * (x + y)) t :=
      ((hasDerivAt_id t).mul_const (x + y)).add_const (x * y)
    have := dn.div ((da.mul db).mul dc) (hS t ht).ne'
    refine HasDerivAt.congr_deriv this ?_
    have ea : √(t + x) ^ 2 = t + x := Real.sq_sqrt h1.le
    have eb : √(t + y) ^ 2 = t + y := Real.sq_sqrt h2.le
    have ec : √(t + z) ^ 2 = t + z := Real.sq_sqrt h3.le
    simp only [f', S, Pi.mul_apply]
    have ex : x = √(t + x) ^ 2 - t := by linarith
    have ey : y = √(t + y) ^ 2 - t := by linarith
    have ez : z = √(t + z) ^ 2 - t := by linarith
    generalize √(t + x) = a at *
    generalize √(t + y) = b at *
    generalize √(t + z) = c at *
    rw [← ea, ← eb, ← ec, ex, ey, ez]
    field_simp
    ring
  have hi : IntegrableOn f' (Ioi 0) :=
    ((i0.const_mul _).sub (i1.const_mul _)).sub ((((ix.const_mul _).add (iy.const_mul _)).add (iz.const_mul _)).const_mul _)
  have hlim : Tendsto f atTop (𝓝 0) := by
    refine squeeze_zero' (g := fun t => (x + y + x * y) / √t) ?_ ?_ (tendsto_const_div_sqrt _)
    · filter_upwards [eventually_gt_atTop 0] with t ht
      have := hS t ht
      simp only [f]
      positivity
    · filter_upwards [eventually_ge_atTop 1] with t ht
      have ht0 : 0 < t := by linarith
      have hs := hS t ht0
      have hq : 0 < √t := Real.sqrt_pos.mpr ht0
      have hc : t * √t ≤ S t := h.cube_le ht0
      simp only [f]
      rw [div_le_div_iff₀ hs hq]
      have e : (t * (x + y) + x * y) ≤ t * (x + y + x * y) := by nlinarith [mul_nonneg hx0 hy.le]
      calc (t * (x + y) + x * y) * √t ≤ t * (x + y + x * y) * √t := by gcongr
        _ = (x + y + x * y) * (t * √t) := by ring
        _ ≤ _ := by gcongr
  have hcont : ContinuousWithinAt f (Ici 0) 0 := by
    rcases eq_or_lt_of_le hx0 with hx | hx
    · subst hx
      have hg : ContinuousWithinAt (fun t : ℝ => √t * y / (√(t + y) * √(t + z))) (Ici 0) 0 := by
        apply ContinuousAt.continuousWithinAt
        apply ContinuousAt.div (by fun_prop) (by fun_prop)
        have : 0 < √(0 + y) := Real.sqrt_pos.mpr (by linarith)
        have : 0 < √(0 + z) := Real.sqrt_pos.mpr (by linarith)
        positivity
      refine hg.congr ?_ ?_
      · intro t ht
        have ht : 0 ≤ t := ht
        simp only [f, S, add_zero, zero_add, zero_mul]
        rcases eq_or_lt_of_le ht with e | e
        · subst e; simp
        · have hq : 0 < √t := Real.sqrt_pos.mpr e
          have h2 : 0 < √(t + y) := Real.sqrt_pos.mpr (by linarith)
          have h3 : 0 < √(t + z) := Real.sqrt_pos.mpr (by linarith)
          rw [div_eq_div_iff (by positivity) (by positivity)]
          have := Real.mul_self_sqrt ht
          linear_combination (-y * √(t + y) * √(t + z)) * this
      · simp [f, S]
    · apply ContinuousAt.continuousWithinAt
      apply ContinuousAt.div (by fun_prop) (by simp only [S]; fun_prop)
      have : 0 < √(0 + x) := Real.sqrt_pos.mpr (by linarith)
      have : 0 < √(0 + y) := Real.sqrt_pos.mpr (by linarith)
      have : 0 < √(0 + z) := Real.sqrt_pos.mpr (by linarith)
      simp only [S]
      positivity
  have hint := integral_neg_deriv hcont hd hi hlim
  have j1 : IntegrableOn (fun t => x * (1 / S t * (t / (t + x)))) (Ioi 0) := ix.const_mul _
  have j2 : IntegrableOn (fun t => y * (1 / S t * (t / (t + y)))) (Ioi 0) := iy.const_mul _
  have j3 : IntegrableOn (fun t => z * (1 / S t * (t / (t + z)))) (Ioi 0) := iz.const_mul _
  have k0 : IntegrableOn (fun t => z / 2 * (1 / S t)) (Ioi 0) := i0.const_mul _
  have k1 : IntegrableOn (fun t => (x - z) * (y - z) / 2 * (1 / S t * (1 / (t + z)))) (Ioi 0) := i1.const_mul _
  have e0 : ∫ t in Ioi (0 : ℝ), f' t = z / 2 * (∫ t in Ioi (0 : ℝ), 1 / S t) -
      (x - z) * (y - z) / 2 * (∫ t in Ioi (0 : ℝ), 1 / S t * (1 / (t + z))) -
      1 / 2 * ∫ t in Ioi (0 : ℝ), (x * (1 / S t * (t / (t + x))) + y * (1 / S t * (t / (t + y))) + z * (1 / S t * (t / (t + z)))) := by
    rw [← MeasureTheory.integral_const_mul, ← MeasureTheory.integral_const_mul, ← MeasureTheory.integral_const_mul,
      ← integral_sub k0 k1]
    exact integral_sub (k0.sub k1) (((j1.add j2).add j3).const_mul _)
  have e1 : ∫ t in Ioi (0 : ℝ), (x * (1 / S t * (t / (t + x))) + y * (1 / S t * (t / (t + y))) + z * (1 / S t * (t / (t + z)))) =
      4 * RG x y z := by
    rw [RG, ← mul_assoc]
    norm_num
    congr 1
    funext t
    simp only [S]
    ring
  have e2 : ∫ t in Ioi (0 : ℝ), 1 / S t * (1 / (t + z)) = 2 / 3 * RD x y z := by
    rw [RD, ← mul_assoc]
    norm_num
    congr 1
    funext t
    simp only [S]
    ring
  have e3 : ∫ t in Ioi (0 : ℝ), 1 / S t = 2 * RF x y z := by
    rw [RF, ← mul_assoc]
    norm_num
    congr 1
    funext t
    simp only [S]
    ring
  have f0 : f 0 = √x * √y / √z := by
    have hsz : 0 < √z := Real.sqrt_pos.mpr hz
    have hsy : 0 < √y := Real.sqrt_pos.mpr hy
    simp only [f, S, zero_mul, zero_add]
    rcases eq_or_lt_of_le hx0 with hx | hx
    · subst hx; simp
    · have hsx : 0 < √x := Real.sqrt_pos.mpr hx
      rw [div_eq_div_iff (by positivity) (by positivity)]
      have ex := Real.mul_self_sqrt hx.le
      have ey := Real.mul_self_sqrt hy.le
      linear_combination (-√z) * (y * ex + √x * √x * ey)
  rw [e0, e1, e2, e3, f0] at hint
  linarith

/-- The formula of elliprg.h:26 (DLMF 19.21.10). -/
theorem RG_formula {x y z : ℝ} (h : Args x y z) (hz : 0 < z) :
    2 * RG x y z = z * RF x y z - (x - z) * (y - z) * RD x y z / 3 + √x * √y / √z := by
  rcases eq_or_lt_of_le h.y0 with hy | hy
  · have hx : 0 < x := by linarith [h.xy]
    have := RG_formula_aux h.symm12 hz hx
    rw [RG_swap12, RD_swap12, RF_swap12] at this
    linarith [mul_comm √x √y, show √y * √x / √z = √x * √y / √z by rw [mul_comm √x √y]]
  · exact RG_formula_aux h hz hy

theorem RF_nonneg (x y z : ℝ) : 0 ≤ RF x y z := by
  rw [RF]
  have : 0 ≤ ∫ t in Ioi (0 : ℝ), 1 / (√(t + x) * √(t + y) * √(t + z)) := setIntegral_nonneg measurableSet_Ioi fun t _ => by positivity
  linarith

theorem RD_nonneg (x y : ℝ) {z : ℝ} (hz : 0 ≤ z) : 0 ≤ RD x y z := by
  rw [RD]
  have : 0 ≤ ∫ t in Ioi (0 : ℝ), 1 / (√(t + x) * √(t + y) * √(t + z) * (t + z)) :=
    setIntegral_nonneg measurableSet_Ioi fun t ht => by
      have ht : 0 < t := ht
      positivity
  linarith

theorem notEqNeg {a b : ℝ} (ha : 0 ≤ a) : ¬areEqualNegative (a : ℂ) b := by
  rintro ⟨⟨-, h⟩, -⟩
  simp only [Complex.ofReal_re] at h
  linarith

theorem rgMain_accurate {eps : ℝ} (h0 : 0 < eps) (h1 : eps ≤ 1) {x y z : ℝ} (h : Args x y z) (hz : 0 < z) :
    ∃ v : ℝ, elliprgMain eps x y z = .val v ∧
      |v - RG x y z| ≤ EPS eps * (z * RF x y z + 2 / 3 * |(x - z) * (y - z)| * RD x y z) := by
  obtain ⟨f, hf, hfe⟩ := C32_elliprf h0 h1 h
  obtain ⟨d, hd, hde⟩ := C79_elliprd h0 h1 h hz
  have hg := RG_formula h hz
  refine ⟨(z * f - (x - z) * (y - z) * d / 3 + √x * √y / √z) / 2, ?_, ?_⟩
  · rw [elliprgMain, if_neg (by
      rintro (e | e | e)
      · exact notEqNeg h.x0 e
      · exact notEqNeg h.x0 e
      · exact notEqNeg h.y0 e), hf, hd]
    simp only [Out.bind, Out.map]
    rw [csqrt_ofReal h.x0, csqrt_ofReal h.y0, csqrt_ofReal h.z0]
    push_cast
    ring_nf
  · have e : (z * f - (x - z) * (y - z) * d / 3 + √x * √y / √z) / 2 - RG x y z =
        z / 2 * (f - RF x y z) + -((x - z) * (y - z) / 6) * (d - RD x y z) := by
      linear_combination (-1 / 2) * hg
    rw [e]
    refine (abs_add_le _ _).trans ?_
    rw [abs_mul, abs_mul, abs_neg, abs_of_pos (show 0 < z / 2 by linarith), abs_div, show |(6 : ℝ)| = 6 by norm_num]
    have p1 : z / 2 * |f - RF x y z| ≤ z / 2 * (2 * EPS eps * RF x y z) := by gcongr
    have p2 : |(x - z) * (y - z)| / 6 * |d - RD x y z| ≤ |(x - z) * (y - z)| / 6 * (4 * EPS eps * RD x y z) := by gcongr
    refine (add_le_add p1 p2).trans (le_of_eq ?_)
    ring

/-- C82: for real `x, y ≥ 0`, not both zero, and `z > 0`, `elliprg` returns `R_G(x, y, z)` up to
`EPS (z R_F + ⅔ |(x-z)(y-z)| R_D)`. -/
theorem C82_elliprg {eps : ℝ} (h0 : 0 < eps) (h1 : eps ≤ 1) {x y z : ℝ} (h : Args x y z) (hz : 0 < z) :
    ∃ v : ℝ, elliprg eps x y z = .val v ∧
      |v - RG x y z| ≤ EPS eps * (z * RF x y z + 2 / 3 * |(x - z) * (y - z)| * RD x y z) := by
  have hc := zeros_le_one h
  have hz' : (z : ℂ) ≠ 0 := by exact_mod_cast hz.ne'
  rw [elliprg, if_neg (by omega), if_neg (by omega), if_neg (by rintro ⟨-, e⟩; exact hz' e)]
  exact rgMain_accurate h0 h1 h hz

/-- C82: for `x, y > 0` the value at `(x, y, 0)` is that of `R_G`, up to `EPS (x R_F + ⅔ x |y-x| R_D(0, y, x))`. -/
theorem C82_elliprg_zero {eps : ℝ} (h0 : 0 < eps) (h1 : eps ≤ 1) {x y : ℝ} (hx : 0 < x) (hy : 0 < y) :
    ∃ v : ℝ, elliprg eps x y 0 = .val v ∧
      |v - RG x y 0| ≤ EPS eps * (x * RF x y 0 + 2 / 3 * (x * |y - x|) * RD 0 y x) := by
  have h : Args 0 y x := ⟨le_rfl, hy.le, hx.le, by linarith, by linarith, by linarith⟩
  have hx' : (x : ℂ) ≠ 0 := by exact_mod_cast hx.ne'
  have hy' : (y : ℂ) ≠ 0 := by exact_mod_cast hy.ne'
  have e : isZero (x : ℂ) + isZero (y : ℂ) + isZero (0 : ℂ) = 1 := by simp [isZero, hx', hy']
  rw [elliprg, e, if_neg (by omega), if_neg (by omega), if_pos ⟨rfl, rfl⟩]
  obtain ⟨v, hv, hb⟩ := rgMain_accurate h0 h1 h hx
  refine ⟨v, by simpa using hv, ?_⟩
  rw [RG_swap13 x y 0] at hb
  have eF : RF 0 y x = RF x y 0 := by rw [RF_swap12, RF_swap23, RF_swap12]
  have ea : |(0 - x) * (y - x)| = x * |y - x| := by rw [zero_sub, abs_mul, abs_neg, abs_of_pos hx]
  rw [eF, ea] at hb
  exact hb

/-- C82: the relative error is below `4 EPS = 4·10^-6 eps` when the third argument lies between the other two. -/
theorem C82_relative {eps : ℝ} (h0 : 0 < eps) (h1 : eps ≤ 1) {x y z : ℝ} (h : Args x y z) (hxz : x ≤ z) (hzy : z ≤ y) :
    (∃ v : ℝ, elliprg eps x y z = .val v ∧ |v - RG x y z| ≤ 4 * EPS eps * RG x y z) ∧
      ∃ v : ℝ, elliprg eps y x z = .val v ∧ |v - RG y x z| ≤ 4 * EPS eps * RG y x z := by
  have hz : 0 < z := by linarith [h.xz, h.z0]
  have hE : 0 < EPS eps := by unfold EPS; positivity
  have key : z * RF x y z + 2 / 3 * |(x - z) * (y - z)| * RD x y z ≤ 4 * RG x y z := by
    have hn : (x - z) * (y - z) ≤ 0 := mul_nonpos_of_nonpos_of_nonneg (by linarith) (by linarith)
    rw [abs_of_nonpos hn]
    have := RG_formula h hz
    have p1 := mul_nonneg hz.le (RF_nonneg x y z)
    have p3 : 0 ≤ √x * √y / √z := by positivity
    linarith
  constructor
  · obtain ⟨v, hv, hb⟩ := C82_elliprg h0 h1 h hz
    exact ⟨v, hv, hb.trans (by nlinarith)⟩
  · obtain ⟨v, hv, hb⟩ := C82_elliprg h0 h1 h.symm12 hz
    refine ⟨v, hv, hb.trans ?_⟩
    rw [RF_swap12, RD_swap12, RG_swap12, mul_comm (y - z)]
    nlinarith

/-- C82: two zeros, and three. The value is exact. -/
theorem C82_zeros (eps : ℝ) {x : ℝ} (hx : 0 ≤ x) :
    elliprg eps x 0 0 = .val (RG x 0 0 : ℝ) ∧ elliprg eps 0 x 0 = .val (RG 0 x 0 : ℝ) ∧
      elliprg eps 0 0 x = .val (RG 0 0 x : ℝ) := by
  have e1 : RG 0 x 0 = RG x 0 0 := RG_swap12 x 0 0
  have e2 : RG 0 0 x = RG x 0 0 := RG_swap13 x 0 0
  rcases eq_or_lt_of_le hx with h | h
  · subst h
    have : RG 0 0 0 = 0 := by simp [RG]
    simp [elliprg, isZero, this]
  · have hx' : (x : ℂ) ≠ 0 := by exact_mod_cast h.ne'
    have hg : RG x 0 0 = √x / 2 := by
      let f : ℝ → ℝ := fun t => -(2 * x) / √(t + x)
      have hd : ∀ t ∈ Ioi (0 : ℝ), HasDerivAt f (x / (√(t + x) * (t + x))) t := by
        intro t ht
        have ht : 0 < t := ht
        have h1 : 0 < t + x := by linarith
        have ha : 0 < √(t + x) := Real.sqrt_pos.mpr h1
        have := (hasDerivAt_const t (-(2 * x))).div (hasDerivAt_sqrt_add x t h1) ha.ne'
        refine HasDerivAt.congr_deriv this ?_
        have e : t + x = √(t + x) ^ 2 := (Real.sq_sqrt h1.le).symm
        rw [show x / (√(t + x) * (t + x)) = x / (√(t + x) * √(t + x) ^ 2) by rw [← e]]
        field_simp
        ring
      have hl : Tendsto f atTop (𝓝 0) :=
        Tendsto.const_div_atTop (Real.tendsto_sqrt_atTop.comp (tendsto_atTop_add_const_right _ x tendsto_id)) _
      have hc : ContinuousWithinAt f (Ici 0) 0 := by
        apply ContinuousAt.continuousWithinAt
        apply ContinuousAt.div continuousAt_const (by fun_prop)
        have : 0 < √(0 + x) := Real.sqrt_pos.mpr (by linarith)
        positivity
      have hpos : ∀ t ∈ Ioi (0 : ℝ), 0 ≤ x / (√(t + x) * (t + x)) := fun t ht => by
        have ht : 0 < t := ht
        positivity
      have hi := integral_Ioi_of_hasDerivAt_of_nonneg hc hd hpos hl
      have e : ∫ t in Ioi (0 : ℝ), t / (√(t + x) * √(t + 0) * √(t + 0)) * (x / (t + x) + 0 / (t + 0) + 0 / (t + 0)) =
          ∫ t in Ioi (0 : ℝ), x / (√(t + x) * (t + x)) := by
        apply setIntegral_congr_fun measurableSet_Ioi
        intro t ht
        have ht : 0 < t := ht
        have ha : 0 < √(t + x) := Real.sqrt_pos.mpr (by linarith)
        simp only [add_zero, zero_div]
        rw [mul_assoc, Real.mul_self_sqrt ht.le]
        field_simp
      rw [RG, e, hi]
      simp only [f, zero_add, zero_sub]
      have hs : 0 < √x := Real.sqrt_pos.mpr h
      have e : x = √x ^ 2 := (Real.sq_sqrt hx).symm
      rw [show -(2 * x) / √x = -(2 * √x ^ 2) / √x by rw [← e]]
      field_simp
      norm_num
    rw [e1, e2, hg]
    have hs := csqrt_ofReal hx
    simp [elliprg, isZero, hx', hs]

example : ∃ v : ℝ, elliprg (1 / 2 ^ 52) (0 : ℝ) (2 : ℝ) (1 : ℝ) = .val v ∧
    |v - RG 0 2 1| ≤ 4 * EPS (1 / 2 ^ 52) * RG 0 2 1 :=
  (C82_relative (by norm_num) (by norm_num)
    ⟨by norm_num, by norm_num, by norm_num, by norm_num, by norm_num, by norm_num⟩ (by norm_num) (by norm_num)).1

/-- `C82_elliprg`, `C82_elliprg_zero`. -/
example := C82_elliprg (eps := 1 / 2 ^ 52) (by norm_num) (by norm_num) (x := 0) (y := 2) (z := 3)
  ⟨by norm_num, by norm_num, by norm_num, by norm_num, by norm_num, by norm_num⟩ (by norm_num)
example := C82_elliprg_zero (eps := 1 / 2 ^ 52) (by norm_num) (by norm_num) (x := 1) (y := 2) (by norm_num) (by norm_num)

end Verif.Carlson

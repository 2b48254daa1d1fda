import Verif.Ellred.QuarticAbs

/-! # Conditions on the last root under which `R_C` and `R_J` are on the right branch, and when they are not -/

namespace Verif.Ellred

open MeasureTheory Set Filter Topology Verif.Carlson ComplexConjugate Bornology

theorem ev4 {a : ℝ} (ha : 0 < a) (p q s w x0 : ℝ) : ∃ X, x0 < X ∧ 1 ≤ X ∧ 0 < a * X ^ 4 + p * X ^ 3 + q * X ^ 2 + s * X + w := by
  obtain ⟨X, hX⟩ := exists_gt (max (max x0 1) ((|p| + |q| + |s| + |w|) / a))
  obtain ⟨h1, h2⟩ := max_lt_iff.mp hX
  obtain ⟨h3, h4⟩ := max_lt_iff.mp h1
  rw [div_lt_iff₀ ha] at h2
  refine ⟨X, h3, h4.le, ?_⟩
  have k1 : 1 ≤ X ^ 2 := one_le_pow₀ h4.le
  have k2 : 1 ≤ X ^ 3 := one_le_pow₀ h4.le
  have k3 : X ^ 2 ≤ X ^ 3 := pow_le_pow_right₀ h4.le (by norm_num)
  have k4 : X ≤ X ^ 3 := le_self_pow₀ h4.le (by norm_num)
  have e0 : (|p| + |q| + |s| + |w|) * X ^ 3 < a * X ^ 4 := by
    have := mul_lt_mul_of_pos_right h2 (by positivity : 0 < X ^ 3)
    nlinarith
  have e1 : -|p| * X ^ 3 ≤ p * X ^ 3 := mul_le_mul_of_nonneg_right (neg_abs_le p) (by positivity)
  have e2 : -|q| * X ^ 2 ≤ q * X ^ 2 := mul_le_mul_of_nonneg_right (neg_abs_le q) (by positivity)
  have e3 : -|s| * X ≤ s * X := mul_le_mul_of_nonneg_right (neg_abs_le s) (by positivity)
  have e4 := neg_abs_le w
  have f2 : |q| * X ^ 2 ≤ |q| * X ^ 3 := mul_le_mul_of_nonneg_left k3 (abs_nonneg _)
  have f3 : |s| * X ≤ |s| * X ^ 3 := mul_le_mul_of_nonneg_left k4 (abs_nonneg _)
  have f4 : |w| * 1 ≤ |w| * X ^ 3 := mul_le_mul_of_nonneg_left k2 (abs_nonneg _)
  nlinarith

namespace QuarticOK

variable {y x t α β : ℝ} {r1 r2 r3 r4 : ℂ} {b c d e : ℝ}
variable (h : QuarticOK y r1 r2 r3 r4 b c d e)
include h

/-- It is enough that `S` is past `√κ` somewhere further on. -/
theorem good_real_of (hyx : y < x) (hr : r1.im = 0) (hlam : ∀ t, y ≤ t → 0 < α + β * t) (hl : lam α β r1 ≠ 0)
    (hX : ∃ X, x < X ∧ (kap α β r1 r2 r3 r4).re < (S α β y r1 r2 r3 r4 X).re ^ 2) : Good α β y x r1 r2 r3 r4 := by
  obtain ⟨X, hx, hX⟩ := hX
  refine h.good_real hyx hr (fun t ht => hlam t ht.1) hl ?_
  obtain ⟨κ, hκ, hS⟩ := h.real_facts (x := X) hr (fun t ht => hlam t ht.1) hl
  obtain ⟨s, h1, h2, h3⟩ := hS X ⟨hyx.trans hx, le_rfl⟩
  obtain ⟨v, hv, e1⟩ := h.W2_add (α := α) (β := β) hyx hx.le
  have hlt := h.lt hr
  rw [e1, ← h3, Complex.add_re, Complex.ofReal_re, Complex.ofReal_re]
  rw [hκ, h2, Complex.ofReal_re, Complex.ofReal_re] at hX
  have l1 := hlam X (hyx.trans hx).le
  have l2 := hlam y le_rfl
  have q1 : 0 < X - r1.re := by linarith
  have q2 : 0 < y - r1.re := by linarith
  have q3 : 0 < s ^ 2 - κ := by linarith
  positivity

theorem S_real (hyx : y < x) (hr : r1.im = 0) : (S α β y r1 r2 r3 r4 x).re =
    (√(quartic b c d e x) / (x - r1.re) * (α + β * y) + √(quartic b c d e y) / (y - r1.re) * (α + β * x)) / (x - y) := by
  have er : (r1.re : ℂ) = r1 := CubicOK.re_eq hr
  rw [h.S_eq hyx, ← er, ← Complex.ofReal_sub, ← Complex.ofReal_sub, ← Complex.ofReal_div, ← Complex.ofReal_div, ← Complex.ofReal_mul, ← Complex.ofReal_mul,
    ← Complex.ofReal_add, ← Complex.ofReal_div, Complex.ofReal_re, Complex.ofReal_re]

/-- The lookback time, real root. -/
theorem look_real (hy : -1 < y) (hyx : y < x) (hr : r1.im = 0) (hl : r1 ≠ -1) (hk : 1 - b + c - d + e ≤ ((1 + r1.re) * (1 + y)) ^ 2) :
    Good 1 1 y x r1 r2 r3 r4 := by
  have er : (r1.re : ℂ) = r1 := CubicOK.re_eq hr
  have hl' : lam 1 1 r1 ≠ 0 := fun e0 => hl (by rw [lam] at e0; push_cast at e0; linear_combination e0)
  refine h.good_real_of hyx hr (fun t ht => by linarith) hl' ?_
  have hlt := h.lt hr
  have hn : 1 + r1.re ≠ 0 := fun e0 => hl (by rw [← er, show r1.re = -1 by linarith]; simp)
  have hκ : (kap 1 1 r1 r2 r3 r4).re ≤ (1 + y) ^ 2 := by
    rw [h.kap_eq hl', ← er, lam_ofReal, ← Complex.ofReal_pow, ← Complex.ofReal_div, Complex.ofReal_re, div_le_iff₀ (by
      have : 0 < (1 + r1.re) ^ 2 := by positivity
      simpa using this)]
    nlinarith
  set γ := √(quartic b c d e y) / (y - r1.re) with hγ
  have hγ0 : 0 < γ := div_pos (h.s_pos le_rfl) (by linarith)
  have hy1 : 0 < 1 + y := by linarith
  set δ := min (γ / (1 + y)) 1 with hδ
  have hδ0 : 0 < δ := lt_min (by positivity) one_pos
  have hδ1 : δ ≤ 1 := min_le_right _ _
  have hδ2 : δ * (1 + y) ≤ γ := (le_div_iff₀ hy1).mp (min_le_left _ _)
  have ha : 0 < 1 - (1 - δ) ^ 2 := by nlinarith
  set ρ := r1.re with hρ
  obtain ⟨X, h1, h2, h3⟩ := ev4 ha (b - 2 * (1 - δ) * (-y - δ - (1 - δ) * ρ)) (c - (2 * (1 - δ) * (-ρ * (-y - δ)) + (-y - δ - (1 - δ) * ρ) ^ 2))
    (d - 2 * (-y - δ - (1 - δ) * ρ) * (-ρ * (-y - δ))) (e - (-ρ * (-y - δ)) ^ 2) x
  refine ⟨X, h1, hκ.trans_lt ?_⟩
  have h4 : ((X - ρ) * ((1 - δ) * X - y - δ)) ^ 2 < quartic b c d e X := by
    rw [quartic]
    nlinarith
  have h5 := Real.lt_sqrt_of_sq_lt h4
  have q1 : 0 < X - ρ := by linarith
  have q2 : 0 < X - y := by linarith
  rw [mul_comm, ← lt_div_iff₀ q1] at h5
  have h6 : 1 + y < (S 1 1 y r1 r2 r3 r4 X).re := by
    rw [h.S_real (hyx.trans h1) hr, lt_div_iff₀ q2, ← hγ, ← hρ]
    have k1 := mul_lt_mul_of_pos_right h5 hy1
    have k2 : δ * (1 + y) * (1 + X) ≤ γ * (1 + X) := mul_le_mul_of_nonneg_right hδ2 (by linarith)
    nlinarith
  exact pow_lt_pow_left₀ h6 hy1.le (by norm_num)

/-- The absorption distance, real root. -/
theorem abs_real (hyx : y < x) (hr : r1.im = 0) (hk : -r1.re ≤ b / 2 + y) : Good 1 0 y x r1 r2 r3 r4 := by
  refine h.good_real_of hyx hr (fun t ht => by norm_num) (by simp [lam]) ?_
  have hlt := h.lt hr
  have hκ : kap 1 0 r1 r2 r3 r4 = 1 := by simp [kap, lam]
  set γ := √(quartic b c d e y) / (y - r1.re) with hγ
  have hγ0 : 0 < γ := div_pos (h.s_pos le_rfl) (by linarith)
  set ρ := r1.re with hρ
  have ha : 0 < b + 2 * (ρ + y + γ) := by linarith
  obtain ⟨X, h1, h2, h3⟩ := ev4 ha (c - (2 * (ρ * (y + γ)) + (ρ + y + γ) ^ 2)) (d + 2 * (ρ + y + γ) * (ρ * (y + γ))) (e - (ρ * (y + γ)) ^ 2) 0 x
  refine ⟨X, h1, ?_⟩
  have h4 : ((X - ρ) * (X - y - γ)) ^ 2 < quartic b c d e X := by
    rw [quartic]
    have : 0 < X := by linarith
    have : 0 < (b + 2 * (ρ + y + γ)) * X ^ 3 + (c - (2 * (ρ * (y + γ)) + (ρ + y + γ) ^ 2)) * X ^ 2 +
      (d + 2 * (ρ + y + γ) * (ρ * (y + γ))) * X + (e - (ρ * (y + γ)) ^ 2) := by
      refine (mul_pos_iff_of_pos_left this).mp (lt_of_lt_of_eq h3 ?_)
      ring
    nlinarith
  have h5 := Real.lt_sqrt_of_sq_lt h4
  have q1 : 0 < X - ρ := by linarith
  have q2 : 0 < X - y := by linarith
  rw [mul_comm, ← lt_div_iff₀ q1] at h5
  have h6 : 1 < (S 1 0 y r1 r2 r3 r4 X).re := by
    rw [h.S_real (hyx.trans h1) hr, lt_div_iff₀ q2, ← hγ, ← hρ]
    linarith
  rw [hκ, Complex.one_re]
  exact one_lt_pow₀ h6 (by norm_num)

/-- The lookback time, complex root on the left. -/
theorem look_cpx (hy : -1 < y) (hyx : y < x) (hr : r1.im ≠ 0) (hre : r1.re ≤ y) (hk : 0 ≤ (1 - b + c - d + e) * (1 + r1.re)) :
    Good 1 1 y x r1 r2 r3 r4 := by
  have hl : lam 1 1 r1 ≠ 0 := fun e0 => hr (by
    have := congrArg Complex.im e0
    simpa [lam] using this)
  refine h.good_cpx hyx hr hre (fun t ht => by linarith [ht.1]) ?_
  have e1 : ((kap 1 1 r1 r2 r3 r4).im * r1.im) =
      -(2 * r1.im ^ 2 * ((1 - b + c - d + e) * (1 + r1.re)) * (Complex.normSq (lam 1 1 r1 ^ 2))⁻¹) := by
    rw [h.kap_eq hl, div_eq_mul_inv, Complex.im_ofReal_mul, Complex.inv_im, div_eq_mul_inv]
    simp [lam, sq]
    ring
  have : 0 ≤ (Complex.normSq (lam 1 1 r1 ^ 2))⁻¹ := inv_nonneg.mpr (Complex.normSq_nonneg _)
  rw [e1, neg_nonpos]
  positivity

/-- The absorption distance, complex root on the left. -/
theorem abs_cpx (hyx : y < x) (hr : r1.im ≠ 0) (hre : r1.re ≤ y) : Good 1 0 y x r1 r2 r3 r4 :=
  h.good_cpx hyx hr hre (fun t ht => by norm_num) (by simp [kap, lam])

/-- The absorption distance, complex root on the right: the wrong branch. -/
theorem abs_bad (hyx : y < x) (hr : r1.im ≠ 0) (hre : x ≤ r1.re) : Bad 1 0 y x r1 r2 r3 r4 :=
  h.bad_cpx hyx hr hre (fun t ht => by norm_num) (by simp [kap, lam])

/-- The lookback time, complex root on the right: the wrong branch near the lower limit. -/
theorem look_bad (hy : -1 < y) (hr : r1.im ≠ 0) (hre : y < r1.re) : ∀ᶠ x in 𝓝[>] y, Bad 1 1 y x r1 r2 r3 r4 := by
  set N := (Complex.normSq ((y : ℂ) - r1))⁻¹ with hN
  have hn : ∀ t : ℝ, 0 < (Complex.normSq (t - r1))⁻¹ := fun t => by
    refine inv_pos.mpr (Complex.normSq_pos.mpr fun e0 => hr ?_)
    have := congrArg Complex.im e0
    simpa using this
  have hN0 : 0 < N := hn y
  set s0 := √(quartic b c d e y) with hs0
  have hs : 0 < s0 := h.s_pos le_rfl
  have hy1 : 0 < 1 + y := by linarith
  set A := s0 * ((r1.re - y) * N) * (1 + y) with hA
  set B := s0 * (r1.im ^ 2 * N) * (1 + y) with hB
  have hA0 : 0 < A := by
    have := sub_pos.mpr hre
    positivity
  have hB0 : 0 < B := by positivity
  set κ := kap 1 1 r1 r2 r3 r4 with hκ
  have hlim : Tendsto (fun x : ℝ => (x - y) ^ 2 * (‖κ‖ * |r1.im|)) (𝓝[>] y) (𝓝 ((y - y) ^ 2 * (‖κ‖ * |r1.im|))) :=
    (Continuous.tendsto (by fun_prop) y).mono_left nhdsWithin_le_nhds
  rw [sub_self, zero_pow (by norm_num), zero_mul] at hlim
  filter_upwards [hlim.eventually_lt_const (show 0 < 2 * A * B by positivity), self_mem_nhdsWithin,
    (tendsto_id.mono_left nhdsWithin_le_nhds).eventually_lt_const hre] with x h1 (h2 : y < x) h3
  simp only [id] at h3
  have key : ∀ t ∈ Ioc y x, (S 1 1 y r1 r2 r3 r4 t).re < 0 ∧ ∀ σ : ℝ, ∀ θ ∈ Icc (0 : ℝ) 1, S 1 1 y r1 r2 r3 r4 t ^ 2 + σ ≠ θ * κ := by
    intro t ht
    obtain ⟨e1, e2⟩ := h.S_re_im (α := 1) (β := 1) ht.1
    have p1 := h.s_pos (t := t) ht.1.le
    have n1 := hn t
    have ht0 := sub_pos.mpr ht.1
    have k1 : (S 1 1 y r1 r2 r3 r4 t).re * (t - y) ≤ -A := by
      rw [e1, div_mul_cancel₀ _ ht0.ne', hA]
      have : 0 ≤ √(quartic b c d e t) * ((r1.re - t) * (Complex.normSq (t - r1))⁻¹) * (1 + 1 * y) := by
        have := sub_nonneg.mpr (ht.2.trans h3.le)
        have : 0 < 1 + 1 * y := by linarith
        positivity
      have : 0 ≤ s0 * ((r1.re - y) * N) * (t - y) := by
        have := sub_pos.mpr hre
        positivity
      nlinarith
    have k2 : B ≤ (S 1 1 y r1 r2 r3 r4 t).im * r1.im * (t - y) := by
      rw [e2, mul_right_comm, div_mul_cancel₀ _ ht0.ne', hB]
      have : 0 ≤ √(quartic b c d e t) * (r1.im ^ 2 * (Complex.normSq (t - r1))⁻¹) * (1 + 1 * y) := by
        have : 0 < 1 + 1 * y := by linarith
        positivity
      have : 0 ≤ s0 * (r1.im ^ 2 * N) * (t - y) := by positivity
      nlinarith
    refine ⟨?_, fun σ θ hθ e0 => ?_⟩
    · by_contra hn
      have := mul_nonneg (not_lt.mp hn) ht0.le
      linarith
    · have e3 := congrArg Complex.im e0
      rw [Complex.add_im, Complex.ofReal_im, add_zero, sq, Complex.mul_im, Complex.im_ofReal_mul] at e3
      have k3 : A * B ≤ -((S 1 1 y r1 r2 r3 r4 t).re * (t - y)) * ((S 1 1 y r1 r2 r3 r4 t).im * r1.im * (t - y)) :=
        mul_le_mul (by linarith) k2 hB0.le (by linarith)
      have k4 : 2 * (A * B) ≤ (t - y) ^ 2 * (-(θ * κ.im * r1.im)) := by
        rw [← e3]
        nlinarith
      have k5 : -(θ * κ.im * r1.im) ≤ ‖κ‖ * |r1.im| := by
        calc -(θ * κ.im * r1.im) ≤ |θ * κ.im * r1.im| := neg_le_abs _
          _ = θ * (|κ.im| * |r1.im|) := by rw [abs_mul, abs_mul, abs_of_nonneg hθ.1, mul_assoc]
          _ ≤ 1 * (‖κ‖ * |r1.im|) := by
            gcongr
            · exact hθ.2
            · exact Complex.abs_im_le_norm κ
          _ = _ := one_mul _
      have k6 : (t - y) ^ 2 ≤ (x - y) ^ 2 := pow_le_pow_left₀ ht0.le (by linarith [ht.2]) 2
      have k7 : (t - y) ^ 2 * (-(θ * κ.im * r1.im)) ≤ (x - y) ^ 2 * (‖κ‖ * |r1.im|) :=
        (mul_le_mul_of_nonneg_left k5 (sq_nonneg _)).trans (mul_le_mul_of_nonneg_right k6 (by positivity))
      linarith
  exact ⟨fun t ht θ hθ e0 => (key t ht).2 0 θ hθ (by simpa using e0), (key x ⟨h2, le_rfl⟩).1, fun σ _ θ hθ => (key x ⟨h2, le_rfl⟩).2 σ θ hθ⟩

/-- There the formula falls short of the integral. -/
theorem look_wrong (hy : -1 < y) (hr : r1.im ≠ 0) (hre : y < r1.re) : ∀ᶠ x in 𝓝[>] y,
    let u := params4 r1 r2 r3 r4 y x
    let k : ℂ := ((x - y : ℝ) : ℂ)
    let p := u.1 - (r3 - r1) * (r4 - r1) * (r2 + 1) / (r1 + 1) * k ^ 2
    (2 * k * ((RFc u.1 u.2.1 u.2.2 + k ^ 2 / 3 * (r2 - r1) * (r3 - r1) * (r4 - r1) / (r1 + 1) * RJc u.1 u.2.1 u.2.2 p -
      RCc ((Xr r2 y * Xr r3 y * Xr r4 y / Xr r1 y * (x + 1) + Xr r2 x * Xr r3 x * Xr r4 x / Xr r1 x * (y + 1)) ^ 2)
        ((x + 1) * (y + 1) / Xr r1 y ^ 2 / Xr r1 x ^ 2 * p)) / (r1 + 1))).re < ∫ t in Ioc y x, 1 / ((1 + t) * √(quartic b c d e t)) := by
  have hl : r1 + 1 ≠ 0 := fun e0 => hr (by
    have := congrArg Complex.im e0
    simpa using this)
  obtain ⟨G, hG⟩ := exists_prim (kap 1 1 r1 r2 r3 r4)
  have e1 : lam 1 1 r1 = r1 + 1 := by simp [lam]; ring
  have hs : 0 < √(quartic b c d e y) := h.s_pos le_rfl
  have hy1 : 0 < 1 + y := by linarith
  have n0 : (y : ℂ) - r1 ≠ 0 := fun e0 => hr (by
    have := congrArg Complex.im e0
    simpa using this)
  -- the sign of the difference
  have hlim : Tendsto (fun x : ℝ => ((S 1 1 y r1 r2 r3 r4 x * G (S 1 1 y r1 r2 r3 r4 x)) / M 1 1 y r1 r2 r3 r4 x / (r1 + 1)).re) (𝓝[>] y)
      (𝓝 ((-1) / M 1 1 y r1 r2 r3 r4 y / (r1 + 1)).re) := by
    refine (Complex.continuous_re.tendsto _).comp ?_
    have hly : lam 1 1 (y : ℝ) ≠ 0 := by rw [lam_ofReal, one_mul]; exact_mod_cast hy1.ne'
    exact ((hG.asymp.comp (h.S_tendsto hly)).div ((h.M_cont le_rfl).tendsto.mono_left nhdsWithin_le_nhds) (h.M_ne hly)).div_const _
  have hpos : 0 < ((-1) / M 1 1 y r1 r2 r3 r4 y / (r1 + 1)).re := by
    have e2 : (-1) / M 1 1 y r1 r2 r3 r4 y / (r1 + 1) = ((1 / (2 * √(quartic b c d e y) * (1 + y)) : ℝ) : ℂ) * (1 - ((1 + y : ℝ) : ℂ) * (r1 + 1)⁻¹) := by
      rw [M, h.g_eq le_rfl, lam_ofReal, one_mul]
      have k1 : ((√(quartic b c d e y) : ℝ) : ℂ) ≠ 0 := by exact_mod_cast hs.ne'
      have k2 : (1 : ℂ) + y ≠ 0 := by exact_mod_cast hy1.ne'
      push_cast
      field_simp
      ring
    have hw : 1 + y < (r1 + 1).re := by rw [Complex.add_re, Complex.one_re]; linarith
    have hN : 0 < Complex.normSq (r1 + 1) := Complex.normSq_pos.mpr hl
    rw [e2, Complex.re_ofReal_mul, Complex.sub_re, Complex.one_re, Complex.re_ofReal_mul, Complex.inv_re]
    refine mul_pos (by positivity) (sub_pos.mpr ?_)
    rw [← mul_div_assoc, div_lt_one hN, Complex.normSq_apply]
    nlinarith [mul_self_nonneg (r1 + 1).im]
  filter_upwards [h.look_bad hy hr hre, hlim.eventually_const_lt hpos, self_mem_nhdsWithin] with x hb hx (hlt : y < x)
  intro u k p
  have h1 := h.rf_eq hlt
  have h2 := h.third_bad (α := 1) (β := 1) hlt (by rwa [e1]) (fun t ht => by linarith [ht.1]) hb hG
  simp only at h1 h2
  have hp : p = k ^ 2 * W2 1 1 y r1 r2 r3 r4 x := by
    simp only [p, u, params4_eq hlt, W2, k, e1]
    rw [show lam 1 1 r2 = r2 + 1 by simp [lam]; ring]
    ring
  have eM : M 1 1 y r1 r2 r3 r4 x = Xr r2 y * Xr r3 y * Xr r4 y / Xr r1 y * (x + 1) + Xr r2 x * Xr r3 x * Xr r4 x / Xr r1 x * (y + 1) := by
    simp only [M, lam]; push_cast; ring
  have e3 : lam 1 1 x * lam 1 1 y * p / (Xr r1 x ^ 2 * Xr r1 y ^ 2) = (x + 1) * (y + 1) / Xr r1 y ^ 2 / Xr r1 x ^ 2 * p := by
    simp only [lam]
    push_cast
    have n1 := (h.X_ne hlt.le).1
    have m1 := (h.X_ne le_rfl).1
    field_simp
    ring
  have h0 := h.look_split hy hlt hl
  rw [h2.2, ← h1, cJ, e1] at h0
  have h3 := h2.1
  rw [← hp] at h0 h3
  rw [eM, e3] at h3
  rw [show ∫ t in Ioc y x, 1 / ((1 + t) * √(quartic b c d e t)) = (((∫ t in Ioc y x, 1 / ((1 + t) * √(quartic b c d e t)) : ℝ) : ℂ)).re from rfl, h0,
    ← sub_pos, ← Complex.sub_re]
  have hM : M 1 1 y r1 r2 r3 r4 x = k * S 1 1 y r1 r2 r3 r4 x := by
    have : (x : ℂ) - y ≠ 0 := sub_ne_zero.mpr (by exact_mod_cast hlt.ne')
    rw [S]; simp only [k]; push_cast; field_simp
  have hS : S 1 1 y r1 r2 r3 r4 x ≠ 0 := (hb.off x ⟨hlt, le_rfl⟩).ne
  have hk : k ≠ 0 := Complex.ofReal_ne_zero.mpr (sub_pos.mpr hlt).ne'
  rw [hM] at hx
  have e4 : S 1 1 y r1 r2 r3 r4 x * G (S 1 1 y r1 r2 r3 r4 x) / (k * S 1 1 y r1 r2 r3 r4 x) / (r1 + 1) = ((1 / (4 * (x - y)) : ℝ) : ℂ) *
      (4 * G (S 1 1 y r1 r2 r3 r4 x) / (r1 + 1)) := by
    simp only [k] at hk ⊢
    push_cast at hk ⊢
    field_simp
  rw [e4, Complex.re_ofReal_mul] at hx
  have hx := (mul_pos_iff_of_pos_left (by have := sub_pos.mpr hlt; positivity)).mp hx
  refine lt_of_lt_of_eq hx (congrArg Complex.re ?_)
  linear_combination (-2) / (r1 + 1) * h3

omit h in
theorem prim_one : ∃ G, Prim 1 G ∧ ∀ v : ℂ, v.re < 0 → v ≠ -1 → 0 < (G v).re := by
  obtain ⟨G, hG, hl⟩ := exists_prim_log 1
  have h1 : csqrt 1 = 1 := by
    have := csqrt_ofReal (x := 1) zero_le_one
    simpa using this
  refine ⟨G, hG, fun v hv hn => ?_⟩
  have hp : v + 1 ≠ 0 := fun e0 => hn (by linear_combination e0)
  have hm : v - 1 ≠ 0 := fun e0 => by
    rw [show v = 1 by linear_combination e0] at hv
    norm_num at hv
  rw [hl one_ne_zero, h1, show (1 : ℂ) / (2 * 1) = ((1 / 2 : ℝ) : ℂ) by push_cast; ring, Complex.re_ofReal_mul, Complex.log_re, norm_div]
  refine mul_pos (by norm_num) (Real.log_pos ?_)
  rw [one_lt_div (norm_pos_iff.mpr hp), ← sq_lt_sq₀ (norm_nonneg _) (norm_nonneg _), ← Complex.normSq_eq_norm_sq, ← Complex.normSq_eq_norm_sq,
    Complex.normSq_apply, Complex.normSq_apply]
  simp only [Complex.add_re, Complex.sub_re, Complex.add_im, Complex.sub_im, Complex.one_re, Complex.one_im, add_zero, sub_zero]
  nlinarith

/-- A complex root on the right: the formula falls short of the third integral. -/
theorem abs_wrong (hlt : y < x) (hr : r1.im ≠ 0) (hre : x ≤ r1.re) (hb : 4 < b) : let u := params4 r1 r2 r3 r4 y x
    let dz : ℂ := ((x - y : ℝ) : ℂ)
    let p := u.1 - dz ^ 2 * (r3 - r1) * (r4 - r1)
    let q := p / (y - r1) / (x - r1)
    (dz * ((Xr r1 x * Xr r2 x * Xr r3 x / Xr r4 x - Xr r1 y * Xr r2 y * Xr r3 y / Xr r4 y) / dz +
      (2 * (r1 + 1) ^ 2 - (r2 - r1) * (r3 - r1)) * RFc u.1 u.2.1 u.2.2 +
      (r4 - r2) * (r4 - r3) * (dz ^ 2 / 3 * (r2 - r1) * (r3 - r1) * RDc u.1 u.2.1 u.2.2 +
        Xr r1 x * Xr r1 y / Xr r4 x / Xr r4 y / csqrt u.2.2) +
      (r1 + r2 + r3 + r4 + 4) * (RCc (q + dz ^ 2) q - dz ^ 2 / 3 * (r2 - r1) * (r3 - r1) * (r4 - r1) * RJc u.1 u.2.1 u.2.2 p))).re <
        ∫ t in Ioc y x, (1 + t) ^ 2 / √(quartic b c d e t) := by
  intro u dz p q
  have hB := h.abs_bad hlt hr hre
  obtain ⟨G, hG, hGp⟩ := prim_one
  have hκ : kap 1 0 r1 r2 r3 r4 = 1 := by simp [kap, lam]
  have h1 := h.rf_eq hlt
  have h2 := h.frac_eq hlt
  have h3 := h.third_bad (α := 1) (β := 0) hlt (by simp [lam]) (fun t ht => by norm_num) hB (by rwa [hκ])
  have hdz : dz ≠ 0 := Complex.ofReal_ne_zero.mpr (sub_pos.mpr hlt).ne'
  have hk : (x : ℂ) - y ≠ 0 := sub_ne_zero.mpr (by exact_mod_cast hlt.ne')
  have n1 := (h.X_ne hlt.le).1
  have m1 := (h.X_ne le_rfl).1
  have hS := hGp _ hB.re fun e0 => hB.off x ⟨hlt, le_rfl⟩ 1 ⟨zero_le_one, le_rfl⟩ (by rw [e0, hκ]; norm_num)
  simp only at h1 h2 h3
  rw [h.W2_one hlt] at h3
  have hq : lam 1 0 x * lam 1 0 y * p / (Xr r1 x ^ 2 * Xr r1 y ^ 2) = q := by
    simp only [q, lam, Xr_sq]
    rw [div_div]
    push_cast
    ring
  have hM : M 1 0 y r1 r2 r3 r4 x ^ 2 = q + dz ^ 2 := by
    have hs := h.S_sq (α := 1) (β := 0) (by simp [lam]) hlt
    rw [hκ, S, div_pow, sub_eq_iff_eq_add, div_eq_iff (pow_ne_zero 2 hk)] at hs
    rw [hs, ← hq, show p = dz ^ 2 * W2 1 0 y r1 r2 r3 r4 x from (h.W2_one hlt).symm]
    simp only [dz]
    push_cast
    ring
  rw [show (params4 r1 r2 r3 r4 y x).1 - ((x - y : ℝ) : ℂ) ^ 2 * (r3 - r1) * (r4 - r1) = p from rfl, hq, hM,
    show cJ 1 0 r1 r2 r3 r4 = (r2 - r1) * (r3 - r1) * (r4 - r1) by simp [cJ, lam]] at h3
  have hv : r1 + r2 + r3 + r4 + 4 = ((4 - b : ℝ) : ℂ) := by
    have e0 := h.vieta 0
    have e1 := h.vieta 1
    have e2 := h.vieta (-1)
    have e3 := h.vieta 2
    push_cast
    linear_combination (-1 / 6) * (e3 - 3 * e1 + 3 * e0 - e2)
  rw [show ∫ t in Ioc y x, (1 + t) ^ 2 / √(quartic b c d e t) = (((∫ t in Ioc y x, (1 + t) ^ 2 / √(quartic b c d e t) : ℝ) : ℂ)).re from rfl,
    h.abs_split hlt, h2, h3.2, ← h1, ← sub_pos, ← Complex.sub_re]
  have hx : 0 < (((2 * (b - 4) : ℝ) : ℂ) * G (S 1 0 y r1 r2 r3 r4 x)).re := by
    rw [Complex.re_ofReal_mul]
    exact mul_pos (by linarith) hS
  refine lt_of_lt_of_eq hx (congrArg Complex.re ?_)
  have h4 := h3.1
  simp only [u, dz] at hdz h4 ⊢
  rw [show (((2 * (b - 4) : ℝ) : ℂ)) = -2 * (r1 + r2 + r3 + r4 + 4) by rw [hv]; push_cast; ring]
  generalize RCc (q + ((x - y : ℝ) : ℂ) ^ 2) q = R at h4 ⊢
  generalize RJc _ _ _ p = J
  field_simp
  linear_combination (3 * (r1 + r2 + r3 + r4 + 4)) * h4

end QuarticOK

end Verif.Ellred

import Verif.Ellred.Third

/-! # When `R_C` is on the right branch, and the lookback integral of a quartic -/

namespace Verif.Ellred

open MeasureTheory Set Filter Topology Verif.Carlson ComplexConjugate Bornology

namespace QuarticOK

variable {y x t α β : ℝ} {r1 r2 r3 r4 : ℂ} {b c d e : ℝ}

/-- The path of `S` and the path of the square roots in `R_C` agree. -/
structure Good (α β y x : ℝ) (r1 r2 r3 r4 : ℂ) : Prop where
  off : ∀ t ∈ Ioc y x, Off (kap α β r1 r2 r3 r4) (S α β y r1 r2 r3 r4 t)
  re : 0 < (S α β y r1 r2 r3 r4 x).re
  add : ∀ σ : ℝ, 0 ≤ σ → ∀ θ ∈ Icc (0 : ℝ) 1, S α β y r1 r2 r3 r4 x ^ 2 + σ ≠ θ * kap α β r1 r2 r3 r4

/-- The same with the other sign of the square root. -/
structure Bad (α β y x : ℝ) (r1 r2 r3 r4 : ℂ) : Prop where
  off : ∀ t ∈ Ioc y x, Off (kap α β r1 r2 r3 r4) (S α β y r1 r2 r3 r4 t)
  re : (S α β y r1 r2 r3 r4 x).re < 0
  add : ∀ σ : ℝ, 0 ≤ σ → ∀ θ ∈ Icc (0 : ℝ) 1, S α β y r1 r2 r3 r4 x ^ 2 + σ ≠ θ * kap α β r1 r2 r3 r4

theorem lam_prod (h : QuarticOK y r1 r2 r3 r4 b c d e) : lam α β r1 * lam α β r2 * lam α β r3 * lam α β r4 =
    ((α ^ 4 - b * α ^ 3 * β + c * α ^ 2 * β ^ 2 - d * α * β ^ 3 + e * β ^ 4 : ℝ) : ℂ) := by
  have e0 := h.vieta 0
  have e1 := h.vieta 1
  have e2 := h.vieta (-1)
  have e3 := h.vieta 2
  have v1 : r1 + r2 + r3 + r4 = -b := by linear_combination (-1 / 6) * (e3 - 3 * e1 + 3 * e0 - e2)
  have v2 : r1 * r2 + r1 * r3 + r1 * r4 + r2 * r3 + r2 * r4 + r3 * r4 = c := by
    linear_combination (1 / 2) * e1 + (1 / 2) * e2 - e0
  have v3 : r1 * r2 * r3 + r1 * r2 * r4 + r1 * r3 * r4 + r2 * r3 * r4 = -d := by
    linear_combination (-1 / 2) * e1 + (1 / 2) * e2 - v1
  have v4 : r1 * r2 * r3 * r4 = e := by linear_combination e0
  simp only [lam]
  push_cast
  linear_combination α ^ 3 * β * v1 + α ^ 2 * β ^ 2 * v2 + α * β ^ 3 * v3 + β ^ 4 * v4

theorem kap_eq (h : QuarticOK y r1 r2 r3 r4 b c d e) (hl : lam α β r1 ≠ 0) : kap α β r1 r2 r3 r4 =
    ((α ^ 4 - b * α ^ 3 * β + c * α ^ 2 * β ^ 2 - d * α * β ^ 3 + e * β ^ 4 : ℝ) : ℂ) / lam α β r1 ^ 2 := by
  rw [← h.lam_prod, kap]
  field_simp

theorem lam_ofReal (α β t : ℝ) : lam α β (t : ℝ) = ((α + β * t : ℝ) : ℂ) := by rw [lam]; push_cast; ring

variable (h : QuarticOK y r1 r2 r3 r4 b c d e)
include h

theorem g_eq (ht : y ≤ t) : Xr r2 t * Xr r3 t * Xr r4 t / Xr r1 t = ((√(quartic b c d e t) : ℝ) : ℂ) / ((t : ℂ) - r1) := by
  have n1 := (h.X_ne ht).1
  rw [← h.sqrt_eq ht, ← Xr_sq]
  field_simp

theorem S_eq (hyt : y < t) : S α β y r1 r2 r3 r4 t = (((√(quartic b c d e t) : ℝ) : ℂ) / ((t : ℂ) - r1) * ((α + β * y : ℝ) : ℂ) +
    ((√(quartic b c d e y) : ℝ) : ℂ) / ((y : ℂ) - r1) * ((α + β * t : ℝ) : ℂ)) / ((t - y : ℝ) : ℂ) := by
  rw [S, M, h.g_eq hyt.le, h.g_eq le_rfl, lam_ofReal, lam_ofReal, Complex.ofReal_sub]

theorem W2_add (hyt : y < t) (htx : t ≤ x) : ∃ v : ℝ, 0 ≤ v ∧ W2 α β y r1 r2 r3 r4 t = W2 α β y r1 r2 r3 r4 x + v := by
  obtain ⟨V, W, K⟩ := h.kernel' (lt_of_lt_of_le hyt htx)
  refine ⟨V t, ?_, ?_⟩
  · rcases eq_or_lt_of_le htx with e0 | e0
    · rw [e0, K.V_x]
    · exact (K.V_pos ⟨hyt, e0⟩).le
  · rw [W2, W2, K.sq1 t ⟨hyt, htx⟩]
    ring

theorem real_facts (hr : r1.im = 0) (hlam : ∀ t ∈ Icc y x, 0 < α + β * t) (hl : lam α β r1 ≠ 0) :
    ∃ κ : ℝ, kap α β r1 r2 r3 r4 = κ ∧ ∀ t ∈ Ioc y x, ∃ s : ℝ, 0 < s ∧ S α β y r1 r2 r3 r4 t = s ∧
      (((t - r1.re) * (y - r1.re) * (s ^ 2 - κ) / ((α + β * t) * (α + β * y)) : ℝ) : ℂ) = W2 α β y r1 r2 r3 r4 t := by
  have hlt := h.lt hr
  have er : (r1.re : ℂ) = r1 := CubicOK.re_eq hr
  obtain ⟨κ, hκ⟩ : ∃ κ : ℝ, kap α β r1 r2 r3 r4 = κ := by
    have hk := h.kap_eq hl
    rw [← er, lam_ofReal, ← Complex.ofReal_pow, ← Complex.ofReal_div, er] at hk
    exact ⟨_, hk⟩
  refine ⟨κ, hκ, fun t ht => ?_⟩
  have hyx : y < x := lt_of_lt_of_le ht.1 ht.2
  have l1 := hlam t ⟨ht.1.le, ht.2⟩
  have l2 := hlam y ⟨le_rfl, hyx.le⟩
  have p1 := h.s_pos (t := t) ht.1.le
  have p2 := h.s_pos (t := y) le_rfl
  have q1 : 0 < t - r1.re := by linarith [ht.1]
  have q2 : 0 < y - r1.re := by linarith
  have q3 : 0 < t - y := by linarith [ht.1]
  have e1 : S α β y r1 r2 r3 r4 t =
      (((√(quartic b c d e t) / (t - r1.re) * (α + β * y) + √(quartic b c d e y) / (y - r1.re) * (α + β * t)) / (t - y) : ℝ) : ℂ) := by
    rw [h.S_eq ht.1]
    push_cast
    rw [er]
  refine ⟨_, by positivity, e1, ?_⟩
  generalize (√(quartic b c d e t) / (t - r1.re) * (α + β * y) + √(quartic b c d e y) / (y - r1.re) * (α + β * t)) / (t - y) = s at *
  have hs := h.S_sq (α := α) (β := β) hl ht.1
  have n1 : (t : ℂ) - r1 ≠ 0 := by rw [← er]; exact_mod_cast q1.ne'
  have n2 : (y : ℂ) - r1 ≠ 0 := by rw [← er]; exact_mod_cast q2.ne'
  have n3 : ((α : ℂ) + β * t) ≠ 0 := by exact_mod_cast l1.ne'
  have n4 : ((α : ℂ) + β * y) ≠ 0 := by exact_mod_cast l2.ne'
  rw [e1, hκ, Xr_sq, Xr_sq, lam, lam, eq_div_iff (mul_ne_zero n1 n2)] at hs
  push_cast
  rw [er, div_eq_iff (mul_ne_zero n3 n4)]
  linear_combination hs

/-- A real first root, if the argument of `R_J` is positive. -/
theorem good_real (hyx : y < x) (hr : r1.im = 0) (hlam : ∀ t ∈ Icc y x, 0 < α + β * t) (hl : lam α β r1 ≠ 0)
    (hp : 0 < (W2 α β y r1 r2 r3 r4 x).re) : Good α β y x r1 r2 r3 r4 := by
  obtain ⟨κ, hκ, hS⟩ := h.real_facts hr hlam hl
  have hlt := h.lt hr
  have key : ∀ t ∈ Ioc y x, ∃ s : ℝ, 0 < s ∧ S α β y r1 r2 r3 r4 t = s ∧ κ < s ^ 2 := by
    intro t ht
    obtain ⟨s, h1, h2, h3⟩ := hS t ht
    refine ⟨s, h1, h2, ?_⟩
    obtain ⟨v, hv, e1⟩ := h.W2_add (α := α) (β := β) ht.1 ht.2
    have hpos : 0 < (W2 α β y r1 r2 r3 r4 t).re := by rw [e1, Complex.add_re, Complex.ofReal_re]; linarith
    rw [← h3, Complex.ofReal_re] at hpos
    have l1 := hlam t ⟨ht.1.le, ht.2⟩
    have l2 := hlam y ⟨le_rfl, hyx.le⟩
    have q1 : 0 < t - r1.re := by linarith [ht.1]
    have q2 : 0 < y - r1.re := by linarith
    have := (div_pos_iff_of_pos_right (mul_pos l1 l2)).mp hpos
    have := (mul_pos_iff_of_pos_left (mul_pos q1 q2)).mp this
    linarith
  have aux : ∀ s : ℝ, 0 < s → κ < s ^ 2 → ∀ σ : ℝ, 0 ≤ σ → ∀ θ ∈ Icc (0 : ℝ) 1, ((s : ℂ)) ^ 2 + σ ≠ θ * (κ : ℂ) := by
    intro s hs hk σ hσ θ hθ e0
    have e0 : s ^ 2 + σ = θ * κ := by exact_mod_cast e0
    rcases le_or_gt κ 0 with k0 | k0
    · have := mul_nonpos_of_nonneg_of_nonpos hθ.1 k0
      nlinarith
    · have := mul_le_of_le_one_left k0.le hθ.2
      nlinarith
  obtain ⟨s, h1, h2, h3⟩ := key x ⟨hyx, le_rfl⟩
  refine ⟨fun t ht => ?_, by rw [h2]; simpa using h1, by rw [h2, hκ]; exact aux s h1 h3⟩
  obtain ⟨s, h1, h2, h3⟩ := key t ht
  rw [hκ, h2]
  intro θ hθ e0
  exact aux s h1 h3 0 le_rfl θ hθ (by simpa using e0)

omit h in
theorem inv_re (r : ℂ) (t : ℝ) : (((t : ℂ) - r)⁻¹).re = (t - r.re) * (Complex.normSq (t - r))⁻¹ := by
  rw [Complex.inv_re]; simp [div_eq_mul_inv]

omit h in
theorem inv_im (r : ℂ) (t : ℝ) : (((t : ℂ) - r)⁻¹).im = r.im * (Complex.normSq (t - r))⁻¹ := by
  rw [Complex.inv_im]; simp [div_eq_mul_inv]

theorem S_re_im (hyt : y < t) : (S α β y r1 r2 r3 r4 t).re =
      (√(quartic b c d e t) * ((t - r1.re) * (Complex.normSq (t - r1))⁻¹) * (α + β * y) +
        √(quartic b c d e y) * ((y - r1.re) * (Complex.normSq (y - r1))⁻¹) * (α + β * t)) / (t - y) ∧
    (S α β y r1 r2 r3 r4 t).im =
      (√(quartic b c d e t) * (r1.im * (Complex.normSq (t - r1))⁻¹) * (α + β * y) +
        √(quartic b c d e y) * (r1.im * (Complex.normSq (y - r1))⁻¹) * (α + β * t)) / (t - y) := by
  rw [h.S_eq hyt, Complex.div_ofReal_re, Complex.div_ofReal_im, Complex.add_re, Complex.add_im, Complex.re_mul_ofReal, Complex.re_mul_ofReal,
    Complex.im_mul_ofReal, Complex.im_mul_ofReal, div_eq_mul_inv _ ((t : ℂ) - r1), div_eq_mul_inv _ ((y : ℂ) - r1), Complex.re_ofReal_mul, Complex.re_ofReal_mul,
    Complex.im_ofReal_mul, Complex.im_ofReal_mul, inv_re, inv_re, inv_im, inv_im]
  exact ⟨rfl, rfl⟩

theorem S_im_pos (hyt : y < t) (hr : r1.im ≠ 0) (l1 : 0 < α + β * t) (l2 : 0 < α + β * y) : 0 < (S α β y r1 r2 r3 r4 t).im * r1.im := by
  have p1 := h.s_pos (t := t) hyt.le
  have p2 := h.s_pos (t := y) le_rfl
  have n : ∀ t : ℝ, 0 < (Complex.normSq (t - r1))⁻¹ := fun t => by
    refine inv_pos.mpr (Complex.normSq_pos.mpr fun e0 => hr ?_)
    have := congrArg Complex.im e0
    simpa using this
  have n1 := n t
  have n2 := n y
  have k := sub_pos.mpr hyt
  have hi : 0 < r1.im * r1.im := mul_self_pos.mpr hr
  rw [(h.S_re_im hyt).2]
  have e1 : (√(quartic b c d e t) * (r1.im * (Complex.normSq (t - r1))⁻¹) * (α + β * y) +
        √(quartic b c d e y) * (r1.im * (Complex.normSq (y - r1))⁻¹) * (α + β * t)) / (t - y) * r1.im =
      (r1.im * r1.im) * ((√(quartic b c d e t) * (Complex.normSq (t - r1))⁻¹ * (α + β * y) +
        √(quartic b c d e y) * (Complex.normSq (y - r1))⁻¹ * (α + β * t)) / (t - y)) := by ring
  rw [e1]
  positivity

/-- A first root that is not real, to the left of both limits. -/
theorem good_cpx (hyx : y < x) (hr : r1.im ≠ 0) (hre : r1.re ≤ y) (hlam : ∀ t ∈ Icc y x, 0 < α + β * t)
    (hκ : (kap α β r1 r2 r3 r4).im * r1.im ≤ 0) : Good α β y x r1 r2 r3 r4 := by
  have hn : ∀ t : ℝ, 0 < (Complex.normSq (t - r1))⁻¹ := fun t => by
    refine inv_pos.mpr (Complex.normSq_pos.mpr fun e0 => hr ?_)
    have := congrArg Complex.im e0
    simpa using this
  have l2 := hlam y ⟨le_rfl, hyx.le⟩
  have hS : ∀ t ∈ Ioc y x, 0 < (S α β y r1 r2 r3 r4 t).re := by
    intro t ht
    have l1 := hlam t ⟨ht.1.le, ht.2⟩
    have p1 := h.s_pos (t := t) ht.1.le
    have p2 := h.s_pos (t := y) le_rfl
    have n1 := hn t
    have n2 := hn y
    have k := sub_pos.mpr ht.1
    have k1 : 0 < t - r1.re := by linarith
    have k2 : 0 ≤ y - r1.re := by linarith
    rw [(h.S_re_im ht.1).1]
    have : 0 < √(quartic b c d e t) * ((t - r1.re) * (Complex.normSq (t - r1))⁻¹) * (α + β * y) := by positivity
    have : 0 ≤ √(quartic b c d e y) * ((y - r1.re) * (Complex.normSq (y - r1))⁻¹) * (α + β * t) := by positivity
    exact div_pos (by linarith) k
  have key : ∀ t ∈ Ioc y x, ∀ σ : ℝ, ∀ θ ∈ Icc (0 : ℝ) 1, S α β y r1 r2 r3 r4 t ^ 2 + σ ≠ θ * kap α β r1 r2 r3 r4 := by
    intro t ht σ θ hθ e0
    have h1 := hS t ht
    have h2 := h.S_im_pos ht.1 hr (hlam t ⟨ht.1.le, ht.2⟩) l2
    have e1 := congrArg Complex.im e0
    rw [Complex.add_im, Complex.ofReal_im, add_zero, sq, Complex.mul_im, Complex.im_ofReal_mul] at e1
    have h3 : θ * ((kap α β r1 r2 r3 r4).im * r1.im) ≤ 0 := mul_nonpos_of_nonneg_of_nonpos hθ.1 hκ
    have h4 := mul_pos h1 h2
    have h5 := congrArg (· * r1.im) e1
    nlinarith
  refine ⟨fun t ht θ hθ e0 => key t ht 0 θ hθ (by simpa using e0), hS x ⟨hyx, le_rfl⟩, fun σ _ θ hθ => key x ⟨hyx, le_rfl⟩ σ θ hθ⟩

/-- A first root that is not real, to the right of both limits. -/
theorem bad_cpx (hyx : y < x) (hr : r1.im ≠ 0) (hre : x ≤ r1.re) (hlam : ∀ t ∈ Icc y x, 0 < α + β * t)
    (hκ : 0 ≤ (kap α β r1 r2 r3 r4).im * r1.im) : Bad α β y x r1 r2 r3 r4 := by
  have hn : ∀ t : ℝ, 0 < (Complex.normSq (t - r1))⁻¹ := fun t => by
    refine inv_pos.mpr (Complex.normSq_pos.mpr fun e0 => hr ?_)
    have := congrArg Complex.im e0
    simpa using this
  have l2 := hlam y ⟨le_rfl, hyx.le⟩
  have hS : ∀ t ∈ Ioc y x, (S α β y r1 r2 r3 r4 t).re < 0 := by
    intro t ht
    have l1 := hlam t ⟨ht.1.le, ht.2⟩
    have p1 := h.s_pos (t := t) ht.1.le
    have p2 := h.s_pos (t := y) le_rfl
    have n1 := hn t
    have n2 := hn y
    have k := sub_pos.mpr ht.1
    have k1 : 0 ≤ r1.re - t := by linarith [ht.2]
    have k2 : 0 < r1.re - y := by linarith [ht.2]
    rw [(h.S_re_im ht.1).1]
    have : 0 ≤ √(quartic b c d e t) * ((r1.re - t) * (Complex.normSq (t - r1))⁻¹) * (α + β * y) := by positivity
    have : 0 < √(quartic b c d e y) * ((r1.re - y) * (Complex.normSq (y - r1))⁻¹) * (α + β * t) := by positivity
    exact div_neg_of_neg_of_pos (by linarith) k
  have key : ∀ t ∈ Ioc y x, ∀ σ : ℝ, ∀ θ ∈ Icc (0 : ℝ) 1, S α β y r1 r2 r3 r4 t ^ 2 + σ ≠ θ * kap α β r1 r2 r3 r4 := by
    intro t ht σ θ hθ e0
    have h1 := hS t ht
    have h2 := h.S_im_pos ht.1 hr (hlam t ⟨ht.1.le, ht.2⟩) l2
    have e1 := congrArg Complex.im e0
    rw [Complex.add_im, Complex.ofReal_im, add_zero, sq, Complex.mul_im, Complex.im_ofReal_mul] at e1
    have h3 : 0 ≤ θ * ((kap α β r1 r2 r3 r4).im * r1.im) := mul_nonneg hθ.1 hκ
    have h4 := mul_pos_of_neg_of_neg h1 (neg_neg_of_pos h2)
    have h5 := congrArg (· * r1.im) e1
    nlinarith
  refine ⟨fun t ht θ hθ e0 => key t ht 0 θ hθ (by simpa using e0), hS x ⟨hyx, le_rfl⟩, fun σ _ θ hθ => key x ⟨hyx, le_rfl⟩ σ θ hθ⟩

theorem third_good (hlt : y < x) (hl : lam α β r1 ≠ 0) (hlam : ∀ t ∈ Icc y x, 0 < α + β * t) (hg : Good α β y x r1 r2 r3 r4) :
    let u := params4 r1 r2 r3 r4 y x
    let k : ℂ := ((x - y : ℝ) : ℂ)
    ∫ t in Ioc y x, ((t : ℂ) - r1) / (lam α β t * √(quartic b c d e t)) =
      2 * k * RCc (M α β y r1 r2 r3 r4 x ^ 2) (lam α β x * lam α β y * (k ^ 2 * W2 α β y r1 r2 r3 r4 x) / (Xr r1 x ^ 2 * Xr r1 y ^ 2)) -
      cJ α β r1 r2 r3 r4 * (2 * k * (k ^ 2 / 3) * RJc u.1 u.2.1 u.2.2 (k ^ 2 * W2 α β y r1 r2 r3 r4 x)) := by
  intro u k
  obtain ⟨G, hG⟩ := exists_prim (kap α β r1 r2 r3 r4)
  have h1 := h.third hlt hl (fun t ht => by rw [lam_ofReal]; exact_mod_cast (hlam t ht).ne') hg.off hG
  have h2 := hG.rc (sub_pos.mpr hlt) hg.re hg.add
  have hk : (x : ℂ) - y ≠ 0 := sub_ne_zero.mpr (by exact_mod_cast hlt.ne')
  simp only at h1
  rw [h1]
  rw [h.S_sq hl hlt, show ((x - y : ℝ) : ℂ) * S α β y r1 r2 r3 r4 x = M α β y r1 r2 r3 r4 x by rw [S]; push_cast; field_simp] at h2
  rw [show lam α β x * lam α β y * (k ^ 2 * W2 α β y r1 r2 r3 r4 x) / (Xr r1 x ^ 2 * Xr r1 y ^ 2) =
    ((x - y : ℝ) : ℂ) ^ 2 * (lam α β x * lam α β y * W2 α β y r1 r2 r3 r4 x / (Xr r1 x ^ 2 * Xr r1 y ^ 2)) by simp only [k]; ring]
  simp only [k, u]
  linear_combination -2 * h2

theorem third_bad (hlt : y < x) (hl : lam α β r1 ≠ 0) (hlam : ∀ t ∈ Icc y x, 0 < α + β * t) (hg : Bad α β y x r1 r2 r3 r4)
    {G : ℂ → ℂ} (hG : Prim (kap α β r1 r2 r3 r4) G) :
    let u := params4 r1 r2 r3 r4 y x
    let k : ℂ := ((x - y : ℝ) : ℂ)
    k * RCc (M α β y r1 r2 r3 r4 x ^ 2) (lam α β x * lam α β y * (k ^ 2 * W2 α β y r1 r2 r3 r4 x) / (Xr r1 x ^ 2 * Xr r1 y ^ 2)) =
      G (S α β y r1 r2 r3 r4 x) ∧
    ∫ t in Ioc y x, ((t : ℂ) - r1) / (lam α β t * √(quartic b c d e t)) =
      -2 * G (S α β y r1 r2 r3 r4 x) -
      cJ α β r1 r2 r3 r4 * (2 * k * (k ^ 2 / 3) * RJc u.1 u.2.1 u.2.2 (k ^ 2 * W2 α β y r1 r2 r3 r4 x)) := by
  intro u k
  have h1 := h.third hlt hl (fun t ht => by rw [lam_ofReal]; exact_mod_cast (hlam t ht).ne') hg.off hG
  have h2 := hG.rc (S := -S α β y r1 r2 r3 r4 x) (sub_pos.mpr hlt) (by rw [Complex.neg_re]; linarith [hg.re])
    (fun σ hσ θ hθ => by rw [neg_sq]; exact hg.add σ hσ θ hθ)
  have hk : (x : ℂ) - y ≠ 0 := sub_ne_zero.mpr (by exact_mod_cast hlt.ne')
  refine ⟨?_, h1⟩
  rw [hG.odd _ (hg.off x ⟨hlt, le_rfl⟩), neg_neg, neg_sq, h.S_sq hl hlt, mul_neg, neg_sq,
    show ((x - y : ℝ) : ℂ) * S α β y r1 r2 r3 r4 x = M α β y r1 r2 r3 r4 x by rw [S]; push_cast; field_simp] at h2
  rw [show lam α β x * lam α β y * (k ^ 2 * W2 α β y r1 r2 r3 r4 x) / (Xr r1 x ^ 2 * Xr r1 y ^ 2) =
    ((x - y : ℝ) : ℂ) ^ 2 * (lam α β x * lam α β y * W2 α β y r1 r2 r3 r4 x / (Xr r1 x ^ 2 * Xr r1 y ^ 2)) by simp only [k]; ring]
  exact h2

/-- The lookback integral, in terms of the integral of the third kind. -/
theorem look_split (hy : -1 < y) (hlt : y < x) (hl : r1 + 1 ≠ 0) : ((∫ t in Ioc y x, 1 / ((1 + t) * √(quartic b c d e t)) : ℝ) : ℂ) =
    (((∫ t in Ioc y x, 1 / √(quartic b c d e t) : ℝ) : ℂ) - ∫ t in Ioc y x, ((t : ℂ) - r1) / (lam 1 1 t * √(quartic b c d e t))) / (r1 + 1) := by
  have i0 : IntegrableOn (fun t : ℝ => ((1 / √(quartic b c d e t) : ℝ) : ℂ)) (Ioc y x) := (h.inv_s_integrable hlt).ofReal
  have hlam : ∀ t ∈ Icc y x, lam 1 1 (t : ℝ) ≠ 0 := fun t ht => by
    rw [lam_ofReal]
    exact_mod_cast (by linarith [ht.1] : (0 : ℝ) < 1 + 1 * t).ne'
  have i1 : IntegrableOn (fun t : ℝ => ((t : ℂ) - r1) / (lam 1 1 t * √(quartic b c d e t))) (Ioc y x) := by
    apply IntegrableOn.mono_set _ Ioc_subset_Icc_self
    apply ContinuousOn.integrableOn_Icc
    refine ContinuousOn.div (by fun_prop) (lam_cont.continuousOn.mul (Complex.continuous_ofReal.comp_continuousOn s_cont)) fun t ht => ?_
    exact mul_ne_zero (hlam t ht) (h.cs_ne ht.1)
  rw [← integral_complex_ofReal, ← integral_complex_ofReal, ← integral_sub i0 i1, ← integral_div]
  apply setIntegral_congr_fun measurableSet_Ioc
  intro t ht
  have n1 := h.cs_ne ht.1.le
  have n2 := hlam t ⟨ht.1.le, ht.2⟩
  have n3 : (1 : ℂ) + t ≠ 0 := by simpa [lam] using n2
  simp only [lam]
  push_cast
  simp only [one_mul]
  field_simp
  ring

/-- The second integral. -/
theorem lookback_eq (hy : -1 < y) (hlt : y < x) (hl : r1 + 1 ≠ 0) (hg : Good 1 1 y x r1 r2 r3 r4) :
    let u := params4 r1 r2 r3 r4 y x
    let k : ℂ := ((x - y : ℝ) : ℂ)
    let p := u.1 - (r3 - r1) * (r4 - r1) * (r2 + 1) / (r1 + 1) * k ^ 2
    2 * k * ((RFc u.1 u.2.1 u.2.2 + k ^ 2 / 3 * (r2 - r1) * (r3 - r1) * (r4 - r1) / (r1 + 1) * RJc u.1 u.2.1 u.2.2 p -
      RCc ((Xr r2 y * Xr r3 y * Xr r4 y / Xr r1 y * (x + 1) + Xr r2 x * Xr r3 x * Xr r4 x / Xr r1 x * (y + 1)) ^ 2)
        ((x + 1) * (y + 1) / Xr r1 y ^ 2 / Xr r1 x ^ 2 * p)) / (r1 + 1)) = ((∫ t in Ioc y x, 1 / ((1 + t) * √(quartic b c d e t)) : ℝ) : ℂ) := by
  intro u k p
  have e1 : lam 1 1 r1 = r1 + 1 := by simp [lam]; ring
  have h1 := h.rf_eq hlt
  have h2 := h.third_good (α := 1) (β := 1) hlt (by rwa [e1]) (fun t ht => by linarith [ht.1]) hg
  simp only at h1 h2
  have hp : p = k ^ 2 * W2 1 1 y r1 r2 r3 r4 x := by
    simp only [p, u, params4_eq hlt, W2, k, e1]
    rw [show lam 1 1 r2 = r2 + 1 by simp [lam]; ring]
    ring
  rw [h.look_split hy hlt hl, h2, ← h1, cJ, e1]
  rw [← hp]
  have eM : M 1 1 y r1 r2 r3 r4 x = Xr r2 y * Xr r3 y * Xr r4 y / Xr r1 y * (x + 1) + Xr r2 x * Xr r3 x * Xr r4 x / Xr r1 x * (y + 1) := by
    simp only [M, lam]; push_cast; ring
  have e3 : lam 1 1 x * lam 1 1 y * p / (Xr r1 x ^ 2 * Xr r1 y ^ 2) = (x + 1) * (y + 1) / Xr r1 y ^ 2 / Xr r1 x ^ 2 * p := by
    simp only [lam]
    push_cast
    have n1 := (h.X_ne hlt.le).1
    have m1 := (h.X_ne le_rfl).1
    field_simp
    ring
  rw [eM, e3]
  ring

end QuarticOK

end Verif.Ellred

import Verif.Special.Binet
import Mathlib.Analysis.SpecialFunctions.Trigonometric.DerivHyp

/-!
# The reflection formula for `log Γ` with its branch

`log Γ(z) + log Γ(1−z) = log π − log sin(πz)` on `0 ≤ Re z < 1`, `Im z ≥ 0`, and its continuation to
the left.  Mathematics used for `loggamma.h`; nothing here models the code.
-/

open Complex Filter Topology Finset

namespace Verif.Special

/-- `log Γ` on `Re z > −1` off the cut. -/
noncomputable def lgMid (z : ℂ) : ℂ := lgRight (z + 15) - ∑ k ∈ range 15, log (z + k)

theorem isLogGamma_mid {z : ℂ} (hz : -1 ≤ z.re) : IsLogGamma z (lgMid z) := by
  have h := (isLogGamma_right (z := z + (15 : ℕ)) (by simp; linarith)).of_add_nat 15
  simpa [lgMid] using h

theorem binetM_continuousOn : ContinuousOn binetM {z | 0 < z.re} := by
  intro z hz
  have h0 : z ≠ 0 := by rintro rfl; simp at hz
  have hs : z ∈ slitPlane := Or.inl hz
  have hc : Continuous (pev binetL) := by unfold binetL; simp only [pev]; fun_prop
  apply ContinuousAt.continuousWithinAt
  unfold binetM
  have h1 : ContinuousAt (fun z : ℂ => 1 / z) z := continuousAt_const.div continuousAt_id h0
  have h2 : ContinuousAt (fun z : ℂ => pev binetL (1 / z)) z :=
    ContinuousAt.comp (f := fun z : ℂ => 1 / z) hc.continuousAt h1
  have h3 : ContinuousAt log z := continuousAt_clog hs
  fun_prop

theorem lgRight_continuousOn : ContinuousOn lgRight {z | 14 ≤ z.re} := by
  unfold lgRight
  refine (binetM_continuousOn.mono fun z hz => ?_).add
    (continuousOn_tsum (fun k => ?_) hasSum_telescope.summable fun k z hz => binetStep_bound' hz k)
  · simp only [Set.mem_setOf_eq] at *; linarith
  · unfold binetStep
    have hk : (0 : ℝ) ≤ k := by positivity
    have hadd : ContinuousOn (fun z : ℂ => z + k) {z | 14 ≤ z.re} := by fun_prop
    have hadd1 : ContinuousOn (fun z : ℂ => z + k + 1) {z | 14 ≤ z.re} := by fun_prop
    refine ((binetM_continuousOn.comp hadd1 fun z hz => ?_).sub
      (binetM_continuousOn.comp hadd fun z hz => ?_)).sub (hadd.clog fun z hz => ?_)
    · simp only [Set.mem_setOf_eq, add_re, natCast_re, one_re] at *; linarith
    · simp only [Set.mem_setOf_eq, add_re, natCast_re] at *; linarith
    · left; simp only [Set.mem_setOf_eq, add_re, natCast_re] at *; linarith

theorem slit_add_nat {z : ℂ} (hz : z ∈ slitPlane) (k : ℕ) : z + k ∈ slitPlane := by
  rcases hz with h | h
  · left; simp; positivity
  · right; simpa using h

theorem lgMid_continuousOn : ContinuousOn lgMid {z | -1 < z.re ∧ z ∈ slitPlane} := by
  unfold lgMid
  refine (lgRight_continuousOn.comp (by fun_prop) fun z hz => ?_).sub
    (continuousOn_finset_sum _ fun k _ => ContinuousOn.clog (by fun_prop) fun z hz => ?_)
  · simp only [Set.mem_setOf_eq] at *
    have : (z + 15).re = z.re + 15 := by simp
    rw [this]; linarith [hz.1]
  · exact slit_add_nat hz.2 k

/-- The strip of the base case. -/
def strip : Set ℂ := {z | 0 < z.re ∧ z.re < 1 ∧ 0 ≤ z.im} ∪ {z | 0 ≤ z.re ∧ z.re < 1 ∧ 0 < z.im}

theorem strip_preconnected : IsPreconnected strip := by
  refine IsPreconnected.union (1/2 + I) ?_ ?_ (Convex.isPreconnected ?_) (Convex.isPreconnected ?_)
  · simp; norm_num
  · simp; norm_num
  · have : {z : ℂ | 0 < z.re ∧ z.re < 1 ∧ 0 ≤ z.im} =
        {z : ℂ | 0 < z.re} ∩ ({z : ℂ | z.re < 1} ∩ {z : ℂ | 0 ≤ z.im}) := rfl
    rw [this]
    exact (convex_halfSpace_re_gt 0).inter ((convex_halfSpace_re_lt 1).inter
      (convex_halfSpace_im_ge 0))
  · have : {z : ℂ | 0 ≤ z.re ∧ z.re < 1 ∧ 0 < z.im} =
        {z : ℂ | 0 ≤ z.re} ∩ ({z : ℂ | z.re < 1} ∩ {z : ℂ | 0 < z.im}) := rfl
    rw [this]
    exact (convex_halfSpace_re_ge 0).inter ((convex_halfSpace_re_lt 1).inter
      (convex_halfSpace_im_gt 0))

theorem strip_slit {z : ℂ} (hz : z ∈ strip) : z ∈ slitPlane := by
  rcases hz with h | h
  · exact Or.inl h.1
  · exact Or.inr h.2.2.ne'

theorem strip_re {z : ℂ} (hz : z ∈ strip) : 0 ≤ z.re ∧ z.re < 1 := by
  rcases hz with h | h
  · exact ⟨h.1.le, h.2.1⟩
  · exact ⟨h.1, h.2.1⟩

theorem strip_one_sub {z : ℂ} (hz : z ∈ strip) : 0 < (1 - z).re := by
  have := (strip_re hz).2; simp; linarith

theorem strip_sin {z : ℂ} (hz : z ∈ strip) : sin (Real.pi * z) ∈ slitPlane := by
  have hsin : sin (Real.pi * z) =
      ((Real.sin (Real.pi * z.re) * Real.cosh (Real.pi * z.im) : ℝ) : ℂ) +
        ((Real.cos (Real.pi * z.re) * Real.sinh (Real.pi * z.im) : ℝ) : ℂ) * I := by
    have e : (Real.pi : ℂ) * z = ((Real.pi * z.re : ℝ) : ℂ) + ((Real.pi * z.im : ℝ) : ℂ) * I := by
      conv_lhs => rw [← re_add_im z]
      push_cast; ring
    rw [e, sin_add_mul_I]; push_cast; ring
  have hre : (sin (Real.pi * z)).re = Real.sin (Real.pi * z.re) * Real.cosh (Real.pi * z.im) := by
    rw [hsin, add_re, ofReal_re]; simp only [mul_re, ofReal_re, ofReal_im, I_re, I_im]; ring
  have him : (sin (Real.pi * z)).im = Real.cos (Real.pi * z.re) * Real.sinh (Real.pi * z.im) := by
    rw [hsin, add_im, ofReal_im]; simp only [mul_im, ofReal_re, ofReal_im, I_re, I_im]; ring
  have hp := Real.pi_pos
  rcases eq_or_lt_of_le (strip_re hz).1 with h | h
  · right
    have hy : 0 < z.im := by
      rcases hz with h' | h'
      · exact absurd h h'.1.ne
      · exact h'.2.2
    rw [him, ← h]
    simp only [mul_zero, Real.cos_zero, one_mul]
    exact (Real.sinh_pos_iff.2 (by positivity)).ne'
  · left
    rw [hre]
    refine mul_pos (Real.sin_pos_of_pos_of_lt_pi (by positivity) ?_) (Real.cosh_pos _)
    nlinarith [(strip_re hz).2]

/-- The reflection formula on the strip. -/
theorem refl_strip {z : ℂ} (hz : z ∈ strip) :
    lgMid z + lgMid (1 - z) = Real.log Real.pi - log (sin (Real.pi * z)) := by
  set Φ : ℂ → ℂ := fun z => lgMid z + lgMid (1 - z) + log (sin (Real.pi * z)) - Real.log Real.pi
    with hΦ
  have hcont : ContinuousOn Φ strip := by
    refine ((ContinuousOn.add ?_ ?_).add ?_).sub continuousOn_const
    · exact lgMid_continuousOn.mono fun z hz => ⟨by linarith [(strip_re hz).1], strip_slit hz⟩
    · refine lgMid_continuousOn.comp (by fun_prop) fun z hz => ⟨?_, Or.inl (strip_one_sub hz)⟩
      linarith [strip_one_sub hz]
    · exact ContinuousOn.clog (by fun_prop) fun z hz => strip_sin hz
  have hexp : ∀ z ∈ strip, exp (Φ z) = 1 := by
    intro z hz
    have n1 : NotPole z := by
      intro m e
      rcases strip_slit hz with h | h
      · rw [e] at h; simp at h; linarith [(by positivity : (0 : ℝ) ≤ m)]
      · rw [e] at h; simp at h
    have n2 : NotPole (1 - z) := notPole_of_re_pos (strip_one_sub hz)
    have e1 := (isLogGamma_mid (z := z) (by linarith [(strip_re hz).1])).exp_eq n1
    have e2 := (isLogGamma_mid (z := 1 - z) (by linarith [strip_one_sub hz])).exp_eq n2
    have hs : sin (Real.pi * z) ≠ 0 := slitPlane_ne_zero (strip_sin hz)
    have hp : (Real.pi : ℂ) ≠ 0 := by exact_mod_cast Real.pi_ne_zero
    rw [hΦ]
    simp only
    rw [exp_sub, exp_add, exp_add, e1, e2, exp_log hs, ← ofReal_exp, Real.exp_log Real.pi_pos,
      Gamma_mul_Gamma_one_sub]
    field_simp
  have hint : ∀ z ∈ strip, ∃ n : ℤ, Φ z = n * (2 * Real.pi * I) := fun z hz =>
    exp_eq_one_iff.1 (hexp z hz)
  have hhalf : (1/2 : ℂ) ∈ strip := by left; simp; norm_num
  have h0 : Φ (1/2) = 0 := by
    obtain ⟨n, hn⟩ := hint _ hhalf
    have him : (Φ (1/2)).im = 0 := by
      have r1 : (lgMid (1/2)).im = 0 := by
        have := isLogGamma_mid (z := ((1/2 : ℝ) : ℂ)) (by simp; norm_num)
        have := this.real (by norm_num)
        simpa using this
      have e : (1 - 1/2 : ℂ) = 1/2 := by norm_num
      have e2 : (Real.pi : ℂ) * (1/2) = ((Real.pi / 2 : ℝ) : ℂ) := by push_cast; ring
      rw [hΦ]
      simp only [e, e2]
      rw [← ofReal_sin, Real.sin_pi_div_two]
      rw [sub_im, add_im, add_im, r1]
      simp
    rw [hn] at him ⊢
    have : (n : ℝ) * (2 * Real.pi) = 0 := by simpa using him
    rcases mul_eq_zero.1 this with h | h
    · have : n = 0 := by exact_mod_cast h
      simp [this]
    · exact absurd h (by positivity)
  obtain ⟨n, hn⟩ := hint z hz
  have hn0 : n = 0 := by
    by_contra hne
    have hcim : ContinuousOn (fun w => (Φ w).im) strip := continuous_im.comp_continuousOn hcont
    have hz' : (Φ z).im = n * (2 * Real.pi) := by rw [hn]; simp
    have h0' : (Φ (1/2)).im = 0 := by rw [h0]; rfl
    have key : ∃ w ∈ strip, |(Φ w).im| = Real.pi := by
      have hp := Real.pi_pos
      rcases lt_or_gt_of_ne hne with h | h
      · have hle : (n : ℝ) ≤ -1 := by exact_mod_cast Int.le_sub_one_of_lt h
        obtain ⟨w, hw, e⟩ := strip_preconnected.intermediate_value hz hhalf hcim
          (show -Real.pi ∈ Set.Icc (Φ z).im (Φ (1/2)).im by
            rw [hz', h0']; constructor <;> nlinarith)
        exact ⟨w, hw, by simp only at e; rw [e, abs_neg, abs_of_pos hp]⟩
      · have hle : (1 : ℝ) ≤ n := by exact_mod_cast h
        obtain ⟨w, hw, e⟩ := strip_preconnected.intermediate_value hhalf hz hcim
          (show Real.pi ∈ Set.Icc (Φ (1/2)).im (Φ z).im by
            rw [hz', h0']; constructor <;> nlinarith)
        exact ⟨w, hw, by simp only at e; rw [e, abs_of_pos hp]⟩
    obtain ⟨w, hw, e⟩ := key
    obtain ⟨m, hm⟩ := hint w hw
    have hm' : (Φ w).im = m * (2 * Real.pi) := by rw [hm]; simp
    rw [hm', abs_mul, abs_of_pos (by positivity : 0 < 2 * Real.pi)] at e
    have e2 : |(m : ℝ)| * 2 = 1 := by
      have := Real.pi_pos.ne'
      field_simp at e; linarith
    have e3 : |m| * 2 = 1 := by exact_mod_cast e2
    omega
  rw [hn0] at hn
  have : Φ z = 0 := by rw [hn]; simp
  simp only [hΦ] at this
  linear_combination this

theorem log_neg_upper {w : ℂ} (hw : 0 < w.im ∨ (w.im = 0 ∧ w.re < 0)) :
    log w = log (-w) + Real.pi * I := by
  have harg : arg w = arg (-w) + Real.pi := by
    rcases hw with h | ⟨h1, h2⟩
    · rw [arg_neg_eq_arg_sub_pi_of_im_pos h]; ring
    · have e : w = ((w.re : ℝ) : ℂ) := by apply Complex.ext <;> simp [h1]
      rw [e, arg_ofReal_of_neg h2, ← ofReal_neg, arg_ofReal_of_nonneg (by linarith)]; ring
  rw [log, log, norm_neg, harg]
  push_cast; ring

/-- The reflection formula to the left of the strip. -/
theorem refl_left {z L : ℂ} (hz : z ∈ strip) (m : ℕ)
    (hL : IsLogGamma (1 - (z - m)) L) :
    IsLogGamma (z - m) (Real.log Real.pi - L - log (sin (Real.pi * z)) - Real.pi * m * I) := by
  induction m generalizing L with
  | zero =>
    simp only [Nat.cast_zero, sub_zero, mul_zero, zero_mul] at hL ⊢
    have e : L = lgMid (1 - z) :=
      hL.unique (isLogGamma_mid (by linarith [strip_one_sub hz]))
    have := refl_strip hz
    rw [e, sub_right_comm, ← this, add_sub_cancel_right]
    exact isLogGamma_mid (by linarith [(strip_re hz).1])
  | succ m ih =>
    have hL' : IsLogGamma (1 - (z - m)) (L - log (1 - (z - m))) := by
      refine IsLogGamma.pred ?_
      have e : 1 - (z - m) + 1 = 1 - (z - (m + 1 : ℕ)) := by push_cast; ring
      rw [e]; exact hL
    have h := ih hL'
    have e : z - (m : ℂ) = (z - (m + 1 : ℕ)) + 1 := by push_cast; ring
    rw [e] at h
    have h2 := h.pred
    have hneg : log (z - (m + 1 : ℕ)) = log (1 - (z - m)) + Real.pi * I := by
      have := log_neg_upper (w := z - (m + 1 : ℕ)) (by
        rcases hz with h | h
        · rcases eq_or_lt_of_le h.2.2 with h' | h'
          · right
            refine ⟨by simp [← h'], ?_⟩
            have : (0 : ℝ) ≤ m := by positivity
            simp; linarith [h.2.1]
          · left; simpa using h'
        · left; simpa using h.2.2)
      rw [this]; congr 2; push_cast; ring
    convert h2 using 1
    rw [hneg, ← e]
    push_cast
    ring

end Verif.Special

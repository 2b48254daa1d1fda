import Verif.Ellred.ComplexD
import Verif.Ellred.ComplexZero
import Verif.Ellred.CarlsonGrad

/-! # `elliprd` with complex arguments (C148) -/

namespace Verif.Ellred

open MeasureTheory Set Filter Topology Verif.Carlson

/-! ### A zero argument -/

/-- `R_D` is continuous where its first argument tends to zero from the right. -/
theorem RDc_zero_limit {y z : ℂ} (hy : y ∈ Complex.slitPlane) (hz : z ∈ Complex.slitPlane) :
    Tendsto (fun r : ℝ => RDc ((r ^ 2 : ℝ) : ℂ) y z) (𝓝[>] 0) (𝓝 (RDc 0 y z)) := by
  simp only [RDc]
  apply Tendsto.const_mul
  obtain ⟨hc, C, hC, hb⟩ := (((Dec.inv_sqrt hy).mul (Dec.inv_sqrt hz)).mul (Dec.inv hz)).mono (l := 1) (by norm_num)
  have hI := (Args.integrable (x := 0) (y := 1) (z := 1) ⟨by norm_num, by norm_num, by norm_num, by norm_num, by norm_num, by norm_num⟩).const_mul C
  refine tendsto_integral_filter_of_dominated_convergence _ ?_ ?_ hI ?_
  · filter_upwards [self_mem_nhdsWithin] with r hr
    have hr' : ((r ^ 2 : ℝ) : ℂ) ∈ Complex.slitPlane := re_slit (by rw [Complex.ofReal_re]; exact pow_pos hr 2)
    exact ((RJ_dec hr' hy hz hz).integrable (by norm_num)).aestronglyMeasurable
  · filter_upwards with r
    rw [ae_restrict_iff' measurableSet_Ioi]
    refine Eventually.of_forall fun t ht => ?_
    have ht0 : 0 < t := ht
    rw [← Complex.ofReal_add, csqrt_ofReal (by positivity), mul_assoc, mul_assoc, ← one_div_mul_one_div, norm_mul]
    have h1 := hb t ht0.le
    have h2 : ‖1 / ((√(t + r ^ 2) : ℝ) : ℂ)‖ ≤ 1 / √(t + 0) := by
      rw [norm_div, norm_one, Complex.norm_real, Real.norm_of_nonneg (Real.sqrt_nonneg _)]
      apply one_div_le_one_div_of_le (Real.sqrt_pos.mpr (by linarith))
      apply Real.sqrt_le_sqrt
      nlinarith [sq_nonneg r]
    have h3 : (1 + t) ^ (-(1 : ℝ)) = 1 / (√(t + 1) * √(t + 1)) := by
      rw [Real.mul_self_sqrt (by linarith)]
      norm_num
      rw [Real.rpow_neg_one, add_comm]
    rw [h3] at h1
    have h4 : 1 / (csqrt ((t : ℂ) + y) * (csqrt ((t : ℂ) + z) * ((t : ℂ) + z))) =
        1 / csqrt ((t : ℂ) + y) * (1 / csqrt ((t : ℂ) + z)) * (1 / ((t : ℂ) + z)) := by rw [one_div_mul_one_div, one_div_mul_one_div, mul_assoc]
    rw [h4]
    calc _ ≤ 1 / √(t + 0) * (C * (1 / (√(t + 1) * √(t + 1)))) := mul_le_mul h2 h1 (norm_nonneg _) (by positivity)
      _ = _ := by field_simp
  · rw [ae_restrict_iff' measurableSet_Ioi]
    refine Eventually.of_forall fun t ht => ?_
    have ht0 : 0 < t := ht
    have e : ∀ r : ℝ, 1 / (csqrt ((t : ℂ) + ((r ^ 2 : ℝ) : ℂ)) * csqrt ((t : ℂ) + y) * csqrt ((t : ℂ) + z) * ((t : ℂ) + z)) =
        1 / (((√(t + r ^ 2) : ℝ) : ℂ) * csqrt ((t : ℂ) + y) * csqrt ((t : ℂ) + z) * ((t : ℂ) + z)) := fun r => by
      rw [← Complex.ofReal_add, csqrt_ofReal (by positivity)]
    have e0 : csqrt ((t : ℂ) + 0) = ((√(t + 0 ^ 2) : ℝ) : ℂ) := by
      rw [add_zero, csqrt_ofReal ht0.le]; norm_num
    simp only [e, e0]
    refine Tendsto.mono_left ?_ nhdsWithin_le_nhds
    have hcont : ContinuousAt (fun r : ℝ => 1 / (((√(t + r ^ 2) : ℝ) : ℂ) * csqrt ((t : ℂ) + y) * csqrt ((t : ℂ) + z) * ((t : ℂ) + z))) 0 := by
      apply ContinuousAt.div continuousAt_const
      · refine ContinuousAt.mul (ContinuousAt.mul (ContinuousAt.mul ?_ continuousAt_const) continuousAt_const) continuousAt_const
        exact Complex.continuous_ofReal.continuousAt.comp (Real.continuous_sqrt.continuousAt.comp (by fun_prop))
      · refine mul_ne_zero (mul_ne_zero (mul_ne_zero ?_ (sqrt_ne hy ht0.le)) (sqrt_ne hz ht0.le)) (far_ne hz ht0.le)
        have : 0 < √(t + 0 ^ 2) := Real.sqrt_pos.mpr (by linarith)
        exact_mod_cast this.ne'
    exact hcont.tendsto

/-- The duplication theorem for `R_D` with a zero argument. -/
theorem RDc_dup_zero {y z : ℂ} (hy : y ∈ Complex.slitPlane) (hz : z ∈ Complex.slitPlane) :
    RDc 0 y z = RDc ((0 + lmOf 0 y z) / 4) ((y + lmOf 0 y z) / 4) ((z + lmOf 0 y z) / 4) / 4 + 3 / (csqrt z * (z + lmOf 0 y z)) := by
  have hzero : csqrt 0 = 0 := csqrt_eq_zero.mpr rfl
  have hsl : (0 + lmOf 0 y z) / 4 ∈ Complex.slitPlane ∧ (y + lmOf 0 y z) / 4 ∈ Complex.slitPlane ∧ (z + lmOf 0 y z) / 4 ∈ Complex.slitPlane :=
    dup_slit' (by rw [hzero, zero_add]; exact csqrt_re_pos hy) (by rw [hzero, zero_add]; exact csqrt_re_pos hz) (re_sum_pos hy hz)
  let L : ℝ → ℂ := fun r => (r : ℂ) * csqrt y + (r : ℂ) * csqrt z + csqrt y * csqrt z
  have hL0 : L 0 = lmOf 0 y z := by simp [L, lmOf, hzero]
  have hL : HasDerivAt L (csqrt y + csqrt z) 0 := by
    have h := (hasDerivAt_id (0 : ℝ)).ofReal_comp
    exact (((h.mul_const (csqrt y)).add (h.mul_const (csqrt z))).add_const (csqrt y * csqrt z)).congr_deriv (by simp)
  have hsq : HasDerivAt (fun r : ℝ => ((r ^ 2 : ℝ) : ℂ)) 0 0 := ((hasDerivAt_pow 2 (0 : ℝ)).ofReal_comp).congr_deriv (by simp)
  have hD := RDc_deriv ((hsq.add hL).div_const 4) ((hL.const_add y).div_const 4) ((hL.const_add z).div_const 4)
    (by simpa [hL0] using hsl.1) (by simpa [hL0] using hsl.2.1) (by simpa [hL0] using hsl.2.2)
  have hz4 : z + L 0 ≠ 0 := by
    rw [hL0]
    intro e
    have := Complex.slitPlane_ne_zero hsl.2.2
    rw [e] at this
    simp at this
  have hq : ContinuousAt (fun r : ℝ => 3 / (csqrt z * (z + L r))) 0 :=
    continuousAt_const.div (continuousAt_const.mul (hL.const_add z).continuousAt) (mul_ne_zero (csqrt_ne0 (Complex.slitPlane_ne_zero hz)) hz4)
  have h1 := ((hD.continuousAt.div_const 4).add hq).tendsto.mono_left (nhdsWithin_le_nhds (s := Ioi (0 : ℝ)))
  have h2 := RDc_zero_limit hy hz
  refine tendsto_nhds_unique h2 (?_ : Tendsto _ (𝓝[>] (0 : ℝ)) _)
  have e0 : RDc ((0 + lmOf 0 y z) / 4) ((y + lmOf 0 y z) / 4) ((z + lmOf 0 y z) / 4) / 4 + 3 / (csqrt z * (z + lmOf 0 y z)) =
      RDc ((((0 : ℝ) ^ 2 : ℝ) + L 0) / 4) ((y + L 0) / 4) ((z + L 0) / 4) / 4 + 3 / (csqrt z * (z + L 0)) := by
    rw [hL0]; norm_num
  rw [e0]
  refine h1.congr' ?_
  filter_upwards [self_mem_nhdsWithin] with r hr
  have hr0 : 0 < r := hr
  have hr' : ((r ^ 2 : ℝ) : ℂ) ∈ Complex.slitPlane := re_slit (by rw [Complex.ofReal_re]; exact pow_pos hr0 2)
  have hrs : csqrt ((r ^ 2 : ℝ) : ℂ) = r := by rw [csqrt_ofReal (by positivity), Real.sqrt_sq hr0.le]
  have hlm : lmOf ((r ^ 2 : ℝ) : ℂ) y z = L r := by simp only [lmOf, hrs, L]
  have := RDc_dup hr' hy hz
  rw [hlm] at this
  exact this.symm

/-! ### The loop -/

/-- The variables `elliprd` shares with `elliprf`. -/
def toF (s : DState) : FState := ⟨s.x, s.y, s.z, s.A, s.pow4⟩

theorem toF_iter (s : DState) (n : ℕ) : toF (dStep^[n] s) = fStep^[n] (toF s) := by
  induction n with
  | zero => rfl
  | succ n ih => rw [Function.iterate_succ_apply', Function.iterate_succ_apply', ← ih]; rfl

/-- The roots after a step, from the sums of the roots before. -/
theorem dup_re' {x y z : ℂ} {μ : ℝ} (hμ : 0 < μ) (a1 : 2 * μ ≤ (csqrt x + csqrt y).re) (a2 : 2 * μ ≤ (csqrt x + csqrt z).re) (a3 : 2 * μ ≤ (csqrt y + csqrt z).re) :
    μ ≤ (csqrt ((x + lmOf x y z) / 4)).re ∧ μ ≤ (csqrt ((y + lmOf x y z) / 4)).re ∧ μ ≤ (csqrt ((z + lmOf x y z) / 4)).re := by
  obtain ⟨e1, e2, e3⟩ := dup_csqrts (x := x) (y := y) (z := z) (by linarith) (by linarith) (by linarith)
  rw [e1, e2, e3]
  have hh : ∀ w : ℂ, (w / 2).re = w.re / 2 := fun w => by
    rw [show (2 : ℂ) = ((2 : ℝ) : ℂ) by norm_num, Complex.div_ofReal_re]
  rw [hh, hh, hh]
  have k := @re_csqrt_mul
  have hμ2 : 0 < 2 * μ := by linarith
  exact ⟨by linarith [k hμ2 a1 a2], by linarith [k hμ2 a1 a3], by linarith [k hμ2 a2 a3]⟩

/-- The first step. -/
theorem CArgs.dupD {x y z : ℂ} (h : CArgs x y z) (hz : z ≠ 0) :
    RDc x y z = RDc ((x + lmOf x y z) / 4) ((y + lmOf x y z) / 4) ((z + lmOf x y z) / 4) / 4 + 3 / (csqrt z * (z + lmOf x y z)) := by
  have hzs := h.z0.resolve_left hz
  rcases h.x0 with rfl | hx
  · exact RDc_dup_zero (h.y0.resolve_left (by simpa using h.xy)) hzs
  rcases h.y0 with rfl | hy
  · have sw : ∀ a b c : ℂ, RDc a b c = RDc b a c := fun a b c => by simp only [RDc, mul_comm (csqrt (_ + a))]
    rw [sw, RDc_dup_zero hx hzs, lmOf_swap12, sw]
  exact RDc_dup hx hy hzs

/-- The invariant of the loop of `elliprd`. -/
def DInv (x y z : ℂ) (s : DState) : Prop := Slit3 (toF s) ∧ ¬s.bad ∧ RDc x y z = 3 * s.s + s.pow4 * RDc s.x s.y s.z

theorem D_term {z w s : ℂ} {p : ℝ} : 3 * (s + p / csqrt z / w) = 3 * s + p * (3 / (csqrt z * w)) := by
  rw [div_div]; ring

theorem DInv.step {x y z : ℂ} {s : DState} (h : DInv x y z s) : DInv x y z (dStep s) := by
  obtain ⟨hs, hb, hR⟩ := h
  have hs' := hs.step
  refine ⟨hs', ?_, ?_⟩
  · simp only [dStep]
    rintro (k | k | k)
    · exact hb k
    · exact Complex.slitPlane_ne_zero hs.2.2 (csqrt_eq_zero.mp k)
    · have : (s.z + lmOf s.x s.y s.z) / 4 ≠ 0 := Complex.slitPlane_ne_zero hs'.2.2
      rw [k] at this
      simp at this
  · rw [hR, RDc_dup (x := s.x) (y := s.y) (z := s.z) hs.1 hs.2.1 hs.2.2]
    simp only [dStep]
    rw [D_term]
    push_cast
    ring

theorem CArgs.first {x y z : ℂ} (h : CArgs x y z) (hz : z ≠ 0) : DInv x y z (dStep ⟨x, y, z, dA0 x y z, 1, 0, False⟩) := by
  have hs' : Slit3 (fStep ⟨x, y, z, fA0 x y z, 1⟩) := h.sum3.step
  refine ⟨hs', ?_, ?_⟩
  · simp only [dStep]
    rintro (k | k | k)
    · exact k
    · exact hz (csqrt_eq_zero.mp k)
    · have : (z + lmOf x y z) / 4 ≠ 0 := Complex.slitPlane_ne_zero hs'.2.2
      rw [k] at this
      simp at this
  · rw [h.dupD hz]
    simp only [dStep]
    rw [D_term]
    push_cast
    ring

/-- A zero argument makes the loop run. -/
theorem zero_runs' {eps : ℝ} (h0 : 0 < eps) (h1 : eps ≤ 1) {A x y z : ℂ} (hz : z ≠ 0) (hxy : x = 0 ∨ y = 0) : ‖A‖ < hQ eps (1 / 4) A x y z := by
  have hE : 0 < EPS eps := by unfold EPS; positivity
  have hE1 : EPS eps ≤ 1 / 1000000 := by unfold EPS; linarith
  obtain ⟨ε, hε0, hε4, hε6, hκ⟩ := tolerance (b := EPS eps * (1 / 4)) (by positivity) (by linarith)
  rw [hQ, hκ]
  set M := max (max ‖A - x‖ ‖A - y‖) ‖A - z‖ with hM
  have m1 : ‖A - x‖ ≤ M := (le_max_left _ _).trans (le_max_left _ _)
  have m2 : ‖A - y‖ ≤ M := (le_max_right _ _).trans (le_max_left _ _)
  have m3 : ‖A - z‖ ≤ M := le_max_right _ _
  have hAM : ‖A‖ ≤ M := by
    rcases hxy with rfl | rfl
    · simpa using m1
    · simpa using m2
  have hMpos : 0 < M := by
    by_contra hc
    have hM0 : M ≤ 0 := not_lt.mp hc
    have hA0 : A = 0 := norm_le_zero_iff.mp (hAM.trans hM0)
    rw [hA0, zero_sub, norm_neg] at m3
    exact hz (norm_le_zero_iff.mp (m3.trans hM0))
  have h4 : 4 ≤ 1 / ε := by rw [le_div_iff₀ hε0]; linarith
  nlinarith

theorem CArgs.startD {eps : ℝ} (h0 : 0 < eps) (h1 : eps ≤ 1) {x y z : ℂ} (h : CArgs x y z) (hz : z ≠ 0) (hq : hQ eps (1 / 4) (dA0 x y z) x y z ≤ ‖dA0 x y z‖) :
    (x ∈ Complex.slitPlane ∧ y ∈ Complex.slitPlane ∧ z ∈ Complex.slitPlane) ∧ ((NC x y ∧ NC x z ∧ NC y z) ∨ 0 ≤ x.re ∨ 0 ≤ y.re ∨ 0 ≤ z.re) := by
  have hn : ¬(x = 0 ∨ y = 0) := fun hxy => absurd hq (not_le.mpr (zero_runs' h0 h1 hz hxy))
  push Not at hn
  obtain ⟨nx, ny⟩ := hn
  refine ⟨⟨h.x0.resolve_left nx, h.y0.resolve_left ny, h.z0.resolve_left hz⟩, ?_⟩
  rcases h.side with ⟨a, b, c⟩ | hr
  · exact Or.inl ⟨NC_of_arg nx ny a, NC_of_arg nx hz b, NC_of_arg ny hz c⟩
  · exact Or.inr hr

theorem zeros_le_one' {x y z : ℂ} (h : CArgs x y z) (hz : z ≠ 0) : ¬(z = 0 ∨ isZero x + isZero y + isZero z > 1) := by
  rintro (k | k)
  · exact hz k
  · unfold isZero at k
    rw [if_neg hz] at k
    have := h.xy
    split_ifs at k <;> first | omega | (simp_all)

/-- A lower bound on the final `A`. -/
theorem A_lower {A W : ℂ} {μ : ℝ} (hμ : 0 < μ) (hW : ‖W‖ ≤ 1 / 4) (h : μ ≤ ‖csqrt (A * (1 - W))‖) : 1 / (‖A‖ * ‖csqrt A‖) ≤ 7 / 5 / μ ^ 3 := by
  have h1 : ‖csqrt A‖ * ‖csqrt A‖ = ‖A‖ := by rw [← norm_mul, csqrt_sq]
  have h2 : ‖csqrt (A * (1 - W))‖ * ‖csqrt (A * (1 - W))‖ = ‖A‖ * ‖1 - W‖ := by rw [← norm_mul, csqrt_sq, norm_mul]
  have h3 : ‖1 - W‖ ≤ 5 / 4 := (norm_sub_le _ _).trans (by rw [norm_one]; linarith)
  have h4 : μ * μ ≤ ‖A‖ * (5 / 4) := by
    calc μ * μ ≤ _ := mul_self_le_mul_self hμ.le h
      _ = ‖A‖ * ‖1 - W‖ := h2
      _ ≤ _ := by gcongr
  have hs := norm_nonneg (csqrt A)
  generalize ‖csqrt A‖ = s at *
  rw [← h1] at h4 ⊢
  have h5 : 25 / 28 * μ ≤ s := by
    by_contra hc
    have := not_le.mp hc
    nlinarith
  have hs0 : 0 < s := by linarith
  rw [div_le_div_iff₀ (by positivity) (by positivity)]
  have h6 : (25 / 28 * μ) ^ 3 ≤ s ^ 3 := by gcongr
  nlinarith [pow_pos hμ 3]

/-- **C148** `elliprd` at complex arguments off the negative real axis, at most one of `x` and `y` zero: the value differs from `R_D(x, y, z)` by at most
`5 EPS / μ³` with `EPS = 1e-6 eps`, where `μ` is at most half the real part of the sum of any two of the three roots. -/
theorem C148_elliprd {eps : ℝ} (h0 : 0 < eps) (h1 : eps ≤ 1) {x y z : ℂ} (h : CArgs x y z) (hz : z ≠ 0) {μ : ℝ} (hμ : 0 < μ)
    (m1 : 2 * μ ≤ (csqrt x + csqrt y).re) (m2 : 2 * μ ≤ (csqrt x + csqrt z).re) (m3 : 2 * μ ≤ (csqrt y + csqrt z).re) :
    ∃ v, elliprd eps x y z = .val v ∧ ‖v - RDc x y z‖ ≤ 5 * EPS eps / μ ^ 3 := by
  have hE : 0 < EPS eps := by unfold EPS; positivity
  have hE1 : EPS eps ≤ 1 / 1000000 := by unfold EPS; linarith
  obtain ⟨ε, hε0, hε4, hε6, hκ⟩ := tolerance (b := EPS eps * (1 / 4)) (by positivity) (by linarith)
  have hfirst := h.first hz
  set s0 : DState := ⟨x, y, z, dA0 x y z, 1, 0, False⟩ with hs0
  obtain ⟨n, hn⟩ := rf_stops (x := x) (y := y) (z := z) (A₀ := dA0 x y z) hfirst.1 (hQ eps (1 / 4) (dA0 x y z) x y z)
  have hn' : (dStep^[n] s0).pow4 * hQ eps (1 / 4) (dA0 x y z) x y z < ‖(dStep^[n] s0).A‖ := by
    have e := toF_iter s0 n
    rw [show fStep^[n] ⟨x, y, z, dA0 x y z, 1⟩ = toF (dStep^[n] s0) from e.symm] at hn
    exact hn
  obtain ⟨k, hk, hexit, _⟩ := loopWhile_spec (cond := fun s : DState => s.pow4 * hQ eps (1 / 4) (dA0 x y z) x y z > ‖s.A‖)
    (step := dStep) (s := s0) ⟨n, not_lt.mpr hn'.le⟩
  obtain ⟨hA, hp4, hX, hY, hZ⟩ := C34_reduced_rd x y z k
  rw [← hs0] at hA hp4 hX hY hZ
  have hgood : DInv x y z (dStep^[k] s0) ∧
      ((NC (dStep^[k] s0).x (dStep^[k] s0).y ∧ NC (dStep^[k] s0).x (dStep^[k] s0).z ∧ NC (dStep^[k] s0).y (dStep^[k] s0).z) ∨ 0 ≤ (dStep^[k] s0).x.re ∨
        0 ≤ (dStep^[k] s0).y.re ∨ 0 ≤ (dStep^[k] s0).z.re) ∧ (μ ≤ ‖csqrt (dStep^[k] s0).x‖ ∨ μ ≤ ‖csqrt (dStep^[k] s0).y‖) := by
    rcases k with _ | k
    · simp only [Function.iterate_zero, id, hs0, one_mul, gt_iff_lt, not_lt] at hexit ⊢
      obtain ⟨hs, hd⟩ := h.startD h0 h1 hz hexit
      refine ⟨⟨hs, not_false, by simp⟩, hd, ?_⟩
      by_contra hc
      push Not at hc
      rw [Complex.add_re] at m1
      linarith [Complex.re_le_norm (csqrt x), Complex.re_le_norm (csqrt y), hc.1, hc.2]
    · have hinv := iterate_inv (step := dStep) (fun s => DInv x y z s ∧ μ ≤ (csqrt s.x).re ∧ μ ≤ (csqrt s.y).re ∧ μ ≤ (csqrt s.z).re)
        (fun s hs => ⟨hs.1.step, dup_re hs.1.1.1 hs.1.1.2.1 hs.1.1.2.2 hμ hs.2.1 hs.2.2.1 hs.2.2.2⟩) (s := dStep s0) ⟨hfirst, dup_re' hμ m1 m2 m3⟩
      rw [Function.iterate_succ_apply]
      refine ⟨(hinv k).1, Or.inl ?_, Or.inl ((hinv k).2.1.trans (Complex.re_le_norm _))⟩
      rcases k with _ | k
      · exact dup_NC (by linarith) (by linarith) (by linarith)
      · rw [Function.iterate_succ_apply']
        exact dup_NC (hinv k).1.1.sum3.1 (hinv k).1.1.sum3.2.1 (hinv k).1.1.sum3.2.2
  have hdx := f_diff x y z (dA0 x y z) k
  rw [show fStep^[k] ⟨x, y, z, dA0 x y z, 1⟩ = toF (dStep^[k] s0) from (toF_iter s0 k).symm] at hdx
  have hp0 : 0 < (dStep^[k] s0).pow4 := by rw [hp4]; positivity
  have hp1 : (dStep^[k] s0).pow4 ≤ 1 := by
    rw [hp4, div_le_one (by positivity)]
    exact one_le_pow₀ (by norm_num)
  simp only [elliprd]
  rw [if_neg (zeros_le_one' h hz), hk]
  simp only
  clear hk hn hn' n hfirst hp4
  generalize dStep^[k] s0 = st at *
  simp only [toF] at hdx
  obtain ⟨⟨⟨s1, s2, s3⟩, hbad, hRD⟩, hside, hlow⟩ := hgood
  simp only [toF] at s1 s2 s3
  rw [if_neg hbad]
  rw [not_lt, hQ, hκ] at hexit
  have hM : ∀ {d : ℂ}, ‖d‖ ≤ max (max ‖dA0 x y z - x‖ ‖dA0 x y z - y‖) ‖dA0 x y z - z‖ → ‖d‖ * st.pow4 ≤ ε * ‖st.A‖ := by
    intro d hd
    have : st.pow4 * (1 / ε * ‖d‖) ≤ ‖st.A‖ := le_trans (by gcongr) hexit
    have e : st.pow4 * (1 / ε * ‖d‖) = ‖d‖ * st.pow4 / ε := by ring
    rw [e, div_le_iff₀ hε0] at this
    linarith
  have n1 := hM (le_trans (le_max_left _ _) (le_max_left _ _) : ‖dA0 x y z - x‖ ≤ _)
  have n2 := hM (le_trans (le_max_right _ _) (le_max_left _ _) : ‖dA0 x y z - y‖ ≤ _)
  have n3 := hM (le_max_right _ _ : ‖dA0 x y z - z‖ ≤ _)
  have hsum0 : (dA0 x y z - x) + (dA0 x y z - y) + 3 * (dA0 x y z - z) = 0 := by simp only [dA0]; ring
  have hA0 : st.A ≠ 0 := by
    intro hA0
    rw [hA0, norm_zero, mul_zero] at n1
    have hd0 : dA0 x y z - x = 0 := by
      rw [← norm_le_zero_iff]
      by_contra hc
      have := mul_pos (not_le.mp hc) hp0
      linarith
    rw [hA0, hd0, zero_mul, zero_sub, neg_eq_zero] at hdx
    exact Complex.slitPlane_ne_zero s1 hdx
  have red : ∀ {d w : ℂ}, d * (st.pow4 / st.A) = (st.A - w) / st.A → ‖d‖ * st.pow4 ≤ ε * ‖st.A‖ → ‖(st.A - w) / st.A‖ ≤ ε := by
    intro d w hd hm
    rw [← hd, norm_mul, norm_div, Complex.norm_real, Real.norm_of_nonneg hp0.le, ← mul_div_assoc, div_le_iff₀ (norm_pos_iff.mpr hA0)]
    exact hm
  have hZ' : (dA0 x y z - z) * (st.pow4 / st.A) = (st.A - st.z) / st.A := by
    rw [← hZ]
    linear_combination (st.pow4 / st.A : ℂ) / 3 * hsum0
  have bX := red hX n1
  have bY := red hY n2
  have bZ := red hZ' n3
  have ew : ∀ w : ℂ, st.A * (1 - (st.A - w) / st.A) = w := fun w => by field_simp; ring
  have hs : (st.A - st.x) / st.A + (st.A - st.y) / st.A + 3 * ((st.A - st.z) / st.A) = 0 := by
    rw [← mul_div_assoc, ← add_div, ← add_div, div_eq_zero_iff]
    left
    linear_combination 5 * hA
  obtain ⟨g1, g2, g3⟩ := KGood_exit (c := 3) (by norm_num) (bX.trans hε4) (bY.trans hε4) (bZ.trans hε4) (by push_cast; exact hs) (A := st.A)
    (by rwa [ew]) (by rwa [ew]) (by rwa [ew]) (by rw [ew, ew, ew]; exact hside)
  have hrot := RDc_rotate hA0 g1 g2 g3
  rw [ew, ew, ew] at hrot
  have hser := RDc_series _ _ _ ε hε4 bX bY bZ hs
  have hlow' : 1 / (‖st.A‖ * ‖csqrt st.A‖) ≤ 7 / 5 / μ ^ 3 := by
    rcases hlow with hl | hl
    · exact A_lower hμ (bX.trans hε4) (by rwa [ew])
    · exact A_lower hμ (bY.trans hε4) (by rwa [ew])
  refine ⟨_, rfl, ?_⟩
  rw [hX, hY, hRD, hrot]
  generalize (st.A - st.x) / st.A = X at *
  generalize (st.A - st.y) / st.A = Y at *
  generalize (st.A - st.z) / st.A = Z at *
  have hcA := csqrt_ne0 hA0
  have e : 3 * st.s + (st.pow4 : ℂ) / st.A / csqrt st.A * dPoly X Y - (3 * st.s + st.pow4 * (RDc (1 - X) (1 - Y) (1 - Z) / (st.A * csqrt st.A))) =
      -((st.pow4 : ℂ) * (1 / (st.A * csqrt st.A)) * (RDc (1 - X) (1 - Y) (1 - Z) - dPoly X Y)) := by
    field_simp
    ring
  rw [e, norm_neg, norm_mul, norm_mul, norm_div, norm_mul, norm_one, Complex.norm_real, Real.norm_of_nonneg hp0.le]
  calc _ ≤ 1 * (7 / 5 / μ ^ 3) * (12 * ε ^ 6) := by gcongr
    _ = 21 / 5 * EPS eps / μ ^ 3 := by rw [hε6]; ring
    _ ≤ _ := by gcongr; norm_num

/-! ### Examples -/

/-- Three complex arguments, two of them conjugate: `x = (1 + i)²`, `y = (1 - i)²`, `z = (2 + i)²`. -/
example : ∃ v, elliprd (1 / 2 ^ 52) ((1 + Complex.I) ^ 2) ((1 - Complex.I) ^ 2) ((2 + Complex.I) ^ 2) = .val v ∧
    ‖v - RDc ((1 + Complex.I) ^ 2) ((1 - Complex.I) ^ 2) ((2 + Complex.I) ^ 2)‖ ≤ 5 * EPS (1 / 2 ^ 52) / 1 ^ 3 := by
  have s : ∀ {w : ℂ}, 0 < w.re → w ^ 2 ∈ Complex.slitPlane := fun hw => by rw [pow_two]; exact slit_mul_of_re hw hw
  have r1 : 0 < (1 + Complex.I : ℂ).re := by simp
  have r2 : 0 < (1 - Complex.I : ℂ).re := by simp
  have r3 : 0 < (2 + Complex.I : ℂ).re := by simp
  have n1 := Complex.slitPlane_ne_zero (s r1)
  have n3 := Complex.slitPlane_ne_zero (s r3)
  refine C148_elliprd (by norm_num) (by norm_num) ⟨Or.inr (s r1), Or.inr (s r2), Or.inr (s r3), Or.inl n1, Or.inl n1, Or.inr n3, Or.inr (Or.inl ?_)⟩ n3 one_pos ?_ ?_ ?_
  · simp [pow_two]
  all_goals
    rw [csqrt_of_sq (by assumption), csqrt_of_sq (by assumption)]
    norm_num

/-- One argument zero. -/
example : ∃ v, elliprd (1 / 2 ^ 52) 0 ((1 - Complex.I) ^ 2) ((2 + Complex.I) ^ 2) = .val v ∧
    ‖v - RDc 0 ((1 - Complex.I) ^ 2) ((2 + Complex.I) ^ 2)‖ ≤ 5 * EPS (1 / 2 ^ 52) / (1 / 2) ^ 3 := by
  have s : ∀ {w : ℂ}, 0 < w.re → w ^ 2 ∈ Complex.slitPlane := fun hw => by rw [pow_two]; exact slit_mul_of_re hw hw
  have r2 : 0 < (1 - Complex.I : ℂ).re := by simp
  have r3 : 0 < (2 + Complex.I : ℂ).re := by simp
  have n2 := Complex.slitPlane_ne_zero (s r2)
  have n3 := Complex.slitPlane_ne_zero (s r3)
  have z0 : csqrt 0 = 0 := csqrt_eq_zero.mpr rfl
  refine C148_elliprd (by norm_num) (by norm_num) ⟨Or.inl rfl, Or.inr (s r2), Or.inr (s r3), Or.inr n2, Or.inr n3, Or.inr n3, Or.inr (Or.inl ?_)⟩ n3 (by norm_num) ?_ ?_ ?_
  · simp
  · rw [z0, csqrt_of_sq r2]; norm_num
  · rw [z0, csqrt_of_sq r3]; norm_num
  · rw [csqrt_of_sq r2, csqrt_of_sq r3]; norm_num

end Verif.Ellred

import Verif.Ellred.ComplexDRun
import Verif.Ellred.ComplexJRun

/-! # `elliprj` with complex arguments, the first of them zero (C150) -/

namespace Verif.Ellred

open MeasureTheory Set Filter Topology Verif.Carlson

/-- `R_J` is continuous where its first argument tends to zero from the right. -/
theorem RJc_zero_limit {y z p : ℂ} (hy : y ∈ Complex.slitPlane) (hz : z ∈ Complex.slitPlane) (hp : p ∈ Complex.slitPlane) :
    Tendsto (fun r : ℝ => RJc ((r ^ 2 : ℝ) : ℂ) y z p) (𝓝[>] 0) (𝓝 (RJc 0 y z p)) := by
  simp only [RJc]
  apply Tendsto.const_mul
  obtain ⟨hc, C, hC, hb⟩ := (((Dec.inv_sqrt hy).mul (Dec.inv_sqrt hz)).mul (Dec.inv hp)).mono (l := 1) (by norm_num)
  have hI := (Args.integrable (x := 0) (y := 1) (z := 1) ⟨by norm_num, by norm_num, by norm_num, by norm_num, by norm_num, by norm_num⟩).const_mul C
  refine tendsto_integral_filter_of_dominated_convergence _ ?_ ?_ hI ?_
  · filter_upwards [self_mem_nhdsWithin] with r hr
    have hr' : ((r ^ 2 : ℝ) : ℂ) ∈ Complex.slitPlane := re_slit (by rw [Complex.ofReal_re]; exact pow_pos hr 2)
    exact ((RJ_dec hr' hy hz hp).integrable (by norm_num)).aestronglyMeasurable
  · filter_upwards with r
    rw [ae_restrict_iff' measurableSet_Ioi]
    refine Eventually.of_forall fun t ht => ?_
    have ht0 : 0 < t := ht
    rw [← Complex.ofReal_add, csqrt_ofReal (by positivity), mul_assoc, mul_assoc, ← one_div_mul_one_div, norm_mul]
    have h1 := hb t ht0.le
    have h2 : ‖1 / ((√(t + r ^ 2) : ℝ) : ℂ)‖ ≤ 1 / √(t + 0) := by
      rw [norm_div, norm_one, Complex.norm_real, Real.norm_of_nonneg (Real.sqrt_nonneg _)]
      apply one_div_le_one_div_of_le (Real.sqrt_pos.mpr (by linarith))
      apply Real.sqrt_le_sqrt
      nlinarith [sq_nonneg r]
    have h3 : (1 + t) ^ (-(1 : ℝ)) = 1 / (√(t + 1) * √(t + 1)) := by
      rw [Real.mul_self_sqrt (by linarith)]
      norm_num
      rw [Real.rpow_neg_one, add_comm]
    rw [h3] at h1
    have h4 : 1 / (csqrt ((t : ℂ) + y) * (csqrt ((t : ℂ) + z) * ((t : ℂ) + p))) =
        1 / csqrt ((t : ℂ) + y) * (1 / csqrt ((t : ℂ) + z)) * (1 / ((t : ℂ) + p)) := by rw [one_div_mul_one_div, one_div_mul_one_div, mul_assoc]
    rw [h4]
    calc _ ≤ 1 / √(t + 0) * (C * (1 / (√(t + 1) * √(t + 1)))) := mul_le_mul h2 h1 (norm_nonneg _) (by positivity)
      _ = _ := by field_simp
  · rw [ae_restrict_iff' measurableSet_Ioi]
    refine Eventually.of_forall fun t ht => ?_
    have ht0 : 0 < t := ht
    have e : ∀ r : ℝ, 1 / (csqrt ((t : ℂ) + ((r ^ 2 : ℝ) : ℂ)) * csqrt ((t : ℂ) + y) * csqrt ((t : ℂ) + z) * ((t : ℂ) + p)) =
        1 / (((√(t + r ^ 2) : ℝ) : ℂ) * csqrt ((t : ℂ) + y) * csqrt ((t : ℂ) + z) * ((t : ℂ) + p)) := fun r => by
      rw [← Complex.ofReal_add, csqrt_ofReal (by positivity)]
    have e0 : csqrt ((t : ℂ) + 0) = ((√(t + 0 ^ 2) : ℝ) : ℂ) := by
      rw [add_zero, csqrt_ofReal ht0.le]; norm_num
    simp only [e, e0]
    refine Tendsto.mono_left ?_ nhdsWithin_le_nhds
    have hcont : ContinuousAt (fun r : ℝ => 1 / (((√(t + r ^ 2) : ℝ) : ℂ) * csqrt ((t : ℂ) + y) * csqrt ((t : ℂ) + z) * ((t : ℂ) + p))) 0 := by
      apply ContinuousAt.div continuousAt_const
      · refine ContinuousAt.mul (ContinuousAt.mul (ContinuousAt.mul ?_ continuousAt_const) continuousAt_const) continuousAt_const
        exact Complex.continuous_ofReal.continuousAt.comp (Real.continuous_sqrt.continuousAt.comp (by fun_prop))
      · refine mul_ne_zero (mul_ne_zero (mul_ne_zero ?_ (sqrt_ne hy ht0.le)) (sqrt_ne hz ht0.le)) (far_ne hp ht0.le)
        have : 0 < √(t + 0 ^ 2) := Real.sqrt_pos.mpr (by linarith)
        exact_mod_cast this.ne'
    exact hcont.tendsto

/-- The domain with `x = 0`. -/
def JDom0 (y z p : ℂ) : Prop := (0 < y.re ∧ 0 < z.re ∧ 0 < p.re) ∨ ∃ P : ℝ, 0 < P ∧ p = P ∧ y ∈ Complex.slitPlane ∧ z = (starRingEnd ℂ) y

theorem csqrt_zero' : csqrt 0 = 0 := csqrt_eq_zero.mpr rfl

namespace JDom0

variable {y z p κ : ℂ}

theorem near (h : JDom0 y z p) {r : ℝ} (hr : 0 < r) : JDom ((r ^ 2 : ℝ) : ℂ) y z p := by
  rcases h with ⟨h1, h2, h3⟩ | ⟨P, hP, rfl, hy, rfl⟩
  · exact Or.inl ⟨by rw [Complex.ofReal_re]; positivity, h1, h2, h3⟩
  · exact Or.inr ⟨r ^ 2, P, by positivity, hP, rfl, rfl, hy, rfl⟩

theorem slit (h : JDom0 y z p) : y ∈ Complex.slitPlane ∧ z ∈ Complex.slitPlane ∧ p ∈ Complex.slitPlane := (h.near one_pos).slit.2

theorem step (h : JDom0 y z p) : JDom ((0 + lmOf 0 y z) / 4) ((y + lmOf 0 y z) / 4) ((z + lmOf 0 y z) / 4) ((p + lmOf 0 y z) / 4) := by
  have hl : lmOf 0 y z = csqrt y * csqrt z := by rw [lmOf, csqrt_zero']; ring
  rw [hl]
  rcases h with ⟨h1, h2, h3⟩ | ⟨P, hP, rfl, hy, rfl⟩
  · have key : ∀ {w : ℂ}, 0 < w.re → |(csqrt w).im| < (csqrt w).re := fun {w} hw => by
      have e := congrArg Complex.re (csqrt_sq w)
      rw [Complex.mul_re] at e
      have h0 := csqrt_re w
      rw [← abs_of_nonneg h0, ← sq_lt_sq]
      nlinarith
    have k1 := key h1
    have k2 := key h2
    have : 0 < (csqrt y * csqrt z).re := by
      rw [Complex.mul_re]
      have h3 : |(csqrt y).im * (csqrt z).im| < (csqrt y).re * (csqrt z).re := by
        rw [abs_mul]
        exact mul_lt_mul'' k1 k2 (abs_nonneg _) (abs_nonneg _)
      linarith [le_abs_self ((csqrt y).im * (csqrt z).im)]
    refine Or.inl ⟨?_, ?_, ?_, ?_⟩ <;> (rw [re_add_div4]; first | linarith | (rw [Complex.zero_re]; linarith))
  · have hn : csqrt y * csqrt ((starRingEnd ℂ) y) = ((Complex.normSq (csqrt y) : ℝ) : ℂ) := by rw [csqrt_conj' hy, Complex.mul_conj]
    have hn0 : 0 < Complex.normSq (csqrt y) := Complex.normSq_pos.mpr (csqrt_ne0 (Complex.slitPlane_ne_zero hy))
    rw [hn]
    generalize Complex.normSq (csqrt y) = l at *
    refine Or.inr ⟨(0 + l) / 4, (P + l) / 4, by positivity, by positivity, by push_cast; ring, by push_cast; ring, ?_, ?_⟩
    · apply slit_quarter
      exact slit_add hy hn0.le
    · rw [map_div₀, map_add, Complex.conj_ofReal, map_ofNat]

theorem disc (h : JDom0 y z p) (hκ : κ ^ 2 = (p - 0) * (p - y) * (p - z)) : ‖κ / dmOf 0 y z p‖ < 1 := by
  obtain ⟨-, n2, n3⟩ := (h.near one_pos).nc
  have l2 := NC_lt n2
  have l3 := NC_lt n3
  have hp0 : 0 < ‖csqrt p‖ := norm_pos_iff.mpr (csqrt_ne0 (Complex.slitPlane_ne_zero h.slit.2.2))
  have hk : ‖κ‖ ^ 2 = (‖csqrt p‖ * ‖csqrt p - csqrt y‖ * ‖csqrt p - csqrt z‖) * (‖csqrt p‖ * ‖csqrt p + csqrt y‖ * ‖csqrt p + csqrt z‖) := by
    simp only [← norm_mul, ← norm_pow]
    congr 1
    rw [hκ]
    have e2 := csqrt_sq y
    have e3 := csqrt_sq z
    have e4 := csqrt_sq p
    generalize csqrt y = b at *
    generalize csqrt z = c at *
    generalize csqrt p = q at *
    rw [← e2, ← e3, ← e4]
    ring
  have hlt : ‖csqrt p‖ * ‖csqrt p - csqrt y‖ * ‖csqrt p - csqrt z‖ < ‖csqrt p‖ * ‖csqrt p + csqrt y‖ * ‖csqrt p + csqrt z‖ :=
    mul_lt_mul'' (mul_lt_mul_of_pos_left l2 hp0) l3 (by positivity) (norm_nonneg _)
  have hd : ‖dmOf 0 y z p‖ = ‖csqrt p‖ * ‖csqrt p + csqrt y‖ * ‖csqrt p + csqrt z‖ := by rw [dmOf, norm_mul, norm_mul, csqrt_zero', add_zero]
  have h0 : 0 ≤ ‖csqrt p‖ * ‖csqrt p - csqrt y‖ * ‖csqrt p - csqrt z‖ := by positivity
  rw [← hd] at hk hlt
  have hdp : 0 < ‖dmOf 0 y z p‖ := by linarith
  rw [norm_div, div_lt_one hdp]
  nlinarith [norm_nonneg κ]

theorem dm_ne (h : JDom0 y z p) : dmOf 0 y z p ≠ 0 := by
  obtain ⟨s2, s3, s4⟩ := h.slit
  have key : ∀ {w : ℂ}, w ∈ Complex.slitPlane → csqrt p + csqrt w ≠ 0 := fun hw e => by simpa [e] using re_sum_pos s4 hw
  rw [dmOf, csqrt_zero', add_zero]
  exact mul_ne_zero (mul_ne_zero (csqrt_ne0 (Complex.slitPlane_ne_zero s4)) (key s2)) (key s3)

/-- The duplication theorem for `R_J` with a zero argument. -/
theorem dup (h : JDom0 y z p) (hκ : κ ^ 2 = (p - 0) * (p - y) * (p - z)) (hκ0 : κ ≠ 0) :
    RJc 0 y z p = 1 / 4 * RJc ((0 + lmOf 0 y z) / 4) ((y + lmOf 0 y z) / 4) ((z + lmOf 0 y z) / 4) ((p + lmOf 0 y z) / 4) +
      6 * (Complex.arctan (κ / dmOf 0 y z p) / κ) := by
  obtain ⟨hy, hz, hp⟩ := h.slit
  obtain ⟨k1, k2, k3, k4⟩ := h.step.slit
  have hp0 := csqrt_ne0 (Complex.slitPlane_ne_zero hp)
  let L : ℝ → ℂ := fun r => (r : ℂ) * csqrt y + (r : ℂ) * csqrt z + csqrt y * csqrt z
  let M : ℝ → ℂ := fun r => (csqrt p + r) * (csqrt p + csqrt y) * (csqrt p + csqrt z)
  let K : ℝ → ℂ := fun r => κ / csqrt p * csqrt (p - ((r ^ 2 : ℝ) : ℂ))
  have hL0 : L 0 = lmOf 0 y z := by simp [L, lmOf, csqrt_zero']
  have hM0 : M 0 = dmOf 0 y z p := by simp [M, dmOf, csqrt_zero']
  have hK0 : K 0 = κ := by
    simp only [K]
    norm_num
    field_simp
  have hL : HasDerivAt L (csqrt y + csqrt z) 0 := by
    have h := (hasDerivAt_id (0 : ℝ)).ofReal_comp
    exact (((h.mul_const (csqrt y)).add (h.mul_const (csqrt z))).add_const (csqrt y * csqrt z)).congr_deriv (by simp)
  have hsq : HasDerivAt (fun r : ℝ => ((r ^ 2 : ℝ) : ℂ)) 0 0 := ((hasDerivAt_pow 2 (0 : ℝ)).ofReal_comp).congr_deriv (by simp)
  have hD := RJc_deriv ((hsq.add hL).div_const 4) ((hL.const_add y).div_const 4) ((hL.const_add z).div_const 4) ((hL.const_add p).div_const 4)
    (by simpa [hL0] using k1) (by simpa [hL0] using k2) (by simpa [hL0] using k3) (by simpa [hL0] using k4)
  have cM : ContinuousAt M 0 := by simp only [M]; fun_prop
  have cK : ContinuousAt K 0 := by
    simp only [K]
    refine continuousAt_const.mul ?_
    have c1 : ContinuousAt (fun r : ℝ => p - ((r ^ 2 : ℝ) : ℂ)) 0 := by fun_prop
    exact c1.cpow continuousAt_const (by simpa using hp)
  have cq : ContinuousAt (fun r => Complex.arctan (K r / M r) / K r) 0 := by
    refine ContinuousAt.div ?_ cK (by rw [hK0]; exact hκ0)
    have hdisc : ‖K 0 / M 0‖ < 1 := by rw [hK0, hM0]; exact h.disc hκ
    exact ContinuousAt.comp (f := fun r => K r / M r) (g := Complex.arctan) (arctan_deriv hdisc).continuousAt (cK.div cM (by rw [hM0]; exact h.dm_ne))
  have h1 := ((hD.continuousAt.const_mul (1 / 4 : ℂ)).add (cq.const_mul (6 : ℂ))).tendsto.mono_left (nhdsWithin_le_nhds (s := Ioi (0 : ℝ)))
  have h2 := RJc_zero_limit hy hz hp
  refine tendsto_nhds_unique h2 (?_ : Tendsto _ (𝓝[>] (0 : ℝ)) _)
  have e0 : 1 / 4 * RJc ((0 + lmOf 0 y z) / 4) ((y + lmOf 0 y z) / 4) ((z + lmOf 0 y z) / 4) ((p + lmOf 0 y z) / 4) + 6 * (Complex.arctan (κ / dmOf 0 y z p) / κ) =
      1 / 4 * RJc ((((0 : ℝ) ^ 2 : ℝ) + L 0) / 4) ((y + L 0) / 4) ((z + L 0) / 4) ((p + L 0) / 4) + 6 * (Complex.arctan (K 0 / M 0) / K 0) := by
    rw [hL0, hM0, hK0]; norm_num
  rw [e0]
  refine h1.congr' ?_
  have hKne : ∀ᶠ r in 𝓝[>] (0 : ℝ), K r ≠ 0 := (cK.eventually_ne (by rw [hK0]; exact hκ0)).filter_mono nhdsWithin_le_nhds
  filter_upwards [self_mem_nhdsWithin, hKne] with r hr hKr
  have hr0 : 0 < r := hr
  have hrs : csqrt ((r ^ 2 : ℝ) : ℂ) = r := by rw [csqrt_ofReal (by positivity), Real.sqrt_sq hr0.le]
  have hlm : lmOf ((r ^ 2 : ℝ) : ℂ) y z = L r := by simp only [lmOf, hrs, L]
  have hdm : dmOf ((r ^ 2 : ℝ) : ℂ) y z p = M r := by simp only [dmOf, hrs, M]
  have hKs : K r ^ 2 = (p - ((r ^ 2 : ℝ) : ℂ)) * (p - y) * (p - z) := by
    have e1 := csqrt_sq p
    have e2 := csqrt_sq (p - ((r ^ 2 : ℝ) : ℂ))
    simp only [K]
    rw [mul_pow, div_pow, hκ, pow_two (csqrt (p - ((r ^ 2 : ℝ) : ℂ))), e2, pow_two, e1]
    have := Complex.slitPlane_ne_zero hp
    field_simp
    ring
  have := (h.near hr0).dup hKs hKr
  rw [hlm, hdm] at this
  exact this.symm

theorem inv (h : JDom0 y z p) {δ : ℂ} (hδd : δ = (p - 0) * (p - y) * (p - z)) (hδ : δ ≠ 0) :
    JInv δ 0 y z p (jStep δ ⟨0, y, z, p, jA0 0 y z p, 1, 0, 0, False⟩) := by
  have hdm := h.dm_ne
  set em := δ * (1 / 4 ^ (3 * 0)) / (dmOf 0 y z p * dmOf 0 y z p) with hem
  have hem0 : csqrt em ≠ 0 := csqrt_ne0 (div_ne_zero (by simpa using hδ) (mul_ne_zero hdm hdm))
  refine ⟨h.step, ?_, ?_, ?_⟩
  · simp only [jStep]
    rintro (k | k | k)
    · exact k
    · exact hdm k
    · exact hem0 k
  · simp only [jStep]
    rw [hδd]
    ring
  · have hκ : (csqrt em * dmOf 0 y z p) ^ 2 = (p - 0) * (p - y) * (p - z) := by
      rw [mul_pow, pow_two, csqrt_sq, hem, hδd]
      field_simp
      simp
    rw [h.dup hκ (mul_ne_zero hem0 hdm), mul_div_cancel_right₀ _ hdm]
    simp only [jStep]
    rw [← hem]
    push_cast
    field_simp
    ring

end JDom0

/-- **C150** `elliprj` with `x = 0`, the others in the right half plane, or `p` positive and `y`, `z` conjugate and off the cut, with `p` different from `y` and `z`. -/
theorem C150_elliprj_zero {eps : ℝ} (h0 : 0 < eps) (h1 : eps ≤ 1 / 2 ^ 20) {y z p : ℂ}
    (h : (0 < y.re ∧ 0 < z.re ∧ 0 < p.re) ∨ ∃ P : ℝ, 0 < P ∧ p = P ∧ y ∈ Complex.slitPlane ∧ z = (starRingEnd ℂ) y) (hy : p ≠ y) (hz : p ≠ z) {μ : ℝ} (hμ : 0 < μ)
    (m1 : 2 * μ ≤ (csqrt y).re) (m2 : 2 * μ ≤ (csqrt z).re) :
    ∃ v, elliprj eps 0 y z p = .val v ∧ ‖v - RJc 0 y z p‖ ≤ 4400 * eps / μ ^ 3 := by
  have h : JDom0 y z p := h
  obtain ⟨s2, s3, s4⟩ := h.slit
  have hp0 := Complex.slitPlane_ne_zero s4
  have hδ : (p - 0) * (p - y) * (p - z) ≠ 0 := mul_ne_zero (mul_ne_zero (by rwa [sub_zero]) (sub_ne_zero.mpr hy)) (sub_ne_zero.mpr hz)
  obtain ⟨v, n, hv, hst⟩ := J_core' h0 h1 (x := 0) (y := y) (z := z) (p := p) (by
      unfold isZero
      rw [if_pos rfl, if_neg (Complex.slitPlane_ne_zero s2), if_neg (Complex.slitPlane_ne_zero s3)]
      rintro (k | k)
      · exact hp0 k
      · omega) (Or.inr rfl) (by
      obtain ⟨k1, k2, k3, -⟩ := h.step.slit
      exact ⟨k1, k2, k3⟩) hδ (h.inv rfl hδ)
  have q1 := csqrt_re y
  have q2 := csqrt_re z
  exact ⟨v, hv, J_abs h0 h.step hμ (by rwa [csqrt_zero', zero_add]) (by rwa [csqrt_zero', zero_add]) (by rw [Complex.add_re]; linarith) hst⟩

/-- `y = 1 + 2i`, `z = 1/2 - i`, `p = 3 + i`. -/
example : ∃ μ : ℝ, 0 < μ ∧ ∃ v, elliprj (1 / 2 ^ 52) 0 (1 + 2 * Complex.I) (1 / 2 - Complex.I) (3 + Complex.I) = .val v ∧
    ‖v - RJc 0 (1 + 2 * Complex.I) (1 / 2 - Complex.I) (3 + Complex.I)‖ ≤ 4400 * (1 / 2 ^ 52) / μ ^ 3 := by
  have r2 : (1 + 2 * Complex.I) ∈ Complex.slitPlane := Or.inl (by simp)
  have r3 : (1 / 2 - Complex.I) ∈ Complex.slitPlane := Or.inl (by norm_num)
  have q1 := csqrt_re_pos r2
  have q2 := csqrt_re_pos r3
  have q3 := lt_min q1 q2
  refine ⟨min (csqrt (1 + 2 * Complex.I)).re (csqrt (1 / 2 - Complex.I)).re / 2, by linarith, C150_elliprj_zero (by norm_num) (by norm_num) (Or.inl ⟨by simp, by norm_num, by simp⟩)
    (fun e => ?_) (fun e => ?_) (by linarith) ?_ ?_⟩
  · simpa using congrArg Complex.re e
  · have := congrArg Complex.im e
    norm_num at this
  · linarith [min_le_left (csqrt (1 + 2 * Complex.I)).re (csqrt (1 / 2 - Complex.I)).re]
  · linarith [min_le_right (csqrt (1 + 2 * Complex.I)).re (csqrt (1 / 2 - Complex.I)).re]

end Verif.Ellred

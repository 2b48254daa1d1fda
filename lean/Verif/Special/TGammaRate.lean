import Verif.Special.TGammaLimit
import Verif.Special.GammaIncGrad
import Mathlib.Analysis.Complex.LocallyUniformLimit
import Mathlib.Analysis.Complex.RemovableSingularity

/-!
# The error of `Tgamma(3, a, x)` is proportional to the step (C111)
-/

open Filter Topology Complex Asymptotics

namespace Verif.Special

/-! ### Holomorphy in the step -/

theorem rising_diff (n : ℕ) : Differentiable ℂ fun x => rising x n := by
  unfold rising
  exact fun x => DifferentiableAt.fun_finsetProd fun k _ => by fun_prop

/-- A hypergeometric function whose parameters move linearly with `h` is holomorphic in `h` near `0`, unless a lower
parameter is a pole there. -/
theorem hyp_holo (α β p q s t z : ℂ) {γ δ : ℂ} (hγ : ∀ k : ℕ, γ ≠ -(k : ℂ)) (hδ : ∀ k : ℕ, δ ≠ -(k : ℂ)) :
    ∃ ρ > 0, DifferentiableOn ℂ (fun h => ∑' n, hypTerm [α + p * h, β + q * h] [γ + s * h, δ + t * h] z n)
      (Metric.ball 0 ρ) := by
  obtain ⟨r, hr, h1⟩ := away_from_poles hγ
  obtain ⟨r', hr', h2⟩ := away_from_poles hδ
  set m := min r r' with hm
  have hm0 : 0 < m := lt_min hr hr'
  set ρ := min 1 (m / (1 + ‖s‖ + ‖t‖)) with hρ
  have hden : 0 < 1 + ‖s‖ + ‖t‖ := by positivity
  have hρ0 : 0 < ρ := lt_min one_pos (div_pos hm0 hden)
  have hlow : ∀ (c : ℂ), ‖c‖ ≤ 1 + ‖s‖ + ‖t‖ → ∀ h ∈ Metric.ball (0 : ℂ) ρ, ‖c * h‖ ≤ m := by
    intro c hc h hh
    rw [mem_ball_zero_iff] at hh
    have : ‖h‖ ≤ m / (1 + ‖s‖ + ‖t‖) := hh.le.trans (min_le_right _ _)
    rw [norm_mul]
    calc ‖c‖ * ‖h‖ ≤ (1 + ‖s‖ + ‖t‖) * (m / (1 + ‖s‖ + ‖t‖)) := by gcongr
      _ = m := by field_simp
  have hs : ∀ h ∈ Metric.ball (0 : ℂ) ρ, ∀ k : ℕ, m * (k + 1) ≤ ‖γ + s * h + k‖ := fun h hh k =>
    le_trans (by gcongr; exact min_le_left _ _)
      (h1 _ ((hlow s (by linarith [norm_nonneg t]) h hh).trans (min_le_left _ _)) k)
  have ht : ∀ h ∈ Metric.ball (0 : ℂ) ρ, ∀ k : ℕ, m * (k + 1) ≤ ‖δ + t * h + k‖ := fun h hh k =>
    le_trans (by gcongr; exact min_le_right _ _)
      (h2 _ ((hlow t (by linarith [norm_nonneg s]) h hh).trans (min_le_right _ _)) k)
  set R := 1 + ‖α‖ + ‖p‖ + ‖β‖ + ‖q‖ with hR
  have hup : ∀ (c d : ℂ), ‖c‖ + ‖d‖ ≤ ‖α‖ + ‖p‖ + ‖β‖ + ‖q‖ → ∀ h ∈ Metric.ball (0 : ℂ) ρ, ∀ k : ℕ,
      ‖c + d * h + k‖ ≤ R * (k + 1) := by
    intro c d hcd h hh k
    rw [mem_ball_zero_iff] at hh
    have hh1 : ‖h‖ ≤ 1 := hh.le.trans (min_le_left _ _)
    have e1 : ‖c + d * h + k‖ ≤ ‖c‖ + ‖d‖ * ‖h‖ + k := by
      refine (norm_add_le _ _).trans ?_
      rw [Complex.norm_natCast]
      have := norm_add_le c (d * h)
      rw [norm_mul] at this
      linarith
    have e2 : ‖d‖ * ‖h‖ ≤ ‖d‖ := mul_le_of_le_one_right (norm_nonneg _) hh1
    have hk : (0 : ℝ) ≤ k := by positivity
    have hR0 : 0 ≤ ‖c‖ + ‖d‖ := by positivity
    have : 0 ≤ (R - 1) * k := mul_nonneg (by simp only [hR]; linarith) hk
    simp only [hR] at this ⊢
    nlinarith
  have hR0 : 0 ≤ R := by positivity
  have n1 : ∀ h ∈ Metric.ball (0 : ℂ) ρ, ∀ n, rising (γ + s * h) n ≠ 0 := fun h hh n => by
    rw [← norm_pos_iff]
    exact lt_of_lt_of_le (by positivity) (rising_ge hm0.le (hs h hh) n)
  have n2 : ∀ h ∈ Metric.ball (0 : ℂ) ρ, ∀ n, rising (δ + t * h) n ≠ 0 := fun h hh n => by
    rw [← norm_pos_iff]
    exact lt_of_lt_of_le (by positivity) (rising_ge hm0.le (ht h hh) n)
  refine ⟨ρ, hρ0, differentiableOn_tsum_of_summable_norm (u := fun n => (R ^ 2 / m ^ 2 * ‖z‖) ^ n / n.factorial)
    (Real.summable_pow_div_factorial _) (fun n => ?_) Metric.isOpen_ball fun n h hh => ?_⟩
  · simp only [hypTerm_two]
    intro h hh
    refine DifferentiableAt.differentiableWithinAt ?_
    refine DifferentiableAt.div_const (DifferentiableAt.mul_const (DifferentiableAt.div ?_ ?_ ?_) _) _
    · exact ((rising_diff n).comp (by fun_prop : Differentiable ℂ fun h : ℂ => α + p * h)).mul
        ((rising_diff n).comp (by fun_prop : Differentiable ℂ fun h : ℂ => β + q * h)) |>.differentiableAt
    · exact ((rising_diff n).comp (by fun_prop : Differentiable ℂ fun h : ℂ => γ + s * h)).mul
        ((rising_diff n).comp (by fun_prop : Differentiable ℂ fun h : ℂ => δ + t * h)) |>.differentiableAt
    · exact mul_ne_zero (n1 h hh n) (n2 h hh n)
  · rw [hypTerm_two, norm_div, norm_mul, norm_div, norm_mul, norm_mul, norm_pow, Complex.norm_natCast]
    have b1 := rising_le (hup α p (by linarith [norm_nonneg β, norm_nonneg q]) h hh) n
    have b2 := rising_le (hup β q (by linarith [norm_nonneg α, norm_nonneg p]) h hh) n
    have b3 := rising_ge hm0.le (hs h hh) n
    have b4 := rising_ge hm0.le (ht h hh) n
    have hf : (0 : ℝ) < n.factorial := by positivity
    calc _ ≤ (R ^ n * n.factorial) * (R ^ n * n.factorial) /
          ((m ^ n * n.factorial) * (m ^ n * n.factorial)) * ‖z‖ ^ n / n.factorial := by gcongr
      _ = _ := by
        rw [mul_pow, div_pow, ← pow_mul, ← pow_mul, mul_comm 2 n, pow_mul, pow_mul]
        field_simp

/-- A quotient `W(h) / h` with `W` holomorphic at `0 = W(0)` has a limit, approached at a rate proportional to `h`. -/
theorem rate {U W : ℂ → ℂ} {ρ : ℝ} (hρ : 0 < ρ) (hU : DifferentiableOn ℂ U (Metric.ball 0 ρ))
    (hW : DifferentiableOn ℂ W (Metric.ball 0 ρ)) (h0 : W 0 = 0) {L : ℂ}
    (hL : Tendsto (fun h : ℝ => U h + W h / h) (𝓝[>] 0) (𝓝 L)) :
    ∃ C δ : ℝ, 0 < C ∧ 0 < δ ∧ ∀ h : ℝ, 0 < h → h < δ → ‖U h + W h / h - L‖ ≤ C * h := by
  have hb : Metric.ball (0 : ℂ) ρ ∈ 𝓝 (0 : ℂ) := Metric.ball_mem_nhds _ hρ
  have hd : DifferentiableOn ℂ (dslope W 0) (Metric.ball 0 ρ) := (Complex.differentiableOn_dslope hb).mpr hW
  have hg : DifferentiableAt ℂ (fun h => U h + dslope W 0 h) 0 := (hU.differentiableAt hb).add (hd.differentiableAt hb)
  have heq : ∀ h : ℝ, 0 < h → U h + W h / h = U h + dslope W 0 h := fun h hh => by
    rw [dslope_of_ne _ (ofReal_ne_zero.2 hh.ne'), slope, h0]
    simp [div_eq_inv_mul]
  have hof : Tendsto (fun h : ℝ => (h : ℂ)) (𝓝[>] 0) (𝓝 0) := by
    have := (continuous_ofReal.tendsto (0 : ℝ)).mono_left (nhdsWithin_le_nhds (s := Set.Ioi 0))
    simpa using this
  have hlim : L = U 0 + dslope W 0 0 := by
    refine tendsto_nhds_unique hL ?_
    refine (hg.continuousAt.tendsto.comp hof).congr' ?_
    filter_upwards [self_mem_nhdsWithin] with h hh
    exact (heq h hh).symm
  obtain ⟨C, hC, hO⟩ := (hg.isBigO_sub).exists_pos
  have hO' := hof.eventually hO.bound
  rw [eventually_nhdsWithin_iff] at hO'
  obtain ⟨δ, hδ, hδ'⟩ := Metric.eventually_nhds_iff.mp hO'
  refine ⟨C, δ, hC, hδ, fun h hh hlt => ?_⟩
  have := hδ' (y := h) (by rw [dist_zero_right, Real.norm_eq_abs, abs_of_pos hh]; exact hlt) hh
  rw [heq h hh, hlim]
  simpa [abs_of_pos hh] using this

/-- `prefac` for complex `h`. -/
noncomputable def cprefac (a x s t u v w h : ℂ) : ℂ :=
  Gamma (a + s * h) * Gamma (1 + t * h) / (Gamma (1 + u * h) * Gamma (1 + v * h)) * x ^ (w * h - 1)

/-- A statement about a neighbourhood of `0` holds on a ball. -/
theorem gamma_holo {c : ℂ} (hc : ∀ k : ℕ, c ≠ -(k : ℂ)) (s : ℂ) : ∀ᶠ h in 𝓝 (0 : ℂ),
    DifferentiableAt ℂ (fun h => Gamma (c + s * h)) h ∧ Gamma (c + s * h) ≠ 0 := by
  obtain ⟨r, hr, h1⟩ := away_from_poles hc
  have hs : ∀ᶠ h in 𝓝 (0 : ℂ), ‖s * h‖ ≤ r := by
    have : Continuous fun h : ℂ => ‖s * h‖ := by fun_prop
    have h2 := this.tendsto 0
    simp only [mul_zero, norm_zero] at h2
    exact h2.eventually (ge_mem_nhds hr)
  filter_upwards [hs] with h hh
  have hp : ∀ k : ℕ, c + s * h ≠ -(k : ℂ) := fun k e => by
    have := h1 _ hh k
    rw [e, neg_add_cancel, norm_zero] at this
    have : 0 < r * (k + 1) := by positivity
    linarith
  exact ⟨(differentiableAt_Gamma _ hp).comp h (by fun_prop : DifferentiableAt ℂ (fun h => c + s * h) h), Gamma_ne_zero hp⟩

/-- **C111 (m = 3), partial.** The error of `Tgamma(3, a, x)` is at most proportional to the step `h` of the perturbation (with
exact gamma functions and series, and for small steps). -/
theorem C111_Tgamma_three_rate_partial (eps : ℝ) {a x : ℝ} (ha : 0 < a) (hn : ∀ n : ℕ, a ≠ n) (hx : 0 < x) :
    ∃ C δ : ℝ, 0 < C ∧ 0 < δ ∧ ∀ h : ℝ, 0 < h → h < δ →
      ∃ V, TgammaWith exactGam exactHyp eps h 3 a x = .ok (some V) ∧ ‖V - TInt 3 a x‖ ≤ C * h := by
  obtain ⟨V, hV, hlim⟩ := C111_Tgamma_three_partial eps ha hn hx
  have hgv : gv exactGam = Gamma := by funext z; simp [gv, exactGam]
  set F0 : ℂ → ℂ := fun h => ∑' n, hypTerm [(a : ℂ) + 2 * h, a + 1 * h] [(a : ℂ) + 1 + -1 * h, a + 1 + -2 * h] (-(x : ℂ)) n with hF0
  set F1 : ℂ → ℂ := fun h => ∑' n, hypTerm [0 + 3 * h, 0 + 2 * h] [1 - (a : ℂ) + 1 * h, 1 + -1 * h] (-(x : ℂ)) n with hF1
  set F2 : ℂ → ℂ := fun h => ∑' n, hypTerm [0 + 4 * h, 0 + 3 * h] [1 - (a : ℂ) + 2 * h, 1 + 1 * h] (-(x : ℂ)) n with hF2
  set G0 : ℂ → ℂ := fun h => Gamma (-(a : ℂ) + 1 * h) * Gamma (-a + 2 * h) /
    (Gamma (1 - a + -2 * h) * Gamma (1 - a + -1 * h)) * (x : ℂ) ^ ((a : ℂ) - 1 + 3 * h) with hG0
  set P1 : ℂ → ℂ := cprefac a x (-1) 1 (-3) (-2) 4 with hP1
  set P2 : ℂ → ℂ := cprefac a x (-2) (-1) (-4) (-3) 5 with hP2
  have hc : ∀ k : ℕ, 1 - (a : ℂ) ≠ -(k : ℂ) := fun k e => by
    have := congrArg re e
    simp at this
    refine hn (k + 1) ?_
    push_cast
    linarith
  have hna : ∀ k : ℕ, -(a : ℂ) ≠ -(k : ℂ) := fun k e => by
    have := congrArg re e
    simp at this
    exact hn k this
  have pos : ∀ {y : ℝ}, 0 < y → ∀ k : ℕ, (y : ℂ) ≠ -(k : ℂ) := fun {y} hy k e => by
    have := congrArg re e
    simp at this
    have : (0 : ℝ) ≤ k := by positivity
    linarith
  have hone : ∀ k : ℕ, (1 : ℂ) ≠ -(k : ℂ) := by simpa using pos one_pos
  have hap1 : ∀ k : ℕ, (a : ℂ) + 1 ≠ -(k : ℂ) := by simpa using pos (y := a + 1) (by linarith)
  have ha' := pos ha
  have hx0 : (x : ℂ) ≠ 0 := ofReal_ne_zero.2 hx.ne'
  -- holomorphy
  obtain ⟨r0, p0, d0⟩ := hyp_holo a a 2 1 (-1) (-2) (-(x : ℂ)) hap1 hap1
  obtain ⟨r1, p1, d1⟩ := hyp_holo 0 0 3 2 1 (-1) (-(x : ℂ)) hc hone
  obtain ⟨r2, p2, d2⟩ := hyp_holo 0 0 4 3 2 1 (-(x : ℂ)) hc hone
  have hpw : ∀ (b w : ℂ) (h : ℂ), DifferentiableAt ℂ (fun h => (x : ℂ) ^ (b + w * h)) h := fun b w h =>
    DifferentiableAt.const_cpow (by fun_prop) (.inl hx0)
  have eG : ∀ᶠ h in 𝓝 (0 : ℂ), DifferentiableAt ℂ G0 h := by
    filter_upwards [gamma_holo hna 1, gamma_holo hna 2, gamma_holo hc (-2), gamma_holo hc (-1)] with h q1 q2 q3 q4
    exact ((q1.1.mul q2.1).div (q3.1.mul q4.1) (mul_ne_zero q3.2 q4.2)).mul (hpw _ _ h)
  have eP : ∀ s t u v w : ℂ, ∀ᶠ h in 𝓝 (0 : ℂ), DifferentiableAt ℂ (cprefac a x s t u v w) h := by
    intro s t u v w
    filter_upwards [gamma_holo ha' s, gamma_holo hone t, gamma_holo hone u, gamma_holo hone v] with h q1 q2 q3 q4
    have e : (fun h : ℂ => (x : ℂ) ^ (w * h - 1)) = fun h => (x : ℂ) ^ (-1 + w * h) := by
      funext h; congr 1; ring
    refine ((q1.1.mul q2.1).div (q3.1.mul q4.1) (mul_ne_zero q3.2 q4.2)).mul ?_
    rw [e]
    exact hpw _ _ h
  obtain ⟨r3, p3, d3⟩ := Metric.eventually_nhds_iff_ball.mp (eG.and ((eP (-1) 1 (-3) (-2) 4).and (eP (-2) (-1) (-4) (-3) 5)))
  set ρ := min (min r0 r1) (min r2 r3) with hρ
  have hρ0 : 0 < ρ := lt_min (lt_min p0 p1) (lt_min p2 p3)
  have s0 : Metric.ball (0 : ℂ) ρ ⊆ Metric.ball 0 r0 := Metric.ball_subset_ball ((min_le_left _ _).trans (min_le_left _ _))
  have s1 : Metric.ball (0 : ℂ) ρ ⊆ Metric.ball 0 r1 := Metric.ball_subset_ball ((min_le_left _ _).trans (min_le_right _ _))
  have s2 : Metric.ball (0 : ℂ) ρ ⊆ Metric.ball 0 r2 := Metric.ball_subset_ball ((min_le_right _ _).trans (min_le_left _ _))
  have s3 : Metric.ball (0 : ℂ) ρ ⊆ Metric.ball 0 r3 := Metric.ball_subset_ball ((min_le_right _ _).trans (min_le_right _ _))
  have hU : DifferentiableOn ℂ (fun h => F0 h * G0 h) (Metric.ball 0 ρ) :=
    (d0.mono s0).mul fun h hh => (d3 h (s3 hh)).1.differentiableWithinAt
  have hW : DifferentiableOn ℂ (fun h => F1 h * P1 h - F2 h * P2 h) (Metric.ball 0 ρ) :=
    ((d1.mono s1).mul fun h hh => (d3 h (s3 hh)).2.1.differentiableWithinAt).sub
      ((d2.mono s2).mul fun h hh => (d3 h (s3 hh)).2.2.differentiableWithinAt)
  have hF10 : F1 0 = 1 := by
    simp only [hF1, mul_zero, add_zero]
    rw [tsum_eq_single 0 fun n hn => ?_]
    · simp [hypTerm_zero]
    · obtain ⟨m, rfl⟩ := Nat.exists_eq_succ_of_ne_zero hn
      have : rising (0 : ℂ) (m + 1) = 0 := Finset.prod_eq_zero (i := 0) (by simp) (by simp)
      simp [hypTerm_two, this]
  have hF20 : F2 0 = 1 := by
    simp only [hF2, mul_zero, add_zero]
    rw [tsum_eq_single 0 fun n hn => ?_]
    · simp [hypTerm_zero]
    · obtain ⟨m, rfl⟩ := Nat.exists_eq_succ_of_ne_zero hn
      have : rising (0 : ℂ) (m + 1) = 0 := Finset.prod_eq_zero (i := 0) (by simp) (by simp)
      simp [hypTerm_two, this]
  have hW0 : F1 0 * P1 0 - F2 0 * P2 0 = 0 := by
    rw [hF10, hF20]
    simp [hP1, hP2, cprefac]
  -- the value
  have hval : ∀ h : ℝ, 0 < h → V h = F0 h * G0 h + (F1 h * P1 h - F2 h * P2 h) / h := by
    intro h h0
    have e := hV h h0
    rw [Tgamma_three_eq, threeTerms] at e
    have hh : (h : ℂ) ≠ 0 := ofReal_ne_zero.2 h0.ne'
    have e' := (combSum_three exactGam exactHyp _ _ _ (v := V h)).1 (by simpa using e)
    have key := (combSum_three exactGam exactHyp
      { w := [(x : ℂ)], c := [(a : ℂ) - 1 + 3 * h], alpha := [-(a : ℂ) + h, -a + 2 * h], beta := [1 - (a : ℂ) - 2 * h, 1 - a - h],
        a := [(a : ℂ) + 2 * h, a + h], b := [(a : ℂ) + 1 - h, a + 1 - 2 * h], z := -(x : ℂ) }
      { w := [(x : ℂ)], c := [-1 + 4 * (h : ℂ)], alpha := [(a : ℂ) - h, h], beta := [1 - 3 * (h : ℂ), 1 - 2 * h],
        a := [3 * (h : ℂ), 2 * h], b := [1 - (a : ℂ) + h, 1 - h], z := -(x : ℂ) }
      { w := [(x : ℂ)], c := [-1 + 5 * (h : ℂ)], alpha := [(a : ℂ) - 2 * h, -h], beta := [1 - 4 * (h : ℂ), 1 - 3 * h],
        a := [4 * (h : ℂ), 3 * h], b := [1 - (a : ℂ) + 2 * h, 1 + h], z := -(x : ℂ) }
      (v := F0 h * G0 h + (F1 h * P1 h - F2 h * P2 h) / h)).2 ⟨_, _, _,
      value_eq (v := F0 h) ?_ ?_ ?_, value_eq (v := F1 h) ?_ ?_ ?_, value_eq (v := F2 h) ?_ ?_ ?_, ?_⟩
    · rw [key] at e
      simpa using e.symm
    iterate 3
      · simp only [hF0, hF1, hF2, exactHyp, zero_add, one_mul, neg_mul, ← sub_eq_add_neg]
      · exact fun y _ => by simp [exactGam]
      · exact fun y _ => by simp [exactGam]
    rw [hgv]
    simp only [List.zip_cons_cons, List.zip_nil_right, List.map_cons, List.map_nil, List.prod_cons,
      List.prod_nil, mul_one]
    have g1 : Gamma (h : ℂ) = Gamma (1 + h) / h := by
      rw [add_comm, Gamma_add_one _ hh]; field_simp
    have g2 : Gamma (-(h : ℂ)) = -(Gamma (1 - h) / h) := by
      rw [show 1 - (h : ℂ) = -h + 1 by ring, Gamma_add_one _ (neg_ne_zero.2 hh)]; field_simp
    simp only [hP1, hP2, cprefac, g1, g2, hG0]
    rw [show (a : ℂ) + -1 * h = a - h by ring, show (1 : ℂ) + 1 * h = 1 + h by ring,
      show (1 : ℂ) + -3 * h = 1 - 3 * h by ring, show (1 : ℂ) + -2 * h = 1 - 2 * h by ring,
      show (4 : ℂ) * h - 1 = -1 + 4 * h by ring, show (a : ℂ) + -2 * h = a - 2 * h by ring,
      show (1 : ℂ) + -1 * h = 1 - h by ring, show (1 : ℂ) + -4 * h = 1 - 4 * h by ring,
      show (5 : ℂ) * h - 1 = -1 + 5 * h by ring, show -(a : ℂ) + 1 * h = -a + h by ring,
      show 1 - (a : ℂ) + -2 * h = 1 - a - 2 * h by ring, show 1 - (a : ℂ) + -1 * h = 1 - a - h by ring]
    ring
  obtain ⟨C, δ, hC, hδ, hr⟩ := rate hρ0 hU hW hW0 (L := (TInt 3 a x : ℝ)) (hlim.congr' (by
    filter_upwards [self_mem_nhdsWithin] with h hh using hval h hh))
  exact ⟨C, δ, hC, hδ, fun h h0 h1 => ⟨V h, hV h h0, by rw [hval h h0]; exact hr h h0 h1⟩⟩

/-! ### The gradients of `gammainc` and `gammaincc` -/

open Verif.Autograd

/-- **C110** the error of the gradients for `a`, whatever `Tgamma(3, a, x)` is: that of `x Tgamma(3, a, x)`, divided by `Γ(a)`. -/
theorem C110_grad_error {a x : ℝ} (ha : 0 < a) (hx : 0 < x) (T : ℝ → ℝ → ℝ) :
    (∀ D, HasDerivAt (fun b => incP b x) D a →
      |gammaincGradA T [a, x, incP a x] - D| = x * |T a x - TInt 3 a x| / Real.Gamma a) ∧
    ∀ D, HasDerivAt (fun b => incQ b x) D a →
      |gammainccGradA T [a, x, incQ a x] - D| = x * |T a x - TInt 3 a x| / Real.Gamma a := by
  have hG := Real.Gamma_pos_of_pos ha
  have hP := hasDerivAt_incP_a ha hx
  have hQ : HasDerivAt (fun b => incQ b x)
      (-(incQ a x * (deriv Real.Gamma a / Real.Gamma a - Real.log x) - x * TInt 3 a x / Real.Gamma a)) a := by
    refine (hP.const_sub 1).congr_of_eventuallyEq ?_
    filter_upwards [lt_mem_nhds ha] with b hb
    have := incP_add_incQ hb hx.le
    linarith
  have hpq := incP_add_incQ ha hx.le
  have hq : 1 - incP a x = incQ a x := by linarith
  have key : ∀ t : ℝ, |x * t / Real.Gamma a| = x * |t| / Real.Gamma a := fun t => by
    rw [abs_div, abs_mul, abs_of_pos hx, abs_of_pos hG]
  refine ⟨fun D hD => ?_, fun D hD => ?_⟩
  · rw [hD.unique hP, gammaincGradA, gammaincGradQ, hq, torchDigamma, exp_torchGammaln ha, ← key, abs_sub_comm]
    congr 1; ring
  · rw [hD.unique hQ]
    simp only [gammainccGradA, gammaincGradQ, torchDigamma, exp_torchGammaln ha]
    rw [← key]
    congr 1; ring

/-- **C110, partial.** With exact gamma functions and series, the gradients of `gammainc` and `gammaincc` for `a` have an error at
most proportional to the step `h` that `Tgamma` uses, for a fixed `a > 0`, not an integer, and `x > 0`. -/
theorem C110_gammainc_grad_rate_partial (eps : ℝ) {a x : ℝ} (ha : 0 < a) (hn : ∀ n : ℕ, a ≠ n) (hx : 0 < x) :
    ∃ C δ : ℝ, 0 < C ∧ 0 < δ ∧ ∀ h : ℝ, 0 < h → h < δ →
      ∃ V, TgammaWith exactGam exactHyp eps h 3 a x = .ok (some V) ∧ ∀ T : ℝ → ℝ → ℝ, T a x = V.re →
        (∀ D, HasDerivAt (fun b => incP b x) D a → |gammaincGradA T [a, x, incP a x] - D| ≤ C * h) ∧
        ∀ D, HasDerivAt (fun b => incQ b x) D a → |gammainccGradA T [a, x, incQ a x] - D| ≤ C * h := by
  obtain ⟨C, δ, hC, hδ, hr⟩ := C111_Tgamma_three_rate_partial eps ha hn hx
  have hG := Real.Gamma_pos_of_pos ha
  refine ⟨x * C / Real.Gamma a, δ, by positivity, hδ, fun h h0 h1 => ?_⟩
  obtain ⟨V, e, hV⟩ := hr h h0 h1
  refine ⟨V, e, fun T hT => ?_⟩
  have hb : x * |T a x - TInt 3 a x| / Real.Gamma a ≤ x * C / Real.Gamma a * h := by
    have := abs_re_le_norm (V - (TInt 3 a x : ℝ))
    rw [sub_re, ofReal_re, ← hT] at this
    rw [div_mul_eq_mul_div, mul_assoc]
    gcongr
    exact this.trans hV
  obtain ⟨e1, e2⟩ := C110_grad_error ha hx T
  exact ⟨fun D hD => (e1 D hD).trans_le hb, fun D hD => (e2 D hD).trans_le hb⟩

/-- The hypotheses hold for `a = 1/2`, `x = 1`. -/
example : ∃ C δ : ℝ, 0 < C ∧ 0 < δ ∧ ∀ h : ℝ, 0 < h → h < δ →
    ∃ V, TgammaWith exactGam exactHyp 0 h 3 (1 / 2 : ℝ) (1 : ℝ) = .ok (some V) ∧ ‖V - (TInt 3 (1 / 2) 1 : ℝ)‖ ≤ C * h :=
  C111_Tgamma_three_rate_partial 0 (by norm_num) (fun n e => by
    have h2 : (2 * n : ℝ) = 1 := by rw [← e]; norm_num
    have : 2 * n = 1 := by exact_mod_cast h2
    omega) one_pos

end Verif.Special

import Verif.Special.GammaIncGrad

/-!
# The gradient of `gammainc` with respect to `a` is wrong for small `x` (C110)
-/

open Filter Topology Complex

namespace Verif.Special

open Verif.Autograd

theorem hypsum_first {eps : ℝ} {as bs : List ℂ} {z s : ℂ} {n : ℕ} (h : hypsum eps as bs z n = some s)
    (h1 : ‖hypTerm as bs z 1‖ < eps) : ‖s‖ ≤ 1 + eps := by
  obtain ⟨N, -, ⟨hN, hlt, -, -⟩, rfl⟩ := (C60_hypsum_spec eps as bs z s n).1 h
  obtain rfl : N = 1 := by
    by_contra hne
    exact absurd (hlt 1 le_rfl (by omega)) (not_le.2 h1)
  rw [Finset.sum_range_succ, Finset.sum_range_one, hypTerm_zero]
  refine (norm_add_le _ _).trans ?_
  rw [norm_one]; linarith

theorem hypTerm_one_tendsto (as bs : List ℂ) :
    Tendsto (fun x : ℝ => ‖hypTerm as bs (-(x : ℂ)) 1‖) (𝓝[>] 0) (𝓝 0) := by
  have : Continuous fun x : ℝ => ‖hypTerm as bs (-(x : ℂ)) 1‖ := by
    unfold hypTerm
    fun_prop
  have h := this.tendsto 0
  simp only [ofReal_zero, neg_zero] at h
  rw [show ‖hypTerm as bs 0 1‖ = 0 by simp [hypTerm]] at h
  exact h.mono_left nhdsWithin_le_nhds

/-- For small `x` the code's value of a term is bounded by its leading power. -/
theorem term_bounded {eps : ℝ} (he : 0 < eps) (c : ℂ) (al be as bs : List ℂ) (hc : 0 ≤ c.re + 1) :
    ∃ K : ℝ, ∀ᶠ x : ℝ in 𝓝[>] 0, ∀ v,
      CombTerm.value (gamma eps) (fun as bs z => hyper eps as bs z 6000)
        { w := [(x : ℂ)], c := [c], alpha := al, beta := be, a := as, b := bs, z := -(x : ℂ) } = some v →
      ‖x * v‖ ≤ K := by
  refine ⟨(1 + eps) * ‖(al.map (gv (gamma eps))).prod‖ / ‖(be.map (gv (gamma eps))).prod‖, ?_⟩
  have h1 := (hypTerm_one_tendsto as bs).eventually (gt_mem_nhds he)
  have h2 : ∀ᶠ x : ℝ in 𝓝[>] 0, x ≤ 1 :=
    (ge_mem_nhds (by norm_num : (0 : ℝ) < 1)).filter_mono nhdsWithin_le_nhds
  filter_upwards [h1, h2, self_mem_nhdsWithin] with x hx hx1 hx0 v hv
  have hx0 : 0 < x := hx0
  obtain ⟨⟨s, hs⟩, ga, gb⟩ := value_some hv
  rw [value_eq hs ga gb, Option.some.injEq] at hv
  rw [← hv]
  simp only [List.zip_cons_cons, List.zip_nil_right, List.map_cons, List.map_nil, List.prod_cons,
    List.prod_nil, mul_one]
  rw [norm_mul, norm_mul, norm_div, norm_mul, norm_cpow_eq_rpow_re_of_pos hx0, norm_real,
    Real.norm_eq_abs, abs_of_pos hx0]
  have hsn := hypsum_first hs hx
  have hp : x * x ^ c.re ≤ 1 := by
    rw [mul_comm, ← Real.rpow_add_one hx0.ne']
    exact Real.rpow_le_one hx0.le hx1 hc
  have hnn : 0 ≤ ‖(al.map (gv (gamma eps))).prod‖ := norm_nonneg _
  have hnn' : 0 ≤ ‖(be.map (gv (gamma eps))).prod‖ := norm_nonneg _
  have hmain : ‖s‖ * ‖(al.map (gv (gamma eps))).prod‖ / ‖(be.map (gv (gamma eps))).prod‖ ≤
      (1 + eps) * ‖(al.map (gv (gamma eps))).prod‖ / ‖(be.map (gv (gamma eps))).prod‖ := by gcongr
  have hr : 0 ≤ ‖s‖ * ‖(al.map (gv (gamma eps))).prod‖ / ‖(be.map (gv (gamma eps))).prod‖ := by positivity
  have : 0 < x * x ^ c.re := by have := Real.rpow_pos_of_pos hx0 c.re; positivity
  calc _ = ‖s‖ * ‖(al.map (gv (gamma eps))).prod‖ / ‖(be.map (gv (gamma eps))).prod‖ * (x * x ^ c.re) := by ring
    _ ≤ ‖s‖ * ‖(al.map (gv (gamma eps))).prod‖ / ‖(be.map (gv (gamma eps))).prod‖ * 1 := by gcongr
    _ ≤ _ := by rw [mul_one]; exact hmain

theorem combStep_pos (prec : ℕ) : 0 < combStep prec := by
  rw [combStep]; positivity

theorem Tgamma_three_bounded {eps : ℝ} (he : 0 < eps) (prec : ℕ) {a : ℝ} (ha : 0 < a) :
    ∃ K : ℝ, ∀ᶠ x : ℝ in 𝓝[>] 0, ∀ v, Tgamma eps prec 3 a x = .ok (some v) → ‖x * v‖ ≤ K := by
  have hh := combStep_pos prec
  set h := combStep prec with hdef
  obtain ⟨K1, e1⟩ := term_bounded he ((a : ℂ) - 1 + 3 * h) [-(a : ℂ) + h, -a + 2 * h] [1 - (a : ℂ) - 2 * h, 1 - a - h]
    [(a : ℂ) + 2 * h, a + h] [(a : ℂ) + 1 - h, a + 1 - 2 * h] (by simp; linarith)
  obtain ⟨K2, e2⟩ := term_bounded he (-1 + 4 * (h : ℂ)) [(a : ℂ) - h, h] [1 - 3 * (h : ℂ), 1 - 2 * h]
    [3 * (h : ℂ), 2 * h] [1 - (a : ℂ) + h, 1 - h] (by simp; linarith)
  obtain ⟨K3, e3⟩ := term_bounded he (-1 + 5 * (h : ℂ)) [(a : ℂ) - 2 * h, -h] [1 - 4 * (h : ℂ), 1 - 3 * h]
    [4 * (h : ℂ), 3 * h] [1 - (a : ℂ) + 2 * h, 1 + h] (by simp; linarith)
  refine ⟨K1 + K2 + K3, ?_⟩
  filter_upwards [e1, e2, e3] with x k1 k2 k3 v hv
  rw [Tgamma, Tgamma_three_eq, Except.ok.injEq, threeTerms, combSum_three] at hv
  obtain ⟨p, q, r, hp, hq, hr, rfl⟩ := hv
  have b1 := k1 p hp
  have b2 := k2 q hq
  have b3 := k3 r hr
  rw [mul_add, mul_add]
  exact (norm_add₃_le).trans (by linarith)

theorem TInt_three_lower {a x : ℝ} (ha : 0 < a) (hx : 0 < x) (hx1 : x ≤ 1) :
    deriv Real.Gamma a - Real.Gamma a * Real.log x - Real.exp 1 / a ^ 2 ≤ x * TInt 3 a x := by
  rw [TInt_three ha hx]
  have hs : |∑' n, sqTerm a x n| ≤ Real.exp 1 / a ^ 2 := by
    have hsum : Summable fun n : ℕ => |x| ^ n / n.factorial / a ^ 2 :=
      (Real.summable_pow_div_factorial |x|).div_const _
    have h1 : ‖∑' n, sqTerm a x n‖ ≤ ∑' n : ℕ, |x| ^ n / n.factorial / a ^ 2 :=
      tsum_of_norm_bounded hsum.hasSum fun n => abs_sqTerm_le ha le_rfl n
    rw [tsum_div_const, abs_of_pos hx] at h1
    have h2 : ∑' n : ℕ, x ^ n / (n.factorial : ℝ) = Real.exp x := by
      rw [Real.exp_eq_exp_ℝ, NormedSpace.exp_eq_tsum_div]
    rw [h2, Real.norm_eq_abs] at h1
    refine h1.trans ?_
    gcongr
  have hp : x ^ a ≤ 1 := Real.rpow_le_one hx.le hx1 ha.le
  have hp0 := (Real.rpow_pos_of_pos hx a).le
  have := abs_mul (x ^ a) (∑' n, sqTerm a x n)
  rw [abs_of_nonneg hp0] at this
  have h3 : |x ^ a * ∑' n, sqTerm a x n| ≤ Real.exp 1 / a ^ 2 := by
    rw [this]
    calc _ ≤ 1 * |∑' n, sqTerm a x n| := by gcongr
      _ ≤ _ := by rw [one_mul]; exact hs
  have := neg_abs_le (x ^ a * ∑' n, sqTerm a x n)
  linarith

/-- **C110, the intended claim is false.** For every `a > 0` and every bound `M`, the gradient that
`gammainc` returns for `a` is off by more than `M` for all sufficiently small `x > 0` where it returns
one: it stays bounded, but the derivative grows like `log x`. -/
theorem C110_gammainc_grad_wrong {eps : ℝ} (he : 0 < eps) (prec : ℕ) {a : ℝ} (ha : 0 < a) (nan M : ℝ) :
    ∀ᶠ x : ℝ in 𝓝[>] 0, ∀ v, Tgamma eps prec 3 a x = .ok (some v) →
      ∀ D, HasDerivAt (fun b => incP b x) D a →
        M < |gammaincGradA (tgammaReal nan eps prec 3) [a, x, incP a x] - D| := by
  obtain ⟨K, hK⟩ := Tgamma_three_bounded he prec ha
  have hG := Real.Gamma_pos_of_pos ha
  have hlog : Tendsto (fun x => -Real.log x) (𝓝[>] 0) atTop :=
    tendsto_neg_atBot_atTop.comp Real.tendsto_log_nhdsGT_zero
  have h1 := hlog.eventually_gt_atTop
    (M + (K - deriv Real.Gamma a + Real.exp 1 / a ^ 2) / Real.Gamma a)
  have h2 : ∀ᶠ x : ℝ in 𝓝[>] 0, x ≤ 1 :=
    (ge_mem_nhds (by norm_num : (0 : ℝ) < 1)).filter_mono nhdsWithin_le_nhds
  filter_upwards [hK, h1, h2, self_mem_nhdsWithin] with x hKx hl hx1 hx0 v hv D hD
  have hx0 : 0 < x := hx0
  have hv' := hKx v hv
  have hD' := hD.unique (hasDerivAt_incP_a ha hx0)
  have hT : tgammaReal nan eps prec 3 a x = v.re := by rw [tgammaReal, hv]
  have hpq := incP_add_incQ ha hx0.le
  have hq : 1 - incP a x = incQ a x := by linarith
  rw [gammaincGradA, gammaincGradQ, hq, hT, hD', torchDigamma, exp_torchGammaln ha]
  have hre : |x * v.re| ≤ K := by
    have := abs_re_le_norm ((x : ℂ) * v)
    rw [re_ofReal_mul] at this
    exact this.trans hv'
  have hlow := TInt_three_lower ha hx0 hx1
  rw [show incQ a x * (deriv Real.Gamma a / Real.Gamma a - Real.log x) - x * v.re / Real.Gamma a -
      (incQ a x * (deriv Real.Gamma a / Real.Gamma a - Real.log x) - x * TInt 3 a x / Real.Gamma a) =
      (x * TInt 3 a x - x * v.re) / Real.Gamma a by ring]
  refine lt_of_lt_of_le ?_ (le_abs_self _)
  rw [lt_div_iff₀ hG]
  have h3 := (abs_le.1 hre).2
  have h4 : (M + (K - deriv Real.Gamma a + Real.exp 1 / a ^ 2) / Real.Gamma a) * Real.Gamma a <
      -Real.log x * Real.Gamma a := mul_lt_mul_of_pos_right hl hG
  rw [add_mul, div_mul_cancel₀ _ hG.ne'] at h4
  linarith

theorem combStep_53 : combStep 53 = 1 / 32768 := by
  rw [combStep, show ⌊(0.3 : ℝ) * (53 : ℕ)⌋ = 15 by rw [Int.floor_eq_iff]; norm_num]
  norm_num

/-- The series returns for small `x`, so that the previous theorem is about actual results. -/
theorem hypsum_small {eps : ℝ} (he : 0 < eps) (as bs : List ℂ) (hb : ∀ b ∈ bs, b ≠ 0) :
    ∀ᶠ x : ℝ in 𝓝[>] 0, ∃ s, hyper eps as bs (-(x : ℂ)) 6000 = some s := by
  filter_upwards [(hypTerm_one_tendsto as bs).eventually (gt_mem_nhds he)] with x hx
  refine ⟨_, (C60_hypsum_spec _ _ _ _ _ _).2 ⟨1, by norm_num, ⟨le_rfl, fun n h1 h2 => absurd h2 (by omega),
    hx, fun b hb' k hk => ?_⟩, rfl⟩⟩
  obtain rfl : k = 0 := by omega
  simpa using hb b hb'

theorem gamma_some_of_pos (eps : ℝ) {z : ℂ} (h : 0 < z.re) : gamma eps z ≠ none := by
  rw [Ne, C97_gamma_poles]
  rintro ⟨-, h2, -⟩
  linarith

/-- **C110, witness.** In double precision at `a = 1/2` the gradient is returned for all small `x`. -/
theorem C110_gammainc_grad_wrong_returns {eps : ℝ} (he : 0 < eps) (he1 : eps ≤ 1 / 10 ^ 10) :
    ∀ᶠ x : ℝ in 𝓝[>] 0, ∃ v, Tgamma eps 53 3 (1 / 2 : ℝ) x = .ok (some v) := by
  have r0 : ∀ z : ℝ, |z| < 1 / 2 → round z = 0 := fun z hz => by
    rw [round_eq_zero_iff]
    rw [abs_lt] at hz
    exact ⟨by linarith [hz.1], hz.2⟩
  have gneg : ∀ z : ℂ, z.re < -(1 / 10 ^ 8) → -(1 / 2) < z.re → gamma eps z ≠ none := by
    intro z h1 h2
    rw [Ne, C97_gamma_poles]
    rintro ⟨-, -, h3⟩
    rw [r0 _ (by rw [abs_lt]; constructor <;> linarith)] at h3
    rw [Int.cast_zero, zero_sub, abs_neg, abs_of_neg (by linarith)] at h3
    linarith
  have hne : ∀ z : ℂ, 0 < z.re → z ≠ 0 := fun z hz e => by rw [e] at hz; simp at hz
  have hh := combStep_53
  set h := combStep 53 with hdef
  have a1 := hypsum_small he [((1 / 2 : ℝ) : ℂ) + 2 * h, ((1 / 2 : ℝ) : ℂ) + h]
    [((1 / 2 : ℝ) : ℂ) + 1 - h, ((1 / 2 : ℝ) : ℂ) + 1 - 2 * h] (by
      intro b hb
      rcases (by simpa using hb : b = _ ∨ b = _) with rfl | rfl <;>
        exact hne _ (by rw [hh]; norm_num))
  have a2 := hypsum_small he [3 * (h : ℂ), 2 * h] [1 - ((1 / 2 : ℝ) : ℂ) + h, 1 - h] (by
      intro b hb
      rcases (by simpa using hb : b = _ ∨ b = _) with rfl | rfl <;>
        exact hne _ (by rw [hh]; norm_num))
  have a3 := hypsum_small he [4 * (h : ℂ), 3 * h] [1 - ((1 / 2 : ℝ) : ℂ) + 2 * h, 1 + h] (by
      intro b hb
      rcases (by simpa using hb : b = _ ∨ b = _) with rfl | rfl <;>
        exact hne _ (by rw [hh]; norm_num))
  filter_upwards [a1, a2, a3] with x ⟨s1, h1⟩ ⟨s2, h2⟩ ⟨s3, h3⟩
  rw [Tgamma, Tgamma_three_eq, threeTerms]
  refine ⟨_, congrArg _ ((combSum_three _ _ _ _ _).2 ⟨_, _, _,
    value_eq h1 ?_ ?_, value_eq h2 ?_ ?_, value_eq h3 ?_ ?_, rfl⟩)⟩
  all_goals
    simp only [List.mem_cons, List.not_mem_nil, or_false]
    rintro y (rfl | rfl)
  all_goals
    first
    | (apply gamma_some_of_pos; rw [← hdef, hh]; norm_num; done)
    | (apply gneg <;> (rw [← hdef, hh]; norm_num; done))

/-- For every bound `M` there is an `x > 0` where `gammainc` returns a gradient for `a = 1/2` that is off
by more than `M`. -/
example (M : ℝ) : ∃ x > 0, ∃ v D, Tgamma (1 / 2 ^ 52) 53 3 (1 / 2 : ℝ) (x : ℝ) = .ok (some v) ∧
    HasDerivAt (fun b => incP b x) D (1 / 2) ∧
    M < |gammaincGradA (tgammaReal 0 (1 / 2 ^ 52) 53 3) [1 / 2, x, incP (1 / 2) x] - D| := by
  have h1 := C110_gammainc_grad_wrong_returns (eps := 1 / 2 ^ 52) (by positivity) (by norm_num)
  have h2 := C110_gammainc_grad_wrong (eps := 1 / 2 ^ 52) (by positivity) 53
    (a := 1 / 2) (by norm_num) 0 M
  obtain ⟨x, ⟨v, hv⟩, h2, hx⟩ := (h1.and (h2.and self_mem_nhdsWithin)).exists
  have hd := hasDerivAt_incP_a (a := 1 / 2) (by norm_num) (Set.mem_Ioi.1 hx)
  exact ⟨x, hx, v, _, hv, hd, h2 v hv _ hd⟩

end Verif.Special

import Verif.Special.GammaIncInvProps

/-!
# `gammaincinv` for the exponential distribution (C61)
-/

open Real

namespace Verif.Special

set_option exponentiation.threshold 2000

theorem incP_one_eq {x : ℝ} (hx : 0 ≤ x) : incP 1 x = 1 - exp (-x) := by
  have h : ∀ t ∈ Set.uIcc 0 x, HasDerivAt (fun t : ℝ => -exp (-t)) (t ^ ((1 : ℝ) - 1) * exp (-t)) t := by
    intro t _
    have := ((hasDerivAt_id t).neg.exp).fun_neg
    simpa using this
  rw [incP, intervalIntegral.integral_eq_sub_of_hasDerivAt h, Gamma_one]
  · simp; ring
  · simp only [sub_self, rpow_zero, one_mul]
    exact (continuous_exp.comp continuous_neg).intervalIntegrable _ _

theorem incQ_one_eq {x : ℝ} (hx : 0 ≤ x) : incQ 1 x = exp (-x) := by
  have h := incP_add_incQ (a := 1) one_pos hx
  rw [incP_one_eq hx] at h
  linarith

theorem exp_sub_one_le_sq {e : ℝ} (h : |e| ≤ 1) : |exp e - 1 - e| ≤ e ^ 2 :=
  Real.abs_exp_sub_one_sub_id_le h

/-- One step of the refinement at `a = 1`, with approximate ingredients; `w` is the approximation of
`(v - p) e^x` up to its sign. -/
theorem newton_exp_step {e r s δ : ℝ} (hs : |s - 1| ≤ 2 / 10 ^ 14) (he : |e| ≤ 1)
    (hr : |r| ≤ δ) :
    |e - (r + (exp e - 1)) * s| ≤ e ^ 2 + 1 / 10 ^ 13 * |e| + 1.01 * δ := by
  have h1 := exp_sub_one_le_sq he
  have h2 : |exp e - 1| ≤ 2 * |e| := by
    have : exp e - 1 = (exp e - 1 - e) + e := by ring
    rw [this]
    refine (abs_add_le _ _).trans ?_
    have h3 : e ^ 2 ≤ |e| := by
      rw [← sq_abs]; nlinarith [abs_nonneg e]
    linarith
  have e1 : e - (r + (exp e - 1)) * s = -(exp e - 1 - e) - (exp e - 1) * (s - 1) - r * s := by ring
  have h4 : |(exp e - 1) * (s - 1)| ≤ 2 * |e| * (2 / 10 ^ 14) := by
    rw [abs_mul]
    exact mul_le_mul h2 hs (abs_nonneg _) (by positivity)
  have hs1 : |s| ≤ 1.01 := by
    have := abs_le.1 hs
    rw [abs_le]; norm_num at this ⊢; constructor <;> linarith [this.1, this.2]
  have h5 : |r * s| ≤ 1.01 * δ := by
    rw [abs_mul, mul_comm]
    exact mul_le_mul hs1 hr (abs_nonneg _) (by norm_num)
  rw [e1]
  refine (abs_sub _ _).trans (add_le_add ((abs_sub _ _).trans (add_le_add ?_ ?_)) h5)
  · rw [abs_neg]; exact h1
  · refine h4.trans ?_
    rw [mul_comm]
    norm_num
    nlinarith [abs_nonneg e]

theorem fac_one {x : ℝ} (hx : 0 < x) (hb : exp (-709.78) ≤ x * exp (-x)) :
    ∃ f, igamFac 1 x = some f ∧ f ≠ 0 ∧ |x * exp (-x) / f - 1| ≤ 2 / 10 ^ 14 ∧ 0 < f := by
  obtain ⟨f, hf, h⟩ := C99_igam_fac one_pos hx
  rw [rpow_one, Gamma_one, div_one] at h
  have hF : 0 < x * exp (-x) := by positivity
  have hf0 : f ≠ 0 := by
    rcases h with h | h
    · intro h0
      rw [h0, zero_sub, abs_neg, abs_of_pos hF] at h
      norm_num at h; linarith
    · exact absurd h.2 (not_lt.2 hb)
  have := fac_near one_pos hx hf hf0
  rw [rpow_one, Gamma_one, div_one] at this
  exact ⟨f, hf, hf0, this⟩

/-- The lower branch. -/
theorem exp_loop_lower {eps p : ℝ} (d : ℕ → ℕ → ℝ) (he : 1 / 2 ^ 52 ≤ eps) (he1 : eps ≤ 1 / 10 ^ 7)
    (hp : 1 / 10 ^ 80 ≤ p) (hp9 : p ≤ 0.9) (n : ℕ) (x : ℝ)
    (hx : |x + log (1 - p)| ≤ 40 * (2 / 10 ^ 14 + 100 * eps) * (-log (1 - p))) :
    ∃ y, invLoop (gammainc eps d 1) 1 1 p n x = some y ∧
      |y + log (1 - p)| ≤ 40 * (2 / 10 ^ 14 + 100 * eps) * (-log (1 - p)) := by
  induction n generalizing x with
  | zero => exact ⟨x, rfl, hx⟩
  | succ n ih =>
    have hp0 : 0 < p := lt_of_lt_of_le (by positivity) hp
    have hq0 : 0 < 1 - p := by norm_num at hp9; linarith
    have heps : 0 < eps := lt_of_lt_of_le (by positivity) he
    set L := -log (1 - p) with hL
    have hLq : exp (-L) = 1 - p := by rw [hL, neg_neg, exp_log hq0]
    have hLp : p ≤ L := by
      have := add_one_le_exp (-L); linarith
    have hL0 : 0 < L := by linarith
    have hL2 : L ≤ 2.31 := by
      have h1 : exp (-2.31) ≤ exp (-L) := by
        rw [hLq]
        have : exp (-2.31) ≤ 1 / 10 := by
          rw [exp_neg, ← one_div]
          refine one_div_le_one_div_of_le (by norm_num) ?_
          have h3 := exp_one_gt_d9
          have h4 : exp 2.31 = exp 1 ^ 2 * exp 0.31 := by
            rw [← exp_nat_mul, ← exp_add]; norm_num
          have h5 := quadratic_le_exp_of_nonneg (by norm_num : (0 : ℝ) ≤ 0.31)
          rw [h4]
          generalize exp 1 = E at *
          norm_num at h3 h5 ⊢
          have h6 : (2.718 : ℝ) ^ 2 ≤ E ^ 2 := pow_le_pow_left₀ (by norm_num) (by norm_num; linarith) 2
          refine le_trans ?_ (mul_le_mul h6 h5 (by norm_num) (by positivity))
          norm_num
        norm_num at this hp9 ⊢; linarith
      linarith [exp_le_exp.1 h1]
    set δ := 2 / 10 ^ 14 + 100 * eps with hδ
    have hδ0 : 0 < δ := by positivity
    have hδ1 : δ ≤ 1.1 / 10 ^ 5 := by rw [hδ]; norm_num at he1 ⊢; linarith
    have e0 : x + log (1 - p) = x - L := by rw [hL]; ring
    rw [e0] at hx
    set e := x - L with hee
    have hκ : 40 * δ ≤ 1 / 2000 := by norm_num at hδ1 ⊢; linarith
    have heL : |e| ≤ 1 / 2000 * L := hx.trans (mul_le_mul_of_nonneg_right hκ hL0.le)
    have heb := abs_le.1 heL
    have hx0 : 0 < x := by linarith [heb.1]
    have hxL : x ≤ 1.001 * L := by norm_num; linarith [heb.2]
    have hxL' : 0.9 * L ≤ x := by norm_num; linarith [heb.1]
    have hx24 : x ≤ 2.4 := by norm_num at hxL hL2 ⊢; linarith
    have hex : exp x ≤ 12 := by
      refine (exp_le_exp.2 hx24).trans ?_
      have h3 := exp_one_lt_d9
      have h4 : exp 2.4 = exp 1 ^ 2 * exp 0.4 := by
        rw [← exp_nat_mul, ← exp_add]; norm_num
      have h5 := exp_bound' (x := 0.4) (by norm_num) (by norm_num) (n := 4) (by norm_num)
      norm_num [Finset.sum_range_succ, Nat.factorial] at h5
      rw [h4]
      have h6 := exp_pos (1 : ℝ)
      have h7 : exp 1 ^ 2 ≤ 7.4 := by
        generalize exp 1 = E at *
        norm_num at h3 ⊢; nlinarith
      have h8 : exp (0.4 : ℝ) ≤ 1.6 := by norm_num at h5 ⊢; linarith
      refine (mul_le_mul h7 h8 (exp_pos _).le (by norm_num)).trans (by norm_num)
    have hexm : 1 / 12 ≤ exp (-x) := by
      rw [exp_neg, ← one_div]; exact one_div_le_one_div_of_le (exp_pos _) hex
    have hbig : 1 / 10 ^ 82 ≤ x * exp (-x) := by
      have h1 : 0.9 * (1 / 10 ^ 80) ≤ x := by
        refine le_trans ?_ hxL'
        exact mul_le_mul_of_nonneg_left (hp.trans hLp) (by norm_num)
      refine le_trans ?_ (mul_le_mul h1 hexm (by norm_num) hx0.le)
      norm_num
    have hsm : exp (-709.78) ≤ 1 / 10 ^ 82 := by
      rw [exp_neg, ← one_div]
      refine one_div_le_one_div_of_le (by positivity) ?_
      have : (10 : ℝ) ^ 82 ≤ exp 1 ^ 709 := by
        have h1 : (2.7 : ℝ) ^ 709 ≤ exp 1 ^ 709 :=
          pow_le_pow_left₀ (by norm_num) (by have := exp_one_gt_d9; norm_num at this ⊢; linarith) _
        refine le_trans ?_ h1
        calc (10 : ℝ) ^ 82 ≤ (2.7 ^ 3) ^ 82 := pow_le_pow_left₀ (by norm_num) (by norm_num) _
          _ = 2.7 ^ (3 * 82) := (pow_mul _ _ _).symm
          _ ≤ 2.7 ^ 709 := pow_le_pow_right₀ (by norm_num) (by norm_num)
      refine this.trans ?_
      rw [← exp_nat_mul]
      exact exp_le_exp.2 (by norm_num)
    obtain ⟨f, hf, hf0, hfr, hfp⟩ := fac_one hx0 (hsm.trans hbig)
    -- the value of P
    have hP : incP 1 x = 1 - exp (-x) := incP_one_eq hx0.le
    have hPx : 1 - exp (-x) ≤ x := by have := add_one_le_exp (-x); linarith
    have hval : ∃ v, gammainc eps d 1 x = some v ∧ |v - incP 1 x| ≤ 2 * δ * (1 - exp (-x)) := by
      have hPpos : 0 < 1 - exp (-x) := by
        have : exp (-x) < 1 := by rw [← exp_zero]; exact exp_lt_exp.2 (by linarith)
        linarith
      by_cases h1 : x ≤ 1
      · obtain ⟨v, hv, h⟩ := C100_gammainc_series d (a := 1)
          (by rw [div_le_one (by positivity)]; exact one_le_pow₀ (by norm_num)) (by norm_num) hx0 he
          (he1.trans (by norm_num)) (not_asymRegime (by norm_num)) (Or.inl h1)
        refine ⟨v, hv, ?_⟩
        rcases h with h | ⟨-, h⟩
        · refine h.trans ?_
          rw [hP]
          refine mul_le_mul_of_nonneg_right ?_ hPpos.le
          rw [hδ]; norm_num; linarith
        · exfalso
          rw [hP] at h
          have h2 : x / 2 ≤ 1 - exp (-x) := by
            have h3 : exp (-x) * (1 + x) ≤ 1 := by
              have := add_one_le_exp x
              rw [exp_neg]
              rw [inv_mul_le_iff₀ (exp_pos _)]; linarith
            nlinarith [exp_pos (-x)]
          have h3 : 0.9 * (1 / 10 ^ 80) ≤ x := by
            refine le_trans ?_ hxL'
            exact mul_le_mul_of_nonneg_left (hp.trans hLp) (by norm_num)
          have h4 : (1 : ℝ) / 10 ^ 90 < 0.9 * (1 / 10 ^ 80) / 2 := by norm_num
          linarith
      · push Not at h1
        obtain ⟨v, hv, h⟩ := gammainc_abs d (a := 1)
          (by rw [div_le_one (by positivity)]; exact one_le_pow₀ (by norm_num)) (by norm_num) hx0 he
          (he1.trans (by norm_num))
        refine ⟨v, hv, h.trans ?_⟩
        have h2 : exp (-x) ≤ 1 / 2 := by
          refine (exp_le_exp.2 (by linarith : -x ≤ -1)).trans ?_
          have := exp_neg_one_lt_d9
          norm_num at this ⊢; linarith
        rw [← hδ]
        nlinarith
    obtain ⟨v, hv, hacc⟩ := hval
    rw [hP] at hacc
    rw [invLoop, hf]
    simp only [Option.bind_some, if_neg hf0, hv, if_pos hx0.ne']
    apply ih
    set s := x * exp (-x) / f with hs
    have hr : |(v - (1 - exp (-x))) * exp x| ≤ 25 * δ * L := by
      rw [abs_mul, abs_of_pos (exp_pos x)]
      have h1 : 2 * δ * (1 - exp (-x)) ≤ 2 * δ * x := mul_le_mul_of_nonneg_left hPx (by positivity)
      calc _ ≤ 2 * δ * x * 12 := mul_le_mul (hacc.trans h1) hex (exp_pos _).le (by positivity)
        _ ≤ 2 * δ * (1.001 * L) * 12 := by
          refine mul_le_mul_of_nonneg_right (mul_le_mul_of_nonneg_left hxL (by positivity)) (by norm_num)
        _ ≤ 25 * δ * L := by
          have : 0 ≤ δ * L := by positivity
          norm_num; linarith
    have hle1 : |e| ≤ 1 := by norm_num at hL2; linarith
    have hst := newton_exp_step hfr hle1 hr
    have e3 : x - (v - p) * x / (1 * f) + log (1 - p) =
        e - ((v - (1 - exp (-x))) * exp x + (exp e - 1)) * s := by
      have h1 : exp e = exp x * (1 - p) := by rw [hee, sub_eq_add_neg, exp_add, hLq]
      have h2 : exp x * exp (-x) = 1 := by rw [← exp_add, add_neg_cancel, exp_zero]
      have h3 : (v - (1 - exp (-x))) * exp x + (exp e - 1) = (v - p) * exp x := by
        rw [h1]; linear_combination h2
      rw [h3, hs]
      have h4 : (v - p) * exp x * (x * exp (-x) / f) = (v - p) * x / f := by
        rw [show (v - p) * exp x * (x * exp (-x) / f) = (v - p) * x / f * (exp x * exp (-x)) by ring,
          h2, mul_one]
      rw [h4, one_mul, hee, hL]; ring
    rw [e3]
    refine hst.trans ?_
    have h5 : e ^ 2 ≤ |e| * (1 / 2000 * L) := by
      rw [← sq_abs, sq]; exact mul_le_mul_of_nonneg_left heL (abs_nonneg _)
    have h6 : |e| * (1 / 2000 * L) ≤ |e| * (1 / 800) :=
      mul_le_mul_of_nonneg_left (by norm_num at hL2 ⊢; linarith) (abs_nonneg _)
    have h7 : 0 < δ * L := by positivity
    norm_num at hx ⊢
    linarith [abs_nonneg e]

/-- The upper branch. -/
theorem exp_loop_upper {eps q : ℝ} (d : ℕ → ℕ → ℝ) (he : 1 / 2 ^ 52 ≤ eps) (he1 : eps ≤ 1 / 10 ^ 7)
    (hq : 1 / 10 ^ 290 ≤ q) (hq1 : q ≤ 0.1) (n : ℕ) (x : ℝ)
    (hx : |x + log q| ≤ 2 * (2 / 10 ^ 14 + 100 * eps)) :
    ∃ y, invLoop (gammaincc eps d 1) (-1) 1 q n x = some y ∧
      |y + log q| ≤ 2 * (2 / 10 ^ 14 + 100 * eps) := by
  induction n generalizing x with
  | zero => exact ⟨x, rfl, hx⟩
  | succ n ih =>
    have hq0 : 0 < q := lt_of_lt_of_le (by positivity) hq
    have heps : 0 < eps := lt_of_lt_of_le (by positivity) he
    set L := -log q with hL
    have hLq : exp (-L) = q := by rw [hL, neg_neg, exp_log hq0]
    have h10 := exp_one_gt_d9
    have h10' := exp_one_lt_d9
    have hL2 : 2 ≤ L := by
      have h1 : exp (-L) ≤ exp (-2) := by
        rw [hLq]
        refine hq1.trans ?_
        rw [exp_neg, ← one_div, show (0.1 : ℝ) = 1 / 10 by norm_num]
        refine one_div_le_one_div_of_le (exp_pos _) ?_
        have : exp 2 = exp 1 ^ 2 := by rw [← exp_nat_mul]; norm_num
        rw [this]
        generalize exp 1 = E at *
        norm_num at h10 h10'; nlinarith
      linarith [exp_le_exp.1 h1]
    have hL3 : L ≤ 669 := by
      have h1 : exp (-669) ≤ exp (-L) := by
        rw [hLq]
        refine le_trans ?_ hq
        rw [exp_neg, ← one_div]
        refine one_div_le_one_div_of_le (by positivity) ?_
        have h2 : exp 669 = exp 1 ^ 669 := by rw [← exp_nat_mul]; norm_num
        rw [h2]
        refine le_trans ?_ (pow_le_pow_left₀ (by norm_num) h10.le 669)
        norm_num
      linarith [exp_le_exp.1 h1]
    set δ := 2 / 10 ^ 14 + 100 * eps with hδ
    have hδ0 : 0 < δ := by positivity
    have hδ1 : δ ≤ 1.1 / 10 ^ 5 := by rw [hδ]; norm_num at he1 ⊢; linarith
    have e0 : x + log q = x - L := by rw [hL]; ring
    rw [e0] at hx
    set e := x - L with hee
    have heb := abs_le.1 hx
    norm_num at hδ1
    have hx1 : 1.9 ≤ x := by norm_num; linarith [heb.1]
    have hx0 : 0 < x := by norm_num at hx1; linarith
    have hx6 : x ≤ 670 := by linarith [heb.2]
    have hsm : exp (-709.78) ≤ x * exp (-x) := by
      have h1 : exp (-709.78) ≤ exp (-x) := exp_le_exp.2 (by norm_num; linarith)
      refine h1.trans (le_mul_of_one_le_left (exp_pos _).le ?_)
      norm_num at hx1; linarith
    obtain ⟨f, hf, hf0, hfr, hfp⟩ := fac_one hx0 hsm
    have hQ : incQ 1 x = exp (-x) := incQ_one_eq hx0.le
    have hval : ∃ v, gammaincc eps d 1 x = some v ∧ |v - exp (-x)| ≤ δ * exp (-x) := by
      obtain ⟨v, hv, h⟩ := C102_gammaincc_cf d one_pos (by norm_num)
        (lt_of_lt_of_le (by norm_num) hx1) (by norm_num at hx1; linarith) he
        (he1.trans (by norm_num)) (not_asymRegime (by norm_num))
      rw [hQ] at h
      refine ⟨v, hv, ?_⟩
      rcases h with h | ⟨-, h⟩
      · exact h
      · exfalso
        have h1 : exp (-670) ≤ 1 / 10 ^ 300 := (exp_le_exp.2 (by linarith)).trans h
        have h2 : (1 : ℝ) / 10 ^ 300 < exp (-670) := by
          rw [exp_neg, ← one_div]
          refine one_div_lt_one_div_of_lt (exp_pos _) ?_
          have h2 : exp 670 = exp 1 ^ 670 := by rw [← exp_nat_mul]; norm_num
          rw [h2]
          refine lt_of_le_of_lt (pow_le_pow_left₀ (exp_pos _).le h10'.le 670) ?_
          norm_num
        linarith
    obtain ⟨v, hv, hacc⟩ := hval
    rw [invLoop, hf]
    simp only [Option.bind_some, if_neg hf0, hv, if_pos hx0.ne']
    apply ih
    set s := x * exp (-x) / f with hs
    have h2 : exp x * exp (-x) = 1 := by rw [← exp_add, add_neg_cancel, exp_zero]
    have hr : |-(v - exp (-x)) * exp x| ≤ δ := by
      rw [abs_mul, abs_neg, abs_of_pos (exp_pos x)]
      calc _ ≤ δ * exp (-x) * exp x := mul_le_mul_of_nonneg_right hacc (exp_pos _).le
        _ = δ := by rw [mul_assoc, mul_comm (exp (-x)), h2, mul_one]
    have hle1 : |e| ≤ 1 := by linarith
    have hst := newton_exp_step hfr hle1 hr
    have e3 : x - (v - q) * x / (-1 * f) + log q =
        e - (-(v - exp (-x)) * exp x + (exp e - 1)) * s := by
      have h1 : exp e = exp x * q := by rw [hee, sub_eq_add_neg, exp_add, hLq]
      have h3 : -(v - exp (-x)) * exp x + (exp e - 1) = -((v - q) * exp x) := by
        rw [h1]; linear_combination h2
      rw [h3, hs]
      have h4 : (v - q) * exp x * (x * exp (-x) / f) = (v - q) * x / f := by
        rw [show (v - q) * exp x * (x * exp (-x) / f) = (v - q) * x / f * (exp x * exp (-x)) by ring,
          h2, mul_one]
      rw [neg_one_mul, neg_mul ((v - q) * exp x), h4, div_neg, hee, hL]; ring
    rw [e3]
    refine hst.trans ?_
    have h5 : e ^ 2 ≤ |e| * (1 / 1000) := by
      rw [← sq_abs, sq]; exact mul_le_mul_of_nonneg_left (by linarith) (abs_nonneg _)
    norm_num
    linarith [abs_nonneg e]

/-- **C61, exponential distribution.** At `a = 1` the inverse is `-log(1-p)` to relative accuracy
`10⁻¹² + 4000 eps`, for every `p` that does not underflow. -/
theorem C61_exponential {eps p : ℝ} (d : ℕ → ℕ → ℝ) (he : 1 / 2 ^ 52 ≤ eps) (he1 : eps ≤ 1 / 10 ^ 7)
    (hp : 1 / 10 ^ 80 ≤ p) (hp1 : 1 / 10 ^ 290 ≤ 1 - p) :
    ∃ y : ℝ, gammaincinv eps d 1 p = some (y : EReal) ∧
      |y - -log (1 - p)| ≤ (1 / 10 ^ 12 + 4000 * eps) * -log (1 - p) := by
  have hp0 : 0 < p := lt_of_lt_of_le (by positivity) hp
  have hq0 : 0 < 1 - p := lt_of_lt_of_le (by positivity) hp1
  have heps : 0 < eps := lt_of_lt_of_le (by positivity) he
  have hb : ¬ ((1 : ℝ) < 0 ∨ p < 0 ∨ 1 < p) := by
    push Not; exact ⟨zero_le_one, hp0.le, by linarith⟩
  have hb2 : ¬ ((1 : ℝ) < 0 ∨ 1 - p < 0 ∨ 1 < 1 - p) := by
    push Not; exact ⟨zero_le_one, by linarith, by linarith⟩
  have hL0 : 0 < -log (1 - p) := by
    have := log_neg hq0 (by linarith); linarith
  rw [gammaincinv, incInv_succ, if_neg hb, if_neg hp0.ne', if_neg (by linarith)]
  by_cases h9 : 0.9 < p
  · have h9' : p > 9 / 10 := by norm_num at h9; exact h9
    rw [if_pos h9, incInv_succ, if_neg hb2, if_neg (by linarith), if_neg (by linarith),
      if_neg (by norm_num; linarith), if_pos (by decide)]
    have hg : findInverseGamma 1 (1 - (1 - p)) (1 - p) = -log (1 - p) := by
      rw [findInverseGamma, if_pos rfl, if_neg (by norm_num; linarith)]
    rw [hg]
    obtain ⟨y, hy, h⟩ := exp_loop_upper d he he1 hp1 (by norm_num; linarith) 3 (-log (1 - p))
      (by rw [neg_add_cancel, abs_zero]; positivity)
    refine ⟨y, by rw [hy]; rfl, ?_⟩
    rw [sub_neg_eq_add]
    refine h.trans ?_
    have hL1 : 1 ≤ -log (1 - p) := by
      have h1 : log (1 - p) ≤ log (exp (-1)) := by
        refine log_le_log hq0 ?_
        have := exp_neg_one_gt_d9
        norm_num at this; linarith
      rw [log_exp] at h1; linarith
    have h3 : 2 * (2 / 10 ^ 14 + 100 * eps) ≤ 1 / 10 ^ 12 + 4000 * eps := by norm_num; linarith
    refine h3.trans (le_mul_of_one_le_right (by positivity) hL1)
  · have h9' : p ≤ 9 / 10 := by norm_num at h9; exact h9
    rw [if_neg h9, if_neg (by decide)]
    have hg : findInverseGamma 1 p (1 - p) = -log (1 - p) := by
      rw [findInverseGamma, if_pos rfl, ite_self]
    rw [hg]
    obtain ⟨y, hy, h⟩ := exp_loop_lower d he he1 hp (not_lt.1 h9) 3 (-log (1 - p))
      (by rw [neg_add_cancel, abs_zero]; positivity)
    refine ⟨y, by rw [hy]; rfl, ?_⟩
    rw [sub_neg_eq_add]
    refine h.trans (mul_le_mul_of_nonneg_right ?_ hL0.le)
    norm_num; linarith

example : (1 : ℝ) / 10 ^ 80 ≤ 1 / 2 ∧ (1 : ℝ) / 10 ^ 290 ≤ 1 - 1 / 2 := by norm_num

end Verif.Special

import Verif.Special.GammaIncInvModel
import Verif.Special.IncGammaCompl

/-!
# `gammaincinv` and `gammainccinv` (C61)
-/

open Real

namespace Verif.Special

/-! ### Structure -/

open Classical in
theorem incInv_succ (eps : ℝ) (d : ℕ → ℕ → ℝ) (fuel : ℕ) (compl : Bool) (a p : ℝ) :
    incInv eps d (fuel + 1) compl a p =
    if a < 0 ∨ p < 0 ∨ 1 < p then none
    else if p = 0 then some (if compl then ⊤ else 0)
    else if p = 1 then some (if compl then 0 else ⊤)
    else if 0.9 < p then incInv eps d fuel (!compl) a (1 - p)
    else if compl then
      fin (invLoop (gammaincc eps d a) (-1) a p 3 (findInverseGamma a (1 - p) p))
    else fin (invLoop (gammainc eps d a) 1 a p 3 (findInverseGamma a p (1 - p))) := rfl

theorem incInv_base (eps : ℝ) (d : ℕ → ℕ → ℝ) (n : ℕ) (c : Bool) (a p : ℝ) (hp : p ≤ 0.9) :
    incInv eps d (n + 1) c a p = incInv eps d 1 c a p := by
  simp only [incInv, if_neg (not_lt.2 hp)]

/-- **C61, recursion.** The two functions call each other at most once: any larger bound on the
depth of calls gives the same result. -/
theorem C61_depth (eps : ℝ) (d : ℕ → ℕ → ℝ) (n : ℕ) (c : Bool) (a p : ℝ) :
    incInv eps d (n + 2) c a p = incInv eps d 2 c a p := by
  rw [incInv_succ eps d (n + 1), incInv_succ eps d 1]
  by_cases h : 0.9 < p
  · rw [incInv_base eps d n (!c) a (1 - p) (by norm_num at h ⊢; linarith)]
  · simp only [if_neg h]

/-- **C61, edges.** NaN outside `a ≥ 0`, `0 ≤ p ≤ 1`; the end points. -/
theorem C61_edges (eps : ℝ) (d : ℕ → ℕ → ℝ) :
    (∀ a p, a < 0 ∨ p < 0 ∨ 1 < p → gammaincinv eps d a p = none ∧ gammainccinv eps d a p = none) ∧
    (∀ a, 0 ≤ a → gammaincinv eps d a 0 = some 0 ∧ gammaincinv eps d a 1 = some ⊤ ∧
      gammainccinv eps d a 0 = some ⊤ ∧ gammainccinv eps d a 1 = some 0) := by
  refine ⟨fun a p h => ?_, fun a h => ?_⟩
  · simp only [gammaincinv, gammainccinv, incInv, if_pos h, and_self]
  · have h0 : ¬ (a < 0 ∨ (0 : ℝ) < 0 ∨ (1 : ℝ) < 0) := by push Not; exact ⟨h, le_rfl, zero_le_one⟩
    have h1 : ¬ (a < 0 ∨ (1 : ℝ) < 0 ∨ (1 : ℝ) < 1) := by push Not; exact ⟨h, zero_le_one, le_rfl⟩
    simp only [gammaincinv, gammainccinv, incInv, if_neg h0, if_neg h1, if_true, if_neg one_ne_zero]
    simp

/-- `C61_edges`: a negative `p`; `a = 2`. -/
example (eps : ℝ) (d : ℕ → ℕ → ℝ) := (C61_edges eps d).1 2 (-1) (by norm_num)
example (eps : ℝ) (d : ℕ → ℕ → ℝ) := (C61_edges eps d).2 2 (by norm_num)

/-- **C61, complement.** `gammaincinv(a,p) = gammainccinv(a,1-p)` exactly for every `p` outside
`[0.1, 0.9]`. -/
theorem C61_complement_tails (eps : ℝ) (d : ℕ → ℕ → ℝ) (a p : ℝ) (hp : p < 0.1 ∨ 0.9 < p) :
    gammaincinv eps d a p = gammainccinv eps d a (1 - p) := by
  by_cases hb : a < 0 ∨ p < 0 ∨ 1 < p
  · rw [((C61_edges eps d).1 a p hb).1, ((C61_edges eps d).1 a (1 - p) ?_).2]
    rcases hb with h | h | h
    · exact Or.inl h
    · exact Or.inr (Or.inr (by linarith))
    · exact Or.inr (Or.inl (by linarith))
  have hb2 : ¬ (a < 0 ∨ 1 - p < 0 ∨ 1 < 1 - p) := by
    push Not at hb ⊢; exact ⟨hb.1, by linarith, by linarith⟩
  have ha : 0 ≤ a := by push Not at hb; exact hb.1
  by_cases h0 : p = 0
  · rw [h0, sub_zero, ((C61_edges eps d).2 a ha).1, ((C61_edges eps d).2 a ha).2.2.2]
  by_cases h1 : p = 1
  · rw [h1, sub_self, ((C61_edges eps d).2 a ha).2.1, ((C61_edges eps d).2 a ha).2.2.1]
  rcases hp with h | h
  · have hq : 0.9 < 1 - p := by norm_num at h ⊢; linarith
    have hp9 : p ≤ 0.9 := by norm_num at h ⊢; linarith
    have e : gammainccinv eps d a (1 - p) = incInv eps d 1 false a p := by
      rw [gammainccinv, incInv_succ, if_neg hb2, if_neg (by intro h; exact h1 (by linarith)),
        if_neg (by intro h; exact h0 (by linarith)), if_pos hq, sub_sub_cancel, Bool.not_true]
    rw [e, gammaincinv, incInv_base eps d 1 false a p hp9]
  · have hq : 1 - p ≤ 0.9 := by norm_num at h ⊢; linarith
    have e : gammaincinv eps d a p = incInv eps d 1 true a (1 - p) := by
      rw [gammaincinv, incInv_succ, if_neg hb, if_neg h0, if_neg h1, if_pos h, Bool.not_false]
    rw [e, gammainccinv, incInv_base eps d 1 true a (1 - p) hq]

/-- `C61_complement_tails`: `p = 0.05`. -/
example (eps : ℝ) (d : ℕ → ℕ → ℝ) := C61_complement_tails eps d 2 0.05 (by norm_num)

theorem invLoop_compl {eps a p : ℝ} {d : ℕ → ℕ → ℝ} (ha : 0 < a)
    (h : ∀ x, 0 < x → ¬ compExcept a x) (n : ℕ) (x : ℝ) :
    invLoop (gammainc eps d a) 1 a p n x = invLoop (gammaincc eps d a) (-1) a (1 - p) n x := by
  induction n generalizing x with
  | zero => rfl
  | succ n ih =>
    rw [invLoop, invLoop]
    rcases lt_trichotomy x 0 with hx | hx | hx
    · rw [(C99_igam_fac_edge ha).2 x hx]; rfl
    · rw [hx, (C99_igam_fac_edge ha).1]; simp
    · obtain ⟨P, Q, hP, hQ, hPQ⟩ := C103_complementary eps d ha hx (h x hx)
      obtain ⟨f, hf, -⟩ := C99_igam_fac ha hx
      rw [hf, hP, hQ]
      simp only [Option.bind_some]
      split
      · rfl
      · have e : (P - p) * x / (1 * f) = (Q - (1 - p)) * x / (-1 * f) := by
          have : Q = 1 - P := by linarith
          rw [this]
          rw [neg_one_mul, one_mul, div_neg, ← neg_div]
          congr 1; ring
        rw [e]
        exact ih _

/-- **C61, complement.** For `a > 20`, `a ≠ 200` the identity is exact for every `p`. -/
theorem C61_complement_large (eps : ℝ) (d : ℕ → ℕ → ℝ) {a : ℝ} (ha : 20 < a) (ha2 : a ≠ 200)
    (p : ℝ) : gammaincinv eps d a p = gammainccinv eps d a (1 - p) := by
  by_cases hp : p < 0.1 ∨ 0.9 < p
  · exact C61_complement_tails eps d a p hp
  push Not at hp
  obtain ⟨hp1, hp2⟩ := hp
  have ha0 : 0 < a := by linarith
  have hex : ∀ x, 0 < x → ¬ compExcept a x := by
    rintro x hx ⟨has, h | h⟩
    · rcases h.1 with h1 | h1
      · have hl : log x ≤ -0.69 := by
          have h4 : log x ≤ log (0.5) := log_le_log hx h1.1
          have h5 : log (0.5 : ℝ) = -log 2 := by
            rw [show (0.5 : ℝ) = 2⁻¹ by norm_num, log_inv]
          have := log_two_gt_d9
          rw [h5] at h4
          norm_num at this ⊢
          linarith
        have h6 : -0.4 / log x ≤ 1 := by
          rw [div_le_iff_of_neg (by norm_num at hl; linarith)]
          norm_num at hl ⊢; linarith
        linarith [h1.2]
      · have h2 := h1.2.1
        have h3 := h1.2.2
        norm_num at h2 h3; linarith
    · apply has
      rw [h.2]
      unfold asymRegime
      rcases lt_or_gt_of_ne ha2 with h1 | h1
      · left; refine ⟨ha, h1, ?_⟩; norm_num
      · right; refine ⟨h1, ?_⟩
        have := sqrt_pos.2 ha0
        rw [sub_self, abs_zero, zero_div]; positivity
  have hb : ¬ (a < 0 ∨ p < 0 ∨ 1 < p) := by
    push Not; norm_num at hp1 hp2; exact ⟨ha0.le, by linarith, by linarith⟩
  have hb2 : ¬ (a < 0 ∨ 1 - p < 0 ∨ 1 < 1 - p) := by
    push Not; norm_num at hp1 hp2; exact ⟨ha0.le, by linarith, by linarith⟩
  norm_num at hp1 hp2
  have e1 : gammaincinv eps d a p =
      fin (invLoop (gammainc eps d a) 1 a p 3 (findInverseGamma a p (1 - p))) := by
    rw [gammaincinv, incInv_succ, if_neg hb, if_neg (by linarith), if_neg (by linarith),
      if_neg (by norm_num; linarith), if_neg (by decide)]
  have e2 : gammainccinv eps d a (1 - p) = fin (invLoop (gammaincc eps d a) (-1) a (1 - p) 3
      (findInverseGamma a (1 - (1 - p)) (1 - p))) := by
    rw [gammainccinv, incInv_succ, if_neg hb2, if_neg (by linarith), if_neg (by linarith),
      if_neg (by norm_num; linarith), if_pos rfl]
  rw [e1, e2, sub_sub_cancel, invLoop_compl ha0 hex]

/-- `C61_complement_large`: `a = 50`. -/
example (eps : ℝ) (d : ℕ → ℕ → ℝ) := C61_complement_large eps d (a := 50) (by norm_num) (by norm_num) (1 / 2)

/-! ### The refinement -/

theorem invLoop_last {F : ℝ → Option ℝ} {sgn a t y : ℝ} (ha : 0 < a) (n : ℕ) (x0 : ℝ)
    (h : invLoop F sgn a t (n + 1) x0 = some y) :
    igamFac a y = some 0 ∨ ∃ x f v, 0 < x ∧ igamFac a x = some f ∧ f ≠ 0 ∧ F x = some v ∧
      y = x - (v - t) * x / (sgn * f) := by
  induction n generalizing x0 with
  | zero =>
    rw [invLoop] at h
    rcases lt_trichotomy x0 0 with hx | hx | hx
    · rw [(C99_igam_fac_edge ha).2 x0 hx] at h; cases h
    · left
      rw [hx, (C99_igam_fac_edge ha).1] at h
      simp only [Option.bind_some, if_true, Option.some.injEq] at h
      rw [← h, (C99_igam_fac_edge ha).1]
    · obtain ⟨f, hf, -⟩ := C99_igam_fac ha hx
      rw [hf] at h
      simp only [Option.bind_some] at h
      by_cases h0 : f = 0
      · left
        simp only [if_pos h0, Option.some.injEq] at h
        rw [← h, hf, h0]
      · right
        simp only [if_neg h0] at h
        cases hv : F x0 with
        | none => rw [hv] at h; cases h
        | some v =>
          rw [hv] at h
          simp only [Option.bind_some, invLoop, Option.some.injEq, if_pos hx.ne'] at h
          exact ⟨x0, f, v, hx, hf, h0, hv, h.symm⟩
  | succ n ih =>
    rw [invLoop] at h
    rcases lt_trichotomy x0 0 with hx | hx | hx
    · rw [(C99_igam_fac_edge ha).2 x0 hx] at h; cases h
    · left
      rw [hx, (C99_igam_fac_edge ha).1] at h
      simp only [Option.bind_some, if_true, Option.some.injEq] at h
      rw [← h, (C99_igam_fac_edge ha).1]
    · obtain ⟨f, hf, -⟩ := C99_igam_fac ha hx
      rw [hf] at h
      simp only [Option.bind_some] at h
      by_cases h0 : f = 0
      · left
        simp only [if_pos h0, Option.some.injEq] at h
        rw [← h, hf, h0]
      · simp only [if_neg h0] at h
        cases hv : F x0 with
        | none => rw [hv] at h; cases h
        | some v =>
          rw [hv] at h
          simp only [Option.bind_some] at h
          exact ih _ h

/-- `P(a,·)` is concave for `a ≤ 1`: it lies below its tangents. -/
theorem incP_tangent {a x y : ℝ} (ha : 0 < a) (ha1 : a ≤ 1) (hx : 0 < x) (hy : 0 < y) :
    incP a y ≤ incP a x + (y - x) * (x ^ (a - 1) * exp (-x) / Gamma a) := by
  have hG := Gamma_pos_of_pos ha
  have hanti : ∀ u v : ℝ, 0 < u → u ≤ v →
      v ^ (a - 1) * exp (-v) / Gamma a ≤ u ^ (a - 1) * exp (-u) / Gamma a := by
    intro u v hu huv
    refine div_le_div_of_nonneg_right ?_ hG.le
    refine mul_le_mul (rpow_le_rpow_of_nonpos hu huv (by linarith)) (exp_le_exp.2 (by linarith))
      (exp_pos _).le (rpow_nonneg hu.le _)
  rcases lt_trichotomy x y with h | h | h
  · obtain ⟨c, hc, hc2⟩ := exists_hasDerivAt_eq_slope (incP a)
      (fun t => t ^ (a - 1) * exp (-t) / Gamma a) h
      (fun t ht => (hasDerivAt_incP ha (hx.trans_le ht.1)).continuousAt.continuousWithinAt)
      (fun t ht => hasDerivAt_incP ha (hx.trans ht.1))
    rw [eq_div_iff (by linarith)] at hc2
    have := mul_le_mul_of_nonneg_right (hanti x c hx hc.1.le) (by linarith : 0 ≤ y - x)
    linarith
  · rw [h]; simp
  · obtain ⟨c, hc, hc2⟩ := exists_hasDerivAt_eq_slope (incP a)
      (fun t => t ^ (a - 1) * exp (-t) / Gamma a) h
      (fun t ht => (hasDerivAt_incP ha (hy.trans_le ht.1)).continuousAt.continuousWithinAt)
      (fun t ht => hasDerivAt_incP ha (hy.trans ht.1))
    rw [eq_div_iff (by linarith)] at hc2
    have := mul_le_mul_of_nonneg_right (hanti c x (hy.trans hc.1) hc.2.le) (by linarith : 0 ≤ x - y)
    linarith

theorem not_asymRegime {a x : ℝ} (ha : a ≤ 20) : ¬ asymRegime a x := by
  rintro (h | h) <;> linarith [h.1]

theorem gammainc_abs {eps a x : ℝ} (d : ℕ → ℕ → ℝ) (ha : 1 / 10 ^ 200 ≤ a) (ha1 : a ≤ 20)
    (hx : 0 < x) (he : 1 / 2 ^ 52 ≤ eps) (he1 : eps ≤ 1 / 100) :
    ∃ v, gammainc eps d a x = some v ∧ |v - incP a x| ≤ 2 / 10 ^ 14 + 100 * eps := by
  have ha0 : 0 < a := lt_of_lt_of_le (by positivity) ha
  have heps : 0 < eps := lt_of_lt_of_le (by positivity) he
  by_cases h : 1 < x ∧ a < x
  · exact C102_gammainc_upper d ha (by linarith) h.1 h.2 he he1 (not_asymRegime ha1)
  · have hle : x ≤ 1 ∨ x ≤ a := by
      rcases le_or_gt x 1 with h1 | h1
      · exact Or.inl h1
      · right; by_contra h2; push Not at h2; exact h ⟨h1, h2⟩
    obtain ⟨v, hv, h1⟩ := C100_gammainc_series d ha (by linarith) hx he (by linarith)
      (not_asymRegime ha1) hle
    refine ⟨v, hv, ?_⟩
    have hP0 := incP_nonneg ha0 hx.le
    have hP1 := incP_le_one ha0 hx.le
    rcases h1 with h1 | ⟨h1, h2⟩
    · refine h1.trans ((mul_le_of_le_one_right (by positivity) hP1).trans ?_)
      norm_num
    · rw [h1, zero_sub, abs_neg, abs_of_nonneg hP0]
      refine h2.trans ?_
      have : (1 : ℝ) / 10 ^ 90 ≤ 2 / 10 ^ 14 := by norm_num
      linarith

theorem gammaincc_abs {eps a x : ℝ} (d : ℕ → ℕ → ℝ) (ha : 1 / 10 ^ 200 ≤ a) (ha1 : a ≤ 20)
    (hx : 0 < x) (he : 1 / 2 ^ 52 ≤ eps) (he1 : eps ≤ 1 / 100) :
    ∃ v, gammaincc eps d a x = some v ∧ |v - incQ a x| ≤ 2 / 10 ^ 14 + 100 * eps := by
  have ha0 : 0 < a := lt_of_lt_of_le (by positivity) ha
  have heps : 0 < eps := lt_of_lt_of_le (by positivity) he
  have hQ0 := incQ_nonneg ha0 hx.le
  have hQ1 := incQ_le_one ha0 hx.le
  by_cases h : x ≤ 1.1 ∨ x < a
  · obtain ⟨v, hv, h1, -⟩ := C101_gammaincc_series d ha (by linarith) hx he (by linarith)
      (not_asymRegime ha1) h
    refine ⟨v, hv, h1.trans ?_⟩
    norm_num
  · push Not at h
    obtain ⟨v, hv, h1⟩ := C102_gammaincc_cf d ha0 (by linarith) h.1 h.2 he he1 (not_asymRegime ha1)
    refine ⟨v, hv, ?_⟩
    rcases h1 with h1 | ⟨h1, h2⟩
    · exact h1.trans (mul_le_of_le_one_right (by positivity) hQ1)
    · rw [h1, zero_sub, abs_neg, abs_of_nonneg hQ0]
      refine h2.trans ?_
      have : (1 : ℝ) / 10 ^ 300 ≤ 2 / 10 ^ 14 := by
        refine (one_div_le_one_div_of_le (by positivity)
          (pow_le_pow_right₀ (by norm_num) (by norm_num : 14 ≤ 300))).trans ?_
        norm_num
      linarith

/-- A nonzero prefactor is accurate. -/
theorem fac_near {a x f : ℝ} (ha : 0 < a) (hx : 0 < x) (hf : igamFac a x = some f) (h0 : f ≠ 0) :
    |x ^ a * exp (-x) / Gamma a / f - 1| ≤ 2 / 10 ^ 14 ∧ 0 < f := by
  have hG := Gamma_pos_of_pos ha
  have hF : 0 < x ^ a * exp (-x) / Gamma a := by positivity
  obtain ⟨v, hv, h⟩ := C99_igam_fac ha hx
  rw [hf] at hv
  obtain rfl : f = v := by simpa using hv
  rcases h with h | ⟨h, -⟩
  swap
  · exact absurd h h0
  set F := x ^ a * exp (-x) / Gamma a
  have h1 := abs_le.1 h
  have hf0 : 0.9 * F ≤ f := by norm_num at h1 ⊢; linarith [h1.1]
  have hfp : 0 < f := by norm_num at hf0; linarith
  refine ⟨?_, hfp⟩
  have e : F / f - 1 = -(f - F) / f := by field_simp; ring
  rw [e, abs_div, abs_neg, abs_of_pos hfp, div_le_iff₀ hfp]
  refine h.trans ?_
  norm_num at hf0 ⊢; linarith

theorem rpow_sub_one_mul {a x : ℝ} (hx : 0 < x) :
    x ^ (a - 1) * exp (-x) / Gamma a = x ^ a * exp (-x) / Gamma a / x := by
  rw [rpow_sub_one hx.ne']; ring

/-- The value returned by the common part of the two functions, for `a ≤ 1`. -/
theorem newton_below {eps a p y x f v s : ℝ} (ha : 0 < a) (ha1 : a ≤ 1) (hx : 0 < x) (hy : 0 < y)
    (hf : igamFac a x = some f) (h0 : f ≠ 0) (hp : 0 ≤ p) (hp1 : p ≤ 1) (he : 0 ≤ eps)
    (he1 : eps ≤ 1 / 100) (hs : s = v - p) (hv : |v - incP a x| ≤ 2 / 10 ^ 14 + 100 * eps)
    (hy2 : y = x - s * x / f) : incP a y ≤ p + 1 / 10 ^ 12 + 100 * eps := by
  obtain ⟨hn, hfp⟩ := fac_near ha hx hf h0
  have ht := incP_tangent ha ha1 hx hy
  rw [rpow_sub_one_mul hx] at ht
  set F := x ^ a * exp (-x) / Gamma a
  have e : (y - x) * (F / x) = -s * (F / f) := by rw [hy2]; field_simp; ring
  rw [e] at ht
  have hP0 := incP_nonneg ha hx.le
  have hP1 := incP_le_one ha hx.le
  have h1 := abs_le.1 hv
  have h2 := abs_le.1 hn
  have hsb : |s| ≤ 3 := by rw [hs, abs_le]; norm_num at h1 ⊢; constructor <;> linarith [h1.1, h1.2]
  have e2 : -s * (F / f) = -s - s * (F / f - 1) := by ring
  rw [e2] at ht
  have h3 : |s * (F / f - 1)| ≤ 3 * (2 / 10 ^ 14) := by
    rw [abs_mul]; exact mul_le_mul hsb hn (abs_nonneg _) (by norm_num)
  have h4 := abs_le.1 h3
  norm_num at h1 h4 ⊢
  linarith [h1.1, h1.2, h4.1, h4.2]

/-- **C61, no overshoot.** For every `10⁻²⁰⁰ ≤ a ≤ 1` and every `0 < p < 1`, a finite value `y > 0`
returned by `gammaincinv(a,p)` does not exceed the true inverse by more than rounding:
`P(a,y) ≤ p + 10⁻¹² + 100 eps`, unless the density has underflowed at `y`. -/
theorem C61_no_overshoot_partial {eps a p y : ℝ} (d : ℕ → ℕ → ℝ) (ha : 1 / 10 ^ 200 ≤ a) (ha1 : a ≤ 1)
    (he : 1 / 2 ^ 52 ≤ eps) (he1 : eps ≤ 1 / 100) (hp : 0 < p) (hp1 : p < 1)
    (h : gammaincinv eps d a p = some (y : EReal)) (hy : 0 < y) :
    incP a y ≤ p + 1 / 10 ^ 12 + 100 * eps ∨ y ^ a * exp (-y) / Gamma a < exp (-709.78) := by
  have ha0 : 0 < a := lt_of_lt_of_le (by positivity) ha
  have heps : 0 < eps := lt_of_lt_of_le (by positivity) he
  have hb : ¬ (a < 0 ∨ p < 0 ∨ 1 < p) := by push Not; exact ⟨ha0.le, hp.le, hp1.le⟩
  have hund : igamFac a y = some 0 → y ^ a * exp (-y) / Gamma a < exp (-709.78) := by
    intro h1
    obtain ⟨v, hv, h2⟩ := C99_igam_fac ha0 hy
    rw [h1] at hv
    obtain rfl : (0 : ℝ) = v := by simpa using hv
    rcases h2 with h2 | h2
    · exfalso
      have hF : 0 < y ^ a * exp (-y) / Gamma a := by have := Gamma_pos_of_pos ha0; positivity
      rw [zero_sub, abs_neg, abs_of_pos hF] at h2
      norm_num at h2; linarith
    · exact h2.2
  rw [gammaincinv, incInv_succ, if_neg hb, if_neg hp.ne', if_neg hp1.ne] at h
  by_cases h9 : 0.9 < p
  · have hb2 : ¬ (a < 0 ∨ 1 - p < 0 ∨ 1 < 1 - p) := by
      push Not; exact ⟨ha0.le, by linarith, by linarith⟩
    rw [if_pos h9, incInv_succ, if_neg hb2, if_neg (by linarith), if_neg (by linarith),
      if_neg (by norm_num at h9 ⊢; linarith), if_pos (by decide)] at h
    rw [fin, Option.map_eq_some_iff] at h
    obtain ⟨y', h, hy'⟩ := h
    obtain rfl : y' = y := EReal.coe_eq_coe_iff.1 hy'
    rcases invLoop_last ha0 2 _ h with h1 | ⟨x, f, v, hx, hf, hf0, hv, hy2⟩
    · exact Or.inr (hund h1)
    · left
      obtain ⟨v', hv', hacc⟩ := gammaincc_abs d ha (by linarith) hx he he1
      rw [hv] at hv'
      obtain rfl : v = v' := by simpa using hv'
      have hPQ := incP_add_incQ ha0 hx.le
      refine newton_below (v := 1 - v) (s := 1 - v - p) ha0 ha1 hx hy hf hf0 hp.le hp1.le heps.le he1
        rfl ?_ ?_
      · rw [show 1 - v - incP a x = -(v - incQ a x) by linarith, abs_neg]; exact hacc
      · rw [hy2]
        rw [neg_one_mul, div_neg]
        ring
  · rw [if_neg h9, if_neg (by decide)] at h
    rw [fin, Option.map_eq_some_iff] at h
    obtain ⟨y', h, hy'⟩ := h
    obtain rfl : y' = y := EReal.coe_eq_coe_iff.1 hy'
    rcases invLoop_last ha0 2 _ h with h1 | ⟨x, f, v, hx, hf, hf0, hv, hy2⟩
    · exact Or.inr (hund h1)
    · left
      obtain ⟨v', hv', hacc⟩ := gammainc_abs d ha (by linarith) hx he he1
      rw [hv] at hv'
      obtain rfl : v = v' := by simpa using hv'
      refine newton_below (v := v) (s := v - p) ha0 ha1 hx hy hf hf0 hp.le hp1.le heps.le he1 rfl
        hacc ?_
      rw [hy2, one_mul]

end Verif.Special

import Verif.Special.GammaIncInvExp

/-!
# `gammainccinv` is not accurate to machine precision (C61)

The test `isfinite(fpp_fp)` of `gammaincinv.h:213,240` selects the plain Newton step where Halley's
step was meant, and three Newton steps do not suffice.  The witness is `a = 1/10`,
`q = 1/(10 Γ(1/10))`.
-/

open Real

namespace Verif.Special

/-! ### Newton's map for `Q(a,·) - q` -/

/-- `Q(a,·)` is convex for `a ≤ 1`. -/
theorem incQ_tangent {a x y : ℝ} (ha : 0 < a) (ha1 : a ≤ 1) (hx : 0 < x) (hy : 0 < y) :
    incQ a x - (y - x) * (x ^ (a - 1) * exp (-x) / Gamma a) ≤ incQ a y := by
  have h1 := incP_tangent ha ha1 hx hy
  have h2 := incP_add_incQ ha hx.le
  have h3 := incP_add_incQ ha hy.le
  linarith

theorem dens_anti {a u v : ℝ} (ha : 0 < a) (ha1 : a ≤ 1) (hu : 0 < u) (huv : u ≤ v) :
    v ^ (a - 1) * exp (-v) / Gamma a ≤ u ^ (a - 1) * exp (-u) / Gamma a := by
  have hG := Gamma_pos_of_pos ha
  refine div_le_div_of_nonneg_right ?_ hG.le
  exact mul_le_mul (rpow_le_rpow_of_nonpos hu huv (by linarith)) (exp_le_exp.2 (by linarith))
    (exp_pos _).le (rpow_nonneg hu.le _)

/-- Newton's map. -/
noncomputable def newtonQ (a q x : ℝ) : ℝ := x + (incQ a x - q) / (x ^ (a - 1) * exp (-x) / Gamma a)

theorem newtonQ_mono {a q x X : ℝ} (ha : 0 < a) (ha1 : a ≤ 1) (hx : 0 < x) (hX : 0 < X)
    (h : x ≤ X ∧ q ≤ incQ a X ∨ X ≤ x ∧ incQ a X ≤ q) : newtonQ a q x ≤ newtonQ a q X := by
  have hG := Gamma_pos_of_pos ha
  have hg : 0 < x ^ (a - 1) * exp (-x) / Gamma a := by positivity
  have hgX : 0 < X ^ (a - 1) * exp (-X) / Gamma a := by positivity
  have ht := incQ_tangent ha ha1 hx hX
  have hN : (newtonQ a q X - X) * (X ^ (a - 1) * exp (-X) / Gamma a) = incQ a X - q := by
    rw [newtonQ]; field_simp; ring
  have hn : (newtonQ a q x - x) * (x ^ (a - 1) * exp (-x) / Gamma a) = incQ a x - q := by
    rw [newtonQ]; field_simp; ring
  have hs : (newtonQ a q X - X) * (X ^ (a - 1) * exp (-X) / Gamma a) ≤
      (newtonQ a q X - X) * (x ^ (a - 1) * exp (-x) / Gamma a) := by
    rcases h with ⟨h1, h2⟩ | ⟨h1, h2⟩
    · refine mul_le_mul_of_nonneg_left (dens_anti ha ha1 hx h1) ?_
      by_contra hc; push Not at hc
      have := mul_neg_of_neg_of_pos hc hgX
      linarith
    · refine mul_le_mul_of_nonpos_left (dens_anti ha ha1 hX h1) ?_
      by_contra hc; push Not at hc
      have := mul_pos hc hgX
      linarith
  have : (newtonQ a q x - newtonQ a q X) * (x ^ (a - 1) * exp (-x) / Gamma a) ≤ 0 := by
    linarith
  by_contra hc
  push Not at hc
  have := mul_pos (sub_pos.2 hc) hg
  linarith

theorem incQ_anti {a x y : ℝ} (ha : 0 < a) (ha1 : a ≤ 1) (hx : 0 < x) (hxy : x ≤ y) :
    incQ a y ≤ incQ a x := by
  have hG := Gamma_pos_of_pos ha
  have hy : 0 < y := by linarith
  have h := incQ_tangent ha ha1 hy hx
  have h2 : 0 ≤ (y - x) * (y ^ (a - 1) * exp (-y) / Gamma a) :=
    mul_nonneg (by linarith) (by positivity)
  linarith

/-! ### The witness -/

/-- `q / F` for the witness. -/
noncomputable def witE (x : ℝ) : ℝ := 1 / 10 * x ^ (-(1 / 10) : ℝ) * exp x

/-- `Q / F`. -/
noncomputable def witT (x : ℝ) : ℝ := cfK x 0 (1 / 10 - 1)

/-- `q`. -/
noncomputable def witq : ℝ := 1 / 10 / Gamma (1 / 10)

theorem witG : 1 ≤ Gamma (1 / 10) := by
  have := Real.Gamma_strictAntiOn_Ioc (a := 1 / 10) (b := 1) (by norm_num) (by norm_num) (by norm_num)
  rw [Gamma_one] at this
  exact this.le

theorem witF {x : ℝ} (hx : 0 < x) :
    incQ (1 / 10) x = x ^ (1 / 10 : ℝ) * exp (-x) / Gamma (1 / 10) * witT x ∧
    witq = x ^ (1 / 10 : ℝ) * exp (-x) / Gamma (1 / 10) * witE x := by
  refine ⟨incQ_eq_cfK hx, ?_⟩
  have hG := witG
  have h1 : x ^ (1 / 10 : ℝ) * x ^ (-(1 / 10) : ℝ) = 1 := by
    rw [← rpow_add hx, add_neg_cancel, rpow_zero]
  have h2 : exp (-x) * exp x = 1 := by rw [← exp_add, neg_add_cancel, exp_zero]
  rw [witq, witE]
  rw [show x ^ (1 / 10 : ℝ) * exp (-x) / Gamma (1 / 10) *
    (1 / 10 * x ^ (-(1 / 10) : ℝ) * exp x) = (x ^ (1 / 10 : ℝ) * x ^ (-(1 / 10) : ℝ)) *
      (exp (-x) * exp x) * (1 / 10) / Gamma (1 / 10) by ring, h1, h2]
  ring

theorem newtonQ_wit {x : ℝ} (hx : 0 < x) :
    newtonQ (1 / 10) witq x = x + x * (witT x - witE x) := by
  obtain ⟨h1, h2⟩ := witF hx
  have hG := witG
  have hF : 0 < x ^ (1 / 10 : ℝ) * exp (-x) / Gamma (1 / 10) := by positivity
  rw [newtonQ, rpow_sub_one_mul hx, h1, h2]
  field_simp

/-! ### Rational bounds -/

/-- `(A n, A (n+1))` and `(B n, B (n+1))` in rational arithmetic. -/
def cfAQ (a x : ℚ) : ℕ → ℚ × ℚ
  | 0 => (1, x + 1)
  | n + 1 => ((cfAQ a x n).2, (x + 2 * (n + 2) - a) * (cfAQ a x n).2 -
      (n + 1) * (n + 2 - a) * (cfAQ a x n).1)

def cfBQ (a x : ℚ) : ℕ → ℚ × ℚ
  | 0 => (x, (x + 2 - a) * x)
  | n + 1 => ((cfBQ a x n).2, (x + 2 * (n + 2) - a) * (cfBQ a x n).2 -
      (n + 1) * (n + 2 - a) * (cfBQ a x n).1)

theorem cfAQ_eq (a x : ℚ) (n : ℕ) :
    cfA a x n = ((cfAQ a x n).1 : ℚ) ∧ cfA a x (n + 1) = ((cfAQ a x n).2 : ℚ) := by
  induction n with
  | zero => simp [cfA, cfAQ]
  | succ n ih =>
    refine ⟨by rw [cfAQ]; exact ih.2, ?_⟩
    rw [cfA, ih.1, ih.2, cfAQ]
    push_cast; ring

theorem cfBQ_eq (a x : ℚ) (n : ℕ) :
    cfB a x n = ((cfBQ a x n).1 : ℚ) ∧ cfB a x (n + 1) = ((cfBQ a x n).2 : ℚ) := by
  induction n with
  | zero => simp [cfB, cfBQ]
  | succ n ih =>
    refine ⟨by rw [cfBQ]; exact ih.2, ?_⟩
    rw [cfB, ih.1, ih.2, cfBQ]
    push_cast; ring

theorem cfr_eq (x : ℚ) (n : ℕ) :
    cfr (1 / 10) x n = (((cfAQ (1 / 10) x n).1 / (cfBQ (1 / 10) x n).1 : ℚ) : ℝ) := by
  have h1 := (cfAQ_eq (1 / 10) x n).1
  have h2 := (cfBQ_eq (1 / 10) x n).1
  push_cast at h1 h2
  rw [cfr, h1, h2]
  push_cast; rfl

/-- For `a = 1/10` every convergent is an upper bound. -/
theorem witT_le {x : ℝ} (hx : 1 ≤ x) (n : ℕ) : witT x ≤ cfr (1 / 10) x n := by
  have h := cf_err (a := 1 / 10) (x := x) (by norm_num) (by linarith) n
  have hB := cfB_pos (a := 1 / 10) (x := x) (by norm_num) (by linarith) n
  have hC : 0 ≤ cfC (1 / 10) (n + 1) := by
    refine Finset.prod_nonneg fun k _ => ?_
    have : (0 : ℝ) ≤ k := by positivity
    linarith
  have hJ := cfJ_nonneg (1 / 10) x n
  have : -(cfC (1 / 10) (n + 1) * cfJ (1 / 10) x n) / cfB (1 / 10) x n ≤ 0 := by
    rw [neg_div]
    have := div_nonneg (mul_nonneg hC hJ) hB.le
    linarith
  rw [witT]
  linarith

theorem witT_upper {x : ℚ} (hx : 1 ≤ x) (n : ℕ) {t : ℚ}
    (h : (cfAQ (1 / 10) x n).1 / (cfBQ (1 / 10) x n).1 ≤ t) : witT x ≤ t := by
  have h1 := witT_le (x := (x : ℝ)) (by exact_mod_cast hx) n
  rw [cfr_eq] at h1
  exact h1.trans (by exact_mod_cast h)

theorem witT_lower {x : ℚ} (hx : 1 ≤ x) (n : ℕ) {t : ℚ} (hn : (n + 1 : ℚ) ≤ 16 * x)
    (h : t ≤ 5 * ((cfAQ (1 / 10) x (n + 1)).1 / (cfBQ (1 / 10) x (n + 1)).1) -
      4 * ((cfAQ (1 / 10) x n).1 / (cfBQ (1 / 10) x n).1))
    (h2 : (cfAQ (1 / 10) x (n + 1)).1 / (cfBQ (1 / 10) x (n + 1)).1 ≤
      (cfAQ (1 / 10) x n).1 / (cfBQ (1 / 10) x n).1) : t ≤ witT x := by
  have hx' : (1 : ℝ) ≤ x := by exact_mod_cast hx
  have h1 := cf_stop (a := 1 / 10) (x := (x : ℝ)) (by norm_num) (by linarith) n
  have hs : max 1 (√(n + 1) / √(x : ℝ)) ≤ 4 := by
    refine max_le (by norm_num) ?_
    rw [div_le_iff₀ (sqrt_pos.2 (by linarith))]
    refine sqrt_le_iff.2 ⟨by positivity, ?_⟩
    rw [mul_pow, sq_sqrt (by linarith)]
    have : ((n + 1 : ℚ) : ℝ) ≤ ((16 * x : ℚ) : ℝ) := by exact_mod_cast hn
    push_cast at this
    linarith
  rw [cfr_eq, cfr_eq] at h1
  set u := (cfAQ (1 / 10) x (n + 1)).1 / (cfBQ (1 / 10) x (n + 1)).1
  set w := (cfAQ (1 / 10) x n).1 / (cfBQ (1 / 10) x n).1
  have h2' : (u : ℝ) ≤ w := by exact_mod_cast h2
  have h' : (t : ℝ) ≤ 5 * u - 4 * w := by exact_mod_cast h
  rw [abs_of_nonpos (by linarith : (u : ℝ) - w ≤ 0)] at h1
  have h3 := mul_le_mul_of_nonneg_right hs (by linarith : 0 ≤ -((u : ℝ) - w))
  have h4 := abs_le.1 (h1.trans h3)
  rw [witT]
  linarith [h4.1]

theorem rpow_lower {x r : ℝ} (hx : 0 < x) (hr : 0 ≤ r) (h : r ^ 10 * x ≤ 1) :
    r ≤ x ^ (-(1 / 10) : ℝ) := by
  have h1 : (x ^ (-(1 / 10) : ℝ)) ^ 10 = x⁻¹ := by
    rw [← rpow_natCast, ← rpow_mul hx.le, ← rpow_neg_one]; norm_num
  refine le_of_pow_le_pow_left₀ (n := 10) (by norm_num) (rpow_nonneg hx.le _) ?_
  rw [h1, ← one_div, le_div_iff₀ hx]
  exact h

theorem rpow_upper {x r : ℝ} (hx : 0 < x) (hr : 0 ≤ r) (h : 1 ≤ r ^ 10 * x) :
    x ^ (-(1 / 10) : ℝ) ≤ r := by
  have h1 : (x ^ (-(1 / 10) : ℝ)) ^ 10 = x⁻¹ := by
    rw [← rpow_natCast, ← rpow_mul hx.le, ← rpow_neg_one]; norm_num
  refine le_of_pow_le_pow_left₀ (n := 10) (by norm_num) hr ?_
  rw [h1, ← one_div, div_le_iff₀ hx]
  exact h

theorem witE_lower {x r s : ℝ} (hx : 0 < x) (hr : 0 ≤ r) (h : r ^ 10 * x ≤ 1) (hs0 : 0 ≤ s)
    (hs : s ≤ exp x) : 1 / 10 * r * s ≤ witE x := by
  have := rpow_lower hx hr h
  rw [witE]
  gcongr

theorem witE_upper {x r s : ℝ} (hx : 0 < x) (hr : 0 ≤ r) (h : 1 ≤ r ^ 10 * x)
    (hs : exp x ≤ s) : witE x ≤ 1 / 10 * r * s := by
  have := rpow_upper hx hr h
  rw [witE]
  gcongr

/-! ### The numbers -/

theorem wit_182 : witT (91 / 50) ≤ 0.4007 ∧ 0.5812 ≤ witE (91 / 50) := by
  constructor
  · have := witT_upper (x := 91 / 50) (by norm_num) 7 (t := 0.4007) (by decide +kernel)
    push_cast at this; norm_num at this ⊢; exact this
  · have h := sum_le_exp_of_nonneg (x := 91 / 50) (by norm_num) 16
    norm_num [Finset.sum_range_succ, Nat.factorial] at h
    refine le_trans ?_ (witE_lower (r := 0.94187411) (by norm_num) (by norm_num) (by norm_num) ?_ h)
    · norm_num
    · norm_num

theorem wit_149 : witT (14923 / 10000) ≤ 0.46627 ∧ 0.42727 ≤ witE (14923 / 10000) := by
  constructor
  · have := witT_upper (x := 14923 / 10000) (by norm_num) 12 (t := 0.46627) (by decide +kernel)
    push_cast at this; norm_num at this ⊢; exact this
  · have h := sum_le_exp_of_nonneg (x := 14923 / 10000) (by norm_num) 16
    norm_num [Finset.sum_range_succ, Nat.factorial] at h
    refine le_trans ?_ (witE_lower (r := 0.96075883) (by norm_num) (by norm_num) (by norm_num) ?_ h)
    · norm_num
    · norm_num

theorem wit_155 : witT (15507 / 10000) ≤ 0.4529386 ∧ 0.4512400 ≤ witE (15507 / 10000) := by
  constructor
  · have := witT_upper (x := 15507 / 10000) (by norm_num) 16 (t := 0.4529386) (by decide +kernel)
    push_cast at this; norm_num at this ⊢; exact this
  · have h := sum_le_exp_of_nonneg (x := 15507 / 10000) (by norm_num) 16
    norm_num [Finset.sum_range_succ, Nat.factorial] at h
    refine le_trans ?_ (witE_lower (r := 0.95707775) (by norm_num) (by norm_num) (by norm_num) ?_ h)
    · norm_num
    · norm_num

theorem wit_end : (1 + 5 / 10 ^ 6) * witE (1553335 / 1000000) ≤ witT (1553335 / 1000000) := by
  have h1 : (0.4523564 : ℚ) ≤ witT (1553335 / 1000000) := by
    have := witT_lower (x := 1553335 / 1000000) (by norm_num) 18 (t := 0.4523564) (by norm_num)
      (by decide +kernel) (by decide +kernel)
    push_cast at this ⊢; norm_num at this ⊢; exact this
  have h2 := exp_bound' (x := 1553335 / 2000000) (by norm_num) (by norm_num) (n := 12) (by norm_num)
  norm_num [Finset.sum_range_succ, Nat.factorial] at h2
  have h3 : exp (1553335 / 1000000) ≤ 4.7272092 := by
    rw [show (1553335 / 1000000 : ℝ) = (2 : ℕ) * (310667 / 400000) by norm_num, exp_nat_mul]
    refine (pow_le_pow_left₀ (exp_pos _).le h2 2).trans ?_
    norm_num
  have h4 := witE_upper (x := 1553335 / 1000000) (r := 0.95691528) (by norm_num) (by norm_num) (by norm_num) h3
  push_cast at h1
  norm_num at h1 h4 ⊢
  linarith

theorem mulb {x y X Y ex ey C e : ℝ} (hx : |x - X| ≤ ex) (hy : |y - Y| ≤ ey)
    (h : |X * Y - C| + |X| * ey + ex * (|Y| + ey) ≤ e) : |x * y - C| ≤ e := by
  refine le_trans ?_ h
  have e1 : x * y - C = (X * Y - C) + X * (y - Y) + (x - X) * (Y + (y - Y)) := by ring
  rw [e1]
  have hex : 0 ≤ ex := (abs_nonneg _).trans hx
  refine (abs_add_le _ _).trans (add_le_add ((abs_add_le _ _).trans (add_le_add le_rfl ?_)) ?_)
  · rw [abs_mul]; exact mul_le_mul_of_nonneg_left hy (abs_nonneg _)
  · rw [abs_mul]
    exact mul_le_mul hx ((abs_add_le _ _).trans (add_le_add le_rfl hy)) (abs_nonneg _) hex

theorem wit_log : |log 10 - 2.30255| ≤ 5 / 10 ^ 5 ∧ |log (log 10) - 0.834| ≤ 1 / 10 ^ 4 := by
  have h1 : 2.3025 ≤ log 10 := by
    rw [le_log_iff_exp_le (by norm_num)]
    have h2 := exp_bound' (x := 0.7675) (by norm_num) (by norm_num) (n := 10) (by norm_num)
    norm_num [Finset.sum_range_succ, Nat.factorial] at h2
    rw [show (2.3025 : ℝ) = (3 : ℕ) * (307 / 400) by norm_num, exp_nat_mul]
    refine (pow_le_pow_left₀ (exp_pos _).le h2 3).trans ?_
    norm_num
  have h2 : log 10 ≤ 2.3026 := by
    rw [log_le_iff_le_exp (by norm_num)]
    refine le_trans ?_ (sum_le_exp_of_nonneg (by norm_num) 16)
    norm_num [Finset.sum_range_succ, Nat.factorial]
  have hpos : 0 < log 10 := by norm_num at h1; linarith
  have h3 : 0.8339 ≤ log (log 10) := by
    rw [le_log_iff_exp_le hpos]
    refine le_trans ?_ h1
    refine (exp_bound' (x := 0.8339) (by norm_num) (by norm_num) (n := 10) (by norm_num)).trans ?_
    norm_num [Finset.sum_range_succ, Nat.factorial]
  have h4 : log (log 10) ≤ 0.8341 := by
    rw [log_le_iff_le_exp hpos]
    refine h2.trans ?_
    refine le_trans ?_ (sum_le_exp_of_nonneg (by norm_num) 12)
    norm_num [Finset.sum_range_succ, Nat.factorial]
  rw [abs_le, abs_le]
  norm_num at h1 h2 h3 h4 ⊢
  refine ⟨⟨?_, ?_⟩, ?_, ?_⟩ <;> linarith

theorem wit_x0 : |didonato25 (1 / 10) (log 10) - 1.8222| ≤ 2 / 10 ^ 3 := by
  obtain ⟨hy, hl⟩ := wit_log
  set y := log 10
  set l := log y
  have hy0 : 2.3 < y := by have := abs_le.1 hy; norm_num at this ⊢; linarith [this.1]
  have hyp : 0 < y := by norm_num at hy0; linarith
  have hw : |1 / y - 0.4343| ≤ 2 / 10 ^ 5 := by
    have h1 := abs_le.1 hy
    rw [abs_le, neg_le_sub_iff_le_add, sub_le_iff_le_add, div_le_iff₀ hyp,
      ← sub_le_iff_le_add, le_div_iff₀ hyp]
    norm_num at h1 ⊢
    constructor <;> linarith [h1.1, h1.2]
  have hc1 : |(1 / 10 - 1) * l - -0.7506| ≤ 9 / 10 ^ 5 := by
    have h1 := abs_le.1 hl
    rw [abs_le]; norm_num at h1 ⊢
    constructor <;> linarith [h1.1, h1.2]
  rw [didonato25]
  set c := (1 / 10 - 1) * l with hcdef
  set w := 1 / y with hwdef
  have hc2 : |c * c - 0.5634| ≤ 1.4 / 10 ^ 4 := mulb hc1 hc1 (by norm_num)
  have hc3 : |c * c * c - -0.42289| ≤ 2 / 10 ^ 4 := mulb hc2 hc1 (by norm_num)
  have hc4 : |c * c * c * c - 0.31742| ≤ 2 / 10 ^ 4 := mulb hc3 hc1 (by norm_num)
  have hw2 : |w * w - 0.188616| ≤ 2 / 10 ^ 5 := mulb hw hw (by norm_num)
  have hw3 : |w * w * w - 0.081916| ≤ 2 / 10 ^ 5 := mulb hw2 hw (by norm_num)
  have hw4 : |w * w * w * w - 0.035576| ≤ 2 / 10 ^ 5 := mulb hw3 hw (by norm_num)
  have k2 : |(1 / 10 - 1) * (1 + c) - -0.22446| ≤ 1 / 10 ^ 4 := by
    rw [abs_le] at *; norm_num at hc1 ⊢; constructor <;> linarith
  have k3 : |(1 / 10 - 1) * (-(c ^ 2 / 2) + (1 / 10 - 2) * c + (3 * (1 / 10) - 5) / 2) - 1.085| ≤
      4 / 10 ^ 4 := by
    rw [sq]
    rw [abs_le] at *; norm_num at hc1 hc2 ⊢; constructor <;> linarith
  have k4 : |(1 / 10 - 1) * (c ^ 3 / 3 - (3 * (1 / 10) - 5) * c ^ 2 / 2 +
      ((1 / 10) ^ 2 - 6 * (1 / 10) + 7) * c + (11 * (1 / 10) ^ 2 - 46 * (1 / 10) + 47) / 6) -
      -3.111| ≤ 2 / 10 ^ 3 := by
    rw [show c ^ 3 = c * c * c by ring, sq c]
    rw [abs_le] at *; norm_num at hc1 hc2 hc3 ⊢; constructor <;> linarith
  have k5 : |(1 / 10 - 1) * (-(c ^ 4 / 4) + (11 * (1 / 10) - 17) * c ^ 3 / 6 +
      (-3 * (1 / 10) ^ 2 + 13 * (1 / 10) - 13) * c ^ 2 +
      (2 * (1 / 10) ^ 3 - 25 * (1 / 10) ^ 2 + 72 * (1 / 10) - 61) * c / 2 +
      (25 * (1 / 10) ^ 3 - 195 * (1 / 10) ^ 2 + 477 * (1 / 10) - 379) / 12) - 11.746| ≤ 1 / 10 ^ 2 := by
    rw [show c ^ 4 = c * c * c * c by ring, show c ^ 3 = c * c * c by ring, sq c]
    rw [abs_le] at *; norm_num at hc1 hc2 hc3 hc4 ⊢; constructor <;> linarith
  generalize (1 / 10 - 1) * (1 + c) = d2 at *
  generalize (1 / 10 - 1) * (-(c ^ 2 / 2) + (1 / 10 - 2) * c + (3 * (1 / 10) - 5) / 2) = d3 at *
  generalize (1 / 10 - 1) * (c ^ 3 / 3 - (3 * (1 / 10) - 5) * c ^ 2 / 2 +
      ((1 / 10) ^ 2 - 6 * (1 / 10) + 7) * c + (11 * (1 / 10) ^ 2 - 46 * (1 / 10) + 47) / 6) = d4 at *
  generalize (1 / 10 - 1) * (-(c ^ 4 / 4) + (11 * (1 / 10) - 17) * c ^ 3 / 6 +
      (-3 * (1 / 10) ^ 2 + 13 * (1 / 10) - 13) * c ^ 2 +
      (2 * (1 / 10) ^ 3 - 25 * (1 / 10) ^ 2 + 72 * (1 / 10) - 61) * c / 2 +
      (25 * (1 / 10) ^ 3 - 195 * (1 / 10) ^ 2 + 477 * (1 / 10) - 379) / 12) = d5 at *
  have m2 : |d2 * w - -0.097483| ≤ 1 / 10 ^ 4 := mulb k2 hw (by norm_num)
  have m3 : |d3 * (w * w) - 0.20465| ≤ 2 / 10 ^ 4 := mulb k3 hw2 (by norm_num)
  have m4 : |d4 * (w * w * w) - -0.25484| ≤ 3 / 10 ^ 4 := mulb k4 hw3 (by norm_num)
  have m5 : |d5 * (w * w * w * w) - 0.41788| ≤ 1 / 10 ^ 3 := mulb k5 hw4 (by norm_num)
  have e : y + c + d2 / y + d3 / y ^ 2 + d4 / y ^ 3 + d5 / y ^ 4 =
      y + c + d2 * w + d3 * (w * w) + d4 * (w * w * w) + d5 * (w * w * w * w) := by
    rw [hwdef]; field_simp
  show |y + c + d2 / y + d3 / y ^ 2 + d4 / y ^ 3 + d5 / y ^ 4 - 1.8222| ≤ 2 / 10 ^ 3
  rw [e]
  rw [abs_le] at *
  norm_num at hy hc1 m2 m3 m4 m5 ⊢
  constructor <;> linarith

/-! ### The run -/

theorem witT_lower' {x : ℝ} (hx : 1 ≤ x) : 1 / (x + 9 / 10) ≤ witT x := by
  have hx0 : 0 < x := by linarith
  have h1 := cfT_eq (1 / 10) hx0
  have h2 : cfJ (1 / 10) x 0 ≤ cfK x 0 (1 / 10 - 1) := by
    have := cfK_add hx0 0 (1 / 10 - 2)
    rw [show (1 / 10 - 2 + 1 : ℝ) = 1 / 10 - 1 by ring] at this
    rw [cfJ, Nat.cast_zero, sub_zero]
    have h3 := cfK_nonneg x (0 + 1) (1 / 10 - 2)
    linarith
  rw [div_le_iff₀ (by linarith), witT]
  nlinarith

theorem witG_le : Gamma (1 / 10) ≤ 10 := by
  have h0 : ∀ a b : ℝ, 0 ≤ a → 0 ≤ b → a + b = 1 →
      Gamma (a • 1 + b • 2) ≤ a • Gamma 1 + b • Gamma 2 := fun a b ha hb hab =>
    Real.convexOn_Gamma.2 (by norm_num : (1 : ℝ) ∈ Set.Ioi 0) (by norm_num : (2 : ℝ) ∈ Set.Ioi 0)
      ha hb hab
  have h1 := h0 (9 / 10) (1 / 10) (by norm_num) (by norm_num) (by norm_num)
  simp only [smul_eq_mul] at h1
  rw [Gamma_one, Gamma_two] at h1
  have h2 := Gamma_add_one (s := 1 / 10) (by norm_num)
  norm_num at h1 h2
  linarith

theorem wit_step {eps x : ℝ} (d : ℕ → ℕ → ℝ) (he : 1 / 2 ^ 52 ≤ eps) (he1 : eps ≤ 1 / 10 ^ 12)
    (hx : 1.2 ≤ x) (hx2 : x ≤ 1.9) (n : ℕ) :
    ∃ x', invLoop (gammaincc eps d (1 / 10)) (-1) (1 / 10) witq (n + 1) x =
        invLoop (gammaincc eps d (1 / 10)) (-1) (1 / 10) witq n x' ∧
      |x' - newtonQ (1 / 10) witq x| ≤ 1 / 10 ^ 9 := by
  have heps : 0 < eps := lt_of_lt_of_le (by positivity) he
  norm_num at hx hx2
  have hx0 : 0 < x := by linarith
  have hG := witG
  have hG2 := witG_le
  obtain ⟨hQ, hq⟩ := witF hx0
  have hFpos : 0 < x ^ (1 / 10 : ℝ) * exp (-x) / Gamma (1 / 10) := by positivity
  have hFbig : 1 / 100 ≤ x ^ (1 / 10 : ℝ) * exp (-x) / Gamma (1 / 10) := by
    rw [le_div_iff₀ (by linarith)]
    have h1 : 1 ≤ x ^ (1 / 10 : ℝ) := one_le_rpow (by linarith) (by norm_num)
    have h2 : 1 / 10 ≤ exp (-x) := by
      rw [exp_neg, ← one_div]
      refine one_div_le_one_div_of_le (exp_pos _) ?_
      have h3 : exp x ≤ exp 1 ^ 2 := by rw [← exp_nat_mul]; exact exp_le_exp.2 (by norm_num; linarith)
      have h4 := exp_one_lt_d9
      have h5 := exp_pos (1 : ℝ)
      generalize exp 1 = E at *
      norm_num at h4; nlinarith
    have := mul_le_mul h1 h2 (by norm_num) (by positivity)
    linarith
  obtain ⟨f, hf, hfd⟩ := C99_igam_fac (a := 1 / 10) (by norm_num) hx0
  have hf0 : f ≠ 0 := by
    rcases hfd with h | h
    · intro h0
      rw [h0, zero_sub, abs_neg, abs_of_pos hFpos] at h
      norm_num at h hFpos; linarith
    · exfalso
      have h1 : exp (-709.78) ≤ 1 / 100 := by
        rw [exp_neg, ← one_div]
        refine one_div_le_one_div_of_le (by norm_num) ?_
        have := add_one_le_exp (709.78 : ℝ)
        norm_num at this ⊢; linarith
      linarith [h.2]
  obtain ⟨hfr, hfp⟩ := fac_near (by norm_num) hx0 hf hf0
  have hT1 : witT x ≤ 1 := cfT_le_one (a := 1 / 10) (by linarith) (by linarith)
  have hT0 : 0 < witT x := cfT_pos (a := 1 / 10) (by norm_num) (by linarith)
  have hTl := witT_lower' (x := x) (by linarith)
  obtain ⟨v, hv, hvd⟩ := C102_gammaincc_cf d (a := 1 / 10) (x := x) (by norm_num) (by norm_num)
    (by norm_num; linarith) (by linarith) he (he1.trans (by norm_num)) (not_asymRegime (by norm_num))
  have hvd' : |v - incQ (1 / 10) x| ≤ (2 / 10 ^ 14 + 100 * eps) * incQ (1 / 10) x := by
    rcases hvd with h | ⟨-, h⟩
    · exact h
    · exfalso
      rw [hQ] at h
      have h1 : 1 / 3 ≤ witT x := le_trans (one_div_le_one_div_of_le (by linarith) (by linarith)) hTl
      have h2 := mul_le_mul hFbig h1 (by norm_num) hFpos.le
      have h3 : (1 : ℝ) / 10 ^ 300 < 1 / 100 * (1 / 3) := by
        refine lt_of_le_of_lt (one_div_le_one_div_of_le (by positivity)
          (pow_le_pow_right₀ (by norm_num) (by norm_num : 3 ≤ 300))) ?_
        norm_num
      linarith
  have hE0 : 0 ≤ witE x := by unfold witE; positivity
  have hE1 : witE x ≤ 1 := by
    have h1 := witE_upper (x := x) (r := 1) (s := 8) hx0 (by norm_num) (by linarith) (by
      have h3 : exp x ≤ exp 1 ^ 2 := by rw [← exp_nat_mul]; exact exp_le_exp.2 (by norm_num; linarith)
      have h4 := exp_one_lt_d9
      have h5 := exp_pos (1 : ℝ)
      generalize exp 1 = E at *
      norm_num at h4; nlinarith)
    linarith
  refine ⟨x - (v - witq) * x / (-1 * f), ?_, ?_⟩
  · rw [invLoop, hf]
    simp only [Option.bind_some, if_neg hf0, hv, if_pos hx0.ne']
  · rw [newtonQ_wit hx0]
    rw [hQ] at hvd'
    set F := x ^ (1 / 10 : ℝ) * exp (-x) / Gamma (1 / 10) with hF
    set s := F / f with hs
    have e1 : x - (v - witq) * x / (-1 * f) - (x + x * (witT x - witE x)) =
        x * ((v - F * witT x) / F * s + (witT x - witE x) * (s - 1)) := by
      rw [hq, hs]; field_simp; ring
    rw [e1, abs_mul, abs_of_pos hx0]
    have h1 : |(v - F * witT x) / F| ≤ 1.1 / 10 ^ 10 := by
      rw [abs_div, abs_of_pos hFpos, div_le_iff₀ hFpos]
      refine hvd'.trans ?_
      rw [mul_comm F, ← mul_assoc]
      refine mul_le_mul_of_nonneg_right ?_ hFpos.le
      refine (mul_le_of_le_one_right (by positivity) hT1).trans ?_
      norm_num at he1 ⊢; linarith
    have hs1 : |s| ≤ 1.01 := by
      have := abs_le.1 hfr
      rw [abs_le]; norm_num at this ⊢; constructor <;> linarith [this.1, this.2]
    have h2 : |(v - F * witT x) / F * s| ≤ 1.1 / 10 ^ 10 * 1.01 := by
      rw [abs_mul]; exact mul_le_mul h1 hs1 (abs_nonneg _) (by norm_num)
    have h3 : |(witT x - witE x) * (s - 1)| ≤ 1 * (2 / 10 ^ 14) := by
      rw [abs_mul]
      refine mul_le_mul ?_ hfr (abs_nonneg _) (by norm_num)
      rw [abs_le]; constructor <;> linarith
    have h4 := abs_add_le ((v - F * witT x) / F * s) ((witT x - witE x) * (s - 1))
    refine (mul_le_mul hx2 (h4.trans (add_le_add h2 h3)) (abs_nonneg _) (by norm_num)).trans ?_
    norm_num

/-- **C61, accuracy.** `gammainccinv` is not accurate: at `a = 1/10`, `q = 1/(10 Γ(1/10))`, it
returns a finite `y` whose upper tail `Q(a,y)` exceeds `q` by more than 5 parts in a million, for
every machine epsilon from `2⁻⁵²` to `10⁻¹²`. -/
theorem C61_inaccurate : ∃ q : ℝ, 0 < q ∧ q ≤ 1 / 10 ∧ ∀ (eps : ℝ) (d : ℕ → ℕ → ℝ),
    1 / 2 ^ 52 ≤ eps → eps ≤ 1 / 10 ^ 12 →
    ∃ y : ℝ, gammainccinv eps d (1 / 10) q = some (y : EReal) ∧ 0 < y ∧
      (1 + 5 / 10 ^ 6) * q ≤ incQ (1 / 10) y := by
  have hG := witG
  have hG0 : Gamma (1 / 10) ≠ 0 := by positivity
  have hq0 : 0 < witq := by unfold witq; positivity
  have hq1 : witq ≤ 1 / 10 := by rw [witq, div_le_iff₀ (by linarith)]; linarith
  refine ⟨witq, hq0, hq1, fun eps d he he1 => ?_⟩
  have ha : (0 : ℝ) < 1 / 10 := by norm_num
  have ha1 : (1 / 10 : ℝ) ≤ 1 := by norm_num
  -- the starting point
  have hb : ¬ ((1 / 10 : ℝ) < 0 ∨ witq < 0 ∨ 1 < witq) := by
    push Not; exact ⟨ha.le, hq0.le, by linarith⟩
  have hguess : findInverseGamma (1 / 10) (1 - witq) witq = didonato25 (1 / 10) (log 10) := by
    have hbq : witq * Gamma (1 / 10) = 1 / 10 := by rw [witq]; field_simp
    rw [findInverseGamma, if_neg (by norm_num), if_pos (by norm_num), guessSmall]
    simp only [hbq]
    rw [if_neg (by norm_num), if_neg (by norm_num), if_neg (by norm_num), if_neg (by norm_num),
      one_div 10, log_inv, neg_neg]
  have hrun : gammainccinv eps d (1 / 10) witq = fin (invLoop (gammaincc eps d (1 / 10)) (-1) (1 / 10)
      witq 3 (didonato25 (1 / 10) (log 10))) := by
    rw [gammainccinv, incInv_succ, if_neg hb, if_neg hq0.ne', if_neg (by linarith),
      if_neg (by norm_num; linarith), if_pos rfl, hguess]
  have hx0 := abs_le.1 wit_x0
  generalize didonato25 (1 / 10) (log 10) = x0 at *
  norm_num at hx0
  obtain ⟨hx0l, hx0u⟩ := hx0
  -- signs
  have hend : (1 + 5 / 10 ^ 6) * witq ≤ incQ (1 / 10) (1553335 / 1000000) := by
    obtain ⟨h1, h2⟩ := witF (x := 1553335 / 1000000) (by norm_num)
    have hF : 0 < (1553335 / 1000000 : ℝ) ^ (1 / 10 : ℝ) * exp (-(1553335 / 1000000)) /
      Gamma (1 / 10) := by positivity
    rw [h1, h2, mul_left_comm]
    exact mul_le_mul_of_nonneg_left wit_end hF.le
  have hbelow : ∀ x, 0 < x → x ≤ 1553335 / 1000000 → witq ≤ incQ (1 / 10) x := by
    intro x hx hx1
    have := incQ_anti ha ha1 hx hx1
    norm_num at hend; linarith
  -- first step
  obtain ⟨x1, e1, h1⟩ := wit_step (x := x0) d he he1 (by norm_num; linarith) (by norm_num; linarith) 2
  have hN1 : newtonQ (1 / 10) witq x0 ≤ 1.4916 := by
    have h := newtonQ_mono (q := witq) ha ha1 (by linarith : 0 < x0)
      (by norm_num : (0 : ℝ) < 91 / 50) (Or.inr ⟨by linarith, ?_⟩)
    · refine h.trans ?_
      rw [newtonQ_wit (by norm_num)]
      have := wit_182
      norm_num at this ⊢; linarith [this.1, this.2]
    · obtain ⟨h3, h4⟩ := witF (x := 91 / 50) (by norm_num)
      have hF : 0 < (91 / 50 : ℝ) ^ (1 / 10 : ℝ) * exp (-(91 / 50)) / Gamma (1 / 10) := by positivity
      rw [h3, h4]
      refine mul_le_mul_of_nonneg_left ?_ hF.le
      have := wit_182
      norm_num at this; linarith [this.1, this.2]
  have hN1' : 1.3 ≤ newtonQ (1 / 10) witq x0 := by
    rw [newtonQ_wit (by linarith)]
    have hTl := witT_lower' (x := x0) (by linarith)
    have hTl' : 1 / 2.75 ≤ witT x0 :=
      le_trans (one_div_le_one_div_of_le (by linarith) (by norm_num; linarith)) hTl
    have hE := witE_upper (x := x0) (r := 1) (s := 6.25) (by linarith) (by norm_num) (by linarith) (by
      have h3 : exp x0 ≤ exp 1.83 := exp_le_exp.2 (by norm_num; linarith)
      refine h3.trans ?_
      have h2 := exp_bound' (x := 0.915) (by norm_num) (by norm_num) (n := 10) (by norm_num)
      norm_num [Finset.sum_range_succ, Nat.factorial] at h2
      rw [show (1.83 : ℝ) = (2 : ℕ) * (183 / 200) by norm_num, exp_nat_mul]
      refine (pow_le_pow_left₀ (exp_pos _).le h2 2).trans ?_
      norm_num)
    norm_num at hTl' hE ⊢
    nlinarith
  have h1' := abs_le.1 h1
  norm_num at h1' hN1 hN1'
  -- second step
  obtain ⟨x2, e2, h2⟩ := wit_step (x := x1) d he he1 (by norm_num; linarith) (by norm_num; linarith) 1
  have hN2 : newtonQ (1 / 10) witq x1 ≤ 1.5506 := by
    have h := newtonQ_mono (q := witq) ha ha1 (by linarith : 0 < x1)
      (by norm_num : (0 : ℝ) < 14923 / 10000)
      (Or.inl ⟨by linarith, hbelow _ (by norm_num) (by norm_num)⟩)
    refine h.trans ?_
    rw [newtonQ_wit (by norm_num)]
    have := wit_149
    norm_num at this ⊢; linarith [this.1, this.2]
  have hup : ∀ x, 0 < x → x ≤ 1553335 / 1000000 → x ≤ newtonQ (1 / 10) witq x := by
    intro x hx hx1
    have h := hbelow x hx hx1
    have hF : 0 < x ^ ((1 / 10 : ℝ) - 1) * exp (-x) / Gamma (1 / 10) := by positivity
    have := div_nonneg (sub_nonneg.2 h) hF.le
    rw [newtonQ]; linarith
  have hN2' := hup x1 (by linarith) (by linarith)
  have h2' := abs_le.1 h2
  norm_num at h2' hN2
  -- third step
  obtain ⟨x3, e3, h3⟩ := wit_step (x := x2) d he he1 (by norm_num; linarith) (by norm_num; linarith) 0
  have hN3 : newtonQ (1 / 10) witq x2 ≤ 1.5533345 := by
    have h := newtonQ_mono (q := witq) ha ha1 (by linarith : 0 < x2)
      (by norm_num : (0 : ℝ) < 15507 / 10000)
      (Or.inl ⟨by linarith, hbelow _ (by norm_num) (by norm_num)⟩)
    refine h.trans ?_
    rw [newtonQ_wit (by norm_num)]
    have := wit_155
    norm_num at this ⊢; linarith [this.1, this.2]
  have hN3' := hup x2 (by linarith) (by linarith)
  have h3' := abs_le.1 h3
  norm_num at h3' hN3
  have hx3 : 0 < x3 := by linarith
  refine ⟨x3, ?_, hx3, ?_⟩
  · rw [hrun, e1, e2, e3]; rfl
  · exact hend.trans (incQ_anti ha ha1 hx3 (by linarith))

end Verif.Special

import Verif.Interp.FloatModel
import Verif.Interp.Nd

/-! # C156: the linear interpolators in floating point -/

namespace Verif.Interp

open Verif.Round

variable {p : ℕ} {fl : ℝ → ℝ}

/-! ### Lemmas -/

/-- Rounding to nearest is monotone, however ties are broken. -/
theorem fl_mono (h : Nearest p fl) : Monotone fl := by
  intro x y hxy
  by_contra hc
  push Not at hc
  rcases hxy.lt_or_eq with hlt | rfl
  · have h1 := h.near x (fl y) (h.mem y)
    have h2 := h.near y (fl x) (h.mem x)
    have e1 : (fl x + fl y) / 2 ≤ x := by
      by_contra h'
      push Not at h'
      rw [abs_of_pos (by linarith : 0 < fl x - x)] at h1
      rcases abs_cases (fl y - x) with ⟨h3, -⟩ | ⟨h3, -⟩ <;> rw [h3] at h1 <;> linarith
    have e2 : y ≤ (fl x + fl y) / 2 := by
      by_contra h'
      push Not at h'
      rw [abs_of_neg (by linarith : fl y - y < 0)] at h2
      rcases abs_cases (fl x - y) with ⟨h3, -⟩ | ⟨h3, -⟩ <;> rw [h3] at h2 <;> linarith
    linarith
  · exact lt_irrefl _ hc

theorem fl_zero (h : Nearest p fl) : fl 0 = 0 := h.self isFl_zero

theorem fl_nonneg (h : Nearest p fl) {x : ℝ} (hx : 0 ≤ x) : 0 ≤ fl x := fl_zero h ▸ fl_mono h hx

theorem fl_pos (h : Nearest p fl) (hp : 2 ≤ p) {x : ℝ} (hx : 0 < x) : 0 < fl x := by
  obtain ⟨δ, hδ, e⟩ := h.factor (by omega) x
  have : ((2 : ℝ) ^ p)⁻¹ ≤ 1 / 4 := by
    rw [inv_le_comm₀ (by positivity) (by norm_num)]
    calc (1 / 4 : ℝ)⁻¹ = 2 ^ 2 := by norm_num
      _ ≤ 2 ^ p := pow_le_pow_right₀ (by norm_num) hp
  rw [e]
  have := (abs_le.mp hδ).1
  exact mul_pos hx (by linarith)

theorem fl_ne_zero (h : Nearest p fl) (hp : 2 ≤ p) {x : ℝ} (hx : x ≠ 0) : fl x ≠ 0 := by
  rcases lt_or_gt_of_ne hx with h' | h'
  · obtain ⟨δ, hδ, e⟩ := h.factor (by omega) x
    have : ((2 : ℝ) ^ p)⁻¹ < 1 := inv_lt_one_of_one_lt₀ (one_lt_pow₀ (by norm_num) (by omega))
    rw [e]
    have := (abs_le.mp hδ).1
    exact mul_ne_zero hx (by intro h0; linarith)
  · exact (fl_pos h hp h').ne'

theorem length_flDiff (l : List ℝ) : (flDiff fl l).length = l.length - 1 := by
  induction l with
  | nil => rfl
  | cons a l ih =>
    cases l with
    | nil => rfl
    | cons b l => simp only [flDiff, List.length_cons] at ih ⊢; omega

theorem at'_flDiff (l : List ℝ) (i : ℕ) (h : i + 1 < l.length) :
    at' (flDiff fl l) i = fl (at' l (i + 1) - at' l i) := by
  induction l generalizing i with
  | nil => simp at h
  | cons a l ih =>
    cases l with
    | nil => simp at h
    | cons b l =>
      cases i with
      | zero => simp [flDiff]
      | succ i =>
        simp only [flDiff, at'_cons_succ]
        rw [ih i (by simpa using h), at'_cons_succ]

theorem at'_flDydx (xs ys : List ℝ) (hl : xs.length = ys.length) (i : ℕ) (h : i + 1 < xs.length) :
    at' (flDydx fl xs ys) i = fl (fl (at' ys (i + 1) - at' ys i) / fl (at' xs (i + 1) - at' xs i)) := by
  have h1 : i < (flDydx fl xs ys).length := by simp [flDydx, length_flDiff]; omega
  rw [at'_eq _ _ h1]
  simp only [flDydx, List.getElem_zipWith]
  rw [← at'_eq, ← at'_eq, at'_flDiff xs i h, at'_flDiff ys i (by omega)]

/-- The computed value in interval `i`. -/
theorem flLinear1d_at (xs ys : List ℝ) (hl : xs.length = ys.length) (i : ℕ) (hi : i + 1 < xs.length) (x : ℝ)
    (hx : projectOne xs x = i) : flLinear1d fl xs ys x = fl (at' ys i + fl (fl (x - at' xs i) *
      fl (fl (at' ys (i + 1) - at' ys i) / fl (at' xs (i + 1) - at' xs i)))) := by
  unfold flLinear1d
  rw [hx, at'_flDydx xs ys hl i hi]

/-! ### Statements: one dimension -/

/-- **C156** (partial: all knots but the last).  The interpolant takes the tabulated value exactly at every knot but the last. -/
theorem C156_knots_partial (h : Nearest p fl) (xs ys : List ℝ) (hl : xs.length = ys.length)
    (hs : xs.Pairwise (· < ·)) (hy : ∀ y ∈ ys, IsFl p y) (i : ℕ) (hi : i + 1 < xs.length) :
    flLinear1d fl xs ys (at' xs i) = at' ys i := by
  rw [flLinear1d_at xs ys hl i hi _
    (project_eq xs (strict_weak hs) _ i hi (.inl le_rfl) (.inl (sorted_lt xs hs i (i + 1) (by omega) hi)))]
  rw [sub_self, fl_zero h, zero_mul, fl_zero h, add_zero]
  exact h.self (hy _ (at'_mem _ _ (by omega)))

/-- Where two neighbouring values are equal, the interpolant is exactly constant. -/
theorem C156_constant_partial (h : Nearest p fl) (xs ys : List ℝ) (hl : xs.length = ys.length)
    (hy : ∀ y ∈ ys, IsFl p y) (h2 : 2 ≤ xs.length) (x : ℝ)
    (he : at' ys (projectOne xs x) = at' ys (projectOne xs x + 1)) :
    flLinear1d fl xs ys x = at' ys (projectOne xs x) := by
  have hi := project_lt xs h2 x
  rw [flLinear1d_at xs ys hl _ hi x rfl, he, sub_self, fl_zero h, zero_div, fl_zero h, mul_zero, fl_zero h, add_zero]
  exact h.self (hy _ (at'_mem _ _ (by omega)))

/-- **C156** (partial: within an interval).  Where the data increases the computed interpolant does. -/
theorem C156_monotone_partial (h : Nearest p fl) (hp : 2 ≤ p) (xs ys : List ℝ) (hl : xs.length = ys.length)
    (hs : xs.Pairwise (· < ·)) (h2 : 2 ≤ xs.length) (x x' : ℝ) (hxx : x ≤ x') (hsame : projectOne xs x = projectOne xs x')
    (hy : at' ys (projectOne xs x) ≤ at' ys (projectOne xs x + 1)) :
    flLinear1d fl xs ys x ≤ flLinear1d fl xs ys x' := by
  have hi := project_lt xs h2 x
  rw [flLinear1d_at xs ys hl _ hi x rfl, flLinear1d_at xs ys hl _ hi x' hsame.symm]
  have hm := fl_mono h
  refine hm (add_le_add_right (hm (mul_le_mul_of_nonneg_right (hm (by linarith)) ?_)) _)
  refine fl_nonneg h (div_nonneg (fl_nonneg h (by linarith)) (fl_nonneg h ?_))
  have := sorted_lt xs hs _ _ (Nat.lt_succ_self (projectOne xs x)) hi
  simp only [Nat.succ_eq_add_one] at this
  linarith

/-- Five roundings and one division by a rounded number. -/
theorem five_factors {u a b c q r : ℝ} (hu : 0 ≤ u) (hu' : u ≤ 1 / 32) (ha : |a| ≤ u) (hb : |b| ≤ u) (hc : |c| ≤ u) (hq : |q| ≤ u)
    (hr : |r| ≤ u) : |(1 + a) * (1 + b) * (1 + q) * (1 + r) / (1 + c) - 1| ≤ 6 * u := by
  rw [abs_le] at ha hb hc hq hr
  have pc : 0 < 1 + c := by linarith
  have up : (1 + a) * (1 + b) * (1 + q) * (1 + r) ≤ (1 + u) * (1 + u) * (1 + u) * (1 + u) := by
    have h1 : (1 + a) * (1 + b) ≤ (1 + u) * (1 + u) := mul_le_mul (by linarith) (by linarith) (by linarith) (by linarith)
    have h2 : (1 + a) * (1 + b) * (1 + q) ≤ (1 + u) * (1 + u) * (1 + u) := mul_le_mul h1 (by linarith) (by linarith) (by positivity)
    exact mul_le_mul h2 (by linarith) (by linarith) (by positivity)
  have n1 : 0 ≤ 1 - u := by linarith
  have lo : (1 - u) * (1 - u) * (1 - u) * (1 - u) ≤ (1 + a) * (1 + b) * (1 + q) * (1 + r) := by
    have pa : 0 ≤ 1 + a := by linarith
    have pb : 0 ≤ 1 + b := by linarith
    have pq : 0 ≤ 1 + q := by linarith
    have h1 : (1 - u) * (1 - u) ≤ (1 + a) * (1 + b) := mul_le_mul (by linarith) (by linarith) n1 pa
    have h2 : (1 - u) * (1 - u) * (1 - u) ≤ (1 + a) * (1 + b) * (1 + q) := mul_le_mul h1 (by linarith) n1 (by positivity)
    exact mul_le_mul h2 (by linarith) n1 (by positivity)
  have hu2 : u * u ≤ u / 32 := by nlinarith
  have hu3 : u * u * u ≤ u / 1024 := by nlinarith
  have hu4 : u * u * u * u ≤ u / 1024 := by nlinarith [mul_nonneg hu hu, mul_nonneg (mul_nonneg hu hu) hu]
  have p2 := mul_nonneg hu hu
  have p3 := mul_nonneg p2 hu
  have p4 := mul_nonneg p3 hu
  rw [abs_le, le_sub_iff_add_le, sub_le_iff_le_add, le_div_iff₀ pc, div_le_iff₀ pc]
  constructor
  · refine le_trans ?_ lo
    have : (-(6 * u) + 1) * (1 + c) ≤ (-(6 * u) + 1) * (1 + u) := mul_le_mul_of_nonneg_left (by linarith) (by linarith)
    refine this.trans ?_
    nlinarith
  · refine up.trans ?_
    have : (6 * u + 1) * (1 - u) ≤ (6 * u + 1) * (1 + c) := mul_le_mul_of_nonneg_left (by linarith) (by linarith)
    refine le_trans ?_ this
    nlinarith

/-- **C156** (partial: up to rounding).  Within an interval, end included, the computed value differs from the exact one by at most
`14 u` times the larger of the two values used, `u = 2 ^ (-p)`. -/
theorem C156_error_partial (h : Nearest p fl) (hp : 5 ≤ p) (xs ys : List ℝ) (hl : xs.length = ys.length)
    (hs : xs.Pairwise (· < ·)) (h2 : 2 ≤ xs.length) (x : ℝ) (h0 : at' xs 0 ≤ x) (h1 : x ≤ at' xs (xs.length - 1)) :
    |flLinear1d fl xs ys x - linear1d xs ys x| ≤
      14 / 2 ^ p * max |at' ys (projectOne xs x)| |at' ys (projectOne xs x + 1)| := by
  have hi := project_lt xs h2 x
  obtain ⟨-, b1, b2, -, b4⟩ := C51_bracket xs (strict_weak hs) h2 x
  have lo := b1 h0
  have hi' : x ≤ at' xs (projectOne xs x + 1) := by
    rcases h1.lt_or_eq with h' | h'
    · exact (b2 h').le
    · rw [show projectOne xs x + 1 = xs.length - 1 by have := b4 h'.ge; omega]; exact h'.le
  have hb := C52_between xs ys hl h2 hs _ hi x lo hi'
  rw [linear1d_eq xs ys hl h2 x] at hb ⊢
  rw [flLinear1d_at xs ys hl _ hi x rfl]
  have hd := sorted_lt xs hs _ _ (Nat.lt_succ_self (projectOne xs x)) hi
  simp only [Nat.succ_eq_add_one] at hd
  generalize projectOne xs x = i at *
  generalize at' xs i = x0 at *
  generalize at' xs (i + 1) = x1 at *
  generalize at' ys i = y0 at *
  generalize at' ys (i + 1) = y1 at *
  have hu := unit_le hp
  have hu0 : (0 : ℝ) ≤ ((2 : ℝ) ^ p)⁻¹ := by positivity
  rw [div_eq_mul_inv 14]
  obtain ⟨a, ha, ea⟩ := h.factor (by omega) (x - x0)
  obtain ⟨b, hb', eb⟩ := h.factor (by omega) (y1 - y0)
  obtain ⟨c, hc, ec⟩ := h.factor (by omega) (x1 - x0)
  obtain ⟨q, hq, eq⟩ := h.factor (by omega) (fl (y1 - y0) / fl (x1 - x0))
  obtain ⟨r, hr, er⟩ := h.factor (by omega) (fl (x - x0) * fl (fl (y1 - y0) / fl (x1 - x0)))
  obtain ⟨s, hs', es⟩ := h.factor (by omega) (y0 + fl (fl (x - x0) * fl (fl (y1 - y0) / fl (x1 - x0))))
  rw [es, er, eq, ea, eb, ec]
  set u := ((2 : ℝ) ^ p)⁻¹ with hudef
  have hcpos : 0 < 1 + c := by have := (abs_le.mp hc).1; linarith
  have hD : 0 < x1 - x0 := by linarith
  have hF := five_factors hu0 hu ha hb' hc hq hr
  set t := (1 + a) * (1 + b) * (1 + q) * (1 + r) / (1 + c) with ht
  set P := (x - x0) * ((y1 - y0) / (x1 - x0)) with hP
  have eP : (x - x0) * (1 + a) * ((y1 - y0) * (1 + b) / ((x1 - x0) * (1 + c)) * (1 + q)) * (1 + r) = P * t := by
    rw [hP, ht]; field_simp
  rw [eP]
  set M := max |y0| |y1| with hM
  have m0 : |y0| ≤ M := le_max_left _ _
  have m1 : |y1| ≤ M := le_max_right _ _
  have hM0 : 0 ≤ M := (abs_nonneg _).trans m0
  have hPb : |P| ≤ 2 * M := by
    have : P = (x - x0) / (x1 - x0) * (y1 - y0) := by rw [hP]; ring
    rw [this, abs_mul]
    have t1 : |(x - x0) / (x1 - x0)| ≤ 1 := by
      rw [abs_of_nonneg (div_nonneg (by linarith) hD.le), div_le_one hD]; linarith
    have t2 : |y1 - y0| ≤ 2 * M := (abs_sub _ _).trans (by linarith)
    calc _ ≤ 1 * |y1 - y0| := mul_le_mul_of_nonneg_right t1 (abs_nonneg _)
      _ ≤ _ := by linarith
  have hV : |y0 + P| ≤ M := by
    rw [abs_le] at m0 m1 ⊢
    refine ⟨le_trans ?_ hb.1, hb.2.trans ?_⟩
    · exact le_min m0.1 m1.1
    · exact max_le m0.2 m1.2
  have e : (y0 + P * t) * (1 + s) - (y0 + P) = P * (t - 1) + ((y0 + P) + P * (t - 1)) * s := by ring
  rw [e]
  have k1 : |P * (t - 1)| ≤ 12 * u * M := by
    rw [abs_mul]
    calc _ ≤ 2 * M * (6 * u) := mul_le_mul hPb hF (abs_nonneg _) (by linarith)
      _ = _ := by ring
  have k2 : |((y0 + P) + P * (t - 1)) * s| ≤ (M + 12 * u * M) * u := by
    rw [abs_mul]
    exact mul_le_mul ((abs_add_le _ _).trans (add_le_add hV k1)) hs' (abs_nonneg _) (by positivity)
  refine (abs_add_le _ _).trans ((add_le_add k1 k2).trans ?_)
  have : u * (u * M) ≤ 1 / 32 * (u * M) := mul_le_mul_of_nonneg_right hu (by positivity)
  nlinarith [mul_nonneg hu0 hM0]

/-- At the last knot the tabulated value is in general not returned: with knots 0, 49 and values 0, 1 the value at 49 is
`1 - 2 ^ (-53)` in double precision, however ties are broken. -/
theorem C156_last_fails (h : Nearest 53 fl) : flLinear1d fl [0, 49] [0, 1] 49 = 1 - (2 ^ 53)⁻¹ := by
  have f49 : fl 49 = 49 := h.self ⟨49, 0, by norm_num, by norm_num⟩
  have f1 : fl 1 = 1 := h.self (isFl_one (by norm_num))
  have hfl : fl (1 - (2 ^ 53)⁻¹) = 1 - (2 ^ 53)⁻¹ :=
    h.self ⟨2 ^ 53 - 1, -53, by norm_num, by push_cast; rw [zpow_neg]; norm_num⟩
  have hfl' : IsFl 53 (1 - (2 ^ 53)⁻¹ : ℝ) := hfl ▸ h.mem _
  have e49 : 49 * fl (1 / 49) = 1 - 23 / 2 ^ 58 := fl_inv_49 h
  have e : fl (49 * fl (1 / 49)) = 1 - (2 ^ 53)⁻¹ := by
    rw [e49]
    refine h.eq_of_close hfl' ?_
    rw [abs_of_pos (by norm_num), abs_of_pos (by norm_num)]
    norm_num
  have hp : projectOne [0, 49] 49 = 0 := by
    unfold projectOne
    have := ssr_le [0, 49] 49
    simp only [List.length_cons, List.length_nil] at this ⊢
    omega
  rw [flLinear1d_at [0, 49] [0, 1] rfl 0 (by simp) _ hp]
  simp only [at', List.getD_cons_zero, List.getD_cons_succ, zero_add, sub_zero, f1, f49, e, hfl]

/-- Across knots monotonicity is lost: with knots -25, 0, 1 and values 0, 7, 8 the value just below 0 is greater than that at 0, in double
precision, however ties are broken. -/
theorem C156_monotone_fails (h : Nearest 53 fl) :
    flLinear1d fl [-25, 0, 1] [0, 7, 8] (-(2 ^ 60)⁻¹) = 7 + (2 ^ 50)⁻¹ ∧ flLinear1d fl [-25, 0, 1] [0, 7, 8] 0 = 7 := by
  have hs : ([-25, 0, 1] : List ℝ).Pairwise (· < ·) := by norm_num
  constructor
  · have hp : projectOne [-25, 0, 1] (-(2 ^ 60)⁻¹) = 0 :=
      project_eq _ (strict_weak hs) _ 0 (by simp) (.inr rfl) (.inl (by norm_num [at']))
    have f25 : fl 25 = 25 := h.self ⟨25, 0, by norm_num, by norm_num⟩
    have f7 : fl 7 = 7 := h.self ⟨7, 0, by norm_num, by norm_num⟩
    have fx : fl (-(2 ^ 60)⁻¹ - -25) = 25 := h.eq_of_close ⟨25, 0, by norm_num, by norm_num⟩ (by
      rw [abs_of_neg (by norm_num), abs_of_pos (by norm_num)]; norm_num)
    have fq : fl (7 / 25) = 5044031582654956 / 2 ^ 54 := by
      have := h.eq_of_half (x := 7 / 25) 5044031582654956 (-54) (by norm_num) (by norm_num) (by
        rw [zpow_neg, abs_of_neg] <;> norm_num)
      rw [this, zpow_neg]; norm_num
    have fr : fl (7 + 3 / 2 ^ 52) = 7 + (2 ^ 50)⁻¹ := by
      have := h.eq_of_half (x := 7 + 3 / 2 ^ 52) (7 * 2 ^ 50 + 1) (-50) (by norm_num) (by norm_num) (by
        rw [zpow_neg, abs_of_neg] <;> norm_num)
      rw [this, zpow_neg]; norm_num
    rw [flLinear1d_at [-25, 0, 1] [0, 7, 8] rfl 0 (by simp) _ hp]
    simp only [at', List.getD_cons_zero, List.getD_cons_succ, zero_add, sub_zero, zero_sub, neg_neg, f25, f7, fx, fq]
    rw [show (25 : ℝ) * (5044031582654956 / 2 ^ 54) = 7 + 3 / 2 ^ 52 by norm_num, fr]
    exact h.self (fr ▸ h.mem _)
  · have := C156_knots_partial h [-25, 0, 1] [0, 7, 8] rfl hs (by
      intro y hy
      simp only [List.mem_cons, List.not_mem_nil, or_false] at hy
      rcases hy with rfl | rfl | rfl
      · exact isFl_zero
      · exact ⟨7, 0, by norm_num, by norm_num⟩
      · exact ⟨8, 0, by norm_num, by norm_num⟩) 1 (by simp)
    simpa [at'] using this

/-! ### Reductions -/

/-- Every list has a sum and a product. -/
theorem flFold_exists (op : ℝ → ℝ → ℝ) (e : ℝ) (l : List ℝ) : ∃ r, FlFold op e l r := by
  induction l with
  | nil => exact ⟨e, .nil⟩
  | cons a l ih => obtain ⟨r, hr⟩ := ih; exact ⟨_, (FlFold.single a).node hr⟩

/-- The signs and zero. -/
def Sgn (x : ℝ) : Prop := x = 0 ∨ x = 1 ∨ x = -1

theorem Sgn.mul {a b : ℝ} (ha : Sgn a) (hb : Sgn b) : Sgn (a * b) := by
  rcases ha with rfl | rfl | rfl <;> rcases hb with rfl | rfl | rfl <;> simp [Sgn]

theorem Sgn.isFl {a : ℝ} (hp : 1 ≤ p) (ha : Sgn a) : IsFl p a := by
  rcases ha with rfl | rfl | rfl
  · exact isFl_zero
  · exact isFl_one hp
  · exact isFl_neg (isFl_one hp)

/-- Products of signs are exact. -/
theorem flFold_sgn (h : Nearest p fl) (hp : 1 ≤ p) {l : List ℝ} {r : ℝ} (hf : FlFold (fun a b => fl (a * b)) 1 l r)
    (hl : ∀ x ∈ l, Sgn x) : r = l.prod ∧ Sgn r := by
  induction hf with
  | nil => exact ⟨rfl, .inr (.inl rfl)⟩
  | single x => exact ⟨by simp, hl x (by simp)⟩
  | @node l r a b _ _ ih1 ih2 =>
    obtain ⟨e1, s1⟩ := ih1 fun x hx => hl x (List.mem_append_left _ hx)
    obtain ⟨e2, s2⟩ := ih2 fun x hx => hl x (List.mem_append_right _ hx)
    have e : fl (a * b) = a * b := h.self ((s1.mul s2).isFl hp)
    exact ⟨by rw [e, e1, e2, List.prod_append], by rw [e]; exact s1.mul s2⟩
  | perm hperm _ ih =>
    obtain ⟨e, s⟩ := ih fun x hx => hl x (hperm.subset hx)
    exact ⟨by rw [e, hperm.prod_eq], s⟩

theorem sum_zero_of_countP (l : List ℝ) (h : l.countP (fun x => x ≠ 0) = 0) : l.sum = 0 := by
  apply List.sum_eq_zero
  intro x hx
  have := List.countP_eq_zero.mp h x hx
  simpa using this

/-- A sum with at most one non-zero term is exact. -/
theorem flFold_one (h : Nearest p fl) {l : List ℝ} {r : ℝ} (hf : FlFold (fun a b => fl (a + b)) 0 l r)
    (hl : ∀ x ∈ l, IsFl p x) (hc : l.countP (fun x => x ≠ 0) ≤ 1) : r = l.sum ∧ IsFl p r := by
  induction hf with
  | nil => exact ⟨rfl, isFl_zero⟩
  | single x => exact ⟨by simp, hl x (by simp)⟩
  | @node l r a b _ _ ih1 ih2 =>
    rw [List.countP_append] at hc
    obtain ⟨e1, s1⟩ := ih1 (fun x hx => hl x (List.mem_append_left _ hx)) (by omega)
    obtain ⟨e2, s2⟩ := ih2 (fun x hx => hl x (List.mem_append_right _ hx)) (by omega)
    simp only [List.sum_append, ← e1, ← e2]
    rcases (by omega : l.countP (fun x => x ≠ 0) = 0 ∨ r.countP (fun x => x ≠ 0) = 0) with h0 | h0
    · have : a = 0 := e1.trans (sum_zero_of_countP l h0)
      rw [this, zero_add, h.self s2]
      exact ⟨rfl, s2⟩
    · have : b = 0 := e2.trans (sum_zero_of_countP r h0)
      rw [this, add_zero, h.self s1]
      exact ⟨rfl, s1⟩
  | perm hperm _ ih =>
    obtain ⟨e, s⟩ := ih (fun x hx => hl x (hperm.subset hx)) (by rwa [hperm.countP_eq])
    exact ⟨by rw [e, hperm.sum_eq], s⟩

/-- Of zeros and ones that add up to one, at most one is not zero. -/
theorem countP_bits (l : List ℝ) (h : ∀ x ∈ l, x = 0 ∨ x = 1) : ((l.countP (fun x => x ≠ 0) : ℕ) : ℝ) = l.sum := by
  induction l with
  | nil => simp
  | cons a l ih =>
    have ih' := ih fun x hx => h x (List.mem_cons_of_mem _ hx)
    rcases h a List.mem_cons_self with rfl | rfl
    · simp [← ih']
    · simp [← ih', add_comm]

/-! ### Statements: N dimensions -/

/-- At a grid point the weight is computed exactly, and is 0 or 1. -/
theorem flWeight1_grid (h : Nearest p fl) (hp : 2 ≤ p) (g : List ℝ) (h2 : 2 ≤ g.length) (hs : g.Pairwise (· < ·)) (i : ℕ)
    (hi : i < g.length) : flWeight1 fl g (at' g i) = weight1 g (at' g i) ∧ (weight1 g (at' g i) = 0 ∨ weight1 g (at' g i) = 1) := by
  have f1 : fl 1 = 1 := h.self (isFl_one (by omega))
  have hd : ∀ k, k + 1 < g.length → 0 < at' g (k + 1) - at' g k := fun k hk => by
    have := sorted_lt g hs k (k + 1) (by omega) hk
    linarith
  by_cases hl : i + 1 < g.length
  · have hpj := project_eq g (strict_weak hs) (at' g i) i hl (.inl le_rfl) (.inl (by linarith [hd i hl]))
    unfold flWeight1 weight1
    rw [hpj]
    simp [fl_zero h, f1]
  · obtain ⟨k, rfl⟩ : ∃ k, i = k + 1 := ⟨i - 1, by omega⟩
    have hpj := project_eq g (strict_weak hs) (at' g (k + 1)) k hi (.inl (by linarith [hd k hi])) (.inr (by omega))
    unfold flWeight1 weight1
    have n1 : at' g (k + 1) - at' g k ≠ 0 := (hd k hi).ne'
    have n2 : fl (at' g (k + 1) - at' g k) ≠ 0 := (fl_pos h hp (hd k hi)).ne'
    rw [hpj, at'_flDiff g k hi, at'_diff g k hi, div_self n1, div_self n2, f1, sub_self, fl_zero h]
    exact ⟨rfl, .inl rfl⟩

theorem weights_grid (h : Nearest p fl) (hp : 2 ≤ p) (grids : List (List ℝ)) (hg : Grids grids) (idx : List ℕ)
    (hi : InShape (grids.map List.length) idx) :
    List.zipWith (flWeight1 fl) grids (gridPoint grids idx) = List.zipWith weight1 grids (gridPoint grids idx) ∧
      ∀ w ∈ List.zipWith weight1 grids (gridPoint grids idx), w = 0 ∨ w = 1 := by
  induction grids generalizing idx with
  | nil => simp
  | cons g grids ih =>
    cases hi with
    | @cons i _ idx _ h1 h2 =>
      obtain ⟨e, m⟩ := ih (fun g' h' => hg g' (List.mem_cons_of_mem _ h')) idx h2
      obtain ⟨e1, m1⟩ := flWeight1_grid h hp g (hg g List.mem_cons_self).1 (hg g List.mem_cons_self).2 i h1
      simp only [gridPoint, List.zipWith_cons_cons] at e m ⊢
      refine ⟨by rw [e, e1], fun w hw => ?_⟩
      rcases List.mem_cons.mp hw with rfl | hw
      · exact m1
      · exact m w hw

theorem inRange_gridPoint (grids : List (List ℝ)) (hg : Grids grids) (idx : List ℕ) (hi : InShape (grids.map List.length) idx) :
    InRange grids (gridPoint grids idx) := by
  induction grids generalizing idx with
  | nil => cases hi; exact List.Forall₂.nil
  | cons g grids ih =>
    cases hi with
    | @cons i _ idx _ h1 h2 =>
      have hg' := hg g List.mem_cons_self
      refine List.Forall₂.cons ⟨?_, ?_⟩ (ih (fun g' h' => hg g' (List.mem_cons_of_mem _ h')) idx h2)
      · exact sorted_le g (strict_weak hg'.2) 0 i (by omega) h1
      · exact sorted_le g (strict_weak hg'.2) i _ (by omega) (by omega)

/-- **C156** the N-dimensional interpolator returns the tabulated value exactly at every grid point, whatever the order of the sums. -/
theorem C156_nd_exact (h : Nearest p fl) (hp : 2 ≤ p) (grids : List (List ℝ)) (hg : Grids grids) (F : List ℕ → ℝ)
    (hF : ∀ idx, IsFl p (F idx)) (idx : List ℕ) (hi : InShape (grids.map List.length) idx) (r : ℝ)
    (hr : FlLinearNd fl grids (table (grids.map List.length) F) (gridPoint grids idx) r) : r = F idx := by
  have hp1 : 1 ≤ p := by omega
  obtain ⟨P, N, D, hP, hN, hD, rfl⟩ := hr
  obtain ⟨ew, hw⟩ := weights_grid h hp grids hg idx hi
  have hrange := inRange_gridPoint grids hg idx hi
  have hx := inRange_length hrange
  rw [ew] at hP
  set ws := List.zipWith weight1 grids (gridPoint grids idx) with hws
  have hsg : ∀ d ∈ corners grids.length, ∀ y ∈ List.zipWith (fun (d : ℕ) w => (d : ℝ) - w) d ws, Sgn y := by
    intro d hd y hy
    obtain ⟨k, hk, rfl⟩ := List.getElem_of_mem hy
    simp only [List.length_zipWith] at hk
    rw [List.getElem_zipWith]
    have a := (corners_length _ d hd).2 d[k] (List.getElem_mem _)
    have b := hw ws[k] (List.getElem_mem _)
    rcases a with a | a <;> rcases b with b | b <;> rw [a, b] <;> norm_num [Sgn]
  have hPd : ∀ d ∈ corners grids.length, |P d| = cornerWeight ws d ∧ (|P d| = 0 ∨ |P d| = 1) := by
    intro d hd
    have e : List.zipWith (fun (d : ℕ) w => fl ((d : ℝ) - w)) d ws = List.zipWith (fun (d : ℕ) w => (d : ℝ) - w) d ws := by
      have : List.zipWith (fun (d : ℕ) w => fl ((d : ℝ) - w)) d ws =
          (List.zipWith (fun (d : ℕ) w => (d : ℝ) - w) d ws).map fl := by rw [List.map_zipWith]
      rw [this]
      conv_rhs => rw [← List.map_id (List.zipWith _ d ws)]
      exact List.map_congr_left fun y hy => h.self ((hsg d hd y hy).isFl hp1)
    have hf := hP d hd
    rw [e] at hf
    obtain ⟨e1, s⟩ := flFold_sgn h hp1 hf (hsg d hd)
    refine ⟨by rw [e1]; rfl, ?_⟩
    rcases s with s | s | s <;> rw [s] <;> simp
  have hsum : ((corners grids.length).map fun d => |P d|).sum = 1 := by
    have hone : cornerSum absolute (locate grids (gridPoint grids idx)) (fun _ => 1) = 1 := by
      rw [cornerSum_abs_eq grids hg _ hrange, cornerSum_one]
      intro t; simp [signed]
    have hlen : (locate grids (gridPoint grids idx)).length = grids.length := by simp [locate, hx]
    rw [← sum_corners, hlen, locate_weight, ← hws] at hone
    rw [← hone]
    congr 1
    exact List.map_congr_left fun d hd => by rw [(hPd d hd).1, mul_one]
  have hbits : ∀ y ∈ (corners grids.length).map (fun d => |P d|), y = 0 ∨ y = 1 := by
    intro y hy
    obtain ⟨d, hd, rfl⟩ := List.mem_map.mp hy
    exact (hPd d hd).2
  have hcount : ((corners grids.length).map fun d => |P d|).countP (fun x => x ≠ 0) ≤ 1 := by
    have := countP_bits _ hbits
    rw [hsum] at this
    exact_mod_cast this.le
  obtain ⟨eD, -⟩ := flFold_one h hD (fun y hy => by
    rcases hbits y hy with rfl | rfl
    · exact isFl_zero
    · exact isFl_one hp1) hcount
  rw [eD, hsum, div_one]
  have hval : ∀ k, IsFl p (at' (table (grids.map List.length) F) k) := by
    intro k
    have hmem : ∀ (sh : List ℕ) (F : List ℕ → ℝ), (∀ idx, IsFl p (F idx)) → ∀ v ∈ table sh F, IsFl p v := by
      intro sh
      induction sh with
      | nil => intro F hF v hv; simp [table] at hv; exact hv ▸ hF []
      | cons s sh ih =>
        intro F hF v hv
        simp only [table, List.mem_flatMap] at hv
        obtain ⟨i, -, hv⟩ := hv
        exact ih _ (fun idx => hF (i :: idx)) v hv
    by_cases hk : k < (table (grids.map List.length) F).length
    · exact hmem _ F hF _ (at'_mem _ _ hk)
    · rw [at', List.getD_eq_default _ _ (by omega)]; exact isFl_zero
  set val := fun d => at' (table (grids.map List.length) F)
    (flatIndex (List.zipWith projectOne grids (gridPoint grids idx)) d (strides (grids.map List.length))) with hvaldef
  have hterm : ∀ d ∈ corners grids.length, fl (|P d| * val d) = |P d| * val d ∧ IsFl p (|P d| * val d) := by
    intro d hd
    have : IsFl p (|P d| * val d) := by
      rcases (hPd d hd).2 with e | e <;> rw [e]
      · rw [zero_mul]; exact isFl_zero
      · rw [one_mul]; exact hval _
    exact ⟨h.self this, this⟩
  have eN : ((corners grids.length).map fun d => fl (|P d| * val d)) = (corners grids.length).map fun d => |P d| * val d :=
    List.map_congr_left fun d hd => (hterm d hd).1
  rw [eN] at hN
  obtain ⟨e2, f2⟩ := flFold_one h hN (fun y hy => by
    obtain ⟨d, hd, rfl⟩ := List.mem_map.mp hy
    exact (hterm d hd).2) (by
      refine le_trans ?_ hcount
      rw [List.countP_map, List.countP_map]
      apply List.countP_mono_left
      intro d _ hd
      simp only [Function.comp, ne_eq, decide_eq_true_eq, mul_eq_zero, not_or] at hd ⊢
      exact hd.1)
  rw [h.self f2, e2, ← C53_exact grids hg F idx hi]
  unfold linearNd
  have k1 : ((corners grids.length).map (cornerWeight ws)).sum = 1 := by
    rw [← hsum]; congr 1
    exact List.map_congr_left fun d hd => (hPd d hd).1.symm
  simp only []
  rw [← hws, k1, div_one]
  congr 1
  exact List.map_congr_left fun d hd => by rw [(hPd d hd).1]

/-- Sums: the result is a number of the format and at most the sum of the absolute values, up to rounding. -/
theorem flFold_upper (h : Nearest p fl) (hp : 1 ≤ p) {l : List ℝ} {r : ℝ} (hf : FlFold (fun a b => fl (a + b)) 0 l r)
    (hl : ∀ x ∈ l, IsFl p x) : IsFl p r ∧ |r| ≤ (1 + (2 ^ p)⁻¹) ^ l.length * (l.map fun x => |x|).sum := by
  have hu0 : (0 : ℝ) ≤ ((2 : ℝ) ^ p)⁻¹ := by positivity
  have h1 : (1 : ℝ) ≤ 1 + (2 ^ p)⁻¹ := by linarith
  have nn : ∀ l : List ℝ, 0 ≤ (l.map fun x => |x|).sum := fun l => List.sum_nonneg (by simp)
  induction hf with
  | nil => exact ⟨isFl_zero, by simp⟩
  | single x =>
    refine ⟨hl x (by simp), ?_⟩
    simp only [List.length_singleton, pow_one, List.map_cons, List.map_nil, List.sum_cons, List.sum_nil, add_zero]
    nlinarith [abs_nonneg x]
  | @node l r a b _ _ ih1 ih2 =>
    obtain ⟨f1, b1⟩ := ih1 fun x hx => hl x (List.mem_append_left _ hx)
    obtain ⟨f2, b2⟩ := ih2 fun x hx => hl x (List.mem_append_right _ hx)
    rcases Nat.eq_zero_or_pos l.length with h0 | hl0
    · obtain rfl := List.length_eq_zero_iff.mp h0
      have : a = 0 := by simpa using b1
      rw [this, zero_add, h.self f2]
      exact ⟨f2, by simpa using b2⟩
    rcases Nat.eq_zero_or_pos r.length with h0 | hr0
    · obtain rfl := List.length_eq_zero_iff.mp h0
      have : b = 0 := by simpa using b2
      rw [this, add_zero, h.self f1]
      exact ⟨f1, by simpa using b1⟩
    refine ⟨h.mem _, ?_⟩
    obtain ⟨δ, hδ, e⟩ := h.factor hp (a + b)
    have hδ' : |1 + δ| ≤ 1 + (2 ^ p)⁻¹ := (abs_add_le _ _).trans (by rw [abs_one]; linarith)
    rw [e, abs_mul, List.map_append, List.sum_append, List.length_append, mul_add]
    have k : ∀ m n : ℕ, 1 ≤ n → (1 + ((2 : ℝ) ^ p)⁻¹) ^ m * (1 + (2 ^ p)⁻¹) ≤ (1 + (2 ^ p)⁻¹) ^ (m + n) := fun m n hn => by
      rw [← pow_succ]; exact pow_le_pow_right₀ h1 (by omega)
    calc |a + b| * |1 + δ| ≤ (|a| + |b|) * (1 + (2 ^ p)⁻¹) := mul_le_mul (abs_add_le _ _) hδ' (abs_nonneg _) (by positivity)
      _ = |a| * (1 + (2 ^ p)⁻¹) + |b| * (1 + (2 ^ p)⁻¹) := by ring
      _ ≤ _ := by
        have u1 := mul_le_mul_of_nonneg_right b1 (show (0 : ℝ) ≤ 1 + (2 ^ p)⁻¹ by linarith)
        have u2 := mul_le_mul_of_nonneg_right b2 (show (0 : ℝ) ≤ 1 + (2 ^ p)⁻¹ by linarith)
        have v1 := mul_le_mul_of_nonneg_right (k l.length r.length hr0) (nn l)
        have v2 := mul_le_mul_of_nonneg_right (k r.length l.length hl0) (nn r)
        rw [add_comm r.length] at v2
        linarith
  | perm hperm _ ih =>
    obtain ⟨f, b⟩ := ih fun x hx => hl x (hperm.subset hx)
    exact ⟨f, by rwa [← hperm.length_eq, ← (hperm.map _).sum_eq]⟩

/-- A sum of non-negative numbers is at least the exact one, up to rounding. -/
theorem flFold_lower (h : Nearest p fl) (hp : 1 ≤ p) {l : List ℝ} {r : ℝ} (hf : FlFold (fun a b => fl (a + b)) 0 l r)
    (hl : ∀ x ∈ l, IsFl p x) (hn : ∀ x ∈ l, 0 ≤ x) : (1 - (2 ^ p)⁻¹) ^ l.length * l.sum ≤ r := by
  have hu0 : (0 : ℝ) ≤ ((2 : ℝ) ^ p)⁻¹ := by positivity
  have hu1 : ((2 : ℝ) ^ p)⁻¹ ≤ 1 := inv_le_one_of_one_le₀ (one_le_pow₀ (by norm_num))
  have c0 : (0 : ℝ) ≤ 1 - (2 ^ p)⁻¹ := by linarith
  have c1 : (1 : ℝ) - (2 ^ p)⁻¹ ≤ 1 := by linarith
  induction hf with
  | nil => simp
  | single x =>
    have := hn x (by simp)
    simp only [List.length_singleton, pow_one, List.sum_singleton]
    nlinarith
  | @node l r a b ha hb ih1 ih2 =>
    have hl1 : ∀ x ∈ l, IsFl p x := fun x hx => hl x (List.mem_append_left _ hx)
    have hl2 : ∀ x ∈ r, IsFl p x := fun x hx => hl x (List.mem_append_right _ hx)
    have hn1 : ∀ x ∈ l, 0 ≤ x := fun x hx => hn x (List.mem_append_left _ hx)
    have hn2 : ∀ x ∈ r, 0 ≤ x := fun x hx => hn x (List.mem_append_right _ hx)
    have b1 := ih1 hl1 hn1
    have b2 := ih2 hl2 hn2
    obtain ⟨f1, u1⟩ := flFold_upper h hp ha hl1
    obtain ⟨f2, u2⟩ := flFold_upper h hp hb hl2
    rcases Nat.eq_zero_or_pos l.length with h0 | hl0
    · obtain rfl := List.length_eq_zero_iff.mp h0
      have : a = 0 := by simpa using u1
      rw [this, zero_add, h.self f2]
      simpa using b2
    rcases Nat.eq_zero_or_pos r.length with h0 | hr0
    · obtain rfl := List.length_eq_zero_iff.mp h0
      have : b = 0 := by simpa using u2
      rw [this, add_zero, h.self f1]
      simpa using b1
    obtain ⟨δ, hδ, e⟩ := h.factor hp (a + b)
    have hδ' := (abs_le.mp hδ).1
    have s1 : 0 ≤ l.sum := List.sum_nonneg hn1
    have s2 : 0 ≤ r.sum := List.sum_nonneg hn2
    have p1 : 0 ≤ (1 - ((2 : ℝ) ^ p)⁻¹) ^ l.length * l.sum := mul_nonneg (pow_nonneg c0 _) s1
    have p2 : 0 ≤ (1 - ((2 : ℝ) ^ p)⁻¹) ^ r.length * r.sum := mul_nonneg (pow_nonneg c0 _) s2
    rw [e, List.sum_append, List.length_append, mul_add]
    have k : ∀ m n : ℕ, 1 ≤ n → (1 - ((2 : ℝ) ^ p)⁻¹) ^ (m + n) ≤ (1 - ((2 : ℝ) ^ p)⁻¹) ^ m * (1 - (2 ^ p)⁻¹) := fun m n hn => by
      rw [← pow_succ]; exact pow_le_pow_of_le_one c0 c1 (by omega)
    have v1 := mul_le_mul_of_nonneg_right (k l.length r.length hr0) s1
    have v2 := mul_le_mul_of_nonneg_right (k r.length l.length hl0) s2
    rw [add_comm r.length] at v2
    have w1 := mul_le_mul_of_nonneg_right b1 c0
    have w2 := mul_le_mul_of_nonneg_right b2 c0
    have w3 : (a + b) * (1 - (2 ^ p)⁻¹) ≤ (a + b) * (1 + δ) := mul_le_mul_of_nonneg_left (by linarith) (by linarith)
    linarith
  | perm hperm _ ih =>
    have := ih (fun x hx => hl x (hperm.subset hx)) fun x hx => hn x (hperm.subset hx)
    rwa [← hperm.length_eq, ← hperm.sum_eq]

/-- Products: the result is a number of the format, and not zero if no factor is. -/
theorem flFold_prod (h : Nearest p fl) (hp : 2 ≤ p) {l : List ℝ} {r : ℝ} (hf : FlFold (fun a b => fl (a * b)) 1 l r)
    (hl : ∀ x ∈ l, IsFl p x) : IsFl p r ∧ ((∀ x ∈ l, x ≠ 0) → r ≠ 0) := by
  induction hf with
  | nil => exact ⟨isFl_one (by omega), fun _ => one_ne_zero⟩
  | single x => exact ⟨hl x (by simp), fun hx => hx x (by simp)⟩
  | @node l r a b _ _ ih1 ih2 =>
    obtain ⟨-, n1⟩ := ih1 fun x hx => hl x (List.mem_append_left _ hx)
    obtain ⟨-, n2⟩ := ih2 fun x hx => hl x (List.mem_append_right _ hx)
    refine ⟨h.mem _, fun hx => ?_⟩
    exact fl_ne_zero h hp (mul_ne_zero (n1 fun x h' => hx x (List.mem_append_left _ h')) (n2 fun x h' => hx x (List.mem_append_right _ h')))
  | perm hperm _ ih =>
    obtain ⟨f, n⟩ := ih fun x hx => hl x (hperm.subset hx)
    exact ⟨f, fun hx => n fun x h' => hx x (hperm.subset h')⟩

theorem corners_card (n : ℕ) : (corners n).length = 2 ^ n := by
  induction n with
  | zero => rfl
  | succ n ih => simp [corners, ih, pow_succ]; omega

/-- Some corner has no vanishing factor. -/
theorem exists_corner (h : Nearest p fl) (hp : 2 ≤ p) (ws : List ℝ) :
    ∃ d ∈ corners ws.length, ∀ y ∈ List.zipWith (fun (d : ℕ) w => fl ((d : ℝ) - w)) d ws, y ≠ 0 := by
  induction ws with
  | nil => exact ⟨[], by simp [corners], by simp⟩
  | cons w ws ih =>
    obtain ⟨d, hd, hy⟩ := ih
    by_cases hw : w = 0
    · refine ⟨1 :: d, by simpa [corners] using hd, fun y h' => ?_⟩
      rw [List.zipWith_cons_cons] at h'
      rcases List.mem_cons.mp h' with rfl | h'
      · exact fl_ne_zero h hp (by simp [hw])
      · exact hy y h'
    · refine ⟨0 :: d, by simpa [corners] using hd, fun y h' => ?_⟩
      rw [List.zipWith_cons_cons] at h'
      rcases List.mem_cons.mp h' with rfl | h'
      · exact fl_ne_zero h hp (by simpa using hw)
      · exact hy y h'

theorem isFl_abs {x : ℝ} (hx : IsFl p x) : IsFl p |x| := by
  rcases abs_choice x with e | e <;> rw [e]
  · exact hx
  · exact isFl_neg hx

theorem isFl_factors (h : Nearest p fl) (d : List ℕ) (ws : List ℝ) :
    ∀ y ∈ List.zipWith (fun (d : ℕ) w => fl ((d : ℝ) - w)) d ws, IsFl p y := by
  intro y hy
  obtain ⟨k, hk, rfl⟩ := List.getElem_of_mem hy
  rw [List.getElem_zipWith]
  exact h.mem _

/-- **C156** the divisor of the N-dimensional interpolator is not zero, for any query and any rounded products and sums. -/
theorem C156_nd_defined (h : Nearest p fl) (hp : 2 ≤ p) (grids : List (List ℝ)) (x : List ℝ) (hx : x.length = grids.length)
    (P : List ℕ → ℝ) (D : ℝ)
    (hP : ∀ d ∈ corners grids.length, FlFold (fun a b => fl (a * b)) 1
      (List.zipWith (fun (d : ℕ) w => fl ((d : ℝ) - w)) d (List.zipWith (flWeight1 fl) grids x)) (P d))
    (hD : FlFold (fun a b => fl (a + b)) 0 ((corners grids.length).map fun d => |P d|) D) : 0 < D := by
  have hlen : (List.zipWith (flWeight1 fl) grids x).length = grids.length := by simp [hx]
  obtain ⟨d, hd, hne⟩ := exists_corner h hp (List.zipWith (flWeight1 fl) grids x)
  rw [hlen] at hd
  have hPd := (flFold_prod h hp (hP d hd) (isFl_factors h _ _)).2 hne
  have hlow := flFold_lower h (by omega) hD (fun y hy => by
    obtain ⟨e, he, rfl⟩ := List.mem_map.mp hy
    exact isFl_abs (flFold_prod h hp (hP e he) (isFl_factors h _ _)).1) (fun y hy => by
    obtain ⟨e, he, rfl⟩ := List.mem_map.mp hy
    exact abs_nonneg _)
  refine lt_of_lt_of_le (mul_pos (pow_pos ?_ _) ?_) hlow
  · have : ((2 : ℝ) ^ p)⁻¹ < 1 := inv_lt_one_of_one_lt₀ (one_lt_pow₀ (by norm_num) (by omega))
    linarith
  · refine lt_of_lt_of_le (abs_pos.mpr hPd) (List.single_le_sum (fun y hy => ?_) _ (List.mem_map.mpr ⟨d, hd, rfl⟩))
    obtain ⟨e, -, rfl⟩ := List.mem_map.mp hy
    exact abs_nonneg _

/-- **C156** the N-dimensional interpolator extrapolates to no value above the largest of the table, up to rounding: for every query,
inside the grid or outside. -/
theorem C156_nd_range (h : Nearest p fl) (hp : 2 ≤ p) (grids : List (List ℝ)) (values : List ℝ) (x : List ℝ)
    (hx : x.length = grids.length) (M : ℝ) (hM : 0 ≤ M) (hv : ∀ v ∈ values, |v| ≤ M) (r : ℝ)
    (hr : FlLinearNd fl grids values x r) :
    |r| ≤ M * ((1 + (2 ^ p)⁻¹) ^ (2 ^ grids.length + 2) / (1 - (2 ^ p)⁻¹) ^ 2 ^ grids.length) := by
  obtain ⟨P, N, D, hP, hN, hD, rfl⟩ := hr
  have hDpos := C156_nd_defined h hp grids x hx P D hP hD
  have hu0 : (0 : ℝ) ≤ ((2 : ℝ) ^ p)⁻¹ := by positivity
  have hc : (0 : ℝ) < 1 - (2 ^ p)⁻¹ := by
    have : ((2 : ℝ) ^ p)⁻¹ < 1 := inv_lt_one_of_one_lt₀ (one_lt_pow₀ (by norm_num) (by omega))
    linarith
  have hfac : ∀ y, |fl y| ≤ |y| * (1 + (2 ^ p)⁻¹) := fun y => by
    obtain ⟨δ, hδ, e⟩ := h.factor (by omega) y
    rw [e, abs_mul]
    exact mul_le_mul_of_nonneg_left ((abs_add_le _ _).trans (by rw [abs_one]; linarith)) (abs_nonneg _)
  have hlow := flFold_lower h (by omega) hD (fun y hy => by
    obtain ⟨e, he, rfl⟩ := List.mem_map.mp hy
    exact isFl_abs (flFold_prod h hp (hP e he) (isFl_factors h _ _)).1) (fun y hy => by
    obtain ⟨e, he, rfl⟩ := List.mem_map.mp hy
    exact abs_nonneg _)
  have hup := (flFold_upper h (by omega) hN (fun y hy => by
    obtain ⟨e, he, rfl⟩ := List.mem_map.mp hy
    exact h.mem _)).2
  rw [List.length_map, corners_card] at hlow hup
  set S := ((corners grids.length).map fun d => |P d|).sum with hS
  have hS0 : 0 ≤ S := List.sum_nonneg (fun y hy => by
    obtain ⟨e, -, rfl⟩ := List.mem_map.mp hy
    exact abs_nonneg _)
  have hval : ∀ k, |at' values k| ≤ M := fun k => by
    by_cases hk : k < values.length
    · exact hv _ (at'_mem _ _ hk)
    · rw [at', List.getD_eq_default _ _ (by omega), abs_zero]; exact hM
  have hsum : (List.map (fun x => |x|) ((corners grids.length).map fun d => fl (|P d| * at' values (flatIndex
      (List.zipWith projectOne grids x) d (strides (grids.map List.length)))))).sum ≤ S * (M * (1 + (2 ^ p)⁻¹)) := by
    rw [List.map_map, hS, ← List.sum_map_mul_right]
    apply List.sum_le_sum
    intro d _
    refine (hfac _).trans ?_
    rw [abs_mul, abs_abs, ← mul_assoc]
    exact mul_le_mul_of_nonneg_right (mul_le_mul_of_nonneg_left (hval _) (abs_nonneg _)) (by linarith)
  refine (hfac _).trans ?_
  have hA : |N| ≤ (1 + (2 ^ p)⁻¹) ^ 2 ^ grids.length * (S * (M * (1 + (2 ^ p)⁻¹))) :=
    hup.trans (mul_le_mul_of_nonneg_left hsum (by positivity))
  have hB : S ≤ D / (1 - (2 ^ p)⁻¹) ^ 2 ^ grids.length := by
    rw [le_div_iff₀ (pow_pos hc _), mul_comm]; exact hlow
  rw [abs_div, abs_of_pos hDpos, div_mul_eq_mul_div, div_le_iff₀ hDpos]
  calc |N| * (1 + (2 ^ p)⁻¹) ≤ (1 + (2 ^ p)⁻¹) ^ 2 ^ grids.length * (S * (M * (1 + (2 ^ p)⁻¹))) * (1 + (2 ^ p)⁻¹) :=
        mul_le_mul_of_nonneg_right hA (by linarith)
    _ ≤ (1 + (2 ^ p)⁻¹) ^ 2 ^ grids.length * (D / (1 - (2 ^ p)⁻¹) ^ 2 ^ grids.length * (M * (1 + (2 ^ p)⁻¹))) * (1 + (2 ^ p)⁻¹) := by
        refine mul_le_mul_of_nonneg_right (mul_le_mul_of_nonneg_left (mul_le_mul_of_nonneg_right hB ?_) (by positivity)) (by linarith)
        positivity
    _ = _ := by rw [pow_add]; ring

/-! ### Examples -/

/-- The format exists. -/
example : Nearest 53 (rnd 53) := nearest_rnd (by norm_num)

/-- `C156_knots_partial`, `C156_error_partial`: three knots. -/
example : flLinear1d (rnd 24) [0, 1, 3] [5, 7, 4] 1 = 7 :=
  C156_knots_partial (nearest_rnd (by norm_num)) [0, 1, 3] [5, 7, 4] rfl (by norm_num)
    (by
      intro y hy
      simp only [List.mem_cons, List.not_mem_nil, or_false] at hy
      rcases hy with rfl | rfl | rfl
      · exact ⟨5, 0, by norm_num, by norm_num⟩
      · exact ⟨7, 0, by norm_num, by norm_num⟩
      · exact ⟨4, 0, by norm_num, by norm_num⟩) 1 (by simp)

example : |flLinear1d (rnd 24) [0, 1, 3] [5, 7, 4] (5 / 2) - linear1d [0, 1, 3] [5, 7, 4] (5 / 2)| ≤
    14 / 2 ^ 24 * max |at' [5, 7, 4] (projectOne [0, 1, 3] (5 / 2))| |at' [5, 7, 4] (projectOne [0, 1, 3] (5 / 2) + 1)| :=
  C156_error_partial (nearest_rnd (by norm_num)) (by norm_num) [0, 1, 3] [5, 7, 4] rfl (by norm_num) (by simp) _
    (by norm_num [at']) (by norm_num [at'])

/-- The N-dimensional interpolator always returns something. -/
theorem flLinearNd_exists (grids : List (List ℝ)) (values x : List ℝ) : ∃ r, FlLinearNd fl grids values x r := by
  choose P hP using fun d : List ℕ => flFold_exists (fun a b => fl (a * b)) 1
    (List.zipWith (fun (d : ℕ) w => fl ((d : ℝ) - w)) d (List.zipWith (flWeight1 fl) grids x))
  obtain ⟨N, hN⟩ := flFold_exists (fun a b => fl (a + b)) 0 ((corners grids.length).map fun d => fl (|P d| *
    at' values (flatIndex (List.zipWith projectOne grids x) d (strides (grids.map List.length)))))
  obtain ⟨D, hD⟩ := flFold_exists (fun a b => fl (a + b)) 0 ((corners grids.length).map fun d => |P d|)
  exact ⟨_, P, N, D, fun d _ => hP d, hN, hD, rfl⟩

/-- `C156_nd_exact`: the last corner of a 2 × 2 grid with the interval of `C156_last_fails`. -/
example : ∃ r, FlLinearNd (rnd 53) [[0, 49], [0, 1]] (table [2, 2] fun idx => if idx = [1, 1] then 7 else 0) [49, 1] r ∧ r = 7 := by
  obtain ⟨r, hr⟩ := flLinearNd_exists (fl := rnd 53) [[0, 49], [0, 1]] (table [2, 2] fun idx => if idx = [1, 1] then 7 else 0) [49, 1]
  refine ⟨r, hr, ?_⟩
  have := C156_nd_exact (nearest_rnd (by norm_num)) (by norm_num) [[0, 49], [0, 1]] (by
    intro g hg
    simp only [List.mem_cons, List.not_mem_nil, or_false] at hg
    rcases hg with rfl | rfl <;> norm_num) (fun idx => if idx = [1, 1] then 7 else 0) (fun idx => by
      split_ifs
      · exact ⟨7, 0, by norm_num, by norm_num⟩
      · exact isFl_zero) [1, 1] (.cons (by norm_num) (.cons (by norm_num) .nil)) r hr
  simpa using this

end Verif.Interp

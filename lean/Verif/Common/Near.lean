import Verif.Common.Round

/-! # Counting roundings -/

namespace Verif.Round

/-- `t` is within `K` roundings to `p` bits of one. -/
def NearOne (p K : ℕ) (t : ℝ) : Prop := (1 - ((2 : ℝ) ^ p)⁻¹) ^ K ≤ t ∧ t * (1 - ((2 : ℝ) ^ p)⁻¹) ^ K ≤ 1

variable {p : ℕ} {fl : ℝ → ℝ}

theorem unit_pos (hp : 1 ≤ p) : (0 : ℝ) < 1 - (2 ^ p)⁻¹ := by
  have : ((2 : ℝ) ^ p)⁻¹ < 1 := inv_lt_one_of_one_lt₀ (one_lt_pow₀ (by norm_num) (by omega))
  linarith

theorem unit_le_one : (1 : ℝ) - (2 ^ p)⁻¹ ≤ 1 := by
  have : (0 : ℝ) ≤ ((2 : ℝ) ^ p)⁻¹ := by positivity
  linarith

theorem NearOne.pos (hp : 1 ≤ p) {K : ℕ} {t : ℝ} (h : NearOne p K t) : 0 < t :=
  lt_of_lt_of_le (pow_pos (unit_pos hp) K) h.1

theorem NearOne.mono (hp : 1 ≤ p) {K L : ℕ} {t : ℝ} (h : NearOne p K t) (hKL : K ≤ L) : NearOne p L t := by
  have h1 := pow_le_pow_of_le_one (unit_pos hp).le unit_le_one hKL
  exact ⟨h1.trans h.1, (mul_le_mul_of_nonneg_left h1 (h.pos hp).le).trans h.2⟩

theorem NearOne.one : NearOne p 0 1 := by simp [NearOne]

theorem NearOne.mul (hp : 1 ≤ p) {K L : ℕ} {s t : ℝ} (hs : NearOne p K s) (ht : NearOne p L t) : NearOne p (K + L) (s * t) := by
  have a := pow_pos (unit_pos hp) K
  have b := pow_pos (unit_pos hp) L
  refine ⟨?_, ?_⟩
  · rw [pow_add]; exact mul_le_mul hs.1 ht.1 b.le (hs.pos hp).le
  · rw [pow_add]
    calc s * t * ((1 - (2 ^ p)⁻¹ : ℝ) ^ K * (1 - (2 ^ p)⁻¹) ^ L)
        = (s * (1 - (2 ^ p)⁻¹ : ℝ) ^ K) * (t * (1 - (2 ^ p)⁻¹) ^ L) := by ring
      _ ≤ 1 := mul_le_one₀ hs.2 (mul_nonneg (ht.pos hp).le b.le) ht.2

theorem near_fl (h : Nearest p fl) (hp : 1 ≤ p) (x : ℝ) : ∃ t, NearOne p 1 t ∧ fl x = x * t := by
  obtain ⟨δ, hδ, e⟩ := h.factor hp x
  rw [abs_le] at hδ
  have := unit_pos hp
  refine ⟨1 + δ, ⟨?_, ?_⟩, e⟩
  · rw [pow_one]; linarith [hδ.1]
  · rw [pow_one]; nlinarith [hδ.2]

theorem nearest_mono (h : Nearest p fl) : Monotone fl := by
  intro x y hxy
  by_contra hc
  push Not at hc
  rcases hxy.lt_or_eq with hlt | rfl
  · have h1 := h.near x (fl y) (h.mem y)
    have h2 := h.near y (fl x) (h.mem x)
    have e1 : (fl x + fl y) / 2 ≤ x := by
      by_contra h'
      push Not at h'
      rw [abs_of_pos (by linarith : 0 < fl x - x)] at h1
      rcases abs_cases (fl y - x) with ⟨h3, -⟩ | ⟨h3, -⟩ <;> rw [h3] at h1 <;> linarith
    have e2 : y ≤ (fl x + fl y) / 2 := by
      by_contra h'
      push Not at h'
      rw [abs_of_neg (by linarith : fl y - y < 0)] at h2
      rcases abs_cases (fl x - y) with ⟨h3, -⟩ | ⟨h3, -⟩ <;> rw [h3] at h2 <;> linarith
    linarith
  · exact lt_irrefl _ hc

/-- The relative error of `K` roundings. -/
theorem NearOne.abs_sub_one (hp : 1 ≤ p) {K : ℕ} {t : ℝ} (h : NearOne p K t) : |t - 1| ≤ ((1 - ((2 : ℝ) ^ p)⁻¹) ^ K)⁻¹ - 1 := by
  have a := pow_pos (unit_pos hp) K
  have b := pow_le_one₀ (n := K) (unit_pos hp).le unit_le_one
  have h1 : t ≤ ((1 - ((2 : ℝ) ^ p)⁻¹) ^ K)⁻¹ := by rw [inv_eq_one_div, le_div_iff₀ a]; exact h.2
  have h2 : 1 - (1 - ((2 : ℝ) ^ p)⁻¹) ^ K ≤ ((1 - ((2 : ℝ) ^ p)⁻¹) ^ K)⁻¹ - 1 := by
    have e : (1 - ((2 : ℝ) ^ p)⁻¹) ^ K * ((1 - ((2 : ℝ) ^ p)⁻¹) ^ K)⁻¹ = 1 := mul_inv_cancel₀ a.ne'
    generalize (1 - ((2 : ℝ) ^ p)⁻¹) ^ K = y at *
    generalize y⁻¹ = z at *
    nlinarith [sq_nonneg (y - 1), sq_nonneg (z - 1)]
  rw [abs_le]
  exact ⟨by linarith [h.1], by linarith⟩

/-- An integer of at most `2^p` is a number of `p` bits, and so is its product with a power of two. -/
theorem isFl_int (hp : 1 ≤ p) {m : ℤ} (h : |m| ≤ 2 ^ p) (e : ℤ) : IsFl p (m * (2 : ℝ) ^ e) := by
  rcases h.lt_or_eq with hlt | heq
  · exact ⟨m, e, hlt, rfl⟩
  · have hpp : (2 : ℤ) ^ p = 2 ^ (p - 1) * 2 := by rw [← pow_succ]; congr 1; omega
    have h0 : (0 : ℤ) < 2 ^ (p - 1) := by positivity
    rcases abs_eq (by positivity) |>.mp heq with h | h
    · refine ⟨2 ^ (p - 1), e + 1, by rw [abs_of_pos h0]; omega, ?_⟩
      rw [h, hpp, zpow_add₀ (by norm_num)]; push_cast; ring
    · refine ⟨-2 ^ (p - 1), e + 1, by rw [abs_neg, abs_of_pos h0]; omega, ?_⟩
      rw [h, hpp, zpow_add₀ (by norm_num)]; push_cast; ring

/-- A real less than half a unit from a number of `p` bits of either sign is rounded to it. -/
theorem Nearest.eq_of_half_abs (h : Nearest p fl) {x : ℝ} (m e : ℤ) (hm : 2 ^ p < 2 * |m|) (hm' : |m| < 2 ^ p)
    (hx : 2 * |x - m * (2 : ℝ) ^ e| < 2 ^ e) : fl x = m * (2 : ℝ) ^ e := by
  rcases le_total 0 m with h0 | h0
  · rw [abs_of_nonneg h0] at hm hm'
    exact h.eq_of_half m e hm hm' hx
  · rw [abs_of_nonpos h0] at hm hm'
    have hn : Nearest p fun y => -fl (-y) :=
      ⟨fun y => isFl_neg (h.mem _), fun y z hz => by
        have := h.near (-y) (-z) (isFl_neg hz)
        rwa [show -fl (-y) - y = -(fl (-y) - -y) by ring, abs_neg, show z - y = -(-z - -y) by ring, abs_neg]⟩
    have := hn.eq_of_half (x := -x) (-m) e hm hm' (by
      rw [show -x - ((-m : ℤ) : ℝ) * 2 ^ e = -(x - m * 2 ^ e) by push_cast; ring, abs_neg]; exact hx)
    simp only [neg_neg, Int.cast_neg, neg_mul] at this
    linarith

end Verif.Round

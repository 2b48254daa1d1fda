import Mathlib.Data.Real.Basic
import Mathlib.Data.Int.Log
import Mathlib.Algebra.Order.Round
import Mathlib.Algebra.Order.Archimedean.Real.Basic
import Mathlib.Tactic.Linarith
import Mathlib.Tactic.Ring
import Mathlib.Tactic.FieldSimp
import Mathlib.Tactic.Positivity

/-! # Rounding to nearest in binary floating point

Precision `p` bits (24 for single, 53 for double precision); the range of exponents is unbounded, so neither overflow nor underflow is represented. -/

namespace Verif.Round

/-- The numbers with `p` significant bits. -/
def IsFl (p : ℕ) (x : ℝ) : Prop := ∃ m e : ℤ, |m| < 2 ^ p ∧ x = m * (2 : ℝ) ^ e

/-- `fl` rounds every real to a nearest number of `p` bits (ties in any way). -/
structure Nearest (p : ℕ) (fl : ℝ → ℝ) : Prop where
  mem : ∀ x, IsFl p (fl x)
  near : ∀ x y, IsFl p y → |fl x - x| ≤ |y - x|

variable {p : ℕ} {fl : ℝ → ℝ}

theorem Nearest.self (h : Nearest p fl) {x : ℝ} (hx : IsFl p x) : fl x = x := by
  have := h.near x x hx
  rw [sub_self, abs_zero] at this
  exact sub_eq_zero.mp (abs_eq_zero.mp (le_antisymm this (abs_nonneg _)))

theorem isFl_zero : IsFl p 0 := ⟨0, 0, by simp, by simp⟩

theorem isFl_neg {x : ℝ} (h : IsFl p x) : IsFl p (-x) := by
  obtain ⟨m, e, hm, rfl⟩ := h
  exact ⟨-m, e, by rwa [abs_neg], by push_cast; ring⟩

theorem isFl_two_zpow (hp : 1 ≤ p) (e : ℤ) : IsFl p ((2 : ℝ) ^ e) :=
  ⟨1, e, by rw [abs_one]; exact one_lt_pow₀ (by norm_num) (by omega), by simp⟩

theorem isFl_one (hp : 1 ≤ p) : IsFl p 1 := by simpa using isFl_two_zpow hp 0

/-- Two numbers of `p` bits that differ, differ by at least `2^-p` relatively. -/
theorem gap {x y : ℝ} (hx : IsFl p x) (hy : IsFl p y) (hne : x ≠ y) : |y| ≤ 2 ^ p * |x - y| := by
  obtain ⟨m, e, hm, rfl⟩ := hx
  obtain ⟨n, g, hn, rfl⟩ := hy
  have two : (0 : ℝ) < 2 := by norm_num
  have hm' : |(m : ℝ)| ≤ 2 ^ p - 1 := by
    have : |m| ≤ 2 ^ p - 1 := by omega
    exact_mod_cast this
  have hn' : |(n : ℝ)| ≤ 2 ^ p - 1 := by
    have : |n| ≤ 2 ^ p - 1 := by omega
    exact_mod_cast this
  rcases le_total g e with hge | heg
  · obtain ⟨k, hk⟩ := Int.eq_ofNat_of_zero_le (sub_nonneg.mpr hge)
    have he : (2 : ℝ) ^ e = 2 ^ k * 2 ^ g := by
      rw [show e = k + g by omega, zpow_add₀ two.ne', zpow_natCast]
    have hg : (0 : ℝ) < 2 ^ g := zpow_pos two _
    have hd : (m : ℝ) * 2 ^ e - n * 2 ^ g = ((m * 2 ^ k - n : ℤ) : ℝ) * 2 ^ g := by rw [he]; push_cast; ring
    have hz : (m * 2 ^ k - n : ℤ) ≠ 0 := by
      intro h0
      rw [h0] at hd
      simp only [Int.cast_zero, zero_mul] at hd
      exact hne (sub_eq_zero.mp hd)
    have h1 : (1 : ℝ) ≤ |((m * 2 ^ k - n : ℤ) : ℝ)| := by exact_mod_cast Int.one_le_abs hz
    rw [hd, abs_mul, abs_mul, abs_of_pos hg]
    have : (0 : ℝ) < 2 ^ p := pow_pos two _
    nlinarith [mul_le_mul_of_nonneg_right hn' hg.le, mul_le_mul_of_nonneg_right h1 hg.le, mul_pos this hg]
  · obtain ⟨k, hk⟩ := Int.eq_ofNat_of_zero_le (sub_nonneg.mpr heg)
    have hE : (2 : ℝ) ^ g = 2 ^ k * 2 ^ e := by
      rw [show g = k + e by omega, zpow_add₀ two.ne', zpow_natCast]
    have he : (0 : ℝ) < 2 ^ e := zpow_pos two _
    have hd : (m : ℝ) * 2 ^ e - n * 2 ^ g = ((m - n * 2 ^ k : ℤ) : ℝ) * 2 ^ e := by rw [hE]; push_cast; ring
    have hz : (m - n * 2 ^ k : ℤ) ≠ 0 := by
      intro h0
      rw [h0] at hd
      simp only [Int.cast_zero, zero_mul] at hd
      exact hne (sub_eq_zero.mp hd)
    have h1 : (1 : ℝ) ≤ |((m - n * 2 ^ k : ℤ) : ℝ)| := by exact_mod_cast Int.one_le_abs hz
    have h2 : (2 : ℝ) ^ e ≤ |(m : ℝ) * 2 ^ e - n * 2 ^ g| := by
      rw [hd, abs_mul, abs_of_pos he]
      nlinarith
    have h3 : |(m : ℝ) * 2 ^ e| ≤ (2 ^ p - 1) * |(m : ℝ) * 2 ^ e - n * 2 ^ g| := by
      rw [abs_mul, abs_of_pos he]
      have : (0 : ℝ) ≤ 2 ^ p - 1 := (abs_nonneg _).trans hm'
      calc |(m : ℝ)| * 2 ^ e ≤ (2 ^ p - 1) * 2 ^ e := by gcongr
        _ ≤ _ := by gcongr
    have h4 : |(n : ℝ) * 2 ^ g| ≤ |(m : ℝ) * 2 ^ e| + |(m : ℝ) * 2 ^ e - n * 2 ^ g| := by
      have := abs_sub_abs_le_abs_sub ((n : ℝ) * 2 ^ g) ((m : ℝ) * 2 ^ e)
      rw [abs_sub_comm] at this
      linarith
    linarith

/-- A real within `2^-(p+1)` relatively of a number of `p` bits is rounded to it. -/
theorem Nearest.eq_of_close (h : Nearest p fl) {x y : ℝ} (hy : IsFl p y) (hx : 2 * 2 ^ p * |x - y| < |y|) : fl x = y := by
  by_contra hne
  have h1 := gap (h.mem x) hy hne
  have h2 := h.near x y hy
  have h3 : |fl x - y| ≤ |fl x - x| + |x - y| := by
    have := abs_add_le (fl x - x) (x - y)
    rwa [sub_add_sub_cancel] at this
  rw [abs_sub_comm y x] at h2
  have hp : (0 : ℝ) < 2 ^ p := by positivity
  nlinarith [mul_le_mul_of_nonneg_left (h3.trans (add_le_add h2 le_rfl)) hp.le]

/-- Rounding function by scaling and `round`. -/
noncomputable def rnd (p : ℕ) (x : ℝ) : ℝ :=
  round (x / (2 : ℝ) ^ (Int.log 2 |x| + 1 - p)) * (2 : ℝ) ^ (Int.log 2 |x| + 1 - p)

/-- Rounding to nearest exists. -/
theorem nearest_rnd (hp : 1 ≤ p) : Nearest p (rnd p) := by
  have two : (0 : ℝ) < 2 := by norm_num
  have key : ∀ x : ℝ, x ≠ 0 → (2 : ℝ) ^ (Int.log 2 |x|) ≤ |x| ∧ |x| < 2 ^ (Int.log 2 |x| + 1) := fun x hx => by
    have h0 : 0 < |x| := abs_pos.mpr hx
    exact ⟨by exact_mod_cast Int.zpow_log_le_self (b := 2) (by norm_num) h0, by exact_mod_cast Int.lt_zpow_succ_log_self (b := 2) (by norm_num) |x|⟩
  constructor
  · intro x
    by_cases hx : x = 0
    · subst hx
      unfold rnd
      simp only [zero_div, round_zero, Int.cast_zero, zero_mul]
      exact isFl_zero
    obtain ⟨-, h2⟩ := key x hx
    set e := Int.log 2 |x| + 1 - p with he
    have hE : (0 : ℝ) < 2 ^ e := zpow_pos two _
    have hb : |x / 2 ^ e| < 2 ^ p := by
      rw [abs_div, abs_of_pos hE, div_lt_iff₀ hE, ← zpow_natCast, ← zpow_add₀ two.ne']
      rwa [he, show (p : ℤ) + (Int.log 2 |x| + 1 - p) = Int.log 2 |x| + 1 by ring]
    have hr : |round (x / 2 ^ e)| ≤ 2 ^ p := by
      have hup : round (x / 2 ^ e) ≤ 2 ^ p := by
        have h3 := abs_sub_round (x / 2 ^ e)
        have h4 : ((round (x / 2 ^ e) : ℤ) : ℝ) < 2 ^ p + 1 := by
          have := (abs_le.mp h3).1; have := (abs_lt.mp hb).2; linarith
        have : round (x / 2 ^ e) < 2 ^ p + 1 := by exact_mod_cast h4
        omega
      have hlo : - 2 ^ p ≤ round (x / 2 ^ e) := by
        have h3 := abs_sub_round (x / 2 ^ e)
        have h4 : -(2 ^ p + 1 : ℝ) < ((round (x / 2 ^ e) : ℤ) : ℝ) := by
          have := (abs_le.mp h3).2; have := (abs_lt.mp hb).1; linarith
        have : -(2 ^ p + 1) < round (x / 2 ^ e) := by exact_mod_cast h4
        omega
      exact abs_le.mpr ⟨hlo, hup⟩
    rcases lt_or_eq_of_le hr with hlt | heq
    · exact ⟨_, e, hlt, rfl⟩
    · have hpp : (2 : ℤ) ^ p = 2 * 2 ^ (p - 1) := by rw [← pow_succ']; congr 1; omega
      have hpr : (2 : ℝ) ^ p = 2 * 2 ^ (p - 1) := by rw [← pow_succ']; congr 1; omega
      rcases abs_eq (by positivity) |>.mp heq with h | h
      · refine ⟨2 ^ (p - 1), e + 1, ?_, ?_⟩
        · rw [abs_of_pos (by positivity), hpp]; have : (0 : ℤ) < 2 ^ (p - 1) := by positivity
          omega
        · unfold rnd
          rw [← he, h, zpow_add_one₀ two.ne']; push_cast; rw [hpr]; ring
      · refine ⟨-2 ^ (p - 1), e + 1, ?_, ?_⟩
        · rw [abs_neg, abs_of_pos (by positivity), hpp]; have : (0 : ℤ) < 2 ^ (p - 1) := by positivity
          omega
        · unfold rnd
          rw [← he, h, zpow_add_one₀ two.ne']; push_cast; rw [hpr]; ring
  · intro x y hy
    by_cases hx : x = 0
    · subst hx
      unfold rnd
      simp
    obtain ⟨h1, h2⟩ := key x hx
    set e := Int.log 2 |x| + 1 - p with he
    have hE : (0 : ℝ) < 2 ^ e := zpow_pos two _
    have mult : ∀ n : ℤ, |rnd p x - x| ≤ |n * 2 ^ e - x| := fun n => by
      have h3 := round_le (x / 2 ^ e) n
      unfold rnd
      rw [← he]
      have a1 : ∀ t : ℝ, |t * 2 ^ e - x| = |x / 2 ^ e - t| * 2 ^ e := fun t => by
        rw [← abs_of_pos hE, ← abs_mul, abs_of_pos hE, sub_mul, div_mul_cancel₀ _ hE.ne', abs_sub_comm]
      rw [a1, a1]
      gcongr
    obtain ⟨n, g, hn, rfl⟩ := hy
    rcases le_or_gt e g with heg | hge
    · obtain ⟨k, hk⟩ := Int.eq_ofNat_of_zero_le (sub_nonneg.mpr heg)
      have hg : (2 : ℝ) ^ g = 2 ^ k * 2 ^ e := by rw [show g = k + e by omega, zpow_add₀ two.ne', zpow_natCast]
      have := mult (n * 2 ^ k)
      push_cast at this
      rwa [mul_assoc, ← hg] at this
    · -- the number is smaller than the power of two below `|x|`, which is a multiple of the unit
      have hs : |(n : ℝ) * 2 ^ g| ≤ 2 ^ (Int.log 2 |x|) := by
        have hn' : |(n : ℝ)| ≤ 2 ^ p := by exact_mod_cast hn.le
        rw [abs_mul, abs_of_pos (zpow_pos two g)]
        calc |(n : ℝ)| * 2 ^ g ≤ 2 ^ p * 2 ^ (e - 1) :=
              mul_le_mul hn' (zpow_le_zpow_right₀ (by norm_num) (by omega)) (zpow_pos two g).le (by positivity)
          _ = 2 ^ (Int.log 2 |x|) := by
              rw [← zpow_natCast, ← zpow_add₀ two.ne']; congr 1; rw [he]; ring
      obtain ⟨k, hk⟩ := Int.eq_ofNat_of_zero_le (show 0 ≤ (p : ℤ) - 1 by omega)
      have hL : (2 : ℝ) ^ (Int.log 2 |x|) = 2 ^ k * 2 ^ e := by
        rw [← zpow_natCast, ← zpow_add₀ two.ne']; congr 1; rw [he, ← hk]; ring
      rcases lt_or_gt_of_ne hx with hneg | hpos
      · have := mult (-2 ^ k)
        push_cast at this
        rw [neg_mul, ← hL] at this
        refine this.trans ?_
        rw [abs_of_neg hneg] at h1 hs this ⊢
        have hs' := (abs_le.mp hs).1
        rw [abs_of_nonneg (by linarith), abs_of_nonneg (by linarith)]
        linarith
      · have := mult (2 ^ k)
        push_cast at this
        rw [← hL] at this
        refine this.trans ?_
        rw [abs_of_pos hpos] at h1 hs this ⊢
        have hs' := (abs_le.mp hs).2
        rw [abs_of_nonpos (by linarith), abs_of_nonpos (by linarith)]
        linarith

/-- The relative error of rounding is at most `2^-p`. -/
theorem Nearest.error (h : Nearest p fl) (hp : 1 ≤ p) (x : ℝ) : |fl x - x| ≤ |x| / 2 ^ p := by
  have h1 := h.near x (rnd p x) ((nearest_rnd hp).mem x)
  refine h1.trans ?_
  by_cases hx : x = 0
  · subst hx; simp [rnd]
  have two : (0 : ℝ) < 2 := by norm_num
  have hl : (2 : ℝ) ^ (Int.log 2 |x|) ≤ |x| := by exact_mod_cast Int.zpow_log_le_self (b := 2) (by norm_num) (abs_pos.mpr hx)
  set e := Int.log 2 |x| + 1 - p with he
  have hE : (0 : ℝ) < 2 ^ e := zpow_pos two _
  have h3 := abs_sub_round (x / 2 ^ e)
  have h4 : |rnd p x - x| = |x / 2 ^ e - round (x / 2 ^ e)| * 2 ^ e := by
    unfold rnd
    rw [← he, ← abs_of_pos hE, ← abs_mul, abs_of_pos hE, sub_mul, div_mul_cancel₀ _ hE.ne', abs_sub_comm]
  rw [h4, le_div_iff₀ (by positivity)]
  have h5 : (2 : ℝ) ^ e * 2 ^ p = 2 * 2 ^ (Int.log 2 |x|) := by
    rw [← zpow_natCast, ← zpow_add₀ two.ne', he, show Int.log 2 |x| + 1 - (p : ℤ) + p = Int.log 2 |x| + 1 by ring, zpow_add_one₀ two.ne']; ring
  calc |x / 2 ^ e - round (x / 2 ^ e)| * 2 ^ e * 2 ^ p ≤ 1 / 2 * 2 ^ e * 2 ^ p := by gcongr
    _ = 2 ^ (Int.log 2 |x|) := by rw [mul_assoc, h5]; ring
    _ ≤ |x| := hl

/-- Every rounding multiplies by some `1 + δ`. -/
theorem Nearest.factor (hf : Nearest p fl) (hp : 1 ≤ p) (x : ℝ) : ∃ δ : ℝ, |δ| ≤ (2 ^ p)⁻¹ ∧ fl x = x * (1 + δ) := by
  have h := hf.error hp x
  by_cases hx : x = 0
  · refine ⟨0, by simp, ?_⟩
    rw [hx] at h ⊢
    rw [abs_zero, zero_div] at h
    have := abs_eq_zero.mp (le_antisymm h (abs_nonneg _))
    simpa using this
  · refine ⟨(fl x - x) / x, ?_, by field_simp; ring⟩
    rw [abs_div, div_le_iff₀ (abs_pos.mpr hx)]
    calc _ ≤ _ := h
      _ = _ := by rw [div_eq_mul_inv, mul_comm]

/-- Scaling by a power of 2 is exact. -/
theorem isFl_scale {x : ℝ} (h : IsFl p x) (k : ℤ) : IsFl p (x * (2 : ℝ) ^ k) := by
  obtain ⟨m, e, hm, rfl⟩ := h
  exact ⟨m, e + k, hm, by rw [zpow_add₀ (by norm_num), mul_assoc]⟩

/-- The unit roundoff of at least 5 bits. -/
theorem unit_le (hp : 5 ≤ p) : ((2 : ℝ) ^ p)⁻¹ ≤ 1 / 32 := by
  rw [inv_eq_one_div]
  apply one_div_le_one_div_of_le (by norm_num)
  calc (32 : ℝ) = 2 ^ 5 := by norm_num
    _ ≤ 2 ^ p := pow_le_pow_right₀ (by norm_num) hp

/-- The double nearest to `1/49`. -/
theorem fl_inv_49 {fl : ℝ → ℝ} (h : Nearest 53 fl) : 49 * fl (1 / 49) = 1 - 23 / 2 ^ 58 := by
  have hy : IsFl 53 (((2 ^ 58 - 23) / 49 : ℤ) * (2 : ℝ) ^ (-58 : ℤ)) := ⟨(2 ^ 58 - 23) / 49, -58, by norm_num, rfl⟩
  have h1 := h.near (1 / 49) _ hy
  have e1 : |((((2 ^ 58 - 23) / 49 : ℤ) : ℝ) * (2 : ℝ) ^ (-58 : ℤ)) - 1 / 49| = 23 / 49 / 2 ^ 58 := by
    rw [show ((2 ^ 58 - 23) / 49 : ℤ) = 5882252574524729 by norm_num, zpow_neg, abs_of_neg] <;> norm_num
  rw [e1] at h1
  obtain ⟨m, e, hm, he⟩ := h.mem (1 / 49)
  set c := fl (1 / 49)
  rw [abs_le] at h1
  have h2 : (1 : ℝ) / 64 < c := by
    have : (1 : ℝ) / 64 < 1 / 49 - 23 / 49 / 2 ^ 58 := by norm_num
    linarith [h1.1]
  have hee : -58 ≤ e := by
    by_contra hlt
    push Not at hlt
    have hle : (2 : ℝ) ^ e ≤ 2 ^ (-59 : ℤ) := zpow_le_zpow_right₀ (by norm_num) (by omega)
    have hm' : (m : ℝ) ≤ 2 ^ 53 := by
      have := (abs_lt.mp hm).2.le
      exact_mod_cast this
    have : c ≤ 2 ^ 53 * 2 ^ (-59 : ℤ) := by
      rw [he]
      exact mul_le_mul hm' hle (zpow_pos (by norm_num) _).le (by norm_num)
    rw [zpow_neg] at this
    norm_num at this
    linarith
  obtain ⟨j, hj⟩ := Int.eq_ofNat_of_zero_le (show 0 ≤ e + 58 by omega)
  have hc : c = ((m * 2 ^ j : ℤ) : ℝ) / 2 ^ 58 := by
    rw [he, show e = (j : ℤ) + -58 by omega, zpow_add₀ (by norm_num), zpow_natCast, zpow_neg]
    push_cast
    rw [div_eq_mul_inv, mul_assoc]
    norm_num
  generalize m * 2 ^ j = N at hc
  have hN : 49 * N = 2 ^ 58 - 23 := by
    have a1 : (2 ^ 58 - 23 : ℝ) ≤ 49 * N := by
      have := h1.1
      rw [hc] at this
      have h := mul_le_mul_of_nonneg_left this (show (0 : ℝ) ≤ 49 * 2 ^ 58 by positivity)
      field_simp at h
      linarith
    have a2 : (49 * N : ℝ) ≤ 2 ^ 58 + 23 := by
      have := h1.2
      rw [hc] at this
      have h := mul_le_mul_of_nonneg_left this (show (0 : ℝ) ≤ 49 * 2 ^ 58 by positivity)
      field_simp at h
      linarith
    have b1 : (2 ^ 58 - 23 : ℤ) ≤ 49 * N := by exact_mod_cast a1
    have b2 : 49 * N ≤ (2 ^ 58 + 23 : ℤ) := by exact_mod_cast a2
    omega
  have hN' : (49 : ℝ) * N = 2 ^ 58 - 23 := by exact_mod_cast hN
  rw [hc, ← mul_div_assoc, hN']
  norm_num

/-- A number with a full mantissa (not the smallest of its binade) is half a unit in the last place or more from whatever does not round to it. -/
theorem Nearest.eq_of_half (h : Nearest p fl) {x : ℝ} (m e : ℤ) (hm : 2 ^ p < 2 * m) (hm' : m < 2 ^ p)
    (hx : 2 * |x - m * (2 : ℝ) ^ e| < 2 ^ e) : fl x = m * (2 : ℝ) ^ e := by
  have two : (0 : ℝ) < 2 := by norm_num
  have he : (0 : ℝ) < (2 : ℝ) ^ e := zpow_pos two _
  have hm0 : 0 < m := by
    have : (0 : ℤ) < 2 ^ p := by positivity
    omega
  have hy : IsFl p (m * (2 : ℝ) ^ e) := ⟨m, e, by rwa [abs_of_pos hm0], rfl⟩
  have h1 := h.near x _ hy
  rw [abs_sub_comm (m * (2 : ℝ) ^ e)] at h1
  have h2 : |fl x - m * (2 : ℝ) ^ e| < 2 ^ e := by
    have := abs_add_le (fl x - x) (x - m * (2 : ℝ) ^ e)
    rw [sub_add_sub_cancel] at this
    linarith
  obtain ⟨n, g, hn, hz⟩ := h.mem x
  rw [hz] at h2 ⊢
  rcases le_or_gt e g with hge | hge
  · obtain ⟨j, hj⟩ := Int.eq_ofNat_of_zero_le (show 0 ≤ g - e by omega)
    have eg : (n : ℝ) * (2 : ℝ) ^ g = ((n * 2 ^ j : ℤ) : ℝ) * (2 : ℝ) ^ e := by
      rw [show g = (j : ℤ) + e by omega, zpow_add₀ two.ne', zpow_natCast]; push_cast; ring
    rw [eg] at h2 ⊢
    rw [← sub_mul, abs_mul, abs_of_pos he] at h2
    have h3 : |((n * 2 ^ j : ℤ) : ℝ) - m| < 1 := by
      by_contra hc
      push Not at hc
      have := mul_le_mul_of_nonneg_right hc he.le
      linarith
    have h4 : |n * 2 ^ j - m| < 1 := by exact_mod_cast h3
    have h5 := Int.abs_lt_one_iff.mp h4
    rw [show n * 2 ^ j = m by omega]
  · exfalso
    have hg : (2 : ℝ) ^ g * 2 ≤ (2 : ℝ) ^ e := by
      rw [← zpow_add_one₀ two.ne']
      exact zpow_le_zpow_right₀ (by norm_num) (by omega)
    have hg0 : (0 : ℝ) < (2 : ℝ) ^ g := zpow_pos two _
    have hn' : (n : ℝ) ≤ 2 ^ p - 1 := by
      have : n ≤ 2 ^ p - 1 := by have := (abs_lt.mp hn).2; omega
      exact_mod_cast this
    have hm2 : (2 : ℝ) ^ p + 1 ≤ 2 * m := by exact_mod_cast hm
    have h3 := (abs_lt.mp h2).1
    have hp0 : (1 : ℝ) ≤ 2 ^ p := one_le_pow₀ (by norm_num)
    have k1 : (n : ℝ) * 2 ^ g ≤ (2 ^ p - 1) * 2 ^ g := mul_le_mul_of_nonneg_right hn' hg0.le
    have k2 : ((2 : ℝ) ^ p - 1) * (2 ^ g * 2) ≤ (2 ^ p - 1) * 2 ^ e := mul_le_mul_of_nonneg_left hg (by linarith)
    have k3 : ((2 : ℝ) ^ p + 1) * 2 ^ e ≤ 2 * m * 2 ^ e := mul_le_mul_of_nonneg_right hm2 he.le
    nlinarith

end Verif.Round

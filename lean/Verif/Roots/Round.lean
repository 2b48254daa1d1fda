import Verif.Roots.RoundModel
import Verif.Common.Round

/-! # C118: rounding in the roots of a quadratic -/

namespace Verif.Roots.Flt

open Verif.Round

variable {p : ℕ} {fl : ℝ → ℝ}

theorem nearest_nonneg (hf : Nearest p fl) (hp : 1 ≤ p) {x : ℝ} (hx : 0 ≤ x) : 0 ≤ fl x := by
  obtain ⟨δ, hδ, e⟩ := hf.factor hp x
  have h1 : ((2 : ℝ) ^ p)⁻¹ ≤ 1 := inv_le_one_of_one_le₀ (one_le_pow₀ (by norm_num))
  rw [e]
  exact mul_nonneg hx (by linarith [(abs_le.mp hδ).1])

/-- What the code computes: `x` and `y` in terms of the relative rounding errors. -/
theorem roots2F_factors (hf : Nearest p fl) (hp : 5 ≤ p) {b c : ℝ} (hc : IsFl p c) (hc0 : c ≠ 0) {x y : ℝ} (h : roots2F fl b c = some (x, y)) :
    ∃ δ1 δ2 δ3 δ4 δ5 S σ : ℝ, |δ1| ≤ (2 ^ p)⁻¹ ∧ |δ2| ≤ (2 ^ p)⁻¹ ∧ |δ3| ≤ (2 ^ p)⁻¹ ∧ |δ4| ≤ (2 ^ p)⁻¹ ∧ |δ5| ≤ (2 ^ p)⁻¹ ∧ 0 ≤ S ∧
      (σ = 1 ∨ σ = -1) ∧ σ * b = |b| ∧ S ^ 2 = (b ^ 2 * (1 + δ1) - 4 * c) * (1 + δ2) ∧ x = -σ * ((|b| + S * (1 + δ3)) * (1 + δ4) / 2) ∧
      y = c / x * (1 + δ5) := by
  have hp1 : 1 ≤ p := by omega
  unfold roots2F at h
  rw [if_neg hc0] at h
  have h4 : fl (4 * c) = 4 * c := hf.self (by
    have := isFl_scale hc 2
    rwa [show c * (2 : ℝ) ^ (2 : ℤ) = 4 * c by norm_num; ring] at this)
  obtain ⟨δ1, b1, e1⟩ := hf.factor hp1 (b * b)
  obtain ⟨δ2, b2, e2⟩ := hf.factor hp1 (fl (b * b) - fl (4 * c))
  simp only at h
  split_ifs at h with hD hb
  · obtain ⟨δ3, b3, e3⟩ := hf.factor hp1 (√(fl (fl (b * b) - fl (4 * c))))
    obtain ⟨δ4, b4, e4⟩ := hf.factor hp1 (b + fl (√(fl (fl (b * b) - fl (4 * c)))))
    have hq : fl (-fl (b + fl (√(fl (fl (b * b) - fl (4 * c))))) / 2) = -fl (b + fl (√(fl (fl (b * b) - fl (4 * c))))) / 2 := hf.self (by
      have := isFl_scale (isFl_neg (hf.mem (b + fl (√(fl (fl (b * b) - fl (4 * c))))))) (-1)
      rwa [show ∀ z : ℝ, z * (2 : ℝ) ^ (-1 : ℤ) = z / 2 from fun z => by rw [zpow_neg_one, div_eq_mul_inv]] at this)
    rw [hq] at h
    obtain ⟨rfl, rfl⟩ : _ = x ∧ _ = y := by simpa using h
    obtain ⟨δ5, b5, e5⟩ := hf.factor hp1 (c / (-fl (b + fl (√(fl (fl (b * b) - fl (4 * c))))) / 2))
    refine ⟨δ1, δ2, δ3, δ4, δ5, √(fl (fl (b * b) - fl (4 * c))), 1, b1, b2, b3, b4, b5, Real.sqrt_nonneg _, Or.inl rfl,
      by rw [one_mul, abs_of_nonneg hb], ?_, ?_, e5⟩
    · rw [Real.sq_sqrt (not_lt.mp hD), e2, e1, h4]; ring
    · rw [e4, e3, abs_of_nonneg hb]; ring
  · obtain ⟨δ3, b3, e3⟩ := hf.factor hp1 (√(fl (fl (b * b) - fl (4 * c))))
    obtain ⟨δ4, b4, e4⟩ := hf.factor hp1 (b - fl (√(fl (fl (b * b) - fl (4 * c)))))
    have hq : fl (-fl (b - fl (√(fl (fl (b * b) - fl (4 * c))))) / 2) = -fl (b - fl (√(fl (fl (b * b) - fl (4 * c))))) / 2 := hf.self (by
      have := isFl_scale (isFl_neg (hf.mem (b - fl (√(fl (fl (b * b) - fl (4 * c))))))) (-1)
      rwa [show ∀ z : ℝ, z * (2 : ℝ) ^ (-1 : ℤ) = z / 2 from fun z => by rw [zpow_neg_one, div_eq_mul_inv]] at this)
    rw [hq] at h
    obtain ⟨rfl, rfl⟩ : _ = x ∧ _ = y := by simpa using h
    obtain ⟨δ5, b5, e5⟩ := hf.factor hp1 (c / (-fl (b - fl (√(fl (fl (b * b) - fl (4 * c))))) / 2))
    refine ⟨δ1, δ2, δ3, δ4, δ5, √(fl (fl (b * b) - fl (4 * c))), -1, b1, b2, b3, b4, b5, Real.sqrt_nonneg _, Or.inr rfl,
      by rw [neg_one_mul, abs_of_neg (not_le.mp hb)], ?_, ?_, e5⟩
    · rw [Real.sq_sqrt (not_lt.mp hD), e2, e1, h4]; ring
    · rw [e4, e3, abs_of_neg (not_le.mp hb)]; ring

/-- Bounds used below, on plain numbers: `B = |b|`, `m = |x|`. -/
theorem vieta_aux {B S c u δ1 δ2 δ3 δ4 δ5 : ℝ} (hB : 0 ≤ B) (hS : 0 ≤ S) (hu0 : 0 < u) (hu : u ≤ 1 / 32) (b1 : |δ1| ≤ u) (b2 : |δ2| ≤ u) (b3 : |δ3| ≤ u)
    (b4 : |δ4| ≤ u) (b5 : |δ5| ≤ u) (hq : S ^ 2 = (B ^ 2 * (1 + δ1) - 4 * c) * (1 + δ2)) :
    |((B + S * (1 + δ3)) * (1 + δ4) / 2) ^ 2 - B * ((B + S * (1 + δ3)) * (1 + δ4) / 2) + c * (1 + δ5)| ≤
      8 * u * ((B + S * (1 + δ3)) * (1 + δ4) / 2) ^ 2 := by
  obtain ⟨l1, u1⟩ := abs_le.mp b1
  obtain ⟨l2, u2⟩ := abs_le.mp b2
  obtain ⟨l3, u3⟩ := abs_le.mp b3
  obtain ⟨l4, u4⟩ := abs_le.mp b4
  have h2 : 0 < 1 + δ2 := by linarith
  obtain ⟨h, hh⟩ : ∃ h, h = (B + S) / 2 := ⟨_, rfl⟩
  have hh0 : 0 ≤ h := by rw [hh]; positivity
  obtain ⟨m, hm⟩ : ∃ m, m = (B + S * (1 + δ3)) * (1 + δ4) / 2 := ⟨_, rfl⟩
  rw [← hm]
  -- m is close to h
  have hmh : |m - h| ≤ 17 / 8 * u * h := by
    have e : m - h = (S * δ3 + (B + S) * δ4 + S * (δ3 * δ4)) / 2 := by rw [hm, hh]; ring
    have t1 : |S * δ3| ≤ S * u := by rw [abs_mul, abs_of_nonneg hS]; gcongr
    have t2 : |(B + S) * δ4| ≤ (B + S) * u := by rw [abs_mul, abs_of_nonneg (by positivity)]; gcongr
    have t3 : |S * (δ3 * δ4)| ≤ S * (u * (1 / 32)) := by
      rw [abs_mul, abs_of_nonneg hS, abs_mul]; gcongr; linarith
    have t4 := abs_add_le (S * δ3 + (B + S) * δ4) (S * (δ3 * δ4))
    have t5 := abs_add_le (S * δ3) ((B + S) * δ4)
    rw [e, abs_div, abs_of_pos (by norm_num : (0 : ℝ) < 2), hh]
    rw [div_le_iff₀ (by norm_num)]
    have : 0 ≤ B * u := by positivity
    have : 0 ≤ S * u := by positivity
    have e2 : 17 / 8 * u * ((B + S) / 2) * 2 = 17 / 8 * (B * u) + 17 / 8 * (S * u) := by ring
    have e3 : (B + S) * u = B * u + S * u := by ring
    have e4 : S * (u * (1 / 32)) = S * u / 32 := by ring
    rw [e2]
    linarith
  have hmh' : |m - h| ≤ h / 15 := by
    have : u * h ≤ 1 / 32 * h := by gcongr
    have e2 : 17 / 8 * u * h = 17 / 8 * (u * h) := by ring
    linarith
  obtain ⟨m1, m2⟩ := abs_le.mp hmh'
  -- c in terms of S
  have hcS : 4 * c = B ^ 2 * (1 + δ1) - S ^ 2 / (1 + δ2) := by rw [hq]; field_simp; ring
  have hw : |1 - 1 / (1 + δ2)| ≤ 33 / 31 * u := by
    rw [show 1 - 1 / (1 + δ2) = δ2 / (1 + δ2) by field_simp; ring, abs_div, abs_of_pos h2, div_le_iff₀ h2]
    nlinarith
  have hbs : B ^ 2 + S ^ 2 ≤ 4 * h ^ 2 := by rw [hh]; nlinarith [mul_nonneg hB hS]
  have f1 : |h ^ 2 - B * h + c| ≤ 33 / 31 * u * h ^ 2 := by
    have e : h ^ 2 - B * h + c = (B ^ 2 * δ1 + S ^ 2 * (1 - 1 / (1 + δ2))) / 4 := by
      have : c = (B ^ 2 * (1 + δ1) - S ^ 2 / (1 + δ2)) / 4 := by linarith
      rw [this, hh]; ring
    rw [e, abs_div, abs_of_pos (by norm_num : (0 : ℝ) < 4), div_le_iff₀ (by norm_num)]
    have t := abs_add_le (B ^ 2 * δ1) (S ^ 2 * (1 - 1 / (1 + δ2)))
    have t1 : |B ^ 2 * δ1| ≤ B ^ 2 * u := by rw [abs_mul, abs_of_nonneg (by positivity)]; gcongr
    have t2 : |S ^ 2 * (1 - 1 / (1 + δ2))| ≤ S ^ 2 * (33 / 31 * u) := by rw [abs_mul, abs_of_nonneg (by positivity)]; gcongr
    have : 0 ≤ B ^ 2 * u := by positivity
    have h9 : u * (B ^ 2 + S ^ 2) ≤ u * (4 * h ^ 2) := by gcongr
    have e2 : 33 / 31 * u * h ^ 2 * 4 = 33 / 31 * (u * (4 * h ^ 2)) := by ring
    have e3 : S ^ 2 * (33 / 31 * u) = 33 / 31 * (u * (B ^ 2 + S ^ 2)) - 33 / 31 * (B ^ 2 * u) := by ring
    linarith
  have f2 : |c| ≤ 33 / 31 * h ^ 2 := by
    have i1 : 0 ≤ S ^ 2 / (1 + δ2) := by positivity
    have i2 : S ^ 2 / (1 + δ2) ≤ S ^ 2 * (32 / 31) := by
      rw [div_le_iff₀ h2]; nlinarith [sq_nonneg S]
    have i3 : 0 ≤ B ^ 2 * (1 + δ1) := mul_nonneg (sq_nonneg _) (by linarith)
    have i4 : B ^ 2 * (1 + δ1) ≤ B ^ 2 * (33 / 32) := by gcongr; linarith
    rw [abs_le]
    have := sq_nonneg B
    have := sq_nonneg S
    constructor <;> linarith
  have f3 : |(m - h) * (m + h - B)| ≤ 17 / 8 * u * h * (31 / 15 * h) := by
    rw [abs_mul]
    have : |m + h - B| ≤ 31 / 15 * h := by
      have : B ≤ 2 * h := by rw [hh]; linarith
      rw [abs_le]; constructor <;> linarith
    gcongr
  have f4 : |c * δ5| ≤ 33 / 31 * h ^ 2 * u := by rw [abs_mul]; gcongr
  have e : m ^ 2 - B * m + c * (1 + δ5) = (h ^ 2 - B * h + c) + (m - h) * (m + h - B) + c * δ5 := by ring
  rw [e]
  have g1 := abs_add_le ((h ^ 2 - B * h + c) + (m - h) * (m + h - B)) (c * δ5)
  have g2 := abs_add_le (h ^ 2 - B * h + c) ((m - h) * (m + h - B))
  have hm2 : (14 / 15 * h) ^ 2 ≤ m ^ 2 := by gcongr; linarith
  have hU : 0 ≤ u * h ^ 2 := by positivity
  have hfin : u * (14 / 15 * h) ^ 2 ≤ u * m ^ 2 := by gcongr
  have e5 : u * (14 / 15 * h) ^ 2 = 196 / 225 * (u * h ^ 2) := by ring
  have e6 : 33 / 31 * u * h ^ 2 = 33 / 31 * (u * h ^ 2) := by ring
  have e7 : 17 / 8 * u * h * (31 / 15 * h) = 527 / 120 * (u * h ^ 2) := by ring
  have e8 : 33 / 31 * h ^ 2 * u = 33 / 31 * (u * h ^ 2) := by ring
  have e9 : 8 * u * m ^ 2 = 8 * (u * m ^ 2) := by ring
  rw [e9]
  linarith

/-- **C118** the returned roots satisfy Vieta's relations to rounding accuracy, relative to the larger root, whenever the computed discriminant is not
negative. -/
theorem C118_vieta (hf : Nearest p fl) (hp : 5 ≤ p) {b c : ℝ} (hc : IsFl p c) {x y : ℝ} (h : roots2F fl b c = some (x, y)) :
    |x * y - c| ≤ |c| / 2 ^ p ∧ |x + y + b| ≤ 8 * max |x| |y| / 2 ^ p := by
  by_cases hc0 : c = 0
  · unfold roots2F at h
    rw [if_pos hc0] at h
    obtain ⟨rfl, rfl⟩ : 0 = x ∧ -b = y := by simpa using h
    rw [hc0]
    constructor
    · simp
    · simp
      positivity
  have hu := unit_le hp
  have hu0 : (0 : ℝ) < (2 ^ p)⁻¹ := by positivity
  obtain ⟨δ1, δ2, δ3, δ4, δ5, S, σ, b1, b2, b3, b4, b5, hS, hσ, hσb, hq, hx, hy⟩ := roots2F_factors hf hp hc hc0 h
  rw [div_eq_mul_inv, div_eq_mul_inv]
  generalize ((2 : ℝ) ^ p)⁻¹ = u at *
  rw [← sq_abs b] at hq
  have key := vieta_aux (abs_nonneg b) hS hu0 hu b1 b2 b3 b4 b5 hq
  obtain ⟨m, hm⟩ : ∃ m, m = (|b| + S * (1 + δ3)) * (1 + δ4) / 2 := ⟨_, rfl⟩
  rw [← hm] at key hx
  have hσ2 : σ * σ = 1 := by rcases hσ with h | h <;> rw [h] <;> norm_num
  have hm0 : m ≠ 0 := by
    intro h0
    rw [h0] at key
    have h5 : 0 < 1 + δ5 := by linarith [(abs_le.mp b5).1]
    have : c * (1 + δ5) = 0 := by
      have k2 : |c * (1 + δ5)| ≤ 0 := by
        refine le_trans (le_of_eq ?_) (key.trans (le_of_eq ?_))
        · congr 1; ring
        · ring
      exact abs_nonpos_iff.mp k2
    rcases mul_eq_zero.mp this with h | h
    · exact hc0 h
    · exact h5.ne' h
  have hxm : x ^ 2 = m ^ 2 := by rw [hx]; linear_combination m ^ 2 * hσ2
  have hx0 : x ≠ 0 := by
    intro h0
    rw [h0] at hxm
    exact hm0 (pow_eq_zero_iff (two_ne_zero) |>.mp (by rw [← hxm]; norm_num))
  have hxy : x * y = c * (1 + δ5) := by rw [hy]; field_simp
  constructor
  · rw [hxy, show c * (1 + δ5) - c = c * δ5 by ring, abs_mul]
    gcongr
  · have hb : b = σ * |b| := by rw [← hσb]; linear_combination (-b) * hσ2
    have e : (x + y + b) * x = m ^ 2 - |b| * m + c * (1 + δ5) := by
      have e1 : b * x = -(|b| * m) := by
        rw [hx]; nth_rw 1 [hb]; linear_combination (-(|b| * m)) * hσ2
      calc (x + y + b) * x = x ^ 2 + x * y + b * x := by ring
        _ = _ := by rw [hxm, hxy, e1]; ring
    have hax : 0 < |x| := abs_pos.mpr hx0
    have k2 : |x + y + b| * |x| ≤ 8 * u * |x| * |x| := by
      rw [← abs_mul, e]
      refine key.trans (le_of_eq ?_)
      rw [← hxm, ← sq_abs]; ring
    have k3 : |x + y + b| ≤ 8 * u * |x| := le_of_mul_le_mul_right k2 hax
    have : |x| ≤ max |x| |y| := le_max_left _ _
    calc |x + y + b| ≤ 8 * u * |x| := k3
      _ ≤ 8 * u * max |x| |y| := by gcongr
      _ = _ := by ring

/-- The larger root on plain numbers: `B = |b|`, `R` the exact and `S` the computed square root of the discriminant. -/
theorem opposite_aux {B S R c g u δ1 δ2 δ3 δ4 : ℝ} (hB : 0 ≤ B) (hS : 0 ≤ S) (hR0 : 0 < R) (hu0 : 0 < u) (hu : u ≤ 1 / 32) (b1 : |δ1| ≤ u)
    (b2 : |δ2| ≤ u) (b3 : |δ3| ≤ u) (b4 : |δ4| ≤ u) (hq : S ^ 2 = (B ^ 2 * (1 + δ1) - 4 * c) * (1 + δ2)) (hR2 : R ^ 2 = B ^ 2 - 4 * c) (hneg : c < 0)
    (hg : g = (B + R) / 2) : |(B + S * (1 + δ3)) * (1 + δ4) / 2 - g| ≤ 7 / 2 * u * g := by
  obtain ⟨l3, u3⟩ := abs_le.mp b3
  obtain ⟨l4, u4⟩ := abs_le.mp b4
  have hSR2 : |S ^ 2 - R ^ 2| ≤ 17 / 8 * (u * R ^ 2) := by
    have e : S ^ 2 - R ^ 2 = B ^ 2 * δ1 + R ^ 2 * δ2 + B ^ 2 * δ1 * δ2 := by rw [hq, hR2]; ring
    have hbR : B ^ 2 ≤ R ^ 2 := by rw [hR2]; linarith
    have t1 : |B ^ 2 * δ1| ≤ R ^ 2 * u := by rw [abs_mul, abs_of_nonneg (sq_nonneg B)]; gcongr
    have t2 : |R ^ 2 * δ2| ≤ R ^ 2 * u := by rw [abs_mul, abs_of_nonneg (sq_nonneg R)]; gcongr
    have t3 : |B ^ 2 * δ1 * δ2| ≤ R ^ 2 * u * (1 / 32) := by rw [abs_mul]; gcongr; linarith
    have t4 := abs_add_le (B ^ 2 * δ1 + R ^ 2 * δ2) (B ^ 2 * δ1 * δ2)
    have t5 := abs_add_le (B ^ 2 * δ1) (R ^ 2 * δ2)
    rw [e]
    have : 0 ≤ u * R ^ 2 := by positivity
    have e2 : R ^ 2 * u = u * R ^ 2 := by ring
    rw [e2] at t1 t2 t3
    linarith
  have hSR : |S - R| ≤ 5 / 4 * (u * R) := by
    have hSl : 9 / 10 * R ≤ S := by
      have h1 := (abs_le.mp hSR2).1
      have h2 : u * R ^ 2 ≤ 1 / 32 * R ^ 2 := by gcongr
      have h3 : (9 / 10 * R) ^ 2 ≤ S ^ 2 := by
        rw [show (9 / 10 * R) ^ 2 = 81 / 100 * R ^ 2 by ring]
        have := sq_nonneg R
        linarith
      exact (sq_le_sq₀ (by positivity) hS).mp h3
    have e : |S - R| * (S + R) = |S ^ 2 - R ^ 2| := by
      rw [show S ^ 2 - R ^ 2 = (S - R) * (S + R) by ring, abs_mul, abs_of_nonneg (by positivity : 0 ≤ S + R)]
    have h1 : |S - R| * (19 / 10 * R) ≤ 17 / 8 * (u * R ^ 2) := by
      refine le_trans ?_ (e.le.trans hSR2)
      gcongr; linarith
    have h2 : |S - R| * (19 / 10) ≤ 17 / 8 * (u * R) := by
      refine le_of_mul_le_mul_right ?_ hR0
      calc _ = |S - R| * (19 / 10 * R) := by ring
        _ ≤ _ := h1
        _ = _ := by ring
    have : 0 ≤ u * R := by positivity
    linarith
  have hsR : |S * (1 + δ3) - R| ≤ 37 / 16 * (u * R) := by
    have e : S * (1 + δ3) - R = (S - R) * (1 + δ3) + R * δ3 := by ring
    have t1 : |(S - R) * (1 + δ3)| ≤ 5 / 4 * (u * R) * (33 / 32) := by
      rw [abs_mul]
      have : |1 + δ3| ≤ 33 / 32 := by rw [abs_le]; constructor <;> linarith
      gcongr
    have t2 : |R * δ3| ≤ u * R := by rw [abs_mul, abs_of_pos hR0, mul_comm]; gcongr
    have t := abs_add_le ((S - R) * (1 + δ3)) (R * δ3)
    rw [e]
    have : 0 ≤ u * R := by positivity
    linarith
  have e : (B + S * (1 + δ3)) * (1 + δ4) / 2 - g = ((S * (1 + δ3) - R) * (1 + δ4) + (B + R) * δ4) / 2 := by rw [hg]; ring
  have t1 : |(S * (1 + δ3) - R) * (1 + δ4)| ≤ 37 / 16 * (u * R) * (33 / 32) := by
    rw [abs_mul]
    have : |1 + δ4| ≤ 33 / 32 := by rw [abs_le]; constructor <;> linarith
    gcongr
  have t2 : |(B + R) * δ4| ≤ (B + R) * u := by rw [abs_mul, abs_of_pos (by positivity : 0 < B + R)]; gcongr
  have t := abs_add_le ((S * (1 + δ3) - R) * (1 + δ4)) ((B + R) * δ4)
  rw [e, abs_div, abs_of_pos (by norm_num : (0 : ℝ) < 2), div_le_iff₀ (by norm_num), hg]
  have : 0 ≤ u * R := by positivity
  have : 0 ≤ u * B := by positivity
  have e1 : (B + R) * u = u * B + u * R := by ring
  have e2 : 7 / 2 * u * ((B + R) / 2) * 2 = 7 / 2 * (u * B) + 7 / 2 * (u * R) := by ring
  rw [e2]
  linarith

/-- **C118** if the roots have opposite signs (`c < 0`), each is returned with a relative error of a few roundings. What is missing for the full claim is
`c > 0`, where it fails near double roots. -/
theorem C118_opposite_partial (hf : Nearest p fl) (hp : 5 ≤ p) {b c : ℝ} (hc : IsFl p c) (hneg : c < 0) :
    ∃ x y r1 r2 : ℝ, roots2F fl b c = some (x, y) ∧ (∀ X : ℝ, X ^ 2 + b * X + c = (X - r1) * (X - r2)) ∧
      |x - r1| ≤ 4 * |r1| / 2 ^ p ∧ |y - r2| ≤ 6 * |r2| / 2 ^ p := by
  have hu := unit_le hp
  have hu0 : (0 : ℝ) < (2 ^ p)⁻¹ := by positivity
  have hp1 : 1 ≤ p := by omega
  have hsome : ∃ x y, roots2F fl b c = some (x, y) := by
    have h4 : fl (4 * c) = 4 * c := hf.self (by
      have := isFl_scale hc 2
      rwa [show c * (2 : ℝ) ^ (2 : ℤ) = 4 * c by norm_num; ring] at this)
    have h1 : 0 ≤ fl (b * b) := nearest_nonneg hf hp1 (mul_self_nonneg b)
    have h2 : 0 ≤ fl (fl (b * b) - fl (4 * c)) := nearest_nonneg hf hp1 (by rw [h4]; linarith)
    exact ⟨_, _, by unfold roots2F; rw [if_neg hneg.ne]; simp only; rw [if_neg (not_lt.mpr h2)]⟩
  obtain ⟨x, y, h⟩ := hsome
  obtain ⟨δ1, δ2, δ3, δ4, δ5, S, σ, b1, b2, b3, b4, b5, hS, hσ, hσb, hq, hx, hy⟩ := roots2F_factors hf hp hc hneg.ne h
  have hσ2 : σ * σ = 1 := by rcases hσ with h | h <;> rw [h] <;> norm_num
  have hσ0' : σ ≠ 0 := by rcases hσ with h | h <;> rw [h] <;> norm_num
  have hσa : |σ| = 1 := by rcases hσ with h | h <;> rw [h] <;> norm_num
  have hb : b = σ * |b| := by rw [← hσb]; linear_combination (-b) * hσ2
  have hD0 : 0 < b ^ 2 - 4 * c := by nlinarith [sq_nonneg b]
  obtain ⟨R, hR⟩ : ∃ R, R = √(b ^ 2 - 4 * c) := ⟨_, rfl⟩
  have hR0 : 0 < R := by rw [hR]; exact Real.sqrt_pos.mpr hD0
  have hR2 : R ^ 2 = b ^ 2 - 4 * c := by rw [hR]; exact Real.sq_sqrt hD0.le
  obtain ⟨g, hg⟩ : ∃ g, g = (|b| + R) / 2 := ⟨_, rfl⟩
  have hB := abs_nonneg b
  have hg0 : 0 < g := by rw [hg]; positivity
  refine ⟨x, y, -σ * g, c / (-σ * g), h, ?_, ?_, ?_⟩
  · intro X
    have hne : -σ * g ≠ 0 := mul_ne_zero (by rcases hσ with h | h <;> rw [h] <;> norm_num) hg0.ne'
    have hsum : -σ * g + c / (-σ * g) = -b := by
      rw [eq_neg_iff_add_eq_zero]
      have : (-σ * g + c / (-σ * g) + b) * (-σ * g) = 0 := by
        have e : (-σ * g + c / (-σ * g) + b) * (-σ * g) = σ * σ * g ^ 2 + c - (σ * b) * g := by field_simp; ring
        rw [e, hσ2, hσb, hg]
        have hbb : |b| ^ 2 = b ^ 2 := sq_abs b
        nlinarith
      exact (mul_eq_zero.mp this).resolve_right hne
    have hprod : -σ * g * (c / (-σ * g)) = c := by field_simp
    linear_combination X * hsum - hprod
  all_goals
    rw [show ∀ z : ℝ, z / 2 ^ p = z * (2 ^ p)⁻¹ from fun z => div_eq_mul_inv z _]
    generalize ((2 : ℝ) ^ p)⁻¹ = u at *
    obtain ⟨l1, u1⟩ := abs_le.mp b1
    obtain ⟨l2, u2⟩ := abs_le.mp b2
    obtain ⟨l3, u3⟩ := abs_le.mp b3
    obtain ⟨l4, u4⟩ := abs_le.mp b4
    obtain ⟨l5, u5⟩ := abs_le.mp b5
    have hmain := opposite_aux hB hS hR0 hu0 hu b1 b2 b3 b4 (by rw [sq_abs]; exact hq) (by rw [sq_abs]; exact hR2) hneg hg
    obtain ⟨m, hm⟩ : ∃ m, m = (|b| + S * (1 + δ3)) * (1 + δ4) / 2 := ⟨_, rfl⟩
    rw [← hm] at hmain hx
  · rw [hx, show -σ * m - -σ * g = -σ * (m - g) by ring, abs_mul, abs_neg, hσa, one_mul, abs_mul, abs_neg, hσa, one_mul, abs_of_pos hg0]
    have : 0 ≤ u * g := by positivity
    linarith
  · have hug : u * g ≤ 1 / 32 * g := by gcongr
    have hml : 57 / 64 * g ≤ m := by have := (abs_le.mp hmain).1; linarith
    have hm0 : 0 < m := lt_of_lt_of_le (by positivity) hml
    have hσ0 : -σ ≠ 0 := by rcases hσ with h | h <;> rw [h] <;> norm_num
    have e : y - c / (-σ * g) = c / (-σ * g) * ((g - m + g * δ5) / m) := by
      rw [hy, hx]; field_simp; ring
    rw [e, abs_mul, abs_div (g - m + g * δ5), abs_of_pos hm0]
    have h1 : |g - m + g * δ5| ≤ 9 / 2 * u * g := by
      have t := abs_add_le (g - m) (g * δ5)
      have t1 : |g - m| ≤ 7 / 2 * u * g := by rw [abs_sub_comm]; exact hmain
      have t2 : |g * δ5| ≤ g * u := by rw [abs_mul, abs_of_pos hg0]; gcongr
      linarith
    have h2 : |g - m + g * δ5| / m ≤ 6 * u := by
      rw [div_le_iff₀ hm0]
      refine h1.trans ?_
      have : u * (57 / 64 * g) ≤ u * m := by gcongr
      have : 0 ≤ u * g := by positivity
      have e1 : 9 / 2 * u * g = 9 / 2 * (u * g) := by ring
      have e2 : u * (57 / 64 * g) = 57 / 64 * (u * g) := by ring
      have e3 : 6 * u * m = 6 * (u * m) := by ring
      rw [e1, e3]
      linarith
    calc |c / (-σ * g)| * (|g - m + g * δ5| / m) ≤ |c / (-σ * g)| * (6 * u) := by gcongr
      _ = _ := by ring

/-- **C118** near a double root half of the digits are lost, for any precision: a quadratic with exactly represented coefficients and two real roots,
of which the first returned value misses both by more than `2^-(p/2+2)` relatively. -/
theorem C118_double_root (hf : Nearest p fl) (hp : 5 ≤ p) :
    ∃ b c x y r1 r2 : ℝ, IsFl p b ∧ IsFl p c ∧ r1 ≠ r2 ∧ (∀ X : ℝ, X ^ 2 + b * X + c = (X - r1) * (X - r2)) ∧ roots2F fl b c = some (x, y) ∧
      |r1| / 2 ^ ((p + 4) / 2) ≤ |x - r1| ∧ |r2| / 2 ^ ((p + 4) / 2) ≤ |x - r2| := by
  obtain ⟨k, hk⟩ : ∃ k, k = (p + 2) / 2 := ⟨_, rfl⟩
  have hk1 : (p + 4) / 2 = k + 1 := by omega
  have hk2 : p + 1 ≤ 2 * k := by omega
  have hk3 : k + 1 ≤ p := by omega
  have hk4 : 3 ≤ k := by omega
  rw [hk1]
  obtain ⟨t, ht⟩ : ∃ t : ℝ, t = (2 ^ k)⁻¹ := ⟨_, rfl⟩
  have ht0 : 0 < t := by rw [ht]; positivity
  have ht1 : t ≤ 1 / 8 := by
    rw [ht, inv_eq_one_div]
    apply one_div_le_one_div_of_le (by norm_num)
    calc (8 : ℝ) = 2 ^ 3 := by norm_num
      _ ≤ 2 ^ k := pow_le_pow_right₀ (by norm_num) hk4
  have htk : t * 2 ^ k = 1 := by rw [ht]; exact inv_mul_cancel₀ (by positivity)
  have hz : ∀ j : ℤ, (2 : ℝ) ^ (j - k) = 2 ^ j * t := fun j => by rw [zpow_sub₀ (by norm_num), zpow_natCast, ht, div_eq_mul_inv]
  have hbig : (2 : ℤ) ^ k + 2 < 2 ^ p := by
    have h1 : (2 : ℤ) ^ (k + 1) ≤ 2 ^ p := pow_le_pow_right₀ (by norm_num) hk3
    have h2 : (2 : ℤ) ^ 3 ≤ 2 ^ k := pow_le_pow_right₀ (by norm_num) hk4
    rw [pow_succ] at h1
    linarith
  have hb : IsFl p (1 + t) := ⟨2 ^ k + 1, -k, by rw [abs_of_pos (by positivity)]; linarith, by
    rw [show -(k : ℤ) = 0 - k by ring, hz]; push_cast; linear_combination -htk⟩
  have h4c : IsFl p (1 + 2 * t) := ⟨2 ^ k + 2, -k, by rw [abs_of_pos (by positivity)]; linarith, by
    rw [show -(k : ℤ) = 0 - k by ring, hz]; push_cast; linear_combination -htk⟩
  have hc : IsFl p ((1 + 2 * t) / 4) := by
    have := isFl_scale h4c (-2)
    rwa [show (1 + 2 * t) * (2 : ℝ) ^ (-2 : ℤ) = (1 + 2 * t) / 4 by rw [zpow_neg]; norm_num; ring] at this
  have hsq : fl ((1 + t) * (1 + t)) = 1 + 2 * t := hf.eq_of_close h4c (by
    rw [show (1 + t) * (1 + t) - (1 + 2 * t) = t * t by ring, abs_of_pos (by positivity), abs_of_pos (by positivity)]
    have h1 : (2 : ℝ) ^ (p + 1) ≤ 2 ^ (2 * k) := pow_le_pow_right₀ (by norm_num) hk2
    calc 2 * 2 ^ p * (t * t) = 2 ^ (p + 1) * (t * t) := by ring
      _ ≤ 2 ^ (2 * k) * (t * t) := by gcongr
      _ = (t * 2 ^ k) ^ 2 := by ring
      _ = 1 := by rw [htk]; norm_num
      _ < 1 + 2 * t := by linarith)
  have h0 : fl 0 = 0 := hf.self isFl_zero
  have hq : fl (-(1 + t) / 2) = -(1 + t) / 2 := hf.self (by
    have := isFl_scale (isFl_neg hb) (-1)
    rwa [show ∀ z : ℝ, z * (2 : ℝ) ^ (-1 : ℤ) = z / 2 from fun z => by rw [zpow_neg_one, div_eq_mul_inv]] at this)
  refine ⟨1 + t, (1 + 2 * t) / 4, -(1 + t) / 2, fl ((1 + 2 * t) / 4 / (-(1 + t) / 2)), -1 / 2, -(1 + 2 * t) / 2, hb, hc, ?_, ?_, ?_, ?_, ?_⟩
  · intro h; linarith
  · intro X; ring
  · unfold roots2F
    rw [if_neg (by positivity)]
    simp only
    rw [hsq, show 4 * ((1 + 2 * t) / 4) = 1 + 2 * t by ring, hf.self h4c, sub_self, h0, if_neg (lt_irrefl _), Real.sqrt_zero, h0, if_pos (by positivity),
      add_zero, hf.self hb, hq]
  · rw [show -(1 + t) / 2 - -1 / 2 = -(t / 2) by ring, abs_neg, abs_of_pos (by positivity : 0 < t / 2), div_le_iff₀ (by positivity), pow_succ,
      show t / 2 * (2 ^ k * 2) = t * 2 ^ k by ring, htk]
    norm_num [abs_le]
  · rw [show -(1 + t) / 2 - -(1 + 2 * t) / 2 = t / 2 by ring, abs_of_pos (by positivity : 0 < t / 2), div_le_iff₀ (by positivity), pow_succ,
      show t / 2 * (2 ^ k * 2) = t * 2 ^ k by ring, htk, abs_le]
    constructor <;> linarith

/-- The hypotheses are met: double precision, `x² - 3x - 4`. -/
example : ∃ fl : ℝ → ℝ, Nearest 53 fl ∧ IsFl 53 (-4) ∧ ∃ x y, roots2F fl (-3) (-4) = some (x, y) := by
  have h4 : IsFl 53 (-4) := ⟨-1, 2, by norm_num, by norm_num⟩
  refine ⟨_, nearest_rnd (by norm_num), h4, ?_⟩
  obtain ⟨x, y, -, -, h, -⟩ := C118_opposite_partial (nearest_rnd (by norm_num : 1 ≤ 53)) (by norm_num) (b := -3) h4 (by norm_num)
  exact ⟨x, y, h⟩

/-- The values returned there are exact. -/
example : roots2F (rnd 53) (-3) (-4) = some (4, -1) := by
  have hf := nearest_rnd (by norm_num : 1 ≤ 53)
  have hi : ∀ n : ℤ, |n| < 2 ^ 53 → rnd 53 n = n := fun n hn => hf.self ⟨n, 0, hn, by simp⟩
  unfold roots2F
  rw [if_neg (by norm_num)]
  simp only
  rw [show (-3 : ℝ) * -3 = ((9 : ℤ) : ℝ) by norm_num, hi 9 (by norm_num), show (4 : ℝ) * -4 = ((-16 : ℤ) : ℝ) by norm_num, hi (-16) (by norm_num),
    show ((9 : ℤ) : ℝ) - ((-16 : ℤ) : ℝ) = ((25 : ℤ) : ℝ) by norm_num, hi 25 (by norm_num), if_neg (by norm_num),
    show √((25 : ℤ) : ℝ) = ((5 : ℤ) : ℝ) by
      rw [show ((25 : ℤ) : ℝ) = 5 ^ 2 by norm_num, Real.sqrt_sq (by norm_num)]; norm_num, hi 5 (by norm_num), if_neg (by norm_num),
    show (-3 : ℝ) - ((5 : ℤ) : ℝ) = ((-8 : ℤ) : ℝ) by norm_num, hi (-8) (by norm_num), show -((-8 : ℤ) : ℝ) / 2 = ((4 : ℤ) : ℝ) by norm_num,
    hi 4 (by norm_num), show (-4 : ℝ) / ((4 : ℤ) : ℝ) = ((-1 : ℤ) : ℝ) by norm_num, hi (-1) (by norm_num)]
  norm_num

end Verif.Roots.Flt

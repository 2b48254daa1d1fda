import Verif.Carlson.RoundJCore
import Verif.Carlson.RoundDProps
import Verif.Carlson.LegendreProps

/-! # C141: rounding in elliprj and ellippi -/

namespace Verif.Carlson.Flt

open Verif.Round

variable {p q : ℕ} {fl flq : ℝ → ℝ} {K KJ : ℝ}

/-- The number format of `elliprj`: as `Format`, but `K` is `(eps / 4 · 2^10)^(-1/6)`, up to one per cent. -/
structure FormatJ (p q : ℕ) (fl flq : ℝ → ℝ) (K : ℝ) : Prop where
  near : Nearest p fl
  bits : 24 ≤ p
  nearq : Nearest q flq
  bitsq : p ≤ q
  root : |K - (1 / 4 * (2 * (2 ^ p)⁻¹) * 2 ^ 10) ^ (-(1 / 6) : ℝ)| ≤ 1 / 100 * K

theorem FormatJ.K_pos (h : FormatJ p q fl flq K) : 0 < K := by
  obtain ⟨ε, hε0, -, -, hεK, -⟩ := eps_toleranceJ h.bits
  have := h.root
  rw [hεK] at this
  exact (K_bounds hε0 this).1

theorem TwoAbove.upper {s x y z : ℝ} (hs : 0 < s) (h : TwoAbove s x y z) : s * RF x y z ^ 2 ≤ 247 / 100 := by
  rcases h with ⟨h1, h2, h3⟩ | ⟨h1, h2, h3⟩ | ⟨h1, h2, h3⟩
  · exact RF_upper hs h1 h2 h3
  · rw [RF_swap12]; exact RF_upper hs h1 h2 h3
  · rw [← RF_swap23, RF_swap12]; exact RF_upper hs h1 h2 h3

theorem TwoAbove.stepsJ {s x y z r S : ℝ} {N : ℕ} (hs : 0 < s) (h : TwoAbove s x y z) (hr : 0 < r) (hK : 0 < K) (hS : x + y + z + r ≤ 11 / 10 * S)
    (hN : 15 * K * S ≤ 4 ^ N * s) : 21 / 4 * K * (x + y + z + r) * RF x y z ^ 2 ≤ 4 ^ N := by
  have hu := h.upper hs
  have h0 := isNonneg_args (h.args hs)
  refine le_of_mul_le_mul_right ?_ hs
  have hS0 : 0 ≤ S := by linarith
  calc 21 / 4 * K * (x + y + z + r) * RF x y z ^ 2 * s = 21 / 4 * (K * ((x + y + z + r) * (s * RF x y z ^ 2))) := by ring
    _ ≤ 21 / 4 * (K * ((11 / 10 * S) * (247 / 100))) := by gcongr
    _ = 21 / 4 * (11 / 10) * (247 / 100) * (K * S) := by ring
    _ ≤ 15 * (K * S) := by gcongr; norm_num
    _ = 15 * K * S := by ring
    _ ≤ _ := hN

/-- `1 + δ / d²`, the argument of the degenerate integrals in the sum, is at least `1 / κ` if no argument exceeds `κ² p`. -/
theorem kappa_bound {x y z r : ℝ} {κ : ℕ} (hx : 0 ≤ x) (hy : 0 ≤ y) (hz : 0 ≤ z) (hr : 0 < r) (hκ : 1 ≤ κ) (kx : x ≤ κ ^ 2 * r) (ky : y ≤ κ ^ 2 * r)
    (kz : z ≤ κ ^ 2 * r) : 1 ≤ κ * (1 + (r - x) * (r - y) * (r - z) / dd x y z r 0 ^ 2) := by
  have hκr : (1 : ℝ) ≤ κ := by exact_mod_cast hκ
  have hsr := Real.sqrt_pos.mpr hr
  -- one factor
  have hfac : ∀ t : ℝ, 0 ≤ t → t ≤ κ ^ 2 * r → ∃ f : ℝ, r - t = f * (√r + √t) ^ 2 ∧ f ≤ 1 ∧ -1 ≤ f ∧ 1 ≤ κ * (1 + f) := fun t ht hk => by
    have hst := Real.sqrt_nonneg t
    have hsum : 0 < √r + √t := by linarith
    have hkt : √t ≤ κ * √r := by
      calc √t ≤ √(κ ^ 2 * r) := Real.sqrt_le_sqrt hk
        _ = κ * √r := by rw [Real.sqrt_mul (by positivity), Real.sqrt_sq (by linarith)]
    refine ⟨(√r - √t) / (√r + √t), ?_, ?_, ?_, ?_⟩
    · have e1 := Real.sq_sqrt hr.le
      have e2 := Real.sq_sqrt ht
      field_simp
      nlinarith
    · rw [div_le_one hsum]; linarith
    · rw [le_div_iff₀ hsum]; linarith
    · rw [show 1 + (√r - √t) / (√r + √t) = 2 * √r / (√r + √t) by field_simp; ring, ← mul_div_assoc, le_div_iff₀ hsum]
      nlinarith
  obtain ⟨f, ef, f1, f2, f3⟩ := hfac x hx kx
  obtain ⟨g, eg, g1, g2, g3⟩ := hfac y hy ky
  obtain ⟨h, eh, h1, h2, h3⟩ := hfac z hz kz
  have hd : dd x y z r 0 ^ 2 = (√r + √x) ^ 2 * (√r + √y) ^ 2 * (√r + √z) ^ 2 := by unfold dd; simp only [zero_add]; ring
  have hd0 : 0 < dd x y z r 0 ^ 2 := by have := dd_pos (a := x) (b := y) (c := z) hr; positivity
  have e : (r - x) * (r - y) * (r - z) / dd x y z r 0 ^ 2 = f * g * h := by
    rw [div_eq_iff hd0.ne', hd, ef, eg, eh]; ring
  rw [e]
  have hκ0 : (0 : ℝ) ≤ κ := by linarith
  rcases le_or_gt 0 (f * g * h) with hp | hn
  · nlinarith
  · -- the product is negative, hence so is one of the factors, and the product is no less than it
    have key : ∀ a b c : ℝ, a ≤ 0 → -1 ≤ a → |b| ≤ 1 → |c| ≤ 1 → 1 ≤ κ * (1 + a) → 1 ≤ (κ : ℝ) * (1 + a * b * c) := fun a b c ha _ hb hc h1 => by
      refine h1.trans ?_
      gcongr
      have hbc : b * c ≤ 1 := by
        have := abs_mul_le hb hc
        rw [one_mul] at this
        exact (le_abs_self _).trans this
      have := mul_le_mul_of_nonpos_left hbc ha
      linarith
    have bf : |f| ≤ 1 := abs_le.mpr ⟨f2, f1⟩
    have bg : |g| ≤ 1 := abs_le.mpr ⟨g2, g1⟩
    have bh : |h| ≤ 1 := abs_le.mpr ⟨h2, h1⟩
    rcases le_or_gt f 0 with hf | hf
    · exact key f g h hf f2 bg bh f3
    · rcases le_or_gt g 0 with hg | hg
      · have := key g f h hg g2 bf bh g3
        rwa [mul_comm g f] at this
      · rcases le_or_gt h 0 with hh | hh
        · have := key h f g hh h2 bf bg h3
          rwa [show h * f * g = f * g * h by ring] at this
        · exact absurd (mul_pos (mul_pos hf hg) hh) (not_lt.mpr hn.le)

/-- Slightly more general than the claim: the bound on the number of steps may be off by a tenth. -/
theorem rj_accurate (hF : FormatJ p q fl flq K) {x y z r s S : ℝ} (hs : 0 < s) (h : TwoAbove s x y z) (hr : 0 < r) {κ N : ℕ} (hN : N ≤ 1000)
    (hrx : r ≠ x) (hry : r ≠ y) (hrz : r ≠ z) (kx : x ≤ κ ^ 2 * r) (ky : y ≤ κ ^ 2 * r) (kz : z ≤ κ ^ 2 * r)
    (hsmall : 100 * (κ * (18 * N + 26)) ≤ 2 ^ p) (hS : x + y + z + r ≤ 11 / 10 * S) (hN4 : 15 * K * S ≤ 4 ^ N * s) :
    ∃ v, elliprjF fl flq K x y z r = .num v ∧ |v - RJ x y z r| ≤ (κ * (20 * N + 29) + 81 * N + 9861) * (2 ^ p)⁻¹ * RJ x y z r := by
  have hA := h.args hs
  have hκ1 : 1 ≤ κ := by
    by_contra hc
    have : κ = 0 := by omega
    subst this
    simp only [Nat.cast_zero, ne_eq, OfNat.ofNat_ne_zero, not_false_eq_true, zero_pow, zero_mul] at kx ky kz
    linarith [isNonneg_args hA]
  have hnot : ¬(r = 0 ∨ (x = 0 ∧ y = 0) ∨ (x = 0 ∧ z = 0) ∨ (y = 0 ∧ z = 0)) := by
    have := hA.xy
    have := hA.xz
    have := hA.yz
    rintro (h0 | ⟨h0, h1⟩ | ⟨h0, h1⟩ | ⟨h0, h1⟩) <;> linarith
  unfold elliprjF
  rw [if_neg hnot]
  exact core_accurateJ hF.near hF.bits hF.nearq hF.bitsq hF.root hA hr hN hκ1 (kappa_bound hA.x0 hA.y0 hA.z0 hr hκ1 kx ky kz)
    (mul_ne_zero (mul_ne_zero (sub_ne_zero.mpr hrx) (sub_ne_zero.mpr hry)) (sub_ne_zero.mpr hrz)) hsmall (h.stepsJ hs hr hF.K_pos hS hN4)

/-- **C141** (`elliprj`). For non-negative `x, y, z`, two of them at least `s > 0`, and `p > 0` different from all of them, none of them above `κ² p`, the loop ends
after at most `N` steps, `4^N ≥ 15 K (x + y + z + p) / s`, and the result has a relative error of at most `κ (20 N + 29) + 81 N + 9861` units of roundoff. -/
theorem C141_elliprj (hF : FormatJ p q fl flq K) {x y z r s : ℝ} (hs : 0 < s) (h : TwoAbove s x y z) (hr : 0 < r) {κ N : ℕ} (hN : N ≤ 1000)
    (hrx : r ≠ x) (hry : r ≠ y) (hrz : r ≠ z) (kx : x ≤ κ ^ 2 * r) (ky : y ≤ κ ^ 2 * r) (kz : z ≤ κ ^ 2 * r)
    (hsmall : 100 * (κ * (18 * N + 26)) ≤ 2 ^ p) (hN4 : 15 * K * (x + y + z + r) ≤ 4 ^ N * s) :
    ∃ v, elliprjF fl flq K x y z r = .num v ∧ |v - RJ x y z r| ≤ (κ * (20 * N + 29) + 81 * N + 9861) * (2 ^ p)⁻¹ * RJ x y z r :=
  rj_accurate hF hs h hr hN hrx hry hrz kx ky kz hsmall (by have := isNonneg_args (h.args hs); linarith) hN4

/-- **C141** (`elliprj`, infinities). The code answers infinity exactly where the integral diverges. -/
theorem C141_elliprj_inf (fl flq : ℝ → ℝ) (K x y z r : ℝ) :
    elliprjF fl flq K x y z r = .inf ↔ r = 0 ∨ (x = 0 ∧ y = 0) ∨ (x = 0 ∧ z = 0) ∨ (y = 0 ∧ z = 0) := by
  unfold elliprjF
  constructor
  · intro h
    by_contra hc
    rw [if_neg hc] at h
    unfold elliprjCoreF at h
    simp only at h
    split at h
    · exact ResJ.noConfusion h
    · split_ifs at h
  · intro h
    rw [if_pos h]

theorem rj_nan (hF : FormatJ p q fl flq K) {x y z r s S : ℝ} (hs : 0 < s) (h : TwoAbove s x y z) (hr : 0 < r) {N : ℕ} (hN : N ≤ 1000)
    (heq : r = x ∨ r = y ∨ r = z) {a b : ℝ} (hab : 2 * a ≤ b) (ha : a = x ∨ a = y ∨ a = z ∨ a = r) (hb : b = x ∨ b = y ∨ b = z ∨ b = r)
    (hbx : x ≤ b) (hby : y ≤ b) (hbz : z ≤ b) (hbr : r ≤ b) (hS : x + y + z + r ≤ 11 / 10 * S) (hN4 : 15 * K * S ≤ 4 ^ N * s) :
    elliprjF fl flq K x y z r = .nan := by
  have hA := h.args hs
  have hnot : ¬(r = 0 ∨ (x = 0 ∧ y = 0) ∨ (x = 0 ∧ z = 0) ∨ (y = 0 ∧ z = 0)) := by
    have := hA.xy
    have := hA.xz
    have := hA.yz
    rintro (h0 | ⟨h0, h1⟩ | ⟨h0, h1⟩ | ⟨h0, h1⟩) <;> linarith
  unfold elliprjF
  rw [if_neg hnot]
  refine core_nanJ hF.near hF.bits hF.nearq hF.bitsq hF.root hA hr hN ?_ hab ha hb hbx hby hbz hbr (h.stepsJ hs hr hF.K_pos hS hN4)
  rcases heq with e | e | e <;> rw [e] <;> ring

/-- **C141** (`elliprj`, not a number). If `p` equals one of the other arguments and the largest of the four is at least twice the smallest, the call answers NaN,
although the integral is finite. -/
theorem C141_elliprj_nan (hF : FormatJ p q fl flq K) {x y z r s : ℝ} (hs : 0 < s) (h : TwoAbove s x y z) (hr : 0 < r) {N : ℕ} (hN : N ≤ 1000)
    (heq : r = x ∨ r = y ∨ r = z) (hwide : 2 * min (min (min x y) z) r ≤ max (max (max x y) z) r) (hN4 : 15 * K * (x + y + z + r) ≤ 4 ^ N * s) :
    elliprjF fl flq K x y z r = .nan := by
  refine rj_nan hF hs h hr hN heq hwide ?_ ?_ (by simp) (by simp) (by simp) (by simp) (by have := isNonneg_args (h.args hs); linarith) hN4
  · rcases min_choice (min (min x y) z) r with e | e <;> rw [e]
    · rcases min_choice (min x y) z with e | e <;> rw [e]
      · rcases min_choice x y with e | e <;> rw [e] <;> simp
      · simp
    · simp
  · rcases max_choice (max (max x y) z) r with e | e <;> rw [e]
    · rcases max_choice (max x y) z with e | e <;> rw [e]
      · rcases max_choice x y with e | e <;> rw [e] <;> simp
      · simp
    · simp

/-! ### `ellippi` -/

theorem pi_complete {n m : ℝ} (hm : m < 1) (hn : n < 1) :
    legPi n (Real.pi / 2) m = legF (Real.pi / 2) m + n / 3 * RJ 0 (1 - m) 1 (1 - n) := by
  have := (LArgs.half_pi hm).Pi_eq (n := n) (by rw [Real.sin_pi_div_two]; linarith)
  rw [Real.sin_pi_div_two] at this
  norm_num at this
  exact this

/-- A number that is good for perturbed arguments. -/
theorem perturbJ {v R R' c u : ℝ} {j : ℕ} (hu0 : 0 ≤ u) (hc0 : 0 ≤ c) (hc : c * u ≤ 1 / 50) (hju : (j : ℝ) * u ≤ 1 / 11) (hu1 : u < 1) (hR : 0 ≤ R)
    (h : |v - R'| ≤ c * u * R') (hn : Near (1 - u)⁻¹ j R' R) : |v - R| ≤ (c + 12 / 10 * j) * u * R := by
  have e1 := Near.abs_le hu0 hju hu1 hR hn
  have hR' : R' ≤ R + 11 / 10 * (j * u) * R := by have := (abs_le.mp e1).2; linarith
  have s := abs_sub_le v R' R
  have t : c * u * R' ≤ c * u * (R + 11 / 10 * (j * u) * R) := by gcongr
  have hjuR : 0 ≤ (j : ℝ) * u * R := by positivity
  have t2 : c * u * (11 / 10 * (j * u) * R) ≤ 1 / 50 * (11 / 10 * (j * u) * R) := by gcongr
  have e : (c + 12 / 10 * (j : ℝ)) * u * R = c * u * R + 12 / 10 * (j * u * R) := by ring
  rw [e]
  have e2 : 11 / 10 * ((j : ℝ) * u) * R = 11 / 10 * (j * u * R) := by ring
  rw [e2] at t t2 e1
  linarith

/-- The last three roundings of `ellippi`. -/
theorem pi_sum {k k0 v R n u c d δ1 δ2 δ3 : ℝ} (hu : u ≤ 1 / 16777216) (hk0 : 0 ≤ k0) (hR : 0 ≤ R) (hc : c * u ≤ 1 / 50)
    (hdc : d ≤ c) (hd0 : 0 ≤ d) (hk : |k - k0| ≤ d * u * k0) (hv : |v - R| ≤ c * u * R) (b1 : |δ1| ≤ u) (b2 : |δ2| ≤ u) (b3 : |δ3| ≤ u) :
    |(k + n / 3 * (1 + δ1) * v * (1 + δ2)) * (1 + δ3) - (k0 + n / 3 * R)| ≤ (c + 4) * u * (k0 + |n / 3 * R|) := by
  have hu0 : 0 ≤ u := (abs_nonneg _).trans b1
  obtain ⟨T, hT⟩ : ∃ T, T = |n / 3 * R| := ⟨_, rfl⟩
  have hT0 : 0 ≤ T := hT ▸ abs_nonneg _
  have hc0 : 0 ≤ c := hd0.trans hdc
  -- the product
  have p1 : |n / 3 * (1 + δ1) * v * (1 + δ2) - n / 3 * R| ≤ (c * u + 21 / 10 * u) * T := by
    have e : n / 3 * (1 + δ1) * v * (1 + δ2) - n / 3 * R = n / 3 * ((v - R) * ((1 + δ1) * (1 + δ2)) + R * (δ1 + δ2 + δ1 * δ2)) := by ring
    have q1 : |δ1 + δ2 + δ1 * δ2| ≤ 201 / 100 * u := by
      have a := abs_mul_le b1 b2
      have huu : u * u ≤ 1 / 16777216 * u := by gcongr
      have s1 := abs_add_le (δ1 + δ2) (δ1 * δ2)
      have s2 := abs_add_le δ1 δ2
      linarith
    have q2 : |(1 + δ1) * (1 + δ2)| ≤ 1 + 201 / 100 * u := by
      rw [show (1 + δ1) * (1 + δ2) = 1 + (δ1 + δ2 + δ1 * δ2) by ring]
      have := abs_add_le 1 (δ1 + δ2 + δ1 * δ2)
      rw [abs_one] at this
      linarith
    have q3 : |R * (δ1 + δ2 + δ1 * δ2)| ≤ R * (201 / 100 * u) := by rw [abs_mul, abs_of_nonneg hR]; gcongr
    have q4 := abs_mul_le hv q2
    have s := abs_add_le ((v - R) * ((1 + δ1) * (1 + δ2))) (R * (δ1 + δ2 + δ1 * δ2))
    have hcu : c * u * (201 / 100 * u) ≤ 1 / 50 * (201 / 100 * u) := by gcongr
    have hcuR := mul_le_mul_of_nonneg_right hcu hR
    have huR : 0 ≤ u * R := by positivity
    have s' : |(v - R) * ((1 + δ1) * (1 + δ2)) + R * (δ1 + δ2 + δ1 * δ2)| ≤ (c * u + 21 / 10 * u) * R := by nlinarith
    have hTe : T = |n / 3| * R := by rw [hT, abs_mul, abs_of_nonneg hR]
    rw [e, abs_mul, hTe]
    calc |n / 3| * _ ≤ |n / 3| * ((c * u + 21 / 10 * u) * R) := by gcongr
      _ = _ := by ring
  generalize n / 3 * (1 + δ1) * v * (1 + δ2) = t at *
  have h1 : |k + t - (k0 + n / 3 * R)| ≤ (c + 21 / 10) * u * (k0 + T) := by
    rw [show k + t - (k0 + n / 3 * R) = (k - k0) + (t - n / 3 * R) by ring]
    have s := abs_add_le (k - k0) (t - n / 3 * R)
    have : d * u * k0 ≤ (c + 21 / 10) * u * k0 := by gcongr; linarith
    have e : (c + 21 / 10) * u * (k0 + T) = (c + 21 / 10) * u * k0 + (c * u + 21 / 10 * u) * T := by ring
    linarith
  have h2 : |k0 + n / 3 * R| ≤ k0 + T := by
    have := abs_add_le k0 (n / 3 * R)
    rwa [abs_of_nonneg hk0, ← hT] at this
  have hs0 : 0 ≤ k0 + T := by linarith
  have hcu2 : (c + 21 / 10) * u ≤ 1 / 40 := by linarith
  have h3 : |k + t| ≤ 11 / 10 * (k0 + T) := by
    have := abs_sub_abs_le_abs_sub (k + t) (k0 + n / 3 * R)
    have := mul_le_mul_of_nonneg_right hcu2 hs0
    linarith
  have h4 := abs_mul_le h3 b3
  rw [show (k + t) * (1 + δ3) - (k0 + n / 3 * R) = (k + t - (k0 + n / 3 * R)) + (k + t) * δ3 by ring, ← hT]
  have s := abs_add_le (k + t - (k0 + n / 3 * R)) ((k + t) * δ3)
  have hus : 0 ≤ u * (k0 + T) := by positivity
  have e : (c + 4) * u * (k0 + T) = (c + 21 / 10) * u * (k0 + T) + 19 / 10 * (u * (k0 + T)) := by ring
  linarith

/-- **C141** (`ellippi`). `Π(n | m)` for `m < 1`, `n < 1`, `n ≠ 0`, provided the rounded `1 - n` differs from 1 and from the rounded `1 - m`: the result differs from
`Π(n | m)` by at most `κ (20 N + 29) + 81 N + 9869` units of roundoff of `K + |Π - K|`. -/
theorem C141_ellippi (hF : Format p q fl flq K) (hJ : FormatJ p q fl flq KJ) {n m s : ℝ} (hs : 0 < s) (hs1 : s ≤ 1) (hm : s ≤ 1 - m) (hn : n < 1)
    (hn0 : n ≠ 0) {κ N : ℕ} (hN : N ≤ 1000) (hr1 : fl (1 - n) ≠ 1) (hrm : fl (1 - n) ≠ fl (1 - m)) (k1 : 1 ≤ κ ^ 2 * fl (1 - n))
    (km : fl (1 - m) ≤ κ ^ 2 * fl (1 - n)) (hsmall : 100 * (κ * (18 * N + 26)) ≤ 2 ^ p) (hN4 : 11 * K * (2 - m) ≤ 4 ^ N * s)
    (hN4' : 16 * KJ * (3 - m - n) ≤ 4 ^ N * s) :
    ∃ v, ellippiF fl flq K KJ n m = .num v ∧ |v - legPi n (Real.pi / 2) m| ≤ (κ * (20 * N + 29) + 81 * N + 9869) * (2 ^ p)⁻¹ *
      (legF (Real.pi / 2) m + |legPi n (Real.pi / 2) m - legF (Real.pi / 2) m|) := by
  have hp1 : 1 ≤ p := by have := hF.bits; omega
  have hw := w_ge hF.bits
  have hu := unit24 hF.bits
  have hu0 : (0 : ℝ) < (2 ^ p)⁻¹ := by positivity
  have h1m : 0 < 1 - m := by linarith
  have h1n : 0 < 1 - n := by linarith
  have d1 := near_fl hF.near hp1 h1m.le
  have d0 := d1.pos hw h1m
  have r1 := near_fl hF.near hp1 h1n.le
  have r0 := r1.pos hw h1n
  have hwp := w_pow_le hF.bits (show 1 ≤ 10000 by omega)
  have hup : fl (1 - m) ≤ 101 / 100 * (1 - m) := d1.1.trans (by gcongr)
  have hup' : fl (1 - n) ≤ 101 / 100 * (1 - n) := r1.1.trans (by gcongr)
  have hlow : 100 / 101 * s ≤ fl (1 - m) := by
    have := d1.2.trans (mul_le_mul_of_nonneg_right hwp d0.le)
    linarith
  have hK := hJ.K_pos
  obtain ⟨k, hk, hbk⟩ := C119_ellipk hF hs hs1 hm hN hN4
  obtain ⟨v, hv, hb⟩ := rj_accurate hJ (s := 100 / 101 * s) (S := 3 - m - n) (by positivity) (x := 0) (y := fl (1 - m)) (z := 1) (r := fl (1 - n))
    (Or.inl ⟨le_rfl, hlow, by linarith⟩) r0 hN r0.ne' hrm hr1 (by positivity) km k1 hsmall (by linarith)
    (by nlinarith [mul_pos hK (show 0 < 3 - m - n by linarith)])
  refine ⟨fl (k + fl (fl (n / 3) * v)), by simp [ellippiF, hk, hn0, hv], ?_⟩
  have hA : Args 0 (1 - m) 1 := ⟨le_rfl, h1m.le, zero_le_one, by linarith, by linarith, by linarith⟩
  have hA' : Args 0 (fl (1 - m)) 1 := ⟨le_rfl, d0.le, zero_le_one, by linarith, by linarith, by linarith⟩
  have rr : ∀ t : ℝ, 0 ≤ t → Near (1 - ((2 : ℝ) ^ p)⁻¹)⁻¹ (2 * 1) t t := fun t ht => (Near.refl t).mono hw (by omega) ht ht
  have hRn := RJ_near (k := 1) hw hA' hA r0 h1n (rr 0 le_rfl) (d1.mono hw (by omega) d0.le h1m.le) (rr 1 zero_le_one) (r1.mono hw (by omega) r0.le h1n.le)
  have hR := RJ_pos hA h1n
  have hNr : (N : ℝ) ≤ 1000 := by exact_mod_cast hN
  have hN0 : (0 : ℝ) ≤ N := Nat.cast_nonneg N
  have hκ0 : (0 : ℝ) ≤ κ := Nat.cast_nonneg κ
  obtain ⟨c, hc⟩ : ∃ c : ℝ, c = κ * (20 * N + 29) + 81 * N + 9861 := ⟨_, rfl⟩
  rw [← hc] at hb
  have hκN : 0 ≤ (κ : ℝ) * N := by positivity
  have hc0 : 6 * (N : ℝ) + 16 ≤ c := by rw [hc]; nlinarith
  have hsm : (κ : ℝ) * (18 * N + 26) * (2 ^ p)⁻¹ ≤ 1 / 100 := by
    have h2 : (100 : ℝ) * (κ * (18 * N + 26)) ≤ 2 ^ p := by exact_mod_cast hsmall
    rw [← div_eq_mul_inv, div_le_iff₀ (by positivity)]
    linarith
  have hcu : c * (2 ^ p)⁻¹ ≤ 19 / 1000 := by
    have h2 : (81 * (N : ℝ) + 9861) * (2 ^ p)⁻¹ ≤ (81 * 1000 + 9861) * (1 / 16777216) := by gcongr
    have h3 : (κ : ℝ) * (20 * N + 29) ≤ 112 / 100 * (κ * (18 * N + 26)) := by nlinarith
    have h4 := mul_le_mul_of_nonneg_right h3 hu0.le
    rw [hc, show ((κ : ℝ) * (20 * N + 29) + 81 * N + 9861) * (2 ^ p)⁻¹ = κ * (20 * N + 29) * (2 ^ p)⁻¹ + (81 * N + 9861) * (2 ^ p)⁻¹ by ring]
    norm_num at h2
    linarith
  have e1 := perturbJ hu0.le (by linarith) (hcu.trans (by norm_num)) (by norm_num; linarith) (by linarith) hR.le hb hRn
  push_cast at e1
  have hkp : 0 ≤ legF (Real.pi / 2) m := by rw [(complete_eq (by linarith : m < 1)).1]; exact (RF_pos hA).le
  obtain ⟨δ1, b1, q1⟩ := hF.near.factor hp1 (n / 3)
  obtain ⟨δ2, b2, q2⟩ := hF.near.factor hp1 (fl (n / 3) * v)
  obtain ⟨δ3, b3, q3⟩ := hF.near.factor hp1 (k + fl (fl (n / 3) * v))
  have := pi_sum (n := n) hu hkp hR.le (show (c + 12 / 10 * 3) * (2 ^ p)⁻¹ ≤ 1 / 50 by linarith) (show 6 * (N : ℝ) + 16 ≤ _ by linarith) (by linarith) hbk e1
    b1 b2 b3
  rw [← q1, ← q2, ← q3] at this
  rw [pi_complete (by linarith) hn, add_sub_cancel_left]
  refine this.trans ?_
  gcongr ?_ * _ * _
  rw [hc]
  linarith

/-- **C141** (`ellippi` for `0 < n < 1`). Nothing cancels: the error is relative to the value. -/
theorem C141_ellippi_pos (hF : Format p q fl flq K) (hJ : FormatJ p q fl flq KJ) {n m s : ℝ} (hs : 0 < s) (hs1 : s ≤ 1) (hm : s ≤ 1 - m) (hn : n < 1)
    (hn0 : 0 < n) {κ N : ℕ} (hN : N ≤ 1000) (hr1 : fl (1 - n) ≠ 1) (hrm : fl (1 - n) ≠ fl (1 - m)) (k1 : 1 ≤ κ ^ 2 * fl (1 - n))
    (km : fl (1 - m) ≤ κ ^ 2 * fl (1 - n)) (hsmall : 100 * (κ * (18 * N + 26)) ≤ 2 ^ p) (hN4 : 11 * K * (2 - m) ≤ 4 ^ N * s)
    (hN4' : 16 * KJ * (3 - m - n) ≤ 4 ^ N * s) :
    ∃ v, ellippiF fl flq K KJ n m = .num v ∧
      |v - legPi n (Real.pi / 2) m| ≤ (κ * (20 * N + 29) + 81 * N + 9869) * (2 ^ p)⁻¹ * legPi n (Real.pi / 2) m := by
  obtain ⟨v, hv, hb⟩ := C141_ellippi hF hJ hs hs1 hm hn hn0.ne' hN hr1 hrm k1 km hsmall hN4 hN4'
  refine ⟨v, hv, ?_⟩
  have hA : Args 0 (1 - m) 1 := ⟨le_rfl, by linarith, zero_le_one, by linarith, by linarith, by linarith⟩
  have hR := RJ_pos hA (show 0 < 1 - n by linarith)
  have e : legF (Real.pi / 2) m + |legPi n (Real.pi / 2) m - legF (Real.pi / 2) m| = legPi n (Real.pi / 2) m := by
    rw [pi_complete (by linarith) hn, add_sub_cancel_left, abs_of_pos (by positivity)]
  rwa [e] at hb

/-- **C141** (`ellippi`, not a number). If the rounded `1 - n` is 1 or the rounded `1 - m`, the call answers NaN, although `n ≠ 0`. -/
theorem C141_ellippi_nan (hF : Format p q fl flq K) (hJ : FormatJ p q fl flq KJ) {n m s : ℝ} (hs : 0 < s) (hs1 : s ≤ 1) (hm : s ≤ 1 - m) (hn : n < 1)
    (hn0 : n ≠ 0) {N : ℕ} (hN : N ≤ 1000) (heq : fl (1 - n) = 1 ∨ fl (1 - n) = fl (1 - m)) (hN4 : 11 * K * (2 - m) ≤ 4 ^ N * s)
    (hN4' : 16 * KJ * (3 - m - n) ≤ 4 ^ N * s) : ellippiF fl flq K KJ n m = .nan := by
  have hp1 : 1 ≤ p := by have := hF.bits; omega
  have hw := w_ge hF.bits
  have h1m : 0 < 1 - m := by linarith
  have h1n : 0 < 1 - n := by linarith
  have d1 := near_fl hF.near hp1 h1m.le
  have d0 := d1.pos hw h1m
  have r1 := near_fl hF.near hp1 h1n.le
  have r0 := r1.pos hw h1n
  have hwp := w_pow_le hF.bits (show 1 ≤ 10000 by omega)
  have hup : fl (1 - m) ≤ 101 / 100 * (1 - m) := d1.1.trans (by gcongr)
  have hup' : fl (1 - n) ≤ 101 / 100 * (1 - n) := r1.1.trans (by gcongr)
  have hlow : 100 / 101 * s ≤ fl (1 - m) := by
    have := d1.2.trans (mul_le_mul_of_nonneg_right hwp d0.le)
    linarith
  have hK := hJ.K_pos
  obtain ⟨k, hk, -⟩ := C119_ellipk hF hs hs1 hm hN hN4
  have hh : fl (1 - n) = 0 ∨ fl (1 - n) = fl (1 - m) ∨ fl (1 - n) = 1 := by tauto
  have hj : elliprjF fl flq KJ 0 (fl (1 - m)) 1 (fl (1 - n)) = .nan := by
    refine rj_nan hJ (s := 100 / 101 * s) (S := 3 - m - n) (by positivity) (x := 0) (y := fl (1 - m)) (z := 1) (r := fl (1 - n))
      (Or.inl ⟨le_rfl, hlow, by linarith⟩) r0 hN hh (a := 0) (b := max (fl (1 - m)) 1) (by rw [mul_zero]; positivity) (Or.inl rfl) ?_
      (by positivity) (le_max_left _ _) (le_max_right _ _) ?_ (by linarith) (by nlinarith [mul_pos hK (show 0 < 3 - m - n by linarith)])
    · rcases max_choice (fl (1 - m)) 1 with e | e <;> rw [e] <;> simp
    · rcases heq with e | e <;> rw [e] <;> simp
  simp [ellippiF, hk, hn0, hj]

/-- **C141** (`ellippi(m, m)`). On the diagonal the call answers NaN, for every `m < 1`, `m ≠ 0`. -/
theorem C141_ellippi_diagonal (hF : Format p q fl flq K) (hJ : FormatJ p q fl flq KJ) {m s : ℝ} (hs : 0 < s) (hs1 : s ≤ 1) (hm : s ≤ 1 - m)
    (hm0 : m ≠ 0) {N : ℕ} (hN : N ≤ 1000) (hN4 : 11 * K * (2 - m) ≤ 4 ^ N * s) (hN4' : 16 * KJ * (3 - 2 * m) ≤ 4 ^ N * s) :
    ellippiF fl flq K KJ m m = .nan :=
  C141_ellippi_nan hF hJ hs hs1 hm (by linarith) hm0 hN (Or.inr rfl) hN4 (by rwa [show 3 - m - m = 3 - 2 * m by ring])

/-- Numbers of `p` bits other than 1 keep a distance from it. -/
theorem one_isolated {f : ℝ} (h : IsFl p f) (hne : f ≠ 1) (hp : 1 ≤ p) : (2 ^ p : ℝ)⁻¹ ≤ |f - 1| := by
  obtain ⟨a, e, ha, rfl⟩ := h
  have ha' : |(a : ℝ)| < 2 ^ p := by exact_mod_cast ha
  rcases le_or_gt (-(p : ℤ)) e with he | he
  · -- a multiple of `2^-p`
    obtain ⟨j, hj⟩ := Int.eq_ofNat_of_zero_le (show 0 ≤ e + p by omega)
    have e1 : (a : ℝ) * 2 ^ e - 1 = ((a * 2 ^ j - 2 ^ p : ℤ) : ℝ) * (2 ^ p : ℝ)⁻¹ := by
      have : e = (j : ℤ) - p := by omega
      rw [this, zpow_sub₀ two_ne_zero]
      push_cast
      rw [zpow_natCast, zpow_natCast]
      field_simp
    rw [e1, abs_mul, abs_of_pos (show (0 : ℝ) < (2 ^ p)⁻¹ by positivity)]
    have hz : (a * 2 ^ j - 2 ^ p : ℤ) ≠ 0 := fun h0 => by
      rw [h0] at e1
      simp at e1
      exact hne (by linarith)
    have : (1 : ℝ) ≤ |((a * 2 ^ j - 2 ^ p : ℤ) : ℝ)| := by exact_mod_cast Int.one_le_abs hz
    have hu : (0 : ℝ) < (2 ^ p)⁻¹ := by positivity
    nlinarith
  · -- at most one half
    have h1 : (2 : ℝ) ^ e ≤ 2 ^ (-(p : ℤ) - 1) := zpow_le_zpow_right₀ (by norm_num) (by omega)
    have h2 : (2 : ℝ) ^ (-(p : ℤ) - 1) = (2 ^ p : ℝ)⁻¹ / 2 := by
      rw [zpow_sub₀ two_ne_zero, zpow_neg, zpow_natCast, zpow_one]
    have h3 : |(a : ℝ) * 2 ^ e| ≤ 1 / 2 := by
      rw [abs_mul, abs_of_pos (show (0 : ℝ) < 2 ^ e by positivity)]
      calc |(a : ℝ)| * 2 ^ e ≤ 2 ^ p * ((2 ^ p : ℝ)⁻¹ / 2) := by gcongr; exact h1.trans h2.le
        _ = 1 / 2 := by field_simp
    have h4 : (2 ^ p : ℝ)⁻¹ ≤ 1 / 2 := by
      rw [one_div]
      exact inv_anti₀ (by norm_num) (by calc (2 : ℝ) = 2 ^ 1 := by norm_num
        _ ≤ 2 ^ p := pow_le_pow_right₀ (by norm_num) hp)
    have := (abs_le.mp h3).2
    have := neg_abs_le ((a : ℝ) * 2 ^ e - 1)
    linarith

theorem fl_one_sub (hf : Nearest p fl) (hp : 1 ≤ p) {n : ℝ} (hn : 2 * |n| < (2 ^ p)⁻¹) : fl (1 - n) = 1 := by
  by_contra hc
  have h1 := one_isolated (hf.mem _) hc hp
  have h2 := hf.near (1 - n) 1 (isFl_one hp)
  rw [show (1 : ℝ) - (1 - n) = n by ring] at h2
  have h3 := abs_add_le (fl (1 - n) - (1 - n)) (-n)
  rw [abs_neg, show fl (1 - n) - (1 - n) + -n = fl (1 - n) - 1 by ring] at h3
  linarith

/-- **C141** (`ellippi` for tiny `n`). For `0 < |n| < 2^-(p+1)` the call answers NaN although `Π(n | m)` is almost `K(m)`; at `n = 0` it answers `ellipk(m)`. -/
theorem C141_ellippi_tiny (hF : Format p q fl flq K) (hJ : FormatJ p q fl flq KJ) {n m s : ℝ} (hs : 0 < s) (hs1 : s ≤ 1) (hm : s ≤ 1 - m)
    (hn0 : n ≠ 0) (hn : 2 * |n| < (2 ^ p)⁻¹) {N : ℕ} (hN : N ≤ 1000) (hN4 : 11 * K * (2 - m) ≤ 4 ^ N * s)
    (hN4' : 16 * KJ * (4 - m) ≤ 4 ^ N * s) : ellippiF fl flq K KJ n m = .nan ∧ ∃ k, ellippiF fl flq K KJ 0 m = .num k ∧ ellipkF fl flq K m = .num k := by
  have hp1 : 1 ≤ p := by have := hF.bits; omega
  have hu := unit24 hF.bits
  have hn1 := (abs_le.mp (show |n| ≤ 1 / 2 by linarith))
  have hK := hJ.K_pos
  refine ⟨C141_ellippi_nan hF hJ hs hs1 hm (by linarith) hn0 hN (Or.inl (fl_one_sub hF.near hp1 hn)) hN4 (le_trans ?_ hN4'), ?_⟩
  · exact mul_le_mul_of_nonneg_left (by linarith) (by positivity)
  · obtain ⟨k, hk, -⟩ := C119_ellipk hF hs hs1 hm hN hN4
    exact ⟨k, by simp [ellippiF, hk], hk⟩

/-! ### The hypotheses are met -/

/-- Double precision with an exactly computed power. -/
theorem format_doubleJ : ∃ K : ℝ, K ≤ 170 ∧ FormatJ 53 53 (rnd 53) (rnd 53) K := by
  obtain ⟨ε, hε0, -, hε6, hεK, -⟩ := eps_toleranceJ (p := 53) (by norm_num)
  have hF : FormatJ 53 53 (rnd 53) (rnd 53) (1 / ε) := by
    refine ⟨nearest_rnd (by norm_num), by norm_num, nearest_rnd (by norm_num), le_rfl, ?_⟩
    rw [hεK, sub_self, abs_zero]
    positivity
  refine ⟨1 / ε, ?_, hF⟩
  rw [div_le_iff₀ hε0]
  by_contra hc
  have h1 : ε < 1 / 170 := by linarith
  have h2 : ε ^ 6 < (1 / 170) ^ 6 := by gcongr
  rw [hε6] at h2
  norm_num at h2

/-- `elliprj(1, 2, 3, 4)` in double precision: at most 7 steps. -/
example : ∃ K v, elliprjF (rnd 53) (rnd 53) K 1 2 3 4 = .num v ∧ |v - RJ 1 2 3 4| ≤ 10597 * (2 ^ 53)⁻¹ * RJ 1 2 3 4 := by
  obtain ⟨K, hK, hF⟩ := format_doubleJ
  obtain ⟨v, hv, hb⟩ := C141_elliprj hF (x := 1) (y := 2) (z := 3) (r := 4) (s := 2) (κ := 1) (by norm_num) (Or.inl ⟨by norm_num, by norm_num, by norm_num⟩)
    (by norm_num) (N := 7) (by norm_num) (by norm_num) (by norm_num) (by norm_num) (by norm_num) (by norm_num) (by norm_num) (by norm_num)
    (by norm_num; linarith)
  exact ⟨K, v, hv, by norm_num at hb ⊢; exact hb⟩

/-- `p` smaller than the other arguments: `κ = 10`. -/
example : ∃ K v, elliprjF (rnd 53) (rnd 53) K 0 2 3 (1 / 32) = .num v ∧ |v - RJ 0 2 3 (1 / 32)| ≤ 12200 * (2 ^ 53)⁻¹ * RJ 0 2 3 (1 / 32) := by
  obtain ⟨K, hK, hF⟩ := format_doubleJ
  obtain ⟨v, hv, hb⟩ := C141_elliprj hF (x := 0) (y := 2) (z := 3) (r := 1 / 32) (s := 2) (κ := 10) (by norm_num)
    (Or.inl ⟨by norm_num, by norm_num, by norm_num⟩) (by norm_num) (N := 7) (by norm_num) (by norm_num) (by norm_num) (by norm_num) (by norm_num)
    (by norm_num) (by norm_num) (by norm_num) (by norm_num; linarith)
  have hR : 0 < RJ 0 2 3 (1 / 32) := RJ_pos ⟨by norm_num, by norm_num, by norm_num, by norm_num, by norm_num, by norm_num⟩ (by norm_num)
  exact ⟨K, v, hv, hb.trans (by gcongr; norm_num)⟩

/-- `elliprj(1, 2, 3, 2)` is not a number. -/
example : ∃ K, elliprjF (rnd 53) (rnd 53) K 1 2 3 2 = .nan := by
  obtain ⟨K, hK, hF⟩ := format_doubleJ
  exact ⟨K, C141_elliprj_nan hF (s := 2) (by norm_num) (Or.inl ⟨by norm_num, by norm_num, by norm_num⟩) (by norm_num) (N := 7) (by norm_num)
    (by norm_num) (by norm_num) (by norm_num; linarith)⟩

/-- `ellippi(1/2, 1/4)`. -/
example : ∃ K KJ v, ellippiF (rnd 53) (rnd 53) K KJ (1 / 2) (1 / 4) = .num v ∧
    |v - legPi (1 / 2) (Real.pi / 2) (1 / 4)| ≤ 11016 * (2 ^ 53)⁻¹ * legPi (1 / 2) (Real.pi / 2) (1 / 4) := by
  obtain ⟨K, hK, hF⟩ := format_double
  obtain ⟨KJ, hKJ, hJ⟩ := format_doubleJ
  have e : ∀ {a b : ℝ}, IsFl 53 a → a = b → rnd 53 b = a := fun h e => e ▸ hF.near.self h
  have e1 : rnd 53 (1 - 1 / 2 : ℝ) = 1 / 2 := e ⟨1, -1, by norm_num, by norm_num⟩ (by norm_num)
  have e2 : rnd 53 (1 - 1 / 4 : ℝ) = 3 / 4 := e ⟨3, -2, by norm_num, by norm_num⟩ (by norm_num)
  obtain ⟨v, hv, hb⟩ := C141_ellippi_pos hF hJ (n := 1 / 2) (m := 1 / 4) (s := 3 / 4) (κ := 2) (N := 9) (by norm_num) (by norm_num) (by norm_num) (by norm_num)
    (by norm_num) (by norm_num) (by rw [e1]; norm_num) (by rw [e1, e2]; norm_num) (by rw [e1]; norm_num) (by rw [e1, e2]; norm_num) (by norm_num)
    (by norm_num; linarith) (by norm_num; linarith)
  have hP : 0 ≤ legPi (1 / 2) (Real.pi / 2) (1 / 4) := by
    rw [pi_complete (by norm_num) (by norm_num), (complete_eq (by norm_num)).1]
    have hA : Args 0 (1 - 1 / 4) 1 := ⟨by norm_num, by norm_num, by norm_num, by norm_num, by norm_num, by norm_num⟩
    have := RF_pos hA
    have := RJ_pos hA (show (0 : ℝ) < 1 - 1 / 2 by norm_num)
    positivity
  exact ⟨K, KJ, v, hv, hb.trans (by gcongr; norm_num)⟩

/-- `ellippi(1/2, 1/2)` and `ellippi(1e-20, 1/2)` are not numbers in double precision. -/
example : ∃ K KJ, ellippiF (rnd 53) (rnd 53) K KJ (1 / 2) (1 / 2) = .nan ∧ ellippiF (rnd 53) (rnd 53) K KJ (1 / 10 ^ 20) (1 / 2) = .nan := by
  obtain ⟨K, hK, hF⟩ := format_double
  obtain ⟨KJ, hKJ, hJ⟩ := format_doubleJ
  exact ⟨K, KJ, C141_ellippi_diagonal hF hJ (s := 1 / 2) (N := 9) (by norm_num) (by norm_num) (by norm_num) (by norm_num) (by norm_num)
    (by norm_num; linarith) (by norm_num; linarith),
    (C141_ellippi_tiny hF hJ (s := 1 / 2) (N := 9) (by norm_num) (by norm_num) (by norm_num) (by norm_num) (by rw [abs_of_pos (by norm_num)]; norm_num)
      (by norm_num) (by norm_num; linarith) (by norm_num; linarith)).1⟩

end Verif.Carlson.Flt

import Verif.Carlson.RoundDCore
import Verif.Carlson.RoundProps
import Verif.Carlson.AccuracyG

/-! # C126: rounding in elliprd, elliprg, ellipd and ellipe -/

namespace Verif.Carlson.Flt

open Verif.Round

variable {p q : ℕ} {fl flq : ℝ → ℝ} {K KD : ℝ}

/-- The number format of `elliprd`: as `Format`, but `K` is `(EPS / 4)^(-1/6)`, up to one per cent. -/
structure FormatD (p q : ℕ) (fl flq : ℝ → ℝ) (K : ℝ) : Prop where
  near : Nearest p fl
  bits : 24 ≤ p
  nearq : Nearest q flq
  bitsq : p ≤ q
  root : |K - (2 * (2 ^ p)⁻¹ * (1 / 1000000) * (1 / 4)) ^ (-(1 / 6) : ℝ)| ≤ 1 / 100 * K

theorem FormatD.root' (h : FormatD p q fl flq K) : |K - (EPS (2 * (2 ^ p)⁻¹) * (1 / 4)) ^ (-(1 / 6) : ℝ)| ≤ 1 / 100 * K := h.root

theorem FormatD.K_pos (h : FormatD p q fl flq K) : 0 < K := by
  obtain ⟨ε, hε0, -, -, hεK, -⟩ := eps_toleranceD h.bits
  have := h.root'
  rw [hεK] at this
  exact (K_bounds hε0 this).1

theorem TwoAbove.stepsD {s x y z S : ℝ} {N : ℕ} (hs : 0 < s) (h : TwoAbove s x y z) (hK : 0 < K) (hS : x + y + z ≤ 11 / 10 * S)
    (hN : 15 * K * S ≤ 4 ^ N * s) : 21 / 4 * K * (x + y + z) * RF x y z ^ 2 ≤ 4 ^ N := by
  have h1 := h.steps (K := 3 / 2 * K) (N := N) hs (by linarith) hS (by linarith)
  linarith

/-- Slightly more general than the claim: the bound on the number of steps may be off by a tenth. -/
theorem rd_accurate (hF : FormatD p q fl flq K) {x y z s S : ℝ} (hs : 0 < s) (h : TwoAbove s x y z) (hz : 0 < z) {N : ℕ} (hN : N ≤ 1000)
    (hS : x + y + z ≤ 11 / 10 * S) (hN4 : 15 * K * S ≤ 4 ^ N * s) :
    ∃ v, elliprdF fl flq K x y z = .num v ∧ |v - RD x y z| ≤ (17 * N + 22) * (2 ^ p)⁻¹ * RD x y z := by
  have hA := h.args hs
  unfold elliprdF
  rw [if_neg (by
    rintro (h0 | ⟨h0, h1⟩)
    · exact hz.ne' h0
    · have := hA.xy; rw [h0, h1, add_zero] at this; exact lt_irrefl _ this)]
  obtain ⟨v, hv, hb⟩ := core_accurateD hF.near hF.bits hF.nearq hF.bitsq hF.root' hA hz hN (h.stepsD hs hF.K_pos hS hN4)
  exact ⟨v, by rw [hv]; rfl, hb⟩

/-- **C126** (`elliprd`). For non-negative arguments, two of them at least `s > 0` and `z > 0`, the loop ends after at most `N` steps,
`4^N ≥ 15 K (x + y + z) / s`, and the result has a relative error of at most `17 N + 22` units of roundoff. -/
theorem C126_elliprd (hF : FormatD p q fl flq K) {x y z s : ℝ} (hs : 0 < s) (h : TwoAbove s x y z) (hz : 0 < z) {N : ℕ} (hN : N ≤ 1000)
    (hN4 : 15 * K * (x + y + z) ≤ 4 ^ N * s) :
    ∃ v, elliprdF fl flq K x y z = .num v ∧ |v - RD x y z| ≤ (17 * N + 22) * (2 ^ p)⁻¹ * RD x y z :=
  rd_accurate hF hs h hz hN (by have := isNonneg_args (h.args hs); linarith) hN4

/-- **C126** (`elliprd`). The code answers infinity exactly where the integral diverges. -/
theorem C126_elliprd_inf (fl flq : ℝ → ℝ) (K x y z : ℝ) : elliprdF fl flq K x y z = .inf ↔ z = 0 ∨ (x = 0 ∧ y = 0) := by
  unfold elliprdF
  constructor
  · intro h
    by_contra hc
    rw [if_neg hc] at h
    cases he : elliprdCoreF fl flq K x y z <;> rw [he] at h <;> exact Res.noConfusion h
  · intro h
    rw [if_pos h]

/-- A result that is good for perturbed arguments. -/
theorem perturb {v R R' c u : ℝ} {j : ℕ} (hu0 : 0 ≤ u) (hc : c * u ≤ 1 / 500) (hju : (j : ℝ) * u ≤ 1 / 11) (hu1 : u < 1) (hR : 0 ≤ R)
    (h : |v - R'| ≤ c * u * R') (hn : Near (1 - u)⁻¹ j R' R) : |v - R| ≤ (c + 12 / 10 * j) * u * R := by
  have e1 := Near.abs_le hu0 hju hu1 hR hn
  have hR' : R' ≤ R + 11 / 10 * (j * u) * R := by have := (abs_le.mp e1).2; linarith
  rcases lt_or_ge (c * u) 0 with hneg | hcu
  · have h0 : 0 ≤ R' := by
      have : 0 < ((1 - u)⁻¹ : ℝ) ^ j := pow_pos (inv_pos.mpr (by linarith)) j
      have h2 := hR.trans hn.2
      exact (mul_nonneg_iff_of_pos_left this).mp h2
    have hR0 : R' = 0 := by
      by_contra hne
      have : 0 < R' := lt_of_le_of_ne h0 (Ne.symm hne)
      have := mul_neg_of_neg_of_pos hneg this
      linarith [(abs_nonneg _).trans h]
    have : R = 0 := by
      have h2 := hn.2
      rw [hR0, mul_zero] at h2
      linarith
    rw [hR0, mul_zero, sub_zero] at h
    rw [this, mul_zero, sub_zero]
    exact h
  have s := abs_sub_le v R' R
  have t : c * u * R' ≤ c * u * (R + 11 / 10 * (j * u) * R) := by gcongr
  have hjuR : 0 ≤ (j : ℝ) * u * R := by positivity
  have t2 : c * u * (11 / 10 * (j * u) * R) ≤ 1 / 500 * (11 / 10 * (j * u) * R) := by gcongr
  have e : (c + 12 / 10 * (j : ℝ)) * u * R = c * u * R + 12 / 10 * (j * u * R) := by ring
  rw [e]
  have e2 : 11 / 10 * ((j : ℝ) * u) * R = 11 / 10 * (j * u * R) := by ring
  rw [e2] at t t2 e1
  linarith

/-- One more rounding. -/
theorem round_rel {v R c : ℝ} (hf : Nearest p fl) (hp : 24 ≤ p) (hR : 0 ≤ R) (hc0 : 0 ≤ c) (hc : c * (2 ^ p)⁻¹ ≤ 1 / 100)
    (h : |v - R| ≤ c * (2 ^ p)⁻¹ * R) : |fl v - R| ≤ (c + 11 / 10) * (2 ^ p)⁻¹ * R := by
  have hu0 : (0 : ℝ) < (2 ^ p)⁻¹ := by positivity
  obtain ⟨δ, hδ, e⟩ := hf.factor (by omega) v
  have h1 : |1 + δ - 1| ≤ (2 ^ p)⁻¹ * 1 := by rw [add_sub_cancel_left, mul_one]; exact hδ
  have h2 := rel_mul hR zero_le_one h h1
  rw [mul_one, ← e] at h2
  refine h2.trans ?_
  gcongr ?_ * _
  nlinarith

theorem bound17 {N : ℕ} {u b : ℝ} (hu0 : 0 ≤ u) (hu : u ≤ 1 / 16777216) (hN : N ≤ 1000) (hb0 : 0 ≤ b) (hb : b ≤ 100) : (17 * N + b) * u ≤ 1 / 500 := by
  have hNr : (N : ℝ) ≤ 1000 := by exact_mod_cast hN
  calc (17 * (N : ℝ) + b) * u ≤ (17 * 1000 + 100) * (1 / 16777216) := by gcongr
    _ ≤ _ := by norm_num

/-- **C126** (`ellipd`). `D(m)` for every parameter below 1: the relative error is at most `17 N + 28` units of roundoff,
`4^N ≥ 16 K (2 - m) / min(1, 1 - m)`. -/
theorem C126_ellipd (hF : FormatD p q fl flq K) {m s : ℝ} (hs : 0 < s) (hs1 : s ≤ 1) (hm : s ≤ 1 - m) {N : ℕ} (hN : N ≤ 1000)
    (hN4 : 16 * K * (2 - m) ≤ 4 ^ N * s) :
    ∃ v, ellipdF fl flq K m = .num v ∧ |v - legD (Real.pi / 2) m| ≤ (17 * N + 28) * (2 ^ p)⁻¹ * legD (Real.pi / 2) m := by
  have hp1 : 1 ≤ p := by have := hF.bits; omega
  have hw := w_ge hF.bits
  have hu := unit24 hF.bits
  have hu0 : (0 : ℝ) < (2 ^ p)⁻¹ := by positivity
  have h1m : 0 < 1 - m := by linarith
  have d1 := near_fl hF.near hp1 h1m.le
  have d0 := d1.pos hw h1m
  have hwp := w_pow_le hF.bits (show 1 ≤ 10000 by omega)
  have hup : fl (1 - m) ≤ 101 / 100 * (1 - m) := d1.1.trans (by gcongr)
  have hlow : 100 / 101 * s ≤ fl (1 - m) := by
    have := d1.2.trans (mul_le_mul_of_nonneg_right hwp d0.le)
    linarith
  have hK := hF.K_pos
  have h2m : 0 < 2 - m := by linarith
  obtain ⟨v, hv, hb⟩ := rd_accurate hF (s := 100 / 101 * s) (S := 2 - m) (by positivity) (x := 0) (y := fl (1 - m)) (z := 1)
    (Or.inl ⟨le_rfl, hlow, by linarith⟩) one_pos hN (by linarith) (by nlinarith [mul_pos hK h2m])
  unfold ellipdF
  rw [hv, (complete_eq (by linarith : m < 1)).2.1]
  refine ⟨_, rfl, ?_⟩
  have hA : Args 0 (1 - m) 1 := ⟨le_rfl, h1m.le, zero_le_one, by linarith, by linarith, by linarith⟩
  have hA' : Args 0 (fl (1 - m)) 1 := ⟨le_rfl, d0.le, zero_le_one, by linarith, by linarith, by linarith⟩
  have r : ∀ t : ℝ, 0 ≤ t → Near (1 - ((2 : ℝ) ^ p)⁻¹)⁻¹ (2 * 1) t t := fun t ht => (Near.refl t).mono hw (by omega) ht ht
  have hRn := RD_near (k := 1) hw hA' hA one_pos one_pos (r 0 le_rfl) (d1.mono hw (by omega) d0.le h1m.le) (r 1 zero_le_one)
  have hR := RD_pos hA one_pos
  have e1 := perturb hu0.le (bound17 hu0.le hu hN (by norm_num) (by norm_num)) (by norm_num; linarith) (by linarith) hR.le hb hRn
  have e2 : |v / 3 - RD 0 (1 - m) 1 / 3| ≤ (17 * N + 22 + 12 / 10 * (3 * 1 : ℕ)) * (2 ^ p)⁻¹ * (RD 0 (1 - m) 1 / 3) := by
    rw [← sub_div, abs_div, abs_of_pos (by norm_num : (0 : ℝ) < 3)]
    linarith
  have hN0 : (0 : ℝ) ≤ N := Nat.cast_nonneg N
  have e3 := round_rel hF.near hF.bits (by positivity) (by positivity) (by
    have := bound17 (b := 22 + 12 / 10 * (3 * 1 : ℕ)) hu0.le hu hN (by norm_num) (by norm_num)
    rw [← add_assoc] at this
    linarith) e2
  refine e3.trans ?_
  gcongr ?_ * _ * _
  push_cast
  linarith

/-! ### `elliprg` -/

theorem rel_abs {a A α : ℝ} (h : |a - A| ≤ α * |A|) : |a| ≤ (1 + α) * |A| := by
  have := abs_sub_abs_le_abs_sub a A
  linarith

/-- Products of relative errors, any signs. -/
theorem rel_mul' {a A b B α β : ℝ} (ha : |a - A| ≤ α * |A|) (hb : |b - B| ≤ β * |B|) : |a * b - A * B| ≤ (α + β + α * β) * |A * B| := by
  have e : a * b - A * B = A * (b - B) + B * (a - A) + (a - A) * (b - B) := by ring
  have t1 : |A * (b - B)| ≤ |A| * (β * |B|) := by rw [abs_mul]; gcongr
  have t2 : |B * (a - A)| ≤ |B| * (α * |A|) := by rw [abs_mul]; gcongr
  have t3 := abs_mul_le ha hb
  rw [e, abs_mul A B]
  have s1 := abs_add_le (A * (b - B) + B * (a - A)) ((a - A) * (b - B))
  have s2 := abs_add_le (A * (b - B)) (B * (a - A))
  have e2 : (α + β + α * β) * (|A| * |B|) = |A| * (β * |B|) + |B| * (α * |A|) + α * |A| * (β * |B|) := by ring
  linarith

theorem fl_rel (hf : Nearest p fl) (hp : 24 ≤ p) {a A c : ℝ} (hc0 : 0 ≤ c) (hc : c * (2 ^ p)⁻¹ ≤ 1 / 100) (h : |a - A| ≤ c * (2 ^ p)⁻¹ * |A|) :
    |fl a - A| ≤ (c + 102 / 100) * (2 ^ p)⁻¹ * |A| := by
  obtain ⟨δ, hδ, e⟩ := hf.factor (by omega) a
  have h1 : |1 + δ - 1| ≤ (2 ^ p)⁻¹ * |(1 : ℝ)| := by rw [add_sub_cancel_left, abs_one, mul_one]; exact hδ
  have h2 := rel_mul' h h1
  rw [mul_one, ← e] at h2
  refine h2.trans ?_
  gcongr ?_ * _
  have : (0 : ℝ) < (2 ^ p)⁻¹ := by positivity
  nlinarith

/-- Adding up three terms with relative errors. -/
theorem sum3 {t1 t2 t3 T1 T2 T3 B2 u κ δ1 δ2 δ3 : ℝ} (hT1 : 0 ≤ T1) (hT2 : |T2| ≤ B2) (hT3 : 0 ≤ T3) (g1 : |t1 - T1| ≤ κ * T1) (g2 : |t2 - T2| ≤ κ * B2)
    (g3 : |t3 - T3| ≤ κ * T3) (q1 : |δ1| ≤ u) (q2 : |δ2| ≤ u) (q3 : |δ3| ≤ u) (hκ0 : 0 ≤ κ) (hκ : κ ≤ 1 / 500) (hu : u ≤ 1 / 16777216) :
    |((t1 - t2) * (1 + δ1) + t3) * (1 + δ2) / 2 * (1 + δ3) - (T1 - T2 + T3) / 2| ≤ (κ + 302 / 100 * u) * ((T1 + B2 + T3) / 2) := by
  have hu0 : 0 ≤ u := (abs_nonneg _).trans q1
  have hB : 0 ≤ B2 := (abs_nonneg _).trans hT2
  obtain ⟨S, hS⟩ : ∃ S, S = T1 + B2 + T3 := ⟨_, rfl⟩
  have hS0 : 0 ≤ S := by rw [hS]; positivity
  have huS : 0 ≤ u * S := by positivity
  obtain ⟨a1, b1⟩ := abs_le.mp g1
  obtain ⟨a2, b2⟩ := abs_le.mp g2
  obtain ⟨a3, b3⟩ := abs_le.mp g3
  obtain ⟨a4, b4⟩ := abs_le.mp hT2
  have k1 : |t1 - t2| ≤ (1 + κ) * (T1 + B2) := by rw [abs_le]; constructor <;> linarith
  have k2 : |(t1 - t2) * δ1| ≤ 1003 / 1000 * (u * S) := by
    refine (abs_mul_le k1 q1).trans ?_
    calc (1 + κ) * (T1 + B2) * u ≤ (1 + 1 / 500) * S * u := by
          have : T1 + B2 ≤ S := by linarith
          gcongr
      _ = (1 + 1 / 500) * (u * S) := by ring
      _ ≤ _ := by gcongr; norm_num
  obtain ⟨a5, b5⟩ := abs_le.mp k2
  have hκS : κ * S ≤ 1 / 500 * S := by gcongr
  have huS1 : u * S ≤ 1 / 16777216 * S := by gcongr
  have e1 : (t1 - t2) * (1 + δ1) = t1 - t2 + (t1 - t2) * δ1 := by ring
  have eS : κ * S = κ * T1 + κ * B2 + κ * T3 := by rw [hS]; ring
  have k3 : |(t1 - t2) * (1 + δ1) + t3 - (T1 - T2 + T3)| ≤ κ * S + 1003 / 1000 * (u * S) := by
    rw [e1, abs_le]
    constructor <;> linarith
  generalize (t1 - t2) * (1 + δ1) + t3 = V at *
  obtain ⟨a6, b6⟩ := abs_le.mp k3
  have k5 : |V| ≤ 1003 / 1000 * S := by rw [abs_le]; constructor <;> linarith
  have k6 := abs_mul_le k5 q2
  obtain ⟨a7, b7⟩ := abs_le.mp k6
  have e6 : 1003 / 1000 * S * u = 1003 / 1000 * (u * S) := by ring
  rw [e6] at a7 b7
  have k7 : |V * (1 + δ2) - (T1 - T2 + T3)| ≤ κ * S + 201 / 100 * (u * S) := by
    rw [mul_add, mul_one, abs_le]
    constructor <;> linarith
  generalize V * (1 + δ2) = W at *
  obtain ⟨a8, b8⟩ := abs_le.mp k7
  have k8 : |W| ≤ 1004 / 1000 * S := by rw [abs_le]; constructor <;> linarith
  have k9 := abs_mul_le k8 q3
  obtain ⟨a9, b9⟩ := abs_le.mp k9
  have e9 : 1004 / 1000 * S * u = 1004 / 1000 * (u * S) := by ring
  rw [e9] at a9 b9
  rw [← hS, show W / 2 * (1 + δ3) = (W + W * δ3) / 2 by ring, show (κ + 302 / 100 * u) * (S / 2) = (κ * S + 302 / 100 * (u * S)) / 2 by ring, abs_le]
  constructor <;> linarith

/-- The sum of elliprg.h:25-27. -/
theorem gSum_accurate (hf : Nearest p fl) (hp : 24 ≤ p) {x y z rf rd F D : ℝ} {N : ℕ} (hN : N ≤ 1000) (hz : 0 < z) (hF : 0 ≤ F)
    (hD : 0 ≤ D) (h1 : |rf - F| ≤ (6 * N + 14) * (2 ^ p)⁻¹ * F) (h2 : |rd - D| ≤ (17 * N + 22) * (2 ^ p)⁻¹ * D) :
    |gSumF fl x y z rf rd - (z * F - (x - z) * (y - z) * D / 3 + √x * √y / √z) / 2| ≤
      (17 * N + 31) * (2 ^ p)⁻¹ * ((z * F + |(x - z) * (y - z)| * D / 3 + √x * √y / √z) / 2) := by
  have hu := unit24 hp
  have hu0 : (0 : ℝ) < (2 ^ p)⁻¹ := by positivity
  have hp1 : 1 ≤ p := by omega
  have hw := w_ge hp
  have hN0 : (0 : ℝ) ≤ N := Nat.cast_nonneg N
  have hb : ∀ b : ℝ, 0 ≤ b → b ≤ 100 → (17 * N + b) * (2 ^ p)⁻¹ ≤ 1 / 100 := fun b h0 h1 => (bound17 hu0.le hu hN h0 h1).trans (by norm_num)
  have hr : ∀ a : ℝ, |a - a| ≤ 0 * (2 ^ p)⁻¹ * |a| := fun a => by simp
  -- first term
  have a1 : |z * rf - z * F| ≤ (17 * N + 22) * (2 ^ p)⁻¹ * |z * F| := by
    rw [← mul_sub, abs_mul, abs_of_pos hz, abs_of_nonneg (show 0 ≤ z * F by positivity)]
    have : (6 * (N : ℝ) + 14) * (2 ^ p)⁻¹ * F ≤ (17 * N + 22) * (2 ^ p)⁻¹ * F := by gcongr <;> linarith
    calc z * |rf - F| ≤ z * ((17 * N + 22) * (2 ^ p)⁻¹ * F) := by gcongr; exact h1.trans this
      _ = _ := by ring
  have a2 := fl_rel hf hp (by positivity) (hb 22 (by norm_num) (by norm_num)) a1
  -- second term
  have b1 := fl_rel hf hp le_rfl (by norm_num) (hr (x - z))
  have b2 := fl_rel hf hp le_rfl (by norm_num) (hr (y - z))
  have b3 : |fl (x - z) * fl (y - z) - (x - z) * (y - z)| ≤ 206 / 100 * (2 ^ p)⁻¹ * |(x - z) * (y - z)| := by
    refine (rel_mul' b1 b2).trans ?_
    gcongr ?_ * _
    nlinarith
  have b4 := fl_rel hf hp (by norm_num) (by linarith) b3
  have b5 : |fl (fl (x - z) * fl (y - z)) * rd - (x - z) * (y - z) * D| ≤ (17 * N + 22 + 310 / 100) * (2 ^ p)⁻¹ * |(x - z) * (y - z) * D| := by
    refine (rel_mul' b4 (by rwa [abs_of_nonneg hD])).trans ?_
    gcongr ?_ * _
    have := bound17 (b := 22) hu0.le hu hN (by norm_num) (by norm_num)
    nlinarith
  have b6 := fl_rel hf hp (by positivity) (by rw [add_assoc]; exact hb _ (by norm_num) (by norm_num)) b5
  have b7 : |fl (fl (fl (x - z) * fl (y - z)) * rd) / 3 - (x - z) * (y - z) * D / 3| ≤
      (17 * N + 22 + 310 / 100 + 102 / 100) * (2 ^ p)⁻¹ * |(x - z) * (y - z) * D / 3| := by
    rw [← sub_div, abs_div, abs_div, abs_of_pos (by norm_num : (0 : ℝ) < 3)]
    linarith
  have b8 := fl_rel hf hp (by positivity) (by rw [add_assoc, add_assoc]; exact hb _ (by norm_num) (by norm_num)) b7
  -- third term
  have hsz : 0 < √z := Real.sqrt_pos.mpr hz
  have c1 := near_fl hf hp1 (Real.sqrt_nonneg x)
  have c2 := near_fl hf hp1 (Real.sqrt_nonneg y)
  have c2p := fl_nonneg hf hp1 (Real.sqrt_nonneg y)
  have c1p := fl_nonneg hf hp1 (Real.sqrt_nonneg x)
  have c3 := near_fl hf hp1 hsz.le
  have c3p := c3.pos hw hsz
  have c4 := (near_fl hf hp1 (mul_nonneg c1p c2p)).trans hw (c1.mul hw c2 (Real.sqrt_nonneg x) c2p)
  have c4p := fl_nonneg hf hp1 (mul_nonneg c1p c2p)
  have c5 := c4.mul hw (c3.inv c3p hsz) (mul_nonneg (Real.sqrt_nonneg x) (Real.sqrt_nonneg y)) (by positivity)
  rw [← div_eq_mul_inv, ← div_eq_mul_inv] at c5
  have c6 := (near_fl hf hp1 (show 0 ≤ fl (fl √x * fl √y) / fl √z by positivity)).trans hw c5
  have hT3 : 0 ≤ √x * √y / √z := by positivity
  have c7 := Near.abs_le hu0.le (by norm_num; linarith) (by linarith) hT3 c6
  -- the sum
  unfold gSumF
  generalize fl (z * rf) = t1 at *
  generalize fl (fl (fl (fl (x - z) * fl (y - z)) * rd) / 3) = t2 at *
  generalize fl (fl (fl √x * fl √y) / fl √z) = t3 at *
  have e2 : |(x - z) * (y - z) * D / 3| = |(x - z) * (y - z)| * D / 3 := by
    rw [abs_div, abs_mul, abs_of_nonneg hD, abs_of_pos (by norm_num : (0 : ℝ) < 3)]
  rw [abs_of_nonneg (show 0 ≤ z * F by positivity)] at a2
  have hT1 : 0 ≤ z * F := by positivity
  have hT2 : |(x - z) * (y - z) * D / 3| ≤ |(x - z) * (y - z)| * D / 3 := e2.le
  have hT2' : 0 ≤ |(x - z) * (y - z)| * D / 3 := by positivity
  rw [e2] at b8
  generalize √x * √y / √z = T3 at *
  generalize (x - z) * (y - z) * D / 3 = T2 at *
  generalize |(x - z) * (y - z)| * D / 3 = B2 at *
  generalize z * F = T1 at *
  obtain ⟨δ1, q1, e1⟩ := hf.factor hp1 (t1 - t2)
  obtain ⟨δ2, q2, e2'⟩ := hf.factor hp1 (fl (t1 - t2) + t3)
  obtain ⟨δ3, q3, e3⟩ := hf.factor hp1 (fl (fl (t1 - t2) + t3) / 2)
  have hκ := bound17 (b := 27 + 1 / 4) hu0.le hu hN (by norm_num) (by norm_num)
  push_cast at c7
  generalize ((2 : ℝ) ^ p)⁻¹ = u at *
  obtain ⟨κ, hκd⟩ : ∃ κ, κ = (17 * (N : ℝ) + (27 + 1 / 4)) * u := ⟨_, rfl⟩
  rw [← hκd] at hκ
  have hκ0 : 0 ≤ κ := by rw [hκd]; positivity
  have g1 : |t1 - T1| ≤ κ * T1 := a2.trans (by
    rw [hκd]; gcongr ?_ * _ * _; linarith)
  have g2 : |t2 - T2| ≤ κ * B2 := b8.trans (by
    rw [hκd]; gcongr ?_ * _ * _; linarith)
  have g3 : |t3 - T3| ≤ κ * T3 := c7.trans (by
    gcongr
    rw [hκd]
    nlinarith)
  have hf9 := sum3 hT1 hT2 hT3 g1 g2 g3 q1 q2 q3 hκ0 hκ hu
  rw [← e1, ← e2', ← e3] at hf9
  refine hf9.trans ?_
  gcongr ?_ * _
  rw [hκd]
  linarith [show (17 * (N : ℝ) + 31) * u = (17 * N + (27 + 1 / 4)) * u + (31 - (27 + 1 / 4)) * u by ring]

theorem TwoAbove.perm13 {s x y z : ℝ} (h : TwoAbove s x y z) : TwoAbove s z y x := by
  rcases h with ⟨a, b, c⟩ | ⟨a, b, c⟩ | ⟨a, b, c⟩
  · exact Or.inr (Or.inr ⟨a, c, b⟩)
  · exact Or.inr (Or.inl ⟨a, c, b⟩)
  · exact Or.inl ⟨a, c, b⟩

theorem rg_accurate (hF : Format p q fl flq K) (hD : FormatD p q fl flq KD) {x y z s S : ℝ} (hs : 0 < s) (h : TwoAbove s x y z) (hz : 0 < z) {N : ℕ}
    (hN : N ≤ 1000) (hS : x + y + z ≤ 11 / 10 * S) (hN4 : 10 * K * S ≤ 4 ^ N * s) (hN4' : 15 * KD * S ≤ 4 ^ N * s) :
    ∃ v, elliprgMainF fl flq K KD x y z = .num v ∧ |v - RG x y z| ≤
      (17 * N + 31) * (2 ^ p)⁻¹ * ((z * RF x y z + |(x - z) * (y - z)| * RD x y z / 3 + √x * √y / √z) / 2) := by
  have hA := h.args hs
  obtain ⟨rf, hrf, hbf⟩ := rf_accurate hF hs h hN hS hN4
  obtain ⟨rd, hrd, hbd⟩ := rd_accurate hD hs h hz hN hS hN4'
  refine ⟨gSumF fl x y z rf rd, by rw [elliprgMainF, hrf, hrd]; rfl, ?_⟩
  have := gSum_accurate (x := x) (y := y) hF.near hF.bits hN hz (RF_pos hA).le (RD_pos hA hz).le hbf hbd
  rwa [← RG_formula hA hz, mul_div_assoc, mul_comm 2, div_mul_cancel₀ _ (two_ne_zero)] at this

/-- **C126** (`elliprg`). For non-negative arguments, two of them at least `s > 0` and `z > 0`, the call ends, and its result differs from `R_G` by at most
`17 N + 31` units of roundoff of the sum of the absolute values of the three terms that are added; `4^N ≥ 10 K (x+y+z)/s`, `4^N ≥ 15 K' (x+y+z)/s`. -/
theorem C126_elliprg (hF : Format p q fl flq K) (hD : FormatD p q fl flq KD) {x y z s : ℝ} (hs : 0 < s) (h : TwoAbove s x y z) (hz : 0 < z) {N : ℕ}
    (hN : N ≤ 1000) (hN4 : 10 * K * (x + y + z) ≤ 4 ^ N * s) (hN4' : 15 * KD * (x + y + z) ≤ 4 ^ N * s) :
    ∃ v, elliprgF fl flq K KD x y z = .num v ∧ |v - RG x y z| ≤
      (17 * N + 31) * (2 ^ p)⁻¹ * ((z * RF x y z + |(x - z) * (y - z)| * RD x y z / 3 + √x * √y / √z) / 2) := by
  have hA := h.args hs
  obtain ⟨v, hv, hb⟩ := rg_accurate hF hD hs h hz hN (by have := isNonneg_args hA; linarith) hN4 hN4'
  refine ⟨v, ?_, hb⟩
  have hz' := hz.ne'
  have hxy : ¬(x = 0 ∧ y = 0) := by
    rintro ⟨h0, h1⟩
    have := hA.xy
    rw [h0, h1, add_zero] at this
    exact lt_irrefl _ this
  unfold elliprgF
  rw [if_neg (by tauto), if_neg (by tauto), if_neg (by tauto), if_neg hxy, if_neg hz', hv]

/-- **C126** (`elliprg` with `z = 0`). The arguments are exchanged first. -/
theorem C126_elliprg_zero (hF : Format p q fl flq K) (hD : FormatD p q fl flq KD) {x y s : ℝ} (hs : 0 < s) (hx : s ≤ x) (hy : s ≤ y) {N : ℕ}
    (hN : N ≤ 1000) (hN4 : 10 * K * (x + y) ≤ 4 ^ N * s) (hN4' : 15 * KD * (x + y) ≤ 4 ^ N * s) :
    ∃ v, elliprgF fl flq K KD x y 0 = .num v ∧ |v - RG x y 0| ≤
      (17 * N + 31) * (2 ^ p)⁻¹ * ((x * RF x y 0 + x * |y - x| * RD 0 y x / 3) / 2) := by
  have h : TwoAbove s 0 y x := Or.inl ⟨le_rfl, hy, hx⟩
  obtain ⟨v, hv, hb⟩ := rg_accurate hF hD hs h (by linarith) hN (show 0 + y + x ≤ 11 / 10 * (x + y) by linarith) hN4 hN4'
  refine ⟨v, ?_, ?_⟩
  · have hx' : x ≠ 0 := by linarith
    have hy' : y ≠ 0 := by linarith
    unfold elliprgF
    rw [if_neg (by tauto), if_neg (by tauto), if_neg (by tauto), if_neg (by tauto), if_pos rfl, hv]
  · have eF : RF 0 y x = RF x y 0 := by rw [RF_swap12, RF_swap23, RF_swap12]
    have ea : |(0 - x) * (y - x)| = x * |y - x| := by rw [zero_sub, abs_mul, abs_neg, abs_of_pos (by linarith)]
    rw [RG_swap13 x y 0, eF, ea, Real.sqrt_zero, zero_mul, zero_div, add_zero] at hb
    exact hb

/-- **C126** (`elliprg`, no cancellation). If the third argument lies between the other two, the relative error is at most `17 N + 31` units of roundoff. -/
theorem C126_elliprg_relative (hF : Format p q fl flq K) (hD : FormatD p q fl flq KD) {x y z s : ℝ} (hs : 0 < s) (h : TwoAbove s x y z)
    (hz : 0 < z) (hxz : (x ≤ z ∧ z ≤ y) ∨ (y ≤ z ∧ z ≤ x)) {N : ℕ} (hN : N ≤ 1000) (hN4 : 10 * K * (x + y + z) ≤ 4 ^ N * s)
    (hN4' : 15 * KD * (x + y + z) ≤ 4 ^ N * s) :
    ∃ v, elliprgF fl flq K KD x y z = .num v ∧ |v - RG x y z| ≤ (17 * N + 31) * (2 ^ p)⁻¹ * RG x y z := by
  obtain ⟨v, hv, hb⟩ := C126_elliprg hF hD hs h hz hN hN4 hN4'
  refine ⟨v, hv, ?_⟩
  have hn : (x - z) * (y - z) ≤ 0 := by
    rcases hxz with ⟨a, b⟩ | ⟨a, b⟩
    · exact mul_nonpos_of_nonpos_of_nonneg (by linarith) (by linarith)
    · exact mul_nonpos_of_nonneg_of_nonpos (by linarith) (by linarith)
  have e : (z * RF x y z + |(x - z) * (y - z)| * RD x y z / 3 + √x * √y / √z) / 2 = RG x y z := by
    rw [abs_of_nonpos hn]
    have := RG_formula (h.args hs) hz
    linarith
  rwa [e] at hb

/-! ### `ellipe` -/

/-- `E` is increasing in `1 - m`, and so is `E` divided by its square root. -/
theorem legE_near {w : ℝ} (hw : 1 ≤ w) {m m' : ℝ} (hm : m ≤ 1) (hm' : m' ≤ 1) (h : Near w 2 (1 - m') (1 - m)) :
    Near w 1 (legE (Real.pi / 2) m') (legE (Real.pi / 2) m) := by
  have key : ∀ {a b : ℝ}, a ≤ 1 → b ≤ 1 → 1 - a ≤ w ^ 2 * (1 - b) → legE (Real.pi / 2) a ≤ w * legE (Real.pi / 2) b := by
    intro a b ha hb hab
    unfold legE
    rw [← intervalIntegral.integral_const_mul]
    have hc : ∀ c : ℝ, Continuous fun θ : ℝ => √(1 - c * Real.sin θ ^ 2) := fun c => by fun_prop
    apply intervalIntegral.integral_mono_on (by positivity) ((hc a).intervalIntegrable _ _) (((hc b).const_mul w).intervalIntegrable _ _)
    intro θ _
    have hw0 : 0 ≤ w := by linarith
    rw [show w * √(1 - b * Real.sin θ ^ 2) = √(w ^ 2 * (1 - b * Real.sin θ ^ 2)) by
      rw [Real.sqrt_mul (by positivity), Real.sqrt_sq hw0]]
    apply Real.sqrt_le_sqrt
    have h1 := Real.sin_sq_add_cos_sq θ
    have h2 : (1 - a) * Real.sin θ ^ 2 ≤ w ^ 2 * (1 - b) * Real.sin θ ^ 2 := by gcongr
    have h3 : Real.cos θ ^ 2 ≤ w ^ 2 * Real.cos θ ^ 2 := by
      have : 1 ≤ w ^ 2 := one_le_pow₀ hw
      have := sq_nonneg (Real.cos θ)
      nlinarith
    nlinarith
  exact ⟨by rw [pow_one]; exact key hm' hm h.1, by rw [pow_one]; exact key hm hm' h.2⟩

/-- Rounding does not cross 1. -/
theorem fl_ge_one (hf : Nearest p fl) (hp : 1 ≤ p) {a : ℝ} (h : 1 ≤ a) : 1 ≤ fl a := by
  have := hf.near a 1 (isFl_one hp)
  rw [abs_of_nonpos (show 1 - a ≤ 0 by linarith)] at this
  linarith [(abs_le.mp this).1]

theorem fl_le_one (hf : Nearest p fl) (hp : 1 ≤ p) {a : ℝ} (h : a ≤ 1) : fl a ≤ 1 := by
  have := hf.near a 1 (isFl_one hp)
  rw [abs_of_nonneg (show 0 ≤ 1 - a by linarith)] at this
  linarith [(abs_le.mp this).2]

/-- `ellipe` before the subtraction `1 - m` is taken into account: `m'` is the parameter for which `1 - m'` is the rounded `1 - m`. -/
theorem ellipe_perturbed (hF : Format p q fl flq K) (hD : FormatD p q fl flq KD) {m s : ℝ} (hs : 0 < s) (hs1 : s ≤ 1) (hm : s ≤ 1 - m) {N : ℕ}
    (hN : N ≤ 1000) (hN4 : 11 * K * (2 - m) ≤ 4 ^ N * s) (hN4' : 16 * KD * (2 - m) ≤ 4 ^ N * s) :
    ∃ m', 1 - m' = fl (1 - m) ∧ m' < 1 ∧ ∃ v, ellipeF fl flq K KD m = .num (fl (2 * v)) ∧
      |2 * v - legE (Real.pi / 2) m'| ≤ (17 * N + 31) * (2 ^ p)⁻¹ * (legF (Real.pi / 2) m' + |m'| * legD (Real.pi / 2) m') := by
  have hp1 : 1 ≤ p := by have := hF.bits; omega
  have hw := w_ge hF.bits
  have h1m : 0 < 1 - m := by linarith
  have d1 := near_fl hF.near hp1 h1m.le
  have d0 := d1.pos hw h1m
  have hwp := w_pow_le hF.bits (show 1 ≤ 10000 by omega)
  have hup : fl (1 - m) ≤ 101 / 100 * (1 - m) := d1.1.trans (by gcongr)
  have hlow : 100 / 101 * s ≤ fl (1 - m) := by
    have := d1.2.trans (mul_le_mul_of_nonneg_right hwp d0.le)
    linarith
  have hK := hF.K_pos
  have hKD := hD.K_pos
  have h2m : 0 < 2 - m := by linarith
  obtain ⟨v, hv, hb⟩ := rg_accurate hF hD (s := 100 / 101 * s) (S := 2 - m) (by positivity) (x := 0) (y := fl (1 - m)) (z := 1)
    (Or.inl ⟨le_rfl, hlow, by linarith⟩) one_pos hN (by linarith) (by nlinarith [mul_pos hK h2m]) (by nlinarith [mul_pos hKD h2m])
  have hm'1 : 1 - fl (1 - m) < 1 := by linarith
  have e1 : 1 - (1 - fl (1 - m)) = fl (1 - m) := by ring
  refine ⟨1 - fl (1 - m), e1, hm'1, v, ?_, ?_⟩
  · have hy := d0.ne'
    unfold ellipeF elliprgF
    rw [if_neg (by simp), if_neg (by simp), if_neg (by simp), if_neg (by tauto), if_neg one_ne_zero, hv]
    rfl
  · obtain ⟨eK, eD, eE⟩ := complete_eq hm'1
    rw [eK, eD, eE, e1]
    rw [one_mul, Real.sqrt_zero, zero_mul, zero_div, add_zero, show (0 - 1 : ℝ) * (fl (1 - m) - 1) = 1 - fl (1 - m) by ring] at hb
    rw [← mul_sub, abs_mul, abs_of_pos (two_pos : (0 : ℝ) < 2)]
    have e2 : RF 0 (fl (1 - m)) 1 + |1 - fl (1 - m)| * (RD 0 (fl (1 - m)) 1 / 3) =
      2 * ((RF 0 (fl (1 - m)) 1 + |1 - fl (1 - m)| * RD 0 (fl (1 - m)) 1 / 3) / 2) := by ring
    rw [e2]
    linarith

/-- **C126** (`ellipe`, non-positive parameter). Relative error at most `17 N + 34` units of roundoff, `4^N ≥ 11 K (2 - m)`, `4^N ≥ 16 K' (2 - m)`. -/
theorem C126_ellipe_neg (hF : Format p q fl flq K) (hD : FormatD p q fl flq KD) {m : ℝ} (hm : m ≤ 0) {N : ℕ} (hN : N ≤ 1000)
    (hN4 : 11 * K * (2 - m) ≤ 4 ^ N) (hN4' : 16 * KD * (2 - m) ≤ 4 ^ N) :
    ∃ v, ellipeF fl flq K KD m = .num v ∧ |v - legE (Real.pi / 2) m| ≤ (17 * N + 34) * (2 ^ p)⁻¹ * legE (Real.pi / 2) m := by
  have hp1 : 1 ≤ p := by have := hF.bits; omega
  have hw := w_ge hF.bits
  have hu := unit24 hF.bits
  have hu0 : (0 : ℝ) < (2 ^ p)⁻¹ := by positivity
  obtain ⟨m', em, hm1, v, hv, hb⟩ := ellipe_perturbed hF hD (m := m) one_pos le_rfl (by linarith) hN (by linarith) (by linarith)
  refine ⟨_, hv, ?_⟩
  have hm0 : m' ≤ 0 := by have := fl_ge_one hF.near hp1 (show 1 ≤ 1 - m by linarith); linarith
  rw [abs_of_nonpos hm0, neg_mul, ← sub_eq_add_neg, ← (LArgs.half_pi hm1).E_eq] at hb
  have d1 := near_fl hF.near hp1 (show 0 ≤ 1 - m by linarith)
  rw [← em] at d1
  have hE := legE_near hw (m := m) (m' := m') (by linarith) hm1.le (d1.mono hw (by omega) (by linarith) (by linarith))
  have hE0 : 0 ≤ legE (Real.pi / 2) m := intervalIntegral.integral_nonneg (by positivity) fun θ _ => Real.sqrt_nonneg _
  have e1 := perturb hu0.le (bound17 hu0.le hu hN (by norm_num) (by norm_num)) (by norm_num; linarith) (by linarith) hE0 hb hE
  have hN0 : (0 : ℝ) ≤ N := Nat.cast_nonneg N
  have e3 := round_rel hF.near hF.bits hE0 (by positivity) (by
    have := bound17 (b := 31 + 12 / 10 * (1 : ℕ)) hu0.le hu hN (by norm_num) (by norm_num)
    rw [← add_assoc] at this
    linarith) e1
  refine e3.trans ?_
  gcongr ?_ * _ * _
  push_cast
  linarith

/-- **C126** (`ellipe`, parameter between 0 and 1). `E` is computed as `K - m D`; the error is at most `17 N + 34` units of roundoff of `2 K(m) - E(m)`,
which is what the sum of the absolute values of the terms amounts to and grows like `log(16 / (1 - m))` near 1. -/
theorem C126_ellipe (hF : Format p q fl flq K) (hD : FormatD p q fl flq KD) {m s : ℝ} (hs : 0 < s) (h0 : 0 ≤ m) (hm : s ≤ 1 - m) {N : ℕ} (hN : N ≤ 1000)
    (hN4 : 11 * K * (2 - m) ≤ 4 ^ N * s) (hN4' : 16 * KD * (2 - m) ≤ 4 ^ N * s) :
    ∃ v, ellipeF fl flq K KD m = .num v ∧
      |v - legE (Real.pi / 2) m| ≤ (17 * N + 34) * (2 ^ p)⁻¹ * (2 * legF (Real.pi / 2) m - legE (Real.pi / 2) m) := by
  have hp1 : 1 ≤ p := by have := hF.bits; omega
  have hw := w_ge hF.bits
  have hu := unit24 hF.bits
  have hu0 : (0 : ℝ) < (2 ^ p)⁻¹ := by positivity
  have h1m : 0 < 1 - m := by linarith
  obtain ⟨m', em, hm1, v, hv, hb⟩ := ellipe_perturbed hF hD (m := m) hs (by linarith) hm hN hN4 hN4'
  refine ⟨_, hv, ?_⟩
  have hm0 : 0 ≤ m' := by have := fl_le_one hF.near hp1 (show 1 - m ≤ 1 by linarith); linarith
  have eE' := (LArgs.half_pi hm1).E_eq
  rw [abs_of_nonneg hm0, show legF (Real.pi / 2) m' + m' * legD (Real.pi / 2) m' = 2 * legF (Real.pi / 2) m' - legE (Real.pi / 2) m' by rw [eE']; ring] at hb
  have d1 := near_fl hF.near hp1 h1m.le
  rw [← em] at d1
  have hE := legE_near hw (m := m) (m' := m') (by linarith) hm1.le (d1.mono hw (by omega) (by linarith) (by linarith))
  have hE0 : 0 ≤ legE (Real.pi / 2) m := intervalIntegral.integral_nonneg (by positivity) fun θ _ => Real.sqrt_nonneg _
  obtain ⟨eK, eD, -⟩ := complete_eq (show m < 1 by linarith)
  have hA : Args 0 (1 - m) 1 := ⟨le_rfl, h1m.le, zero_le_one, by linarith, by linarith, by linarith⟩
  have hA' : Args 0 (1 - m') 1 := ⟨le_rfl, by linarith, zero_le_one, by linarith, by linarith, by linarith⟩
  have r : ∀ t : ℝ, 0 ≤ t → Near (1 - ((2 : ℝ) ^ p)⁻¹)⁻¹ (2 * 1) t t := fun t ht => (Near.refl t).mono hw (by omega) ht ht
  have hKn := RF_near (k := 1) hw hA' hA (r 0 le_rfl) (d1.mono hw (by omega) (by linarith) h1m.le) (r 1 zero_le_one)
  have hEK : legE (Real.pi / 2) m ≤ legF (Real.pi / 2) m := by
    rw [(LArgs.half_pi (show m < 1 by linarith)).E_eq, eD]
    have := mul_nonneg h0 (RD_pos hA one_pos).le
    linarith
  rw [← eK, ← (complete_eq hm1).1] at hKn
  have a1 := Near.abs_le hu0.le (by norm_num; linarith) (by linarith) (hE0.trans hEK) hKn
  have a2 := Near.abs_le hu0.le (by norm_num; linarith) (by linarith) hE0 hE
  push_cast at a1 a2
  generalize legF (Real.pi / 2) m' = K' at *
  generalize legF (Real.pi / 2) m = K0 at *
  generalize legE (Real.pi / 2) m' = E' at *
  generalize legE (Real.pi / 2) m = E0 at *
  have hN0 : (0 : ℝ) ≤ N := Nat.cast_nonneg N
  have hc := bound17 (b := 31) hu0.le hu hN (by norm_num) (by norm_num)
  obtain ⟨B, hB⟩ : ∃ B, B = 2 * K0 - E0 := ⟨_, rfl⟩
  obtain ⟨δ, bδ, eδ⟩ := hF.near.factor hp1 (2 * v)
  rw [eδ, ← hB]
  generalize ((2 : ℝ) ^ p)⁻¹ = u at *
  have hEB : E0 ≤ B := by linarith
  have hKB : K0 ≤ B := by linarith
  have hB0 : 0 ≤ B := by linarith
  have huE : u * E0 ≤ u * B := by gcongr
  have huK : u * K0 ≤ u * B := by gcongr
  have hB' : 2 * K' - E' ≤ B + 33 / 10 * (u * B) := by
    have := (abs_le.mp a1).2
    have := (abs_le.mp a2).1
    linarith
  have s1 : |2 * v - E0| ≤ (17 * N + 31) * u * B + 12 / 10 * (u * B) := by
    have h1 := abs_sub_le (2 * v) E' E0
    have h2 : (17 * (N : ℝ) + 31) * u * (2 * K' - E') ≤ (17 * N + 31) * u * (B + 33 / 10 * (u * B)) := by gcongr
    have h3 : (17 * (N : ℝ) + 31) * u * (33 / 10 * (u * B)) ≤ 1 / 500 * (33 / 10 * (u * B)) := by gcongr
    have huB : 0 ≤ u * B := by positivity
    linarith
  have huB : 0 ≤ u * B := by positivity
  have huB1 : u * B ≤ 1 / 16777216 * B := by gcongr
  have hcB : (17 * (N : ℝ) + 31) * u * B ≤ 1 / 500 * B := by gcongr
  have s2 : |2 * v| ≤ 11 / 10 * B := by
    have := abs_sub_abs_le_abs_sub (2 * v) E0
    rw [abs_of_nonneg hE0] at this
    linarith
  have s3 := abs_mul_le s2 bδ
  have s4 := abs_add_le (2 * v - E0) (2 * v * δ)
  rw [show 2 * v * (1 + δ) - E0 = 2 * v - E0 + 2 * v * δ by ring]
  have : (17 * (N : ℝ) + 34) * u * B = (17 * N + 31) * u * B + 3 * (u * B) := by ring
  linarith

/-- **C126** (`ellipe` at 1). The value `E(1) = 1` is exact. -/
theorem C126_ellipe_one (hf : Nearest p fl) (hp : 1 ≤ p) (flq : ℝ → ℝ) (K KD : ℝ) : ellipeF fl flq K KD 1 = .num 1 ∧ legE (Real.pi / 2) 1 = 1 := by
  constructor
  · have h0 : fl 0 = 0 := hf.self isFl_zero
    have h1 : fl 1 = 1 := hf.self (isFl_one hp)
    have h2 : fl (1 / 2) = 1 / 2 := hf.self (by simpa using isFl_two_zpow hp (-1))
    unfold ellipeF elliprgF
    simp [Res.map, h0, h1]
    rw [show (2 : ℝ)⁻¹ = 1 / 2 by norm_num, h2]
    norm_num [h1]
  · have : legE (Real.pi / 2) 1 = ∫ θ in (0 : ℝ)..(Real.pi / 2), Real.cos θ := by
      unfold legE
      refine intervalIntegral.integral_congr fun θ hθ => ?_
      rw [Set.uIcc_of_le (by positivity)] at hθ
      rw [one_mul, ← Real.cos_sq', Real.sqrt_sq (Real.cos_nonneg_of_neg_pi_div_two_le_of_le (by linarith [hθ.1, Real.pi_pos]) hθ.2)]
    rw [this, integral_cos]
    simp

theorem RG_two_zeros {z : ℝ} (hz : 0 ≤ z) : RG 0 0 z = √z / 2 := by
  have h := (C82_zeros 0 hz).2.2
  rcases eq_or_lt_of_le hz with h0 | h0
  · subst h0
    simp [RG]
  · have hz' : (z : ℂ) ≠ 0 := by exact_mod_cast h0.ne'
    have hs := csqrt_ofReal hz
    simp [elliprg, isZero, hz', hs] at h
    exact_mod_cast h.symm

/-- **C126** (`elliprg` with two arguments zero). `R_G(0, 0, z) = √z / 2` with a relative error of at most 3 units of roundoff, wherever the third one is. -/
theorem C126_elliprg_two_zeros (hF : Format p q fl flq K) (KD : ℝ) {z : ℝ} (hz : 0 ≤ z) :
    ∃ v, elliprgF fl flq K KD 0 0 z = .num v ∧ elliprgF fl flq K KD 0 z 0 = .num v ∧ elliprgF fl flq K KD z 0 0 = .num v ∧
      |v - RG 0 0 z| ≤ 3 * (2 ^ p)⁻¹ * RG 0 0 z := by
  rw [RG_two_zeros hz]
  have hp1 : 1 ≤ p := by have := hF.bits; omega
  have hw := w_ge hF.bits
  have hu := unit24 hF.bits
  have hu0 : (0 : ℝ) < (2 ^ p)⁻¹ := by positivity
  have h0 : fl 0 = 0 := hF.near.self isFl_zero
  refine ⟨fl (fl √z / 2), ?_, ?_, ?_, ?_⟩
  · unfold elliprgF
    by_cases h : z = 0 <;> simp [h, h0]
  · unfold elliprgF
    by_cases h : z = 0 <;> simp [h, h0]
  · unfold elliprgF
    by_cases h : z = 0 <;> simp [h, h0]
  · have h1 := near_fl hF.near hp1 (Real.sqrt_nonneg z)
    have h2 := fl_nonneg hF.near hp1 (Real.sqrt_nonneg z)
    have h3 : Near (1 - ((2 : ℝ) ^ p)⁻¹)⁻¹ 1 (fl √z / 2) (√z / 2) := ⟨by linarith [h1.1], by linarith [h1.2]⟩
    have h4 := (near_fl hF.near hp1 (show 0 ≤ fl √z / 2 by linarith)).trans hw h3
    refine (Near.abs_le hu0.le (by norm_num; linarith) (by linarith) (by positivity) h4).trans ?_
    push_cast
    exact mul_le_mul_of_nonneg_right (by linarith) (by positivity)

/-! ### The hypotheses are met -/

/-- Double precision with an exactly computed power. -/
theorem format_doubleD : ∃ K : ℝ, K ≤ 6000 ∧ FormatD 53 53 (rnd 53) (rnd 53) K := by
  obtain ⟨ε, hε0, -, hε6, hεK, -⟩ := eps_toleranceD (p := 53) (by norm_num)
  have hF : FormatD 53 53 (rnd 53) (rnd 53) (1 / ε) := by
    refine ⟨nearest_rnd (by norm_num), by norm_num, nearest_rnd (by norm_num), le_rfl, ?_⟩
    have e : (2 * ((2 : ℝ) ^ 53)⁻¹ * (1 / 1000000) * (1 / 4)) ^ (-(1 / 6) : ℝ) = 1 / ε := hεK
    rw [e, sub_self, abs_zero]
    positivity
  refine ⟨1 / ε, ?_, hF⟩
  rw [div_le_iff₀ hε0]
  by_contra hc
  have h1 : ε < 1 / 6000 := by linarith
  have h2 : ε ^ 6 < (1 / 6000) ^ 6 := by gcongr
  rw [hε6] at h2
  norm_num at h2

/-- `elliprd(1, 2, 3)` in double precision: at most 10 steps, relative error at most 192 units of roundoff. -/
example : ∃ K v, elliprdF (rnd 53) (rnd 53) K 1 2 3 = .num v ∧ |v - RD 1 2 3| ≤ 192 * (2 ^ 53)⁻¹ * RD 1 2 3 := by
  obtain ⟨K, hK, hF⟩ := format_doubleD
  obtain ⟨v, hv, hb⟩ := C126_elliprd hF (x := 1) (y := 2) (z := 3) (s := 2) (by norm_num) (Or.inl ⟨by norm_num, by norm_num, by norm_num⟩) (by norm_num)
    (N := 10) (by norm_num) (by norm_num; linarith)
  exact ⟨K, v, hv, by norm_num at hb ⊢; exact hb⟩

/-- `elliprg(1, 3, 2)`, where the third argument lies between the others. -/
example : ∃ K KD v, elliprgF (rnd 53) (rnd 53) K KD 1 3 2 = .num v ∧ |v - RG 1 3 2| ≤ 201 * (2 ^ 53)⁻¹ * RG 1 3 2 := by
  obtain ⟨K, hK, hF⟩ := format_double
  obtain ⟨KD, hKD, hD⟩ := format_doubleD
  obtain ⟨v, hv, hb⟩ := C126_elliprg_relative hF hD (x := 1) (y := 3) (z := 2) (s := 2) (by norm_num) (Or.inl ⟨by norm_num, by norm_num, by norm_num⟩)
    (by norm_num) (Or.inl ⟨by norm_num, by norm_num⟩) (N := 10) (by norm_num) (by norm_num; linarith) (by norm_num; linarith)
  exact ⟨K, KD, v, hv, by norm_num at hb ⊢; exact hb⟩

/-- `ellipd` and `ellipe` at a parameter within `2^-50` of 1: at most 35 steps. -/
example : ∃ K KD v w, ellipdF (rnd 53) (rnd 53) KD (1 - 1 / 2 ^ 50) = .num v ∧ ellipeF (rnd 53) (rnd 53) K KD (1 - 1 / 2 ^ 50) = .num w := by
  obtain ⟨K, hK, hF⟩ := format_double
  obtain ⟨KD, hKD, hD⟩ := format_doubleD
  obtain ⟨v, hv, -⟩ := C126_ellipd hD (m := 1 - 1 / 2 ^ 50) (s := 1 / 2 ^ 50) (by norm_num) (by norm_num) (by norm_num) (N := 35)
    (by norm_num) (by norm_num; linarith)
  obtain ⟨w, hw, -⟩ := C126_ellipe hF hD (m := 1 - 1 / 2 ^ 50) (s := 1 / 2 ^ 50) (by norm_num) (by norm_num) (by norm_num) (N := 35)
    (by norm_num) (by norm_num; linarith) (by norm_num; linarith)
  exact ⟨K, KD, v, w, hv, hw⟩

/-- `ellipe(-1)`. -/
example : ∃ K KD v, ellipeF (rnd 53) (rnd 53) K KD (-1) = .num v ∧ |v - legE (Real.pi / 2) (-1)| ≤ 204 * (2 ^ 53)⁻¹ * legE (Real.pi / 2) (-1) := by
  obtain ⟨K, hK, hF⟩ := format_double
  obtain ⟨KD, hKD, hD⟩ := format_doubleD
  obtain ⟨v, hv, hb⟩ := C126_ellipe_neg hF hD (m := -1) (by norm_num) (N := 10) (by norm_num) (by norm_num; linarith) (by norm_num; linarith)
  exact ⟨K, KD, v, hv, by norm_num at hb ⊢; exact hb⟩

end Verif.Carlson.Flt

import Verif.Carlson.RoundRC
import Verif.Carlson.LegendreProps
import Mathlib.Analysis.Real.Pi.Bounds

/-! # C119: rounding in elliprc, elliprf and ellipk -/

namespace Verif.Carlson.Flt

open Verif.Round

variable {p q : ℕ} {fl flq : ℝ → ℝ} {K : ℝ}

/-- The number format: `fl` rounds to nearest with `p ≥ 24` bits, `flq` with `q ≥ p` bits (double precision), and `K` is `(3 EPS)^(-1/6)`, `EPS = 10^-6 eps`,
`eps = 2·2^-p`, up to one per cent. -/
structure Format (p q : ℕ) (fl flq : ℝ → ℝ) (K : ℝ) : Prop where
  near : Nearest p fl
  bits : 24 ≤ p
  nearq : Nearest q flq
  bitsq : p ≤ q
  root : |K - (2 * (2 ^ p)⁻¹ * (1 / 1000000) * 3) ^ (-(1 / 6) : ℝ)| ≤ 1 / 100 * K

theorem Format.root' (h : Format p q fl flq K) : |K - (EPS (2 * (2 ^ p)⁻¹) * 3) ^ (-(1 / 6) : ℝ)| ≤ 1 / 100 * K := h.root

theorem Format.K_pos (h : Format p q fl flq K) : 0 < K := by
  obtain ⟨ε, hε0, -, -, hεK, -⟩ := eps_tolerance h.bits
  have := h.root'
  rw [hεK] at this
  exact (K_bounds hε0 this).1

/-- `R_F` from above, where two of the arguments are at least `s`. -/
theorem RF_upper {x y z s : ℝ} (hs : 0 < s) (hx : 0 ≤ x) (hy : s ≤ y) (hz : s ≤ z) : s * RF x y z ^ 2 ≤ 247 / 100 := by
  have h : Args x y z := ⟨hx, by linarith, by linarith, by linarith, by linarith, by linarith⟩
  have h1 := RF_anti (Args.of_pair le_rfl hs) h hx hy hz
  rw [← RC_eq_RF 0 s hs.le, RC_zero hs] at h1
  have hR := RF_pos h
  have hss : 0 < √s := Real.sqrt_pos.mpr hs
  have h2 : RF x y z ^ 2 ≤ (Real.pi / 2 / √s) ^ 2 := by gcongr
  rw [div_pow, Real.sq_sqrt hs.le, le_div_iff₀ hs] at h2
  have h3 := Real.pi_lt_d4
  have h4 := Real.pi_pos
  nlinarith

theorem steps {x y z s S : ℝ} {N : ℕ} (hK : 0 < K) (hs : 0 < s) (hx : 0 ≤ x) (hy : s ≤ y) (hz : s ≤ z) (hS : x + y + z ≤ 11 / 10 * S)
    (hN : 10 * K * S ≤ 4 ^ N * s) : 7 / 2 * K * (x + y + z) * RF x y z ^ 2 ≤ 4 ^ N := by
  have h := RF_upper hs hx hy hz
  refine le_of_mul_le_mul_right ?_ hs
  have hS0 : 0 ≤ S := by linarith
  calc 7 / 2 * K * (x + y + z) * RF x y z ^ 2 * s = 7 / 2 * (K * ((x + y + z) * (s * RF x y z ^ 2))) := by ring
    _ ≤ 7 / 2 * (K * ((11 / 10 * S) * (247 / 100))) := by gcongr
    _ = 7 / 2 * (11 / 10) * (247 / 100) * (K * S) := by ring
    _ ≤ 10 * (K * S) := by gcongr; norm_num
    _ = 10 * K * S := by ring
    _ ≤ _ := hN

/-- The shortcut of `elliprc` for `x = 0`. -/
theorem rc_zero_accurate (hF : Format p q fl flq K) {y : ℝ} (hy : 0 < y) :
    |fl (fl (flq (Real.pi / 2)) / fl (√y)) - RC 0 y| ≤ 14 * (2 ^ p)⁻¹ * RC 0 y := by
  have hp1 : 1 ≤ p := by have := hF.bits; omega
  have hw := w_ge hF.bits
  have hu := unit24 hF.bits
  have hu0 : (0 : ℝ) < (2 ^ p)⁻¹ := by positivity
  have hsy : 0 < √y := Real.sqrt_pos.mpr hy
  have hpi : 0 < Real.pi / 2 := by positivity
  have hq1 : Near (1 - (2 ^ p)⁻¹)⁻¹ 1 (flq (Real.pi / 2)) (Real.pi / 2) := by
    have hq := near_fl hF.nearq (by have := hF.bits; have := hF.bitsq; omega) hpi.le
    have hle : ((2 : ℝ) ^ q)⁻¹ ≤ (2 ^ p)⁻¹ := by
      apply inv_anti₀ (by positivity)
      exact pow_le_pow_right₀ (by norm_num) hF.bitsq
    have hww : (1 - ((2 : ℝ) ^ q)⁻¹)⁻¹ ≤ (1 - (2 ^ p)⁻¹)⁻¹ := inv_anti₀ (by linarith) (by linarith)
    have h0 := fl_nonneg hF.nearq (by have := hF.bits; have := hF.bitsq; omega) hpi.le
    simp only [Near, pow_one] at hq ⊢
    exact ⟨hq.1.trans (by gcongr), hq.2.trans (by gcongr)⟩
  have hq0 : 0 < flq (Real.pi / 2) := hq1.pos hw hpi
  have h1 := (near_fl hF.near hp1 hq0.le).trans hw hq1
  have h10 := h1.pos hw hpi
  have h2 := near_fl hF.near hp1 hsy.le
  have h20 := h2.pos hw hsy
  have h3 := h1.mul hw (h2.inv h20 hsy) hpi.le (by positivity)
  rw [← div_eq_mul_inv, ← div_eq_mul_inv] at h3
  have h30 : 0 ≤ fl (flq (Real.pi / 2)) / fl √y := by positivity
  have h4 := (near_fl hF.near hp1 h30).trans hw h3
  rw [RC_zero hy]
  have h5 := Near.abs_le hu0.le (by norm_num; linarith) (by linarith) (show 0 ≤ Real.pi / 2 / √y by positivity) h4
  refine h5.trans ?_
  apply mul_le_mul_of_nonneg_right _ (by positivity)
  push_cast
  linarith

/-- **C119** (`elliprc`). For `x ≥ 0`, `y > 0` the loop ends after at most `N` steps, `4^N ≥ 10 K (x + 2y) / y`, and the result has a relative error of at most
`6 N + 14` units of roundoff. -/
theorem C119_elliprc (hF : Format p q fl flq K) {x y : ℝ} (hx : 0 ≤ x) (hy : 0 < y) {N : ℕ} (hN : N ≤ 1000) (hN4 : 10 * K * (x + 2 * y) ≤ 4 ^ N * y) :
    ∃ v, elliprcF fl flq K x y = .num v ∧ |v - RC x y| ≤ (6 * N + 14) * (2 ^ p)⁻¹ * RC x y := by
  unfold elliprcF
  rw [if_neg hy.ne']
  have hR := RC_pos hx hy
  by_cases h0 : x = 0
  · subst h0
    rw [if_pos rfl]
    refine ⟨_, rfl, (rc_zero_accurate hF hy).trans ?_⟩
    gcongr
    linarith [(Nat.cast_nonneg N : (0 : ℝ) ≤ N)]
  · rw [if_neg h0, if_neg (not_lt.mpr hy.le)]
    obtain ⟨v, hv, hb⟩ := rc_core_accurate hF.near hF.bits hF.nearq hF.bitsq hF.root' hx hy hN (by
      rw [RC_eq_RF _ _ hy.le]
      exact steps hF.K_pos hy hx le_rfl le_rfl (by linarith) hN4)
    exact ⟨v, by rw [hv]; rfl, hb⟩

/-- Products of relative errors. -/
theorem rel_mul {a A b B α β : ℝ} (hA : 0 ≤ A) (hB : 0 ≤ B) (ha : |a - A| ≤ α * A) (hb : |b - B| ≤ β * B) :
    |a * b - A * B| ≤ (α + β + α * β) * (A * B) := by
  have e : a * b - A * B = A * (b - B) + B * (a - A) + (a - A) * (b - B) := by ring
  have t1 : |A * (b - B)| ≤ A * (β * B) := by rw [abs_mul, abs_of_nonneg hA]; gcongr
  have t2 : |B * (a - A)| ≤ B * (α * A) := by rw [abs_mul, abs_of_nonneg hB]; gcongr
  have t3 := abs_mul_le ha hb
  rw [e]
  have s1 := abs_add_le (A * (b - B) + B * (a - A)) ((a - A) * (b - B))
  have s2 := abs_add_le (A * (b - B)) (B * (a - A))
  have e2 : (α + β + α * β) * (A * B) = A * (β * B) + B * (α * A) + α * A * (β * B) := by ring
  linarith

/-- **C119** (`elliprc` with negative `y`): the Cauchy principal value `√(x/(x-y)) R_C(x-y, -y)` with a relative error of at most `7 N + 20` units of roundoff;
there is no cancellation. -/
theorem C119_elliprc_pv (hF : Format p q fl flq K) {x y : ℝ} (hx : 0 < x) (hy : y < 0) {N : ℕ} (hN : N ≤ 1000)
    (hN4 : 10 * K * (x - 3 * y) ≤ 4 ^ N * -y) :
    ∃ v, elliprcF fl flq K x y = .num v ∧ |v - √(x / (x - y)) * RC (x - y) (-y)| ≤ (7 * N + 20) * (2 ^ p)⁻¹ * (√(x / (x - y)) * RC (x - y) (-y)) := by
  have hp1 : 1 ≤ p := by have := hF.bits; omega
  have hw := w_ge hF.bits
  have hu := unit24 hF.bits
  have hu0 : (0 : ℝ) < (2 ^ p)⁻¹ := by positivity
  have hxy : 0 < x - y := by linarith
  have hny : 0 < -y := by linarith
  unfold elliprcF
  rw [if_neg hy.ne, if_neg hx.ne', if_pos hy]
  have d1 := near_fl hF.near hp1 hxy.le
  have d0 := d1.pos hw hxy
  have hdS : fl (x - y) ≤ 101 / 100 * (x - y) := d1.1.trans (by
    have := w_pow_le hF.bits (show 1 ≤ 10000 by omega)
    gcongr)
  obtain ⟨v, hv, hb⟩ := rc_core_accurate hF.near hF.bits hF.nearq hF.bitsq hF.root' d0.le hny hN (by
    rw [RC_eq_RF _ _ hny.le]
    exact steps hF.K_pos hny d0.le le_rfl le_rfl (S := x - 3 * y) (by linarith) hN4)
  refine ⟨_, by rw [hv]; rfl, ?_⟩
  have hNr : (N : ℝ) ≤ 1000 := by exact_mod_cast hN
  have hN0 : (0 : ℝ) ≤ N := Nat.cast_nonneg N
  -- the perturbed first argument
  have hRn : Near (1 - (2 ^ p)⁻¹)⁻¹ 1 (RC (fl (x - y)) (-y)) (RC (x - y) (-y)) := by
    rw [RC_eq_RF _ _ hny.le, RC_eq_RF _ _ hny.le]
    have r := ((Near.refl (w := (1 - ((2 : ℝ) ^ p)⁻¹)⁻¹) (-y)).mono hw (show 0 ≤ 2 * 1 by omega) hny.le hny.le)
    exact RF_near (k := 1) hw (Args.of_pair d0.le hny) (Args.of_pair hxy.le hny) (d1.mono hw (by omega) d0.le hxy.le) r r
  -- the square root
  have q1 := ((Near.refl x).mono hw (show 0 ≤ 0 by omega) hx.le hx.le).mul hw (d1.inv d0 hxy) hx.le (by positivity)
  rw [← div_eq_mul_inv, ← div_eq_mul_inv] at q1
  have hxd : 0 < x / fl (x - y) := by positivity
  have hxd' : 0 < x / (x - y) := by positivity
  have q2 := (near_fl hF.near hp1 hxd.le).trans hw q1
  have q20 := q2.pos hw hxd'
  have q3 : Near (1 - (2 ^ p)⁻¹)⁻¹ 1 (√(fl (x / fl (x - y)))) (√(x / (x - y))) := Near.sqrt hw (q2.mono hw (by omega) q20.le hxd'.le)
  have q4 := (near_fl hF.near hp1 (Real.sqrt_nonneg (fl (x / fl (x - y))))).trans hw q3
  -- everything relative
  have hsq : 0 ≤ √(x / (x - y)) := Real.sqrt_nonneg _
  have hR := RC_pos hxy.le hny
  have hR' := RC_pos d0.le hny
  have e1 := Near.abs_le hu0.le (by norm_num; linarith) (by linarith) hR.le hRn
  have e2 := Near.abs_le hu0.le (by norm_num; linarith) (by linarith) hsq q4
  push_cast at e1 e2
  rw [show 11 / 10 * (1 * ((2 : ℝ) ^ p)⁻¹) = 11 / 10 * (2 ^ p)⁻¹ by ring] at e1
  rw [show 11 / 10 * (2 * ((2 : ℝ) ^ p)⁻¹) = 11 / 5 * (2 ^ p)⁻¹ by ring] at e2
  obtain ⟨R, hRd⟩ : ∃ R, R = RC (x - y) (-y) := ⟨_, rfl⟩
  obtain ⟨R', hRd'⟩ : ∃ R', R' = RC (fl (x - y)) (-y) := ⟨_, rfl⟩
  obtain ⟨T, hT⟩ : ∃ T, T = √(x / (x - y)) := ⟨_, rfl⟩
  obtain ⟨T', hT'⟩ : ∃ T', T' = fl √(fl (x / fl (x - y))) := ⟨_, rfl⟩
  rw [← hRd] at e1 hR ⊢
  rw [← hRd'] at e1 hb hR'
  rw [← hT, ← hT'] at e2 ⊢
  rw [← hT] at hsq
  obtain ⟨δ, bδ, eδ⟩ := hF.near.factor hp1 (T' * v)
  generalize ((2 : ℝ) ^ p)⁻¹ = u at *
  have hcu : (6 * (N : ℝ) + 14) * u ≤ 1 / 1000 := by
    calc (6 * (N : ℝ) + 14) * u ≤ (6 * 1000 + 14) * (1 / 16777216) := by gcongr
      _ ≤ _ := by norm_num
  have hNu : 0 ≤ (N : ℝ) * u := by positivity
  -- v against R
  have hv1 : |v - R| ≤ ((6 * N + 14) * u + 12 / 10 * u) * R := by
    have hR2 : R' ≤ 1001 / 1000 * R := by
      have := (abs_le.mp e1).2
      nlinarith
    have s := abs_sub_le v R' R
    have h1 : (6 * (N : ℝ) + 14) * u * R' ≤ (6 * N + 14) * u * (1 + 11 / 10 * u) * R := by
      have : R' ≤ (1 + 11 / 10 * u) * R := by have := (abs_le.mp e1).2; linarith
      calc (6 * (N : ℝ) + 14) * u * R' ≤ (6 * N + 14) * u * ((1 + 11 / 10 * u) * R) := by gcongr
        _ = _ := by ring
    have h2 : (6 * (N : ℝ) + 14) * u * (1 + 11 / 10 * u) ≤ (6 * N + 14) * u + 1 / 1000 * (11 / 10 * u) := by
      rw [mul_add, mul_one]
      gcongr
    have h3 := mul_le_mul_of_nonneg_right h2 hR.le
    have h4 : ((6 * (N : ℝ) + 14) * u + 1 / 1000 * (11 / 10 * u)) * R + 11 / 10 * u * R ≤ ((6 * N + 14) * u + 12 / 10 * u) * R := by
      nlinarith
    linarith
  have hprod := rel_mul hsq hR.le e2 hv1
  beta_reduce
  rw [eδ]
  have hδ1 : |1 + δ - 1| ≤ u * 1 := by rw [add_sub_cancel_left, mul_one]; exact bδ
  have hfin := rel_mul (mul_nonneg hsq hR.le) zero_le_one hprod hδ1
  rw [mul_one] at hfin
  refine hfin.trans ?_
  apply mul_le_mul_of_nonneg_right _ (mul_nonneg hsq hR.le)
  have hB : (6 * (N : ℝ) + 14) * u + 12 / 10 * u ≤ 2 / 1000 := by linarith
  have k1 : 11 / 5 * u * ((6 * (N : ℝ) + 14) * u + 12 / 10 * u) ≤ 11 / 5 * u * (2 / 1000) := by gcongr
  have k2 : 11 / 5 * u + ((6 * (N : ℝ) + 14) * u + 12 / 10 * u) + 11 / 5 * u * ((6 * N + 14) * u + 12 / 10 * u) ≤ 1 := by linarith
  have k3 : (11 / 5 * u + ((6 * (N : ℝ) + 14) * u + 12 / 10 * u) + 11 / 5 * u * ((6 * N + 14) * u + 12 / 10 * u)) * u ≤ 1 * u := by gcongr
  have k4 : (7 * (N : ℝ) + 20) * u = 7 * (N * u) + 20 * u := by ring
  have k5 : (6 * (N : ℝ) + 14) * u = 6 * (N * u) + 14 * u := by ring
  rw [k4]
  rw [k5] at k1 k3 ⊢
  linarith

/-- `RF` does not depend on the order; two arguments at least `s`, the third at least 0. -/
def TwoAbove (s x y z : ℝ) : Prop := (0 ≤ x ∧ s ≤ y ∧ s ≤ z) ∨ (0 ≤ y ∧ s ≤ x ∧ s ≤ z) ∨ (0 ≤ z ∧ s ≤ x ∧ s ≤ y)

theorem TwoAbove.args {s x y z : ℝ} (hs : 0 < s) (h : TwoAbove s x y z) : Args x y z := by
  rcases h with ⟨h1, h2, h3⟩ | ⟨h1, h2, h3⟩ | ⟨h1, h2, h3⟩ <;> constructor <;> linarith

theorem TwoAbove.steps {s x y z S : ℝ} {N : ℕ} (hs : 0 < s) (h : TwoAbove s x y z) (hK : 0 < K) (hS : x + y + z ≤ 11 / 10 * S)
    (hN : 10 * K * S ≤ 4 ^ N * s) : 7 / 2 * K * (x + y + z) * RF x y z ^ 2 ≤ 4 ^ N := by
  rcases h with ⟨h1, h2, h3⟩ | ⟨h1, h2, h3⟩ | ⟨h1, h2, h3⟩
  · exact Flt.steps hK hs h1 h2 h3 hS hN
  · have := Flt.steps hK hs h1 h2 h3 (by linarith) hN
    rw [RF_swap12, show y + x + z = x + y + z by ring] at this
    exact this
  · have := Flt.steps hK hs h1 h2 h3 (by linarith) hN
    rw [RF_swap12 x z y, RF_swap23 x y z, show z + x + y = x + y + z by ring] at this
    exact this

/-- Slightly more general than the claim: the bound on the number of steps may be off by a tenth. -/
theorem rf_accurate (hF : Format p q fl flq K) {x y z s S : ℝ} (hs : 0 < s) (h : TwoAbove s x y z) {N : ℕ} (hN : N ≤ 1000)
    (hS : x + y + z ≤ 11 / 10 * S) (hN4 : 10 * K * S ≤ 4 ^ N * s) :
    ∃ v, elliprfF fl flq K x y z = .num v ∧ |v - RF x y z| ≤ (6 * N + 14) * (2 ^ p)⁻¹ * RF x y z := by
  have hA := h.args hs
  have hst := h.steps hs hF.K_pos hS hN4
  have key : ∀ {a b : ℝ}, 0 ≤ a → 0 < b → 7 / 2 * K * (a + b + b) * RF a b b ^ 2 ≤ 4 ^ N →
      ∃ v, elliprcF fl flq K a b = .num v ∧ |v - RF a b b| ≤ (6 * N + 14) * (2 ^ p)⁻¹ * RF a b b := by
    intro a b ha hb hab
    rw [← RC_eq_RF _ _ hb.le] at hab ⊢
    have hR := RC_pos ha hb
    unfold elliprcF
    rw [if_neg hb.ne']
    by_cases h0 : a = 0
    · subst h0
      rw [if_pos rfl]
      refine ⟨_, rfl, (rc_zero_accurate hF hb).trans ?_⟩
      gcongr
      linarith [(Nat.cast_nonneg N : (0 : ℝ) ≤ N)]
    · rw [if_neg h0, if_neg (not_lt.mpr hb.le)]
      obtain ⟨v, hv, hb⟩ := rc_core_accurate hF.near hF.bits hF.nearq hF.bitsq hF.root' ha hb hN hab
      exact ⟨v, by rw [hv]; rfl, hb⟩
  unfold elliprfF
  split_ifs with e1 e2 e3
  · subst e1
    exact key hA.x0 (by linarith [hA.yz]) hst
  · subst e2
    rw [RF_swap12 y x x] at hst ⊢
    exact key hA.y0 (by linarith [hA.xz]) (by rwa [show x + y + x = y + x + x by ring] at hst)
  · subst e3
    have hsw : RF x x z = RF z x x := by rw [← RF_swap23 x x z, RF_swap12 z x x]
    rw [hsw] at hst ⊢
    exact key hA.z0 (by linarith [hA.xy]) (by rwa [show x + x + z = z + x + x by ring] at hst)
  · obtain ⟨v, hv, hb⟩ := core_accurate hF.near hF.bits hF.nearq hF.bitsq hF.root' hA hN hst
    exact ⟨v, by rw [hv]; rfl, hb⟩

/-- **C119** (`elliprf`). For non-negative arguments, two of them at least `s > 0`, the loop ends after at most `N` steps, `4^N ≥ 10 K (x + y + z) / s`, and the
result has a relative error of at most `6 N + 14` units of roundoff. -/
theorem C119_elliprf (hF : Format p q fl flq K) {x y z s : ℝ} (hs : 0 < s) (h : TwoAbove s x y z) {N : ℕ} (hN : N ≤ 1000)
    (hN4 : 10 * K * (x + y + z) ≤ 4 ^ N * s) :
    ∃ v, elliprfF fl flq K x y z = .num v ∧ |v - RF x y z| ≤ (6 * N + 14) * (2 ^ p)⁻¹ * RF x y z :=
  rf_accurate hF hs h hN (by have := isNonneg_args (h.args hs); linarith) hN4

/-- **C119** (`ellipk`). The complete elliptic integral of the first kind for every parameter below 1, however close to 1 or to `-∞`: the relative error is
at most `6 N + 16` units of roundoff, `4^N ≥ 11 K (2 - m) / min(1, 1 - m)`. -/
theorem C119_ellipk (hF : Format p q fl flq K) {m s : ℝ} (hs : 0 < s) (hs1 : s ≤ 1) (hm : s ≤ 1 - m) {N : ℕ} (hN : N ≤ 1000)
    (hN4 : 11 * K * (2 - m) ≤ 4 ^ N * s) :
    ∃ v, ellipkF fl flq K m = .num v ∧ |v - legF (Real.pi / 2) m| ≤ (6 * N + 16) * (2 ^ p)⁻¹ * legF (Real.pi / 2) m := by
  have hp1 : 1 ≤ p := by have := hF.bits; omega
  have hw := w_ge hF.bits
  have hu := unit24 hF.bits
  have hu0 : (0 : ℝ) < (2 ^ p)⁻¹ := by positivity
  have h1m : 0 < 1 - m := by linarith
  have d1 := near_fl hF.near hp1 h1m.le
  have d0 := d1.pos hw h1m
  have hwp := w_pow_le hF.bits (show 1 ≤ 10000 by omega)
  have hup : fl (1 - m) ≤ 101 / 100 * (1 - m) := d1.1.trans (by gcongr)
  have hlow : 100 / 101 * s ≤ fl (1 - m) := by
    have := d1.2.trans (mul_le_mul_of_nonneg_right hwp d0.le)
    linarith
  rw [(complete_eq (by linarith : m < 1)).1]
  unfold ellipkF
  have hK := hF.K_pos
  have h2m : 0 < 2 - m := by linarith
  obtain ⟨v, hv, hb⟩ := rf_accurate hF (s := 100 / 101 * s) (S := 2 - m) (by positivity) (x := 0) (y := fl (1 - m)) (z := 1)
    (Or.inl ⟨le_rfl, hlow, by linarith⟩) hN (by linarith) (by nlinarith [mul_pos hK h2m])
  refine ⟨v, hv, ?_⟩
  have hA : Args 0 (1 - m) 1 := ⟨le_rfl, h1m.le, zero_le_one, by linarith, by linarith, by linarith⟩
  have hA' : Args 0 (fl (1 - m)) 1 := ⟨le_rfl, d0.le, zero_le_one, by linarith, by linarith, by linarith⟩
  have r : ∀ t : ℝ, 0 ≤ t → Near (1 - ((2 : ℝ) ^ p)⁻¹)⁻¹ (2 * 1) t t := fun t ht => (Near.refl t).mono hw (by omega) ht ht
  have hRn := RF_near (k := 1) hw hA' hA (r 0 le_rfl) (d1.mono hw (by omega) d0.le h1m.le) (r 1 zero_le_one)
  have hR := RF_pos hA
  have e1 := Near.abs_le hu0.le (by norm_num; linarith) (by linarith) hR.le hRn
  push_cast at e1
  rw [show 11 / 10 * (1 * ((2 : ℝ) ^ p)⁻¹) = 11 / 10 * (2 ^ p)⁻¹ by ring] at e1
  generalize RF 0 (1 - m) 1 = R at *
  generalize RF 0 (fl (1 - m)) 1 = R' at *
  have hNr : (N : ℝ) ≤ 1000 := by exact_mod_cast hN
  generalize ((2 : ℝ) ^ p)⁻¹ = u at *
  have hcu : (6 * (N : ℝ) + 14) * u ≤ 1 / 1000 := by
    calc (6 * (N : ℝ) + 14) * u ≤ (6 * 1000 + 14) * (1 / 16777216) := by gcongr
      _ ≤ _ := by norm_num
  have s1 := abs_sub_le v R' R
  have h1 : (6 * (N : ℝ) + 14) * u * R' ≤ (6 * N + 14) * u * (1 + 11 / 10 * u) * R := by
    have : R' ≤ (1 + 11 / 10 * u) * R := by have := (abs_le.mp e1).2; linarith
    calc (6 * (N : ℝ) + 14) * u * R' ≤ (6 * N + 14) * u * ((1 + 11 / 10 * u) * R) := by gcongr
      _ = _ := by ring
  have h2 : (6 * (N : ℝ) + 14) * u * (1 + 11 / 10 * u) ≤ (6 * N + 14) * u + 1 / 1000 * (11 / 10 * u) := by
    rw [mul_add, mul_one]
    gcongr
  have h3 := mul_le_mul_of_nonneg_right h2 hR.le
  have h4 : ((6 * (N : ℝ) + 14) * u + 1 / 1000 * (11 / 10 * u)) * R + 11 / 10 * u * R ≤ (6 * N + 16) * u * R := by
    have : 0 ≤ u * R := by positivity
    nlinarith
  linarith

/-! ### The hypotheses are met -/

/-- Double precision with an exactly computed power. -/
theorem format_double : ∃ K : ℝ, K ≤ 4000 ∧ Format 53 53 (rnd 53) (rnd 53) K := by
  obtain ⟨ε, hε0, -, hε6, hεK, -⟩ := eps_tolerance (p := 53) (by norm_num)
  have hF : Format 53 53 (rnd 53) (rnd 53) (1 / ε) := by
    refine ⟨nearest_rnd (by norm_num), by norm_num, nearest_rnd (by norm_num), le_rfl, ?_⟩
    have e : (2 * ((2 : ℝ) ^ 53)⁻¹ * (1 / 1000000) * 3) ^ (-(1 / 6) : ℝ) = 1 / ε := hεK
    rw [e, sub_self, abs_zero]
    positivity
  refine ⟨1 / ε, ?_, hF⟩
  rw [div_le_iff₀ hε0]
  by_contra hc
  have h1 : ε < 1 / 4000 := by linarith
  have h2 : ε ^ 6 < (1 / 4000) ^ 6 := by gcongr
  rw [hε6] at h2
  norm_num at h2

/-- `elliprf(1, 2, 3)` in double precision: at most 9 steps, relative error at most 68 units of roundoff. -/
example : ∃ K v, elliprfF (rnd 53) (rnd 53) K 1 2 3 = .num v ∧ |v - RF 1 2 3| ≤ 68 * (2 ^ 53)⁻¹ * RF 1 2 3 := by
  obtain ⟨K, hK, hF⟩ := format_double
  obtain ⟨v, hv, hb⟩ := C119_elliprf hF (x := 1) (y := 2) (z := 3) (s := 2) (by norm_num) (Or.inl ⟨by norm_num, by norm_num, by norm_num⟩) (N := 9)
    (by norm_num) (by norm_num; linarith)
  exact ⟨K, v, hv, by norm_num at hb ⊢; exact hb⟩

/-- `ellipk` at a parameter within `2^-50` of 1: at most 34 steps. -/
example : ∃ K v, ellipkF (rnd 53) (rnd 53) K (1 - 1 / 2 ^ 50) = .num v := by
  obtain ⟨K, hK, hF⟩ := format_double
  obtain ⟨v, hv, -⟩ := C119_ellipk hF (m := 1 - 1 / 2 ^ 50) (s := 1 / 2 ^ 50) (by norm_num) (by norm_num) (by norm_num) (N := 34)
    (by norm_num) (by norm_num; linarith)
  exact ⟨K, v, hv⟩

/-- The principal value at `x = 1`, `y = -1`. -/
example : ∃ K v, elliprcF (rnd 53) (rnd 53) K 1 (-1) = .num v := by
  obtain ⟨K, hK, hF⟩ := format_double
  obtain ⟨v, hv, -⟩ := C119_elliprc_pv hF (x := 1) (y := -1) (by norm_num) (by norm_num) (N := 9) (by norm_num) (by norm_num; linarith)
  exact ⟨K, v, hv⟩

end Verif.Carlson.Flt

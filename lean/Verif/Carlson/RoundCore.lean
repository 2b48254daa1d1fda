import Verif.Carlson.Round

/-! # Rounding in the loop of elliprf -/

namespace Verif.Carlson.Flt

open Verif.Round

variable {p : ℕ} {fl : ℝ → ℝ}

/-- What is needed of the factor `K`. -/
theorem K_bounds {K ε : ℝ} (hε0 : 0 < ε) (hK : |K - 1 / ε| ≤ 1 / 100 * K) : 0 < K ∧ 1 ≤ 101 / 100 * (K * ε) := by
  have hK0 : 0 < K := by
    have h1 := (abs_nonneg _).trans hK
    rcases eq_or_lt_of_le (show 0 ≤ K by linarith) with hz | hz
    · rw [← hz] at hK
      have : (0 : ℝ) < 1 / ε := by positivity
      rw [zero_sub, abs_neg, abs_of_pos this] at hK
      linarith
    · exact hz
  refine ⟨hK0, ?_⟩
  have := (abs_le.mp hK).1
  have h2 : 1 / ε ≤ 101 / 100 * K := by linarith
  rw [div_le_iff₀ hε0] at h2
  linarith

/-- The rounded difference from the mean, from above. -/
theorem diff_up (hf : Nearest p fl) (hp : 24 ≤ p) {A0 a S : ℝ} (hA0 : 0 ≤ A0) (hA0n : Near (1 - (2 ^ p)⁻¹)⁻¹ 3 A0 (S / 3)) (hS : 0 ≤ S) (ha : 0 ≤ a)
    (haS : a ≤ S) : |fl (A0 - a)| ≤ 1001 / 1000 * S := by
  have hu := unit24 hp
  have hA0S : A0 ≤ S := by
    have h2 := w_pow_le hp (show 3 ≤ 10000 by omega)
    calc A0 ≤ 101 / 100 * (S / 3) := hA0n.1.trans (by gcongr)
      _ ≤ _ := by linarith
  obtain ⟨δ, b, e⟩ := hf.factor (by omega) (A0 - a)
  have h1 : |A0 - a| ≤ S := by rw [abs_le]; constructor <;> linarith
  have h2 : |1 + δ| ≤ 1001 / 1000 := by have := abs_le.mp b; rw [abs_le]; constructor <;> linarith
  rw [e, mul_comm]
  exact abs_mul_le h2 h1

/-- `Q` from above. -/
theorem Q_up {q : ℕ} {flq : ℝ → ℝ} (hq : Nearest q flq) (hq24 : 24 ≤ q) {K m S : ℝ} (hK : 0 < K) (hm0 : 0 ≤ m) (hm : m ≤ 1001 / 1000 * S) :
    flq (K * m) ≤ 1002 / 1000 * (K * S) := by
  obtain ⟨δq, bq, eq⟩ := hq.factor (by omega) (K * m)
  have hδq : |δq| ≤ 1 / 16777216 := bq.trans (unit24 hq24)
  have hq1 : 1 + δq ≤ 1000001 / 1000000 := by have := (abs_le.mp hδq).2; linarith
  have hS : 0 ≤ S := by linarith
  rw [eq]
  calc K * m * (1 + δq) ≤ K * (1001 / 1000 * S) * (1000001 / 1000000) := by
        have : 0 ≤ 1 + δq := by have := (abs_le.mp hδq).1; linarith
        gcongr
    _ = 1001 / 1000 * (1000001 / 1000000) * (K * S) := by ring
    _ ≤ _ := by gcongr; norm_num

/-- `Q` from below. -/
theorem Q_low {q : ℕ} {flq : ℝ → ℝ} (hf : Nearest p fl) (hp : 24 ≤ p) (hq : Nearest q flq) (hq24 : 24 ≤ q) {K m d : ℝ} (hK : 0 < K)
    (hm : |fl d| ≤ m) : 998 / 1000 * (K * |d|) ≤ flq (K * m) := by
  have hu := unit24 hp
  obtain ⟨δq, bq, eq⟩ := hq.factor (by omega) (K * m)
  have hδq : |δq| ≤ 1 / 16777216 := bq.trans (unit24 hq24)
  obtain ⟨δ, b, e⟩ := hf.factor (by omega) d
  have hm0 : 0 ≤ m := (abs_nonneg _).trans hm
  have h1 : 999 / 1000 * |d| ≤ m := by
    refine le_trans ?_ hm
    rw [e, abs_mul, mul_comm]
    have : 999 / 1000 ≤ |1 + δ| := by
      have := (abs_le.mp b).1
      exact le_trans (by linarith) (le_abs_self _)
    gcongr
  have hq1 : 999 / 1000 ≤ 1 + δq := by have := (abs_le.mp hδq).1; linarith
  rw [eq]
  calc 998 / 1000 * (K * |d|) ≤ 999 / 1000 * (999 / 1000) * (K * |d|) := by gcongr; norm_num
    _ = K * (999 / 1000 * |d|) * (999 / 1000) := by ring
    _ ≤ _ := by gcongr

/-- The test of the loop fails after `N` steps. -/
theorem stop (hp : 24 ≤ p) {x y z A0 K Q : ℝ} {N : ℕ} {st : RState} (h : Args x y z) (hN : N ≤ 1000) (hI : Inv p x y z A0 N st)
    (hQup : Q ≤ 1002 / 1000 * (K * (x + y + z))) (hN4 : 7 / 2 * K * (x + y + z) * RF x y z ^ 2 ≤ 4 ^ N) : st.pow4 * Q ≤ |st.A| := by
  have hw := w_ge hp
  have hRF := RF_pos h
  have hSs := isNonneg_args hI.args
  have hR := RF_pos hI.args
  have hAp := hI.mean.pos hw (by positivity)
  rw [abs_of_pos hAp, hI.pow4]
  -- A from below
  have l1 : 1 ≤ (st.x + st.y + st.z) * RF st.x st.y st.z ^ 2 := by
    have := RF_lower (M := st.x + st.y + st.z) hI.args (by linarith [hI.args.yz]) (by linarith [hI.args.xz]) (by linarith [hI.args.xy]) hSs
    have hs := Real.sqrt_pos.mpr hSs
    rw [div_le_iff₀ hs] at this
    calc (1 : ℝ) = 1 ^ 2 := by norm_num
      _ ≤ (RF st.x st.y st.z * √(st.x + st.y + st.z)) ^ 2 := by gcongr
      _ = _ := by rw [mul_pow, Real.sq_sqrt hSs.le]; ring
  have l2 : (st.x + st.y + st.z) / 3 ≤ (1 - (2 ^ p)⁻¹)⁻¹ ^ (3 + 2 * N) * st.A := hI.mean.2
  have l3 : RF st.x st.y st.z ≤ (1 - (2 ^ p)⁻¹)⁻¹ ^ (3 * N) * RF x y z := hI.rf.1
  have l4 : 1 ≤ 303 / 100 * (st.A * RF x y z ^ 2) := by
    have hwp := w_pow_le hp (show 3 + 8 * N ≤ 10000 by omega)
    have hwn : 0 ≤ (1 - ((2 : ℝ) ^ p)⁻¹)⁻¹ := by linarith
    calc (1 : ℝ) ≤ (st.x + st.y + st.z) * RF st.x st.y st.z ^ 2 := l1
      _ ≤ 3 * ((1 - (2 ^ p)⁻¹)⁻¹ ^ (3 + 2 * N) * st.A) * ((1 - (2 ^ p)⁻¹)⁻¹ ^ (3 * N) * RF x y z) ^ 2 := by gcongr; linarith
      _ = 3 * ((1 - (2 ^ p)⁻¹)⁻¹ ^ (3 + 8 * N)) * (st.A * RF x y z ^ 2) := by
        rw [show 3 + 8 * N = (3 + 2 * N) + (3 * N) * 2 by ring, pow_add _ (3 + 2 * N), pow_mul _ (3 * N) 2]; ring
      _ ≤ 3 * (101 / 100) * (st.A * RF x y z ^ 2) := by gcongr
      _ = _ := by ring
  have h4 : (0 : ℝ) < 4 ^ N := by positivity
  rw [one_div, inv_pow, inv_mul_eq_div, div_le_iff₀ h4]
  refine hQup.trans ?_
  have hR2 : 0 < RF x y z ^ 2 := by positivity
  refine le_of_mul_le_mul_right ?_ hR2
  have l5 : 4 ^ N ≤ 303 / 100 * (st.A * RF x y z ^ 2) * 4 ^ N := by nlinarith
  calc 1002 / 1000 * (K * (x + y + z)) * RF x y z ^ 2 = 1002 / 3500 * (7 / 2 * K * (x + y + z) * RF x y z ^ 2) := by ring
    _ ≤ 1002 / 3500 * (303 / 100 * (st.A * RF x y z ^ 2) * 4 ^ N) := mul_le_mul_of_nonneg_left (hN4.trans l5) (by norm_num)
    _ = 1002 / 3500 * (303 / 100) * (st.A * 4 ^ N * RF x y z ^ 2) := by ring
    _ ≤ 1 * (st.A * 4 ^ N * RF x y z ^ 2) := by gcongr; norm_num
    _ = _ := by ring

/-- At the end of the loop a difference from the mean is small. -/
theorem exit_small {K ε A q d Q : ℝ} (hA : 0 < A) (hq : 0 ≤ q) (hε : 0 < ε) (hKε : 1 ≤ 101 / 100 * (K * ε)) (hlow : 998 / 1000 * (K * |d|) ≤ Q)
    (hexit : q * Q ≤ A) : |q * d / A| ≤ 102 / 100 * ε := by
  rw [abs_div, abs_mul, abs_of_nonneg hq, abs_of_pos hA, div_le_iff₀ hA]
  have h2 : q * (998 / 1000 * (K * |d|)) ≤ A := le_trans (by gcongr) hexit
  have hX0 : 0 ≤ q * |d| := by positivity
  have h3 : K * (q * |d|) ≤ 1003 / 1000 * A := by
    have : q * (998 / 1000 * (K * |d|)) = 998 / 1000 * (K * (q * |d|)) := by ring
    linarith
  calc q * |d| = 1 * (q * |d|) := by ring
    _ ≤ 101 / 100 * (K * ε) * (q * |d|) := by gcongr
    _ = 101 / 100 * ε * (K * (q * |d|)) := by ring
    _ ≤ 101 / 100 * ε * (1003 / 1000 * A) := by gcongr
    _ = 101 / 100 * (1003 / 1000) * (ε * A) := by ring
    _ ≤ 102 / 100 * (ε * A) := by gcongr; norm_num
    _ = _ := by ring

/-- The computed mean against the mean of the final arguments. -/
theorem mean_close (hp : 24 ≤ p) {A M : ℝ} {n : ℕ} (hn : n ≤ 1000) (hA : 0 ≤ A) (h : Near (1 - (2 ^ p)⁻¹)⁻¹ (3 + 2 * n) A M) :
    |M - A| ≤ 11 / 10 * ((3 + 2 * n : ℕ) * (2 ^ p)⁻¹) * A := by
  have hu := unit24 hp
  have hu0 : (0 : ℝ) < (2 ^ p)⁻¹ := by positivity
  have hnr : (n : ℝ) ≤ 1000 := by exact_mod_cast hn
  refine Near.abs_le hu0.le ?_ (by linarith) hA h.symm
  have : ((3 + 2 * n : ℕ) : ℝ) ≤ 2003 := by push_cast; linarith
  calc ((3 + 2 * n : ℕ) : ℝ) * (2 ^ p)⁻¹ ≤ 2003 * (1 / 16777216) := by gcongr
    _ ≤ _ := by norm_num

/-- A reduced variable as computed by `elliprf`. -/
theorem reduced_rf (hf : Nearest p fl) (hp : 24 ≤ p) {A M a b q A0 ε : ℝ} {n : ℕ} (hn : n ≤ 1000) (hA : 0 < A) (hM : 0 < M) (hb : 0 ≤ b) (hbM : b ≤ 3 * M)
    (hmean : Near (1 - (2 ^ p)⁻¹)⁻¹ (3 + 2 * n) A M) (hε100 : ε ≤ 1 / 100) (hred : |q * (A0 - a) / A| ≤ 102 / 100 * ε)
    (hη : (18 * (n : ℝ) + 10) * (2 ^ p)⁻¹ ≤ ε / 4) (hdiff : |A - b - q * (A0 - a)| ≤ 51 / 5 * (n * ((1 - (2 ^ p)⁻¹)⁻¹ ^ n * (2 ^ p)⁻¹)) * M) :
    |fl (fl (A0 - a) * fl (q / A)) - (M - b) / M| ≤ (18 * n + 10) * (2 ^ p)⁻¹ ∧ |fl (fl (A0 - a) * fl (q / A))| ≤ 103 / 100 * ε ∧
      |(M - b) / M| ≤ 128 / 100 * ε := by
  have hu := unit24 hp
  have hu0 : (0 : ℝ) < (2 ^ p)⁻¹ := by positivity
  have hp1 : 1 ≤ p := by omega
  obtain ⟨δ1, b1, e1⟩ := hf.factor hp1 (A0 - a)
  obtain ⟨δt, bt, et⟩ := hf.factor hp1 (q / A)
  obtain ⟨δ3, b3, e3⟩ := hf.factor hp1 (fl (A0 - a) * fl (q / A))
  have hε0 : 0 ≤ ε := by linarith [(abs_nonneg _).trans hred]
  have c1 := reduced_close hn hu0 hu hA hM hb hbM (mean_close hp hn hA.le hmean) (w_pow_le hp (show n ≤ 10000 by omega)) hdiff
    (show 102 / 100 * ε ≤ 1 / 40 by linarith) hred bt b1 b3 et e1
  rw [← e3] at c1
  have c2 : |fl (fl (A0 - a) * fl (q / A))| ≤ 103 / 100 * ε := by
    rw [e3, e1, et, show (A0 - a) * (1 + δ1) * (q / A * (1 + δt)) * (1 + δ3) = q * (A0 - a) / A * ((1 + δ1) * (1 + δt) * (1 + δ3)) by ring]
    have g : ∀ δ : ℝ, |δ| ≤ (2 ^ p)⁻¹ → |1 + δ| ≤ 1001 / 1000 := fun δ hδ => by
      have := abs_le.mp hδ
      rw [abs_le]; constructor <;> linarith
    refine (abs_mul_le hred (abs_mul_le (abs_mul_le (g _ b1) (g _ bt)) (g _ b3))).trans ?_
    calc 102 / 100 * ε * (1001 / 1000 * (1001 / 1000) * (1001 / 1000)) = 102 / 100 * (1001 / 1000 * (1001 / 1000) * (1001 / 1000)) * ε := by ring
      _ ≤ _ := by gcongr; norm_num
  refine ⟨c1, c2, ?_⟩
  have e : (M - b) / M = fl (fl (A0 - a) * fl (q / A)) - (fl (fl (A0 - a) * fl (q / A)) - (M - b) / M) := by ring
  rw [e]
  refine (abs_sub _ _).trans ?_
  linarith

/-- From the value of the polynomial to the result. -/
theorem finish (hf : Nearest p fl) (hp : 24 ≤ p) {A M P Ph R R' : ℝ} {n : ℕ} (hn : n ≤ 1000) (hA : 0 < A) (hM : 0 < M)
    (hmean : Near (1 - (2 ^ p)⁻¹)⁻¹ (3 + 2 * n) A M) (hP : 9 / 10 ≤ P) (hdist : |Ph - P| ≤ (72 / 100 * n + 7) * (2 ^ p)⁻¹)
    (hscale : R' = P * (√M)⁻¹) (hR : Near (1 - (2 ^ p)⁻¹)⁻¹ (3 * n) R' R) (hR0 : 0 < R) : |fl (Ph / fl √A) - R| ≤ (6 * n + 14) * (2 ^ p)⁻¹ * R := by
  have hu := unit24 hp
  have hu0 : (0 : ℝ) < (2 ^ p)⁻¹ := by positivity
  have hp1 : 1 ≤ p := by omega
  have hw := w_ge hp
  have hnr : (n : ℝ) ≤ 1000 := by exact_mod_cast hn
  have hsmall : (72 / 100 * (n : ℝ) + 7) * (2 ^ p)⁻¹ ≤ 1 / 100 := by
    calc (72 / 100 * (n : ℝ) + 7) * (2 ^ p)⁻¹ ≤ (72 / 100 * 1000 + 7) * (1 / 16777216) := by gcongr
      _ ≤ _ := by norm_num
  have hPh : 89 / 100 ≤ Ph := by have := (abs_le.mp hdist).1; linarith
  have hPn : Near (1 - (2 ^ p)⁻¹)⁻¹ (n + 8) Ph P := by
    have hb2 : ∀ B : ℝ, 89 / 100 ≤ B → (72 / 100 * (n : ℝ) + 7) * (2 ^ p)⁻¹ ≤ (n + 8 : ℕ) * (2 ^ p)⁻¹ * B := fun B hB => by
      calc (72 / 100 * (n : ℝ) + 7) * (2 ^ p)⁻¹ ≤ ((n + 8 : ℕ) * (89 / 100)) * (2 ^ p)⁻¹ := by
            gcongr; push_cast; linarith [(Nat.cast_nonneg n : (0 : ℝ) ≤ n)]
        _ = (n + 8 : ℕ) * (2 ^ p)⁻¹ * (89 / 100) := by ring
        _ ≤ _ := by gcongr
    exact Near.of_abs hu0.le (by linarith) (by linarith) (by linarith) (hdist.trans (hb2 _ (by linarith))) (hdist.trans (hb2 _ hPh))
  have hsA : 0 < √A := Real.sqrt_pos.mpr hA
  have hsM : 0 < √M := Real.sqrt_pos.mpr hM
  have hroot : Near (1 - (2 ^ p)⁻¹)⁻¹ (n + 2) (√A) (√M) := Near.sqrt hw (hmean.mono hw (by omega) hA.le hM.le)
  have hfl := (near_fl hf hp1 hsA.le).trans hw hroot
  have hflp : 0 < fl √A := hfl.pos hw hsM
  have hquot := hPn.mul hw (hfl.inv hflp hsM) (by linarith) (by positivity)
  have hfin := (near_fl hf hp1 (show 0 ≤ Ph * (fl √A)⁻¹ from mul_nonneg (by linarith) (by positivity))).trans hw hquot
  rw [← hscale] at hfin
  have hall := hfin.trans hw hR
  have hk : ((1 + (n + 8 + (1 + (n + 2))) + 3 * n : ℕ) : ℝ) = 5 * n + 12 := by push_cast; ring
  have := Near.abs_le hu0.le (by
    rw [hk]
    calc (5 * (n : ℝ) + 12) * (2 ^ p)⁻¹ ≤ (5 * 1000 + 12) * (1 / 16777216) := by gcongr
      _ ≤ _ := by norm_num) (by linarith) hR0.le hall
  rw [hk] at this
  rw [div_eq_mul_inv]
  refine this.trans ?_
  gcongr ?_ * _
  have : 11 / 10 * ((5 * (n : ℝ) + 12) * (2 ^ p)⁻¹) = (11 / 2 * n + 66 / 5) * (2 ^ p)⁻¹ := by ring
  rw [this]
  gcongr ?_ * _
  linarith [(Nat.cast_nonneg n : (0 : ℝ) ≤ n)]

/-- The errors of the reduced variables are small against the tolerance. -/
theorem eta_small {ε : ℝ} {n : ℕ} (hn : n ≤ 1000) (hεu : 72040 * ((2 : ℝ) ^ p)⁻¹ ≤ ε) : (18 * (n : ℝ) + 10) * (2 ^ p)⁻¹ ≤ ε / 4 := by
  have hnr : (n : ℝ) ≤ 1000 := by exact_mod_cast hn
  have : (18 * (n : ℝ) + 10) * (2 ^ p)⁻¹ ≤ 18010 * (2 ^ p)⁻¹ := by gcongr; linarith
  linarith

/-- The error of the polynomial against `R_F`. -/
theorem poly_rf {q : ℕ} {flq : ℝ → ℝ} (hf : Nearest p fl) (hp : 24 ≤ p) (hq : Nearest q flq) (hpq : p ≤ q) {ε X Y Z Xh Yh : ℝ} {n : ℕ}
    (hε100 : ε ≤ 1 / 100) (hε6 : ε ^ 6 = 6 / 1000000 * (2 ^ p)⁻¹) (hsum : X + Y + Z = 0)
    (x1 : |Xh - X| ≤ (18 * n + 10) * (2 ^ p)⁻¹) (x2 : |Xh| ≤ 103 / 100 * ε) (x3 : |X| ≤ 128 / 100 * ε)
    (y1 : |Yh - Y| ≤ (18 * n + 10) * (2 ^ p)⁻¹) (y2 : |Yh| ≤ 103 / 100 * ε) (y3 : |Y| ≤ 128 / 100 * ε) :
    |fPolyF fl flq Xh Yh - RF (1 - X) (1 - Y) (1 - Z)| ≤ (72 / 100 * n + 7) * (2 ^ p)⁻¹ ∧ 9 / 10 ≤ RF (1 - X) (1 - Y) (1 - Z) := by
  have hu := unit24 hp
  have hu0 : (0 : ℝ) < (2 ^ p)⁻¹ := by positivity
  have hε0 : 0 ≤ ε := by linarith [(abs_nonneg _).trans x2]
  have hZ : |Z| ≤ 256 / 100 * ε := by
    rw [show Z = -(X + Y) by linarith, abs_neg]
    exact (abs_add_le _ _).trans (by linarith)
  have hser := RF_series X Y Z (256 / 100 * ε) (by linarith) (by linarith) (by linarith) hZ hsum
  rw [show 1 - (X * Y + X * Z + Y * Z) / 10 + (X * Y + X * Z + Y * Z) ^ 2 / 24 + X * Y * Z / 14 -
        (X * Y + X * Z + Y * Z) * (X * Y * Z) * (3 / 44) = polyR X Y by rw [show Z = -(X + Y) by linarith, polyR]; ring] at hser
  generalize RF (1 - X) (1 - Y) (1 - Z) = P at *
  have hser' : |P - polyR X Y| ≤ 1 / 1000 * (2 ^ p)⁻¹ := by
    refine hser.trans ?_
    rw [mul_pow, hε6]
    have : (256 / 100 : ℝ) ^ 6 * (6 / 1000000 * (2 ^ p)⁻¹) / 2 = (256 / 100) ^ 6 * (3 / 1000000) * (2 ^ p)⁻¹ := by ring
    rw [this]
    gcongr
    norm_num
  have hround := poly_round hf hp hq hpq (show |Xh| ≤ 1 / 40 by linarith) (show |Yh| ≤ 1 / 40 by linarith)
  have hlip := poly_lip (show |Xh| ≤ 1 / 40 by linarith) (show |Yh| ≤ 1 / 40 by linarith) (show |X| ≤ 1 / 40 by linarith)
    (show |Y| ≤ 1 / 40 by linarith) (add_le_add x1 y1)
  have hb := polyR_bounds (show |X| ≤ 1 / 40 by linarith) (show |Y| ≤ 1 / 40 by linarith)
  constructor
  · have e : fPolyF fl flq Xh Yh - P = (fPolyF fl flq Xh Yh - polyR Xh Yh) + (polyR Xh Yh - polyR X Y) - (P - polyR X Y) := by ring
    have s1 := abs_sub (fPolyF fl flq Xh Yh - polyR Xh Yh + (polyR Xh Yh - polyR X Y)) (P - polyR X Y)
    have s2 := abs_add_le (fPolyF fl flq Xh Yh - polyR Xh Yh) (polyR Xh Yh - polyR X Y)
    rw [e]
    have e2 : ((18 * (n : ℝ) + 10) * (2 ^ p)⁻¹ + (18 * n + 10) * (2 ^ p)⁻¹) / 50 = 72 / 100 * (n * (2 ^ p)⁻¹) + 2 / 5 * (2 ^ p)⁻¹ := by ring
    have e3 : (72 / 100 * (n : ℝ) + 7) * (2 ^ p)⁻¹ = 72 / 100 * (n * (2 ^ p)⁻¹) + 7 * (2 ^ p)⁻¹ := by ring
    rw [e2] at hlip
    rw [e3]
    linarith
  · have := (abs_le.mp hb).1
    have := (abs_le.mp hser').1
    linarith

/-- For arguments at most one of which is zero, the loop of `elliprf` ends after at most `N` steps if `4^N ≥ 7/2 K (x+y+z) R_F²`, and the result has a
relative error of at most `6 N + 14` units of roundoff. -/
theorem core_accurate {q : ℕ} {flq : ℝ → ℝ} (hf : Nearest p fl) (hp : 24 ≤ p) (hq : Nearest q flq) (hpq : p ≤ q) {K : ℝ}
    (hK : |K - (EPS (2 * (2 ^ p)⁻¹) * 3) ^ (-(1 / 6) : ℝ)| ≤ 1 / 100 * K) {x y z : ℝ} (h : Args x y z) {N : ℕ} (hN : N ≤ 1000)
    (hN4 : 7 / 2 * K * (x + y + z) * RF x y z ^ 2 ≤ 4 ^ N) :
    ∃ v, elliprfCoreF fl flq K x y z = some v ∧ |v - RF x y z| ≤ (6 * N + 14) * (2 ^ p)⁻¹ * RF x y z := by
  have hw := w_ge hp
  obtain ⟨ε, hε0, hε100, hε6, hεK, hεu⟩ := eps_tolerance hp
  rw [hεK] at hK
  obtain ⟨hK0, hKε⟩ := K_bounds hε0 hK
  obtain ⟨A0, hA0⟩ : ∃ A0, A0 = fA0F fl x y z := ⟨_, rfl⟩
  have hS := isNonneg_args h
  have hRF := RF_pos h
  have hA0n : Near (1 - (2 ^ p)⁻¹)⁻¹ 3 A0 ((x + y + z) / 3) := hA0 ▸ A0_near hf hp h.x0 h.y0 h.z0
  have hA0p : 0 < A0 := hA0n.pos hw (by positivity)
  have hinv : ∀ n ≤ 1001, Inv p x y z A0 n ((fStepF fl)^[n] ⟨x, y, z, A0, 1⟩) := by
    intro n
    induction n with
    | zero => intro _; rw [hA0]; exact inv_zero hf hp h
    | succ n ih =>
      intro hn
      rw [Function.iterate_succ_apply']
      exact inv_succ hf hp (by omega) (ih (by omega))
  obtain ⟨m, hm⟩ : ∃ m, m = max (max |fl (A0 - x)| |fl (A0 - y)|) |fl (A0 - z)| := ⟨_, rfl⟩
  have hm0 : 0 ≤ m := by rw [hm]; exact (abs_nonneg _).trans (le_max_right _ _)
  have hQm : hQF fl flq K A0 x y z = flq (K * m) := by rw [hm, hQF]
  have hmS : m ≤ 1001 / 1000 * (x + y + z) := by
    rw [hm]
    exact max_le (max_le (diff_up hf hp hA0p.le hA0n hS.le h.x0 (by linarith [h.yz])) (diff_up hf hp hA0p.le hA0n hS.le h.y0 (by linarith [h.xz])))
      (diff_up hf hp hA0p.le hA0n hS.le h.z0 (by linarith [h.xy]))
  have hQup := Q_up hq (hp.trans hpq) hK0 hm0 hmS
  rw [← hQm] at hQup
  have hstop := not_lt.mpr (stop hp h hN (hinv N (by omega)) hQup hN4)
  obtain ⟨n, hn, hexit, hmin⟩ := loopWhile_spec (cond := fun s : RState => s.pow4 * hQF fl flq K A0 x y z > |s.A|) (step := fStepF fl)
    (s := ⟨x, y, z, A0, 1⟩) ⟨N, hstop⟩
  have hnN : n ≤ N := by
    by_contra hc
    exact hstop (hmin N (by omega))
  have hI := hinv n (by omega)
  unfold elliprfCoreF
  rw [← hA0]
  simp only
  rw [hn]
  simp only
  refine ⟨_, rfl, ?_⟩
  generalize (fStepF fl)^[n] ⟨x, y, z, A0, 1⟩ = st at *
  obtain ⟨M, hMd⟩ : ∃ M, M = (st.x + st.y + st.z) / 3 := ⟨_, rfl⟩
  have hSs := isNonneg_args hI.args
  have hM0 : 0 < M := by rw [hMd]; positivity
  have hmean := hI.mean
  rw [← hMd] at hmean
  have hAp : 0 < st.A := hmean.pos hw hM0
  have hp40 : 0 ≤ st.pow4 := by rw [hI.pow4]; positivity
  rw [not_lt, hQm, abs_of_pos hAp] at hexit
  have hred : ∀ a, |fl (A0 - a)| ≤ m → |st.pow4 * (A0 - a) / st.A| ≤ 102 / 100 * ε := fun a ham =>
    exit_small hAp hp40 hε0 hKε (Q_low hf hp hq (hp.trans hpq) hK0 ham) hexit
  have hη := eta_small (p := p) (show n ≤ 1000 by omega) hεu
  have hx0 := hI.args.x0
  have hy0 := hI.args.y0
  have hz0 := hI.args.z0
  have hdx := hI.dx
  have hdy := hI.dy
  rw [← hMd] at hdx hdy
  obtain ⟨x1, x2, x3⟩ := reduced_rf hf hp (show n ≤ 1000 by omega) hAp hM0 hx0 (by rw [hMd]; linarith) hmean hε100
    (hred x (by rw [hm]; exact (le_max_left _ _).trans (le_max_left _ _))) hη hdx
  obtain ⟨y1, y2, y3⟩ := reduced_rf hf hp (show n ≤ 1000 by omega) hAp hM0 hy0 (by rw [hMd]; linarith) hmean hε100
    (hred y (by rw [hm]; exact (le_max_right _ _).trans (le_max_left _ _))) hη hdy
  have hsum : (M - st.x) / M + (M - st.y) / M + (M - st.z) / M = 0 := by field_simp; rw [hMd]; ring
  obtain ⟨hdist, hPlow⟩ := poly_rf hf hp hq hpq hε100 hε6 hsum x1 x2 x3 y1 y2 y3
  have hscale : RF st.x st.y st.z = RF (1 - (M - st.x) / M) (1 - (M - st.y) / M) (1 - (M - st.z) / M) * (√M)⁻¹ := by
    have a1 : ∀ t : ℝ, t = M * (1 - (M - t) / M) := fun t => by field_simp; ring
    rw [← div_eq_mul_inv, ← RF_scale _ _ _ _ hM0, ← a1, ← a1, ← a1]
  refine (finish hf hp (by omega) hAp hM0 hmean hPlow hdist hscale hI.rf hRF).trans ?_
  have hnN' : (n : ℝ) ≤ N := by exact_mod_cast hnN
  gcongr

end Verif.Carlson.Flt

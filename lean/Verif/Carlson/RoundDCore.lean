import Verif.Carlson.RoundDPoly

/-! # Rounding in elliprd: from the loop to the result -/

namespace Verif.Carlson.Flt

open Verif.Round

variable {p : ℕ} {fl : ℝ → ℝ}

/-- The computed reduced variable against the exact one of the final arguments. -/
theorem reduced_closeD {A M a q d u w ε t D : ℝ} {n : ℕ} (hn : n ≤ 1000) (hu0 : 0 < u) (hu : u ≤ 1 / 16777216) (hA : 0 < A) (hM : 0 < M) (ha : 0 ≤ a)
    (haM : a ≤ 5 * M) (hAM : |M - A| ≤ 11 / 10 * ((3 + 2 * n : ℕ) * u) * A) (hwn : w ^ n ≤ 101 / 100) (hd : |A - a - q * d| ≤ 82 / 5 * (n * (w ^ n * u)) * M)
    (hε : ε ≤ 1 / 40) (hq : |q * d / A| ≤ ε) {δ1 δ2 δ3 : ℝ} (b1 : |δ1| ≤ u) (b2 : |δ2| ≤ u) (b3 : |δ3| ≤ u) (ht : t = q / A * (1 + δ1))
    (hD : D = d * (1 + δ2)) : |D * t * (1 + δ3) - (M - a) / M| ≤ (28 * n + 17) * u := by
  have hnr : (n : ℝ) ≤ 1000 := by exact_mod_cast hn
  have hMA : |M - A| ≤ 1 / 1000 * A := by
    refine hAM.trans ?_
    gcongr
    push_cast
    nlinarith
  have hM2 : M ≤ 1001 / 1000 * A := by have := (abs_le.mp hMA).2; linarith
  have e : D * t * (1 + δ3) - (M - a) / M =
      q * d / A * ((1 + δ1) * (1 + δ2) * (1 + δ3) - 1) + (-(A - a - q * d) / A) + a / M * ((A - M) / A) := by
    rw [hD, ht]; field_simp; ring
  have t1 : |q * d / A * ((1 + δ1) * (1 + δ2) * (1 + δ3) - 1)| ≤ 1 / 40 * (4 * u) := by
    refine abs_mul_le (hq.trans hε) ?_
    rw [show (1 + δ1) * (1 + δ2) * (1 + δ3) - 1 = δ1 + δ2 + δ3 + (δ1 * δ2 + δ1 * δ3 + δ2 * δ3 + δ1 * δ2 * δ3) by ring]
    have p1 := abs_mul_le b1 b2
    have p2 := abs_mul_le b1 b3
    have p3 := abs_mul_le b2 b3
    have p4 := abs_mul_le p1 b3
    have huu : u * u ≤ 1 / 16777216 * u := by gcongr
    have huuu : u * u * u ≤ 1 / 16777216 * u * 1 := by gcongr; linarith
    obtain ⟨l1, r1⟩ := abs_le.mp b1
    obtain ⟨l2, r2⟩ := abs_le.mp b2
    obtain ⟨l3, r3⟩ := abs_le.mp b3
    obtain ⟨l4, r4⟩ := abs_le.mp p1
    obtain ⟨l5, r5⟩ := abs_le.mp p2
    obtain ⟨l6, r6⟩ := abs_le.mp p3
    obtain ⟨l7, r7⟩ := abs_le.mp p4
    rw [abs_le]
    constructor <;> linarith
  have t2 : |-(A - a - q * d) / A| ≤ 167 / 10 * n * u := by
    rw [abs_div, abs_neg, abs_of_pos hA, div_le_iff₀ hA]
    refine hd.trans ?_
    calc 82 / 5 * (n * (w ^ n * u)) * M ≤ 82 / 5 * (n * (101 / 100 * u)) * (1001 / 1000 * A) := by gcongr
      _ = 82 / 5 * (101 / 100) * (1001 / 1000) * (n * u * A) := by ring
      _ ≤ 167 / 10 * (n * u * A) := by gcongr; norm_num
      _ = _ := by ring
  have t3 : |a / M * ((A - M) / A)| ≤ 5 * (11 / 10 * ((3 + 2 * n : ℕ) * u)) := by
    refine abs_mul_le ?_ ?_
    · rw [abs_of_nonneg (by positivity), div_le_iff₀ hM]; exact haM
    · rw [abs_div, abs_of_pos hA, div_le_iff₀ hA, abs_sub_comm]; exact hAM
  rw [e]
  have s1 := abs_add_le (q * d / A * ((1 + δ1) * (1 + δ2) * (1 + δ3) - 1) + (-(A - a - q * d) / A)) (a / M * ((A - M) / A))
  have s2 := abs_add_le (q * d / A * ((1 + δ1) * (1 + δ2) * (1 + δ3) - 1)) (-(A - a - q * d) / A)
  have hnu : 0 ≤ (n : ℝ) * u := by positivity
  push_cast at t3
  refine s1.trans ?_
  have : (28 * (n : ℝ) + 17) * u = 28 * (n * u) + 17 * u := by ring
  rw [this]
  have : 5 * (11 / 10 * ((3 + 2 * (n : ℝ)) * u)) = 11 * (n * u) + 33 / 2 * u := by ring
  have : 167 / 10 * (n : ℝ) * u = 167 / 10 * (n * u) := by ring
  linarith

/-- A reduced variable as computed by `elliprd`. -/
theorem reduced_rd (hf : Nearest p fl) (hp : 24 ≤ p) {A M a b q A0 ε : ℝ} {n : ℕ} (hn : n ≤ 1000) (hA : 0 < A) (hM : 0 < M) (hb : 0 ≤ b) (hbM : b ≤ 5 * M)
    (hmean : Near (1 - (2 ^ p)⁻¹)⁻¹ (3 + 2 * n) A M) (hε100 : ε ≤ 1 / 100) (hred : |q * (A0 - a) / A| ≤ 102 / 100 * ε)
    (hη : (28 * (n : ℝ) + 17) * (2 ^ p)⁻¹ ≤ ε / 2) (hdiff : |A - b - q * (A0 - a)| ≤ 82 / 5 * (n * ((1 - (2 ^ p)⁻¹)⁻¹ ^ n * (2 ^ p)⁻¹)) * M) :
    |fl (fl (A0 - a) * fl (q / A)) - (M - b) / M| ≤ (28 * n + 17) * (2 ^ p)⁻¹ ∧ |fl (fl (A0 - a) * fl (q / A))| ≤ 103 / 100 * ε ∧
      |(M - b) / M| ≤ 153 / 100 * ε := by
  have hu := unit24 hp
  have hu0 : (0 : ℝ) < (2 ^ p)⁻¹ := by positivity
  have hp1 : 1 ≤ p := by omega
  obtain ⟨δ1, b1, e1⟩ := hf.factor hp1 (A0 - a)
  obtain ⟨δt, bt, et⟩ := hf.factor hp1 (q / A)
  obtain ⟨δ3, b3, e3⟩ := hf.factor hp1 (fl (A0 - a) * fl (q / A))
  have hε0 : 0 ≤ ε := by linarith [(abs_nonneg _).trans hred]
  have c1 := reduced_closeD hn hu0 hu hA hM hb hbM (mean_close hp hn hA.le hmean) (w_pow_le hp (show n ≤ 10000 by omega)) hdiff
    (show 102 / 100 * ε ≤ 1 / 40 by linarith) hred bt b1 b3 et e1
  rw [← e3] at c1
  have c2 : |fl (fl (A0 - a) * fl (q / A))| ≤ 103 / 100 * ε := by
    rw [e3, e1, et, show (A0 - a) * (1 + δ1) * (q / A * (1 + δt)) * (1 + δ3) = q * (A0 - a) / A * ((1 + δ1) * (1 + δt) * (1 + δ3)) by ring]
    have g : ∀ δ : ℝ, |δ| ≤ (2 ^ p)⁻¹ → |1 + δ| ≤ 1001 / 1000 := fun δ hδ => by
      have := abs_le.mp hδ
      rw [abs_le]; constructor <;> linarith
    refine (abs_mul_le hred (abs_mul_le (abs_mul_le (g _ b1) (g _ bt)) (g _ b3))).trans ?_
    calc 102 / 100 * ε * (1001 / 1000 * (1001 / 1000) * (1001 / 1000)) = 102 / 100 * (1001 / 1000 * (1001 / 1000) * (1001 / 1000)) * ε := by ring
      _ ≤ _ := by gcongr; norm_num
  refine ⟨c1, c2, ?_⟩
  have e : (M - b) / M = fl (fl (A0 - a) * fl (q / A)) - (fl (fl (A0 - a) * fl (q / A)) - (M - b) / M) := by ring
  rw [e]
  refine (abs_sub _ _).trans ?_
  linarith

/-- The error of the polynomial against `R_D`. -/
theorem poly_rd {q : ℕ} {flq : ℝ → ℝ} (hf : Nearest p fl) (hp : 24 ≤ p) (hq : Nearest q flq) (hpq : p ≤ q) {ε X Y Z Xh Yh : ℝ} {n : ℕ}
    (hε100 : ε ≤ 1 / 100) (hε6 : ε ^ 6 = 1 / 2000000 * (2 ^ p)⁻¹) (hsum : X + Y + 3 * Z = 0)
    (x1 : |Xh - X| ≤ (28 * n + 17) * (2 ^ p)⁻¹) (x2 : |Xh| ≤ 103 / 100 * ε) (x3 : |X| ≤ 153 / 100 * ε)
    (y1 : |Yh - Y| ≤ (28 * n + 17) * (2 ^ p)⁻¹) (y2 : |Yh| ≤ 103 / 100 * ε) (y3 : |Y| ≤ 153 / 100 * ε) :
    |dPolyF fl flq Xh Yh - RD (1 - X) (1 - Y) (1 - Z)| ≤ (14 / 10 * n + 8) * (2 ^ p)⁻¹ ∧ 9 / 10 ≤ RD (1 - X) (1 - Y) (1 - Z) := by
  have hu := unit24 hp
  have hu0 : (0 : ℝ) < (2 ^ p)⁻¹ := by positivity
  have hε0 : 0 ≤ ε := by linarith [(abs_nonneg _).trans x2]
  have hZe : Z = -(X + Y) / 3 := by linarith
  have hZ : |Z| ≤ 153 / 100 * ε := by
    rw [hZe, abs_div, abs_neg, abs_of_pos (by norm_num : (0 : ℝ) < 3)]
    linarith [abs_add_le X Y]
  have hser := RJ_series X Y Z Z (153 / 100 * ε) (by linarith) x3 y3 hZ hZ (by linarith) _ _ _ _ rfl rfl rfl rfl
  rw [show 1 - 3 / 14 * (X * Y + X * Z + Y * Z - 3 * Z ^ 2) + (X * Y * Z + 2 * (X * Y + X * Z + Y * Z) * Z - 2 * Z ^ 3) / 6 +
        9 / 88 * (X * Y + X * Z + Y * Z - 3 * Z ^ 2) ^ 2 - 3 / 22 * (2 * X * Y * Z * Z + (X * Y + X * Z + Y * Z) * Z ^ 2) -
      9 / 52 * (X * Y + X * Z + Y * Z - 3 * Z ^ 2) * (X * Y * Z + 2 * (X * Y + X * Z + Y * Z) * Z - 2 * Z ^ 3) +
    3 / 26 * (X * Y * Z * Z ^ 2) = dpolyR X Y by rw [hZe, dpolyR, serD]; ring, ← RD_eq_RJ] at hser
  generalize RD (1 - X) (1 - Y) (1 - Z) = P at *
  have hser' : |P - dpolyR X Y| ≤ 1 / 1000 * (2 ^ p)⁻¹ := by
    refine hser.trans ?_
    rw [mul_pow, hε6]
    have : 10 * ((153 / 100 : ℝ) ^ 6 * (1 / 2000000 * (2 ^ p)⁻¹)) = 10 * (153 / 100) ^ 6 * (1 / 2000000) * (2 ^ p)⁻¹ := by ring
    rw [this]
    gcongr
    norm_num
  have hround := dpoly_round hf hp hq hpq (show |Xh| ≤ 1 / 40 by linarith) (show |Yh| ≤ 1 / 40 by linarith)
  have hlip := dpoly_lip (show |Xh| ≤ 1 / 40 by linarith) (show |Yh| ≤ 1 / 40 by linarith) (show |X| ≤ 1 / 40 by linarith)
    (show |Y| ≤ 1 / 40 by linarith) (add_le_add x1 y1)
  have hb := dpolyR_bounds (show |X| ≤ 1 / 40 by linarith) (show |Y| ≤ 1 / 40 by linarith)
  constructor
  · have e : dPolyF fl flq Xh Yh - P = (dPolyF fl flq Xh Yh - dpolyR Xh Yh) + (dpolyR Xh Yh - dpolyR X Y) - (P - dpolyR X Y) := by ring
    have s1 := abs_sub (dPolyF fl flq Xh Yh - dpolyR Xh Yh + (dpolyR Xh Yh - dpolyR X Y)) (P - dpolyR X Y)
    have s2 := abs_add_le (dPolyF fl flq Xh Yh - dpolyR Xh Yh) (dpolyR Xh Yh - dpolyR X Y)
    rw [e]
    have e2 : ((28 * (n : ℝ) + 17) * (2 ^ p)⁻¹ + (28 * n + 17) * (2 ^ p)⁻¹) / 40 = 14 / 10 * (n * (2 ^ p)⁻¹) + 17 / 20 * (2 ^ p)⁻¹ := by ring
    have e3 : (14 / 10 * (n : ℝ) + 8) * (2 ^ p)⁻¹ = 14 / 10 * (n * (2 ^ p)⁻¹) + 8 * (2 ^ p)⁻¹ := by ring
    rw [e2] at hlip
    rw [e3]
    linarith
  · have := (abs_le.mp hb).1
    have := (abs_le.mp hser').1
    linarith

/-- The test of the loop fails after `N` steps. -/
theorem stopD (hp : 24 ≤ p) {x y z A0 K Q : ℝ} {N : ℕ} {st : RDState} (h : Args x y z) (hN : N ≤ 1000) (hI : DInv p x y z A0 N st)
    (hQup : Q ≤ 1002 / 1000 * (K * (x + y + z))) (hN4 : 21 / 4 * K * (x + y + z) * RF x y z ^ 2 ≤ 4 ^ N) : st.pow4 * Q ≤ |st.A| := by
  have hw := w_ge hp
  obtain ⟨g, G, hG⟩ := hI.ghost
  have hRF := RF_pos h
  have hargs : Args st.x st.y st.z := hG.args
  have hSs := isNonneg_args hargs
  have hR := RF_pos hargs
  have hAp := hI.mean.pos hw (by linarith [hargs.z0])
  have hpw : st.pow4 = (1 / 4) ^ N := hG.pow4
  rw [abs_of_pos hAp, hpw]
  have l1 : 1 ≤ (st.x + st.y + st.z) * RF st.x st.y st.z ^ 2 := by
    have := RF_lower (M := st.x + st.y + st.z) hargs (by linarith [hargs.yz]) (by linarith [hargs.xz]) (by linarith [hargs.xy]) hSs
    have hs := Real.sqrt_pos.mpr hSs
    rw [div_le_iff₀ hs] at this
    calc (1 : ℝ) = 1 ^ 2 := by norm_num
      _ ≤ (RF st.x st.y st.z * √(st.x + st.y + st.z)) ^ 2 := by gcongr
      _ = _ := by rw [mul_pow, Real.sq_sqrt hSs.le]; ring
  have l2 : (st.x + st.y + 3 * st.z) / 5 ≤ (1 - (2 ^ p)⁻¹)⁻¹ ^ (3 + 2 * N) * st.A := hI.mean.2
  have l3 : RF st.x st.y st.z ≤ (1 - (2 ^ p)⁻¹)⁻¹ ^ (3 * N) * RF x y z := hG.rf.1
  have l4 : 1 ≤ 505 / 100 * (st.A * RF x y z ^ 2) := by
    have hwp := w_pow_le hp (show 3 + 8 * N ≤ 10000 by omega)
    have hwn : 0 ≤ (1 - ((2 : ℝ) ^ p)⁻¹)⁻¹ := by linarith
    have hz0 := hargs.z0
    calc (1 : ℝ) ≤ (st.x + st.y + st.z) * RF st.x st.y st.z ^ 2 := l1
      _ ≤ 5 * ((1 - (2 ^ p)⁻¹)⁻¹ ^ (3 + 2 * N) * st.A) * ((1 - (2 ^ p)⁻¹)⁻¹ ^ (3 * N) * RF x y z) ^ 2 := by gcongr; linarith
      _ = 5 * ((1 - (2 ^ p)⁻¹)⁻¹ ^ (3 + 8 * N)) * (st.A * RF x y z ^ 2) := by
        rw [show 3 + 8 * N = (3 + 2 * N) + (3 * N) * 2 by ring, pow_add _ (3 + 2 * N), pow_mul _ (3 * N) 2]; ring
      _ ≤ 5 * (101 / 100) * (st.A * RF x y z ^ 2) := by gcongr
      _ = _ := by ring
  have h4 : (0 : ℝ) < 4 ^ N := by positivity
  rw [one_div, inv_pow, inv_mul_eq_div, div_le_iff₀ h4]
  refine hQup.trans ?_
  have hR2 : 0 < RF x y z ^ 2 := by positivity
  refine le_of_mul_le_mul_right ?_ hR2
  have l5 : 4 ^ N ≤ 505 / 100 * (st.A * RF x y z ^ 2) * 4 ^ N := by nlinarith
  calc 1002 / 1000 * (K * (x + y + z)) * RF x y z ^ 2 = 1002 / 5250 * (21 / 4 * K * (x + y + z) * RF x y z ^ 2) := by ring
    _ ≤ 1002 / 5250 * (505 / 100 * (st.A * RF x y z ^ 2) * 4 ^ N) := mul_le_mul_of_nonneg_left (hN4.trans l5) (by norm_num)
    _ = 1002 / 5250 * (505 / 100) * (st.A * 4 ^ N * RF x y z ^ 2) := by ring
    _ ≤ 1 * (st.A * 4 ^ N * RF x y z ^ 2) := by gcongr; norm_num
    _ = _ := by ring

/-- From the value of the polynomial to the result. -/
theorem finishD (hf : Nearest p fl) (hp : 24 ≤ p) {A M P Ph R R' s q : ℝ} {n : ℕ} (hn : n ≤ 1000) (hA : 0 < A) (hM : 0 < M) (hs : 0 ≤ s) (hq : 0 < q)
    (hmean : Near (1 - (2 ^ p)⁻¹)⁻¹ (3 + 2 * n) A M) (hP : 9 / 10 ≤ P) (hdist : |Ph - P| ≤ (14 / 10 * n + 8) * (2 ^ p)⁻¹)
    (hscale : R' = P / (M * √M)) (hR : Near (1 - (2 ^ p)⁻¹)⁻¹ (10 * n) (3 * s + q * R') R) (hR0 : 0 < R) :
    |fl (fl (3 * s) + fl (fl (fl (q / A) / fl √A) * Ph)) - R| ≤ (17 * n + 22) * (2 ^ p)⁻¹ * R := by
  have hu := unit24 hp
  have hu0 : (0 : ℝ) < (2 ^ p)⁻¹ := by positivity
  have hp1 : 1 ≤ p := by omega
  have hw := w_ge hp
  have hnr : (n : ℝ) ≤ 1000 := by exact_mod_cast hn
  have hsmall : (14 / 10 * (n : ℝ) + 8) * (2 ^ p)⁻¹ ≤ 1 / 100 := by
    calc (14 / 10 * (n : ℝ) + 8) * (2 ^ p)⁻¹ ≤ (14 / 10 * 1000 + 8) * (1 / 16777216) := by gcongr
      _ ≤ _ := by norm_num
  have hPh : 89 / 100 ≤ Ph := by have := (abs_le.mp hdist).1; linarith
  have hPn : Near (1 - (2 ^ p)⁻¹)⁻¹ (2 * n + 9) Ph P := by
    have hb2 : ∀ B : ℝ, 89 / 100 ≤ B → (14 / 10 * (n : ℝ) + 8) * (2 ^ p)⁻¹ ≤ (2 * n + 9 : ℕ) * (2 ^ p)⁻¹ * B := fun B hB => by
      calc (14 / 10 * (n : ℝ) + 8) * (2 ^ p)⁻¹ ≤ ((2 * n + 9 : ℕ) * (89 / 100)) * (2 ^ p)⁻¹ := by
            gcongr; push_cast; linarith [(Nat.cast_nonneg n : (0 : ℝ) ≤ n)]
        _ = (2 * n + 9 : ℕ) * (2 ^ p)⁻¹ * (89 / 100) := by ring
        _ ≤ _ := by gcongr
    exact Near.of_abs hu0.le (by linarith) (by linarith) (by linarith) (hdist.trans (hb2 _ (by linarith))) (hdist.trans (hb2 _ hPh))
  have hP0 : 0 < P := by linarith
  have hPh0 : 0 < Ph := by linarith
  have hsA : 0 < √A := Real.sqrt_pos.mpr hA
  have hsM : 0 < √M := Real.sqrt_pos.mpr hM
  have hroot : Near (1 - (2 ^ p)⁻¹)⁻¹ (n + 2) (√A) (√M) := Near.sqrt hw (hmean.mono hw (by omega) hA.le hM.le)
  have hfl := (near_fl hf hp1 hsA.le).trans hw hroot
  have hflp : 0 < fl √A := hfl.pos hw hsM
  have q1 := (Near.refl q).mul hw (hmean.inv hA hM) hq.le (by positivity)
  rw [← div_eq_mul_inv, ← div_eq_mul_inv] at q1
  have q2 := (near_fl hf hp1 (show 0 ≤ q / A by positivity)).trans hw q1
  have q2p := q2.pos hw (by positivity)
  have q3 := q2.mul hw (hfl.inv hflp hsM) (by positivity) (by positivity)
  rw [← div_eq_mul_inv, ← div_eq_mul_inv] at q3
  have q3p : 0 < fl (q / A) / fl √A := by positivity
  have q4 := (near_fl hf hp1 q3p.le).trans hw q3
  have q4p := q4.pos hw (by positivity)
  have q5 := q4.mul hw hPn (by positivity) hPh0.le
  have q6 := (near_fl hf hp1 (show 0 ≤ fl (fl (q / A) / fl √A) * Ph by positivity)).trans hw q5
  have q6p := q6.pos hw (by positivity)
  have e1 : q / M / √M * P = q * R' := by rw [hscale]; field_simp
  rw [e1] at q6
  have hR'0 : 0 < R' := by rw [hscale]; positivity
  have s1 := near_fl hf hp1 (show 0 ≤ 3 * s by positivity)
  have s1p := fl_nonneg hf hp1 (show 0 ≤ 3 * s by positivity)
  have s2 := (s1.mono hw (show 1 ≤ 1 + (1 + (1 + (0 + (3 + 2 * n)) + (1 + (n + 2))) + (2 * n + 9)) by omega) s1p (by positivity)).add q6
  have s3 := (near_fl hf hp1 (add_nonneg s1p q6p.le)).trans hw s2
  have hall := s3.trans hw hR
  have hk : ((1 + (1 + (1 + (1 + (0 + (3 + 2 * n)) + (1 + (n + 2))) + (2 * n + 9))) + 10 * n : ℕ) : ℝ) = 15 * n + 19 := by push_cast; ring
  have := Near.abs_le hu0.le (by
    rw [hk]
    calc (15 * (n : ℝ) + 19) * (2 ^ p)⁻¹ ≤ (15 * 1000 + 19) * (1 / 16777216) := by gcongr
      _ ≤ _ := by norm_num) (by linarith) hR0.le hall
  rw [hk] at this
  refine this.trans ?_
  gcongr ?_ * _
  have : 11 / 10 * ((15 * (n : ℝ) + 19) * (2 ^ p)⁻¹) = (33 / 2 * n + 209 / 10) * (2 ^ p)⁻¹ := by ring
  rw [this]
  gcongr ?_ * _
  linarith [(Nat.cast_nonneg n : (0 : ℝ) ≤ n)]

/-- For arguments at most one of which is zero, `z > 0`, the loop of `elliprd` ends after at most `N` steps if `4^N ≥ 21/4 K (x+y+z) R_F²`, and the result has
a relative error of at most `17 N + 22` units of roundoff. -/
theorem core_accurateD {q : ℕ} {flq : ℝ → ℝ} (hf : Nearest p fl) (hp : 24 ≤ p) (hq : Nearest q flq) (hpq : p ≤ q) {K : ℝ}
    (hK : |K - (EPS (2 * (2 ^ p)⁻¹) * (1 / 4)) ^ (-(1 / 6) : ℝ)| ≤ 1 / 100 * K) {x y z : ℝ} (h : Args x y z) (hz : 0 < z) {N : ℕ} (hN : N ≤ 1000)
    (hN4 : 21 / 4 * K * (x + y + z) * RF x y z ^ 2 ≤ 4 ^ N) :
    ∃ v, elliprdCoreF fl flq K x y z = some v ∧ |v - RD x y z| ≤ (17 * N + 22) * (2 ^ p)⁻¹ * RD x y z := by
  have hw := w_ge hp
  obtain ⟨ε, hε0, hε100, hε6, hεK, hεu⟩ := eps_toleranceD hp
  rw [hεK] at hK
  obtain ⟨hK0, hKε⟩ := K_bounds hε0 hK
  obtain ⟨A0, hA0⟩ : ∃ A0, A0 = dA0F fl x y z := ⟨_, rfl⟩
  have hS := isNonneg_args h
  have hRD := RD_pos h hz
  have hx00 := h.x0
  have hy00 := h.y0
  have hA0n : Near (1 - (2 ^ p)⁻¹)⁻¹ 3 A0 ((x + y + 3 * z) / 5) := hA0 ▸ dA0_near hf hp h.x0 h.y0 h.z0
  have hA0p : 0 < A0 := hA0n.pos hw (by positivity)
  have hA0S : A0 ≤ x + y + z := by
    have h2 := w_pow_le hp (show 3 ≤ 10000 by omega)
    calc A0 ≤ 101 / 100 * ((x + y + 3 * z) / 5) := hA0n.1.trans (by gcongr)
      _ ≤ _ := by linarith
  have hinv : ∀ n ≤ 1001, DInv p x y z A0 n ((dStepF fl)^[n] ⟨x, y, z, A0, 1, 0⟩) := by
    intro n
    induction n with
    | zero => intro _; rw [hA0]; exact dinv_zero hf hp h hz
    | succ n ih =>
      intro hn
      rw [Function.iterate_succ_apply']
      exact dinv_succ hf hp (by omega) (ih (by omega))
  obtain ⟨m, hm⟩ : ∃ m, m = max (max |fl (A0 - x)| |fl (A0 - y)|) |fl (A0 - z)| := ⟨_, rfl⟩
  have hm0 : 0 ≤ m := by rw [hm]; exact (abs_nonneg _).trans (le_max_right _ _)
  have hQm : hQF fl flq K A0 x y z = flq (K * m) := by rw [hm, hQF]
  have hup : ∀ a, 0 ≤ a → a ≤ x + y + z → |fl (A0 - a)| ≤ 1001 / 1000 * (x + y + z) := fun a ha haS => by
    have hu := unit24 hp
    obtain ⟨δ, b, e⟩ := hf.factor (by omega) (A0 - a)
    have h1 : |A0 - a| ≤ x + y + z := by rw [abs_le]; constructor <;> linarith
    have h2 : |1 + δ| ≤ 1001 / 1000 := by have := abs_le.mp b; rw [abs_le]; constructor <;> linarith
    rw [e, mul_comm]
    exact abs_mul_le h2 h1
  have hmS : m ≤ 1001 / 1000 * (x + y + z) := by
    rw [hm]
    exact max_le (max_le (hup x h.x0 (by linarith)) (hup y h.y0 (by linarith))) (hup z h.z0 (by linarith))
  have hQup := Q_up hq (hp.trans hpq) hK0 hm0 hmS
  rw [← hQm] at hQup
  have hstop := not_lt.mpr (stopD hp h hN (hinv N (by omega)) hQup hN4)
  obtain ⟨n, hn, hexit, hmin⟩ := loopWhile_spec (cond := fun s : RDState => s.pow4 * hQF fl flq K A0 x y z > |s.A|) (step := dStepF fl)
    (s := ⟨x, y, z, A0, 1, 0⟩) ⟨N, hstop⟩
  have hnN : n ≤ N := by
    by_contra hc
    exact hstop (hmin N (by omega))
  have hI := hinv n (by omega)
  unfold elliprdCoreF
  rw [← hA0]
  simp only
  rw [hn]
  simp only
  refine ⟨_, rfl, ?_⟩
  generalize (dStepF fl)^[n] ⟨x, y, z, A0, 1, 0⟩ = st at *
  obtain ⟨g, G, hG⟩ := hI.ghost
  have hargs : Args st.x st.y st.z := hG.args
  have hpw : st.pow4 = (1 / 4) ^ n := hG.pow4
  have hx0 := hargs.x0
  have hy0 := hargs.y0
  have hz0 := hI.zpos
  obtain ⟨M, hMd⟩ : ∃ M, M = (st.x + st.y + 3 * st.z) / 5 := ⟨_, rfl⟩
  have hM0 : 0 < M := by rw [hMd]; positivity
  have hmean := hI.mean
  rw [← hMd] at hmean
  have hAp : 0 < st.A := hmean.pos hw hM0
  have hp40 : 0 < st.pow4 := by rw [hpw]; positivity
  rw [not_lt, hQm, abs_of_pos hAp] at hexit
  have hred : ∀ a, |fl (A0 - a)| ≤ m → |st.pow4 * (A0 - a) / st.A| ≤ 102 / 100 * ε := fun a ham =>
    exit_small hAp hp40.le hε0 hKε (Q_low hf hp hq (hp.trans hpq) hK0 ham) hexit
  have hη : (28 * (n : ℝ) + 17) * (2 ^ p)⁻¹ ≤ ε / 2 := by
    have hnr : (n : ℝ) ≤ 1000 := by exact_mod_cast (by omega : n ≤ 1000)
    have : (28 * (n : ℝ) + 17) * (2 ^ p)⁻¹ ≤ 28017 * (2 ^ p)⁻¹ := by gcongr; linarith
    have : (0 : ℝ) < (2 ^ p)⁻¹ := by positivity
    linarith
  have hdx := hI.dx
  have hdy := hI.dy
  rw [← hMd] at hdx hdy
  obtain ⟨x1, x2, x3⟩ := reduced_rd hf hp (show n ≤ 1000 by omega) hAp hM0 hx0 (by rw [hMd]; linarith) hmean hε100
    (hred x (by rw [hm]; exact (le_max_left _ _).trans (le_max_left _ _))) hη hdx
  obtain ⟨y1, y2, y3⟩ := reduced_rd hf hp (show n ≤ 1000 by omega) hAp hM0 hy0 (by rw [hMd]; linarith) hmean hε100
    (hred y (by rw [hm]; exact (le_max_right _ _).trans (le_max_left _ _))) hη hdy
  have hsum : (M - st.x) / M + (M - st.y) / M + 3 * ((M - st.z) / M) = 0 := by field_simp; rw [hMd]; ring
  obtain ⟨hdist, hPlow⟩ := poly_rd hf hp hq hpq hε100 hε6 hsum x1 x2 x3 y1 y2 y3
  have hscale : RD st.x st.y st.z = RD (1 - (M - st.x) / M) (1 - (M - st.y) / M) (1 - (M - st.z) / M) / (M * √M) := by
    have a1 : ∀ t : ℝ, t = M * (1 - (M - t) / M) := fun t => by field_simp; ring
    rw [RD_eq_RJ (1 - (M - st.x) / M), ← RJ_scale _ _ _ _ _ hM0, ← a1, ← a1, ← a1, RD_eq_RJ]
  refine (finishD hf hp (by omega) hAp hM0 hI.s0 hp40 hmean hPlow hdist hscale hI.total hRD).trans ?_
  have hnN' : (n : ℝ) ≤ N := by exact_mod_cast hnN
  gcongr

end Verif.Carlson.Flt

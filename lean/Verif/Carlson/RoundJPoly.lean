import Verif.Carlson.RoundJ
import Verif.Carlson.RoundDPoly

/-! # Rounding in elliprj: the polynomial -/

namespace Verif.Carlson.Flt

open Verif.Round

variable {p : ℕ} {fl : ℝ → ℝ}

/-- The polynomial in exact arithmetic, for `P = -(X + Y + Z) / 2`. -/
noncomputable def jserR (X Y Z P : ℝ) : ℝ :=
  let E2 := X * Y + X * Z + Y * Z - 3 * P * P
  let E3 := X * Y * Z + 2 * E2 * P + 4 * P * P * P
  let E4 := (2 * X * Y * Z + E2 * P + 3 * P * P * P) * P
  serD E2 E3 E4 (X * Y * Z * P * P)

/-- Rounding in the polynomial. -/
theorem jpoly_round {q : ℕ} {flq : ℝ → ℝ} (hf : Nearest p fl) (hp : 24 ≤ p) (hq : Nearest q flq) (hpq : p ≤ q) {X Y Z : ℝ} (bX : |X| ≤ 1 / 5)
    (bY : |Y| ≤ 1 / 5) (bZ : |Z| ≤ 1 / 5) (bP : |(-X - Y - Z) / 2| ≤ 1 / 5) : |jPolyF fl flq X Y Z - jserR X Y Z ((-X - Y - Z) / 2)| ≤ 8 * (2 ^ p)⁻¹ := by
  have cP : |fl (fl (fl (-X - Y) - Z) / 2) - (-X - Y - Z) / 2| ≤ 62 / 100 * (2 ^ p)⁻¹ := by
    have b1 : |-X - Y| ≤ 2 / 5 := (abs_sub _ _).trans (by rw [abs_neg]; linarith)
    have b2 : |-X - Y - Z| ≤ 2 / 5 := by
      rw [abs_div, abs_of_pos (by norm_num : (0 : ℝ) < 2)] at bP
      linarith
    have c1 := fl_close hf hp (refl_close (-X - Y)) b1
    have c2 := fl_close hf hp (sub_close c1 (refl_close Z)) b2
    exact Cmono (fl_close hf hp (div_close (k := 2) (by norm_num) c2) bP) (by norm_num)
  unfold jPolyF jserR
  simp only
  generalize fl (fl (fl (-X - Y) - Z) / 2) = pp at *
  generalize (-X - Y - Z) / 2 = P at *
  have bXY : |X * Y| ≤ 1 / 25 := (abs_mul_le bX bY).trans (by norm_num)
  have bXZ : |X * Z| ≤ 1 / 25 := (abs_mul_le bX bZ).trans (by norm_num)
  have bYZ : |Y * Z| ≤ 1 / 25 := (abs_mul_le bY bZ).trans (by norm_num)
  have cXY : |fl (X * Y) - X * Y| ≤ 1 / 25 * (2 ^ p)⁻¹ := Cmono (fl_close hf hp (refl_close _) bXY) (by norm_num)
  have cXZ : |fl (X * Z) - X * Z| ≤ 1 / 25 * (2 ^ p)⁻¹ := Cmono (fl_close hf hp (refl_close _) bXZ) (by norm_num)
  have cYZ : |fl (Y * Z) - Y * Z| ≤ 1 / 25 * (2 ^ p)⁻¹ := Cmono (fl_close hf hp (refl_close _) bYZ) (by norm_num)
  have bs1 : |X * Y + X * Z| ≤ 2 / 25 := (abs_add_le _ _).trans (by linarith)
  have cs1 := Cmono (fl_close hf hp (add_close cXY cXZ) bs1) (d := 161 / 1000) (by norm_num)
  have bs2 : |X * Y + X * Z + Y * Z| ≤ 3 / 25 := (abs_add_le _ _).trans (by linarith)
  have cs2 := Cmono (fl_close hf hp (add_close cs1 cYZ) bs2) (d := 322 / 1000) (by norm_num)
  have b3P : |3 * P| ≤ 3 * (1 / 5) := abs_const_mul (by norm_num) bP
  have c3P := Cmono (fl_close hf hp (const_mul_close (k := 3) (by norm_num) cP) b3P) (d := 247 / 100) (by norm_num)
  have b3PP : |3 * P * P| ≤ 3 / 25 := (abs_mul_le b3P bP).trans (by norm_num)
  have c3PP := Cmono (fl_close hf hp (mul_close hp c3P cP b3P bP) b3PP) (d := 1) (by norm_num)
  have bE2 : |X * Y + X * Z + Y * Z - 3 * P * P| ≤ 24 / 100 := (abs_sub _ _).trans (by linarith)
  have cE2 := Cmono (fl_close hf hp (sub_close cs2 c3PP) bE2) (d := 157 / 100) (by norm_num)
  have bXYZ : |X * Y * Z| ≤ 8 / 1000 := (abs_mul_le bXY bZ).trans (by norm_num)
  have cXYZ := Cmono (fl_close hf hp (mul_close hp cXY (refl_close Z) bXY bZ) bXYZ) (d := 17 / 1000) (by norm_num)
  have b2X : |2 * X| ≤ 2 * (1 / 5) := abs_const_mul (by norm_num) bX
  have c2X := Cmono (fl_close hf hp (refl_close (2 * X)) b2X) (d := 2 / 5) (by norm_num)
  have b2XY : |2 * X * Y| ≤ 8 / 100 := (abs_mul_le b2X bY).trans (by norm_num)
  have c2XY := Cmono (fl_close hf hp (mul_close hp c2X (refl_close Y) b2X bY) b2XY) (d := 161 / 1000) (by norm_num)
  have b2XYZ : |2 * X * Y * Z| ≤ 16 / 1000 := (abs_mul_le b2XY bZ).trans (by norm_num)
  have c2XYZ := Cmono (fl_close hf hp (mul_close hp c2XY (refl_close Z) b2XY bZ) b2XYZ) (d := 5 / 100) (by norm_num)
  generalize fl (fl (fl (fl (X * Y) + fl (X * Z)) + fl (Y * Z)) - fl (fl (3 * pp) * pp)) = e2 at *
  generalize X * Y + X * Z + Y * Z - 3 * P * P = E2 at *
  have b2E : |2 * E2| ≤ 2 * (24 / 100) := abs_const_mul (by norm_num) bE2
  have c2E := Cmono (fl_close hf hp (const_mul_close (k := 2) (by norm_num) cE2) b2E) (d := 363 / 100) (by norm_num)
  have b2EP : |2 * E2 * P| ≤ 96 / 1000 := (abs_mul_le b2E bP).trans (by norm_num)
  have c2EP := Cmono (fl_close hf hp (mul_close hp c2E cP b2E bP) b2EP) (d := 113 / 100) (by norm_num)
  have bu1 : |X * Y * Z + 2 * E2 * P| ≤ 104 / 1000 := (abs_add_le _ _).trans (by linarith)
  have cu1 := Cmono (fl_close hf hp (add_close cXYZ c2EP) bu1) (d := 126 / 100) (by norm_num)
  have b4P : |4 * P| ≤ 4 * (1 / 5) := abs_const_mul (by norm_num) bP
  have c4P := Cmono (fl_close hf hp (const_mul_close (k := 4) (by norm_num) cP) b4P) (d := 329 / 100) (by norm_num)
  have b4PP : |4 * P * P| ≤ 16 / 100 := (abs_mul_le b4P bP).trans (by norm_num)
  have c4PP := Cmono (fl_close hf hp (mul_close hp c4P cP b4P bP) b4PP) (d := 133 / 100) (by norm_num)
  have b4PPP : |4 * P * P * P| ≤ 32 / 1000 := (abs_mul_le b4PP bP).trans (by norm_num)
  have c4PPP := Cmono (fl_close hf hp (mul_close hp c4PP cP b4PP bP) b4PPP) (d := 41 / 100) (by norm_num)
  have bE3 : |X * Y * Z + 2 * E2 * P + 4 * P * P * P| ≤ 136 / 1000 := (abs_add_le _ _).trans (by linarith)
  have cE3 := Cmono (fl_close hf hp (add_close cu1 c4PPP) bE3) (d := 182 / 100) (by norm_num)
  have bEP : |E2 * P| ≤ 48 / 1000 := (abs_mul_le bE2 bP).trans (by norm_num)
  have cEP := Cmono (fl_close hf hp (mul_close hp cE2 cP bE2 bP) bEP) (d := 52 / 100) (by norm_num)
  have bv1 : |2 * X * Y * Z + E2 * P| ≤ 64 / 1000 := (abs_add_le _ _).trans (by linarith)
  have cv1 := Cmono (fl_close hf hp (add_close c2XYZ cEP) bv1) (d := 64 / 100) (by norm_num)
  have b3PPP : |3 * P * P * P| ≤ 24 / 1000 := (abs_mul_le b3PP bP).trans (by norm_num)
  have c3PPP := Cmono (fl_close hf hp (mul_close hp c3PP cP b3PP bP) b3PPP) (d := 31 / 100) (by norm_num)
  have bv2 : |2 * X * Y * Z + E2 * P + 3 * P * P * P| ≤ 88 / 1000 := (abs_add_le _ _).trans (by linarith)
  have cv2 := Cmono (fl_close hf hp (add_close cv1 c3PPP) bv2) (d := 105 / 100) (by norm_num)
  have bE4 : |(2 * X * Y * Z + E2 * P + 3 * P * P * P) * P| ≤ 176 / 10000 := (abs_mul_le bv2 bP).trans (by norm_num)
  have cE4 := Cmono (fl_close hf hp (mul_close hp cv2 cP bv2 bP) bE4) (d := 30 / 100) (by norm_num)
  have bZP : |X * Y * Z * P| ≤ 16 / 10000 := (abs_mul_le bXYZ bP).trans (by norm_num)
  have cZP := Cmono (fl_close hf hp (mul_close hp cXYZ cP bXYZ bP) bZP) (d := 12 / 1000) (by norm_num)
  have bE5 : |X * Y * Z * P * P| ≤ 32 / 100000 := (abs_mul_le bZP bP).trans (by norm_num)
  have cE5 := Cmono (fl_close hf hp (mul_close hp cZP cP bZP bP) bE5) (d := 4 / 1000) (by norm_num)
  generalize fl (fl (fl (fl (X * Y) * Z) + fl (fl (2 * e2) * pp)) + fl (fl (fl (4 * pp) * pp) * pp)) = e3 at *
  generalize fl (fl (fl (fl (fl (fl (2 * X) * Y) * Z) + fl (e2 * pp)) + fl (fl (fl (3 * pp) * pp) * pp)) * pp) = e4 at *
  generalize fl (fl (fl (fl (X * Y) * Z) * pp) * pp) = e5 at *
  generalize X * Y * Z + 2 * E2 * P + 4 * P * P * P = E3 at *
  generalize (2 * X * Y * Z + E2 * P + 3 * P * P * P) * P = E4 at *
  generalize X * Y * Z * P * P = E5 at *
  have k1 := const_close hf hp hq hpq (c := 3 / 14) (B := 3 / 14) (by rw [abs_of_pos (by norm_num)])
  have k2 := const_close hf hp hq hpq (c := 9 / 88) (B := 9 / 88) (by rw [abs_of_pos (by norm_num)])
  have k3 := const_close hf hp hq hpq (c := 3 / 22) (B := 3 / 22) (by rw [abs_of_pos (by norm_num)])
  have k4 := const_close hf hp hq hpq (c := 9 / 52) (B := 9 / 52) (by rw [abs_of_pos (by norm_num)])
  have k5 := const_close hf hp hq hpq (c := 3 / 26) (B := 3 / 26) (by rw [abs_of_pos (by norm_num)])
  have a1 : |(3 / 14 : ℝ)| ≤ 3 / 14 := by rw [abs_of_pos (by norm_num)]
  have a2 : |(9 / 88 : ℝ)| ≤ 9 / 88 := by rw [abs_of_pos (by norm_num)]
  have a3 : |(3 / 22 : ℝ)| ≤ 3 / 22 := by rw [abs_of_pos (by norm_num)]
  have a4 : |(9 / 52 : ℝ)| ≤ 9 / 52 := by rw [abs_of_pos (by norm_num)]
  have a5 : |(3 / 26 : ℝ)| ≤ 3 / 26 := by rw [abs_of_pos (by norm_num)]
  -- the six terms
  have t1b := abs_mul_le bE2 a1
  have t1 := Cmono (fl_close hf hp (mul_close hp cE2 k1 bE2 a1) t1b) (d := 56 / 100) (by norm_num)
  have t2b : |E3 / 6| ≤ 136 / 6000 := by rw [abs_div, abs_of_pos (by norm_num : (0 : ℝ) < 6)]; linarith
  have t2 := Cmono (fl_close hf hp (div_close (k := 6) (by norm_num) cE3) t2b) (d := 33 / 100) (by norm_num)
  have t3a := abs_mul_le bE2 bE2
  have t3' := Cmono (fl_close hf hp (mul_close hp cE2 cE2 bE2 bE2) t3a) (d := 82 / 100) (by norm_num)
  have t3b := abs_mul_le t3a a2
  have t3 := Cmono (fl_close hf hp (mul_close hp t3' k2 t3a a2) t3b) (d := 12 / 100) (by norm_num)
  have t4b := abs_mul_le bE4 a3
  have t4 := Cmono (fl_close hf hp (mul_close hp cE4 k3 bE4 a3) t4b) (d := 6 / 100) (by norm_num)
  have t5a := abs_mul_le bE2 bE3
  have t5' := Cmono (fl_close hf hp (mul_close hp cE2 cE3 bE2 bE3) t5a) (d := 70 / 100) (by norm_num)
  have t5b := abs_mul_le t5a a4
  have t5 := Cmono (fl_close hf hp (mul_close hp t5' k4 t5a a4) t5b) (d := 15 / 100) (by norm_num)
  have t6b := abs_mul_le bE5 a5
  have t6 := Cmono (fl_close hf hp (mul_close hp cE5 k5 bE5 a5) t6b) (d := 1 / 1000) (by norm_num)
  have d1 : |1 - E2 * (3 / 14)| ≤ 1052 / 1000 := (abs_sub _ _).trans (by rw [abs_one]; norm_num at t1b ⊢; linarith)
  have s1 := Cmono (fl_close hf hp (sub_close (refl_close 1) t1) d1) (d := 162 / 100) (by norm_num)
  have d2 : |1 - E2 * (3 / 14) + E3 / 6| ≤ 1075 / 1000 := (abs_add_le _ _).trans (by norm_num at t2b ⊢; linarith)
  have s2 := Cmono (fl_close hf hp (add_close s1 t2) d2) (d := 304 / 100) (by norm_num)
  have d3 : |1 - E2 * (3 / 14) + E3 / 6 + E2 * E2 * (9 / 88)| ≤ 1081 / 1000 := (abs_add_le _ _).trans (by norm_num at t3b ⊢; linarith)
  have s3 := Cmono (fl_close hf hp (add_close s2 t3) d3) (d := 426 / 100) (by norm_num)
  have d4 : |1 - E2 * (3 / 14) + E3 / 6 + E2 * E2 * (9 / 88) - E4 * (3 / 22)| ≤ 1084 / 1000 := (abs_sub _ _).trans (by norm_num at t4b ⊢; linarith)
  have s4 := Cmono (fl_close hf hp (sub_close s3 t4) d4) (d := 542 / 100) (by norm_num)
  have d5 : |1 - E2 * (3 / 14) + E3 / 6 + E2 * E2 * (9 / 88) - E4 * (3 / 22) - E2 * E3 * (9 / 52)| ≤ 1090 / 1000 :=
    (abs_sub _ _).trans (by norm_num at t5b ⊢; linarith)
  have s5 := Cmono (fl_close hf hp (sub_close s4 t5) d5) (d := 668 / 100) (by norm_num)
  have d6 : |1 - E2 * (3 / 14) + E3 / 6 + E2 * E2 * (9 / 88) - E4 * (3 / 22) - E2 * E3 * (9 / 52) + E5 * (3 / 26)| ≤ 1091 / 1000 :=
    (abs_add_le _ _).trans (by norm_num at t6b ⊢; linarith)
  have fin := Cmono (fl_close hf hp (add_close s5 t6) d6) (d := 8) (by norm_num)
  unfold serD
  rwa [show 1 - E2 * (3 / 14) + E3 / 6 + E2 * E2 * (9 / 88) - E4 * (3 / 22) - E2 * E3 * (9 / 52) + E5 * (3 / 26) =
    1 - 3 / 14 * E2 + E3 / 6 + 9 / 88 * E2 * E2 - 3 / 22 * E4 - 9 / 52 * E2 * E3 + 3 / 26 * E5 by ring] at fin

set_option maxHeartbeats 2000000 in
/-- The polynomial hardly depends on its arguments. -/
theorem jpoly_lip {X Y Z P X' Y' Z' P' h : ℝ} (bX : |X| ≤ 1 / 5) (bY : |Y| ≤ 1 / 5) (bZ : |Z| ≤ 1 / 5) (bP : |P| ≤ 1 / 5) (bX' : |X'| ≤ 1 / 5)
    (bY' : |Y'| ≤ 1 / 5) (bZ' : |Z'| ≤ 1 / 5) (bP' : |P'| ≤ 1 / 5) (dX : |X - X'| ≤ h) (dY : |Y - Y'| ≤ h) (dZ : |Z - Z'| ≤ h) (dP : |P - P'| ≤ 3 / 2 * h) :
    |jserR X Y Z P - jserR X' Y' Z' P'| ≤ 8 / 5 * h := by
  have h0 : 0 ≤ h := (abs_nonneg _).trans dX
  have bd : ∀ {a b : ℝ}, |a| ≤ 1 / 5 → |b| ≤ 1 / 5 → |a * b| ≤ 1 / 25 := fun ha hb => (abs_mul_le ha hb).trans (by norm_num)
  have cXY := mul_diff bY bX' dX dY
  have cXZ := mul_diff bZ bX' dX dZ
  have cYZ := mul_diff bZ bY' dY dZ
  have cPP := mul_diff bP bP' dP dP
  have bPP := bd bP bP
  have bPP' := bd bP' bP'
  have bXYZ : |X * Y * Z| ≤ 1 / 125 := (abs_mul_le (bd bX bY) bZ).trans (by norm_num)
  have bXYZ' : |X' * Y' * Z'| ≤ 1 / 125 := (abs_mul_le (bd bX' bY') bZ').trans (by norm_num)
  have cXYZ := mul_diff bZ (bd bX' bY') cXY dZ
  have cPPP := mul_diff bP bPP' cPP dP
  have bPPP : |P * P * P| ≤ 1 / 125 := (abs_mul_le bPP bP).trans (by norm_num)
  have bPPP' : |P' * P' * P'| ≤ 1 / 125 := (abs_mul_le bPP' bP').trans (by norm_num)
  obtain ⟨u1, v1⟩ := abs_le.mp (bd bX bY)
  obtain ⟨u2, v2⟩ := abs_le.mp (bd bX bZ)
  obtain ⟨u3, v3⟩ := abs_le.mp (bd bY bZ)
  obtain ⟨u4, v4⟩ := abs_le.mp bPP
  obtain ⟨u1', v1'⟩ := abs_le.mp (bd bX' bY')
  obtain ⟨u2', v2'⟩ := abs_le.mp (bd bX' bZ')
  obtain ⟨u3', v3'⟩ := abs_le.mp (bd bY' bZ')
  obtain ⟨u4', v4'⟩ := abs_le.mp bPP'
  obtain ⟨l1, r1⟩ := abs_le.mp cXY
  obtain ⟨l2, r2⟩ := abs_le.mp cXZ
  obtain ⟨l3, r3⟩ := abs_le.mp cYZ
  obtain ⟨l4, r4⟩ := abs_le.mp cPP
  obtain ⟨l5, r5⟩ := abs_le.mp cXYZ
  obtain ⟨l6, r6⟩ := abs_le.mp cPPP
  obtain ⟨u5, v5⟩ := abs_le.mp bXYZ
  obtain ⟨u5', v5'⟩ := abs_le.mp bXYZ'
  obtain ⟨u6, v6⟩ := abs_le.mp bPPP
  obtain ⟨u6', v6'⟩ := abs_le.mp bPPP'
  have bE2 : |X * Y + X * Z + Y * Z - 3 * P * P| ≤ 24 / 100 := by
    rw [mul_assoc 3, abs_le]; constructor <;> linarith
  have bE2' : |X' * Y' + X' * Z' + Y' * Z' - 3 * P' * P'| ≤ 24 / 100 := by
    rw [mul_assoc 3, abs_le]; constructor <;> linarith
  have cE2 : |X * Y + X * Z + Y * Z - 3 * P * P - (X' * Y' + X' * Z' + Y' * Z' - 3 * P' * P')| ≤ 3 * h := by
    rw [mul_assoc 3, mul_assoc 3, abs_le]; constructor <;> linarith
  unfold jserR
  simp only
  generalize X * Y + X * Z + Y * Z - 3 * P * P = E2 at *
  generalize X' * Y' + X' * Z' + Y' * Z' - 3 * P' * P' = E2' at *
  have bEP := abs_mul_le bE2 bP
  have bEP' := abs_mul_le bE2' bP'
  have cEP := mul_diff bP bE2' cE2 dP
  obtain ⟨l7, r7⟩ := abs_le.mp cEP
  obtain ⟨u7, v7⟩ := abs_le.mp bEP
  obtain ⟨u7', v7'⟩ := abs_le.mp bEP'
  have bE3 : |X * Y * Z + 2 * E2 * P + 4 * P * P * P| ≤ 136 / 1000 := by
    rw [mul_assoc 2, show 4 * P * P * P = 4 * (P * P * P) by ring, abs_le]; constructor <;> linarith
  have bE3' : |X' * Y' * Z' + 2 * E2' * P' + 4 * P' * P' * P'| ≤ 136 / 1000 := by
    rw [mul_assoc 2, show 4 * P' * P' * P' = 4 * (P' * P' * P') by ring, abs_le]; constructor <;> linarith
  have cE3 : |X * Y * Z + 2 * E2 * P + 4 * P * P * P - (X' * Y' * Z' + 2 * E2' * P' + 4 * P' * P' * P')| ≤ 276 / 100 * h := by
    rw [mul_assoc 2, show 4 * P * P * P = 4 * (P * P * P) by ring, mul_assoc 2, show 4 * P' * P' * P' = 4 * (P' * P' * P') by ring, abs_le]
    constructor <;> linarith
  have bI' : |2 * X' * Y' * Z' + E2' * P' + 3 * P' * P' * P'| ≤ 88 / 1000 := by
    rw [show 2 * X' * Y' * Z' + E2' * P' + 3 * P' * P' * P' = 2 * (X' * Y' * Z') + E2' * P' + 3 * (P' * P' * P') by ring, abs_le]
    constructor <;> linarith
  have cI : |2 * X * Y * Z + E2 * P + 3 * P * P * P - (2 * X' * Y' * Z' + E2' * P' + 3 * P' * P' * P')| ≤ 174 / 100 * h := by
    rw [show 2 * X * Y * Z + E2 * P + 3 * P * P * P = 2 * (X * Y * Z) + E2 * P + 3 * (P * P * P) by ring,
      show 2 * X' * Y' * Z' + E2' * P' + 3 * P' * P' * P' = 2 * (X' * Y' * Z') + E2' * P' + 3 * (P' * P' * P') by ring, abs_le]
    constructor <;> linarith
  have cE4 := mul_diff bP bI' cI dP
  have bZP' : |X' * Y' * Z' * P'| ≤ 16 / 10000 := (abs_mul_le bXYZ' bP').trans (by norm_num)
  have cE5 := mul_diff bP bZP' (mul_diff bP bXYZ' cXYZ dP) dP
  generalize X * Y * Z + 2 * E2 * P + 4 * P * P * P = E3 at *
  generalize X' * Y' * Z' + 2 * E2' * P' + 4 * P' * P' * P' = E3' at *
  generalize (2 * X * Y * Z + E2 * P + 3 * P * P * P) * P = E4 at *
  generalize (2 * X' * Y' * Z' + E2' * P' + 3 * P' * P' * P') * P' = E4' at *
  generalize X * Y * Z * P * P = E5 at *
  generalize X' * Y' * Z' * P' * P' = E5' at *
  have t1 := mul_diff bE2 bE2' cE2 cE2
  have t2 := mul_diff bE3 bE2' cE2 cE3
  obtain ⟨a1, b1⟩ := abs_le.mp t1
  obtain ⟨a2, b2⟩ := abs_le.mp t2
  obtain ⟨a3, b3⟩ := abs_le.mp cE2
  obtain ⟨a4, b4⟩ := abs_le.mp cE3
  obtain ⟨a5, b5⟩ := abs_le.mp cE4
  obtain ⟨a6, b6⟩ := abs_le.mp cE5
  unfold serD
  rw [show 1 - 3 / 14 * E2 + E3 / 6 + 9 / 88 * E2 * E2 - 3 / 22 * E4 - 9 / 52 * E2 * E3 + 3 / 26 * E5 -
      (1 - 3 / 14 * E2' + E3' / 6 + 9 / 88 * E2' * E2' - 3 / 22 * E4' - 9 / 52 * E2' * E3' + 3 / 26 * E5') =
    -(3 / 14) * (E2 - E2') + (E3 - E3') / 6 + 9 / 88 * (E2 * E2 - E2' * E2') - 3 / 22 * (E4 - E4') - 9 / 52 * (E2 * E3 - E2' * E3') +
      3 / 26 * (E5 - E5') by ring, abs_le]
  clear u1 v1 u2 v2 u3 v3 u4 v4 u5 v5 u6 v6 u7 v7 u1' v1' u2' v2' u3' v3' u4' v4' u5' v5' u6' v6' u7' v7' l1 r1 l2 r2 l3 r3 l4 r4 l5 r5 l6 r6 l7 r7
  constructor <;> linarith

/-- The tolerance: `ε^6 = eps / 4 · 2^10`, `eps = 2·2^-p`. -/
theorem eps_toleranceJ (hp : 24 ≤ p) :
    ∃ ε : ℝ, 0 < ε ∧ ε ≤ 178 / 1000 ∧ ε ^ 6 = 512 * (2 ^ p)⁻¹ ∧ (1 / 4 * (2 * ((2 : ℝ) ^ p)⁻¹) * 2 ^ 10) ^ (-(1 / 6) : ℝ) = 1 / ε ∧
      28029 * (2 ^ p)⁻¹ ≤ ε / 90 := by
  have hu := unit24 hp
  have hu0 : (0 : ℝ) < (2 ^ p)⁻¹ := by positivity
  have hb : 1 / 4 * (2 * ((2 : ℝ) ^ p)⁻¹) * 2 ^ 10 = 512 * (2 ^ p)⁻¹ := by ring
  obtain ⟨ε, h0, -, h6, hK⟩ := tolerance (b := 1 / 4 * (2 * ((2 : ℝ) ^ p)⁻¹) * 2 ^ 10) (by rw [hb]; positivity) (by rw [hb]; linarith)
  rw [hb] at h6
  refine ⟨ε, h0, ?_, h6, hK, ?_⟩
  · by_contra hc
    have : (178 / 1000 : ℝ) ^ 6 < ε ^ 6 := pow_lt_pow_left₀ (not_le.mp hc) (by norm_num) (by norm_num)
    rw [h6] at this
    norm_num at this
    linarith
  · generalize ((2 : ℝ) ^ p)⁻¹ = u at *
    by_contra hc
    have h1 : ε ^ 6 < (2522610 * u) ^ 6 := pow_lt_pow_left₀ (by linarith [not_le.mp hc]) h0.le (by norm_num)
    have h5 : u ^ 5 ≤ (1 / 16777216) ^ 5 := by gcongr
    have h7 : (2522610 * u) ^ 6 = 2522610 ^ 6 * u ^ 5 * u := by ring
    have h8 : 2522610 ^ 6 * u ^ 5 * u ≤ 2522610 ^ 6 * (1 / 16777216) ^ 5 * u := by gcongr
    rw [h6, h7] at h1
    norm_num at h8 h1
    linarith

end Verif.Carlson.Flt

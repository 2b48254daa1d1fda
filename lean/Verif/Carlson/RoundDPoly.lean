import Verif.Carlson.RoundD

/-! # Rounding in elliprd: the polynomial -/

namespace Verif.Carlson.Flt

open Verif.Round

variable {p : ℕ} {fl : ℝ → ℝ}

/-- The polynomial in terms of the elementary symmetric functions. -/
noncomputable def serD (E2 E3 E4 E5 : ℝ) : ℝ := 1 - 3 / 14 * E2 + E3 / 6 + 9 / 88 * E2 * E2 - 3 / 22 * E4 - 9 / 52 * E2 * E3 + 3 / 26 * E5

/-- The polynomial in exact arithmetic. -/
noncomputable def dpolyR (X Y : ℝ) : ℝ :=
  let Z := -(X + Y) / 3
  serD (X * Y - 6 * (Z * Z)) (3 * (X * Y * Z) - 8 * (Z * Z) * Z) (3 * (X * Y - Z * Z) * (Z * Z)) (X * Y * Z * (Z * Z))

theorem const_mul_close {k a A c : ℝ} (hk : 0 ≤ k) (h : |a - A| ≤ c * (2 ^ p)⁻¹) : |k * a - k * A| ≤ (k * c) * (2 ^ p)⁻¹ := by
  rw [← mul_sub, abs_mul, abs_of_nonneg hk, mul_assoc]
  gcongr

theorem abs_const_mul {k a B : ℝ} (hk : 0 ≤ k) (h : |a| ≤ B) : |k * a| ≤ k * B := by
  rw [abs_mul, abs_of_nonneg hk]; gcongr

/-- Rounding in the polynomial. -/
theorem dpoly_round {q : ℕ} {flq : ℝ → ℝ} (hf : Nearest p fl) (hp : 24 ≤ p) (hq : Nearest q flq) (hpq : p ≤ q) {X Y : ℝ} (hX : |X| ≤ 1 / 40)
    (hY : |Y| ≤ 1 / 40) : |dPolyF fl flq X Y - dpolyR X Y| ≤ 7 * (2 ^ p)⁻¹ := by
  have bS : |X + Y| ≤ 1 / 20 := (abs_add_le _ _).trans (by linarith)
  have bXY : |X * Y| ≤ 1 / 1600 := (abs_mul_le hX hY).trans (by norm_num)
  have cS : |fl (X + Y) - (X + Y)| ≤ 51 / 1000 * (2 ^ p)⁻¹ := Cmono (fl_close hf hp (refl_close _) bS) (by norm_num)
  have cXY : |fl (X * Y) - X * Y| ≤ 1 / 1600 * (2 ^ p)⁻¹ := Cmono (fl_close hf hp (refl_close _) bXY) (by norm_num)
  have bZ : |-(X + Y) / 3| ≤ 1 / 60 := by
    rw [abs_div, abs_neg, abs_of_pos (by norm_num : (0 : ℝ) < 3)]; linarith
  have cZ : |fl (-fl (X + Y) / 3) - -(X + Y) / 3| ≤ 4 / 100 * (2 ^ p)⁻¹ := by
    have : |-fl (X + Y) - -(X + Y)| ≤ 51 / 1000 * (2 ^ p)⁻¹ := by
      rw [show -fl (X + Y) - -(X + Y) = -(fl (X + Y) - (X + Y)) by ring, abs_neg]; exact cS
    exact Cmono (fl_close hf hp (div_close (k := 3) (by norm_num) this) bZ) (by norm_num)
  unfold dPolyF dpolyR
  simp only
  generalize fl (-fl (X + Y) / 3) = z at *
  generalize -(X + Y) / 3 = Z at *
  generalize fl (X * Y) = xy at *
  generalize X * Y = XY at *
  have bZ2 : |Z * Z| ≤ 1 / 3600 := (abs_mul_le bZ bZ).trans (by norm_num)
  have cZ2 : |fl (z * z) - Z * Z| ≤ 2 / 1000 * (2 ^ p)⁻¹ := Cmono (fl_close hf hp (mul_close hp cZ cZ bZ bZ) bZ2) (by norm_num)
  have bXYZ : |XY * Z| ≤ 1 / 96000 := (abs_mul_le bXY bZ).trans (by norm_num)
  have cXYZ : |fl (xy * z) - XY * Z| ≤ 1 / 10000 * (2 ^ p)⁻¹ := Cmono (fl_close hf hp (mul_close hp cXY cZ bXY bZ) bXYZ) (by norm_num)
  generalize fl (z * z) = z2 at *
  generalize Z * Z = Z2 at *
  generalize fl (xy * z) = xyz at *
  generalize XY * Z = XYZ at *
  have b6 : |6 * Z2| ≤ 6 * (1 / 3600) := abs_const_mul (by norm_num) bZ2
  have c6 := Cmono (fl_close hf hp (const_mul_close (k := 6) (by norm_num) cZ2) b6) (d := 14 / 1000) (by norm_num)
  have bE2 : |XY - 6 * Z2| ≤ 1 / 400 := (abs_sub _ _).trans (by linarith)
  have cE2 : |fl (xy - fl (6 * z2)) - (XY - 6 * Z2)| ≤ 18 / 1000 * (2 ^ p)⁻¹ := Cmono (fl_close hf hp (sub_close cXY c6) bE2) (by norm_num)
  have b3 : |3 * XYZ| ≤ 3 * (1 / 96000) := abs_const_mul (by norm_num) bXYZ
  have c3 := Cmono (fl_close hf hp (const_mul_close (k := 3) (by norm_num) cXYZ) b3) (d := 1 / 1000) (by norm_num)
  have b8 : |8 * Z2| ≤ 8 * (1 / 3600) := abs_const_mul (by norm_num) bZ2
  have c8 := Cmono (fl_close hf hp (const_mul_close (k := 8) (by norm_num) cZ2) b8) (d := 2 / 100) (by norm_num)
  have b8Z : |8 * Z2 * Z| ≤ 1 / 20000 := (abs_mul_le b8 bZ).trans (by norm_num)
  have c8Z := Cmono (fl_close hf hp (mul_close hp c8 cZ b8 bZ) b8Z) (d := 1 / 1000) (by norm_num)
  have bE3 : |3 * XYZ - 8 * Z2 * Z| ≤ 1 / 10000 := (abs_sub _ _).trans (by linarith)
  have cE3 : |fl (fl (3 * xyz) - fl (fl (8 * z2) * z)) - (3 * XYZ - 8 * Z2 * Z)| ≤ 3 / 1000 * (2 ^ p)⁻¹ :=
    Cmono (fl_close hf hp (sub_close c3 c8Z) bE3) (by norm_num)
  have bD : |XY - Z2| ≤ 1 / 1000 := (abs_sub _ _).trans (by linarith)
  have cD := Cmono (fl_close hf hp (sub_close cXY cZ2) bD) (d := 5 / 1000) (by norm_num)
  have b3D : |3 * (XY - Z2)| ≤ 3 * (1 / 1000) := abs_const_mul (by norm_num) bD
  have c3D := Cmono (fl_close hf hp (const_mul_close (k := 3) (by norm_num) cD) b3D) (d := 2 / 100) (by norm_num)
  have bE4 : |3 * (XY - Z2) * Z2| ≤ 1 / 100000 := (abs_mul_le b3D bZ2).trans (by norm_num)
  have cE4 : |fl (fl (3 * fl (xy - z2)) * z2) - 3 * (XY - Z2) * Z2| ≤ 1 / 1000 * (2 ^ p)⁻¹ :=
    Cmono (fl_close hf hp (mul_close hp c3D cZ2 b3D bZ2) bE4) (by norm_num)
  have bE5 : |XYZ * Z2| ≤ 1 / 100000 := (abs_mul_le bXYZ bZ2).trans (by norm_num)
  have cE5 : |fl (xyz * z2) - XYZ * Z2| ≤ 1 / 1000 * (2 ^ p)⁻¹ := Cmono (fl_close hf hp (mul_close hp cXYZ cZ2 bXYZ bZ2) bE5) (by norm_num)
  generalize fl (xy - fl (6 * z2)) = e2 at *
  generalize fl (fl (3 * xyz) - fl (fl (8 * z2) * z)) = e3 at *
  generalize fl (fl (3 * fl (xy - z2)) * z2) = e4 at *
  generalize fl (xyz * z2) = e5 at *
  generalize XY - 6 * Z2 = E2 at *
  generalize 3 * XYZ - 8 * Z2 * Z = E3 at *
  generalize 3 * (XY - Z2) * Z2 = E4 at *
  generalize XYZ * Z2 = E5 at *
  have k1 := const_close hf hp hq hpq (c := 3 / 14) (B := 3 / 14) (by rw [abs_of_pos (by norm_num)])
  have k2 := const_close hf hp hq hpq (c := 9 / 88) (B := 9 / 88) (by rw [abs_of_pos (by norm_num)])
  have k3 := const_close hf hp hq hpq (c := 3 / 22) (B := 3 / 22) (by rw [abs_of_pos (by norm_num)])
  have k4 := const_close hf hp hq hpq (c := 9 / 52) (B := 9 / 52) (by rw [abs_of_pos (by norm_num)])
  have k5 := const_close hf hp hq hpq (c := 3 / 26) (B := 3 / 26) (by rw [abs_of_pos (by norm_num)])
  have a1 : |(3 / 14 : ℝ)| ≤ 3 / 14 := by rw [abs_of_pos (by norm_num)]
  have a2 : |(9 / 88 : ℝ)| ≤ 9 / 88 := by rw [abs_of_pos (by norm_num)]
  have a3 : |(3 / 22 : ℝ)| ≤ 3 / 22 := by rw [abs_of_pos (by norm_num)]
  have a4 : |(9 / 52 : ℝ)| ≤ 9 / 52 := by rw [abs_of_pos (by norm_num)]
  have a5 : |(3 / 26 : ℝ)| ≤ 3 / 26 := by rw [abs_of_pos (by norm_num)]
  -- the six terms
  have t1b := abs_mul_le a1 bE2
  have t1 := Cmono (fl_close hf hp (mul_close hp k1 cE2 a1 bE2) t1b) (d := 1 / 100) (by norm_num)
  have t2b : |E3 / 6| ≤ 1 / 60000 := by rw [abs_div, abs_of_pos (by norm_num : (0 : ℝ) < 6)]; linarith
  have t2 := Cmono (fl_close hf hp (div_close (k := 6) (by norm_num) cE3) t2b) (d := 1 / 1000) (by norm_num)
  have t3a := abs_mul_le a2 bE2
  have t3' := Cmono (fl_close hf hp (mul_close hp k2 cE2 a2 bE2) t3a) (d := 1 / 100) (by norm_num)
  have t3b := abs_mul_le t3a bE2
  have t3 := Cmono (fl_close hf hp (mul_close hp t3' cE2 t3a bE2) t3b) (d := 1 / 1000) (by norm_num)
  have t4b := abs_mul_le a3 bE4
  have t4 := Cmono (fl_close hf hp (mul_close hp k3 cE4 a3 bE4) t4b) (d := 1 / 1000) (by norm_num)
  have t5a := abs_mul_le a4 bE2
  have t5' := Cmono (fl_close hf hp (mul_close hp k4 cE2 a4 bE2) t5a) (d := 1 / 100) (by norm_num)
  have t5b := abs_mul_le t5a bE3
  have t5 := Cmono (fl_close hf hp (mul_close hp t5' cE3 t5a bE3) t5b) (d := 1 / 1000) (by norm_num)
  have t6b := abs_mul_le a5 bE5
  have t6 := Cmono (fl_close hf hp (mul_close hp k5 cE5 a5 bE5) t6b) (d := 1 / 1000) (by norm_num)
  have d1 : |1 - 3 / 14 * E2| ≤ 1001 / 1000 := (abs_sub _ _).trans (by rw [abs_one]; norm_num at t1b ⊢; linarith)
  have s1 := Cmono (fl_close hf hp (sub_close (refl_close 1) t1) d1) (d := 102 / 100) (by norm_num)
  have d2 : |1 - 3 / 14 * E2 + E3 / 6| ≤ 1002 / 1000 := (abs_add_le _ _).trans (by linarith)
  have s2 := Cmono (fl_close hf hp (add_close s1 t2) d2) (d := 204 / 100) (by norm_num)
  have d3 : |1 - 3 / 14 * E2 + E3 / 6 + 9 / 88 * E2 * E2| ≤ 1003 / 1000 := (abs_add_le _ _).trans (by norm_num at t3b ⊢; linarith)
  have s3 := Cmono (fl_close hf hp (add_close s2 t3) d3) (d := 306 / 100) (by norm_num)
  have d4 : |1 - 3 / 14 * E2 + E3 / 6 + 9 / 88 * E2 * E2 - 3 / 22 * E4| ≤ 1004 / 1000 := (abs_sub _ _).trans (by norm_num at t4b ⊢; linarith)
  have s4 := Cmono (fl_close hf hp (sub_close s3 t4) d4) (d := 408 / 100) (by norm_num)
  have d5 : |1 - 3 / 14 * E2 + E3 / 6 + 9 / 88 * E2 * E2 - 3 / 22 * E4 - 9 / 52 * E2 * E3| ≤ 1005 / 1000 :=
    (abs_sub _ _).trans (by norm_num at t5b ⊢; linarith)
  have s5 := Cmono (fl_close hf hp (sub_close s4 t5) d5) (d := 511 / 100) (by norm_num)
  have d6 : |1 - 3 / 14 * E2 + E3 / 6 + 9 / 88 * E2 * E2 - 3 / 22 * E4 - 9 / 52 * E2 * E3 + 3 / 26 * E5| ≤ 1006 / 1000 :=
    (abs_add_le _ _).trans (by norm_num at t6b ⊢; linarith)
  unfold serD
  exact Cmono (fl_close hf hp (add_close s5 t6) d6) (by norm_num)

theorem mul_diff {a a' b b' A B α β : ℝ} (hb : |b| ≤ B) (ha' : |a'| ≤ A) (ha : |a - a'| ≤ α) (hd : |b - b'| ≤ β) : |a * b - a' * b'| ≤ α * B + β * A := by
  rw [show a * b - a' * b' = (a - a') * b + (b - b') * a' by ring]
  exact (abs_add_le _ _).trans (add_le_add (abs_mul_le ha hb) (abs_mul_le hd ha'))

/-- The polynomial hardly depends on its arguments. -/
theorem dpoly_lip {X Y X' Y' h : ℝ} (hX : |X| ≤ 1 / 40) (hY : |Y| ≤ 1 / 40) (hX' : |X'| ≤ 1 / 40) (hY' : |Y'| ≤ 1 / 40) (hd : |X - X'| + |Y - Y'| ≤ h) :
    |dpolyR X Y - dpolyR X' Y'| ≤ h / 40 := by
  have h0 : 0 ≤ h := le_trans (by positivity) hd
  have bound : ∀ {X Y : ℝ}, |X| ≤ 1 / 40 → |Y| ≤ 1 / 40 → |-(X + Y) / 3| ≤ 1 / 60 ∧ |X * Y| ≤ 1 / 1600 := fun hX hY => by
    refine ⟨?_, (abs_mul_le hX hY).trans (by norm_num)⟩
    rw [abs_div, abs_neg, abs_of_pos (by norm_num : (0 : ℝ) < 3)]
    linarith [(abs_add_le _ _).trans (add_le_add hX hY)]
  obtain ⟨bZ, bXY⟩ := bound hX hY
  obtain ⟨bZ', bXY'⟩ := bound hX' hY'
  have cZ : |-(X + Y) / 3 - -(X' + Y') / 3| ≤ h / 3 := by
    rw [show -(X + Y) / 3 - -(X' + Y') / 3 = -((X - X') + (Y - Y')) / 3 by ring, abs_div, abs_neg, abs_of_pos (by norm_num : (0 : ℝ) < 3)]
    linarith [(abs_add_le (X - X') (Y - Y')).trans hd]
  have cXY : |X * Y - X' * Y'| ≤ h / 40 := by
    rw [show X * Y - X' * Y' = (X - X') * Y + (Y - Y') * X' by ring]
    refine (abs_add_le _ _).trans ?_
    have t1 : |(X - X') * Y| ≤ |X - X'| * (1 / 40) := by rw [abs_mul]; gcongr
    have t2 : |(Y - Y') * X'| ≤ |Y - Y'| * (1 / 40) := by rw [abs_mul]; gcongr
    linarith
  unfold dpolyR
  simp only
  generalize -(X + Y) / 3 = Z at *
  generalize -(X' + Y') / 3 = Z' at *
  generalize X * Y = P at *
  generalize X' * Y' = P' at *
  have bZ2 : |Z * Z| ≤ 1 / 3600 := (abs_mul_le bZ bZ).trans (by norm_num)
  have bZ2' : |Z' * Z'| ≤ 1 / 3600 := (abs_mul_le bZ' bZ').trans (by norm_num)
  have cZ2 : |Z * Z - Z' * Z'| ≤ h / 90 := (mul_diff bZ bZ' cZ cZ).trans (by linarith)
  have bPZ : |P * Z| ≤ 1 / 96000 := (abs_mul_le bXY bZ).trans (by norm_num)
  have bPZ' : |P' * Z'| ≤ 1 / 96000 := (abs_mul_le bXY' bZ').trans (by norm_num)
  have cPZ : |P * Z - P' * Z'| ≤ h / 1000 := (mul_diff bZ bXY' cXY cZ).trans (by linarith)
  have bZ3 : |Z * Z * Z| ≤ 1 / 216000 := (abs_mul_le bZ2 bZ).trans (by norm_num)
  have cZ3 : |Z * Z * Z - Z' * Z' * Z'| ≤ h / 3000 := (mul_diff bZ bZ2' cZ2 cZ).trans (by linarith)
  have bE2 : |P - 6 * (Z * Z)| ≤ 1 / 400 := (abs_sub _ _).trans (by
    have := abs_const_mul (show (0 : ℝ) ≤ 6 by norm_num) bZ2
    linarith)
  have bE2' : |P' - 6 * (Z' * Z')| ≤ 1 / 400 := (abs_sub _ _).trans (by
    have := abs_const_mul (show (0 : ℝ) ≤ 6 by norm_num) bZ2'
    linarith)
  have cE2 : |P - 6 * (Z * Z) - (P' - 6 * (Z' * Z'))| ≤ 11 / 120 * h := by
    rw [show P - 6 * (Z * Z) - (P' - 6 * (Z' * Z')) = (P - P') - 6 * (Z * Z - Z' * Z') by ring]
    have := abs_const_mul (show (0 : ℝ) ≤ 6 by norm_num) cZ2
    exact (abs_sub _ _).trans (by linarith)
  have bE3 : |3 * (P * Z) - 8 * (Z * Z) * Z| ≤ 1 / 10000 := by
    rw [mul_assoc 8]
    have t1 := abs_const_mul (show (0 : ℝ) ≤ 3 by norm_num) bPZ
    have t2 := abs_const_mul (show (0 : ℝ) ≤ 8 by norm_num) bZ3
    exact (abs_sub _ _).trans (by linarith)
  have cE3 : |3 * (P * Z) - 8 * (Z * Z) * Z - (3 * (P' * Z') - 8 * (Z' * Z') * Z')| ≤ h / 170 := by
    rw [show 3 * (P * Z) - 8 * (Z * Z) * Z - (3 * (P' * Z') - 8 * (Z' * Z') * Z') = 3 * (P * Z - P' * Z') - 8 * (Z * Z * Z - Z' * Z' * Z') by ring]
    have t1 := abs_const_mul (show (0 : ℝ) ≤ 3 by norm_num) cPZ
    have t2 := abs_const_mul (show (0 : ℝ) ≤ 8 by norm_num) cZ3
    exact (abs_sub _ _).trans (by linarith)
  have cE4 : |3 * (P - Z * Z) * (Z * Z) - 3 * (P' - Z' * Z') * (Z' * Z')| ≤ h / 5000 := by
    have b1 : |P' - Z' * Z'| ≤ 1 / 1000 := (abs_sub _ _).trans (by linarith)
    have c1 : |P - Z * Z - (P' - Z' * Z')| ≤ 13 / 360 * h := by
      rw [show P - Z * Z - (P' - Z' * Z') = (P - P') - (Z * Z - Z' * Z') by ring]
      exact (abs_sub _ _).trans (by linarith)
    have c2 := mul_diff bZ2 b1 c1 cZ2
    have c3 := abs_const_mul (show (0 : ℝ) ≤ 3 by norm_num) c2
    rw [show 3 * (P - Z * Z) * (Z * Z) - 3 * (P' - Z' * Z') * (Z' * Z') = 3 * ((P - Z * Z) * (Z * Z) - (P' - Z' * Z') * (Z' * Z')) by ring]
    refine c3.trans ?_
    linarith
  have cE5 : |P * Z * (Z * Z) - P' * Z' * (Z' * Z')| ≤ h / 5000 := (mul_diff bZ2 bPZ' cPZ cZ2).trans (by linarith)
  generalize P - 6 * (Z * Z) = E2 at *
  generalize P' - 6 * (Z' * Z') = E2' at *
  generalize 3 * (P * Z) - 8 * (Z * Z) * Z = E3 at *
  generalize 3 * (P' * Z') - 8 * (Z' * Z') * Z' = E3' at *
  generalize 3 * (P - Z * Z) * (Z * Z) = E4 at *
  generalize 3 * (P' - Z' * Z') * (Z' * Z') = E4' at *
  generalize P * Z * (Z * Z) = E5 at *
  generalize P' * Z' * (Z' * Z') = E5' at *
  have t1 := mul_diff bE2 bE2' cE2 cE2
  have t2 := mul_diff bE3 bE2' cE2 cE3
  obtain ⟨l1, r1⟩ := abs_le.mp t1
  obtain ⟨l2, r2⟩ := abs_le.mp t2
  obtain ⟨l3, r3⟩ := abs_le.mp cE2
  obtain ⟨l4, r4⟩ := abs_le.mp cE3
  obtain ⟨l5, r5⟩ := abs_le.mp cE4
  obtain ⟨l6, r6⟩ := abs_le.mp cE5
  unfold serD
  rw [show 1 - 3 / 14 * E2 + E3 / 6 + 9 / 88 * E2 * E2 - 3 / 22 * E4 - 9 / 52 * E2 * E3 + 3 / 26 * E5 -
      (1 - 3 / 14 * E2' + E3' / 6 + 9 / 88 * E2' * E2' - 3 / 22 * E4' - 9 / 52 * E2' * E3' + 3 / 26 * E5') =
    -(3 / 14) * (E2 - E2') + (E3 - E3') / 6 + 9 / 88 * (E2 * E2 - E2' * E2') - 3 / 22 * (E4 - E4') - 9 / 52 * (E2 * E3 - E2' * E3') +
      3 / 26 * (E5 - E5') by ring, abs_le]
  constructor <;> linarith

theorem dpolyR_bounds {X Y : ℝ} (hX : |X| ≤ 1 / 40) (hY : |Y| ≤ 1 / 40) : |dpolyR X Y - 1| ≤ 1 / 800 := by
  have h := dpoly_lip hX hY (X' := 0) (Y' := 0) (by norm_num) (by norm_num) (h := 1 / 20) (by rw [sub_zero, sub_zero]; linarith)
  have : dpolyR 0 0 = 1 := by norm_num [dpolyR, serD]
  rw [this] at h
  linarith

/-- The tolerance: `ε^6 = EPS / 4` with `EPS = 10^-6 eps`, `eps = 2·2^-p`. -/
theorem eps_toleranceD (hp : 24 ≤ p) :
    ∃ ε : ℝ, 0 < ε ∧ ε ≤ 1 / 100 ∧ ε ^ 6 = 1 / 2000000 * (2 ^ p)⁻¹ ∧ (EPS (2 * (2 ^ p)⁻¹) * (1 / 4)) ^ (-(1 / 6) : ℝ) = 1 / ε ∧
      57000 * (2 ^ p)⁻¹ ≤ ε := by
  have hu := unit24 hp
  have hu0 : (0 : ℝ) < (2 ^ p)⁻¹ := by positivity
  have hb : EPS (2 * ((2 : ℝ) ^ p)⁻¹) * (1 / 4) = 1 / 2000000 * (2 ^ p)⁻¹ := by unfold EPS; ring
  obtain ⟨ε, h0, -, h6, hK⟩ := tolerance (b := EPS (2 * ((2 : ℝ) ^ p)⁻¹) * (1 / 4)) (by rw [hb]; positivity) (by rw [hb]; linarith)
  rw [hb] at h6
  refine ⟨ε, h0, ?_, h6, hK, ?_⟩
  · by_contra hc
    have : (1 / 100 : ℝ) ^ 6 < ε ^ 6 := pow_lt_pow_left₀ (not_le.mp hc) (by norm_num) (by norm_num)
    rw [h6] at this
    norm_num at this
    linarith
  · generalize ((2 : ℝ) ^ p)⁻¹ = u at *
    by_contra hc
    have h1 : ε ^ 6 < (57000 * u) ^ 6 := pow_lt_pow_left₀ (not_le.mp hc) h0.le (by norm_num)
    have h5 : u ^ 5 ≤ (1 / 16777216) ^ 5 := by gcongr
    have h7 : (57000 * u) ^ 6 = 57000 ^ 6 * u ^ 5 * u := by ring
    have h8 : 57000 ^ 6 * u ^ 5 * u ≤ 57000 ^ 6 * (1 / 16777216) ^ 5 * u := by gcongr
    rw [h6, h7] at h1
    norm_num at h8 h1
    linarith

end Verif.Carlson.Flt

import Verif.Carlson.RoundCore
import Verif.Carlson.AccuracyDJ

/-! # Rounding in elliprc -/

namespace Verif.Carlson.Flt

open Verif.Round

variable {p : ℕ} {fl : ℝ → ℝ}

/-- The state of `elliprc` as one of `elliprf` with equal second and third arguments. -/
def RCState.emb (s : RCState) : RState := ⟨s.x, s.y, s.y, s.A, s.pow4⟩

/-- `λ` up to 5 roundings. -/
theorem lmc_near (hf : Nearest p fl) (hp : 24 ≤ p) {a b : ℝ} (hb : 0 ≤ b) :
    Near (1 - (2 ^ p)⁻¹)⁻¹ 5 (fl (fl (fl (2 * fl √a) * fl √b) + b)) (lam a b b 0) := by
  have hp1 : 1 ≤ p := by omega
  have hw := w_ge hp
  have hsa := near_fl hf hp1 (Real.sqrt_nonneg a)
  have hsa0 := fl_nonneg hf hp1 (Real.sqrt_nonneg a)
  have hsb := near_fl hf hp1 (Real.sqrt_nonneg b)
  have hsb0 := fl_nonneg hf hp1 (Real.sqrt_nonneg b)
  have h20 : 0 ≤ 2 * fl √a := by positivity
  have h2 := hsa.scale (show (0 : ℝ) ≤ 2 by norm_num)
  rw [mul_comm _ 2, mul_comm _ 2] at h2
  have h3 := (near_fl hf hp1 h20).trans hw h2
  have h30 := fl_nonneg hf hp1 h20
  have h4 := h3.mul hw hsb (by positivity) hsb0
  have h40 := mul_nonneg h30 hsb0
  have h5 := (near_fl hf hp1 h40).trans hw h4
  have h50 := fl_nonneg hf hp1 h40
  have h6 := h5.add ((Near.refl b).mono hw (show 0 ≤ 1 + (1 + 1 + 1) by omega) hb hb)
  have h7 := (near_fl hf hp1 (add_nonneg h50 hb)).trans hw h6
  have e : lam a b b 0 = 2 * √a * √b + b := by
    unfold lam
    simp only [zero_add]
    have := Real.mul_self_sqrt hb
    linarith
  rw [e]
  exact h7

theorem c_inv_succ (hf : Nearest p fl) (hp : 24 ≤ p) {x y A0 : ℝ} {n : ℕ} (hn : n ≤ 1000) {s : RCState} (h : Inv p x y y A0 n s.emb) :
    Inv p x y y A0 (n + 1) (cStepF fl s).emb := by
  have := inv_step hf hp hn h (lmc_near hf hp (a := s.x) (b := s.y) h.args.y0)
  unfold cStepF RCState.emb
  simp only [fl_div4 hf]
  exact this

/-- The polynomial of `elliprc` in exact arithmetic. -/
noncomputable def cpolyR (s : ℝ) : ℝ :=
  1 + s * s * (3 / 10) + s * s * s / 7 + s * s * s * s * (3 / 8) + s * s * s * s * s * (9 / 22) + s * s * s * s * s * s * (159 / 208) +
    s * s * s * s * s * s * s * (9 / 8)

/-- Rounding in the polynomial. -/
theorem cpoly_round {q : ℕ} {flq : ℝ → ℝ} (hf : Nearest p fl) (hp : 24 ≤ p) (hq : Nearest q flq) (hpq : p ≤ q) {s : ℝ} (hs : |s| ≤ 1 / 40) :
    |cPolyF fl flq s - cpolyR s| ≤ 63 / 10 * (2 ^ p)⁻¹ := by
  have b2 : |s * s| ≤ 1 / 1600 := (abs_mul_le hs hs).trans (by norm_num)
  have b3 : |s * s * s| ≤ 1 / 64000 := (abs_mul_le b2 hs).trans (by norm_num)
  have b4 : |s * s * s * s| ≤ 1 / 64000 := (abs_mul_le b3 hs).trans (by norm_num)
  have b5 : |s * s * s * s * s| ≤ 1 / 64000 := (abs_mul_le b4 hs).trans (by norm_num)
  have b6 : |s * s * s * s * s * s| ≤ 1 / 64000 := (abs_mul_le b5 hs).trans (by norm_num)
  have b7 : |s * s * s * s * s * s * s| ≤ 1 / 64000 := (abs_mul_le b6 hs).trans (by norm_num)
  have rs := refl_close (p := p) s
  have c2 := Cmono (fl_close hf hp (refl_close (s * s)) b2) (d := 1 / 1000) (by norm_num)
  have c3 := Cmono (fl_close hf hp (mul_close hp c2 rs b2 hs) b3) (d := 1 / 1000) (by norm_num)
  have c4 := Cmono (fl_close hf hp (mul_close hp c3 rs b3 hs) b4) (d := 1 / 1000) (by norm_num)
  have c5 := Cmono (fl_close hf hp (mul_close hp c4 rs b4 hs) b5) (d := 1 / 1000) (by norm_num)
  have c6 := Cmono (fl_close hf hp (mul_close hp c5 rs b5 hs) b6) (d := 1 / 1000) (by norm_num)
  have c7 := Cmono (fl_close hf hp (mul_close hp c6 rs b6 hs) b7) (d := 1 / 1000) (by norm_num)
  unfold cPolyF cpolyR
  simp only
  generalize fl (s * s) = s2 at *
  generalize fl (s2 * s) = s3 at *
  generalize fl (s3 * s) = s4 at *
  generalize fl (s4 * s) = s5 at *
  generalize fl (s5 * s) = s6 at *
  generalize fl (s6 * s) = s7 at *
  generalize s * s * s * s * s * s * s = S7 at *
  generalize s * s * s * s * s * s = S6 at *
  generalize s * s * s * s * s = S5 at *
  generalize s * s * s * s = S4 at *
  generalize s * s * s = S3 at *
  generalize s * s = S2 at *
  have term : ∀ {a A c : ℝ}, |a - A| ≤ 1 / 1000 * (2 ^ p)⁻¹ → |A| ≤ 1 / 1600 → |c| ≤ 2 →
      |fl (a * fl (flq c)) - A * c| ≤ 1 / 100 * (2 ^ p)⁻¹ ∧ |A * c| ≤ 1 / 800 := fun {a A c} ha hA hc => by
    have k1 := const_close hf hp hq hpq hc
    have k2 := abs_mul_le hA hc
    exact ⟨Cmono (fl_close hf hp (mul_close hp ha k1 hA hc) k2) (by norm_num), k2.trans (by norm_num)⟩
  obtain ⟨t2, r2⟩ := term (c := 3 / 10) c2 b2 (by rw [abs_of_pos (by norm_num)]; norm_num)
  obtain ⟨t4, r4⟩ := term (c := 3 / 8) c4 (by linarith) (by rw [abs_of_pos (by norm_num)]; norm_num)
  obtain ⟨t5, r5⟩ := term (c := 9 / 22) c5 (by linarith) (by rw [abs_of_pos (by norm_num)]; norm_num)
  obtain ⟨t6, r6⟩ := term (c := 159 / 208) c6 (by linarith) (by rw [abs_of_pos (by norm_num)]; norm_num)
  obtain ⟨t7, r7⟩ := term (c := 9 / 8) c7 (by linarith) (by rw [abs_of_pos (by norm_num)]; norm_num)
  have r3 : |S3 / 7| ≤ 1 / 800 := by rw [abs_div, abs_of_pos (by norm_num : (0 : ℝ) < 7)]; linarith
  have t3 := Cmono (fl_close hf hp (div_close (k := 7) (by norm_num) c3) r3) (d := 1 / 100) (by norm_num)
  have d2 : |1 + S2 * (3 / 10)| ≤ 101 / 100 := (abs_add_le _ _).trans (by rw [abs_one]; linarith)
  have d2' : |1 + S2 * (3 / 10)| ≤ 1 + 1 / 800 := (abs_add_le _ _).trans (by rw [abs_one]; linarith)
  have d3' : |1 + S2 * (3 / 10) + S3 / 7| ≤ 1 + 2 / 800 := (abs_add_le _ _).trans (by linarith)
  have d4' : |1 + S2 * (3 / 10) + S3 / 7 + S4 * (3 / 8)| ≤ 1 + 3 / 800 := (abs_add_le _ _).trans (by linarith)
  have d5' : |1 + S2 * (3 / 10) + S3 / 7 + S4 * (3 / 8) + S5 * (9 / 22)| ≤ 1 + 4 / 800 := (abs_add_le _ _).trans (by linarith)
  have d6' : |1 + S2 * (3 / 10) + S3 / 7 + S4 * (3 / 8) + S5 * (9 / 22) + S6 * (159 / 208)| ≤ 1 + 5 / 800 := (abs_add_le _ _).trans (by linarith)
  have d7' : |1 + S2 * (3 / 10) + S3 / 7 + S4 * (3 / 8) + S5 * (9 / 22) + S6 * (159 / 208) + S7 * (9 / 8)| ≤ 1 + 6 / 800 :=
    (abs_add_le _ _).trans (by linarith)
  have u2 := Cmono (fl_close hf hp (add_close (refl_close 1) t2) d2') (d := 103 / 100) (by norm_num)
  have u3 := Cmono (fl_close hf hp (add_close u2 t3) d3') (d := 206 / 100) (by norm_num)
  have u4 := Cmono (fl_close hf hp (add_close u3 t4) d4') (d := 309 / 100) (by norm_num)
  have u5 := Cmono (fl_close hf hp (add_close u4 t5) d5') (d := 412 / 100) (by norm_num)
  have u6 := Cmono (fl_close hf hp (add_close u5 t6) d6') (d := 516 / 100) (by norm_num)
  exact Cmono (fl_close hf hp (add_close u6 t7) d7') (by norm_num)

/-- The polynomial hardly depends on its argument. -/
theorem cpoly_lip {s s' : ℝ} (hs : |s| ≤ 1 / 40) (hs' : |s'| ≤ 1 / 40) : |cpolyR s - cpolyR s'| ≤ |s - s'| / 50 := by
  have e : cpolyR s - cpolyR s' = (s - s') * ((s + s') * (3 / 10) + (s * s + s * s' + s' * s') * (1 / 7) +
      (s * s + s' * s') * (s + s') * (3 / 8) + (s * s * (s * s + s * s' + s' * s') + s' * s' * (s * s' + s' * s')) * (9 / 22) +
      (s + s') * (s * s + s * s' + s' * s') * (s * s - s * s' + s' * s') * (159 / 208) +
      (s * s * s * s * (s * s + s * s' + s' * s') + s' * s' * s' * (s * s * s + s * s * s' + s * s' * s' + s' * s' * s')) * (9 / 8)) := by
    unfold cpolyR; ring
  rw [e, abs_mul]
  refine le_trans (mul_le_mul_of_nonneg_left (c := 1 / 50) ?_ (abs_nonneg _)) (by rw [mul_one_div])
  have p1 := abs_mul_le hs hs
  have p2 := abs_mul_le hs hs'
  have p3 := abs_mul_le hs' hs'
  have q1 : |s + s'| ≤ 1 / 20 := (abs_add_le _ _).trans (by linarith)
  have q2 : |s * s + s * s' + s' * s'| ≤ 1 / 400 := (abs_add_le _ _).trans (by
    have := abs_add_le (s * s) (s * s')
    linarith)
  have q3 : |s * s + s' * s'| ≤ 1 / 400 := (abs_add_le _ _).trans (by linarith)
  have q4 : |s * s - s * s' + s' * s'| ≤ 1 / 400 := (abs_add_le _ _).trans (by
    have := abs_sub (s * s) (s * s')
    linarith)
  have q5 : |s * s' + s' * s'| ≤ 1 / 400 := (abs_add_le _ _).trans (by linarith)
  have a1 : |(s + s') * (3 / 10)| ≤ 3 / 200 := by rw [abs_mul, abs_of_pos (by norm_num : (0 : ℝ) < 3 / 10)]; linarith
  have a2 : |(s * s + s * s' + s' * s') * (1 / 7)| ≤ 1 / 2000 := by rw [abs_mul, abs_of_pos (by norm_num : (0 : ℝ) < 1 / 7)]; linarith
  have a3 : |(s * s + s' * s') * (s + s') * (3 / 8)| ≤ 1 / 2000 := by
    have := abs_mul_le q3 q1
    rw [abs_mul, abs_of_pos (by norm_num : (0 : ℝ) < 3 / 8)]; linarith
  have a4 : |(s * s * (s * s + s * s' + s' * s') + s' * s' * (s * s' + s' * s')) * (9 / 22)| ≤ 1 / 2000 := by
    have h1 := abs_mul_le p1 q2
    have h2 := abs_mul_le p3 q5
    have h3 := abs_add_le (s * s * (s * s + s * s' + s' * s')) (s' * s' * (s * s' + s' * s'))
    rw [abs_mul, abs_of_pos (by norm_num : (0 : ℝ) < 9 / 22)]; linarith
  have a5 : |(s + s') * (s * s + s * s' + s' * s') * (s * s - s * s' + s' * s') * (159 / 208)| ≤ 1 / 2000 := by
    have := abs_mul_le (abs_mul_le q1 q2) q4
    rw [abs_mul, abs_of_pos (by norm_num : (0 : ℝ) < 159 / 208)]; linarith
  have a6 : |(s * s * s * s * (s * s + s * s' + s' * s') + s' * s' * s' * (s * s * s + s * s * s' + s * s' * s' + s' * s' * s')) * (9 / 8)| ≤ 1 / 2000 := by
    have h1 := abs_mul_le (abs_mul_le (abs_mul_le p1 hs) hs) q2
    have h2 : |s * s * s + s * s * s' + s * s' * s' + s' * s' * s'| ≤ 1 / 1000 := by
      have g1 := abs_mul_le p1 hs
      have g2 := abs_mul_le p1 hs'
      have g3 := abs_mul_le p2 hs'
      have g4 := abs_mul_le p3 hs'
      have g5 := abs_add_le (s * s * s + s * s * s' + s * s' * s') (s' * s' * s')
      have g6 := abs_add_le (s * s * s + s * s * s') (s * s' * s')
      have g7 := abs_add_le (s * s * s) (s * s * s')
      linarith
    have h3 := abs_mul_le (abs_mul_le p3 hs') h2
    have h4 := abs_add_le (s * s * s * s * (s * s + s * s' + s' * s')) (s' * s' * s' * (s * s * s + s * s * s' + s * s' * s' + s' * s' * s'))
    rw [abs_mul, abs_of_pos (by norm_num : (0 : ℝ) < 9 / 8)]; linarith
  obtain ⟨l1, u1⟩ := abs_le.mp a1
  obtain ⟨l2, u2⟩ := abs_le.mp a2
  obtain ⟨l3, u3⟩ := abs_le.mp a3
  obtain ⟨l4, u4⟩ := abs_le.mp a4
  obtain ⟨l5, u5⟩ := abs_le.mp a5
  obtain ⟨l6, u6⟩ := abs_le.mp a6
  rw [abs_le]
  constructor <;> linarith

/-- The reduced variable as computed by `elliprc`. -/
theorem reduced_rc (hf : Nearest p fl) (hp : 24 ≤ p) {A M a b q x y A0 ε : ℝ} {n : ℕ} (hn : n ≤ 1000) (hA : 0 < A) (hM : 0 < M) (ha : 0 ≤ a) (hb : 0 ≤ b)
    (hMd : M = (a + b + b) / 3) (hmean : Near (1 - (2 ^ p)⁻¹)⁻¹ (3 + 2 * n) A M) (hε0 : 0 ≤ ε) (hε100 : ε ≤ 1 / 100)
    (hred : |q * (A0 - x) / A| ≤ 102 / 100 * ε) (hη : (18 * (n : ℝ) + 10) * (2 ^ p)⁻¹ ≤ ε / 4)
    (hdx : |A - a - q * (A0 - x)| ≤ 51 / 5 * (n * ((1 - (2 ^ p)⁻¹)⁻¹ ^ n * (2 ^ p)⁻¹)) * M)
    (hdy : |A - b - q * (A0 - y)| ≤ 51 / 5 * (n * ((1 - (2 ^ p)⁻¹)⁻¹ ^ n * (2 ^ p)⁻¹)) * M) :
    |fl (fl (fl (y - A0) * q) / A) - (b - M) / M| ≤ (18 * n + 10) * (2 ^ p)⁻¹ ∧ |(b - M) / M| ≤ 2 / 3 * ε := by
  have hu := unit24 hp
  have hu0 : (0 : ℝ) < (2 ^ p)⁻¹ := by positivity
  have hp1 : 1 ≤ p := by omega
  have hwn := w_pow_le hp (show n ≤ 10000 by omega)
  have hAM := mean_close hp hn hA.le hmean
  have hx := reduced_close (D := A0 - x) (t := q / A) (δ1 := 0) (δ2 := 0) (δ3 := 0) hn hu0 hu hA hM ha (by rw [hMd]; linarith) hAM hwn hdx
    (show 102 / 100 * ε ≤ 1 / 40 by linarith) hred (by simp [hu0.le]) (by simp [hu0.le]) (by simp [hu0.le]) (by ring) (by ring)
  have hs : |(b - M) / M| ≤ 2 / 3 * ε := by
    have e : (b - M) / M = (q * (A0 - x) / A - ((A0 - x) * (q / A) * (1 + 0) - (M - a) / M)) / 2 := by
      have : (A0 - x) * (q / A) * (1 + 0) = q * (A0 - x) / A := by ring
      rw [this]
      have h3 : (b - M) / M = (M - a) / M / 2 := by rw [hMd]; field_simp; ring
      rw [h3]; ring
    rw [e, abs_div, abs_of_pos (by norm_num : (0 : ℝ) < 2), div_le_iff₀ (by norm_num)]
    refine (abs_sub _ _).trans ?_
    linarith
  refine ⟨?_, hs⟩
  have hqy : |q * (A0 - y) / A| ≤ 102 / 100 * (3 / 2 * ε) := by
    rw [abs_div, abs_of_pos hA, div_le_iff₀ hA]
    have hnu : 0 ≤ (n : ℝ) * (2 ^ p)⁻¹ := by positivity
    have k1 : |M - A| ≤ ε / 4 * A := by
      refine hAM.trans ?_
      gcongr
      refine le_trans ?_ hη
      push_cast
      nlinarith
    have hM2 : M ≤ 11 / 10 * A := by have := (abs_le.mp k1).2; nlinarith
    have k2 : |A - b - q * (A0 - y)| ≤ 27 / 100 * ε * A := by
      refine hdy.trans ?_
      have hnr : 51 / 5 * (n * ((1 - ((2 : ℝ) ^ p)⁻¹)⁻¹ ^ n * (2 ^ p)⁻¹)) ≤ 51 / 5 * (n * (101 / 100 * (2 ^ p)⁻¹)) := by gcongr
      have h2 : 51 / 5 * ((n : ℝ) * (101 / 100 * (2 ^ p)⁻¹)) ≤ ε / 6 := by
        have e1 : (18 * (n : ℝ) + 10) * (2 ^ p)⁻¹ = 18 * (n * (2 ^ p)⁻¹) + 10 * (2 ^ p)⁻¹ := by ring
        have e2 : 51 / 5 * ((n : ℝ) * (101 / 100 * (2 ^ p)⁻¹)) = 5151 / 500 * (n * (2 ^ p)⁻¹) := by ring
        rw [e1] at hη
        rw [e2]
        linarith
      calc _ ≤ ε / 6 * (11 / 10 * A) := mul_le_mul (hnr.trans h2) hM2 hM.le (by linarith)
        _ = 11 / 60 * (ε * A) := by ring
        _ ≤ 27 / 100 * (ε * A) := mul_le_mul_of_nonneg_right (by norm_num) (by positivity)
        _ = _ := by ring
    have k3 : |b - M| ≤ 2 / 3 * ε * (11 / 10 * A) := by
      rw [abs_div, abs_of_pos hM, div_le_iff₀ hM] at hs
      exact hs.trans (by gcongr)
    have hεA : 0 ≤ ε * A := by positivity
    have e1 : 2 / 3 * ε * (11 / 10 * A) = 11 / 15 * (ε * A) := by ring
    have e2 : 27 / 100 * ε * A = 27 / 100 * (ε * A) := by ring
    have e3 : ε / 4 * A = 1 / 4 * (ε * A) := by ring
    have e4 : 102 / 100 * (3 / 2 * ε) * A = 153 / 100 * (ε * A) := by ring
    rw [e1] at k3
    rw [e2] at k2
    rw [e3] at k1
    rw [e4]
    have := abs_le.mp k1
    have := abs_le.mp k2
    have := abs_le.mp k3
    rw [abs_le]
    constructor <;> linarith
  obtain ⟨δ1, b1, e1⟩ := hf.factor hp1 (y - A0)
  obtain ⟨δt, bt, et⟩ := hf.factor hp1 (fl (y - A0) * q)
  obtain ⟨δ3, b3, e3⟩ := hf.factor hp1 (fl (fl (y - A0) * q) / A)
  have c1 := reduced_close (D := (A0 - y) * (1 + δ1)) (t := q / A * (1 + δt)) hn hu0 hu hA hM hb (by rw [hMd]; linarith) hAM hwn hdy
    (show 102 / 100 * (3 / 2 * ε) ≤ 1 / 40 by linarith) hqy bt b1 b3 rfl rfl
  rw [e3, et, e1, ← abs_neg, show -((y - A0) * (1 + δ1) * q * (1 + δt) / A * (1 + δ3) - (b - M) / M) =
    (A0 - y) * (1 + δ1) * (q / A * (1 + δt)) * (1 + δ3) - (M - b) / M by ring]
  exact c1

/-- The error of the polynomial against `R_C`. -/
theorem poly_rc {q : ℕ} {flq : ℝ → ℝ} (hf : Nearest p fl) (hp : 24 ≤ p) (hq : Nearest q flq) (hpq : p ≤ q) {ε s sh : ℝ} {n : ℕ}
    (hε0 : 0 ≤ ε) (hε100 : ε ≤ 1 / 100) (hε6 : ε ^ 6 = 6 / 1000000 * (2 ^ p)⁻¹)  (hη : (18 * (n : ℝ) + 10) * (2 ^ p)⁻¹ ≤ ε / 4)
    (x1 : |sh - s| ≤ (18 * n + 10) * (2 ^ p)⁻¹) (x3 : |s| ≤ 2 / 3 * ε) :
    |cPolyF fl flq sh - RC (1 - 2 * s) (1 + s)| ≤ (72 / 100 * n + 7) * (2 ^ p)⁻¹ ∧ 9 / 10 ≤ RC (1 - 2 * s) (1 + s) := by
  have hu := unit24 hp
  have hu0 : (0 : ℝ) < (2 ^ p)⁻¹ := by positivity
  have hsh : |sh| ≤ 1 / 40 := by
    have := abs_sub_abs_le_abs_sub sh s
    linarith
  have hs : |s| ≤ 1 / 40 := by linarith
  have hser := RC_series s (by linarith)
  rw [show 1 + 3 / 10 * s ^ 2 + s ^ 3 / 7 + 3 / 8 * s ^ 4 + 9 / 22 * s ^ 5 + 159 / 208 * s ^ 6 + 9 / 8 * s ^ 7 = cpolyR s by unfold cpolyR; ring] at hser
  generalize RC (1 - 2 * s) (1 + s) = P at *
  have hser' : |P - cpolyR s| ≤ 1 / 1000 * (2 ^ p)⁻¹ := by
    refine hser.trans ?_
    have h8 : s ^ 8 ≤ ε ^ 8 := by
      rw [← abs_of_nonneg (show 0 ≤ s ^ 8 by positivity), abs_pow]
      gcongr
      linarith
    have h2 : ε ^ 2 ≤ (1 / 100) ^ 2 := by gcongr
    calc 8 * s ^ 8 ≤ 8 * (ε ^ 2 * ε ^ 6) := by rw [← pow_add]; gcongr
      _ = 8 * (ε ^ 2 * (6 / 1000000 * (2 ^ p)⁻¹)) := by rw [hε6]
      _ ≤ 8 * ((1 / 100) ^ 2 * (6 / 1000000 * (2 ^ p)⁻¹)) := by gcongr
      _ ≤ _ := by norm_num; linarith
  have hround := cpoly_round hf hp hq hpq hsh
  have hlip := cpoly_lip hsh hs
  have hlip0 := cpoly_lip hs (s' := 0) (by norm_num)
  have hb : |cpolyR s - 1| ≤ 1 / 1000 := by
    have : cpolyR 0 = 1 := by norm_num [cpolyR]
    rw [this, sub_zero] at hlip0
    linarith
  constructor
  · have e : cPolyF fl flq sh - P = (cPolyF fl flq sh - cpolyR sh) + (cpolyR sh - cpolyR s) - (P - cpolyR s) := by ring
    have s1 := abs_sub (cPolyF fl flq sh - cpolyR sh + (cpolyR sh - cpolyR s)) (P - cpolyR s)
    have s2 := abs_add_le (cPolyF fl flq sh - cpolyR sh) (cpolyR sh - cpolyR s)
    rw [e]
    have e2 : (18 * (n : ℝ) + 10) * (2 ^ p)⁻¹ = 18 * (n * (2 ^ p)⁻¹) + 10 * (2 ^ p)⁻¹ := by ring
    have e3 : (72 / 100 * (n : ℝ) + 7) * (2 ^ p)⁻¹ = 72 / 100 * (n * (2 ^ p)⁻¹) + 7 * (2 ^ p)⁻¹ := by ring
    have hnu : 0 ≤ (n : ℝ) * (2 ^ p)⁻¹ := by positivity
    rw [e2] at x1
    rw [e3]
    linarith
  · have := (abs_le.mp hb).1
    have := (abs_le.mp hser').1
    linarith

/-- For `x ≥ 0` and `y > 0` the loop of `elliprc` ends after at most `N` steps if `4^N ≥ 7/2 K (x+2y) R_C²`, and the result has a relative error of at most
`6 N + 14` units of roundoff. -/
theorem rc_core_accurate {q : ℕ} {flq : ℝ → ℝ} (hf : Nearest p fl) (hp : 24 ≤ p) (hq : Nearest q flq) (hpq : p ≤ q) {K : ℝ}
    (hK : |K - (EPS (2 * (2 ^ p)⁻¹) * 3) ^ (-(1 / 6) : ℝ)| ≤ 1 / 100 * K) {x y : ℝ} (hx : 0 ≤ x) (hy : 0 < y) {N : ℕ} (hN : N ≤ 1000)
    (hN4 : 7 / 2 * K * (x + y + y) * RC x y ^ 2 ≤ 4 ^ N) :
    ∃ v, elliprcCoreF fl flq K x y = some v ∧ |v - RC x y| ≤ (6 * N + 14) * (2 ^ p)⁻¹ * RC x y := by
  have h := Args.of_pair hx hy
  rw [RC_eq_RF _ _ hy.le] at hN4 ⊢
  have hw := w_ge hp
  obtain ⟨ε, hε0, hε100, hε6, hεK, hεu⟩ := eps_tolerance hp
  rw [hεK] at hK
  obtain ⟨hK0, hKε⟩ := K_bounds hε0 hK
  obtain ⟨A0, hA0⟩ : ∃ A0, A0 = cA0F fl x y := ⟨_, rfl⟩
  have hS := isNonneg_args h
  have hRF := RF_pos h
  have hA0n : Near (1 - (2 ^ p)⁻¹)⁻¹ 3 A0 ((x + y + y) / 3) := hA0 ▸ A0_near hf hp h.x0 h.y0 h.z0
  have hA0p : 0 < A0 := hA0n.pos hw (by positivity)
  have hinv : ∀ n ≤ 1001, Inv p x y y A0 n ((cStepF fl)^[n] ⟨x, y, A0, 1⟩).emb := by
    intro n
    induction n with
    | zero => intro _; rw [hA0]; exact inv_zero hf hp h
    | succ n ih =>
      intro hn
      rw [Function.iterate_succ_apply']
      exact c_inv_succ hf hp (by omega) (ih (by omega))
  have hmS := diff_up hf hp hA0p.le hA0n hS.le h.x0 (by linarith [h.yz])
  have hQup := Q_up hq (hp.trans hpq) hK0 (abs_nonneg _) hmS
  have hstop : ¬((cStepF fl)^[N] ⟨x, y, A0, 1⟩).pow4 * cQF fl flq K A0 x > |((cStepF fl)^[N] ⟨x, y, A0, 1⟩).A| :=
    not_lt.mpr (stop hp h hN (hinv N (by omega)) hQup hN4)
  obtain ⟨n, hn, hexit, hmin⟩ := loopWhile_spec (cond := fun s : RCState => s.pow4 * cQF fl flq K A0 x > |s.A|) (step := cStepF fl)
    (s := ⟨x, y, A0, 1⟩) ⟨N, hstop⟩
  have hnN : n ≤ N := by
    by_contra hc
    exact hstop (hmin N (by omega))
  have hI := hinv n (by omega)
  unfold elliprcCoreF
  rw [← hA0]
  simp only
  rw [hn]
  simp only
  refine ⟨_, rfl, ?_⟩
  generalize (cStepF fl)^[n] ⟨x, y, A0, 1⟩ = st at *
  obtain ⟨M, hMd⟩ : ∃ M, M = (st.x + st.y + st.y) / 3 := ⟨_, rfl⟩
  have hSs : 0 < st.x + st.y + st.y := isNonneg_args hI.args
  have hM0 : 0 < M := by rw [hMd]; positivity
  have hmean : Near (1 - (2 ^ p)⁻¹)⁻¹ (3 + 2 * n) st.A ((st.x + st.y + st.y) / 3) := hI.mean
  rw [← hMd] at hmean
  have hAp : 0 < st.A := hmean.pos hw hM0
  have hpw : st.pow4 = (1 / 4) ^ n := hI.pow4
  have hp40 : 0 ≤ st.pow4 := by rw [hpw]; positivity
  rw [not_lt, abs_of_pos hAp] at hexit
  have hred := exit_small hAp hp40 hε0 hKε (Q_low hf hp hq (hp.trans hpq) hK0 (le_refl |fl (A0 - x)|)) hexit
  have hη := eta_small (p := p) (show n ≤ 1000 by omega) hεu
  have hx0 : 0 ≤ st.x := hI.args.x0
  have hy0 : 0 ≤ st.y := hI.args.y0
  have hdx := hI.dx
  have hdy := hI.dy
  simp only [RCState.emb] at hdx hdy
  rw [← hMd] at hdx hdy
  obtain ⟨x1, x3⟩ := reduced_rc hf hp (show n ≤ 1000 by omega) hAp hM0 hx0 hy0 hMd hmean hε0.le hε100 hred hη hdx hdy
  obtain ⟨hdist, hPlow⟩ := poly_rc hf hp hq hpq hε0.le hε100 hε6 hη x1 x3
  have hyp : 0 < st.y := by have := hI.args.yz; simp only [RCState.emb] at this; linarith
  have hscale : RF st.x st.y st.y = RC (1 - 2 * ((st.y - M) / M)) (1 + (st.y - M) / M) * (√M)⁻¹ := by
    have a1 : st.x = M * (1 - 2 * ((st.y - M) / M)) := by
      have : st.x = 3 * M - 2 * st.y := by rw [hMd]; ring
      rw [this]; field_simp; ring
    have a2 : st.y = M * (1 + (st.y - M) / M) := by field_simp; ring
    have h1 : 0 ≤ 1 + (st.y - M) / M := by have := (abs_le.mp x3).1; linarith
    rw [← div_eq_mul_inv, ← RC_scale _ _ _ hM0 h1, ← a1, ← a2, RC_eq_RF _ _ hy0]
  refine (finish hf hp (by omega) hAp hM0 hmean hPlow hdist hscale hI.rf hRF).trans ?_
  have hnN' : (n : ℝ) ≤ N := by exact_mod_cast hnN
  gcongr

end Verif.Carlson.Flt

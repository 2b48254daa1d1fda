import Verif.Carlson.RoundJPoly
import Verif.Carlson.RoundDCore

/-! # Rounding in elliprj: from the loop to the result -/

namespace Verif.Carlson.Flt

open Verif.Round

variable {p : ℕ} {fl : ℝ → ℝ}

theorem mean_closeJ (hp : 24 ≤ p) {A M : ℝ} {n : ℕ} (hn : n ≤ 1000) (hA : 0 ≤ A) (h : Near (1 - (2 ^ p)⁻¹)⁻¹ (5 + 2 * n) A M) :
    |M - A| ≤ 11 / 10 * ((5 + 2 * n : ℕ) * (2 ^ p)⁻¹) * A := by
  have hu := unit24 hp
  have hu0 : (0 : ℝ) < (2 ^ p)⁻¹ := by positivity
  have hnr : (n : ℝ) ≤ 1000 := by exact_mod_cast hn
  refine Near.abs_le hu0.le ?_ (by linarith) hA h.symm
  have : ((5 + 2 * n : ℕ) : ℝ) ≤ 2005 := by push_cast; linarith
  calc ((5 + 2 * n : ℕ) : ℝ) * (2 ^ p)⁻¹ ≤ 2005 * (1 / 16777216) := by gcongr
    _ ≤ _ := by norm_num

/-- The computed reduced variable against the exact one of the final arguments. -/
theorem reduced_closeJ {A M a q d u w ε t D : ℝ} {n : ℕ} (hn : n ≤ 1000) (hu0 : 0 < u) (hu : u ≤ 1 / 16777216) (hA : 0 < A) (hM : 0 < M) (ha : 0 ≤ a)
    (haM : a ≤ 5 * M) (hAM : |M - A| ≤ 11 / 10 * ((5 + 2 * n : ℕ) * u) * A) (hwn : w ^ n ≤ 101 / 100) (hd : |A - a - q * d| ≤ 82 / 5 * (n * (w ^ n * u)) * M)
    (hε : ε ≤ 1 / 5) (hq : |q * d / A| ≤ ε) {δ1 δ2 δ3 : ℝ} (b1 : |δ1| ≤ u) (b2 : |δ2| ≤ u) (b3 : |δ3| ≤ u) (ht : t = q / A * (1 + δ1))
    (hD : D = d * (1 + δ2)) : |D * t * (1 + δ3) - (M - a) / M| ≤ (28 * n + 29) * u := by
  have hnr : (n : ℝ) ≤ 1000 := by exact_mod_cast hn
  have hMA : |M - A| ≤ 1 / 1000 * A := by
    refine hAM.trans ?_
    gcongr
    push_cast
    nlinarith
  have hM2 : M ≤ 1001 / 1000 * A := by have := (abs_le.mp hMA).2; linarith
  have e : D * t * (1 + δ3) - (M - a) / M =
      q * d / A * ((1 + δ1) * (1 + δ2) * (1 + δ3) - 1) + (-(A - a - q * d) / A) + a / M * ((A - M) / A) := by
    rw [hD, ht]; field_simp; ring
  have t1 : |q * d / A * ((1 + δ1) * (1 + δ2) * (1 + δ3) - 1)| ≤ 1 / 5 * (4 * u) := by
    refine abs_mul_le (hq.trans hε) ?_
    rw [show (1 + δ1) * (1 + δ2) * (1 + δ3) - 1 = δ1 + δ2 + δ3 + (δ1 * δ2 + δ1 * δ3 + δ2 * δ3 + δ1 * δ2 * δ3) by ring]
    have p1 := abs_mul_le b1 b2
    have p2 := abs_mul_le b1 b3
    have p3 := abs_mul_le b2 b3
    have p4 := abs_mul_le p1 b3
    have huu : u * u ≤ 1 / 16777216 * u := by gcongr
    have huuu : u * u * u ≤ 1 / 16777216 * u * 1 := by gcongr; linarith
    obtain ⟨l1, r1⟩ := abs_le.mp b1
    obtain ⟨l2, r2⟩ := abs_le.mp b2
    obtain ⟨l3, r3⟩ := abs_le.mp b3
    obtain ⟨l4, r4⟩ := abs_le.mp p1
    obtain ⟨l5, r5⟩ := abs_le.mp p2
    obtain ⟨l6, r6⟩ := abs_le.mp p3
    obtain ⟨l7, r7⟩ := abs_le.mp p4
    rw [abs_le]
    constructor <;> linarith
  have t2 : |-(A - a - q * d) / A| ≤ 167 / 10 * n * u := by
    rw [abs_div, abs_neg, abs_of_pos hA, div_le_iff₀ hA]
    refine hd.trans ?_
    calc 82 / 5 * (n * (w ^ n * u)) * M ≤ 82 / 5 * (n * (101 / 100 * u)) * (1001 / 1000 * A) := by gcongr
      _ = 82 / 5 * (101 / 100) * (1001 / 1000) * (n * u * A) := by ring
      _ ≤ 167 / 10 * (n * u * A) := by gcongr; norm_num
      _ = _ := by ring
  have t3 : |a / M * ((A - M) / A)| ≤ 5 * (11 / 10 * ((5 + 2 * n : ℕ) * u)) := by
    refine abs_mul_le ?_ ?_
    · rw [abs_of_nonneg (by positivity), div_le_iff₀ hM]; exact haM
    · rw [abs_div, abs_of_pos hA, div_le_iff₀ hA, abs_sub_comm]; exact hAM
  rw [e]
  have s1 := abs_add_le (q * d / A * ((1 + δ1) * (1 + δ2) * (1 + δ3) - 1) + (-(A - a - q * d) / A)) (a / M * ((A - M) / A))
  have s2 := abs_add_le (q * d / A * ((1 + δ1) * (1 + δ2) * (1 + δ3) - 1)) (-(A - a - q * d) / A)
  have hnu : 0 ≤ (n : ℝ) * u := by positivity
  push_cast at t3
  refine s1.trans ?_
  have : (28 * (n : ℝ) + 29) * u = 28 * (n * u) + 29 * u := by ring
  rw [this]
  have : 5 * (11 / 10 * ((5 + 2 * (n : ℝ)) * u)) = 11 * (n * u) + 55 / 2 * u := by ring
  have : 167 / 10 * (n : ℝ) * u = 167 / 10 * (n * u) := by ring
  linarith

/-- A reduced variable as computed by `elliprj`. -/
theorem reduced_rj (hf : Nearest p fl) (hp : 24 ≤ p) {A M a b q A0 ε : ℝ} {n : ℕ} (hn : n ≤ 1000) (hA : 0 < A) (hM : 0 < M) (hb : 0 ≤ b) (hbM : b ≤ 5 * M)
    (hmean : Near (1 - (2 ^ p)⁻¹)⁻¹ (5 + 2 * n) A M) (hε : ε ≤ 178 / 1000) (hred : |q * (A0 - a) / A| ≤ 102 / 100 * ε)
    (hη : (28 * (n : ℝ) + 29) * (2 ^ p)⁻¹ ≤ ε / 90) (hdiff : |A - b - q * (A0 - a)| ≤ 82 / 5 * (n * ((1 - (2 ^ p)⁻¹)⁻¹ ^ n * (2 ^ p)⁻¹)) * M) :
    |fl (fl (A0 - a) * fl (q / A)) - (M - b) / M| ≤ (28 * n + 29) * (2 ^ p)⁻¹ ∧ |fl (fl (A0 - a) * fl (q / A))| ≤ 103 / 100 * ε ∧
      |(M - b) / M| ≤ 1042 / 1000 * ε := by
  have hu := unit24 hp
  have hu0 : (0 : ℝ) < (2 ^ p)⁻¹ := by positivity
  have hp1 : 1 ≤ p := by omega
  obtain ⟨δ1, b1, e1⟩ := hf.factor hp1 (A0 - a)
  obtain ⟨δt, bt, et⟩ := hf.factor hp1 (q / A)
  obtain ⟨δ3, b3, e3⟩ := hf.factor hp1 (fl (A0 - a) * fl (q / A))
  have hε0 : 0 ≤ ε := by linarith [(abs_nonneg _).trans hred]
  have c1 := reduced_closeJ hn hu0 hu hA hM hb hbM (mean_closeJ hp hn hA.le hmean) (w_pow_le hp (show n ≤ 10000 by omega)) hdiff
    (show 102 / 100 * ε ≤ 1 / 5 by linarith) hred bt b1 b3 et e1
  rw [← e3] at c1
  have c2 : |fl (fl (A0 - a) * fl (q / A))| ≤ 103 / 100 * ε := by
    rw [e3, e1, et, show (A0 - a) * (1 + δ1) * (q / A * (1 + δt)) * (1 + δ3) = q * (A0 - a) / A * ((1 + δ1) * (1 + δt) * (1 + δ3)) by ring]
    have g : ∀ δ : ℝ, |δ| ≤ (2 ^ p)⁻¹ → |1 + δ| ≤ 1001 / 1000 := fun δ hδ => by
      have := abs_le.mp hδ
      rw [abs_le]; constructor <;> linarith
    refine (abs_mul_le hred (abs_mul_le (abs_mul_le (g _ b1) (g _ bt)) (g _ b3))).trans ?_
    calc 102 / 100 * ε * (1001 / 1000 * (1001 / 1000) * (1001 / 1000)) = 102 / 100 * (1001 / 1000 * (1001 / 1000) * (1001 / 1000)) * ε := by ring
      _ ≤ _ := by gcongr; norm_num
  refine ⟨c1, c2, ?_⟩
  have e : (M - b) / M = fl (fl (A0 - a) * fl (q / A)) - (fl (fl (A0 - a) * fl (q / A)) - (M - b) / M) := by ring
  rw [e]
  refine (abs_sub _ _).trans ?_
  linarith

/-- The error of the polynomial against `R_J`. -/
theorem poly_rj {q : ℕ} {flq : ℝ → ℝ} (hf : Nearest p fl) (hp : 24 ≤ p) (hq : Nearest q flq) (hpq : p ≤ q) {ε X Y Z P Xh Yh Zh : ℝ} {n : ℕ}
    (hε : ε ≤ 178 / 1000) (hε6 : ε ^ 6 = 512 * (2 ^ p)⁻¹) (hη : (28 * (n : ℝ) + 29) * (2 ^ p)⁻¹ ≤ ε / 90) (hsum : X + Y + Z + 2 * P = 0)
    (x1 : |Xh - X| ≤ (28 * n + 29) * (2 ^ p)⁻¹) (x2 : |Xh| ≤ 103 / 100 * ε) (x3 : |X| ≤ 1042 / 1000 * ε)
    (y1 : |Yh - Y| ≤ (28 * n + 29) * (2 ^ p)⁻¹) (y2 : |Yh| ≤ 103 / 100 * ε) (y3 : |Y| ≤ 1042 / 1000 * ε)
    (z1 : |Zh - Z| ≤ (28 * n + 29) * (2 ^ p)⁻¹) (z2 : |Zh| ≤ 103 / 100 * ε) (z3 : |Z| ≤ 1042 / 1000 * ε) (p3 : |P| ≤ 1042 / 1000 * ε) :
    |jPolyF fl flq Xh Yh Zh - RJ (1 - X) (1 - Y) (1 - Z) (1 - P)| ≤ (45 * n + 6620) * (2 ^ p)⁻¹ ∧ 3 / 4 ≤ RJ (1 - X) (1 - Y) (1 - Z) (1 - P) := by
  have hu := unit24 hp
  have hu0 : (0 : ℝ) < (2 ^ p)⁻¹ := by positivity
  have hε0 : 0 ≤ ε := by linarith [(abs_nonneg _).trans x2]
  have hser := RJ_series X Y Z P (1042 / 1000 * ε) (by linarith) x3 y3 z3 p3 (by linarith) _ _ _ _ rfl rfl rfl rfl
  have hPe : P = (-X - Y - Z) / 2 := by linarith
  rw [show 1 - 3 / 14 * (X * Y + X * Z + Y * Z - 3 * P ^ 2) + (X * Y * Z + 2 * (X * Y + X * Z + Y * Z) * P - 2 * P ^ 3) / 6 +
        9 / 88 * (X * Y + X * Z + Y * Z - 3 * P ^ 2) ^ 2 - 3 / 22 * (2 * X * Y * Z * P + (X * Y + X * Z + Y * Z) * P ^ 2) -
      9 / 52 * (X * Y + X * Z + Y * Z - 3 * P ^ 2) * (X * Y * Z + 2 * (X * Y + X * Z + Y * Z) * P - 2 * P ^ 3) +
    3 / 26 * (X * Y * Z * P ^ 2) = jserR X Y Z P by rw [jserR, serD]; ring] at hser
  have hlow : 3 / 4 ≤ RJ (1 - X) (1 - Y) (1 - Z) (1 - P) := by
    obtain ⟨lx, rx⟩ := abs_le.mp x3
    obtain ⟨ly, ry⟩ := abs_le.mp y3
    obtain ⟨lz, rz⟩ := abs_le.mp z3
    obtain ⟨lp, rp⟩ := abs_le.mp p3
    have hA : Args (1 - X) (1 - Y) (1 - Z) := ⟨by linarith, by linarith, by linarith, by linarith, by linarith, by linarith⟩
    have := RJ_lower (M := 6 / 5) hA (by linarith : 0 < 1 - P) (by linarith) (by linarith) (by linarith) (by linarith)
    refine le_trans ?_ this
    have hs : √(6 / 5 : ℝ) ≤ 11 / 10 := by rw [Real.sqrt_le_left (by norm_num)]; norm_num
    have hs0 : 0 < √(6 / 5 : ℝ) := Real.sqrt_pos.mpr (by norm_num)
    rw [le_div_iff₀ (by positivity)]
    nlinarith
  generalize RJ (1 - X) (1 - Y) (1 - Z) (1 - P) = R at *
  refine ⟨?_, hlow⟩
  have hser' : |R - jserR X Y Z P| ≤ 6560 * (2 ^ p)⁻¹ := by
    refine hser.trans ?_
    rw [mul_pow, hε6]
    have : 10 * ((1042 / 1000 : ℝ) ^ 6 * (512 * (2 ^ p)⁻¹)) = 10 * (1042 / 1000) ^ 6 * 512 * (2 ^ p)⁻¹ := by ring
    rw [this]
    gcongr
    norm_num
  have dP : |(-Xh - Yh - Zh) / 2 - P| ≤ 3 / 2 * ((28 * (n : ℝ) + 29) * (2 ^ p)⁻¹) := by
    rw [hPe, ← sub_div, abs_div, abs_of_pos (by norm_num : (0 : ℝ) < 2)]
    have e : -Xh - Yh - Zh - (-X - Y - Z) = -(Xh - X) - (Yh - Y) - (Zh - Z) := by ring
    have s1 := abs_sub (-(Xh - X) - (Yh - Y)) (Zh - Z)
    have s2 := abs_sub (-(Xh - X)) (Yh - Y)
    rw [abs_neg] at s2
    rw [e]
    linarith
  have bP : |(-Xh - Yh - Zh) / 2| ≤ 1 / 5 := by
    have s := abs_add_le ((-Xh - Yh - Zh) / 2 - P) P
    rw [sub_add_cancel] at s
    linarith
  have hround := jpoly_round hf hp hq hpq (show |Xh| ≤ 1 / 5 by linarith) (show |Yh| ≤ 1 / 5 by linarith) (show |Zh| ≤ 1 / 5 by linarith) bP
  have hlip := jpoly_lip (show |Xh| ≤ 1 / 5 by linarith) (show |Yh| ≤ 1 / 5 by linarith) (show |Zh| ≤ 1 / 5 by linarith) bP
    (show |X| ≤ 1 / 5 by linarith) (show |Y| ≤ 1 / 5 by linarith) (show |Z| ≤ 1 / 5 by linarith) (show |P| ≤ 1 / 5 by linarith) x1 y1 z1 dP
  have e : jPolyF fl flq Xh Yh Zh - R = (jPolyF fl flq Xh Yh Zh - jserR Xh Yh Zh ((-Xh - Yh - Zh) / 2)) +
      (jserR Xh Yh Zh ((-Xh - Yh - Zh) / 2) - jserR X Y Z P) - (R - jserR X Y Z P) := by ring
  have s1 := abs_sub (jPolyF fl flq Xh Yh Zh - jserR Xh Yh Zh ((-Xh - Yh - Zh) / 2) + (jserR Xh Yh Zh ((-Xh - Yh - Zh) / 2) - jserR X Y Z P)) (R - jserR X Y Z P)
  have s2 := abs_add_le (jPolyF fl flq Xh Yh Zh - jserR Xh Yh Zh ((-Xh - Yh - Zh) / 2)) (jserR Xh Yh Zh ((-Xh - Yh - Zh) / 2) - jserR X Y Z P)
  rw [e]
  have hnu : 0 ≤ (n : ℝ) * (2 ^ p)⁻¹ := by positivity
  have e2 : 8 / 5 * ((28 * (n : ℝ) + 29) * (2 ^ p)⁻¹) = 224 / 5 * (n * (2 ^ p)⁻¹) + 232 / 5 * (2 ^ p)⁻¹ := by ring
  have e3 : (45 * (n : ℝ) + 6620) * (2 ^ p)⁻¹ = 45 * (n * (2 ^ p)⁻¹) + 6620 * (2 ^ p)⁻¹ := by ring
  rw [e2] at hlip
  rw [e3]
  linarith

/-- The part of `JInv` that does not need `p` to differ from the other arguments. -/
structure JWeak (p : ℕ) (x y z : ℝ) (n : ℕ) (s : RJState) : Prop where
  ghost : ∃ g G, Inv p x y z G n ⟨s.x, s.y, s.z, g, s.pow4⟩
  ppos : 0 < s.p
  mean : Near (1 - (2 ^ p)⁻¹)⁻¹ (5 + 2 * n) s.A ((s.x + s.y + s.z + 2 * s.p) / 5)

theorem jweak_zero (hf : Nearest p fl) (hp : 24 ≤ p) {x y z q : ℝ} (h : Args x y z) (hq : 0 < q) :
    JWeak p x y z 0 ⟨x, y, z, q, jA0F fl x y z q, 1, 0, 0, False⟩ :=
  ⟨⟨_, _, inv_zero hf hp h⟩, hq, jA0_near hf hp h.x0 h.y0 h.z0 hq.le⟩

theorem jweak_succ (hf : Nearest p fl) (hp : 24 ≤ p) {x y z d : ℝ} {n : ℕ} (hn : n ≤ 1000) {s : RJState} (h : JWeak p x y z n s) :
    JWeak p x y z (n + 1) (jStepF fl d s) := by
  obtain ⟨g, G, hI⟩ := h.ghost
  have hI' := inv_succ hf hp hn hI
  have hp1 : 1 ≤ p := by omega
  have hw := w_ge hp
  have hargs : Args s.x s.y s.z := hI.args
  have hx := hargs.x0
  have hy := hargs.y0
  have hz := hargs.z0
  have hr := h.ppos
  have hS := isNonneg_args hargs
  obtain ⟨hlam, hdup⟩ := hargs.dup
  obtain ⟨l, hl⟩ : ∃ l, l = lmF fl s.x s.y s.z := ⟨_, rfl⟩
  have hln : Near (1 - (2 ^ p)⁻¹)⁻¹ 5 l (lam s.x s.y s.z 0) := hl ▸ lm_near hf hp
  have hl0 : 0 < l := hln.pos hw hlam
  have hM0 : 0 < (s.x + s.y + s.z + 2 * s.p) / 5 := by linarith
  have hA0 : 0 < s.A := h.mean.pos hw hM0
  have e : ∃ σ m b, jStepF fl d s = ⟨fl (s.x + l) / 4, fl (s.y + l) / 4, fl (s.z + l) / 4, fl (s.p + l) / 4, fl (s.A + l) / 4, s.pow4 / 4, σ, m, b⟩ := by
    unfold jStepF
    simp only [fl_div4 hf, ← hl]
    exact ⟨_, _, _, rfl⟩
  obtain ⟨σ, m, b, e⟩ := e
  have eI : fStepF fl ⟨s.x, s.y, s.z, g, s.pow4⟩ = ⟨fl (s.x + l) / 4, fl (s.y + l) / 4, fl (s.z + l) / 4, fl (g + l) / 4, s.pow4 / 4⟩ := by
    unfold fStepF
    simp only [fl_div4 hf, ← hl]
  rw [eI] at hI'
  rw [e]
  have hnew : ∀ a : ℝ, 0 ≤ a → Near (1 - (2 ^ p)⁻¹)⁻¹ 1 (fl (a + l) / 4) ((a + l) / 4) ∧ 0 < fl (a + l) / 4 := fun a ha => by
    have h1 := near_fl hf hp1 (show 0 ≤ a + l by linarith)
    have h2 := h1.scale (show (0 : ℝ) ≤ 1 / 4 by norm_num)
    simp only [mul_one_div] at h2
    exact ⟨h2, by have := h1.pos hw (by linarith); positivity⟩
  obtain ⟨x1, x2⟩ := hnew s.x hx
  obtain ⟨y1, y2⟩ := hnew s.y hy
  obtain ⟨z1, z2⟩ := hnew s.z hz
  obtain ⟨r1, r2⟩ := hnew s.p hr.le
  obtain ⟨a1, a2⟩ := hnew s.A hA0.le
  have hM : Near (1 - (2 ^ p)⁻¹)⁻¹ 1 ((fl (s.x + l) / 4 + fl (s.y + l) / 4 + fl (s.z + l) / 4 + 2 * (fl (s.p + l) / 4)) / 5)
      (((s.x + s.y + s.z + 2 * s.p) / 5 + l) / 4) := by
    have r5 := r1.scale (show (0 : ℝ) ≤ 2 by norm_num)
    have := (((x1.add y1).add z1).add r5).scale (show (0 : ℝ) ≤ 1 / 5 by norm_num)
    rw [mul_one_div, mul_one_div, mul_comm _ (2 : ℝ)] at this
    rwa [show ((s.x + l) / 4 + (s.y + l) / 4 + (s.z + l) / 4 + (s.p + l) / 4 * 2) / 5 = ((s.x + s.y + s.z + 2 * s.p) / 5 + l) / 4 by ring] at this
  refine ⟨⟨_, G, hI'⟩, r2, ?_⟩
  have m1 := (h.mean.add ((Near.refl l).mono hw (show 0 ≤ 5 + 2 * n by omega) hl0.le hl0.le)).scale (show (0 : ℝ) ≤ 1 / 4 by norm_num)
  rw [mul_one_div, mul_one_div] at m1
  have := (a1.trans hw m1).trans hw hM.symm
  rwa [show 1 + (5 + 2 * n) + 1 = 5 + 2 * (n + 1) by ring] at this

/-- The test of the loop fails after `N` steps. -/
theorem stopJ (hp : 24 ≤ p) {x y z r K Q : ℝ} {N : ℕ} {st : RJState} (h : Args x y z) (hN : N ≤ 1000) (hI : JWeak p x y z N st)
    (hQup : Q ≤ 1002 / 1000 * (K * (x + y + z + r))) (hN4 : 21 / 4 * K * (x + y + z + r) * RF x y z ^ 2 ≤ 4 ^ N) : st.pow4 * Q < |st.A| := by
  have hw := w_ge hp
  obtain ⟨g, G, hG⟩ := hI.ghost
  have hRF := RF_pos h
  have hargs : Args st.x st.y st.z := hG.args
  have hSs := isNonneg_args hargs
  have hR := RF_pos hargs
  have hpp := hI.ppos
  have hAp := hI.mean.pos hw (by linarith)
  have hpw : st.pow4 = (1 / 4) ^ N := hG.pow4
  rw [abs_of_pos hAp, hpw]
  have l1 : 1 ≤ (st.x + st.y + st.z) * RF st.x st.y st.z ^ 2 := by
    have := RF_lower (M := st.x + st.y + st.z) hargs (by linarith [hargs.yz]) (by linarith [hargs.xz]) (by linarith [hargs.xy]) hSs
    have hs := Real.sqrt_pos.mpr hSs
    rw [div_le_iff₀ hs] at this
    calc (1 : ℝ) = 1 ^ 2 := by norm_num
      _ ≤ (RF st.x st.y st.z * √(st.x + st.y + st.z)) ^ 2 := by gcongr
      _ = _ := by rw [mul_pow, Real.sq_sqrt hSs.le]; ring
  have l2 : (st.x + st.y + st.z + 2 * st.p) / 5 ≤ (1 - (2 ^ p)⁻¹)⁻¹ ^ (5 + 2 * N) * st.A := hI.mean.2
  have l3 : RF st.x st.y st.z ≤ (1 - (2 ^ p)⁻¹)⁻¹ ^ (3 * N) * RF x y z := hG.rf.1
  have l4 : 1 ≤ 505 / 100 * (st.A * RF x y z ^ 2) := by
    have hwp := w_pow_le hp (show 5 + 8 * N ≤ 10000 by omega)
    have hwn : 0 ≤ (1 - ((2 : ℝ) ^ p)⁻¹)⁻¹ := by linarith
    calc (1 : ℝ) ≤ (st.x + st.y + st.z) * RF st.x st.y st.z ^ 2 := l1
      _ ≤ 5 * ((1 - (2 ^ p)⁻¹)⁻¹ ^ (5 + 2 * N) * st.A) * ((1 - (2 ^ p)⁻¹)⁻¹ ^ (3 * N) * RF x y z) ^ 2 := by gcongr; linarith
      _ = 5 * ((1 - (2 ^ p)⁻¹)⁻¹ ^ (5 + 8 * N)) * (st.A * RF x y z ^ 2) := by
        rw [show 5 + 8 * N = (5 + 2 * N) + (3 * N) * 2 by ring, pow_add _ (5 + 2 * N), pow_mul _ (3 * N) 2]; ring
      _ ≤ 5 * (101 / 100) * (st.A * RF x y z ^ 2) := by gcongr
      _ = _ := by ring
  have h4 : (0 : ℝ) < 4 ^ N := by positivity
  rw [one_div, inv_pow, inv_mul_eq_div, div_lt_iff₀ h4]
  refine hQup.trans_lt ?_
  have hR2 : 0 < RF x y z ^ 2 := by positivity
  refine lt_of_mul_lt_mul_right ?_ hR2.le
  have l5 : 4 ^ N ≤ 505 / 100 * (st.A * RF x y z ^ 2) * 4 ^ N := by nlinarith
  have hpos : 0 < st.A * 4 ^ N * RF x y z ^ 2 := by positivity
  calc 1002 / 1000 * (K * (x + y + z + r)) * RF x y z ^ 2 = 1002 / 5250 * (21 / 4 * K * (x + y + z + r) * RF x y z ^ 2) := by ring
    _ ≤ 1002 / 5250 * (505 / 100 * (st.A * RF x y z ^ 2) * 4 ^ N) := mul_le_mul_of_nonneg_left (hN4.trans l5) (by norm_num)
    _ = 1002 / 5250 * (505 / 100) * (st.A * 4 ^ N * RF x y z ^ 2) := by ring
    _ < 1 * (st.A * 4 ^ N * RF x y z ^ 2) := by gcongr; norm_num
    _ = _ := by ring

/-- From the value of the polynomial to the result. -/
theorem finishJ (hf : Nearest p fl) (hp : 24 ≤ p) {A M P Ph R R' R'' s σ q : ℝ} {n κ : ℕ} (hn : n ≤ 1000) (hA : 0 < A) (hM : 0 < M) (hs : 0 ≤ s) (hσ : 0 ≤ σ)
    (hq : 0 < q) (hmean : Near (1 - (2 ^ p)⁻¹)⁻¹ (5 + 2 * n) A M) (hP : 3 / 4 ≤ P) (hdist : |Ph - P| ≤ (45 * n + 6620) * (2 ^ p)⁻¹)
    (hscale : R' = P / (M * √M)) (hRR : Near (1 - (2 ^ p)⁻¹)⁻¹ (9 * n) R' R'') (hR''0 : 0 < R'')
    (hsn : Near (1 - (2 ^ p)⁻¹)⁻¹ (κ * (18 * n + 26) + 10 * n + 13) s σ) (hR : R = 6 * σ + q * R'')
    (hsmall : ((κ * (18 * n + 26) : ℕ) : ℝ) * (2 ^ p)⁻¹ ≤ 1 / 100) :
    |fl (fl (6 * s) + fl (fl (fl (q / A) / fl √A) * Ph)) - R| ≤ (κ * (20 * n + 29) + 81 * n + 9861) * (2 ^ p)⁻¹ * R := by
  have hu := unit24 hp
  have hu0 : (0 : ℝ) < (2 ^ p)⁻¹ := by positivity
  have hp1 : 1 ≤ p := by omega
  have hw := w_ge hp
  have hnr : (n : ℝ) ≤ 1000 := by exact_mod_cast hn
  have hn0 : (0 : ℝ) ≤ n := Nat.cast_nonneg n
  have hk0 : (0 : ℝ) ≤ κ := Nat.cast_nonneg κ
  have hsm : (45 * (n : ℝ) + 6620) * (2 ^ p)⁻¹ ≤ 1 / 100 := by
    calc (45 * (n : ℝ) + 6620) * (2 ^ p)⁻¹ ≤ (45 * 1000 + 6620) * (1 / 16777216) := by gcongr
      _ ≤ _ := by norm_num
  have hPh : 74 / 100 ≤ Ph := by have := (abs_le.mp hdist).1; linarith
  have hPn : Near (1 - (2 ^ p)⁻¹)⁻¹ (61 * n + 8950) Ph P := by
    have hb2 : ∀ B : ℝ, 74 / 100 ≤ B → (45 * (n : ℝ) + 6620) * (2 ^ p)⁻¹ ≤ (61 * n + 8950 : ℕ) * (2 ^ p)⁻¹ * B := fun B hB => by
      calc (45 * (n : ℝ) + 6620) * (2 ^ p)⁻¹ ≤ ((61 * n + 8950 : ℕ) * (74 / 100)) * (2 ^ p)⁻¹ := by
            gcongr; push_cast; linarith
        _ = (61 * n + 8950 : ℕ) * (2 ^ p)⁻¹ * (74 / 100) := by ring
        _ ≤ _ := by gcongr
    exact Near.of_abs hu0.le (by linarith) (by linarith) (by linarith) (hdist.trans (hb2 _ (by linarith))) (hdist.trans (hb2 _ hPh))
  have hP0 : 0 < P := by linarith
  have hPh0 : 0 < Ph := by linarith
  have hsA : 0 < √A := Real.sqrt_pos.mpr hA
  have hsM : 0 < √M := Real.sqrt_pos.mpr hM
  have hroot : Near (1 - (2 ^ p)⁻¹)⁻¹ (n + 3) (√A) (√M) := Near.sqrt hw (hmean.mono hw (by omega) hA.le hM.le)
  have hfl := (near_fl hf hp1 hsA.le).trans hw hroot
  have hflp : 0 < fl √A := hfl.pos hw hsM
  have q1 := (Near.refl q).mul hw (hmean.inv hA hM) hq.le (by positivity)
  rw [← div_eq_mul_inv, ← div_eq_mul_inv] at q1
  have q2 := (near_fl hf hp1 (show 0 ≤ q / A by positivity)).trans hw q1
  have q2p := q2.pos hw (by positivity)
  have q3 := q2.mul hw (hfl.inv hflp hsM) (by positivity) (by positivity)
  rw [← div_eq_mul_inv, ← div_eq_mul_inv] at q3
  have q3p : 0 < fl (q / A) / fl √A := by positivity
  have q4 := (near_fl hf hp1 q3p.le).trans hw q3
  have q4p := q4.pos hw (by positivity)
  have q5 := q4.mul hw hPn (by positivity) hPh0.le
  have q6 := (near_fl hf hp1 (show 0 ≤ fl (fl (q / A) / fl √A) * Ph by positivity)).trans hw q5
  have q6p := q6.pos hw (by positivity)
  have e1 : q / M / √M * P = q * R' := by rw [hscale]; field_simp
  rw [e1] at q6
  have hR'0 : 0 < R' := by rw [hscale]; positivity
  have q7 := q6.trans hw ((Near.refl q).mul hw hRR hq.le hR'0.le)
  have s1 := (near_fl hf hp1 (show 0 ≤ 6 * s by positivity)).trans hw ((Near.refl (6 : ℝ)).mul hw hsn (by norm_num) hs)
  have s1p := fl_nonneg hf hp1 (show 0 ≤ 6 * s by positivity)
  have s2 := (s1.mono hw (show _ ≤ κ * (18 * n + 26) + 73 * n + 8962 by omega) s1p (by positivity)).add
    (q7.mono hw (show _ ≤ κ * (18 * n + 26) + 73 * n + 8962 by omega) q6p.le (by positivity))
  have s3 := (near_fl hf hp1 (add_nonneg s1p q6p.le)).trans hw s2
  rw [← hR] at s3
  have hR0 : 0 ≤ R := by rw [hR]; positivity
  have hk : ((1 + (κ * (18 * n + 26) + 73 * n + 8962) : ℕ) : ℝ) = (κ * (18 * n + 26) : ℕ) + (73 * n + 8963) := by push_cast; ring
  have := Near.abs_le hu0.le (by
    rw [hk, add_mul]
    have : (73 * (n : ℝ) + 8963) * (2 ^ p)⁻¹ ≤ 1 / 100 := by
      calc (73 * (n : ℝ) + 8963) * (2 ^ p)⁻¹ ≤ (73 * 1000 + 8963) * (1 / 16777216) := by gcongr
        _ ≤ _ := by norm_num
    linarith) (by linarith) hR0 s3
  rw [hk] at this
  refine this.trans ?_
  gcongr ?_ * _
  rw [← mul_assoc]
  gcongr ?_ * _
  push_cast
  nlinarith

/-- For arguments at most one of which is zero, `p > 0` different from the other three, the loop of `elliprj` ends after at most `N` steps if
`4^N ≥ 21/4 K (x+y+z+p) R_F²`, and the result has a relative error of at most `κ (20 N + 29) + 81 N + 9861` units of roundoff. -/
theorem core_accurateJ {q : ℕ} {flq : ℝ → ℝ} (hf : Nearest p fl) (hp : 24 ≤ p) (hq : Nearest q flq) (hpq : p ≤ q) {K : ℝ}
    (hK : |K - (1 / 4 * (2 * (2 ^ p)⁻¹) * 2 ^ 10) ^ (-(1 / 6) : ℝ)| ≤ 1 / 100 * K) {x y z r : ℝ} (h : Args x y z) (hr : 0 < r) {κ N : ℕ} (hN : N ≤ 1000)
    (hκ1 : 1 ≤ κ) (hκ : 1 ≤ κ * (1 + (r - x) * (r - y) * (r - z) / dd x y z r 0 ^ 2)) (hne : (r - x) * (r - y) * (r - z) ≠ 0)
    (hsmall : 100 * (κ * (18 * N + 26)) ≤ 2 ^ p) (hN4 : 21 / 4 * K * (x + y + z + r) * RF x y z ^ 2 ≤ 4 ^ N) :
    ∃ v, elliprjCoreF fl flq K x y z r = .num v ∧ |v - RJ x y z r| ≤ (κ * (20 * N + 29) + 81 * N + 9861) * (2 ^ p)⁻¹ * RJ x y z r := by
  have hw := w_ge hp
  have hu0 : (0 : ℝ) < (2 ^ p)⁻¹ := by positivity
  obtain ⟨ε, hε0, hε5, hε6, hεK, hεu⟩ := eps_toleranceJ hp
  rw [hεK] at hK
  obtain ⟨hK0, hKε⟩ := K_bounds hε0 hK
  obtain ⟨A0, hA0⟩ : ∃ A0, A0 = jA0F fl x y z r := ⟨_, rfl⟩
  have hS := isNonneg_args h
  have hRJ := RJ_pos h hr
  have hx00 := h.x0
  have hy00 := h.y0
  have hz00 := h.z0
  have hA0n : Near (1 - (2 ^ p)⁻¹)⁻¹ 5 A0 ((x + y + z + 2 * r) / 5) := hA0 ▸ jA0_near hf hp h.x0 h.y0 h.z0 hr.le
  have hA0p : 0 < A0 := hA0n.pos hw (by positivity)
  have hA0S : A0 ≤ x + y + z + r := by
    have h2 := w_pow_le hp (show 5 ≤ 10000 by omega)
    calc A0 ≤ 101 / 100 * ((x + y + z + 2 * r) / 5) := hA0n.1.trans (by gcongr)
      _ ≤ _ := by linarith
  have hsm : ∀ n ≤ N, ((κ * (18 * n + 26) : ℕ) : ℝ) * (2 ^ p)⁻¹ ≤ 1 / 100 := fun n hn => by
    have h1 : 100 * (κ * (18 * n + 26)) ≤ 2 ^ p := le_trans (by gcongr) hsmall
    have h2 : (100 : ℝ) * ((κ * (18 * n + 26) : ℕ) : ℝ) ≤ 2 ^ p := by exact_mod_cast h1
    rw [← div_eq_mul_inv, div_le_iff₀ (by positivity)]
    linarith
  have hinv : ∀ n ≤ N, JInv p x y z r A0 κ n ((jStepF fl (deltaF fl x y z r))^[n] ⟨x, y, z, r, A0, 1, 0, 0, False⟩) := by
    intro n
    induction n with
    | zero => intro _; rw [hA0]; exact jinv_zero hf hp h hr hκ
    | succ n ih =>
      intro hn
      rw [Function.iterate_succ_apply']
      exact jinv_succ hf hp (by omega) hκ1 hne (hsm n (by omega)) (ih (by omega))
  obtain ⟨m, hm⟩ : ∃ m, m = max (max (max |fl (A0 - x)| |fl (A0 - y)|) |fl (A0 - z)|) |fl (A0 - r)| := ⟨_, rfl⟩
  have hm0 : 0 ≤ m := by rw [hm]; exact (abs_nonneg _).trans (le_max_right _ _)
  have hQm : jQF fl flq K A0 x y z r = flq (K * m) := by rw [hm, jQF]
  have hup : ∀ a, 0 ≤ a → a ≤ x + y + z + r → |fl (A0 - a)| ≤ 1001 / 1000 * (x + y + z + r) := fun a ha haS => by
    have hu := unit24 hp
    obtain ⟨δ, b, e⟩ := hf.factor (by omega) (A0 - a)
    have h1 : |A0 - a| ≤ x + y + z + r := by rw [abs_le]; constructor <;> linarith
    have h2 : |1 + δ| ≤ 1001 / 1000 := by have := abs_le.mp b; rw [abs_le]; constructor <;> linarith
    rw [e, mul_comm]
    exact abs_mul_le h2 h1
  have hmS : m ≤ 1001 / 1000 * (x + y + z + r) := by
    rw [hm]
    exact max_le (max_le (max_le (hup x h.x0 (by linarith)) (hup y h.y0 (by linarith))) (hup z h.z0 (by linarith))) (hup r hr.le (by linarith))
  have hQup := Q_up hq (hp.trans hpq) hK0 hm0 hmS
  rw [← hQm] at hQup
  have hstop := not_le.mpr (stopJ hp h hN ⟨(hinv N le_rfl).ghost, (hinv N le_rfl).ppos, (hinv N le_rfl).mean⟩ hQup hN4)
  obtain ⟨n, hn, hexit, hmin⟩ := loopWhile_spec (cond := fun s : RJState => s.pow4 * jQF fl flq K A0 x y z r ≥ |s.A|)
    (step := jStepF fl (deltaF fl x y z r)) (s := ⟨x, y, z, r, A0, 1, 0, 0, False⟩) ⟨N, hstop⟩
  have hnN : n ≤ N := by
    by_contra hc
    exact hstop (hmin N (by omega))
  have hI := hinv n hnN
  unfold elliprjCoreF
  rw [← hA0]
  simp only
  rw [hn]
  simp only
  rw [if_neg hI.good]
  refine ⟨_, rfl, ?_⟩
  generalize (jStepF fl (deltaF fl x y z r))^[n] ⟨x, y, z, r, A0, 1, 0, 0, False⟩ = st at *
  obtain ⟨g, G, hG⟩ := hI.ghost
  have hargs : Args st.x st.y st.z := hG.args
  have hpw : st.pow4 = (1 / 4) ^ n := hG.pow4
  have hx0 := hargs.x0
  have hy0 := hargs.y0
  have hz0 := hargs.z0
  have hp0 := hI.ppos
  obtain ⟨M, hMd⟩ : ∃ M, M = (st.x + st.y + st.z + 2 * st.p) / 5 := ⟨_, rfl⟩
  have hM0 : 0 < M := by rw [hMd]; positivity
  have hmean := hI.mean
  rw [← hMd] at hmean
  have hAp : 0 < st.A := hmean.pos hw hM0
  have hp40 : 0 < st.pow4 := by rw [hpw]; positivity
  rw [ge_iff_le, not_le, hQm, abs_of_pos hAp] at hexit
  have hred : ∀ a, |fl (A0 - a)| ≤ m → |st.pow4 * (A0 - a) / st.A| ≤ 102 / 100 * ε := fun a ham =>
    exit_small hAp hp40.le hε0 hKε (Q_low hf hp hq (hp.trans hpq) hK0 ham) hexit.le
  have hη : (28 * (n : ℝ) + 29) * (2 ^ p)⁻¹ ≤ ε / 90 := by
    have hnr : (n : ℝ) ≤ 1000 := by exact_mod_cast (by omega : n ≤ 1000)
    have : (28 * (n : ℝ) + 29) * (2 ^ p)⁻¹ ≤ 28029 * (2 ^ p)⁻¹ := by gcongr; linarith
    linarith
  have hdx := hI.dx
  have hdy := hI.dy
  have hdz := hI.dz
  have hdp := hI.dp
  rw [← hMd] at hdx hdy hdz hdp
  obtain ⟨x1, x2, x3⟩ := reduced_rj hf hp (show n ≤ 1000 by omega) hAp hM0 hx0 (by rw [hMd]; linarith) hmean hε5
    (hred x (by rw [hm]; exact (le_max_left _ _).trans ((le_max_left _ _).trans (le_max_left _ _)))) hη hdx
  obtain ⟨y1, y2, y3⟩ := reduced_rj hf hp (show n ≤ 1000 by omega) hAp hM0 hy0 (by rw [hMd]; linarith) hmean hε5
    (hred y (by rw [hm]; exact (le_max_right _ _).trans ((le_max_left _ _).trans (le_max_left _ _)))) hη hdy
  obtain ⟨z1, z2, z3⟩ := reduced_rj hf hp (show n ≤ 1000 by omega) hAp hM0 hz0 (by rw [hMd]; linarith) hmean hε5
    (hred z (by rw [hm]; exact (le_max_right _ _).trans (le_max_left _ _))) hη hdz
  obtain ⟨-, -, p3⟩ := reduced_rj hf hp (show n ≤ 1000 by omega) hAp hM0 hp0.le (by rw [hMd]; linarith) hmean hε5
    (hred r (by rw [hm]; exact le_max_right _ _)) hη hdp
  have hsum : (M - st.x) / M + (M - st.y) / M + (M - st.z) / M + 2 * ((M - st.p) / M) = 0 := by field_simp; rw [hMd]; ring
  obtain ⟨hdist, hPlow⟩ := poly_rj hf hp hq hpq hε5 hε6 hη hsum x1 x2 x3 y1 y2 y3 z1 z2 z3 p3
  have hscale : RJ st.x st.y st.z st.p = RJ (1 - (M - st.x) / M) (1 - (M - st.y) / M) (1 - (M - st.z) / M) (1 - (M - st.p) / M) / (M * √M) := by
    have a1 : ∀ t : ℝ, t = M * (1 - (M - t) / M) := fun t => by field_simp; ring
    rw [← RJ_scale _ _ _ _ _ hM0, ← a1, ← a1, ← a1, ← a1]
  obtain ⟨a, b, c, t, σ, hA', ht, hσ, na, nb, nc, nt, ns, -, -, hRJe⟩ := hI.exact
  have hRR : Near (1 - (2 ^ p)⁻¹)⁻¹ (9 * n) (RJ st.x st.y st.z st.p) (RJ a b c t) := by
    have e6 : 6 * n = 2 * (3 * n) := by ring
    rw [e6] at na nb nc nt
    have := RJ_near hw hargs hA' hp0 ht na nb nc nt
    rwa [show 3 * (3 * n) = 9 * n by ring] at this
  rw [← hpw] at hRJe
  refine (finishJ hf hp (by omega) hAp hM0 hI.s0 hσ hp40 hmean hPlow hdist hscale hRR (RJ_pos hA' ht) ns hRJe (hsm n hnN)).trans ?_
  have hnN' : (n : ℝ) ≤ N := by exact_mod_cast hnN
  gcongr

/-- If `p` equals one of the other arguments and the loop runs at all, the sum contains `0 / 0`. -/
theorem core_nanJ {q : ℕ} {flq : ℝ → ℝ} (hf : Nearest p fl) (hp : 24 ≤ p) (hq : Nearest q flq) (hpq : p ≤ q) {K : ℝ}
    (hK : |K - (1 / 4 * (2 * (2 ^ p)⁻¹) * 2 ^ 10) ^ (-(1 / 6) : ℝ)| ≤ 1 / 100 * K) {x y z r : ℝ} (h : Args x y z) (hr : 0 < r) {N : ℕ} (hN : N ≤ 1000)
    (heq : (r - x) * (r - y) * (r - z) = 0) {a b : ℝ} (hab : 2 * a ≤ b) (ha : a = x ∨ a = y ∨ a = z ∨ a = r) (hb : b = x ∨ b = y ∨ b = z ∨ b = r)
    (hbx : x ≤ b) (hby : y ≤ b) (hbz : z ≤ b) (hbr : r ≤ b) (hN4 : 21 / 4 * K * (x + y + z + r) * RF x y z ^ 2 ≤ 4 ^ N) :
    elliprjCoreF fl flq K x y z r = .nan := by
  have hw := w_ge hp
  have hu0 : (0 : ℝ) < (2 ^ p)⁻¹ := by positivity
  obtain ⟨ε, hε0, hε5, hε6, hεK, hεu⟩ := eps_toleranceJ hp
  rw [hεK] at hK
  obtain ⟨hK0, hKε⟩ := K_bounds hε0 hK
  have hK5 : 5 ≤ K := by
    by_contra hc
    have : K * ε ≤ 5 * (178 / 1000) := mul_le_mul (not_le.mp hc).le hε5 hε0.le (by norm_num)
    linarith
  obtain ⟨A0, hA0⟩ : ∃ A0, A0 = jA0F fl x y z r := ⟨_, rfl⟩
  have hS := isNonneg_args h
  have hx00 := h.x0
  have hy00 := h.y0
  have hz00 := h.z0
  have hA0n : Near (1 - (2 ^ p)⁻¹)⁻¹ 5 A0 ((x + y + z + 2 * r) / 5) := hA0 ▸ jA0_near hf hp h.x0 h.y0 h.z0 hr.le
  have hA0p : 0 < A0 := hA0n.pos hw (by positivity)
  have hA01 : A0 ≤ 101 / 100 * ((x + y + z + 2 * r) / 5) := by
    have h2 := w_pow_le hp (show 5 ≤ 10000 by omega)
    exact hA0n.1.trans (by gcongr)
  have hA0S : A0 ≤ x + y + z + r := by linarith
  have hA0b : A0 ≤ 101 / 100 * b := by linarith
  have h0 : fl 0 = 0 := hf.self isFl_zero
  have hdelta : deltaF fl x y z r = 0 := by
    unfold deltaF
    rcases mul_eq_zero.mp heq with h1 | h1
    · rcases mul_eq_zero.mp h1 with h2 | h2 <;> simp [h2, h0]
    · simp [h1, h0]
  obtain ⟨m, hm⟩ : ∃ m, m = max (max (max |fl (A0 - x)| |fl (A0 - y)|) |fl (A0 - z)|) |fl (A0 - r)| := ⟨_, rfl⟩
  have hm0 : 0 ≤ m := by rw [hm]; exact (abs_nonneg _).trans (le_max_right _ _)
  have hQm : jQF fl flq K A0 x y z r = flq (K * m) := by rw [hm, jQF]
  have hup : ∀ a, 0 ≤ a → a ≤ x + y + z + r → |fl (A0 - a)| ≤ 1001 / 1000 * (x + y + z + r) := fun a ha haS => by
    have hu := unit24 hp
    obtain ⟨δ, b, e⟩ := hf.factor (by omega) (A0 - a)
    have h1 : |A0 - a| ≤ x + y + z + r := by rw [abs_le]; constructor <;> linarith
    have h2 : |1 + δ| ≤ 1001 / 1000 := by have := abs_le.mp b; rw [abs_le]; constructor <;> linarith
    rw [e, mul_comm]
    exact abs_mul_le h2 h1
  have hmS : m ≤ 1001 / 1000 * (x + y + z + r) := by
    rw [hm]
    exact max_le (max_le (max_le (hup x h.x0 (by linarith)) (hup y h.y0 (by linarith))) (hup z h.z0 (by linarith))) (hup r hr.le (by linarith))
  have hQup := Q_up hq (hp.trans hpq) hK0 hm0 hmS
  have hmem : ∀ t, (t = x ∨ t = y ∨ t = z ∨ t = r) → |fl (A0 - t)| ≤ m := by
    rintro t (rfl | rfl | rfl | rfl) <;> rw [hm] <;> simp
  have hstart : A0 ≤ flq (K * m) := by
    have qa := Q_low hf hp hq (hp.trans hpq) hK0 (hmem a ha)
    have qb := Q_low hf hp hq (hp.trans hpq) hK0 (hmem b hb)
    have hsum : b - a ≤ |A0 - a| + |A0 - b| := by
      have := le_abs_self (A0 - a)
      have := neg_abs_le (A0 - b)
      linarith
    have hb0 : 0 ≤ b := hr.le.trans hbr
    have h1 : K * (b / 2) ≤ K * (|A0 - a| + |A0 - b|) := by gcongr; linarith
    have h2 : 5 * (b / 2) ≤ K * (b / 2) := by gcongr
    linarith
  rw [← hQm] at hQup hstart
  have hinv : ∀ n ≤ 1001, JWeak p x y z n ((jStepF fl 0)^[n] ⟨x, y, z, r, A0, 1, 0, 0, False⟩) := by
    intro n
    induction n with
    | zero => intro _; rw [hA0]; exact jweak_zero hf hp h hr
    | succ n ih =>
      intro hn
      rw [Function.iterate_succ_apply']
      exact jweak_succ hf hp (by omega) (ih (by omega))
  have hbad : ∀ n, ((jStepF fl 0)^[n + 1] ⟨x, y, z, r, A0, 1, 0, 0, False⟩).bad := fun n => by
    rw [Function.iterate_succ_apply']
    unfold jStepF emF
    simp [h0]
  have hstop := not_le.mpr (stopJ hp h hN (hinv N (by omega)) hQup hN4)
  obtain ⟨n, hn, hexit, hmin⟩ := loopWhile_spec (cond := fun s : RJState => s.pow4 * jQF fl flq K A0 x y z r ≥ |s.A|)
    (step := jStepF fl 0) (s := ⟨x, y, z, r, A0, 1, 0, 0, False⟩) ⟨N, hstop⟩
  unfold elliprjCoreF
  rw [← hA0, hdelta]
  simp only
  rw [hn]
  simp only
  cases n with
  | zero =>
    exfalso
    apply hexit
    simp only [Function.iterate_zero, id_eq, one_mul, ge_iff_le, abs_of_pos hA0p]
    exact hstart
  | succ n => rw [if_pos (hbad n)]

end Verif.Carlson.Flt

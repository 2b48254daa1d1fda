import Verif.Carlson.RoundModel
import Verif.Carlson.RoundLemmas

/-! # C119: rounding in elliprf -/

namespace Verif.Carlson.Flt

open Verif.Round

variable {p : ℕ} {fl : ℝ → ℝ}

theorem Near.pos {w : ℝ} {k : ℕ} {a b : ℝ} (hw : 1 ≤ w) (h : Near w k a b) (hb : 0 < b) : 0 < a := by
  have h1 := lt_of_lt_of_le hb h.2
  exact (pos_iff_pos_of_mul_pos h1).mp (pow_pos (by linarith) k)

/-- The unit roundoff. -/
theorem unit24 (hp : 24 ≤ p) : ((2 : ℝ) ^ p)⁻¹ ≤ 1 / 16777216 := by
  rw [inv_eq_one_div]
  apply one_div_le_one_div_of_le (by norm_num)
  calc (16777216 : ℝ) = 2 ^ 24 := by norm_num
    _ ≤ 2 ^ p := pow_le_pow_right₀ (by norm_num) hp

theorem w_ge (hp : 24 ≤ p) : 1 ≤ (1 - ((2 : ℝ) ^ p)⁻¹)⁻¹ := one_le_w (by positivity) (by linarith [unit24 hp])

/-- `λ` up to 5 roundings. -/
theorem lm_near (hf : Nearest p fl) (hp : 24 ≤ p) {a b c : ℝ} : Near (1 - (2 ^ p)⁻¹)⁻¹ 5 (lmF fl a b c) (lam a b c 0) := by
  have hp1 : 1 ≤ p := by omega
  have hw := w_ge hp
  have hs : ∀ t : ℝ, Near (1 - (2 ^ p)⁻¹)⁻¹ 1 (fl √t) (√t) ∧ 0 ≤ fl √t := fun t =>
    ⟨near_fl hf hp1 (Real.sqrt_nonneg t), fl_nonneg hf hp1 (Real.sqrt_nonneg t)⟩
  have hm : ∀ s t : ℝ, Near (1 - (2 ^ p)⁻¹)⁻¹ 3 (fl (fl √s * fl √t)) (√s * √t) ∧ 0 ≤ fl (fl √s * fl √t) := fun s t => by
    have h0 := mul_nonneg (hs s).2 (hs t).2
    have h1 := near_fl hf hp1 h0
    have h2 := (hs s).1.mul hw (hs t).1 (Real.sqrt_nonneg s) (hs t).2
    exact ⟨h1.trans hw h2, fl_nonneg hf hp1 h0⟩
  have hq : ∀ s t : ℝ, 0 ≤ √s * √t := fun s t => mul_nonneg (Real.sqrt_nonneg s) (Real.sqrt_nonneg t)
  have h3 := add_nonneg (hm a b).2 (hm a c).2
  have h4 := (near_fl hf hp1 h3).trans hw ((hm a b).1.add (hm a c).1)
  have h5 := fl_nonneg hf hp1 h3
  have h6 := (hm b c).1.mono hw (show 3 ≤ 1 + 3 by omega) (hm b c).2 (hq b c)
  have h7 := (near_fl hf hp1 (add_nonneg h5 (hm b c).2)).trans hw (h4.add h6)
  unfold lmF lam
  simp only [zero_add]
  exact h7

theorem lam_le {a b c : ℝ} (ha : 0 ≤ a) (hb : 0 ≤ b) (hc : 0 ≤ c) : lam a b c 0 ≤ a + b + c := by
  unfold lam
  simp only [zero_add]
  have h1 := Real.sq_sqrt ha
  have h2 := Real.sq_sqrt hb
  have h3 := Real.sq_sqrt hc
  nlinarith [sq_nonneg (√a - √b), sq_nonneg (√a - √c), sq_nonneg (√b - √c)]

/-- `A0` up to 3 roundings. -/
theorem A0_near (hf : Nearest p fl) (hp : 24 ≤ p) {x y z : ℝ} (hx : 0 ≤ x) (hy : 0 ≤ y) (hz : 0 ≤ z) :
    Near (1 - (2 ^ p)⁻¹)⁻¹ 3 (fA0F fl x y z) ((x + y + z) / 3) := by
  have hp1 : 1 ≤ p := by omega
  have hw := w_ge hp
  have h0 := add_nonneg hx hy
  have h1 := near_fl hf hp1 h0
  have h1' := fl_nonneg hf hp1 h0
  have h2 := h1.add (((Near.refl z).mono hw (show 0 ≤ 1 by omega) hz hz))
  have h3 := (near_fl hf hp1 (add_nonneg h1' hz)).trans hw h2
  have h3' := fl_nonneg hf hp1 (add_nonneg h1' hz)
  have h4 := h3.scale (show (0 : ℝ) ≤ 1 / 3 by norm_num)
  have h5 := (near_fl hf hp1 (mul_nonneg h3' (show (0 : ℝ) ≤ 1 / 3 by norm_num))).trans hw h4
  unfold fA0F
  simpa only [mul_one_div] using h5

/-- What holds of the loop variables after `n` steps. -/
structure Inv (p : ℕ) (x y z A0 : ℝ) (n : ℕ) (s : RState) : Prop where
  args : Args s.x s.y s.z
  rf : Near (1 - (2 ^ p)⁻¹)⁻¹ (3 * n) (RF s.x s.y s.z) (RF x y z)
  mean : Near (1 - (2 ^ p)⁻¹)⁻¹ (3 + 2 * n) s.A ((s.x + s.y + s.z) / 3)
  pow4 : s.pow4 = (1 / 4) ^ n
  dx : |s.A - s.x - s.pow4 * (A0 - x)| ≤ 51 / 5 * (n * ((1 - (2 ^ p)⁻¹)⁻¹ ^ n * (2 ^ p)⁻¹)) * ((s.x + s.y + s.z) / 3)
  dy : |s.A - s.y - s.pow4 * (A0 - y)| ≤ 51 / 5 * (n * ((1 - (2 ^ p)⁻¹)⁻¹ ^ n * (2 ^ p)⁻¹)) * ((s.x + s.y + s.z) / 3)

/-- One step of the difference between the mean and an argument. -/
theorem diff_step {A x l δ δ' u q d E : ℝ} (hA : 0 ≤ A) (hx : 0 ≤ x) (hl : 0 ≤ l) (h1 : |δ| ≤ u) (h2 : |δ'| ≤ u) (hE : |A - x - q * d| ≤ E) :
    |(A + l) * (1 + δ) / 4 - (x + l) * (1 + δ') / 4 - q / 4 * d| ≤ E / 4 + u * (A + x + 2 * l) / 4 := by
  have e : (A + l) * (1 + δ) / 4 - (x + l) * (1 + δ') / 4 - q / 4 * d = ((A - x - q * d) + ((A + l) * δ - (x + l) * δ')) / 4 := by ring
  rw [e, abs_div, abs_of_pos (by norm_num : (0 : ℝ) < 4), ← add_div]
  gcongr
  refine (abs_add_le _ _).trans (add_le_add hE ?_)
  refine (abs_sub _ _).trans ?_
  have t1 : |(A + l) * δ| ≤ (A + l) * u := by rw [abs_mul, abs_of_nonneg (by positivity)]; gcongr
  have t2 : |(x + l) * δ'| ≤ (x + l) * u := by rw [abs_mul, abs_of_nonneg (by positivity)]; gcongr
  linarith

theorem w_pow_le (hp : 24 ≤ p) {k : ℕ} (hk : k ≤ 10000) : (1 - ((2 : ℝ) ^ p)⁻¹)⁻¹ ^ k ≤ 101 / 100 := by
  have hu := unit24 hp
  have hu0 : (0 : ℝ) < (2 ^ p)⁻¹ := by positivity
  have hkr : (k : ℝ) ≤ 10000 := by exact_mod_cast hk
  have hw := w_ge hp
  have hku : (k : ℝ) * (2 ^ p)⁻¹ ≤ 10000 * (1 / 16777216) := by gcongr
  have h := Near.abs_le (u := (2 ^ p)⁻¹) (a := (1 - ((2 : ℝ) ^ p)⁻¹)⁻¹ ^ k) (b := 1) (k := k) hu0.le (hku.trans (by norm_num)) (by linarith)
    (by norm_num) ⟨by rw [mul_one], by rw [← mul_pow]; exact one_le_pow₀ (by nlinarith)⟩
  have := (abs_le.mp h).2
  linarith

theorem inv_zero (hf : Nearest p fl) (hp : 24 ≤ p) {x y z : ℝ} (h : Args x y z) :
    Inv p x y z (fA0F fl x y z) 0 ⟨x, y, z, fA0F fl x y z, 1⟩ where
  args := h
  rf := Near.refl _
  mean := A0_near hf hp h.x0 h.y0 h.z0
  pow4 := by norm_num
  dx := by simp
  dy := by simp

/-- One step of the loop with a `λ` up to 5 roundings. -/
theorem inv_step (hf : Nearest p fl) (hp : 24 ≤ p) {x y z A0 : ℝ} {n : ℕ} (hn : n ≤ 1000) {s : RState} (h : Inv p x y z A0 n s) {l : ℝ}
    (hln : Near (1 - (2 ^ p)⁻¹)⁻¹ 5 l (lam s.x s.y s.z 0)) :
    Inv p x y z A0 (n + 1) ⟨fl (s.x + l) / 4, fl (s.y + l) / 4, fl (s.z + l) / 4, fl (s.A + l) / 4, s.pow4 / 4⟩ := by
  have hp1 : 1 ≤ p := by omega
  have hw := w_ge hp
  have hu := unit24 hp
  have hu0 : (0 : ℝ) < (2 ^ p)⁻¹ := by positivity
  have hx := h.args.x0
  have hy := h.args.y0
  have hz := h.args.z0
  obtain ⟨hlam, hdup⟩ := h.args.dup
  have hl0 : 0 < l := hln.pos hw hlam
  have hS : 0 < s.x + s.y + s.z := isNonneg_args h.args
  have hA0 : 0 < s.A := h.mean.pos hw (by positivity)
  -- each new argument
  have hnew : ∀ a : ℝ, 0 ≤ a → Near (1 - (2 ^ p)⁻¹)⁻¹ 1 (fl (a + l) / 4) ((a + l) / 4) ∧ 0 < fl (a + l) / 4 ∧
      Near (1 - (2 ^ p)⁻¹)⁻¹ 6 (fl (a + l) / 4) ((a + lam s.x s.y s.z 0) / 4) := fun a ha => by
    have h1 := near_fl hf hp1 (show 0 ≤ a + l by linarith)
    have h2 := h1.scale (show (0 : ℝ) ≤ 1 / 4 by norm_num)
    have h3 := (h1.trans hw (((Near.refl a).mono hw (show 0 ≤ 5 by omega) ha ha).add hln)).scale (show (0 : ℝ) ≤ 1 / 4 by norm_num)
    simp only [mul_one_div] at h2 h3
    exact ⟨h2, by have := h1.pos hw (by linarith); positivity, h3⟩
  obtain ⟨x1, x2, x3⟩ := hnew s.x hx
  obtain ⟨y1, y2, y3⟩ := hnew s.y hy
  obtain ⟨z1, z2, z3⟩ := hnew s.z hz
  obtain ⟨a1, a2, -⟩ := hnew s.A hA0.le
  have hargs : Args (fl (s.x + l) / 4) (fl (s.y + l) / 4) (fl (s.z + l) / 4) := ⟨x2.le, y2.le, z2.le, by linarith, by linarith, by linarith⟩
  -- the mean of the new arguments
  have hM : Near (1 - (2 ^ p)⁻¹)⁻¹ 1 ((fl (s.x + l) / 4 + fl (s.y + l) / 4 + fl (s.z + l) / 4) / 3) (((s.x + s.y + s.z) / 3 + l) / 4) := by
    have := ((x1.add y1).add z1).scale (show (0 : ℝ) ≤ 1 / 3 by norm_num)
    rw [mul_one_div, mul_one_div] at this
    rwa [show ((s.x + l) / 4 + (s.y + l) / 4 + (s.z + l) / 4) / 3 = ((s.x + s.y + s.z) / 3 + l) / 4 by ring] at this
  have hdiff : ∀ a d : ℝ, 0 ≤ a → a ≤ s.x + s.y + s.z →
      |s.A - a - s.pow4 * d| ≤ 51 / 5 * (n * ((1 - (2 ^ p)⁻¹)⁻¹ ^ n * (2 ^ p)⁻¹)) * ((s.x + s.y + s.z) / 3) →
      |fl (s.A + l) / 4 - fl (a + l) / 4 - s.pow4 / 4 * d| ≤ 51 / 5 * ((n + 1 : ℕ) * ((1 - (2 ^ p)⁻¹)⁻¹ ^ (n + 1) * (2 ^ p)⁻¹)) *
        ((fl (s.x + l) / 4 + fl (s.y + l) / 4 + fl (s.z + l) / 4) / 3) := fun a d ha haS hE => by
    obtain ⟨δ, b1, e1⟩ := hf.factor hp1 (s.A + l)
    obtain ⟨δ', b2, e2⟩ := hf.factor hp1 (a + l)
    rw [e1, e2]
    refine (diff_step hA0.le ha hl0.le b1 b2 hE).trans ?_
    have k1 := w_pow_le hp (show 3 + 2 * n ≤ 10000 by omega)
    have k2 := w_pow_le hp (show 5 ≤ 10000 by omega)
    have k3 := h.mean.1
    have k4 := hln.1
    have k5 := lam_le hx hy hz
    have k6 := hM.2
    obtain ⟨M', hM'⟩ : ∃ M', M' = (fl (s.x + l) / 4 + fl (s.y + l) / 4 + fl (s.z + l) / 4) / 3 := ⟨_, rfl⟩
    obtain ⟨M, hMd⟩ : ∃ M, M = (s.x + s.y + s.z) / 3 := ⟨_, rfl⟩
    have hM0 : 0 < M := by rw [hMd]; positivity
    have hM0' : 0 < M' := by rw [hM']; positivity
    rw [← hM'] at k6 ⊢
    rw [← hMd] at k3 k6 ⊢
    rw [show s.x + s.y + s.z = 3 * M by rw [hMd]; ring] at haS k5
    generalize hud : ((2 : ℝ) ^ p)⁻¹ = u at *
    generalize hwd : (1 - u)⁻¹ = w at *
    have hA : s.A ≤ 101 / 100 * M := k3.trans (by gcongr)
    have hlM : l ≤ 101 / 100 * (3 * M) := k4.trans (by gcongr)
    have hMM : M ≤ 4 * (w * M') := by rw [pow_one] at k6; linarith
    have hwn : 1 ≤ w ^ n := one_le_pow₀ hw
    have t1 : u * (s.A + a + 2 * l) / 4 ≤ u * (51 / 20 * M) := by
      rw [mul_div_assoc]; gcongr; linarith
    have hX : 0 ≤ (n : ℝ) * (w ^ n * u) := by positivity
    have t2 : 51 / 5 * (n * (w ^ n * u)) * M / 4 ≤ 51 / 5 * (n * (w ^ n * u)) * (w * M') := by
      rw [mul_div_assoc]; gcongr; linarith
    have t3 : u * (51 / 20 * M) ≤ 51 / 5 * (w ^ (n + 1) * u) * M' := by
      calc u * (51 / 20 * M) ≤ u * (51 / 20 * (4 * (w * M'))) := by gcongr
        _ = 51 / 5 * (1 * w * u) * M' := by ring
        _ ≤ 51 / 5 * (w ^ n * w * u) * M' := by gcongr
        _ = _ := by rw [pow_succ]
    calc _ ≤ 51 / 5 * (n * (w ^ n * u)) * (w * M') + 51 / 5 * (w ^ (n + 1) * u) * M' := by linarith
      _ = _ := by push_cast; rw [pow_succ]; ring
  refine ⟨hargs, ?_, ?_, ?_, hdiff s.x _ hx (by linarith) h.dx, hdiff s.y _ hy (by linarith) h.dy⟩
  · have := (RF_near (k := 3) hw hargs hdup x3 y3 z3)
    rw [RF_dup h.args] at this
    have := this.trans hw h.rf
    rwa [show 3 + 3 * n = 3 * (n + 1) by ring] at this
  · have m1 := (h.mean.add ((Near.refl l).mono hw (show 0 ≤ 3 + 2 * n by omega) hl0.le hl0.le)).scale (show (0 : ℝ) ≤ 1 / 4 by norm_num)
    rw [mul_one_div, mul_one_div] at m1
    have := (a1.trans hw m1).trans hw hM.symm
    rwa [show 1 + (3 + 2 * n) + 1 = 3 + 2 * (n + 1) by ring] at this
  · rw [h.pow4, pow_succ]; ring

theorem inv_succ (hf : Nearest p fl) (hp : 24 ≤ p) {x y z A0 : ℝ} {n : ℕ} (hn : n ≤ 1000) {s : RState} (h : Inv p x y z A0 n s) :
    Inv p x y z A0 (n + 1) (fStepF fl s) := by
  have e : fStepF fl s = ⟨fl (s.x + lmF fl s.x s.y s.z) / 4, fl (s.y + lmF fl s.x s.y s.z) / 4, fl (s.z + lmF fl s.x s.y s.z) / 4,
      fl (s.A + lmF fl s.x s.y s.z) / 4, s.pow4 / 4⟩ := by
    unfold fStepF
    simp only [fl_div4 hf]
  rw [e]
  exact inv_step hf hp hn h (lm_near hf hp)

/-! ### The polynomial -/

theorem fl_close (hf : Nearest p fl) (hp : 24 ≤ p) {a A B c : ℝ} (ha : |a - A| ≤ c * (2 ^ p)⁻¹) (hA : |A| ≤ B) :
    |fl a - A| ≤ (c + B + c / 1000) * (2 ^ p)⁻¹ := by
  have hu := unit24 hp
  have hu0 : (0 : ℝ) < (2 ^ p)⁻¹ := by positivity
  obtain ⟨δ, hδ, e⟩ := hf.factor (by omega) a
  generalize ((2 : ℝ) ^ p)⁻¹ = u at *
  have hc : 0 ≤ c := by
    have := (abs_nonneg _).trans ha
    exact nonneg_of_mul_nonneg_left this hu0
  have e1 : fl a - A = (a - A) + (A + (a - A)) * δ := by rw [e]; ring
  have t1 : |A + (a - A)| ≤ B + c * u := (abs_add_le _ _).trans (add_le_add hA ha)
  have t2 : |(A + (a - A)) * δ| ≤ (B + c * u) * u := by
    rw [abs_mul]
    have : 0 ≤ B + c * u := (abs_nonneg _).trans t1
    gcongr
  rw [e1]
  refine (abs_add_le _ _).trans ?_
  have t3 : c * u * u ≤ c * (1 / 1000) * u := by gcongr; linarith
  calc _ ≤ c * u + (B + c * u) * u := add_le_add ha t2
    _ = c * u + B * u + c * u * u := by ring
    _ ≤ c * u + B * u + c * (1 / 1000) * u := by linarith
    _ = _ := by ring

theorem mul_close (hp : 24 ≤ p) {a A A' b B B' c d : ℝ} (ha : |a - A| ≤ c * (2 ^ p)⁻¹) (hb : |b - B| ≤ d * (2 ^ p)⁻¹) (hA : |A| ≤ A') (hB : |B| ≤ B') :
    |a * b - A * B| ≤ (c * B' + d * A' + c * d / 1000) * (2 ^ p)⁻¹ := by
  have hu := unit24 hp
  have hu0 : (0 : ℝ) < (2 ^ p)⁻¹ := by positivity
  generalize ((2 : ℝ) ^ p)⁻¹ = u at *
  have hc : 0 ≤ c := nonneg_of_mul_nonneg_left ((abs_nonneg _).trans ha) hu0
  have hd : 0 ≤ d := nonneg_of_mul_nonneg_left ((abs_nonneg _).trans hb) hu0
  have hA' := (abs_nonneg _).trans hA
  have hB' := (abs_nonneg _).trans hB
  have e : a * b - A * B = (a - A) * B + (b - B) * A + (a - A) * (b - B) := by ring
  have t1 : |(a - A) * B| ≤ c * u * B' := by rw [abs_mul]; gcongr
  have t2 : |(b - B) * A| ≤ d * u * A' := by rw [abs_mul]; gcongr
  have t3 : |(a - A) * (b - B)| ≤ c * u * (d * (1 / 1000)) := by
    rw [abs_mul]
    have : d * u ≤ d * (1 / 1000) := by gcongr; linarith
    have := hb.trans this
    gcongr
  rw [e]
  refine (abs_add_le _ _).trans ?_
  have := abs_add_le ((a - A) * B) ((b - B) * A)
  calc _ ≤ c * u * B' + d * u * A' + c * u * (d * (1 / 1000)) := by linarith
    _ = _ := by ring

/-- The polynomial in exact arithmetic. -/
noncomputable def polyR (X Y : ℝ) : ℝ :=
  1 - (X * Y - (X + Y) * (X + Y)) / 10 + (X * Y - (X + Y) * (X + Y)) * (X * Y - (X + Y) * (X + Y)) / 24 + X * Y * -(X + Y) / 14 -
    (X * Y - (X + Y) * (X + Y)) * (X * Y * -(X + Y)) * (3 / 44)

theorem Cmono {a b c d : ℝ} (h : |a - b| ≤ c * (2 ^ p)⁻¹) (hcd : c ≤ d) : |a - b| ≤ d * (2 ^ p)⁻¹ :=
  h.trans (mul_le_mul_of_nonneg_right hcd (by positivity))

theorem div_close {a A c k : ℝ} (hk : 0 < k) (h : |a - A| ≤ c * (2 ^ p)⁻¹) : |a / k - A / k| ≤ (c / k) * (2 ^ p)⁻¹ := by
  rw [← sub_div, abs_div, abs_of_pos hk, div_le_iff₀ hk]
  calc _ ≤ _ := h
    _ = _ := by field_simp

theorem add_close {a A b B c d : ℝ} (ha : |a - A| ≤ c * (2 ^ p)⁻¹) (hb : |b - B| ≤ d * (2 ^ p)⁻¹) : |a + b - (A + B)| ≤ (c + d) * (2 ^ p)⁻¹ := by
  rw [show a + b - (A + B) = (a - A) + (b - B) by ring, add_mul]
  exact (abs_add_le _ _).trans (add_le_add ha hb)

theorem sub_close {a A b B c d : ℝ} (ha : |a - A| ≤ c * (2 ^ p)⁻¹) (hb : |b - B| ≤ d * (2 ^ p)⁻¹) : |a - b - (A - B)| ≤ (c + d) * (2 ^ p)⁻¹ := by
  rw [show a - b - (A - B) = (a - A) - (b - B) by ring, add_mul]
  exact (abs_sub _ _).trans (add_le_add ha hb)

theorem refl_close (a : ℝ) : |a - a| ≤ 0 * ((2 : ℝ) ^ p)⁻¹ := by simp

/-- A constant of double precision converted to the type of the computation. -/
theorem const_close {q : ℕ} {flq : ℝ → ℝ} (hf : Nearest p fl) (hp : 24 ≤ p) (hq : Nearest q flq) (hpq : p ≤ q) {c B : ℝ} (hc : |c| ≤ B) :
    |fl (flq c) - c| ≤ (3 * B) * (2 ^ p)⁻¹ := by
  have hB : 0 ≤ B := (abs_nonneg _).trans hc
  have h1 := fl_close hq (hp.trans hpq) (refl_close c) hc
  have h2 : ((2 : ℝ) ^ q)⁻¹ ≤ (2 ^ p)⁻¹ := by
    apply inv_anti₀ (by positivity)
    exact pow_le_pow_right₀ (by norm_num) hpq
  have h3 : |flq c - c| ≤ (101 / 100 * B) * (2 ^ p)⁻¹ := by
    refine h1.trans ?_
    gcongr
    linarith
  exact Cmono (fl_close hf hp h3 hc) (by linarith)

/-- Rounding in the polynomial. -/
theorem poly_round {q : ℕ} {flq : ℝ → ℝ} (hf : Nearest p fl) (hp : 24 ≤ p) (hq : Nearest q flq) (hpq : p ≤ q) {X Y : ℝ} (hX : |X| ≤ 1 / 40)
    (hY : |Y| ≤ 1 / 40) : |fPolyF fl flq X Y - polyR X Y| ≤ 9 / 2 * (2 ^ p)⁻¹ := by
  have bZ : |X + Y| ≤ 1 / 20 := (abs_add_le _ _).trans (by linarith)
  have bXY : |X * Y| ≤ 1 / 1600 := (abs_mul_le hX hY).trans (by norm_num)
  have bZZ : |(X + Y) * (X + Y)| ≤ 1 / 400 := (abs_mul_le bZ bZ).trans (by norm_num)
  have bE2 : |X * Y - (X + Y) * (X + Y)| ≤ 1 / 320 := (abs_sub _ _).trans (by linarith)
  have bZ' : |-(X + Y)| ≤ 1 / 20 := by rwa [abs_neg]
  have bE3 : |X * Y * -(X + Y)| ≤ 1 / 32000 := (abs_mul_le bXY bZ').trans (by norm_num)
  have cZ : |-fl (X + Y) - -(X + Y)| ≤ 1 / 20 * (2 ^ p)⁻¹ := by
    rw [show -fl (X + Y) - -(X + Y) = -(fl (X + Y) - (X + Y)) by ring, abs_neg]
    exact Cmono (fl_close hf hp (refl_close _) bZ) (by norm_num)
  have cXY : |fl (X * Y) - X * Y| ≤ 1 / 1600 * (2 ^ p)⁻¹ := Cmono (fl_close hf hp (refl_close _) bXY) (by norm_num)
  have cZZ : |fl (-fl (X + Y) * -fl (X + Y)) - (X + Y) * (X + Y)| ≤ 1 / 100 * (2 ^ p)⁻¹ := by
    have := mul_close hp cZ cZ bZ' bZ'
    rw [neg_mul_neg (X + Y)] at this
    exact Cmono (fl_close hf hp this bZZ) (by norm_num)
  have cE2 : |fl (fl (X * Y) - fl (-fl (X + Y) * -fl (X + Y))) - (X * Y - (X + Y) * (X + Y))| ≤ 1 / 50 * (2 ^ p)⁻¹ :=
    Cmono (fl_close hf hp (sub_close cXY cZZ) bE2) (by norm_num)
  have cE3 : |fl (fl (X * Y) * -fl (X + Y)) - X * Y * -(X + Y)| ≤ 1 / 1000 * (2 ^ p)⁻¹ :=
    Cmono (fl_close hf hp (mul_close hp cXY cZ bXY bZ') bE3) (by norm_num)
  unfold fPolyF polyR
  simp only
  generalize fl (fl (X * Y) - fl (-fl (X + Y) * -fl (X + Y))) = e2 at *
  generalize fl (fl (X * Y) * -fl (X + Y)) = e3 at *
  generalize X * Y - (X + Y) * (X + Y) = E2 at *
  generalize X * Y * -(X + Y) = E3 at *
  have c1 := Cmono (fl_close hf hp (div_close (k := 10) (by norm_num) cE2) (B := 1 / 3200) (by
    rw [abs_div, abs_of_pos (by norm_num : (0 : ℝ) < 10)]; linarith)) (d := 1 / 100) (by norm_num)
  have c2 := Cmono (fl_close hf hp (mul_close hp cE2 cE2 bE2 bE2) (abs_mul_le bE2 bE2)) (d := 1 / 1000) (by norm_num)
  have b2 : |E2 * E2 / 24| ≤ 1 / 1000000 := by
    rw [abs_div, abs_of_pos (by norm_num : (0 : ℝ) < 24)]
    have := abs_mul_le bE2 bE2
    norm_num at this ⊢
    linarith
  have c3 := Cmono (fl_close hf hp (div_close (k := 24) (by norm_num) c2) b2) (d := 1 / 1000) (by norm_num)
  have b3 : |E3 / 14| ≤ 1 / 100000 := by
    rw [abs_div, abs_of_pos (by norm_num : (0 : ℝ) < 14)]
    linarith
  have c4 := Cmono (fl_close hf hp (div_close (k := 14) (by norm_num) cE3) b3) (d := 1 / 1000) (by norm_num)
  have bE23 := abs_mul_le bE2 bE3
  have c5 := Cmono (fl_close hf hp (mul_close hp cE2 cE3 bE2 bE3) bE23) (d := 1 / 1000) (by norm_num)
  have b44 : |(3 / 44 : ℝ)| ≤ 1 / 10 := by rw [abs_of_pos (by norm_num)]; norm_num
  have c6 := Cmono (const_close hf hp hq hpq b44) (d := 3 / 10) (by norm_num)
  have b7 := abs_mul_le bE23 b44
  have c7 := Cmono (fl_close hf hp (mul_close hp c5 c6 bE23 b44) b7) (d := 1 / 1000) (by norm_num)
  have d1 : |1 - E2 / 10| ≤ 1001 / 1000 := by
    have := abs_le.mp bE2
    rw [abs_le]; constructor <;> linarith
  have s1 := Cmono (fl_close hf hp (sub_close (refl_close 1) c1) d1) (d := 102 / 100) (by norm_num)
  have d2 : |1 - E2 / 10 + E2 * E2 / 24| ≤ 1002 / 1000 := (abs_add_le _ _).trans (by linarith)
  have s2 := Cmono (fl_close hf hp (add_close s1 c3) d2) (d := 204 / 100) (by norm_num)
  have d3 : |1 - E2 / 10 + E2 * E2 / 24 + E3 / 14| ≤ 1003 / 1000 := (abs_add_le _ _).trans (by linarith)
  have s3 := Cmono (fl_close hf hp (add_close s2 c4) d3) (d := 306 / 100) (by norm_num)
  have d4 : |1 - E2 / 10 + E2 * E2 / 24 + E3 / 14 - E2 * E3 * (3 / 44)| ≤ 1004 / 1000 := (abs_sub _ _).trans (by
    norm_num at b7 ⊢; linarith)
  exact Cmono (fl_close hf hp (sub_close s3 c7) d4) (by norm_num)

/-- The polynomial hardly depends on its arguments. -/
theorem poly_lip {X Y X' Y' h : ℝ} (hX : |X| ≤ 1 / 40) (hY : |Y| ≤ 1 / 40) (hX' : |X'| ≤ 1 / 40) (hY' : |Y'| ≤ 1 / 40) (hd : |X - X'| + |Y - Y'| ≤ h) :
    |polyR X Y - polyR X' Y'| ≤ h / 50 := by
  have h0 : 0 ≤ h := le_trans (by positivity) hd
  have dX : |X - X'| ≤ h := by linarith [abs_nonneg (Y - Y')]
  have dY : |Y - Y'| ≤ h := by linarith [abs_nonneg (X - X')]
  have bZ : |X + Y| ≤ 1 / 20 := (abs_add_le _ _).trans (by linarith)
  have bZ' : |X' + Y'| ≤ 1 / 20 := (abs_add_le _ _).trans (by linarith)
  have bXY : |X * Y| ≤ 1 / 1600 := (abs_mul_le hX hY).trans (by norm_num)
  have bXY' : |X' * Y'| ≤ 1 / 1600 := (abs_mul_le hX' hY').trans (by norm_num)
  have bE2 : |X * Y - (X + Y) * (X + Y)| ≤ 1 / 320 := (abs_sub _ _).trans (by linarith [abs_mul_le bZ bZ])
  have bE2' : |X' * Y' - (X' + Y') * (X' + Y')| ≤ 1 / 320 := (abs_sub _ _).trans (by linarith [abs_mul_le bZ' bZ'])
  have bE3 : |X * Y * -(X + Y)| ≤ 1 / 32000 := (abs_mul_le (B := 1 / 20) bXY (by rwa [abs_neg])).trans (by norm_num)
  have cZ : |(X + Y) - (X' + Y')| ≤ h := by
    rw [show (X + Y) - (X' + Y') = (X - X') + (Y - Y') by ring]
    exact (abs_add_le _ _).trans hd
  have cXY : |X * Y - X' * Y'| ≤ h / 40 := by
    rw [show X * Y - X' * Y' = (X - X') * Y + (Y - Y') * X' by ring]
    refine (abs_add_le _ _).trans ?_
    have t1 : |(X - X') * Y| ≤ |X - X'| * (1 / 40) := by rw [abs_mul]; gcongr
    have t2 : |(Y - Y') * X'| ≤ |Y - Y'| * (1 / 40) := by rw [abs_mul]; gcongr
    linarith
  have cE2 : |(X * Y - (X + Y) * (X + Y)) - (X' * Y' - (X' + Y') * (X' + Y'))| ≤ h / 8 := by
    rw [show (X * Y - (X + Y) * (X + Y)) - (X' * Y' - (X' + Y') * (X' + Y')) =
      (X * Y - X' * Y') - ((X + Y) - (X' + Y')) * ((X + Y) + (X' + Y')) by ring]
    refine (abs_sub _ _).trans ?_
    have := abs_mul_le cZ ((abs_add_le (X + Y) (X' + Y')).trans (add_le_add bZ bZ'))
    linarith
  have cE3 : |X * Y * -(X + Y) - X' * Y' * -(X' + Y')| ≤ h / 500 := by
    rw [show X * Y * -(X + Y) - X' * Y' * -(X' + Y') = -((X * Y - X' * Y') * (X + Y) + ((X + Y) - (X' + Y')) * (X' * Y')) by ring, abs_neg]
    refine (abs_add_le _ _).trans ?_
    have t1 := abs_mul_le cXY bZ
    have t2 := abs_mul_le cZ bXY'
    linarith
  unfold polyR
  generalize X * Y - (X + Y) * (X + Y) = E2 at *
  generalize X * Y * -(X + Y) = E3 at *
  generalize X' * Y' - (X' + Y') * (X' + Y') = E2' at *
  generalize X' * Y' * -(X' + Y') = E3' at *
  have t1 : |(E2 - E2') * (E2 + E2')| ≤ h / 8 * (1 / 320 + 1 / 320) := abs_mul_le cE2 ((abs_add_le _ _).trans (add_le_add bE2 bE2'))
  have t2 : |(E2 - E2') * E3| ≤ h / 8 * (1 / 32000) := abs_mul_le cE2 bE3
  have t3 : |(E3 - E3') * E2'| ≤ h / 500 * (1 / 320) := abs_mul_le cE3 bE2'
  obtain ⟨l1, r1⟩ := abs_le.mp t1
  obtain ⟨l2, r2⟩ := abs_le.mp t2
  obtain ⟨l3, r3⟩ := abs_le.mp t3
  obtain ⟨l4, r4⟩ := abs_le.mp cE2
  obtain ⟨l5, r5⟩ := abs_le.mp cE3
  rw [show 1 - E2 / 10 + E2 * E2 / 24 + E3 / 14 - E2 * E3 * (3 / 44) - (1 - E2' / 10 + E2' * E2' / 24 + E3' / 14 - E2' * E3' * (3 / 44)) =
    -(E2 - E2') / 10 + (E2 - E2') * (E2 + E2') / 24 + (E3 - E3') / 14 - ((E2 - E2') * E3 + (E3 - E3') * E2') * (3 / 44) by ring, abs_le]
  constructor <;> linarith

theorem polyR_bounds {X Y : ℝ} (hX : |X| ≤ 1 / 40) (hY : |Y| ≤ 1 / 40) : |polyR X Y - 1| ≤ 1 / 1000 := by
  have h := poly_lip hX hY (X' := 0) (Y' := 0) (by norm_num) (by norm_num) (h := 1 / 20) (by rw [sub_zero, sub_zero]; linarith)
  have : polyR 0 0 = 1 := by norm_num [polyR]
  rw [this] at h
  linarith

/-! ### The reduced variables -/

/-- The computed reduced variable against the exact one of the final arguments. -/
theorem reduced_close {A M a q d u w ε t D : ℝ} {n : ℕ} (hn : n ≤ 1000) (hu0 : 0 < u) (hu : u ≤ 1 / 16777216) (hA : 0 < A) (hM : 0 < M) (ha : 0 ≤ a)
    (haM : a ≤ 3 * M) (hAM : |M - A| ≤ 11 / 10 * ((3 + 2 * n : ℕ) * u) * A) (hwn : w ^ n ≤ 101 / 100) (hd : |A - a - q * d| ≤ 51 / 5 * (n * (w ^ n * u)) * M)
    (hε : ε ≤ 1 / 40) (hq : |q * d / A| ≤ ε) {δ1 δ2 δ3 : ℝ} (b1 : |δ1| ≤ u) (b2 : |δ2| ≤ u) (b3 : |δ3| ≤ u) (ht : t = q / A * (1 + δ1))
    (hD : D = d * (1 + δ2)) : |D * t * (1 + δ3) - (M - a) / M| ≤ (18 * n + 10) * u := by
  have hnr : (n : ℝ) ≤ 1000 := by exact_mod_cast hn
  have hMA : |M - A| ≤ 1 / 1000 * A := by
    refine hAM.trans ?_
    gcongr
    push_cast
    nlinarith
  have hM2 : M ≤ 1001 / 1000 * A := by have := (abs_le.mp hMA).2; linarith
  have hA2 : A ≤ 1002 / 1000 * M := by have := (abs_le.mp hMA).1; linarith
  have e : D * t * (1 + δ3) - (M - a) / M =
      q * d / A * ((1 + δ1) * (1 + δ2) * (1 + δ3) - 1) + (-(A - a - q * d) / A) + a / M * ((A - M) / A) := by
    rw [hD, ht]; field_simp; ring
  have t1 : |q * d / A * ((1 + δ1) * (1 + δ2) * (1 + δ3) - 1)| ≤ 1 / 40 * (4 * u) := by
    refine abs_mul_le (hq.trans hε) ?_
    rw [show (1 + δ1) * (1 + δ2) * (1 + δ3) - 1 = δ1 + δ2 + δ3 + (δ1 * δ2 + δ1 * δ3 + δ2 * δ3 + δ1 * δ2 * δ3) by ring]
    have p1 := abs_mul_le b1 b2
    have p2 := abs_mul_le b1 b3
    have p3 := abs_mul_le b2 b3
    have p4 := abs_mul_le p1 b3
    have huu : u * u ≤ 1 / 16777216 * u := by gcongr
    have huuu : u * u * u ≤ 1 / 16777216 * u * 1 := by gcongr; linarith
    obtain ⟨l1, r1⟩ := abs_le.mp b1
    obtain ⟨l2, r2⟩ := abs_le.mp b2
    obtain ⟨l3, r3⟩ := abs_le.mp b3
    obtain ⟨l4, r4⟩ := abs_le.mp p1
    obtain ⟨l5, r5⟩ := abs_le.mp p2
    obtain ⟨l6, r6⟩ := abs_le.mp p3
    obtain ⟨l7, r7⟩ := abs_le.mp p4
    rw [abs_le]
    constructor <;> linarith
  have t2 : |-(A - a - q * d) / A| ≤ 21 / 2 * n * u := by
    rw [abs_div, abs_neg, abs_of_pos hA, div_le_iff₀ hA]
    refine hd.trans ?_
    calc 51 / 5 * (n * (w ^ n * u)) * M ≤ 51 / 5 * (n * (101 / 100 * u)) * (1001 / 1000 * A) := by gcongr
      _ = 51 / 5 * (101 / 100) * (1001 / 1000) * (n * u * A) := by ring
      _ ≤ 21 / 2 * (n * u * A) := by gcongr; norm_num
      _ = _ := by ring
  have t3 : |a / M * ((A - M) / A)| ≤ 3 * (11 / 10 * ((3 + 2 * n : ℕ) * u)) := by
    refine abs_mul_le ?_ ?_
    · rw [abs_of_nonneg (by positivity), div_le_iff₀ hM]; exact haM
    · rw [abs_div, abs_of_pos hA, div_le_iff₀ hA, abs_sub_comm]; exact hAM
  rw [e]
  have s1 := abs_add_le (q * d / A * ((1 + δ1) * (1 + δ2) * (1 + δ3) - 1) + (-(A - a - q * d) / A)) (a / M * ((A - M) / A))
  have s2 := abs_add_le (q * d / A * ((1 + δ1) * (1 + δ2) * (1 + δ3) - 1)) (-(A - a - q * d) / A)
  have hnu : 0 ≤ (n : ℝ) * u := by positivity
  push_cast at t3
  refine s1.trans ?_
  have : (18 * (n : ℝ) + 10) * u = 18 * (n * u) + 10 * u := by ring
  rw [this]
  have : 3 * (11 / 10 * ((3 + 2 * (n : ℝ)) * u)) = 33 / 5 * (n * u) + 99 / 10 * u := by ring
  have : 21 / 2 * (n : ℝ) * u = 21 / 2 * (n * u) := by ring
  linarith

/-- The tolerance: `ε^6 = 3 EPS` with `EPS = 10^-6 eps`, `eps = 2·2^-p`. -/
theorem eps_tolerance (hp : 24 ≤ p) :
    ∃ ε : ℝ, 0 < ε ∧ ε ≤ 1 / 100 ∧ ε ^ 6 = 6 / 1000000 * (2 ^ p)⁻¹ ∧ (EPS (2 * (2 ^ p)⁻¹) * 3) ^ (-(1 / 6) : ℝ) = 1 / ε ∧
      72040 * (2 ^ p)⁻¹ ≤ ε := by
  have hu := unit24 hp
  have hu0 : (0 : ℝ) < (2 ^ p)⁻¹ := by positivity
  have hb : EPS (2 * ((2 : ℝ) ^ p)⁻¹) * 3 = 6 / 1000000 * (2 ^ p)⁻¹ := by unfold EPS; ring
  obtain ⟨ε, h0, -, h6, hK⟩ := tolerance (b := EPS (2 * ((2 : ℝ) ^ p)⁻¹) * 3) (by rw [hb]; positivity) (by rw [hb]; linarith)
  rw [hb] at h6
  refine ⟨ε, h0, ?_, h6, hK, ?_⟩
  · by_contra hc
    have : (1 / 100 : ℝ) ^ 6 < ε ^ 6 := pow_lt_pow_left₀ (not_le.mp hc) (by norm_num) (by norm_num)
    rw [h6] at this
    norm_num at this
    linarith
  · generalize ((2 : ℝ) ^ p)⁻¹ = u at *
    by_contra hc
    have h1 : ε ^ 6 < (72040 * u) ^ 6 := pow_lt_pow_left₀ (not_le.mp hc) h0.le (by norm_num)
    have h5 : u ^ 5 ≤ (1 / 16777216) ^ 5 := by gcongr
    have h7 : (72040 * u) ^ 6 = 72040 ^ 6 * u ^ 5 * u := by ring
    have h8 : 72040 ^ 6 * u ^ 5 * u ≤ 72040 ^ 6 * (1 / 16777216) ^ 5 * u := by gcongr
    rw [h6, h7] at h1
    norm_num at h8 h1
    linarith

end Verif.Carlson.Flt

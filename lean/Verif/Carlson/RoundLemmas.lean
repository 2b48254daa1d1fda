import Verif.Carlson.Accuracy
import Verif.Common.Round

/-! # Relative closeness of non-negative numbers -/

namespace Verif.Carlson.Flt

open Verif.Round MeasureTheory Set

/-- `a` and `b` agree up to a factor `w^k` both ways. -/
def Near (w : ℝ) (k : ℕ) (a b : ℝ) : Prop := a ≤ w ^ k * b ∧ b ≤ w ^ k * a

variable {w : ℝ} {j k : ℕ} {a b c d : ℝ}

theorem Near.symm (h : Near w k a b) : Near w k b a := ⟨h.2, h.1⟩

theorem Near.refl (a : ℝ) : Near w 0 a a := ⟨by simp, by simp⟩

theorem Near.mono (hw : 1 ≤ w) (h : Near w j a b) (hjk : j ≤ k) (ha : 0 ≤ a) (hb : 0 ≤ b) : Near w k a b :=
  ⟨h.1.trans (mul_le_mul_of_nonneg_right (pow_le_pow_right₀ hw hjk) hb), h.2.trans (mul_le_mul_of_nonneg_right (pow_le_pow_right₀ hw hjk) ha)⟩

theorem Near.trans (hw : 1 ≤ w) (h : Near w j a b) (h' : Near w k b c) : Near w (j + k) a c := by
  have hp : ∀ n, 0 ≤ w ^ n := fun n => pow_nonneg (by linarith) n
  constructor
  · calc a ≤ w ^ j * b := h.1
      _ ≤ w ^ j * (w ^ k * c) := mul_le_mul_of_nonneg_left h'.1 (hp j)
      _ = _ := by rw [pow_add]; ring
  · calc c ≤ w ^ k * b := h'.2
      _ ≤ w ^ k * (w ^ j * a) := mul_le_mul_of_nonneg_left h.2 (hp k)
      _ = _ := by rw [pow_add]; ring

theorem Near.add (h : Near w k a b) (h' : Near w k c d) : Near w k (a + c) (b + d) := by
  constructor
  · have := h.1; have := h'.1; linarith
  · have := h.2; have := h'.2; linarith

theorem Near.scale (h : Near w k a b) (hc : 0 ≤ c) : Near w k (a * c) (b * c) := by
  constructor
  · calc a * c ≤ w ^ k * b * c := mul_le_mul_of_nonneg_right h.1 hc
      _ = _ := by ring
  · calc b * c ≤ w ^ k * a * c := mul_le_mul_of_nonneg_right h.2 hc
      _ = _ := by ring

theorem Near.mul (hw : 1 ≤ w) (h : Near w j a b) (h' : Near w k c d) (hb : 0 ≤ b) (hc : 0 ≤ c) : Near w (j + k) (a * c) (b * d) := by
  have h1 := h.scale hc
  have h2 := h'.scale hb
  rw [mul_comm c b, mul_comm d b] at h2
  exact h1.trans hw h2

theorem Near.inv (h : Near w k a b) (ha : 0 < a) (hb : 0 < b) : Near w k a⁻¹ b⁻¹ := by
  constructor
  · rw [inv_le_iff_one_le_mul₀ ha, mul_assoc, mul_comm b⁻¹, ← mul_assoc, ← div_eq_mul_inv, le_div_iff₀ hb, one_mul]
    exact h.2
  · rw [inv_le_iff_one_le_mul₀ hb, mul_assoc, mul_comm a⁻¹, ← mul_assoc, ← div_eq_mul_inv, le_div_iff₀ ha, one_mul]
    exact h.1

theorem Near.sqrt (hw : 1 ≤ w) (h : Near w (2 * k) a b) : Near w k (√a) (√b) := by
  have hk : 0 ≤ w ^ k := pow_nonneg (by linarith) k
  have e : ∀ t : ℝ, √(w ^ (2 * k) * t) = w ^ k * √t := fun t => by
    rw [mul_comm 2 k, pow_mul, Real.sqrt_mul (sq_nonneg _), Real.sqrt_sq hk]
  constructor
  · rw [← e]; exact Real.sqrt_le_sqrt h.1
  · rw [← e]; exact Real.sqrt_le_sqrt h.2

theorem one_add_le_w {u : ℝ} (hu1 : u < 1) : 1 + u ≤ (1 - u)⁻¹ := by
  have h1 : 0 < 1 - u := by linarith
  rw [← one_div, le_div_iff₀ h1]
  nlinarith [sq_nonneg u]

theorem one_le_w {u : ℝ} (hu0 : 0 ≤ u) (hu1 : u < 1) : 1 ≤ (1 - u)⁻¹ := le_trans (by linarith) (one_add_le_w hu1)

/-- From relative errors to powers of `w = 1/(1-u)`. -/
theorem Near.of_abs {u : ℝ} (hu0 : 0 ≤ u) (hu1 : u < 1) (ha : 0 ≤ a) (hb : 0 ≤ b) (h : |a - b| ≤ k * u * b) (h' : |a - b| ≤ k * u * a) :
    Near (1 - u)⁻¹ k a b := by
  have hB : 1 + (k : ℝ) * u ≤ ((1 - u)⁻¹) ^ k :=
    (one_add_mul_le_pow (by linarith) k).trans (pow_le_pow_left₀ (by linarith) (one_add_le_w hu1) k)
  constructor
  · calc a ≤ (1 + k * u) * b := by linarith [(abs_le.mp h).2]
      _ ≤ _ := by gcongr
  · calc b ≤ (1 + k * u) * a := by linarith [(abs_le.mp h').1]
      _ ≤ _ := by gcongr

/-- From powers of `w` to relative errors. -/
theorem Near.abs_le {u : ℝ} (hu0 : 0 ≤ u) (hku : (k : ℝ) * u ≤ 1 / 11) (hu1 : u < 1) (hb : 0 ≤ b) (h : Near (1 - u)⁻¹ k a b) :
    |a - b| ≤ 11 / 10 * (k * u) * b := by
  have h1 : 0 < 1 - u := by linarith
  have hp : 0 < (1 - u) ^ k := pow_pos h1 k
  have hB : 1 - (k : ℝ) * u ≤ (1 - u) ^ k := by
    have := one_add_mul_le_pow (a := -u) (by linarith) k
    calc 1 - (k : ℝ) * u = 1 + k * -u := by ring
      _ ≤ _ := this
      _ = _ := by ring
  have hk0 : 0 ≤ (k : ℝ) * u := by positivity
  have e : ((1 - u)⁻¹) ^ k ≤ 1 + 11 / 10 * (k * u) := by
    rw [inv_pow, ← one_div, div_le_iff₀ hp]
    nlinarith
  have l : (1 - (k : ℝ) * u) * b ≤ a := by
    have h2 := h.2
    rw [inv_pow, inv_mul_eq_div, le_div_iff₀ hp] at h2
    calc _ ≤ (1 - u) ^ k * b := by gcongr
      _ ≤ _ := by linarith
  rw [_root_.abs_le]
  have := mul_nonneg hk0 hb
  constructor
  · linarith
  · have : a ≤ (1 + 11 / 10 * (k * u)) * b := h.1.trans (by gcongr)
    linarith

/-- One rounding. -/
theorem near_fl {p : ℕ} {fl : ℝ → ℝ} (hf : Nearest p fl) (hp : 1 ≤ p) (ha : 0 ≤ a) : Near (1 - (2 ^ p)⁻¹)⁻¹ 1 (fl a) a := by
  obtain ⟨δ, hδ, e⟩ := hf.factor hp a
  have hu : ((2 : ℝ) ^ p)⁻¹ ≤ 1 / 2 := by
    rw [inv_eq_one_div]
    apply one_div_le_one_div_of_le (by norm_num)
    calc (2 : ℝ) = 2 ^ 1 := by norm_num
      _ ≤ 2 ^ p := pow_le_pow_right₀ (by norm_num) hp
  obtain ⟨u, hud⟩ : ∃ u : ℝ, u = (2 ^ p)⁻¹ := ⟨_, rfl⟩
  have hu0 : 0 < u := by rw [hud]; positivity
  rw [← hud] at hδ hu ⊢
  obtain ⟨l, r⟩ := _root_.abs_le.mp hδ
  have h1 : 0 < 1 - u := by linarith
  rw [e, Near, pow_one]
  constructor
  · calc a * (1 + δ) ≤ a * (1 - u)⁻¹ := by
          gcongr
          exact (by linarith : 1 + δ ≤ 1 + u).trans (one_add_le_w (by linarith))
      _ = _ := mul_comm _ _
  · rw [inv_mul_eq_div, le_div_iff₀ h1]
    gcongr
    linarith

theorem fl_nonneg {p : ℕ} {fl : ℝ → ℝ} (hf : Nearest p fl) (hp : 1 ≤ p) (ha : 0 ≤ a) : 0 ≤ fl a := by
  obtain ⟨δ, hδ, e⟩ := hf.factor hp a
  have h1 : ((2 : ℝ) ^ p)⁻¹ ≤ 1 := inv_le_one_of_one_le₀ (one_le_pow₀ (by norm_num))
  rw [e]
  exact mul_nonneg ha (by linarith [(_root_.abs_le.mp hδ).1])

/-- Dividing a rounded number by 4 is exact. -/
theorem fl_div4 {p : ℕ} {fl : ℝ → ℝ} (hf : Nearest p fl) (a : ℝ) : fl (fl a / 4) = fl a / 4 := hf.self (by
  have := isFl_scale (hf.mem a) (-2)
  rwa [show ∀ z : ℝ, z * (2 : ℝ) ^ (-2 : ℤ) = z / 4 from fun z => by rw [zpow_neg]; norm_num; ring] at this)

/-! ### `R_F` -/

theorem RF_anti {x y z x' y' z' : ℝ} (h : Args x y z) (h' : Args x' y' z') (hx : x ≤ x') (hy : y ≤ y') (hz : z ≤ z') : RF x' y' z' ≤ RF x y z := by
  rw [RF, RF]
  apply mul_le_mul_of_nonneg_left _ (by norm_num)
  apply setIntegral_mono_on h'.integrable h.integrable measurableSet_Ioi
  intro t ht
  have ht : 0 < t := ht
  have := h.x0
  have := h.y0
  have := h.z0
  have p1 : 0 < √(t + x) := Real.sqrt_pos.mpr (by linarith)
  have p2 : 0 < √(t + y) := Real.sqrt_pos.mpr (by linarith)
  have p3 : 0 < √(t + z) := Real.sqrt_pos.mpr (by linarith)
  apply one_div_le_one_div_of_le (by positivity)
  gcongr

theorem RF_near_aux (hw : 1 ≤ w) {x y z x' y' z' : ℝ} (h : Args x y z) (h' : Args x' y' z') (hx : x ≤ w ^ (2 * k) * x') (hy : y ≤ w ^ (2 * k) * y')
    (hz : z ≤ w ^ (2 * k) * z') : RF x' y' z' ≤ w ^ k * RF x y z := by
  have hk : 0 < w ^ k := pow_pos (by linarith) k
  have h2 : 0 < w ^ (2 * k) := pow_pos (by linarith) _
  have hs : √(w ^ (2 * k)) = w ^ k := by rw [mul_comm 2 k, pow_mul, Real.sqrt_sq hk.le]
  have hargs : Args (w ^ (2 * k) * x') (w ^ (2 * k) * y') (w ^ (2 * k) * z') := by
    refine ⟨mul_nonneg h2.le h'.x0, mul_nonneg h2.le h'.y0, mul_nonneg h2.le h'.z0, ?_, ?_, ?_⟩ <;> rw [← mul_add]
    · exact mul_pos h2 h'.xy
    · exact mul_pos h2 h'.yz
    · exact mul_pos h2 h'.xz
  have := RF_anti h hargs hx hy hz
  rw [RF_scale _ _ _ _ h2, hs, div_le_iff₀ hk] at this
  linarith

theorem RF_near (hw : 1 ≤ w) {x y z x' y' z' : ℝ} (h : Args x y z) (h' : Args x' y' z') (hx : Near w (2 * k) x x') (hy : Near w (2 * k) y y')
    (hz : Near w (2 * k) z z') : Near w k (RF x y z) (RF x' y' z') :=
  ⟨RF_near_aux hw h' h hx.2 hy.2 hz.2, RF_near_aux hw h h' hx.1 hy.1 hz.1⟩

theorem RF_pos {x y z : ℝ} (h : Args x y z) : 0 < RF x y z := by
  have hS : 0 < x + y + z := isNonneg_args h
  refine lt_of_lt_of_le ?_ (RF_lower (M := x + y + z) h (by linarith [h.yz]) (by linarith [h.xz]) (by linarith [h.xy]) hS)
  have := Real.sqrt_pos.mpr hS
  positivity

end Verif.Carlson.Flt

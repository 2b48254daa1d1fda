import Verif.Carlson.LegendreSpec
import Verif.Carlson.GradProps
import Mathlib.MeasureTheory.Function.Jacobian

/-! # Legendre's integrals as Carlson's -/

namespace Verif.Carlson

open MeasureTheory Set Filter Topology Grad

theorem csc_sub_image {φ c : ℝ} (h0 : 0 < φ) (h1 : φ ≤ Real.pi / 2) (hc : c = 1 / Real.sin φ ^ 2) :
    (fun θ => 1 / Real.sin θ ^ 2 - c) '' Ioo 0 φ = Ioi 0 := by
  have hsφ : 0 < Real.sin φ := Real.sin_pos_of_pos_of_lt_pi h0 (by linarith [Real.pi_pos])
  have hc0 : 0 < c := by rw [hc]; positivity
  ext t
  constructor
  · rintro ⟨θ, ⟨t0, t1⟩, rfl⟩
    have hs : 0 < Real.sin θ := Real.sin_pos_of_pos_of_lt_pi t0 (by linarith [Real.pi_pos])
    have hlt : Real.sin θ < Real.sin φ := Real.sin_lt_sin_of_lt_of_le_pi_div_two (by linarith [Real.pi_pos]) h1 t1
    show 0 < 1 / Real.sin θ ^ 2 - c
    rw [hc, sub_pos]
    gcongr
  · intro ht
    have ht : 0 < t := ht
    have hq : 0 < √(t + c) := Real.sqrt_pos.mpr (by linarith)
    have hlt : 1 / √(t + c) < Real.sin φ := by
      have e : Real.sin φ = 1 / √c := by
        rw [hc, Real.sqrt_div zero_le_one, Real.sqrt_one, Real.sqrt_sq hsφ.le, one_div_one_div]
      rw [e]
      have : √c < √(t + c) := Real.sqrt_lt_sqrt hc0.le (by linarith)
      have : 0 < √c := Real.sqrt_pos.mpr hc0
      gcongr
    have hle : 1 / √(t + c) ≤ 1 := hlt.le.trans (Real.sin_le_one φ)
    have hpos : 0 < 1 / √(t + c) := by positivity
    have hsin : Real.sin (Real.arcsin (1 / √(t + c))) = 1 / √(t + c) := Real.sin_arcsin (by linarith) hle
    refine ⟨Real.arcsin (1 / √(t + c)), ⟨Real.arcsin_pos.mpr hpos, ?_⟩, ?_⟩
    · rw [Real.arcsin_lt_iff_lt_sin' ⟨by linarith [Real.pi_pos], h1⟩]
      exact hlt
    · show 1 / Real.sin (Real.arcsin (1 / √(t + c))) ^ 2 - c = t
      rw [hsin, div_pow, one_pow, one_div_one_div, Real.sq_sqrt (by linarith)]
      ring

/-- The substitution `t + c = csc² θ`. -/
theorem legendre_subst {φ c m : ℝ} (h0 : 0 < φ) (h1 : φ ≤ Real.pi / 2) (hc : c = 1 / Real.sin φ ^ 2) (hm : m ≤ c) (w : ℝ → ℝ) :
    ∫ θ in (0 : ℝ)..φ, w (Real.sin θ ^ 2) / √(1 - m * Real.sin θ ^ 2) =
      1 / 2 * J (c - 1) (c - m) c fun t => w (1 / (t + c)) := by
  have hsφ : 0 < Real.sin φ := Real.sin_pos_of_pos_of_lt_pi h0 (by linarith [Real.pi_pos])
  have hc0 : 0 < c := by rw [hc]; positivity
  have hsin : ∀ θ ∈ Ioo 0 φ, 0 < Real.sin θ := fun θ hθ =>
    Real.sin_pos_of_pos_of_lt_pi hθ.1 (by linarith [Real.pi_pos, hθ.2])
  have hcos : ∀ θ ∈ Ioo 0 φ, 0 < Real.cos θ := fun θ hθ =>
    Real.cos_pos_of_mem_Ioo ⟨by linarith [Real.pi_pos, hθ.1], by linarith [hθ.2]⟩
  rw [J, ← csc_sub_image h0 h1 hc, integral_image_eq_integral_abs_deriv_smul (f' := fun θ => -(2 * Real.cos θ / Real.sin θ ^ 3))
    measurableSet_Ioo, intervalIntegral.integral_of_le h0.le, integral_Ioc_eq_integral_Ioo, ← MeasureTheory.integral_const_mul]
  · apply setIntegral_congr_fun measurableSet_Ioo
    intro θ hθ
    have hs := hsin θ hθ
    have hk := hcos θ hθ
    have hlt : Real.sin θ < Real.sin φ := Real.sin_lt_sin_of_lt_of_le_pi_div_two (by linarith [Real.pi_pos, hθ.1]) h1 hθ.2
    simp only [smul_eq_mul, S]
    have hp : 0 < 1 - m * Real.sin θ ^ 2 := by
      have : c * Real.sin θ ^ 2 < 1 := by
        rw [hc, one_div_mul_eq_div, div_lt_one (by positivity)]
        gcongr
      nlinarith [sq_nonneg (Real.sin θ)]
    have e1 : 1 / Real.sin θ ^ 2 - c + (c - 1) = (Real.cos θ / Real.sin θ) ^ 2 := by
      rw [div_pow, Real.cos_sq']
      field_simp
      ring
    have e2 : 1 / Real.sin θ ^ 2 - c + (c - m) = (1 - m * Real.sin θ ^ 2) / Real.sin θ ^ 2 := by
      field_simp
      ring
    have e3 : 1 / Real.sin θ ^ 2 - c + c = (1 / Real.sin θ) ^ 2 := by
      rw [div_pow, one_pow]
      ring
    have e4 : 1 / (1 / Real.sin θ ^ 2 - c + c) = Real.sin θ ^ 2 := by
      rw [sub_add_cancel, one_div_one_div]
    rw [e4, e1, e2, e3, Real.sqrt_sq (by positivity), Real.sqrt_sq (by positivity), Real.sqrt_div hp.le, Real.sqrt_sq hs.le,
      abs_neg, abs_of_pos (by positivity)]
    have : 0 < √(1 - m * Real.sin θ ^ 2) := Real.sqrt_pos.mpr hp
    field_simp
  · intro θ hθ
    have hs := hsin θ hθ
    have hp : HasDerivAt (fun θ => Real.sin θ ^ 2) (2 * Real.sin θ * Real.cos θ) θ := by
      simpa using (Real.hasDerivAt_sin θ).fun_pow 2
    have := ((hasDerivAt_const θ (1 : ℝ)).div hp (by positivity)).sub_const c
    refine (this.congr_deriv ?_).hasDerivWithinAt
    field_simp
    ring
  · intro a ha b hb hab
    have hsa := hsin a ha
    have hsb := hsin b hb
    have h : 1 / Real.sin a ^ 2 - c = 1 / Real.sin b ^ 2 - c := hab
    have h2 : Real.sin a ^ 2 = Real.sin b ^ 2 := by
      have : 1 / Real.sin a ^ 2 = 1 / Real.sin b ^ 2 := by linarith
      rw [div_eq_div_iff (by positivity) (by positivity)] at this
      linarith
    have h3 : Real.sin a = Real.sin b := by
      rwa [sq_eq_sq₀ hsa.le hsb.le] at h2
    exact Real.injOn_sin ⟨by linarith [Real.pi_pos, ha.1], by linarith [ha.2]⟩ ⟨by linarith [Real.pi_pos, hb.1], by linarith [hb.2]⟩ h3

/-- `φ ∈ (0, π/2]` and `m sin² φ ≤ 1`, not both with equality at `φ = π/2`: the integrals are finite. -/
structure LArgs (φ m : ℝ) : Prop where
  pos : 0 < φ
  le : φ ≤ Real.pi / 2
  m_le : m * Real.sin φ ^ 2 ≤ 1
  ne : φ = Real.pi / 2 → m ≠ 1

namespace LArgs

variable {φ m : ℝ}

theorem sin_pos (h : LArgs φ m) : 0 < Real.sin φ :=
  Real.sin_pos_of_pos_of_lt_pi h.pos (by linarith [Real.pi_pos, h.le])

theorem args (h : LArgs φ m) : Args (1 / Real.sin φ ^ 2 - 1) (1 / Real.sin φ ^ 2 - m) (1 / Real.sin φ ^ 2) := by
  have hs := h.sin_pos
  have h2 : Real.sin φ ^ 2 ≤ 1 := by nlinarith [Real.sin_sq_add_cos_sq φ, sq_nonneg (Real.cos φ)]
  have c1 : 1 ≤ 1 / Real.sin φ ^ 2 := by rw [le_div_iff₀ (by positivity)]; linarith
  have cm : m ≤ 1 / Real.sin φ ^ 2 := by rw [le_div_iff₀ (by positivity)]; exact h.m_le
  refine ⟨by linarith, by linarith, by linarith, ?_, by linarith, by linarith⟩
  by_contra hn
  have e1 : 1 / Real.sin φ ^ 2 = 1 := by linarith
  have e2 : m = 1 := by linarith
  refine h.ne ?_ e2
  have e3 : Real.sin φ ^ 2 = 1 := by
    rw [div_eq_iff (by positivity)] at e1
    linarith
  have e4 : Real.sin φ = 1 := by nlinarith
  by_contra hne
  have hlt : φ < Real.pi / 2 := lt_of_le_of_ne h.le hne
  have := Real.sin_lt_sin_of_lt_of_le_pi_div_two (by linarith [Real.pi_pos, h.pos]) le_rfl hlt
  rw [Real.sin_pi_div_two] at this
  linarith

theorem m_le' (h : LArgs φ m) : m ≤ 1 / Real.sin φ ^ 2 := by
  have hs := h.sin_pos
  rw [le_div_iff₀ (by positivity)]; exact h.m_le

theorem c_pos (h : LArgs φ m) : 0 < 1 / Real.sin φ ^ 2 := by
  have hs := h.sin_pos
  positivity

theorem F_eq (h : LArgs φ m) :
    legF φ m = RF (1 / Real.sin φ ^ 2 - 1) (1 / Real.sin φ ^ 2 - m) (1 / Real.sin φ ^ 2) := by
  rw [legF, legendre_subst h.pos h.le rfl h.m_le' fun _ => 1, RF_eq_J]

theorem D_eq (h : LArgs φ m) :
    legD φ m = RD (1 / Real.sin φ ^ 2 - 1) (1 / Real.sin φ ^ 2 - m) (1 / Real.sin φ ^ 2) / 3 := by
  rw [legD, legendre_subst h.pos h.le rfl h.m_le' fun s => s, RD_eq_J]
  ring

theorem E_eq (h : LArgs φ m) : legE φ m = legF φ m - m * legD φ m := by
  have hs := h.sin_pos
  have e : legE φ m = ∫ θ in (0 : ℝ)..φ, (fun s => 1 - m * s) (Real.sin θ ^ 2) / √(1 - m * Real.sin θ ^ 2) := by
    rw [legE]
    congr 1
    funext θ
    exact (Real.div_sqrt).symm
  rw [e, legendre_subst h.pos h.le rfl h.m_le' fun s => 1 - m * s, h.F_eq, h.D_eq, RF_eq_J, RD_eq_J,
    J_sub (w := fun _ => 1) (JI_one h.args) ((JI_inv h.args h.c_pos).const_mul m), J_const_mul]
  ring

theorem Pi_eq (h : LArgs φ m) {n : ℝ} (hn : n * Real.sin φ ^ 2 < 1) :
    legPi n φ m = legF φ m + n / 3 * RJ (1 / Real.sin φ ^ 2 - 1) (1 / Real.sin φ ^ 2 - m) (1 / Real.sin φ ^ 2)
      (1 / Real.sin φ ^ 2 - n) := by
  have hs := h.sin_pos
  have hn' : 0 < 1 / Real.sin φ ^ 2 - n := by
    rw [sub_pos, lt_div_iff₀ (by positivity)]; exact hn
  have e : legPi n φ m = ∫ θ in (0 : ℝ)..φ, (fun s => 1 / (1 - n * s)) (Real.sin θ ^ 2) / √(1 - m * Real.sin θ ^ 2) := by
    rw [legPi]
    congr 1
    funext θ
    rw [div_div]
  rw [e, legendre_subst h.pos h.le rfl h.m_le' fun s => 1 / (1 - n * s), h.F_eq, RF_eq_J, RJ_eq_J]
  have k : (J (1 / Real.sin φ ^ 2 - 1) (1 / Real.sin φ ^ 2 - m) (1 / Real.sin φ ^ 2) fun t =>
      1 / (1 - n * (1 / (t + 1 / Real.sin φ ^ 2)))) =
      (J (1 / Real.sin φ ^ 2 - 1) (1 / Real.sin φ ^ 2 - m) (1 / Real.sin φ ^ 2) fun _ => 1) +
      n * J (1 / Real.sin φ ^ 2 - 1) (1 / Real.sin φ ^ 2 - m) (1 / Real.sin φ ^ 2) fun t => 1 / (t + (1 / Real.sin φ ^ 2 - n)) := by
    rw [← J_const_mul, ← J_add (JI_one h.args) ((JI_inv h.args hn').const_mul n)]
    apply J_congr
    intro t ht
    have hc := h.c_pos
    generalize 1 / Real.sin φ ^ 2 = c at *
    have h1 : 0 < t + c := by linarith
    have h2 : 0 < t + (c - n) := by linarith
    have h3 : 1 - n * (1 / (t + c)) = (t + (c - n)) / (t + c) := by field_simp; ring
    rw [h3]
    field_simp
    ring
  rw [k]
  ring

end LArgs

end Verif.Carlson

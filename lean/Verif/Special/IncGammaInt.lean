import Verif.Special.IncGammaSpec
import Mathlib.MeasureTheory.Integral.ExpDecay

/-!
# The integrals `K(p,q) = ∫₀^∞ e^(-xs) s^p (1+s)^q ds` behind the continued fraction of `Q(a,x)`
-/

open Real MeasureTheory Set Filter Topology

namespace Verif.Special

noncomputable def cfKern (x : ℝ) (p : ℕ) (q s : ℝ) : ℝ := exp (-x * s) * s ^ p * (1 + s) ^ q

/-- `K(p,q)`. -/
noncomputable def cfK (x : ℝ) (p : ℕ) (q : ℝ) : ℝ := ∫ s in Ioi (0 : ℝ), cfKern x p q s

theorem cfKern_nonneg (x : ℝ) (p : ℕ) (q : ℝ) {s : ℝ} (hs : 0 ≤ s) : 0 ≤ cfKern x p q s := by
  have := rpow_nonneg (by linarith : 0 ≤ 1 + s) q
  unfold cfKern; positivity

theorem cfKern_bound {x : ℝ} (hx : 0 < x) (p : ℕ) (q : ℝ) :
    ∀ᶠ s in atTop, cfKern x p q s ≤ exp (x / 2) * exp (-(x / 2) * s) := by
  have h1 := tendsto_rpow_mul_exp_neg_mul_atTop_nhds_zero (p + q) (x / 2) (by linarith)
  have h2 : Tendsto (fun s : ℝ => 1 + s) atTop atTop := tendsto_atTop_add_const_left _ _ tendsto_id
  have h3 := (h1.comp h2).eventually (gt_mem_nhds one_pos)
  filter_upwards [h3, eventually_ge_atTop 0] with s hs h0
  simp only [Function.comp_apply] at hs
  have hs1 : 0 < 1 + s := by linarith
  have h4 : s ^ p ≤ (1 + s) ^ (p : ℝ) := by
    rw [rpow_natCast]; exact pow_le_pow_left₀ h0 (by linarith) p
  have h5 : s ^ p * (1 + s) ^ q ≤ (1 + s) ^ (p + q) := by
    rw [rpow_add hs1]; exact mul_le_mul_of_nonneg_right h4 (rpow_nonneg hs1.le _)
  have h6 : (1 + s) ^ (p + q) ≤ exp (x / 2 * (1 + s)) := by
    have e : exp (-(x / 2) * (1 + s)) = (exp (x / 2 * (1 + s)))⁻¹ := by rw [← exp_neg]; ring_nf
    rw [e, ← div_eq_mul_inv, div_lt_one (exp_pos _)] at hs
    exact hs.le
  unfold cfKern
  rw [mul_assoc]
  refine (mul_le_mul_of_nonneg_left (h5.trans h6) (exp_pos _).le).trans ?_
  rw [← exp_add, ← exp_add]
  exact exp_le_exp.2 (by ring_nf; exact le_rfl)

theorem cfKern_continuousOn (x : ℝ) (p : ℕ) (q : ℝ) : ContinuousOn (cfKern x p q) (Ici 0) := by
  refine ContinuousOn.mul (by fun_prop) fun s hs => ?_
  have hs0 : (0 : ℝ) ≤ s := hs
  exact ((continuousAt_rpow_const (1 + s) q (Or.inl (by linarith))).comp
    (f := fun s => 1 + s) (by fun_prop)).continuousWithinAt

theorem cfKern_integrableOn {x : ℝ} (hx : 0 < x) (p : ℕ) (q : ℝ) :
    IntegrableOn (cfKern x p q) (Ioi 0) := by
  refine integrable_of_isBigO_exp_neg (b := x / 2) (by linarith) (cfKern_continuousOn x p q) ?_
  refine Asymptotics.IsBigO.of_bound (exp (x / 2)) ?_
  filter_upwards [cfKern_bound hx p q, eventually_ge_atTop 0] with s hs h0
  rw [norm_of_nonneg (cfKern_nonneg x p q h0), norm_of_nonneg (exp_pos _).le]
  exact hs

theorem cfKern_tendsto {x : ℝ} (hx : 0 < x) (p : ℕ) (q : ℝ) :
    Tendsto (cfKern x p q) atTop (𝓝 0) := by
  have h1 : Tendsto (fun s => exp (x / 2) * exp (-(x / 2) * s)) atTop (𝓝 0) := by
    have : Tendsto (fun s : ℝ => -(x / 2) * s) atTop atBot :=
      tendsto_id.const_mul_atTop_of_neg (by linarith)
    simpa using (tendsto_exp_atBot.comp this).const_mul (exp (x / 2))
  refine squeeze_zero' ?_ (cfKern_bound hx p q) h1
  filter_upwards [eventually_ge_atTop 0] with s h0
  exact cfKern_nonneg x p q h0

theorem cfK_nonneg (x : ℝ) (p : ℕ) (q : ℝ) : 0 ≤ cfK x p q :=
  setIntegral_nonneg measurableSet_Ioi fun _ hs => cfKern_nonneg x p q (le_of_lt hs)

/-- `K(p,q) + K(p+1,q) = K(p,q+1)`. -/
theorem cfK_add {x : ℝ} (hx : 0 < x) (p : ℕ) (q : ℝ) :
    cfK x p q + cfK x (p + 1) q = cfK x p (q + 1) := by
  rw [cfK, cfK, cfK, ← integral_add (cfKern_integrableOn hx p q) (cfKern_integrableOn hx (p + 1) q)]
  refine setIntegral_congr_fun measurableSet_Ioi fun s hs => ?_
  have hs0 : (0 : ℝ) < s := hs
  simp only [cfKern]
  rw [rpow_add_one (by linarith : (1 : ℝ) + s ≠ 0), pow_succ]
  ring

theorem cfKern_hasDerivAt (x : ℝ) (p : ℕ) (q : ℝ) {s : ℝ} (hs : 0 < s) :
    HasDerivAt (cfKern x p q)
      (-x * cfKern x p q s + p * (exp (-x * s) * s ^ (p - 1) * (1 + s) ^ q) +
        q * cfKern x p (q - 1) s) s := by
  have h1 : HasDerivAt (fun s : ℝ => exp (-x * s)) (exp (-x * s) * -x) s := by
    simpa using ((hasDerivAt_id s).const_mul (-x)).exp
  have h2 := hasDerivAt_pow p s
  have h3 : HasDerivAt (fun s : ℝ => (1 + s) ^ q) (1 * q * (1 + s) ^ (q - 1)) s := by
    have := ((hasDerivAt_id s).const_add 1).rpow_const (p := q) (Or.inl (by simp; linarith))
    simpa using this
  refine ((h1.mul h2).mul h3).congr_deriv ?_
  simp only [cfKern, Pi.mul_apply]
  ring

/-- Integration by parts. -/
theorem cfK_parts {x : ℝ} (hx : 0 < x) (p : ℕ) (q : ℝ) :
    -x * cfK x (p + 1) q + (p + 1) * cfK x p q + q * cfK x (p + 1) (q - 1) = 0 := by
  have h := integral_Ioi_of_hasDerivAt_of_tendsto (f := cfKern x (p + 1) q)
    (f' := fun s => -x * cfKern x (p + 1) q s + (p + 1) * cfKern x p q s +
        q * cfKern x (p + 1) (q - 1) s) (a := 0) (m := 0)
    ((cfKern_continuousOn x (p + 1) q) 0 (mem_Ici.2 le_rfl))
    (fun s hs => by simpa [cfKern] using cfKern_hasDerivAt x (p + 1) q hs)
    ((((cfKern_integrableOn hx (p + 1) q).const_mul _).add
      ((cfKern_integrableOn hx p q).const_mul _)).add
      ((cfKern_integrableOn hx (p + 1) (q - 1)).const_mul _))
    (cfKern_tendsto hx (p + 1) q)
  rw [integral_add, integral_add, integral_const_mul, integral_const_mul, integral_const_mul] at h
  · simpa [cfKern, cfK] using h
  · exact (cfKern_integrableOn hx (p + 1) q).const_mul _
  · exact (cfKern_integrableOn hx p q).const_mul _
  · exact ((cfKern_integrableOn hx (p + 1) q).const_mul _).add
      ((cfKern_integrableOn hx p q).const_mul _)
  · exact (cfKern_integrableOn hx (p + 1) (q - 1)).const_mul _

theorem cfK_parts_zero {x : ℝ} (hx : 0 < x) (q : ℝ) :
    -x * cfK x 0 q + q * cfK x 0 (q - 1) = -1 := by
  have h := integral_Ioi_of_hasDerivAt_of_tendsto (f := cfKern x 0 q)
    (f' := fun s => -x * cfKern x 0 q s + q * cfKern x 0 (q - 1) s) (a := 0) (m := 0)
    ((cfKern_continuousOn x 0 q) 0 (mem_Ici.2 le_rfl))
    (fun s hs => by simpa [cfKern] using cfKern_hasDerivAt x 0 q hs)
    (((cfKern_integrableOn hx 0 q).const_mul _).add
      ((cfKern_integrableOn hx 0 (q - 1)).const_mul _))
    (cfKern_tendsto hx 0 q)
  rw [integral_add, integral_const_mul, integral_const_mul] at h
  · simpa [cfKern, cfK] using h
  · exact (cfKern_integrableOn hx 0 q).const_mul _
  · exact (cfKern_integrableOn hx 0 (q - 1)).const_mul _

/-- `Q(a,x) = x^a e^(-x)/Γ(a) · K(0, a-1)`. -/
theorem incQ_eq_cfK {a x : ℝ} (hx : 0 < x) :
    incQ a x = x ^ a * exp (-x) / Gamma a * cfK x 0 (a - 1) := by
  have h1 := integral_comp_mul_left_Ioi' (fun t : ℝ => t ^ (a - 1) * exp (-t)) 1 hx
  rw [mul_one, smul_eq_mul] at h1
  have h2 := (measurePreserving_add_right volume (1 : ℝ)).setIntegral_preimage_emb
    (MeasurableEquiv.addRight (1 : ℝ)).measurableEmbedding
    (fun u : ℝ => (x * u) ^ (a - 1) * exp (-(x * u))) (Ioi 1)
  have e1 : (fun s : ℝ => s + 1) ⁻¹' Ioi 1 = Ioi 0 := by ext s; simp
  rw [e1] at h2
  rw [incQ, ← h1, ← h2]
  have e2 : ∫ s in Ioi (0 : ℝ), (x * (s + 1)) ^ (a - 1) * exp (-(x * (s + 1))) =
      x ^ (a - 1) * exp (-x) * cfK x 0 (a - 1) := by
    rw [cfK, ← integral_const_mul]
    refine setIntegral_congr_fun measurableSet_Ioi fun s hs => ?_
    have hs0 : (0 : ℝ) < s := hs
    simp only [cfKern, pow_zero, mul_one]
    rw [mul_rpow hx.le (by linarith), show -(x * (s + 1)) = -x + -x * s by ring, exp_add,
      add_comm s 1]
    ring
  rw [e2]
  have e3 : x ^ a = x * x ^ (a - 1) := by
    rw [rpow_sub_one hx.ne']; field_simp
  rw [e3]; ring

end Verif.Special

import Verif.Ellred.Leibniz
import Verif.Ellred.Model
import Mathlib.Analysis.Calculus.ParametricIntegral
import Mathlib.Analysis.SpecialFunctions.ImproperIntegrals

/-! # Differentiating Carlson's integrals with complex arguments -/

namespace Verif.Ellred

open MeasureTheory Set Filter Topology Verif.Carlson

/-- `w + t` stays off the cut and grows, for all `t ≥ 0`. -/
def Far (c : ℝ) (w : ℂ) : Prop := ∀ t : ℝ, 0 ≤ t → w + (t : ℂ) ∈ Complex.slitPlane ∧ c * (1 + t) ≤ ‖w + (t : ℂ)‖

theorem slit_add {w : ℂ} (hw : w ∈ Complex.slitPlane) {t : ℝ} (ht : 0 ≤ t) : w + (t : ℂ) ∈ Complex.slitPlane := by
  rw [Complex.mem_slitPlane_iff] at hw ⊢
  simp only [Complex.add_re, Complex.ofReal_re, Complex.add_im, Complex.ofReal_im, add_zero]
  exact hw.imp (fun h => by linarith) id

theorem exists_far {w : ℂ} (hw : w ∈ Complex.slitPlane) : ∃ c > 0, ∀ᶠ v in 𝓝 w, Far c v := by
  obtain ⟨c, c0, hc⟩ : ∃ c > 0, ∀ t : ℝ, 0 ≤ t → c * (1 + t) ≤ ‖w + (t : ℂ)‖ := by
    set M := ‖w‖ with hM
    have hM0 : 0 ≤ M := norm_nonneg w
    have cont : ContinuousOn (fun t : ℝ => ‖w + (t : ℂ)‖) (Icc 0 (2 * M + 1)) := by fun_prop
    obtain ⟨x, hx, hmin⟩ := isCompact_Icc.exists_isMinOn ⟨0, ⟨le_rfl, by linarith⟩⟩ cont
    have hm : 0 < ‖w + (x : ℂ)‖ := norm_pos_iff.mpr (Complex.slitPlane_ne_zero (slit_add hw hx.1))
    set m := ‖w + (x : ℂ)‖
    refine ⟨min (1 / 4) (m / (2 * M + 2)), lt_min (by norm_num) (by positivity), fun t ht => ?_⟩
    by_cases h : t ≤ 2 * M + 1
    · have h1 : m ≤ ‖w + (t : ℂ)‖ := hmin ⟨ht, h⟩
      refine le_trans ?_ h1
      calc min (1 / 4) (m / (2 * M + 2)) * (1 + t) ≤ m / (2 * M + 2) * (2 * M + 2) := by
            refine mul_le_mul (min_le_right _ _) (by linarith) (by linarith) (by positivity)
        _ = m := by field_simp
    · rw [not_le] at h
      have h1 : t - M ≤ ‖w + (t : ℂ)‖ := by
        have := norm_sub_norm_le (t : ℂ) (-w)
        rw [norm_neg, Complex.norm_real, Real.norm_of_nonneg ht, sub_neg_eq_add, add_comm (t : ℂ)] at this
        exact this
      have h2 : min (1 / 4) (m / (2 * M + 2)) * (1 + t) ≤ 1 / 4 * (1 + t) := mul_le_mul_of_nonneg_right (min_le_left _ _) (by linarith)
      linarith
  refine ⟨c / 2, by linarith, ?_⟩
  filter_upwards [Complex.isOpen_slitPlane.mem_nhds hw, Metric.ball_mem_nhds w (show 0 < c / 2 by linarith)] with v h1 h2 t ht
  refine ⟨slit_add h1 ht, ?_⟩
  have h3 := hc t ht
  rw [Metric.mem_ball, dist_comm, dist_eq_norm] at h2
  have h4 : ‖w + (t : ℂ)‖ ≤ ‖v + (t : ℂ)‖ + ‖w - v‖ := by
    have := norm_add_le (v + (t : ℂ)) (w - v)
    rwa [show v + (t : ℂ) + (w - v) = w + t by ring] at this
  nlinarith

/-- The size of a product of powers. -/
theorem powProd_le {n : ℕ} {q : Fin n → ℝ} (hq : ∀ i, 0 ≤ q i) {c : Fin n → ℝ} (hc : ∀ i, 0 < c i) {w : Fin n → ℂ} (hw : ∀ i, Far (c i) (w i)) {t : ℝ} (ht : 0 ≤ t) :
    ‖powProd (fun i => ((-q i : ℝ) : ℂ)) w t‖ ≤ (∏ i, c i ^ (-q i)) * (1 + t) ^ (-∑ i, q i) := by
  rw [powProd, norm_prod]
  have h1 : 0 < 1 + t := by linarith
  have e : (1 + t) ^ (-∑ i, q i) = ∏ i, (1 + t) ^ (-q i) := by
    rw [← Finset.sum_neg_distrib, Real.rpow_sum_of_pos h1]
  rw [e, ← Finset.prod_mul_distrib]
  refine Finset.prod_le_prod (fun i _ => norm_nonneg _) fun i _ => ?_
  rw [Complex.norm_cpow_real, ← Real.mul_rpow (hc i).le h1.le]
  exact Real.rpow_le_rpow_of_nonpos (mul_pos (hc i) h1) ((hw i) t ht).2 (by linarith [hq i])

theorem integrable_pow {p C : ℝ} (hp : 1 < p) : IntegrableOn (fun t : ℝ => C * (1 + t) ^ (-p)) (Ioi 0) := by
  have := (integrableOn_add_rpow_Ioi_of_lt (a := -p) (c := 0) (m := 1) (by linarith) (by norm_num)).const_mul C
  simp only [add_comm _ (1 : ℝ)] at this
  exact this

theorem powProd_cont {n : ℕ} (e : Fin n → ℂ) {w : Fin n → ℂ} (hw : ∀ i, w i ∈ Complex.slitPlane) : ContinuousOn (powProd e w) (Ioi 0) := by
  refine continuousOn_finset_prod _ fun i _ => ContinuousOn.cpow_const (by fun_prop) fun t ht => slit_add (hw i) (le_of_lt ht)

theorem Far.slit {c : ℝ} {w : ℂ} (h : Far c w) : w ∈ Complex.slitPlane := by simpa using (h 0 le_rfl).1

/-- The products of powers are integrable. -/
theorem powProd_integrable {n : ℕ} {q : Fin n → ℝ} (hq : ∀ i, 0 ≤ q i) (hQ : 1 < ∑ i, q i) {w : Fin n → ℂ} (hw : ∀ i, w i ∈ Complex.slitPlane) :
    IntegrableOn (powProd (fun i => ((-q i : ℝ) : ℂ)) w) (Ioi 0) := by
  choose c c0 hc using fun i => exists_far (hw i)
  refine Integrable.mono' (integrable_pow (C := ∏ i, c i ^ (-q i)) hQ) ((powProd_cont _ hw).aestronglyMeasurable measurableSet_Ioi) ?_
  refine (ae_restrict_iff' measurableSet_Ioi).mpr (ae_of_all _ fun t ht => ?_)
  exact powProd_le hq c0 (fun i => (hc i).self_of_nhds) (le_of_lt ht)

/-- The exponents with the `j`-th lowered by one. -/
def lower {n : ℕ} (q : Fin n → ℝ) (j : Fin n) : Fin n → ℝ := fun i => q i + if i = j then 1 else 0

/-- The derivative of the integral of a product of powers along a path of its arguments. -/
theorem powInt_deriv {n : ℕ} {q : Fin n → ℝ} (hq : ∀ i, 0 ≤ q i) (hQ : 1 < ∑ i, q i) {a : ℝ → Fin n → ℂ} {a' : Fin n → ℂ} {s0 : ℝ} (ha : HasDerivAt a a' s0)
    (hs : ∀ i, a s0 i ∈ Complex.slitPlane) :
    HasDerivAt (fun s => ∫ t in Ioi (0 : ℝ), powProd (fun i => ((-q i : ℝ) : ℂ)) (a s) t)
      (∑ j, a' j * (-q j * ∫ t in Ioi (0 : ℝ), powProd (fun i => ((-lower q j i : ℝ) : ℂ)) (a s0) t)) s0 := by
  choose c c0 hc using fun i => exists_far (hs i)
  set S : Set (Fin n → ℂ) := {w | ∀ i, Far (c i) (w i)} with hS
  have hSn : S ∈ 𝓝 (a s0) := by
    refine eventually_all.mpr fun i => ?_
    exact (continuous_apply i).continuousAt.eventually (hc i)
  have hl : ∀ j i, 0 ≤ lower q j i := fun j i => add_nonneg (hq i) (by split <;> norm_num)
  have hsum : ∀ j, ∑ i, lower q j i = (∑ i, q i) + 1 := fun j => by simp [lower, Finset.sum_add_distrib]
  have hint : ∀ j, IntegrableOn (powProd (fun i => ((-lower q j i : ℝ) : ℂ)) (a s0)) (Ioi 0) := fun j =>
    powProd_integrable (hl j) (by rw [hsum]; linarith) hs
  set f' : (Fin n → ℂ) → ℝ → (Fin n → ℂ) →L[ℂ] ℂ := fun w t =>
    ∑ j, (-q j * powProd (fun i => ((-lower q j i : ℝ) : ℂ)) w t) • ContinuousLinearMap.proj (R := ℂ) (φ := fun _ : Fin n => ℂ) j with hf'
  have hd : ∀ t ∈ Ioi (0 : ℝ), ∀ w ∈ S, HasFDerivAt (fun w => powProd (fun i => ((-q i : ℝ) : ℂ)) w t) (f' w t) w := by
    intro t ht w hw
    have h1 : ∀ i ∈ Finset.univ, HasFDerivAt (fun w : Fin n → ℂ => (w i + (t : ℂ)) ^ ((-q i : ℝ) : ℂ))
        ((((-q i : ℝ) : ℂ) * (w i + (t : ℂ)) ^ (((-q i : ℝ) : ℂ) - 1)) • ContinuousLinearMap.proj (R := ℂ) (φ := fun _ : Fin n => ℂ) i) w := by
      intro i _
      have h0 : HasFDerivAt (fun w : Fin n → ℂ => w i + (t : ℂ)) (ContinuousLinearMap.proj (R := ℂ) (φ := fun _ : Fin n => ℂ) i) w :=
        (ContinuousLinearMap.proj (R := ℂ) (φ := fun _ : Fin n => ℂ) i).hasFDerivAt.add_const _
      have := (hasDerivAt_id (w i + (t : ℂ))).cpow_const (c := ((-q i : ℝ) : ℂ)) (hw i t (le_of_lt ht)).1
      have h2 := HasDerivAt.comp_hasFDerivAt (h₂ := fun z : ℂ => z ^ ((-q i : ℝ) : ℂ)) (f := fun w : Fin n → ℂ => w i + (t : ℂ)) w this h0
      refine h2.congr_fderiv ?_
      simp
    refine (HasFDerivAt.finsetProd h1).congr_fderiv ?_
    rw [hf']
    refine Finset.sum_congr rfl fun j _ => ?_
    rw [smul_smul]
    congr 1
    rw [powProd, ← Finset.mul_prod_erase Finset.univ _ (Finset.mem_univ j)]
    have : ∏ i ∈ Finset.univ.erase j, (w i + (t : ℂ)) ^ ((-q i : ℝ) : ℂ) = ∏ i ∈ Finset.univ.erase j, (w i + (t : ℂ)) ^ ((-lower q j i : ℝ) : ℂ) := by
      refine Finset.prod_congr rfl fun i hi => ?_
      rw [lower, if_neg (Finset.ne_of_mem_erase hi), add_zero]
    rw [this, show (-lower q j j : ℝ) = -q j - 1 by simp [lower]; ring]
    push_cast
    ring
  set C : ℝ := ∑ j, q j * ∏ i, c i ^ (-lower q j i) with hC
  have hmeas : AEStronglyMeasurable (f' (a s0)) (volume.restrict (Ioi 0)) := by
    refine ContinuousOn.aestronglyMeasurable ?_ measurableSet_Ioi
    refine continuousOn_finset_sum _ fun j _ => ?_
    exact ContinuousOn.smul (continuousOn_const.mul (powProd_cont _ hs)) continuousOn_const
  have hb : ∀ t ∈ Ioi (0 : ℝ), ∀ w ∈ S, ‖f' w t‖ ≤ C * (1 + t) ^ (-((∑ i, q i) + 1)) := by
    intro t ht w hw
    rw [hf', hC, Finset.sum_mul]
    refine (norm_sum_le _ _).trans (Finset.sum_le_sum fun j _ => ?_)
    rw [norm_smul, norm_mul, norm_neg, Complex.norm_real, Real.norm_of_nonneg (hq j), mul_assoc]
    have h1 := powProd_le (hl j) c0 hw (le_of_lt ht)
    rw [hsum] at h1
    have h2 : ‖ContinuousLinearMap.proj (R := ℂ) (φ := fun _ : Fin n => ℂ) j‖ ≤ 1 := by
      refine ContinuousLinearMap.opNorm_le_bound _ zero_le_one fun v => ?_
      rw [one_mul]
      exact norm_le_pi_norm v j
    calc q j * (‖powProd (fun i => ((-lower q j i : ℝ) : ℂ)) w t‖ * _) ≤ q j * (‖powProd (fun i => ((-lower q j i : ℝ) : ℂ)) w t‖ * 1) := by
          exact mul_le_mul_of_nonneg_left (mul_le_mul_of_nonneg_left h2 (norm_nonneg _)) (hq j)
      _ ≤ _ := by
          rw [mul_one, mul_assoc]
          exact mul_le_mul_of_nonneg_left h1 (hq j)
  have hib : IntegrableOn (fun t : ℝ => C * (1 + t) ^ (-((∑ i, q i) + 1))) (Ioi 0) := integrable_pow (by linarith)
  have key := hasFDerivAt_integral_of_dominated_of_fderiv_le (𝕜 := ℂ) (μ := volume.restrict (Ioi 0)) (F := fun w t => powProd (fun i => ((-q i : ℝ) : ℂ)) w t) (F' := f')
    (bound := fun t => C * (1 + t) ^ (-((∑ i, q i) + 1))) hSn
    (by
      filter_upwards [hSn] with w hw
      exact (powProd_cont _ fun i => (hw i).slit).aestronglyMeasurable measurableSet_Ioi)
    (powProd_integrable hq hQ hs) hmeas
    ((ae_restrict_iff' measurableSet_Ioi).mpr (ae_of_all _ hb)) hib
    ((ae_restrict_iff' measurableSet_Ioi).mpr (ae_of_all _ fun t ht w hw => hd t ht w hw))
  have h2 : HasDerivAt (fun s => ∫ t in Ioi (0 : ℝ), powProd (fun i => ((-q i : ℝ) : ℂ)) (a s) t) ((∫ t in Ioi (0 : ℝ), f' (a s0) t) a') s0 :=
    (key.restrictScalars ℝ).comp_hasDerivAt s0 ha
  refine h2.congr_deriv ?_
  have hfi : Integrable (f' (a s0)) (volume.restrict (Ioi 0)) :=
    Integrable.mono' hib hmeas ((ae_restrict_iff' measurableSet_Ioi).mpr (ae_of_all _ fun t ht => hb t ht _ (mem_of_mem_nhds hSn)))
  have h3 : (∫ t in Ioi (0 : ℝ), f' (a s0) t) a' = ∫ t in Ioi (0 : ℝ), f' (a s0) t a' := ContinuousLinearMap.integral_apply hfi a'
  rw [h3]
  have e1 : ∀ t, f' (a s0) t a' = ∑ j, (a' j * -q j) * powProd (fun i => ((-lower q j i : ℝ) : ℂ)) (a s0) t := by
    intro t
    simp only [hf', ContinuousLinearMap.sum_apply, ContinuousLinearMap.smul_apply, ContinuousLinearMap.proj_apply, smul_eq_mul]
    exact Finset.sum_congr rfl fun j _ => by ring
  simp only [e1]
  rw [integral_finset_sum _ fun j _ => (hint j).const_mul _]
  refine Finset.sum_congr rfl fun j _ => ?_
  rw [integral_const_mul]
  ring

/-! ### `R_F` -/

theorem csqrt_inv (x : ℂ) : x ^ ((-(1 / 2) : ℝ) : ℂ) = 1 / csqrt x := by
  rw [csqrt, Complex.ofReal_neg, Complex.cpow_neg, one_div]
  norm_num

theorem csqrt_inv' {x : ℂ} (hx : x ≠ 0) : x ^ ((-(1 / 2 + 1) : ℝ) : ℂ) = 1 / (csqrt x * x) := by
  rw [csqrt, Complex.ofReal_neg, Complex.cpow_neg, one_div, Complex.ofReal_add, Complex.cpow_add _ _ hx]
  norm_num

theorem RFc_eq (u v w : ℂ) : RFc u v w = 1 / 2 * ∫ t in Ioi (0 : ℝ), powProd (fun _ => ((-(1 / 2) : ℝ) : ℂ)) ![u, v, w] t := by
  rw [RFc]
  congr 2
  funext t
  rw [powProd, Fin.prod_univ_three]
  simp only [csqrt_inv, add_comm (t : ℂ), Matrix.cons_val_zero, Matrix.cons_val_one, Matrix.cons_val_two, Matrix.head_cons, Matrix.tail_cons, Matrix.cons_val]
  field_simp

theorem RDc_swap (u v w : ℂ) : RDc v u w = RDc u v w := by
  simp only [RDc, mul_comm (csqrt (_ + v))]

/-- The derivative of `R_F` along a path of its arguments. -/
theorem RFc_deriv {u v w : ℝ → ℂ} {u' v' w' : ℂ} {s0 : ℝ} (hu : HasDerivAt u u' s0) (hv : HasDerivAt v v' s0) (hw : HasDerivAt w w' s0)
    (h1 : u s0 ∈ Complex.slitPlane) (h2 : v s0 ∈ Complex.slitPlane) (h3 : w s0 ∈ Complex.slitPlane) :
    HasDerivAt (fun s => RFc (u s) (v s) (w s))
      (RDc (v s0) (w s0) (u s0) / (-6) * u' + RDc (u s0) (w s0) (v s0) / (-6) * v' + RDc (u s0) (v s0) (w s0) / (-6) * w') s0 := by
  have ha : HasDerivAt (fun s => ![u s, v s, w s]) ![u', v', w'] s0 := by
    refine hasDerivAt_pi.mpr fun i => ?_
    fin_cases i
    · exact hu
    · exact hv
    · exact hw
  have := powInt_deriv (q := fun _ : Fin 3 => 1 / 2) (fun _ => by norm_num) (by norm_num [Fin.sum_univ_three]) ha (by
    intro i
    fin_cases i
    · exact h1
    · exact h2
    · exact h3)
  simp only [RFc_eq]
  refine (this.const_mul (1 / 2 : ℂ)).congr_deriv ?_
  have hne : ∀ {x : ℂ}, x ∈ Complex.slitPlane → ∀ t ∈ Ioi (0 : ℝ), x + (t : ℂ) ≠ 0 := fun hx t ht => Complex.slitPlane_ne_zero (slit_add hx (le_of_lt ht))
  have e0 : ∫ t in Ioi (0 : ℝ), powProd (fun i => ((-lower (fun _ : Fin 3 => (1 / 2 : ℝ)) 0 i : ℝ) : ℂ)) ![u s0, v s0, w s0] t = 2 / 3 * RDc (v s0) (w s0) (u s0) := by
    rw [RDc, ← mul_assoc, show (2 / 3 * (3 / 2) : ℂ) = 1 by norm_num, one_mul]
    refine setIntegral_congr_fun measurableSet_Ioi fun t ht => ?_
    simp only [powProd, Fin.prod_univ_three, lower]
    simp only [Fin.isValue, if_true, one_ne_zero, if_false, add_zero, Matrix.cons_val_zero, Matrix.cons_val_one, Matrix.cons_val, show (2 : Fin 3) ≠ 0 by decide]
    rw [csqrt_inv, csqrt_inv, csqrt_inv' (hne h1 t ht), add_comm (t : ℂ), add_comm (t : ℂ), add_comm (t : ℂ)]
    field_simp
  have e1 : ∫ t in Ioi (0 : ℝ), powProd (fun i => ((-lower (fun _ : Fin 3 => (1 / 2 : ℝ)) 1 i : ℝ) : ℂ)) ![u s0, v s0, w s0] t = 2 / 3 * RDc (u s0) (w s0) (v s0) := by
    rw [RDc, ← mul_assoc, show (2 / 3 * (3 / 2) : ℂ) = 1 by norm_num, one_mul]
    refine setIntegral_congr_fun measurableSet_Ioi fun t ht => ?_
    simp only [powProd, Fin.prod_univ_three, lower]
    simp only [Fin.isValue, if_true, zero_ne_one, if_false, add_zero, Matrix.cons_val_zero, Matrix.cons_val_one, Matrix.cons_val, show (2 : Fin 3) ≠ 1 by decide]
    rw [csqrt_inv, csqrt_inv, csqrt_inv' (hne h2 t ht), add_comm (t : ℂ), add_comm (t : ℂ), add_comm (t : ℂ)]
    field_simp
  have e2 : ∫ t in Ioi (0 : ℝ), powProd (fun i => ((-lower (fun _ : Fin 3 => (1 / 2 : ℝ)) 2 i : ℝ) : ℂ)) ![u s0, v s0, w s0] t = 2 / 3 * RDc (u s0) (v s0) (w s0) := by
    rw [RDc, ← mul_assoc, show (2 / 3 * (3 / 2) : ℂ) = 1 by norm_num, one_mul]
    refine setIntegral_congr_fun measurableSet_Ioi fun t ht => ?_
    simp only [powProd, Fin.prod_univ_three, lower]
    simp only [Fin.isValue, if_true, if_false, add_zero, Matrix.cons_val_zero, Matrix.cons_val_one, Matrix.cons_val, show (0 : Fin 3) ≠ 2 by decide, show (1 : Fin 3) ≠ 2 by decide]
    rw [csqrt_inv, csqrt_inv, csqrt_inv' (hne h3 t ht), add_comm (t : ℂ), add_comm (t : ℂ), add_comm (t : ℂ)]
    field_simp
  rw [Fin.sum_univ_three, e0, e1, e2]
  simp only [Matrix.cons_val_zero, Matrix.cons_val_one, Matrix.cons_val]
  push_cast
  ring

end Verif.Ellred

import Verif.Ellred.CarlsonRed
import Verif.Ellred.CarlsonGradModel

/-! # The gradients of `elliprc`, `elliprd` and `elliprj` for complex arguments (C84-C86) -/

namespace Verif.Ellred

open MeasureTheory Set Filter Topology Verif.Carlson ComplexConjugate

/-! ### Derivatives along paths, as integrals -/

theorem csqrt_inv52 {x : ℂ} (hx : x ≠ 0) : x ^ ((-(1 / 2 + 1 + 1) : ℝ) : ℂ) = 1 / (csqrt x * (x * x)) := by
  rw [csqrt, Complex.ofReal_neg, Complex.cpow_neg, one_div, Complex.ofReal_add, Complex.ofReal_add, Complex.cpow_add _ _ hx, Complex.cpow_add _ _ hx]
  norm_num
  ring

theorem cinv {x : ℂ} : x ^ ((-1 : ℝ) : ℂ) = 1 / x := by
  rw [Complex.ofReal_neg, Complex.ofReal_one, Complex.cpow_neg_one, one_div]

theorem cinv2 {x : ℂ} (hx : x ≠ 0) : x ^ ((-(1 + 1) : ℝ) : ℂ) = 1 / (x * x) := by
  rw [Complex.ofReal_neg, Complex.cpow_neg, one_div, Complex.ofReal_add, Complex.cpow_add _ _ hx]
  norm_num

theorem RCc_deriv {u v : ℝ → ℂ} {u' v' : ℂ} {s0 : ℝ} (hu : HasDerivAt u u' s0) (hv : HasDerivAt v v' s0) (h1 : u s0 ∈ Complex.slitPlane) (h2 : v s0 ∈ Complex.slitPlane) :
    HasDerivAt (fun s => RCc (u s) (v s))
      (-(1 / 4) * (∫ t in Ioi (0 : ℝ), 1 / (csqrt ((t : ℂ) + u s0) * (((t : ℂ) + u s0) * ((t : ℂ) + v s0)))) * u' +
        -(1 / 2) * (∫ t in Ioi (0 : ℝ), 1 / (csqrt ((t : ℂ) + u s0) * (((t : ℂ) + v s0) * ((t : ℂ) + v s0)))) * v') s0 := by
  have ha : HasDerivAt (fun s => ![u s, v s]) ![u', v'] s0 := by
    refine hasDerivAt_pi.mpr fun i => ?_
    fin_cases i
    · exact hu
    · exact hv
  have := powInt_deriv (q := ![1 / 2, 1]) (fun i => by fin_cases i <;> norm_num) (by norm_num [Fin.sum_univ_two]) ha (by
    intro i
    fin_cases i
    · exact h1
    · exact h2)
  have e : ∀ s, RCc (u s) (v s) = 1 / 2 * ∫ t in Ioi (0 : ℝ), powProd (fun i => ((-(![1 / 2, 1] : Fin 2 → ℝ) i : ℝ) : ℂ)) ![u s, v s] t := fun s => by
    rw [RCc]
    congr 2
    funext t
    simp only [powProd, Fin.prod_univ_two, Matrix.cons_val_zero, Matrix.cons_val_one, csqrt_inv, cinv, add_comm (t : ℂ), one_div_mul_one_div]
  simp only [e]
  refine (this.const_mul (1 / 2 : ℂ)).congr_deriv ?_
  have e0 : ∫ t in Ioi (0 : ℝ), powProd (fun i => ((-lower (![1 / 2, 1] : Fin 2 → ℝ) 0 i : ℝ) : ℂ)) ![u s0, v s0] t =
      ∫ t in Ioi (0 : ℝ), 1 / (csqrt ((t : ℂ) + u s0) * (((t : ℂ) + u s0) * ((t : ℂ) + v s0))) := by
    refine setIntegral_congr_fun measurableSet_Ioi fun t ht => ?_
    have hne : u s0 + (t : ℂ) ≠ 0 := Complex.slitPlane_ne_zero (slit_add h1 (le_of_lt ht))
    simp only [powProd, Fin.prod_univ_two, lower, Matrix.cons_val_zero, Matrix.cons_val_one, if_true, one_ne_zero, if_false, add_zero]
    rw [csqrt_inv' hne, cinv, one_div_mul_one_div, add_comm (t : ℂ), add_comm (t : ℂ), mul_assoc]
  have e1 : ∫ t in Ioi (0 : ℝ), powProd (fun i => ((-lower (![1 / 2, 1] : Fin 2 → ℝ) 1 i : ℝ) : ℂ)) ![u s0, v s0] t =
      ∫ t in Ioi (0 : ℝ), 1 / (csqrt ((t : ℂ) + u s0) * (((t : ℂ) + v s0) * ((t : ℂ) + v s0))) := by
    refine setIntegral_congr_fun measurableSet_Ioi fun t ht => ?_
    have hne : v s0 + (t : ℂ) ≠ 0 := Complex.slitPlane_ne_zero (slit_add h2 (le_of_lt ht))
    simp only [powProd, Fin.prod_univ_two, lower, Matrix.cons_val_zero, Matrix.cons_val_one, if_true, zero_ne_one, if_false, add_zero]
    rw [csqrt_inv, cinv2 hne, one_div_mul_one_div, add_comm (t : ℂ), add_comm (t : ℂ)]
  rw [Fin.sum_univ_two, e0, e1]
  simp only [Matrix.cons_val_zero, Matrix.cons_val_one]
  push_cast
  ring

/-- `∫ 1/(s (t+q) (t+p))`. -/
noncomputable def cA (x y z q p : ℂ) : ℂ := ∫ t in Ioi (0 : ℝ), 1 / (cS x y z t * (((t : ℂ) + q) * ((t : ℂ) + p)))

theorem cA_perm {x y z x' y' z' : ℂ} (h : ∀ t, cS x' y' z' t = cS x y z t) (q p : ℂ) : cA x' y' z' q p = cA x y z q p := by simp only [cA, h]

theorem cS_swap12 (x y z : ℂ) (t : ℝ) : cS y x z t = cS x y z t := by simp only [cS]; ring
theorem cS_swap13 (x y z : ℂ) (t : ℝ) : cS z y x t = cS x y z t := by simp only [cS]; ring
theorem cS_swap23 (x y z : ℂ) (t : ℝ) : cS x z y t = cS x y z t := by simp only [cS]; ring

theorem vec4 {a b c d : ℝ → ℂ} {a' b' c' d' : ℂ} {s0 : ℝ} (ha : HasDerivAt a a' s0) (hb : HasDerivAt b b' s0) (hc : HasDerivAt c c' s0) (hd : HasDerivAt d d' s0) :
    HasDerivAt (fun s => ![a s, b s, c s, d s]) ![a', b', c', d'] s0 := by
  refine hasDerivAt_pi.mpr fun i => ?_
  fin_cases i
  · exact ha
  · exact hb
  · exact hc
  · exact hd

theorem RJc_deriv {u v w p : ℝ → ℂ} {u' v' w' p' : ℂ} {s0 : ℝ} (hu : HasDerivAt u u' s0) (hv : HasDerivAt v v' s0) (hw : HasDerivAt w w' s0) (hp : HasDerivAt p p' s0)
    (h1 : u s0 ∈ Complex.slitPlane) (h2 : v s0 ∈ Complex.slitPlane) (h3 : w s0 ∈ Complex.slitPlane) (h4 : p s0 ∈ Complex.slitPlane) :
    HasDerivAt (fun s => RJc (u s) (v s) (w s) (p s))
      (-(3 / 4) * cA (u s0) (v s0) (w s0) (u s0) (p s0) * u' + -(3 / 4) * cA (u s0) (v s0) (w s0) (v s0) (p s0) * v' +
        -(3 / 4) * cA (u s0) (v s0) (w s0) (w s0) (p s0) * w' + -(3 / 2) * cA (u s0) (v s0) (w s0) (p s0) (p s0) * p') s0 := by
  have ha := vec4 hu hv hw hp
  have := powInt_deriv (q := ![1 / 2, 1 / 2, 1 / 2, 1]) (fun i => by fin_cases i <;> norm_num) (by rw [Fin.sum_univ_four]; simp; norm_num) ha (by
    intro i
    fin_cases i
    · exact h1
    · exact h2
    · exact h3
    · exact h4)
  have e : ∀ s, RJc (u s) (v s) (w s) (p s) = 3 / 2 * ∫ t in Ioi (0 : ℝ), powProd (fun i => ((-(![1 / 2, 1 / 2, 1 / 2, 1] : Fin 4 → ℝ) i : ℝ) : ℂ)) ![u s, v s, w s, p s] t := fun s => by
    rw [RJc]
    congr 2
    funext t
    simp only [powProd, Fin.prod_univ_four, Matrix.cons_val_zero, Matrix.cons_val_one, Matrix.cons_val, csqrt_inv, cinv, add_comm (t : ℂ), one_div_mul_one_div]
  simp only [e]
  refine (this.const_mul (3 / 2 : ℂ)).congr_deriv ?_
  have hne : ∀ {x : ℂ}, x ∈ Complex.slitPlane → ∀ t ∈ Ioi (0 : ℝ), x + (t : ℂ) ≠ 0 := fun hx t ht => Complex.slitPlane_ne_zero (slit_add hx (le_of_lt ht))
  have f : ∀ (j : Fin 4) (q : ℂ), ![u s0, v s0, w s0, p s0] j = q →
      ∫ t in Ioi (0 : ℝ), powProd (fun i => ((-lower (![1 / 2, 1 / 2, 1 / 2, 1] : Fin 4 → ℝ) j i : ℝ) : ℂ)) ![u s0, v s0, w s0, p s0] t = cA (u s0) (v s0) (w s0) q (p s0) := by
    rintro j q rfl
    refine setIntegral_congr_fun measurableSet_Ioi fun t ht => ?_
    have n1 := hne h1 t ht
    have n2 := hne h2 t ht
    have n3 := hne h3 t ht
    have n4 := hne h4 t ht
    have m1 := csqrt_ne0 n1
    have m2 := csqrt_ne0 n2
    have m3 := csqrt_ne0 n3
    fin_cases j
    all_goals
      simp only [powProd, Fin.prod_univ_four, lower, Matrix.cons_val_zero, Matrix.cons_val_one, Matrix.cons_val, cS, Fin.zero_eta, Fin.mk_one, Fin.reduceFinMk, if_true, Fin.reduceEq, if_false, add_zero,
        csqrt_inv, csqrt_inv' n1, csqrt_inv' n2, csqrt_inv' n3, cinv, cinv2 n4, add_comm (t : ℂ)]
      field_simp
  rw [Fin.sum_univ_four, f 0 _ rfl, f 1 _ rfl, f 2 _ rfl, f 3 _ rfl]
  simp only [Matrix.cons_val_zero, Matrix.cons_val_one, Matrix.cons_val]
  push_cast
  ring

theorem RDc_deriv {u v w : ℝ → ℂ} {u' v' w' : ℂ} {s0 : ℝ} (hu : HasDerivAt u u' s0) (hv : HasDerivAt v v' s0) (hw : HasDerivAt w w' s0)
    (h1 : u s0 ∈ Complex.slitPlane) (h2 : v s0 ∈ Complex.slitPlane) (h3 : w s0 ∈ Complex.slitPlane) :
    HasDerivAt (fun s => RDc (u s) (v s) (w s))
      (-(3 / 4) * cA (u s0) (v s0) (w s0) (u s0) (w s0) * u' + -(3 / 4) * cA (u s0) (v s0) (w s0) (v s0) (w s0) * v' +
        -(9 / 4) * cA (u s0) (v s0) (w s0) (w s0) (w s0) * w') s0 := by
  have := RJc_deriv hu hv hw hw h1 h2 h3 h3
  exact this.congr_deriv (by ring)

/-! ### The integrals in closed form -/

section closed

variable {x y z p q : ℂ}

theorem cA_gen (hx : x ∈ Complex.slitPlane) (hy : y ∈ Complex.slitPlane) (hz : z ∈ Complex.slitPlane) (hp : p ∈ Complex.slitPlane) (hq : q ∈ Complex.slitPlane) (hne : q ≠ p) :
    cA x y z q p = 2 / 3 * (RJc x y z q - RJc x y z p) / (p - q) := by
  have := RJ_red_x hx hy hz hp hq
  rw [eq_div_iff (sub_ne_zero.mpr hne.symm), mul_comm, cA, this]
  ring

theorem cA_two (hx : x ∈ Complex.slitPlane) (hy : y ∈ Complex.slitPlane) (hz : z ∈ Complex.slitPlane) (h1 : z ≠ x) (h2 : z ≠ y) :
    cA x y z z z = 2 / 3 * (csqrt x * csqrt y / (csqrt z * z) - RFc x y z - 2 / 3 * (x + y - 2 * z) * RDc x y z) * (1 / (z - x) * (1 / (z - y))) := by
  have e1 : z - x ≠ 0 := sub_ne_zero.mpr h1
  have e2 : z - y ≠ 0 := sub_ne_zero.mpr h2
  rw [← RD_red_z hx hy hz, cA]
  field_simp
  ring

theorem cA_all (hx : x ∈ Complex.slitPlane) : cA x x x x x = 2 / 5 / (csqrt x * (x * x)) := by
  rw [← int_inv72 hx, cA]
  refine setIntegral_congr_fun measurableSet_Ioi fun t ht => ?_
  simp only [cS]
  rw [csqrt_sq]
  ring

/-- Two equal arguments: the derivative of `√(t+y)/(t+x)²`. -/
theorem cA_pair (hx : x ∈ Complex.slitPlane) (hy : y ∈ Complex.slitPlane) (hne : x ≠ y) :
    cA x y x x x = 1 / 4 * ((2 * y - 5 * x) * csqrt y / (x * x) + 3 * RCc y x) / (y - x) ^ 2 := by
  have hne' : y - x ≠ 0 := sub_ne_zero.mpr hne.symm
  have hI := RC_red_y hy hx
  set I2 := ∫ t in Ioi (0 : ℝ), 1 / (csqrt ((t : ℂ) + y) * (((t : ℂ) + x) * ((t : ℂ) + x))) with hI2
  have e : cA x y x x x = ∫ t in Ioi (0 : ℝ), 1 / (csqrt ((t : ℂ) + y) * (((t : ℂ) + x) * (((t : ℂ) + x) * ((t : ℂ) + x)))) := by
    rw [cA]
    refine setIntegral_congr_fun measurableSet_Ioi fun t ht => ?_
    have := csqrt_sq ((t : ℂ) + x)
    simp only [cS]
    congr 1
    linear_combination csqrt ((t : ℂ) + y) * (((t : ℂ) + x) * ((t : ℂ) + x)) * this
  have d2 : Dec (3 / 2) fun t => 1 / (csqrt ((t : ℂ) + y) * (((t : ℂ) + x) * ((t : ℂ) + x))) :=
    (((Dec.inv_sqrt hy).mul ((Dec.inv hx).mul (Dec.inv hx))).mono (by norm_num)).congr fun t _ => by simp only [one_div_mul_one_div]
  have d3 : Dec (3 / 2) fun t => 1 / (csqrt ((t : ℂ) + y) * (((t : ℂ) + x) * (((t : ℂ) + x) * ((t : ℂ) + x)))) :=
    (((Dec.inv_sqrt hy).mul ((Dec.inv hx).mul ((Dec.inv hx).mul (Dec.inv hx)))).mono (by norm_num)).congr fun t _ => by simp only [one_div_mul_one_div]
  have i2 := d2.cmul (-(3 / 2))
  have i3 := d3.cmul (-2 * (y - x))
  have hb := Dec.boundary (B := fun t => csqrt ((t : ℂ) + y) * (1 / ((t : ℂ) + x) * (1 / ((t : ℂ) + x)))) ((Dec.sqrt hy).mul ((Dec.inv hx).mul (Dec.inv hx))) (by norm_num) (i2.add i3) (by norm_num) ?_
  · rw [integral_add (i2.integrable (by norm_num)) (i3.integrable (by norm_num)), integral_const_mul, integral_const_mul, ← e, ← hI2] at hb
    simp only [Complex.ofReal_zero, zero_add] at hb
    have hx0 : x ≠ 0 := Complex.slitPlane_ne_zero hx
    rw [eq_div_iff (pow_ne_zero 2 hne')]
    field_simp
    field_simp at hb hI
    linear_combination (-(y - x)) * hb - 3 * x * hI
  · intro t ht
    have h0 := sqrt_ne hy ht.le
    have h1 := far_ne hx ht.le
    have ea := csqrt_sq ((t : ℂ) + y)
    have d1 := (hasDerivAt_const t (1 : ℂ)).div (add_deriv x t) h1
    refine ((sqrt_deriv hy ht.le).mul (d1.mul d1)).congr_deriv ?_
    simp only [Pi.div_apply, Pi.mul_apply]
    generalize csqrt ((t : ℂ) + y) = a at *
    obtain rfl : y = a * a - t := by linear_combination -ea
    field_simp
    ring

end closed

/-! ### The branches -/

/-- Equal, or at least the threshold apart. -/
def CSep (tol : ℝ) (a b : ℂ) : Prop := a = b ∨ tol ≤ ‖a - b‖

namespace CGrad

theorem pow32 {x : ℂ} (hx : x ≠ 0) : x ^ (-(3 / 2) : ℂ) = 1 / (csqrt x * x) := by
  rw [← csqrt_inv' hx]
  norm_num

theorem pow52 {x : ℂ} (hx : x ≠ 0) : x ^ (-(5 / 2) : ℂ) = 1 / (csqrt x * (x * x)) := by
  rw [← csqrt_inv52 hx]
  norm_num

theorem pow12 (x : ℂ) : x ^ (-(1 / 2) : ℂ) = 1 / csqrt x := by
  rw [← csqrt_inv x]
  norm_num

theorem pow2 {x : ℂ} (hx : x ≠ 0) : x ^ (-2 : ℂ) = 1 / (x * x) := by
  rw [← cinv2 hx]
  norm_num

theorem sel_eq {tol : ℝ} {a b : ℂ} (ht : 0 < tol) (h : a = b) (u v : ℂ) : sel (feq tol a b) u v = u := by
  rw [sel, if_pos]
  simpa [feq, h] using ht

theorem sel_ne {tol : ℝ} {a b : ℂ} (h : tol ≤ ‖a - b‖) (u v : ℂ) : sel (feq tol a b) u v = v := by
  rw [sel, if_neg]
  exact not_lt.mpr h

theorem ne_of_sep {tol : ℝ} {a b : ℂ} (ht : 0 < tol) (h : tol ≤ ‖a - b‖) : a ≠ b := by
  rintro rfl
  simp at h
  linarith

variable {tol : ℝ} (ht : 0 < tol) {x y z p : ℂ}
include ht

theorem rcX_eq (hx : x ∈ Complex.slitPlane) (hy : y ∈ Complex.slitPlane) (hs : CSep tol x y) :
    rcGradX tol x y (RCc x y) = -(1 / 4) * ∫ t in Ioi (0 : ℝ), 1 / (csqrt ((t : ℂ) + x) * (((t : ℂ) + x) * ((t : ℂ) + y))) := by
  rcases hs with rfl | h
  · rw [rcGradX, sel_eq ht rfl, int_inv52 hx, pow32 (Complex.slitPlane_ne_zero hx)]
    ring
  · rw [rcGradX, sel_ne h, pow12]
    have hne : y - x ≠ 0 := sub_ne_zero.mpr (ne_of_sep ht h).symm
    have := RC_red_x hx hy
    rw [div_eq_iff (by simpa using hne)]
    linear_combination (1 / 2) * this

theorem rcY_eq (hx : x ∈ Complex.slitPlane) (hy : y ∈ Complex.slitPlane) (hs : CSep tol x y) :
    rcGradY tol x y (RCc x y) = -(1 / 2) * ∫ t in Ioi (0 : ℝ), 1 / (csqrt ((t : ℂ) + x) * (((t : ℂ) + y) * ((t : ℂ) + y))) := by
  rcases hs with rfl | h
  · rw [rcGradY, sel_eq ht rfl, int_inv52 hx, pow32 (Complex.slitPlane_ne_zero hx)]
    ring
  · rw [rcGradY, sel_ne h]
    have hne : x - y ≠ 0 := sub_ne_zero.mpr (ne_of_sep ht h)
    have := RC_red_y hx hy
    rw [div_eq_iff (by simpa using hne), show x ^ (1 / 2 : ℂ) = csqrt x from rfl]
    linear_combination this

omit ht in
theorem RJc_swap12 : RJc y x z p = RJc x y z p := by simp only [RJc_cS, cS_swap12]
omit ht in
theorem RJc_swap13 : RJc z y x p = RJc x y z p := by simp only [RJc_cS, cS_swap13]
omit ht in
theorem RDc_rot : RDc y z x = RJc x y z x := by
  rw [RDc_cS, RJc_cS, RJc_cS]
  simp only [cS]
  congr 2
  funext t
  ring

omit ht in
theorem RFc_rot : RFc y z x = RFc x y z := by
  rw [RFc_cS, RFc_cS]
  simp only [cS]
  congr 2
  funext t
  ring

theorem rjX_eq (hx : x ∈ Complex.slitPlane) (hy : y ∈ Complex.slitPlane) (hz : z ∈ Complex.slitPlane) (hp : p ∈ Complex.slitPlane) (hs : CSep tol x p) (hsy : x = p → CSep tol x y)
    (hsz : x = p → CSep tol x z) : rjGradX tol x y z p (RJc x y z p) = -(3 / 4) * cA x y z x p := by
  have hx0 := Complex.slitPlane_ne_zero hx
  have hsx := csqrt_ne0 hx0
  rcases hs with rfl | h
  · rw [rjGradX]
    rw [sel_eq ht rfl]
    rcases hsy rfl with rfl | h1 <;> rcases hsz rfl with rfl | h2
    · rw [sel_eq ht rfl, sel_eq ht rfl, cA_all hx, pow52 hx0]
      ring
    · have hne := ne_of_sep ht h2
      have e1 : x - z ≠ 0 := sub_ne_zero.mpr hne
      have e2 : z - x ≠ 0 := sub_ne_zero.mpr hne.symm
      rw [sel_eq ht rfl, sel_ne h2, cA_perm (cS_swap23 x z x), cA_pair hx hz hne, show z ^ (1 / 2 : ℂ) = csqrt z from rfl]
      rw [show (z - x) ^ 2 = (x - z) ^ 2 by ring]
      field_simp
      ring
    · have hne := ne_of_sep ht h1
      have e1 : x - y ≠ 0 := sub_ne_zero.mpr hne
      rw [sel_ne h1, sel_eq ht rfl, cA_pair hx hy hne, show y ^ (1 / 2 : ℂ) = csqrt y from rfl, show (y - x) ^ 2 = (x - y) ^ 2 by ring]
      field_simp
      ring
    · have n1 := ne_of_sep ht h1
      have n2 := ne_of_sep ht h2
      have e1 : x - y ≠ 0 := sub_ne_zero.mpr n1
      have e2 : x - z ≠ 0 := sub_ne_zero.mpr n2
      have := cA_two hy hz hx n1 n2
      rw [cA_perm (fun t => show cS y z x t = cS x y z t by simp only [cS]; ring), RFc_rot] at this
      rw [sel_ne h1, sel_ne h2, this, pow32 hx0, show y ^ (1 / 2 : ℂ) = csqrt y from rfl, show z ^ (1 / 2 : ℂ) = csqrt z from rfl]
      field_simp
      ring
  · have hne := ne_of_sep ht h
    have e1 : p - x ≠ 0 := sub_ne_zero.mpr hne.symm
    rw [rjGradX]
    rw [sel_ne h, cA_gen hx hy hz hp hx hne, RDc_rot]
    field_simp
    ring

theorem rjY_eq (hx : x ∈ Complex.slitPlane) (hy : y ∈ Complex.slitPlane) (hz : z ∈ Complex.slitPlane) (hp : p ∈ Complex.slitPlane) (hs : CSep tol y p) (hsx : y = p → CSep tol y x)
    (hsz : y = p → CSep tol y z) : rjGradY tol x y z p (RJc x y z p) = -(3 / 4) * cA x y z y p := by
  rw [rjGradY, ← RJc_swap12, rjX_eq ht hy hx hz hp hs hsx hsz, cA_perm (cS_swap12 x y z)]

theorem rjZ_eq (hx : x ∈ Complex.slitPlane) (hy : y ∈ Complex.slitPlane) (hz : z ∈ Complex.slitPlane) (hp : p ∈ Complex.slitPlane) (hs : CSep tol z p) (hsy : z = p → CSep tol z y)
    (hsx : z = p → CSep tol z x) : rjGradZ tol x y z p (RJc x y z p) = -(3 / 4) * cA x y z z p := by
  rw [rjGradZ, ← RJc_swap13, rjX_eq ht hz hy hx hp hs hsy hsx, cA_perm (cS_swap13 x y z)]

theorem rdX_eq (hx : x ∈ Complex.slitPlane) (hy : y ∈ Complex.slitPlane) (hz : z ∈ Complex.slitPlane) (hs : CSep tol x z) (hsy : x = z → CSep tol x y) :
    rdGradX tol x y z = -(3 / 4) * cA x y z x z := by
  have hx0 := Complex.slitPlane_ne_zero hx
  have hsx := csqrt_ne0 hx0
  rw [rdGradX]
  rcases hs with rfl | h
  · rw [sel_eq ht rfl]
    rcases hsy rfl with rfl | h1
    · rw [sel_eq ht rfl, cA_all hx, pow52 hx0]
      ring
    · have hne := ne_of_sep ht h1
      have e1 : x - y ≠ 0 := sub_ne_zero.mpr hne
      rw [sel_ne h1, cA_pair hx hy hne, show y ^ (1 / 2 : ℂ) = csqrt y from rfl, show (y - x) ^ 2 = (x - y) ^ 2 by ring]
      field_simp
      ring
  · have hne := ne_of_sep ht h
    have e1 : x - z ≠ 0 := sub_ne_zero.mpr hne
    have e2 : z - x ≠ 0 := sub_ne_zero.mpr hne.symm
    rw [sel_ne h, cA_gen hx hy hz hz hx hne, RDc_rot, RDc_cS]
    rw [show x - z = -(z - x) by ring]
    field_simp
    ring

theorem rdY_eq (hx : x ∈ Complex.slitPlane) (hy : y ∈ Complex.slitPlane) (hz : z ∈ Complex.slitPlane) (hs : CSep tol y z) (hsx : y = z → CSep tol y x) :
    rdGradY tol x y z = -(3 / 4) * cA x y z y z := by
  rw [rdGradY, rdX_eq ht hy hx hz hs hsx, cA_perm (cS_swap12 x y z)]

theorem rdZ_eq (hx : x ∈ Complex.slitPlane) (hy : y ∈ Complex.slitPlane) (hz : z ∈ Complex.slitPlane) (hs : CSep tol x z) (hsy : CSep tol y z) :
    rdGradZ tol x y z (RDc x y z) = -(9 / 4) * cA x y z z z := by
  have hz0 := Complex.slitPlane_ne_zero hz
  have hsz := csqrt_ne0 hz0
  rw [rdGradZ]
  rcases hs with rfl | h1 <;> rcases hsy with e | h2
  · subst e
    rw [sel_eq ht rfl, sel_eq ht rfl, cA_all hy, pow52 hz0]
    ring
  · have hne := (ne_of_sep ht h2).symm
    have e1 : x - y ≠ 0 := sub_ne_zero.mpr hne
    rw [sel_eq ht rfl, sel_ne h2, cA_pair hx hy hne, show y ^ (1 / 2 : ℂ) = csqrt y from rfl, show (y - x) ^ 2 = (x - y) ^ 2 by ring]
    field_simp
    ring
  · subst e
    have hne := (ne_of_sep ht h1).symm
    have e1 : y - x ≠ 0 := sub_ne_zero.mpr hne
    rw [sel_ne h1, sel_eq ht rfl, cA_perm (cS_swap12 y x y), cA_pair hy hx hne, show x ^ (1 / 2 : ℂ) = csqrt x from rfl, show (x - y) ^ 2 = (y - x) ^ 2 by ring]
    field_simp
    ring
  · have n1 := (ne_of_sep ht h1).symm
    have n2 := (ne_of_sep ht h2).symm
    have e1 : z - x ≠ 0 := sub_ne_zero.mpr n1
    have e2 : z - y ≠ 0 := sub_ne_zero.mpr n2
    rw [sel_ne h1, sel_ne h2, cA_two hx hy hz n1 n2, pow32 hz0, show y ^ (1 / 2 : ℂ) = csqrt y from rfl, show x ^ (1 / 2 : ℂ) = csqrt x from rfl]
    field_simp
    ring

theorem feq_iff {a b : ℂ} (h : CSep tol a b) : feq tol a b ↔ a = b := by
  rcases h with rfl | h
  · simpa [feq] using ht
  · exact ⟨fun f => absurd f (not_lt.mpr h), fun e => absurd e (ne_of_sep ht h)⟩

theorem rjP_eq (hx : x ∈ Complex.slitPlane) (hy : y ∈ Complex.slitPlane) (hz : z ∈ Complex.slitPlane) (hp : p ∈ Complex.slitPlane) (h1 : CSep tol p x) (h2 : CSep tol p y) (h3 : CSep tol p z) :
    rjGradP tol x y z p (RJc x y z p) = -(3 / 2) * cA x y z p p := by
  have hp0 := Complex.slitPlane_ne_zero hp
  have hsp := csqrt_ne0 hp0
  have rt : ∀ w : ℂ, w ^ (1 / 2 : ℂ) = csqrt w := fun _ => rfl
  rw [rjGradP]
  simp only [feq_iff ht h1, feq_iff ht h2, feq_iff ht h3, sel, rt, pow32 hp0, pow52 hp0, pow2 hp0]
  by_cases a : p = x <;> by_cases b : p = y <;> by_cases c : p = z
  · subst a; subst b; subst c
    norm_num
    rw [cA_all hp]
    ring
  · subst a; subst b
    have e : p - z ≠ 0 := sub_ne_zero.mpr c
    norm_num [c]
    rw [cA_perm (cS_swap23 p z p), cA_pair hp hz c, show (z - p) ^ 2 = (p - z) ^ 2 by ring]
    field_simp
    ring
  · subst a; subst c
    have e : p - y ≠ 0 := sub_ne_zero.mpr b
    norm_num [b]
    rw [cA_pair hp hy b, show (y - p) ^ 2 = (p - y) ^ 2 by ring]
    field_simp
    ring
  · subst a
    have e1 : p - y ≠ 0 := sub_ne_zero.mpr b
    have e2 : p - z ≠ 0 := sub_ne_zero.mpr c
    norm_num [b, c]
    rw [← cA_perm (fun t => show cS y z p t = cS p y z t by simp only [cS]; ring), cA_two hy hz hp b c]
    field_simp
    ring
  · subst b; subst c
    have e : p - x ≠ 0 := sub_ne_zero.mpr a
    norm_num [a]
    rw [cA_perm (cS_swap12 p x p), cA_pair hp hx a, show (x - p) ^ 2 = (p - x) ^ 2 by ring]
    field_simp
    ring
  · subst b
    have e1 : p - x ≠ 0 := sub_ne_zero.mpr a
    have e2 : p - z ≠ 0 := sub_ne_zero.mpr c
    norm_num [a, c]
    rw [← cA_perm (cS_swap23 x p z), cA_two hx hz hp a c]
    field_simp
    ring
  · subst c
    have e1 : p - x ≠ 0 := sub_ne_zero.mpr a
    have e2 : p - y ≠ 0 := sub_ne_zero.mpr b
    norm_num [a, b]
    rw [cA_two hx hy hp a b]
    field_simp
    ring
  · have e1 : p - x ≠ 0 := sub_ne_zero.mpr a
    have e2 : p - y ≠ 0 := sub_ne_zero.mpr b
    have e3 : p - z ≠ 0 := sub_ne_zero.mpr c
    norm_num [a, b, c]
    have := RJ_red_p hx hy hz hp
    rw [← cA] at this
    field_simp at this ⊢
    linear_combination -this

end CGrad

/-! ### C84-C86 for complex arguments -/

open CGrad

section paths

variable {tol : ℝ} {x y z p : ℝ → ℂ} {x' y' z' p' : ℂ} {s0 : ℝ}

/-- **C84** for complex arguments off the cut `(-∞, 0]` that are equal or at least the threshold apart: along any path of the arguments, a loss with gradient `g`
(torch's convention: its derivative along `w'` is `Re (conj g * w')`) of `elliprc` has the derivative that the gradients of `Elliprc.backward` give. -/
theorem C84_elliprc_complex (ht : 0 < tol) (hx : HasDerivAt x x' s0) (hy : HasDerivAt y y' s0) (h1 : x s0 ∈ Complex.slitPlane) (h2 : y s0 ∈ Complex.slitPlane)
    (hs : CSep tol (x s0) (y s0)) : ∃ w', HasDerivAt (fun s => RCc (x s) (y s)) w' s0 ∧ ∀ g : ℂ,
      let G := rcBackward tol (x s0) (y s0) g
      (conj g * w').re = (conj G.1 * x').re + (conj G.2 * y').re := by
  refine ⟨_, RCc_deriv hx hy h1 h2, fun g => ?_⟩
  simp only [rcBackward, rcX_eq ht h1 h2 hs, rcY_eq ht h1 h2 hs, map_mul, Complex.conj_conj]
  rw [← Complex.add_re]
  congr 1
  ring

/-- **C85** for complex arguments: `elliprd`.  Each of `x`, `y` must be equal to `z` or separated from it. -/
theorem C85_elliprd_complex (ht : 0 < tol) (hx : HasDerivAt x x' s0) (hy : HasDerivAt y y' s0) (hz : HasDerivAt z z' s0) (h1 : x s0 ∈ Complex.slitPlane)
    (h2 : y s0 ∈ Complex.slitPlane) (h3 : z s0 ∈ Complex.slitPlane) (hs1 : CSep tol (x s0) (z s0)) (hs2 : CSep tol (y s0) (z s0)) :
    ∃ w', HasDerivAt (fun s => RDc (x s) (y s) (z s)) w' s0 ∧ ∀ g : ℂ,
      let G := rdBackward tol (x s0) (y s0) (z s0) g
      (conj g * w').re = (conj G.1 * x').re + (conj G.2.1 * y').re + (conj G.2.2 * z').re := by
  refine ⟨_, RDc_deriv hx hy hz h1 h2 h3, fun g => ?_⟩
  have sw : ∀ {a b : ℂ}, CSep tol a b → CSep tol b a := fun h => h.imp Eq.symm fun h => by rwa [norm_sub_rev]
  simp only [rdBackward, rdX_eq ht h1 h2 h3 hs1 (fun e => by rw [e]; exact sw hs2), rdY_eq ht h1 h2 h3 hs2 (fun e => by rw [e]; exact sw hs1), rdZ_eq ht h1 h2 h3 hs1 hs2,
    map_mul, Complex.conj_conj]
  rw [← Complex.add_re, ← Complex.add_re]
  congr 1
  ring

/-- **C86** for complex arguments: `elliprj`, if `p` is equal to or separated from each of `x`, `y`, `z`. -/
theorem C86_elliprj_complex (ht : 0 < tol) (hx : HasDerivAt x x' s0) (hy : HasDerivAt y y' s0) (hz : HasDerivAt z z' s0) (hp : HasDerivAt p p' s0)
    (h1 : x s0 ∈ Complex.slitPlane) (h2 : y s0 ∈ Complex.slitPlane) (h3 : z s0 ∈ Complex.slitPlane) (h4 : p s0 ∈ Complex.slitPlane)
    (hs1 : CSep tol (x s0) (p s0)) (hs2 : CSep tol (y s0) (p s0)) (hs3 : CSep tol (z s0) (p s0)) :
    ∃ w', HasDerivAt (fun s => RJc (x s) (y s) (z s) (p s)) w' s0 ∧ ∀ g : ℂ,
      let G := rjBackward tol (x s0) (y s0) (z s0) (p s0) g
      (conj g * w').re = (conj G.1 * x').re + (conj G.2.1 * y').re + (conj G.2.2.1 * z').re + (conj G.2.2.2 * p').re := by
  refine ⟨_, RJc_deriv hx hy hz hp h1 h2 h3 h4, fun g => ?_⟩
  have sw : ∀ {a b : ℂ}, CSep tol a b → CSep tol b a := fun h => h.imp Eq.symm fun h => by rwa [norm_sub_rev]
  simp only [rjBackward, rjX_eq ht h1 h2 h3 h4 hs1 (fun e => by rw [e]; exact sw hs2) (fun e => by rw [e]; exact sw hs3),
    rjY_eq ht h1 h2 h3 h4 hs2 (fun e => by rw [e]; exact sw hs1) (fun e => by rw [e]; exact sw hs3),
    rjZ_eq ht h1 h2 h3 h4 hs3 (fun e => by rw [e]; exact sw hs2) (fun e => by rw [e]; exact sw hs1), rjP_eq ht h1 h2 h3 h4 (sw hs1) (sw hs2) (sw hs3),
    map_mul, Complex.conj_conj]
  rw [← Complex.add_re, ← Complex.add_re, ← Complex.add_re]
  congr 1
  ring

end paths

/-- `C84_elliprc_complex` at `1 + i s` and `-1 + 2 i`, and at equal arguments. -/
example := C84_elliprc_complex (tol := 1 / 10 ^ 4) (s0 := 0) (by norm_num) ((hasDerivAt_id (0 : ℝ)).ofReal_comp.const_mul Complex.I |>.const_add 1)
  (hasDerivAt_const _ (-1 + 2 * Complex.I : ℂ)) (by simp [Complex.mem_slitPlane_iff]) (by simp [Complex.mem_slitPlane_iff]) (.inr (le_trans (by norm_num) (Complex.abs_re_le_norm _)))
example := C84_elliprc_complex (tol := 1 / 10 ^ 4) (s0 := 0) (by norm_num) ((hasDerivAt_id (0 : ℝ)).ofReal_comp.const_mul Complex.I |>.const_add 1)
  (hasDerivAt_const _ (1 : ℂ)) (by simp [Complex.mem_slitPlane_iff]) (by simp [Complex.mem_slitPlane_iff]) (.inl (by simp))

/-- `C85_elliprd_complex` at `i + s`, `3`, `i`. -/
example := C85_elliprd_complex (tol := 1 / 10 ^ 4) (s0 := 0) (by norm_num) ((hasDerivAt_id (0 : ℝ)).ofReal_comp.const_add Complex.I)
  (hasDerivAt_const _ (3 : ℂ)) (hasDerivAt_const _ Complex.I) (by simp [Complex.mem_slitPlane_iff]) (by simp [Complex.mem_slitPlane_iff]) (by simp [Complex.mem_slitPlane_iff])
  (.inl (by simp)) (.inr (le_trans (by norm_num) (Complex.abs_re_le_norm _)))

/-- `C86_elliprj_complex` at `i + s`, `3`, `i` with `p = -2 + i` and with `p = 3`. -/
example := C86_elliprj_complex (tol := 1 / 10 ^ 4) (s0 := 0) (by norm_num) ((hasDerivAt_id (0 : ℝ)).ofReal_comp.const_add Complex.I)
  (hasDerivAt_const _ (3 : ℂ)) (hasDerivAt_const _ Complex.I) (hasDerivAt_const _ (-2 + Complex.I : ℂ)) (by simp [Complex.mem_slitPlane_iff]) (by simp [Complex.mem_slitPlane_iff])
  (by simp [Complex.mem_slitPlane_iff]) (by simp [Complex.mem_slitPlane_iff])
  (.inr (le_trans (by norm_num) (Complex.abs_re_le_norm _))) (.inr (le_trans (by norm_num) (Complex.abs_re_le_norm _))) (.inr (le_trans (by norm_num) (Complex.abs_re_le_norm _)))
example := C86_elliprj_complex (tol := 1 / 10 ^ 4) (s0 := 0) (by norm_num) ((hasDerivAt_id (0 : ℝ)).ofReal_comp.const_add Complex.I)
  (hasDerivAt_const _ (3 : ℂ)) (hasDerivAt_const _ Complex.I) (hasDerivAt_const _ (3 : ℂ)) (by simp [Complex.mem_slitPlane_iff]) (by simp [Complex.mem_slitPlane_iff])
  (by simp [Complex.mem_slitPlane_iff]) (by simp [Complex.mem_slitPlane_iff])
  (.inr (le_trans (by norm_num) (Complex.abs_re_le_norm _))) (.inl rfl) (.inr (le_trans (by norm_num) (Complex.abs_re_le_norm _)))

end Verif.Ellred

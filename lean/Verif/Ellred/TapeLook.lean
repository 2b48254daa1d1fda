import Verif.Ellred.TapeGrad

/-! # C144: gradients of the analytic lookback time and absorption distance of LambdaCDM -/

namespace Verif.Ellred

open MeasureTheory Set Filter Topology Verif.Carlson Verif.Cosmo ComplexConjugate

variable {p : Phys} {c : Cls} {o : Obj} {n : ℕ} {solve : List ℝ → List ℂ}

/-! ### The arguments of the Carlson functions -/

section Cubic

variable {y z b c d : ℝ} {r1 r2 r3 : ℂ}

/-- `u_i + z² r_i` does not depend on `i`. -/
theorem params3_sub (r1 r2 r3 : ℂ) (z : ℝ) : let u := params3 r1 r2 r3 0 z
    u.2.1 - u.1 = z ^ 2 * (r1 - r2) ∧ u.2.2 - u.1 = z ^ 2 * (r1 - r3) := by
  have a1 := Xr_sq r1 z
  have a2 := Xr_sq r2 z
  have a3 := Xr_sq r3 z
  have b1 := Xr_sq r1 0
  have b2 := Xr_sq r2 0
  have b3 := Xr_sq r3 0
  simp only [params3]
  generalize Xr r1 z = X1 at *
  generalize Xr r2 z = X2 at *
  generalize Xr r3 z = X3 at *
  generalize Xr r1 0 = Y1 at *
  generalize Xr r2 0 = Y2 at *
  generalize Xr r3 0 = Y3 at *
  constructor
  · have key : (Y1 * X2 * Y3 + X1 * Y2 * X3) ^ 2 - (Y1 * X2 * X3 + X1 * Y2 * Y3) ^ 2 = Y1 ^ 2 * X2 ^ 2 * Y3 ^ 2 + X1 ^ 2 * Y2 ^ 2 * X3 ^ 2 - Y1 ^ 2 * X2 ^ 2 * X3 ^ 2 - X1 ^ 2 * Y2 ^ 2 * Y3 ^ 2 := by ring
    rw [a1, a2, a3, b1, b2, b3] at key
    push_cast at key
    linear_combination key
  · have key : (Y1 * Y2 * X3 + X1 * X2 * Y3) ^ 2 - (Y1 * X2 * X3 + X1 * Y2 * Y3) ^ 2 = Y1 ^ 2 * Y2 ^ 2 * X3 ^ 2 + X1 ^ 2 * X2 ^ 2 * Y3 ^ 2 - Y1 ^ 2 * X2 ^ 2 * X3 ^ 2 - X1 ^ 2 * Y2 ^ 2 * Y3 ^ 2 := by ring
    rw [a1, a2, a3, b1, b2, b3] at key
    push_cast at key
    linear_combination key

/-- The two arguments of `elliprc` differ by `z²` times the product of the roots, up to the sign. -/
theorem rc_sub (r1 r2 r3 : ℂ) (z : ℝ) : let p := (r1 + 1) * z ^ 2 + (params3 r1 r2 r3 0 z).1
    (Xr r1 0 * Xr r2 0 * Xr r3 0 * (z + 1) + Xr r1 z * Xr r2 z * Xr r3 z) ^ 2 - (z + 1) * p = -(z ^ 2 * ((r1 + 1) * (r2 + 1) * (r3 + 1))) := by
  have a1 := Xr_sq r1 z
  have a2 := Xr_sq r2 z
  have a3 := Xr_sq r3 z
  have b1 := Xr_sq r1 0
  have b2 := Xr_sq r2 0
  have b3 := Xr_sq r3 0
  simp only [params3]
  generalize Xr r1 z = X1 at *
  generalize Xr r2 z = X2 at *
  generalize Xr r3 z = X3 at *
  generalize Xr r1 0 = Y1 at *
  generalize Xr r2 0 = Y2 at *
  generalize Xr r3 0 = Y3 at *
  have key : (Y1 * Y2 * Y3 * (z + 1) + X1 * X2 * X3) ^ 2 - (z + 1) * (Y1 * X2 * X3 + X1 * Y2 * Y3) ^ 2 =
      Y1 ^ 2 * Y2 ^ 2 * Y3 ^ 2 * (z + 1) ^ 2 + X1 ^ 2 * X2 ^ 2 * X3 ^ 2 - (z + 1) * (Y1 ^ 2 * X2 ^ 2 * X3 ^ 2 + X1 ^ 2 * Y2 ^ 2 * Y3 ^ 2) := by ring
  rw [a1, a2, a3, b1, b2, b3] at key
  push_cast at key
  linear_combination key

/-- `p` is positive. -/
theorem CubicOK.p_pos (h : CubicOK (min 0 z) r1 r2 r3 b c d) (hz : -1 < z) :
    ∃ P : ℝ, 0 < P ∧ (r1 + 1) * (z : ℂ) ^ 2 + (params3 r1 r2 r3 0 z).1 = P := by
  rcases lt_trichotomy 0 z with hlt | rfl | hlt
  · rw [min_eq_left hlt.le] at h
    refine ⟨z ^ 2 * CubicOK.Q 0 b c d z, mul_pos (by positivity) (h.Q_pos (by norm_num) hlt), ?_⟩
    rw [params3_eq hlt]
    push_cast
    rw [h.Q_eq (by norm_num) hlt]
    push_cast
    ring
  · rw [min_self] at h
    refine ⟨4 * CubicOK.cubic b c d 0, by have := h.cpos (t := 0) le_rfl; linarith, ?_⟩
    have e := h.sqrt_eq (x := 1) (t := 0) (by norm_num) ⟨le_rfl, by norm_num⟩
    have : (√(CubicOK.cubic b c d 0)) ^ 2 = CubicOK.cubic b c d 0 := Real.sq_sqrt (h.cpos le_rfl).le
    simp only [params3]
    calc _ = 4 * (Xr r1 0 * Xr r2 0 * Xr r3 0) ^ 2 := by push_cast; ring
      _ = _ := by rw [e, ← Complex.ofReal_pow, this]; push_cast; ring
  · rw [min_eq_right hlt.le] at h
    refine ⟨z ^ 2 * CubicOK.Q z b c d 0, mul_pos (sq_pos_of_neg hlt) (h.Q_pos hz hlt), ?_⟩
    rw [params3_swap, params3_eq hlt]
    push_cast
    rw [h.Q_eq hz hlt]
    push_cast
    ring

/-- The first argument of `elliprc` is positive. -/
theorem CubicOK.rc_pos (h : CubicOK (min 0 z) r1 r2 r3 b c d) (hz : -1 < z) :
    ∃ P : ℝ, 0 < P ∧ (Xr r1 0 * Xr r2 0 * Xr r3 0 * (z + 1) + Xr r1 z * Xr r2 z * Xr r3 z) ^ 2 = P := by
  have h0 := h.sqrt_eq (x := max 0 z + 1) (t := 0) (by linarith [min_le_left 0 z, le_max_left 0 z]) ⟨min_le_left _ _, by linarith [le_max_left 0 z]⟩
  have h1 := h.sqrt_eq (x := max 0 z + 1) (t := z) (by linarith [min_le_left 0 z, le_max_left 0 z]) ⟨min_le_right _ _, by linarith [le_max_right 0 z]⟩
  have p0 := Real.sqrt_pos.mpr (h.cpos (min_le_left 0 z))
  have p1 := Real.sqrt_pos.mpr (h.cpos (min_le_right 0 z))
  have : 0 < z + 1 := by linarith
  refine ⟨(√(CubicOK.cubic b c d 0) * (z + 1) + √(CubicOK.cubic b c d z)) ^ 2, by positivity, ?_⟩
  rw [h0, h1]
  push_cast
  ring

/-- The value of the lookback time for the roots in any order. -/
theorem CubicOK.lookback_value (h : CubicOK (min 0 z) r1 r2 r3 b c d) {L : ℝ} (hL : 0 < L) (hz : -1 < z) :
    lookback3 L r1 r2 r3 z = ∫ t in 0..z, lookbackIntegrand (L * CubicOK.cubic b c d t) t := by
  have hi : ∀ t, min 0 z ≤ t → lookbackIntegrand (L * CubicOK.cubic b c d t) t = 1 / ((1 + t) * √(CubicOK.cubic b c d t)) / L ^ (0.5 : ℝ) := fun t ht => by
    have h0 := Real.rpow_pos_of_pos hL (0.5 : ℝ)
    have h1 := Real.sqrt_pos.mpr (h.cpos ht)
    have h2 : 0 < 1 + t := by
      rcases min_le_iff.mp ht with h | h <;> linarith
    rw [lookbackIntegrand, invEfunc_eq hL (h.cpos ht), add_comm t 1]
    field_simp
  rcases lt_trichotomy 0 z with hlt | hlt | hlt
  · rw [min_eq_left hlt.le] at h hi
    rw [lookback3_pos h hlt, integral_div_eq hlt fun t ht => hi t ht.1.le]
  · subst hlt
    simp [lookback3]
  · rw [min_eq_right hlt.le] at h hi
    rw [lookback3_neg h hz hlt, intervalIntegral.integral_symm, integral_div_eq hlt fun t ht => hi t ht.1.le, neg_div]

theorem CubicOK.absorption_value (h : CubicOK (min 0 z) r1 r2 r3 b c d) {L : ℝ} (hL : 0 < L) (hz : z ≠ 0) :
    absorption3 L r1 r2 r3 0 z = ∫ t in 0..z, absIntegrand (L * CubicOK.cubic b c d t) t := by
  have hi : ∀ t, min 0 z ≤ t → absIntegrand (L * CubicOK.cubic b c d t) t = (1 + t) ^ 2 / √(CubicOK.cubic b c d t) / L ^ (0.5 : ℝ) := fun t ht => by
    rw [absIntegrand, invEfunc_eq hL (h.cpos ht), add_comm t 1]
    ring
  rcases lt_trichotomy 0 z with hlt | hlt | hlt
  · rw [min_eq_left hlt.le] at h hi
    rw [absorption3_pos h hlt, integral_div_eq hlt fun t ht => hi t ht.1.le]
  · exact absurd hlt.symm hz
  · rw [min_eq_right hlt.le] at h hi
    rw [absorption3_swap, absorption3_pos h hlt, intervalIntegral.integral_symm, integral_div_eq hlt fun t ht => hi t ht.1.le]

end Cubic

/-! ### The expressions -/

variable {L z1 z tol : ℝ}

/-- The lookback time as an expression. -/
def exLook (tol : ℝ) : Ex (3 + 3) := Ex.lookback3 tol (.var 0) (.sub (.var 3) (.const 1)) (.sub (.var 4) (.const 1)) (.sub (.var 5) (.const 1)) (.var 2)

/-- The absorption distance as an expression. -/
noncomputable def exAbs (tol : ℝ) : Ex (3 + 3) :=
  Ex.absorption3 tol (.var 0) (.sub (.var 3) (.const 1)) (.sub (.var 4) (.const 1)) (.sub (.var 5) (.const 1)) (.const 0) (.var 2)

theorem lookbackEx_three : lookbackEx tol 3 = some (exLook tol) := rfl
theorem absorptionEx_three : absorptionEx tol 3 = some (exAbs tol) := rfl

theorem exLook_eval (hL : 0 < L) (r : Fin 3 → ℂ) : (exLook tol).eval (inputs L z1 z r) = ((lookback3 L (r 0 - 1) (r 1 - 1) (r 2 - 1) z : ℝ) : ℂ) := by
  obtain ⟨⟨e0, e1, e2⟩, e3, e4, e5⟩ := inputs3 (L := L) (z1 := z1) (z2 := z) r
  simp only [exLook, Ex.lookback3, Ex.fix, Ex.params3, Ex.d, Ex.eval, e0, e2, e3, e4, e5, csqrt_real hL, Complex.ofReal_re, Complex.zero_re, lookback3, fixDimless, params3, Xr,
    ← Complex.ofReal_pow, ← Complex.ofReal_one, ← Complex.ofReal_add, ← Complex.ofReal_ofNat, ← Complex.ofReal_div, ← Complex.ofReal_mul]

theorem exAbs_eval (hL : 0 < L) (r : Fin 3 → ℂ) : (exAbs tol).eval (inputs L z1 z r) = ((absorption3 L (r 0 - 1) (r 1 - 1) (r 2 - 1) 0 z : ℝ) : ℂ) := by
  obtain ⟨⟨e0, e1, e2⟩, e3, e4, e5⟩ := inputs3 (L := L) (z1 := z1) (z2 := z) r
  simp only [exAbs, Ex.absorption3, Ex.fix, Ex.params3, Ex.d, Ex.eval, e0, e2, e3, e4, e5, csqrt_real hL, Complex.ofReal_re, Complex.zero_re, absorption3, fixDimless, params3, Xr,
    ← Complex.ofReal_zero, ← Complex.ofReal_sub, ← Complex.ofReal_pow, ← Complex.ofReal_one, ← Complex.ofReal_add, ← Complex.ofReal_ofNat, ← Complex.ofReal_div, ← Complex.ofReal_mul]

/-- Where the formulas that `elliprc` and `elliprj` use for the lookback time compare arguments: they are equal at redshift 0, and elsewhere apart if
`tol` is at most `z²` times the size of every root and of the product of the roots. -/
theorem exLook_ok (hL : 0 < L) (ht : 0 < tol) (r : Fin 3 → ℂ) {b c d : ℝ} (h : CubicOK (min 0 z) (r 0 - 1) (r 1 - 1) (r 2 - 1) b c d) (hz : -1 < z)
    (hsep : z = 0 ∨ (∀ i, tol ≤ z ^ 2 * ‖r i‖) ∧ tol ≤ z ^ 2 * ‖r 0 * r 1 * r 2‖) : (exLook tol).OK (inputs L z1 z r) := by
  obtain ⟨⟨e0, e1, e2⟩, e3, e4, e5⟩ := inputs3 (L := L) (z1 := z1) (z2 := z) r
  have s1 := h.slit (min_le_left 0 z)
  have s2 := h.slit (min_le_right 0 z)
  have u := h.params_slit (min_le_left 0 z) (min_le_right 0 z)
  have hne := Real.rpow_pos_of_pos hL (0.5 : ℝ)
  obtain ⟨P, P0, hP⟩ := h.p_pos hz
  obtain ⟨C, C0, hC⟩ := h.rc_pos hz
  have hsub := params3_sub (r 0 - 1) (r 1 - 1) (r 2 - 1) z
  have hrc := rc_sub (r 0 - 1) (r 1 - 1) (r 2 - 1) z
  have hsz : ∀ w : ℂ, ‖(z : ℂ) ^ 2 * w‖ = z ^ 2 * ‖w‖ := fun w => by rw [norm_mul, norm_pow, Complex.norm_real, Real.norm_eq_abs, sq_abs]
  have key : ∀ {a b' w : ℂ}, a - b' = -((z : ℂ) ^ 2 * w) → (z = 0 ∨ tol ≤ z ^ 2 * ‖w‖) → CSep tol a b' := fun {a b' w} e hh => by
    rcases hh with rfl | hh
    · exact .inl (sub_eq_zero.mp (by rw [e]; simp))
    · exact .inr (by rw [e, norm_neg, hsz]; exact hh)
  set pp := (r 0 - 1 + 1) * (z : ℂ) ^ 2 + (params3 (r 0 - 1) (r 1 - 1) (r 2 - 1) 0 z).1 with hpp
  have c1 : CSep tol (params3 (r 0 - 1) (r 1 - 1) (r 2 - 1) 0 z).1 pp := key (w := r 0) (by rw [hpp]; ring) (hsep.imp_right fun h => h.1 0)
  have c2 : CSep tol (params3 (r 0 - 1) (r 1 - 1) (r 2 - 1) 0 z).2.1 pp :=
    key (w := r 1) (by rw [hpp]; linear_combination hsub.1) (hsep.imp_right fun h => h.1 1)
  have c3 : CSep tol (params3 (r 0 - 1) (r 1 - 1) (r 2 - 1) 0 z).2.2 pp :=
    key (w := r 2) (by rw [hpp]; linear_combination hsub.2) (hsep.imp_right fun h => h.1 2)
  have c4 : CSep tol ((Xr (r 0 - 1) 0 * Xr (r 1 - 1) 0 * Xr (r 2 - 1) 0 * (z + 1) + Xr (r 0 - 1) z * Xr (r 1 - 1) z * Xr (r 2 - 1) z) ^ 2) ((z + 1) * pp) :=
    key (w := r 0 * r 1 * r 2) (by rw [hrc]; ring) (hsep.imp_right fun h => h.2)
  have q1 : pp ∈ Complex.slitPlane := by rw [hP]; exact slit_real P0
  have q2 : ((z : ℂ) + 1) * pp ∈ Complex.slitPlane := by
    rw [hP]
    have := slit_real (mul_pos (by linarith : 0 < z + 1) P0)
    push_cast at this
    exact this
  have q3 : (Xr (r 0 - 1) 0 * Xr (r 1 - 1) 0 * Xr (r 2 - 1) 0 * (z + 1) + Xr (r 0 - 1) z * Xr (r 1 - 1) z * Xr (r 2 - 1) z) ^ 2 ∈ Complex.slitPlane := by
    rw [hC]; exact slit_real C0
  have x1 : (((z : ℂ) ^ 2).re : ℂ) = (z : ℂ) ^ 2 := by norm_cast
  have x2 : (((z : ℂ) + 1).re : ℂ) = (z : ℂ) + 1 := by norm_cast
  simp only [params3, Xr, hpp] at u c1 c2 c3 c4 q1 q2 q3
  simp only [exLook, Ex.lookback3, Ex.fix, Ex.params3, Ex.d, Ex.OK, Ex.eval, e0, e2, e3, e4, e5, csqrt_real hL, Complex.ofReal_re, true_and, and_true, Complex.zero_re, x1, x2]
  simp only [s1.1, s1.2.1, s1.2.2, s2.1, s2.2.1, s2.2.2, u.1, u.2.1, u.2.2, slit_real hL, and_self, true_and, ht, c1, c2, c3, c4, q1, q2, q3]
  exact ⟨by norm_num, by exact_mod_cast hne.ne'⟩

theorem exAbs_ok (hL : 0 < L) (ht : 0 < tol) (r : Fin 3 → ℂ) {b c d : ℝ} (h : CubicOK (min 0 z) (r 0 - 1) (r 1 - 1) (r 2 - 1) b c d) (hz : z ≠ 0)
    (hsep : tol ≤ z ^ 2 * ‖r 0 - r 1‖ ∧ tol ≤ z ^ 2 * ‖r 0 - r 2‖) : (exAbs tol).OK (inputs L z1 z r) := by
  obtain ⟨⟨e0, e1, e2⟩, e3, e4, e5⟩ := inputs3 (L := L) (z1 := z1) (z2 := z) r
  have s1 := h.slit (min_le_left 0 z)
  have s2 := h.slit (min_le_right 0 z)
  have u := h.params_slit (min_le_left 0 z) (min_le_right 0 z)
  have hne := Real.rpow_pos_of_pos hL (0.5 : ℝ)
  have hsub := params3_sub (r 0 - 1) (r 1 - 1) (r 2 - 1) z
  have hsz : ∀ w : ℂ, ‖(z : ℂ) ^ 2 * w‖ = z ^ 2 * ‖w‖ := fun w => by rw [norm_mul, norm_pow, Complex.norm_real, Real.norm_eq_abs, sq_abs]
  have c1 : CSep tol (params3 (r 0 - 1) (r 1 - 1) (r 2 - 1) 0 z).2.1 (params3 (r 0 - 1) (r 1 - 1) (r 2 - 1) 0 z).1 :=
    .inr (by rw [hsub.1, hsz, sub_sub_sub_cancel_right]; exact hsep.1)
  have c2 : CSep tol (params3 (r 0 - 1) (r 1 - 1) (r 2 - 1) 0 z).2.2 (params3 (r 0 - 1) (r 1 - 1) (r 2 - 1) 0 z).1 :=
    .inr (by rw [hsub.2, hsz, sub_sub_sub_cancel_right]; exact hsep.2)
  have q := csqrt_ne0 (Complex.slitPlane_ne_zero u.1)
  have hz' : (z : ℂ) ≠ 0 := by exact_mod_cast hz
  simp only [params3, Xr] at u c1 c2 q
  simp only [exAbs, Ex.absorption3, Ex.fix, Ex.params3, Ex.d, Ex.OK, Ex.eval, e0, e2, e3, e4, e5, csqrt_real hL, Complex.ofReal_re, true_and, and_true, Complex.zero_re, sub_zero]
  simp only [Complex.ofReal_zero] at *
  simp only [s1.1, s1.2.1, s1.2.2, s2.1, s2.2.1, s2.2.2, u.1, u.2.1, u.2.2, slit_real hL, and_self, true_and, ht, c1, c2]
  have x0 : ((L ^ (0.5 : ℝ) : ℝ) : ℂ) ≠ 0 := by exact_mod_cast hne.ne'
  have x3 : (3 : ℂ) ≠ 0 := by norm_num
  simp only [q, hz', x0, x3, ne_eq, not_false_eq_true, and_self]

/-! ### Paths -/

/-- What is proved of a method of one redshift: along a path `U` of universes and redshifts `z`, every loss of its value has the derivative that the gradients
of backpropagation give. -/
def MethodGradOK (call : Obj → ℝ → Except Cosmo.Err ℝ) (back : Obj → ℝ → ℝ → Except BErr DistGrad) (U : ℝ → Obj) (z : ℝ → ℝ) (Om' De' z' s0 : ℝ) : Prop :=
  ∃ D : ℝ → ℝ, (∀ᶠ s in 𝓝 s0, call (U s) (z s) = .ok (D s)) ∧
    ∀ (ℓ : ℝ → ℝ) (g : ℝ), HasDerivAt ℓ g (D s0) → ∃ G, back (U s0) (z s0) g = .ok G ∧
      HasDerivAt (fun s => ℓ (D s)) (G.Om0 * Om' + G.Ode0 * De' + G.z2 * z') s0

/-- Roots of the normalised cubic are zeros of `E²` as a polynomial in `1 + z`. -/
theorem root_of_cubic {L k d : ℝ} (hL : L ≠ 0) {R : Fin 3 → ℂ} (hr : Roots.AreRoots (List.ofFn fun j => ((![k, 0, d] j / L : ℝ) : ℂ)) (List.ofFn R)) :
    (∀ i, L * R i ^ 3 + k * R i ^ 2 + d = 0) ∧ R 0 * R 1 * R 2 = ((-d / L : ℝ) : ℂ) := by
  have hL' : (L : ℂ) ≠ 0 := by exact_mod_cast hL
  have key : ∀ x : ℂ, (x - R 0) * (x - R 1) * (x - R 2) = x ^ 3 + k / L * x ^ 2 + d / L := fun x => by
    have := hr.2 x
    simp [Roots.rootProd, Roots.monicEval, List.ofFn_succ] at this
    push_cast at this ⊢
    linear_combination this
  refine ⟨fun i => ?_, ?_⟩
  · have h0 : R i ^ 3 + k / L * R i ^ 2 + d / L = 0 := by
      rw [← key]
      fin_cases i <;> simp
    have : (L : ℂ) * R i ^ 3 + k * R i ^ 2 + d = L * (R i ^ 3 + k / L * R i ^ 2 + d / L) := by field_simp
    rw [this, h0, mul_zero]
  · have := key 0
    push_cast
    linear_combination -this

attribute [local irreducible] Ex.back

/-- A method of one redshift. -/
theorem Path.method1 {U : ℝ → Obj} {Om k d z : ℝ → ℝ} {Om' k' d' De' z' s0 : ℝ} (P : Path p c n U Om k d) (hs : Solves solve) (hOm : HasDerivAt Om Om' s0)
    (hk : HasDerivAt k k' s0) (hd : HasDerivAt d d' s0) (hz : HasDerivAt z z' s0)
    (hleaf : ∀ gL g0 g1 g2 z, let G := leavesOf false c.flat gL [g0, g1, g2] z
      G.Om0 * Om' + G.Or0 * 0 + G.Ode0 * De' = gL * Om' + g0 * k' + g2 * d') (hm : 0 < Om s0)
    (hd0 : d s0 ≠ 0) (hdisc : 4 * k s0 ^ 3 + 27 * Om s0 ^ 2 * d s0 ≠ 0) {ex : (m : ℕ) → Option (Ex (3 + m))} {e : Ex (3 + 3)} (hex : ex 3 = some e) {D : ℝ → ℝ}
    (hok : ∀ R : Fin 3 → ℂ, Roots.AreRoots (List.ofFn fun j => ((![k s0, 0, d s0] j / Om s0 : ℝ) : ℂ)) (List.ofFn R) → Function.Injective R →
      e.OK (inputs (Om s0) 0 (z s0) R))
    (hval : ∀ᶠ s in 𝓝 s0, ∀ R : Fin 3 → ℂ, Roots.AreRoots (List.ofFn fun j => ((![k s, 0, d s] j / Om s : ℝ) : ℂ)) (List.ofFn R) →
      (e.eval (inputs (Om s) 0 (z s) R)).re = D s) (ℓ : ℝ → ℝ) (g : ℝ) (hℓ : HasDerivAt ℓ g (D s0)) :
    ∃ G, methodBackward ex solve c (U s0) n 0 (z s0) g = .ok G ∧ HasDerivAt (fun s => ℓ (D s)) (G.Om0 * Om' + G.Ode0 * De' + G.z2 * z') s0 := by
  obtain ⟨G, hG, hD⟩ := P.method hs hOm hk hd (hasDerivAt_const s0 (0 : ℝ)) hz hleaf hm hd0 hdisc hex hok hval ℓ g hℓ
  exact ⟨G, hG, hD.congr_deriv (by ring)⟩

theorem Path.lookback {U : ℝ → Obj} {Om k d z : ℝ → ℝ} {Om' k' d' De' z' s0 : ℝ} (P : Path p c n U Om k d) (hs : Solves solve) (hOm : HasDerivAt Om Om' s0)
    (hk : HasDerivAt k k' s0) (hd : HasDerivAt d d' s0) (hz : HasDerivAt z z' s0)
    (hleaf : ∀ gL g0 g1 g2 z, let G := leavesOf false c.flat gL [g0, g1, g2] z
      G.Om0 * Om' + G.Or0 * 0 + G.Ode0 * De' = gL * Om' + g0 * k' + g2 * d') (hm : 0 < Om s0) (hz1 : -1 < z s0)
    (hp : ∀ t, min 0 (z s0) ≤ t → 0 < Q (Om s0) (k s0) (d s0) t) (hd0 : d s0 ≠ 0) (hdisc : 4 * k s0 ^ 3 + 27 * Om s0 ^ 2 * d s0 ≠ 0) (ht : 0 < tol)
    (hsep : z s0 = 0 ∨ (∀ x : ℂ, Om s0 * x ^ 3 + k s0 * x ^ 2 + d s0 = 0 → tol ≤ z s0 ^ 2 * ‖x‖) ∧ tol ≤ z s0 ^ 2 * (|d s0| / Om s0)) :
    MethodGradOK (fun o z => call3 solve c o n fun L r1 r2 r3 => lookback3 L r1 r2 r3 z) (fun o z g => lookbackBackward tol solve c o n z g) U z Om' De' z' s0 := by
  have e1 := eventually_pos hOm.continuousAt hk.continuousAt hd.continuousAt (continuousAt_const.min hz.continuousAt) hm hp
  have e2 : ∀ᶠ s in 𝓝 s0, 0 < Om s := hOm.continuousAt.eventually_const_lt hm
  have e3 : ∀ᶠ s in 𝓝 s0, -1 < z s := hz.continuousAt.eventually_const_lt hz1
  refine ⟨fun s => ∫ t in (0 : ℝ)..(z s), lookbackIntegrand (Q (Om s) (k s) (d s) t) t, ?_, fun ℓ g hℓ => ?_⟩
  · filter_upwards [e1, e2, e3] with s s1 s2 s3
    refine C92_lookback (E2 := Q (Om s) (k s) (d s)) ⟨P.lam, P.rad, P.reach s, P.fuel, by rwa [P.om], ?_, s1⟩ s3 hs
    have := e2func_Q P.lam P.rad (P.hk s) (P.hd s)
    rwa [P.om] at this
  · refine P.method1 (D := fun s => ∫ t in (0 : ℝ)..(z s), lookbackIntegrand (Q (Om s) (k s) (d s) t) t) hs hOm hk hd hz hleaf hm hd0 hdisc
      (lookbackEx_three (tol := tol)) (fun R hR _ => ?_) ?_ ℓ g hℓ
    · obtain ⟨q1, q2⟩ := root_of_cubic hm.ne' hR
      refine exLook_ok hm ht R (cubicOK_roots hm hp hR) hz1 (hsep.imp_right fun h => ⟨fun i => h.1 _ (q1 i), ?_⟩)
      rw [q2, Complex.norm_real, Real.norm_eq_abs, abs_div, abs_neg, abs_of_pos hm]
      exact h.2
    · filter_upwards [e1, e2, e3] with s s1 s2 s3 R hR
      rw [exLook_eval s2, Complex.ofReal_re, (cubicOK_roots s2 s1 hR).lookback_value s2 s3]
      exact intervalIntegral.integral_congr fun t _ => by rw [Q_cubic s2.ne']

theorem Path.absorption {U : ℝ → Obj} {Om k d z : ℝ → ℝ} {Om' k' d' De' z' s0 : ℝ} (P : Path p c n U Om k d) (hs : Solves solve) (hOm : HasDerivAt Om Om' s0)
    (hk : HasDerivAt k k' s0) (hd : HasDerivAt d d' s0) (hz : HasDerivAt z z' s0)
    (hleaf : ∀ gL g0 g1 g2 z, let G := leavesOf false c.flat gL [g0, g1, g2] z
      G.Om0 * Om' + G.Or0 * 0 + G.Ode0 * De' = gL * Om' + g0 * k' + g2 * d') (hm : 0 < Om s0) (hz0 : z s0 ≠ 0)
    (hp : ∀ t, min 0 (z s0) ≤ t → 0 < Q (Om s0) (k s0) (d s0) t) (hd0 : d s0 ≠ 0) (hdisc : 4 * k s0 ^ 3 + 27 * Om s0 ^ 2 * d s0 ≠ 0) (ht : 0 < tol)
    (hsep : ∀ x y : ℂ, Om s0 * x ^ 3 + k s0 * x ^ 2 + d s0 = 0 → Om s0 * y ^ 3 + k s0 * y ^ 2 + d s0 = 0 → x ≠ y → tol ≤ z s0 ^ 2 * ‖x - y‖) :
    MethodGradOK (fun o z => call3 solve c o n fun L r1 r2 r3 => absorption3 L r1 r2 r3 0 z) (fun o z g => absorptionBackward tol solve c o n z g) U z Om' De' z' s0 := by
  have e1 := eventually_pos hOm.continuousAt hk.continuousAt hd.continuousAt (continuousAt_const.min hz.continuousAt) hm hp
  have e2 : ∀ᶠ s in 𝓝 s0, 0 < Om s := hOm.continuousAt.eventually_const_lt hm
  have e3 : ∀ᶠ s in 𝓝 s0, z s ≠ 0 := hz.continuousAt.eventually_ne hz0
  refine ⟨fun s => ∫ t in (0 : ℝ)..(z s), absIntegrand (Q (Om s) (k s) (d s) t) t, ?_, fun ℓ g hℓ => ?_⟩
  · filter_upwards [e1, e2, e3] with s s1 s2 s3
    refine C93_absorption (E2 := Q (Om s) (k s) (d s)) ⟨P.lam, P.rad, P.reach s, P.fuel, by rwa [P.om], ?_, s1⟩ s3 hs
    have := e2func_Q P.lam P.rad (P.hk s) (P.hd s)
    rwa [P.om] at this
  · refine P.method1 (D := fun s => ∫ t in (0 : ℝ)..(z s), absIntegrand (Q (Om s) (k s) (d s) t) t) hs hOm hk hd hz hleaf hm hd0 hdisc
      (absorptionEx_three (tol := tol)) (fun R hR hi => ?_) ?_ ℓ g hℓ
    · obtain ⟨q1, -⟩ := root_of_cubic hm.ne' hR
      exact exAbs_ok hm ht R (cubicOK_roots hm hp hR) hz0 ⟨hsep _ _ (q1 0) (q1 1) (hi.ne (by decide)), hsep _ _ (q1 0) (q1 2) (hi.ne (by decide))⟩
    · filter_upwards [e1, e2, e3] with s s1 s2 s3 R hR
      rw [exAbs_eval s2, Complex.ofReal_re, (cubicOK_roots s2 s1 hR).absorption_value s2 s3]
      exact intervalIntegral.integral_congr fun t _ => by rw [Q_cubic s2.ne']

/-! ### C144 -/

/-- **C144** (lookback time of LambdaCDM).  Let `Om0`, `Ode0` and the redshift depend on `s`.  Where `Om0 > 0`, the redshift is above -1, `E²` is positive from 0
and from the redshift on, neither `Ode0` nor `4 Ok0³ + 27 Om0² Ode0` vanishes, and the redshift is 0 or the threshold of the gradient formulas is at most `z²` times
`|Ode0|/Om0` and times the absolute value of every complex zero of `Om0 x³ + Ok0 x² + Ode0`, backpropagation of any loss of the analytic lookback time succeeds and
gives the derivative of the loss. -/
theorem C144_lookback (ho : Reachable p ⟨.lambda, false, false⟩ o) (hn : 2 ≤ n) (hs : Solves solve) {Om De z : ℝ → ℝ} {Om' De' z' s0 : ℝ}
    (hOm : HasDerivAt Om Om' s0) (hDe : HasDerivAt De De' s0) (hz : HasDerivAt z z' s0) (hm : 0 < Om s0) (hz1 : -1 < z s0)
    (hp : ∀ t, min 0 (z s0) ≤ t → 0 < Om s0 * (1 + t) ^ 3 + (1 - Om s0 - De s0) * (1 + t) ^ 2 + De s0) (hd : De s0 ≠ 0)
    (hdisc : 4 * (1 - Om s0 - De s0) ^ 3 + 27 * Om s0 ^ 2 * De s0 ≠ 0) (ht : 0 < tol)
    (hsep : z s0 = 0 ∨ (∀ x : ℂ, Om s0 * x ^ 3 + (1 - Om s0 - De s0 : ℝ) * x ^ 2 + De s0 = 0 → tol ≤ z s0 ^ 2 * ‖x‖) ∧ tol ≤ z s0 ^ 2 * (|De s0| / Om s0)) :
    MethodGradOK (fun o z => call3 solve ⟨.lambda, false, false⟩ o n fun L r1 r2 r3 => lookback3 L r1 r2 r3 z)
      (fun o z g => lookbackBackward tol solve ⟨.lambda, false, false⟩ o n z g)
      (fun s => setParams p ⟨.lambda, false, false⟩ o [(.Om0, Om s), (.Ode0, De s)]) z Om' De' z' s0 :=
  (path_curved ho hn Om De).lookback hs hOm (((hasDerivAt_const s0 (1 : ℝ)).sub hOm).sub hDe) hDe hz
    (fun gL g0 g1 g2 z => by simp [leavesOf]; ring) hm hz1 hp hd hdisc ht hsep

/-- C144 (lookback time of FlatLambdaCDM): with `Om0` not 1, and the redshift 0 or the threshold at most `z²` times `|Ode0|/Om0` and times its cube root. -/
theorem C144_flat_lookback (ho : Reachable p ⟨.lambda, false, true⟩ o) (hn : 2 ≤ n) (hs : Solves solve) {Om z : ℝ → ℝ} {Om' z' s0 : ℝ}
    (hOm : HasDerivAt Om Om' s0) (hz : HasDerivAt z z' s0) (hm : 0 < Om s0) (hz1 : -1 < z s0)
    (hp : ∀ t, min 0 (z s0) ≤ t → 0 < Om s0 * (1 + t) ^ 3 + (1 - Om s0)) (hne : Om s0 ≠ 1) (ht : 0 < tol)
    (hsep : z s0 = 0 ∨ tol ≤ z s0 ^ 2 * (|1 - Om s0| / Om s0) ^ (1 / 3 : ℝ) ∧ tol ≤ z s0 ^ 2 * (|1 - Om s0| / Om s0)) :
    MethodGradOK (fun o z => call3 solve ⟨.lambda, false, true⟩ o n fun L r1 r2 r3 => lookback3 L r1 r2 r3 z)
      (fun o z g => lookbackBackward tol solve ⟨.lambda, false, true⟩ o n z g)
      (fun s => setParams p ⟨.lambda, false, true⟩ o [(.Om0, Om s)]) z Om' 0 z' s0 :=
  (path_flat ho hn Om).lookback hs hOm (hasDerivAt_const s0 0) ((hasDerivAt_const s0 (1 : ℝ)).sub hOm) hz
    (fun gL g0 g1 g2 z => by simp [leavesOf]; ring) hm hz1 (fun t ht => by rw [Q, zero_mul, add_zero]; exact hp t ht) (flat_disc hm hne).1 (flat_disc hm hne).2 ht
    (hsep.imp_right fun h => ⟨fun x hx => by
      have e : x ^ 3 = ((-(1 - Om s0) / Om s0 : ℝ) : ℂ) := by
        have : (Om s0 : ℂ) ≠ 0 := by exact_mod_cast hm.ne'
        push_cast
        rw [eq_div_iff this]
        push_cast at hx
        linear_combination hx
      have e' : ‖x‖ ^ 3 = |1 - Om s0| / Om s0 := by rw [← norm_pow, e, Complex.norm_real, Real.norm_eq_abs, abs_div, abs_neg, abs_of_pos hm]
      have : ‖x‖ = (|1 - Om s0| / Om s0) ^ (1 / 3 : ℝ) := by
        rw [← e', ← Real.rpow_natCast, ← Real.rpow_mul (norm_nonneg _)]
        norm_num
      rw [this]
      exact h.1, h.2⟩)

/-- **C144** (absorption distance of LambdaCDM).  As for the lookback time, for non-zero redshifts where the threshold is at most `z²` times the distance between any
two distinct complex zeros of `Om0 x³ + Ok0 x² + Ode0`. -/
theorem C144_absorption (ho : Reachable p ⟨.lambda, false, false⟩ o) (hn : 2 ≤ n) (hs : Solves solve) {Om De z : ℝ → ℝ} {Om' De' z' s0 : ℝ}
    (hOm : HasDerivAt Om Om' s0) (hDe : HasDerivAt De De' s0) (hz : HasDerivAt z z' s0) (hm : 0 < Om s0) (hz0 : z s0 ≠ 0)
    (hp : ∀ t, min 0 (z s0) ≤ t → 0 < Om s0 * (1 + t) ^ 3 + (1 - Om s0 - De s0) * (1 + t) ^ 2 + De s0) (hd : De s0 ≠ 0)
    (hdisc : 4 * (1 - Om s0 - De s0) ^ 3 + 27 * Om s0 ^ 2 * De s0 ≠ 0) (ht : 0 < tol)
    (hsep : ∀ x y : ℂ, Om s0 * x ^ 3 + (1 - Om s0 - De s0 : ℝ) * x ^ 2 + De s0 = 0 → Om s0 * y ^ 3 + (1 - Om s0 - De s0 : ℝ) * y ^ 2 + De s0 = 0 → x ≠ y →
      tol ≤ z s0 ^ 2 * ‖x - y‖) :
    MethodGradOK (fun o z => call3 solve ⟨.lambda, false, false⟩ o n fun L r1 r2 r3 => absorption3 L r1 r2 r3 0 z)
      (fun o z g => absorptionBackward tol solve ⟨.lambda, false, false⟩ o n z g)
      (fun s => setParams p ⟨.lambda, false, false⟩ o [(.Om0, Om s), (.Ode0, De s)]) z Om' De' z' s0 :=
  (path_curved ho hn Om De).absorption hs hOm (((hasDerivAt_const s0 (1 : ℝ)).sub hOm).sub hDe) hDe hz
    (fun gL g0 g1 g2 z => by simp [leavesOf]; ring) hm hz0 hp hd hdisc ht hsep

/-- C144 (absorption distance of FlatLambdaCDM): the distinct zeros are `√3 (|Ode0|/Om0)^(1/3)` apart. -/
theorem C144_flat_absorption (ho : Reachable p ⟨.lambda, false, true⟩ o) (hn : 2 ≤ n) (hs : Solves solve) {Om z : ℝ → ℝ} {Om' z' s0 : ℝ}
    (hOm : HasDerivAt Om Om' s0) (hz : HasDerivAt z z' s0) (hm : 0 < Om s0) (hz0 : z s0 ≠ 0)
    (hp : ∀ t, min 0 (z s0) ≤ t → 0 < Om s0 * (1 + t) ^ 3 + (1 - Om s0)) (hne : Om s0 ≠ 1) (ht : 0 < tol)
    (hsep : tol ≤ z s0 ^ 2 * (√3 * (|1 - Om s0| / Om s0) ^ (1 / 3 : ℝ))) :
    MethodGradOK (fun o z => call3 solve ⟨.lambda, false, true⟩ o n fun L r1 r2 r3 => absorption3 L r1 r2 r3 0 z)
      (fun o z g => absorptionBackward tol solve ⟨.lambda, false, true⟩ o n z g)
      (fun s => setParams p ⟨.lambda, false, true⟩ o [(.Om0, Om s)]) z Om' 0 z' s0 :=
  (path_flat ho hn Om).absorption hs hOm (hasDerivAt_const s0 0) ((hasDerivAt_const s0 (1 : ℝ)).sub hOm) hz
    (fun gL g0 g1 g2 z => by simp [leavesOf]; ring) hm hz0 (fun t ht => by rw [Q, zero_mul, add_zero]; exact hp t ht) (flat_disc hm hne).1 (flat_disc hm hne).2 ht
    (fun x y hx hy hxy => by
      have e : ∀ {x : ℂ}, (Om s0 : ℂ) * x ^ 3 + ((0 : ℝ) : ℂ) * x ^ 2 + ((1 - Om s0 : ℝ) : ℂ) = 0 → x ^ 3 = ((-(1 - Om s0) / Om s0 : ℝ) : ℂ) := fun {x} hx => by
        have : (Om s0 : ℂ) ≠ 0 := by exact_mod_cast hm.ne'
        push_cast
        rw [eq_div_iff this]
        push_cast at hx
        linear_combination hx
      have e' : ∀ {x : ℂ}, x ^ 3 = ((-(1 - Om s0) / Om s0 : ℝ) : ℂ) → ‖x‖ = (|1 - Om s0| / Om s0) ^ (1 / 3 : ℝ) := fun {x} h => by
        have : ‖x‖ ^ 3 = |1 - Om s0| / Om s0 := by rw [← norm_pow, h, Complex.norm_real, Real.norm_eq_abs, abs_div, abs_neg, abs_of_pos hm]
        rw [← this, ← Real.rpow_natCast, ← Real.rpow_mul (norm_nonneg _)]
        norm_num
      -- x² + x y + y² = 0, so (x - y)² = -3 x y
      have h1 : (x - y) * (x ^ 2 + x * y + y ^ 2) = 0 := by linear_combination e hx - e hy
      have h2 : x ^ 2 + x * y + y ^ 2 = 0 := (mul_eq_zero.mp h1).resolve_left (sub_ne_zero.mpr hxy)
      have h3 : (x - y) ^ 2 = -3 * (x * y) := by linear_combination h2
      have h4 : ‖x - y‖ ^ 2 = 3 * (((|1 - Om s0| / Om s0) ^ (1 / 3 : ℝ)) ^ 2) := by
        rw [← norm_pow, h3, norm_mul, norm_mul, e' (e hx), e' (e hy)]
        norm_num
        ring
      have h5 : ‖x - y‖ = √3 * (|1 - Om s0| / Om s0) ^ (1 / 3 : ℝ) := by
        have p0 : 0 ≤ (|1 - Om s0| / Om s0) ^ (1 / 3 : ℝ) := by positivity
        rw [← Real.sqrt_sq (norm_nonneg (x - y)), h4, Real.sqrt_mul (by norm_num), Real.sqrt_sq p0]
      rw [h5]
      exact hsep)

theorem method_raises_iff (hde : c.de = .lambda) (hrad : c.rad = false) (ho : Reachable p c o) (hn : 2 ≤ n) (hs : Solves solve) (hm : o.Om0 ≠ 0)
    {ex : (m : ℕ) → Option (Ex (3 + m))} {e : Ex (3 + 3)} (hex : ex 3 = some e) (z1 z g : ℝ) :
    ∃ k d, ok0 c o n = .ok k ∧ ode0 c o n = .ok d ∧
      ((∃ e, methodBackward ex solve c o n z1 z g = .error e) ↔ methodBackward ex solve c o n z1 z g = .error .linalg) ∧
      (methodBackward ex solve c o n z1 z g = .error .linalg ↔ ∃ x : ℂ, o.Om0 * x ^ 3 + k * x ^ 2 + d = 0 ∧ 3 * o.Om0 * x ^ 2 + 2 * k * x = 0) := by
  obtain ⟨k, d, -, hk, hd, -⟩ := C48_factorisation p c o ho hde n hn (by simpa [epolyLeading, hrad] using hm) solve hs 0
  refine ⟨k, d, hk, hd, ?_⟩
  obtain ⟨R1, R2, R3, hr⟩ := roots3 hs (k / o.Om0) (d / o.Om0)
  have hc : epolyCoeffs c o k d = [k / o.Om0, 0, d / o.Om0] := by simp [epolyCoeffs, epolyCoeffs_, epolyLeading, hrad]
  have hb : methodBackward ex solve c o n z1 z g = methodBackwardAt ex [R1, R2, R3] c o k d z1 z g := by simp only [methodBackward, hk, hd, hc, hr.eq]
  have hpr : ∀ x, Roots.rootProd [R1, R2, R3] x = x ^ 3 + ((k / o.Om0 : ℝ) : ℂ) * x ^ 2 + ((d / o.Om0 : ℝ) : ℂ) := fun x => by
    rw [← hr.prod x]
    simp [Roots.rootProd]
    ring
  have hS : [R1, R2, R3].Nodup ↔ ¬ ∃ x : ℂ, o.Om0 * x ^ 3 + k * x ^ 2 + d = 0 ∧ 3 * o.Om0 * x ^ 2 + 2 * k * x = 0 := by
    rw [nodup3_iff hm hpr]
    push Not
    rfl
  rw [hb]
  rcases methodBackwardAt_cases (ex := ex) (rts := [R1, R2, R3]) (by simp) ⟨e, hex⟩ c o k d z1 z g with ⟨hnd, G, hG⟩ | ⟨hnd, hG⟩
  · rw [hG]
    simp [hS.mp hnd]
  · rw [hG]
    simp [not_not.mp (fun h => hnd (hS.mpr h))]

/-- C144: with `Om0` not zero, backpropagation through either method fails exactly when `E²` as a polynomial in `1 + z` has a complex zero in common with its
derivative (in particular without dark energy), and then with `LinAlgError`, whatever the redshift. -/
theorem C144_raises_iff (hde : c.de = .lambda) (hrad : c.rad = false) (ho : Reachable p c o) (hn : 2 ≤ n) (hs : Solves solve) (hm : o.Om0 ≠ 0) (z g : ℝ) :
    ∃ k d, ok0 c o n = .ok k ∧ ode0 c o n = .ok d ∧ ∀ back ∈ [lookbackBackward tol solve c o n z g, absorptionBackward tol solve c o n z g],
      ((∃ e, back = .error e) ↔ back = .error .linalg) ∧
      (back = .error .linalg ↔ ∃ x : ℂ, o.Om0 * x ^ 3 + k * x ^ 2 + d = 0 ∧ 3 * o.Om0 * x ^ 2 + 2 * k * x = 0) := by
  obtain ⟨k, d, hk, hd, h1⟩ := method_raises_iff hde hrad ho hn hs hm (lookbackEx_three (tol := tol)) 0 z g
  obtain ⟨k', d', hk', hd', h2⟩ := method_raises_iff hde hrad ho hn hs hm (absorptionEx_three (tol := tol)) 0 z g
  obtain rfl : k = k' := Except.ok.inj (hk.symm.trans hk')
  obtain rfl : d = d' := Except.ok.inj (hd.symm.trans hd')
  refine ⟨k, d, hk, hd, fun back hb => ?_⟩
  simp only [List.mem_cons, List.not_mem_nil, or_false] at hb
  rcases hb with rfl | rfl
  · exact h1
  · exact h2

/-! ### The hypotheses are met -/

/-- A LambdaCDM with `Om0 = 0.5 + s`, `Ode0 = 1 - 2 s` (the zeros are -1 and `1 ± i`) at redshift `2 + 3 s`. -/
theorem example_curved (p : Phys) {solve : List ℝ → List ℂ} (hs : Solves solve) : ∃ o, Reachable p ⟨.lambda, false, false⟩ o ∧
    MethodGradOK (fun o z => call3 solve ⟨.lambda, false, false⟩ o 2 fun L r1 r2 r3 => lookback3 L r1 r2 r3 z)
      (fun o z g => lookbackBackward 1e-9 solve ⟨.lambda, false, false⟩ o 2 z g)
      (fun s => setParams p ⟨.lambda, false, false⟩ o [(.Om0, 0.5 + s), (.Ode0, 1 - 2 * s)]) (fun s => 2 + 3 * s) 1 (-2) 3 0 ∧
    MethodGradOK (fun o z => call3 solve ⟨.lambda, false, false⟩ o 2 fun L r1 r2 r3 => absorption3 L r1 r2 r3 0 z)
      (fun o z g => absorptionBackward 1e-9 solve ⟨.lambda, false, false⟩ o 2 z g)
      (fun s => setParams p ⟨.lambda, false, false⟩ o [(.Om0, 0.5 + s), (.Ode0, 1 - 2 * s)]) (fun s => 2 + 3 * s) 1 (-2) 3 0 := by
  have hr : Reachable p ⟨.lambda, false, false⟩ _ := ⟨1, [(.Om0, 0.3), (.Ode0, 0.5)], [], _, rfl, rfl⟩
  have h1 : HasDerivAt (fun s : ℝ => 0.5 + s) 1 0 := (hasDerivAt_id (0 : ℝ)).const_add 0.5
  have h2 : HasDerivAt (fun s : ℝ => 1 - 2 * s) (-2) 0 := by simpa using ((hasDerivAt_id (0 : ℝ)).const_mul 2).const_sub 1
  have h3 : HasDerivAt (fun s : ℝ => 2 + 3 * s) 3 0 := by simpa using ((hasDerivAt_id (0 : ℝ)).const_mul 3).const_add 2
  have hp : ∀ t : ℝ, min 0 (2 + 3 * (0 : ℝ)) ≤ t → 0 < (0.5 + (0 : ℝ)) * (1 + t) ^ 3 + (1 - (0.5 + 0) - (1 - 2 * 0)) * (1 + t) ^ 2 + (1 - 2 * 0) := fun t ht => by
    have : 0 ≤ t := by simpa using ht
    norm_num
    nlinarith [mul_nonneg (sq_nonneg (1 + t)) this]
  have hx : ∀ x : ℂ, ((0.5 + (0 : ℝ) : ℝ) : ℂ) * x ^ 3 + ((1 - (0.5 + 0) - (1 - 2 * 0) : ℝ) : ℂ) * x ^ 2 + ((1 - 2 * 0 : ℝ) : ℂ) = 0 →
      x = -1 ∨ x = 1 + Complex.I ∨ x = 1 - Complex.I := fun x hx => by
    have : (x + 1) * ((x - (1 + Complex.I)) * (x - (1 - Complex.I))) = 0 := by
      push_cast at hx
      linear_combination 2 * hx - (x + 1) * Complex.I_sq
    rcases mul_eq_zero.mp this with h | h
    · exact .inl (by linear_combination h)
    · rcases mul_eq_zero.mp h with h | h
      · exact .inr (.inl (by linear_combination h))
      · exact .inr (.inr (by linear_combination h))
  have big : ∀ w : ℂ, 1 ≤ Complex.normSq w → (1e-9 : ℝ) ≤ (2 + 3 * (0 : ℝ)) ^ 2 * ‖w‖ := fun w hw => by
    rw [Complex.normSq_eq_norm_sq] at hw
    have : 1 ≤ ‖w‖ := by nlinarith [norm_nonneg w]
    norm_num
    linarith
  refine ⟨_, hr, C144_lookback hr le_rfl hs h1 h2 h3 (by norm_num) (by norm_num) hp (by norm_num) (by norm_num) (by norm_num) (.inr ⟨fun x h => big x ?_, by norm_num⟩),
    C144_absorption hr le_rfl hs h1 h2 h3 (by norm_num) (by norm_num) hp (by norm_num) (by norm_num) (by norm_num) (fun x y h h' hxy => big _ ?_)⟩
  · rcases hx x h with rfl | rfl | rfl <;> norm_num [Complex.normSq_apply]
  · rcases hx x h with rfl | rfl | rfl <;> rcases hx y h' with rfl | rfl | rfl <;> first | exact absurd rfl hxy | norm_num [Complex.normSq_apply]

/-- The lookback time at redshift 0, where all arguments coincide, and a negative redshift in a FlatLambdaCDM. -/
example (p : Phys) {solve : List ℝ → List ℂ} (hs : Solves solve) : ∃ o,
    MethodGradOK (fun o z => call3 solve ⟨.lambda, false, true⟩ o 2 fun L r1 r2 r3 => lookback3 L r1 r2 r3 z)
      (fun o z g => lookbackBackward 1e-9 solve ⟨.lambda, false, true⟩ o 2 z g)
      (fun s => setParams p ⟨.lambda, false, true⟩ o [(.Om0, 0.5 + s)]) (fun s => s) 1 0 1 0 ∧
    MethodGradOK (fun o z => call3 solve ⟨.lambda, false, true⟩ o 2 fun L r1 r2 r3 => absorption3 L r1 r2 r3 0 z)
      (fun o z g => absorptionBackward 1e-9 solve ⟨.lambda, false, true⟩ o 2 z g)
      (fun s => setParams p ⟨.lambda, false, true⟩ o [(.Om0, 0.5 + s)]) (fun s => s - 1 / 2) 1 0 1 0 := by
  have hr : Reachable p ⟨.lambda, false, true⟩ _ := ⟨1, [(.Om0, 0.3)], [], _, rfl, rfl⟩
  have h1 : HasDerivAt (fun s : ℝ => 0.5 + s) 1 0 := (hasDerivAt_id (0 : ℝ)).const_add 0.5
  refine ⟨_, C144_flat_lookback hr le_rfl hs h1 (hasDerivAt_id (0 : ℝ)) (by norm_num) (by norm_num) (fun t ht => ?_) (by norm_num) (by norm_num) (.inl rfl),
    C144_flat_absorption hr le_rfl hs h1 ((hasDerivAt_id (0 : ℝ)).sub_const (1 / 2)) (by norm_num) (by norm_num) (fun t ht => ?_) (by norm_num) (by norm_num) ?_⟩
  · have : 0 ≤ t := by simpa using ht
    norm_num
    positivity
  · have : -1 / 2 ≤ t := by
      rcases min_le_iff.mp ht with h | h
      · linarith
      · simp at h
        linarith
    have : 0 < 1 + t := by linarith
    norm_num
    positivity
  · have : 1 ≤ √3 := Real.one_le_sqrt.mpr (by norm_num)
    norm_num
    linarith

end Verif.Ellred

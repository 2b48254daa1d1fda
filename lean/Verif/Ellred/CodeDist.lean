import Verif.Ellred.ComplexProps
import Verif.Ellred.LambdaR

/-! # The comoving distances with the code's own `elliprf` (C146) -/

namespace Verif.Ellred

open MeasureTheory Set Filter Topology Verif.Carlson Verif.Cosmo

/-- `LambdaCDM._ellipr_comoving_distance_dimless_z1z2` (analytic.py:112-113) with the routine `elliprf` of the extension (elliprf.h). `none`
stands for a value that is not a number. -/
noncomputable def codeComoving3 (eps L : ℝ) (r1 r2 r3 : ℂ) (z1 z2 : ℝ) : Option ℝ :=
  let u := params3 r1 r2 r3 z1 z2
  match elliprf eps u.1 u.2.1 u.2.2 with
  | .val v => some (2 * (z2 - z1) * fixDimless L v)
  | _ => none

/-- `LambdaCDMR._ellipr_comoving_distance_dimless_z1z2` (analytic.py:183-184) with the routine `elliprf` of the extension (elliprf.h). -/
noncomputable def codeComoving4 (eps L : ℝ) (r1 r2 r3 r4 : ℂ) (z1 z2 : ℝ) : Option ℝ :=
  let u := params4 r1 r2 r3 r4 z1 z2
  match elliprf eps u.1 u.2.1 u.2.2 with
  | .val v => some (2 * (z2 - z1) * fixDimless L v)
  | _ => none

theorem no_three {a b c : ℂ} {W : ℝ} (ha : 0 < a.re) (hb : 0 < b.re) (hc : 0 < c.re) (hW : 0 < W) (h : a * b * c = W)
    (h1 : (a ^ 2).re < 0) (h2 : (b ^ 2).re < 0) (hs : 0 ≤ a.im * b.im) : False := by
  have e : ∀ w : ℂ, (w ^ 2).re = w.re * w.re - w.im * w.im := fun w => by rw [pow_two, Complex.mul_re]
  rw [e] at h1 h2
  have hp : (a * b).re < 0 := by
    rw [Complex.mul_re, sub_neg]
    have k1 : a.re < |a.im| := by rw [← abs_of_pos ha]; exact sq_lt_sq.mp (by nlinarith)
    have k2 : b.re < |b.im| := by rw [← abs_of_pos hb]; exact sq_lt_sq.mp (by nlinarith)
    rw [← abs_of_nonneg hs, abs_mul]
    exact mul_lt_mul'' k1 k2 ha.le hb.le
  generalize a * b = p at h hp
  have hr := congrArg Complex.re h
  have hi := congrArg Complex.im h
  rw [Complex.mul_re, Complex.ofReal_re] at hr
  rw [Complex.mul_im, Complex.ofReal_im] at hi
  have : c.re * (p.re ^ 2 + p.im ^ 2) = W * p.re := by linear_combination p.re * hr + p.im * hi
  have : 0 < c.re * (p.re ^ 2 + p.im ^ 2) := mul_pos hc (by nlinarith [sq_nonneg p.im])
  nlinarith

/-- Squares of numbers in the right half plane with a positive product are arguments for which `elliprf` is accurate. -/
theorem CArgs_sq {a b c : ℂ} {W : ℝ} (ha : 0 < a.re) (hb : 0 < b.re) (hc : 0 < c.re) (hW : 0 < W) (h : a * b * c = W) :
    CArgs (a ^ 2) (b ^ 2) (c ^ 2) := by
  have s : ∀ {w : ℂ}, 0 < w.re → w ^ 2 ∈ Complex.slitPlane := fun hw => by rw [pow_two]; exact slit_mul_of_re hw hw
  have n : ∀ {w : ℂ}, 0 < w.re → w ^ 2 ≠ 0 := fun hw => Complex.slitPlane_ne_zero (s hw)
  refine ⟨Or.inr (s ha), Or.inr (s hb), Or.inr (s hc), Or.inl (n ha), Or.inl (n ha), Or.inl (n hb), Or.inr ?_⟩
  by_contra hn
  push Not at hn
  obtain ⟨h1, h2, h3⟩ := hn
  rcases le_total 0 (a.im * b.im) with k | k
  · exact no_three ha hb hc hW h h1 h2 k
  rcases le_total 0 (a.im * c.im) with k' | k'
  · exact no_three ha hc hb hW (by rw [← h]; ring) h1 h3 k'
  · refine no_three hb hc ha hW (by rw [← h]; ring) h2 h3 ?_
    have e : ∀ w : ℂ, (w ^ 2).re = w.re * w.re - w.im * w.im := fun w => by rw [pow_two, Complex.mul_re]
    rw [e] at h1
    have ha2 : 0 < a.im * a.im := by nlinarith
    have : 0 ≤ (a.im * a.im) * (b.im * c.im) := by nlinarith [mul_nonneg_of_nonpos_of_nonpos k k']
    exact nonneg_of_mul_nonneg_right this ha2

theorem Kernel.args {y x : ℝ} {s : ℝ → ℝ} {U1 U2 U3 : ℝ → ℂ} {V W : ℝ → ℝ} (K : Kernel y x s U1 U2 U3 V W) {k : ℝ} (hk : 0 < k) :
    CArgs (((k : ℂ) * U1 x) ^ 2) (((k : ℂ) * U2 x) ^ 2) (((k : ℂ) * U3 x) ^ 2) := by
  have hx : x ∈ Ioc y x := ⟨K.lt, le_rfl⟩
  have r : ∀ w : ℂ, 0 < w.re → 0 < ((k : ℂ) * w).re := fun w hw => by rw [Complex.re_ofReal_mul]; exact mul_pos hk hw
  refine CArgs_sq (W := k ^ 3 * W x) (r _ (K.re1 x hx)) (r _ (K.re2 x hx)) (r _ (K.re3 x hx)) (mul_pos (pow_pos hk 3) (K.W_pos x hx)) ?_
  push_cast
  rw [← K.prod x hx]
  ring

theorem CArgs_pos {w : ℝ} (hw : 0 < w) : CArgs w w w := by
  have hs : (w : ℂ) ∈ Complex.slitPlane := Complex.ofReal_mem_slitPlane.mpr hw
  have hn : (w : ℂ) ≠ 0 := by exact_mod_cast hw.ne'
  exact ⟨Or.inr hs, Or.inr hs, Or.inr hs, Or.inl hn, Or.inl hn, Or.inl hn, Or.inr (Or.inl (by simpa using hw.le))⟩

theorem CubicOK.args {z1 z2 : ℝ} {r1 r2 r3 : ℂ} {b c d : ℝ} (h : CubicOK z1 r1 r2 r3 b c d) (hle : z1 ≤ z2) :
    CArgs (params3 r1 r2 r3 z1 z2).1 (params3 r1 r2 r3 z1 z2).2.1 (params3 r1 r2 r3 z1 z2).2.2 := by
  rcases hle.lt_or_eq with hlt | rfl
  · obtain ⟨V, W, K⟩ := h.kernel' hlt
    rw [params3_eq hlt]
    exact K.args (sub_pos.mpr hlt)
  · have hs := h.sqrt_eq (lt_add_one z1) (t := z1) ⟨le_rfl, by linarith⟩
    have hv : ∀ u : ℂ, u = 2 * (Xr r1 z1 * Xr r2 z1 * Xr r3 z1) → u ^ 2 = ((4 * (√(cubic b c d z1)) ^ 2 : ℝ) : ℂ) := by
      rintro u rfl
      rw [hs, CubicOK.cubic]
      push_cast
      ring
    have p := CArgs_pos (w := 4 * (√(cubic b c d z1)) ^ 2) (by have := h.cpos le_rfl; positivity)
    simp only [params3]
    rw [hv _ (by ring)]
    exact p

theorem QuarticOK.args {z1 z2 : ℝ} {r1 r2 r3 r4 : ℂ} {b c d e : ℝ} (h : QuarticOK z1 r1 r2 r3 r4 b c d e) (hle : z1 ≤ z2) :
    CArgs (params4 r1 r2 r3 r4 z1 z2).1 (params4 r1 r2 r3 r4 z1 z2).2.1 (params4 r1 r2 r3 r4 z1 z2).2.2 := by
  rcases hle.lt_or_eq with hlt | rfl
  · obtain ⟨V, W, K⟩ := h.kernel' hlt
    rw [params4_eq hlt]
    exact K.args (sub_pos.mpr hlt)
  · have hs := h.sqrt_eq (t := z1) le_rfl
    have hv : ∀ u : ℂ, u = 2 * (Xr r1 z1 * Xr r2 z1 * Xr r3 z1 * Xr r4 z1) → u ^ 2 = ((4 * (√(quartic b c d e z1)) ^ 2 : ℝ) : ℂ) := by
      rintro u rfl
      rw [hs]
      push_cast
      ring
    have p := CArgs_pos (w := 4 * (√(quartic b c d e z1)) ^ 2) (by have := h.cpos le_rfl; positivity)
    simp only [params4]
    rw [hv _ (by ring)]
    exact p

/-- A complex value within a relative error of a real number has a real part within that error. -/
theorem dist_error {v R : ℂ} {k I L δ : ℝ} (hL : 0 < L) (hR : 2 * (k : ℂ) * R = (I : ℂ)) (hv : ‖v - R‖ ≤ δ * ‖R‖) :
    |2 * k * fixDimless L v - I / L ^ (0.5 : ℝ)| ≤ δ * |I / L ^ (0.5 : ℝ)| := by
  have hl := Real.rpow_pos_of_pos hL (0.5 : ℝ)
  have e : 2 * k * fixDimless L v - I / L ^ (0.5 : ℝ) = (2 * (k : ℂ) * (v - R)).re / L ^ (0.5 : ℝ) := by
    rw [mul_sub, hR, show (2 : ℂ) * (k : ℂ) = ((2 * k : ℝ) : ℂ) by push_cast; ring, Complex.sub_re, Complex.re_ofReal_mul, Complex.ofReal_re, fixDimless]
    ring
  rw [e, abs_div, abs_div, abs_of_pos hl, ← mul_div_assoc]
  apply div_le_div_of_nonneg_right _ hl.le
  refine (Complex.abs_re_le_norm _).trans ?_
  rw [← Real.norm_eq_abs, ← Complex.norm_real I, ← hR, norm_mul, norm_mul _ R]
  nlinarith [norm_nonneg (2 * (k : ℂ))]

variable {p : Phys} {c : Cls} {o : Obj} {n : ℕ} {k d : ℝ} {E2 : ℝ → ℝ} {z0 z1 z2 z : ℝ} {solve : List ℝ → List ℂ}

theorem codeComoving3_swap (eps L : ℝ) (r1 r2 r3 : ℂ) (z1 z2 : ℝ) :
    codeComoving3 eps L r1 r2 r3 z1 z2 = (codeComoving3 eps L r1 r2 r3 z2 z1).map fun v => -v := by
  simp only [codeComoving3, CubicOK.params3_swap z1 z2]
  cases elliprf eps (params3 r1 r2 r3 z2 z1).1 (params3 r1 r2 r3 z2 z1).2.1 (params3 r1 r2 r3 z2 z1).2.2 <;> simp
  ring

theorem codeComoving4_swap (eps L : ℝ) (r1 r2 r3 r4 : ℂ) (z1 z2 : ℝ) :
    codeComoving4 eps L r1 r2 r3 r4 z1 z2 = (codeComoving4 eps L r1 r2 r3 r4 z2 z1).map fun v => -v := by
  simp only [codeComoving4, QuarticOK.params4_swap z1 z2]
  cases elliprf eps (params4 r1 r2 r3 r4 z2 z1).1 (params4 r1 r2 r3 r4 z2 z1).2.1 (params4 r1 r2 r3 r4 z2 z1).2.2 <;> simp
  ring

theorem codeComoving3_le {eps : ℝ} (h0 : 0 < eps) (h1 : eps ≤ 1) {L : ℝ} (hL : 0 < L) {r1 r2 r3 : ℂ} {b c d : ℝ} (h : CubicOK z1 r1 r2 r3 b c d) (hle : z1 ≤ z2) :
    ∃ D, codeComoving3 eps L r1 r2 r3 z1 z2 = some D ∧
      |D - (∫ t in Ioc z1 z2, 1 / √(CubicOK.cubic b c d t)) / L ^ (0.5 : ℝ)| ≤ 2 * EPS eps * |(∫ t in Ioc z1 z2, 1 / √(CubicOK.cubic b c d t)) / L ^ (0.5 : ℝ)| := by
  obtain ⟨v, hv, he⟩ := C145_elliprf h0 h1 (h.args hle)
  refine ⟨2 * (z2 - z1) * fixDimless L v, by simp only [codeComoving3, hv], ?_⟩
  rcases hle.lt_or_eq with hlt | rfl
  · exact dist_error hL (h.rf_eq hlt) he
  · simp

theorem codeComoving4_le {eps : ℝ} (h0 : 0 < eps) (h1 : eps ≤ 1) {L : ℝ} (hL : 0 < L) {r1 r2 r3 r4 : ℂ} {b c d e : ℝ} (h : QuarticOK z1 r1 r2 r3 r4 b c d e)
    (hle : z1 ≤ z2) :
    ∃ D, codeComoving4 eps L r1 r2 r3 r4 z1 z2 = some D ∧
      |D - (∫ t in Ioc z1 z2, 1 / √(quartic b c d e t)) / L ^ (0.5 : ℝ)| ≤ 2 * EPS eps * |(∫ t in Ioc z1 z2, 1 / √(quartic b c d e t)) / L ^ (0.5 : ℝ)| := by
  obtain ⟨v, hv, he⟩ := C145_elliprf h0 h1 (h.args hle)
  refine ⟨2 * (z2 - z1) * fixDimless L v, by simp only [codeComoving4, hv], ?_⟩
  rcases hle.lt_or_eq with hlt | rfl
  · exact dist_error hL (h.rf_eq hlt) he
  · simp

/-- **C146** the comoving distance of LambdaCDM that the code computes with its own `elliprf` is a number and differs from the integral of `1/E` by
a relative error of at most `2e-6` times the precision parameter. -/
theorem C146_comoving {eps : ℝ} (h0 : 0 < eps) (h1 : eps ≤ 1) (U : Universe p c o n E2 (min z1 z2)) (hs : Solves solve) :
    ∃ D, call3 solve c o n (fun L r1 r2 r3 => codeComoving3 eps L r1 r2 r3 z1 z2) = .ok (some D) ∧
      |D - ∫ z in z1..z2, invEfunc (E2 z)| ≤ 2 * (1 / 1000000 * eps) * |∫ z in z1..z2, invEfunc (E2 z)| := by
  obtain ⟨r1, r2, r3, b', c', d', hc, hC, hE⟩ := U.cubic hs
  have hi : ∀ t, min z1 z2 ≤ t → invEfunc (E2 t) = 1 / √(CubicOK.cubic b' c' d' t) / o.Om0 ^ (0.5 : ℝ) := fun t ht => by
    rw [hE, invEfunc_eq U.matter (hC.cpos ht)]
  rw [hc]
  have hEe : (1 / 1000000 * eps) = EPS eps := by unfold EPS; ring
  rw [hEe]
  rcases le_or_gt z1 z2 with h | h
  · rw [min_eq_left h] at hC hi
    obtain ⟨D, hD, hb⟩ := codeComoving3_le h0 h1 U.matter hC h
    refine ⟨D, by rw [hD], ?_⟩
    rcases h.lt_or_eq with hlt | rfl
    · rw [integral_div_eq hlt fun t ht => hi t ht.1.le]
      exact hb
    · simpa using hb
  · rw [min_eq_right h.le] at hC hi
    obtain ⟨D, hD, hb⟩ := codeComoving3_le h0 h1 U.matter hC h.le
    refine ⟨-D, by rw [codeComoving3_swap, hD]; rfl, ?_⟩
    rw [intervalIntegral.integral_symm, integral_div_eq h fun t ht => hi t ht.1.le, abs_neg, ← neg_sub', abs_neg]
    exact hb

/-- **C146** the same for LambdaCDMR, between redshifts not below -1. -/
theorem C146_comoving_radiation {eps : ℝ} (h0 : 0 < eps) (h1 : eps ≤ 1) (U : Universe4 p c o n k d E2 (min z1 z2)) (hz1 : -1 ≤ z1) (hz2 : -1 ≤ z2)
    (hs : Solves solve) :
    ∃ D, call4 solve c o n (fun L r1 r2 r3 r4 => codeComoving4 eps L r1 r2 r3 r4 z1 z2) = .ok (some D) ∧
      |D - ∫ z in z1..z2, invEfunc (E2 z)| ≤ 2 * (1 / 1000000 * eps) * |∫ z in z1..z2, invEfunc (E2 z)| := by
  obtain ⟨r1, r2, r3, r4, b', c', d', e', -, hc, hC, -, -, hE⟩ := U.factors (le_min hz1 hz2) hs
  have hi : ∀ t, min z1 z2 ≤ t → invEfunc (E2 t) = 1 / √(Verif.Ellred.quartic b' c' d' e' t) / o.Or0 ^ (0.5 : ℝ) := fun t ht => by
    rw [hE, invEfunc_eq U.radiation (hC.pos t ht)]
  rw [hc]
  have hEe : (1 / 1000000 * eps) = EPS eps := by unfold EPS; ring
  rw [hEe]
  rcases le_or_gt z1 z2 with h | h
  · rw [min_eq_left h] at hC hi
    obtain ⟨D, hD, hb⟩ := codeComoving4_le h0 h1 U.radiation hC h
    refine ⟨D, by rw [hD], ?_⟩
    rcases h.lt_or_eq with hlt | rfl
    · rw [integral_div_eq hlt fun t ht => hi t ht.1.le]
      exact hb
    · simpa using hb
  · rw [min_eq_right h.le] at hC hi
    obtain ⟨D, hD, hb⟩ := codeComoving4_le h0 h1 U.radiation hC h.le
    refine ⟨-D, by rw [codeComoving4_swap, hD]; rfl, ?_⟩
    rw [intervalIntegral.integral_symm, integral_div_eq h fun t ht => hi t ht.1.le, abs_neg, ← neg_sub', abs_neg]
    exact hb

/-! ### Examples -/

/-- A curved universe with `Om0 = 0.3`, `Ode0 = 0.5`, and redshifts in decreasing order, one of them negative. -/
example (p : Phys) : ∃ c o E2 solve D, Universe p c o 2 E2 (-1 / 2) ∧ call3 solve c o 2 (fun L r1 r2 r3 => codeComoving3 (1 / 2 ^ 52) L r1 r2 r3 3 (-1 / 2)) = .ok (some D) ∧
    |D - ∫ z in (3 : ℝ)..(-1 / 2), invEfunc (E2 z)| ≤ 2 * (1 / 1000000 * (1 / 2 ^ 52)) * |∫ z in (3 : ℝ)..(-1 / 2), invEfunc (E2 z)| := by
  have hr : Reachable p ⟨.lambda, false, false⟩ _ := ⟨1, [(.Om0, 0.3), (.Ode0, 0.5)], [], _, rfl, rfl⟩
  obtain ⟨eig, heig⟩ := Roots.eigSpec_nonempty
  obtain ⟨solve, hs, -⟩ := solves_exists _ _ Roots.principal_cpow Roots.cbrt_cpow eig heig false fun _ => .ok []
  have U : Universe p ⟨.lambda, false, false⟩ _ 2 (fun z => 0.3 * (1 + z) ^ 3 + 0.2 * (1 + z) ^ 2 + 0.5) (-1 / 2) :=
    ⟨rfl, rfl, hr, le_rfl, by norm_num [setParams, assign], fun z => by
      norm_num [setParams, assign, e2func, Cosmo.e2, e2base, ok0, ode0, sum0]
      ring, fun z hz => by
      have : 0 < 1 + z := by linarith
      positivity⟩
  obtain ⟨D, h1, h2⟩ := C146_comoving (eps := 1 / 2 ^ 52) (z1 := 3) (z2 := -1 / 2) (by norm_num) (by norm_num) (by rw [min_eq_right (by norm_num)]; exact U) hs
  exact ⟨_, _, _, solve, D, U, h1, h2⟩

/-- A universe with radiation whose polynomial has complex roots. -/
example (p : Phys) : ∃ c o k d E2 solve D, Universe4 p c o 2 k d E2 0 ∧
    call4 solve c o 2 (fun L r1 r2 r3 r4 => codeComoving4 (1 / 2 ^ 52) L r1 r2 r3 r4 0 5) = .ok (some D) ∧
    |D - ∫ z in (0 : ℝ)..5, invEfunc (E2 z)| ≤ 2 * (1 / 1000000 * (1 / 2 ^ 52)) * |∫ z in (0 : ℝ)..5, invEfunc (E2 z)| := by
  obtain ⟨c, o, U, -⟩ := universe4_exists p 4 (-17) 50 (by norm_num) (by norm_num) 0 fun z hz => by
    have : 0 ≤ 1 + z := by linarith
    nlinarith [mul_pos (show 0 < (1 + z) ^ 2 + 8 * (1 + z) + 10 by positivity) (show 0 < (1 + z - 2) ^ 2 + 1 by positivity)]
  obtain ⟨eig, heig⟩ := Roots.eigSpec_nonempty
  obtain ⟨solve, hs, -⟩ := solves_exists _ _ Roots.principal_cpow Roots.cbrt_cpow eig heig false fun _ => .ok []
  obtain ⟨D, h1, h2⟩ := C146_comoving_radiation (eps := 1 / 2 ^ 52) (z1 := 0) (z2 := 5) (by norm_num) (by norm_num) (by rw [min_eq_left (by norm_num)]; exact U)
    (by norm_num) (by norm_num) hs
  exact ⟨c, o, _, _, _, solve, D, U, h1, h2⟩

end Verif.Ellred

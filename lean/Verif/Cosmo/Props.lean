import Verif.Cosmo.Lemmas
import Mathlib.Analysis.SpecialFunctions.Pow.Deriv
import Mathlib.Analysis.SpecialFunctions.ExpDeriv

/-! # Properties of cosmologies: densities, assignment and construction (C38-C43, C64, C72, C73) -/

namespace Verif.Cosmo

/-! ### C38, C39 -/

theorem e2Val_one (c : Cls) (o : Obj) :
    e2Val c o 1 = sum0 c o + okVal c o + odeVal c o * deScale c o 1 := by
  unfold e2Val sum0
  cases c.rad <;> simp <;> ring

theorem normalised_of_flat_none (c : Cls) (o : Obj) (h : c.flat = true → o.ode = none) :
    sum0 c o + okVal c o + odeVal c o = 1 := by
  unfold okVal odeVal
  cases hf : c.flat with
  | true => simp [h hf]
  | false => simp; ring

/-- Example data: constants of nature. -/
noncomputable def exPhys : Phys :=
  ⟨2, 3, 1 / 4, 3, 5, by norm_num, by norm_num, by norm_num, by norm_num, by norm_num⟩

/-- Example data: an object of any class, constructed with `Om0 = 0.3` and `Ode0 = 0.7`, to which any values were then assigned. -/
theorem reachable_with (p : Phys) (c : Cls) (l : List (Key × ℝ)) : ∃ o₀, Reachable p c (setParams p c o₀ l) := by
  have : ∃ o₀, construct p c 1 [(.Om0, 0.3), (.Ode0, 0.7)] = .ok o₀ := by
    unfold construct
    obtain ⟨de, rad, flat⟩ := c
    cases de <;> cases rad <;> cases flat <;> exact ⟨_, rfl⟩
  obtain ⟨o₀, h⟩ := this
  exact ⟨o₀, 1, _, l, o₀, h, rfl⟩

/-- **C38** `E²(0) = 1` and `H(0) = H0` for every cosmology object of the classes LambdaCDM, wCDM, w0waCDM,
wpwaCDM (with or without radiation) and FlatLambdaCDM(R), after construction with any arguments and any history
of attribute assignments. -/
theorem C38_normalised (p : Phys) (c : Cls) (o : Obj) (hr : Reachable p c o) (hde : c.de ≠ .w0wz)
    (hf : c.flat = false ∨ c.de = .lambda) (n : ℕ) (hn : 2 ≤ n) :
    e2func c o n 0 = .ok 1 ∧ hubble c o n 0 = .ok o.H0 := by
  obtain ⟨m, rfl⟩ := exists_add_two hn
  have h1 : e2func c o (m + 2) 0 = .ok 1 := by
    rw [e2func_settled c o (reachable_settled p c o hr), add_zero, e2Val_one, deScale_one c o hde, mul_one,
      normalised_of_flat_none c o]
    intro h
    rcases hf with hf | hf
    · simp [h] at hf
    · exact (reachable_ode p c o hr).2 ⟨h, hf⟩
  refine ⟨h1, ?_⟩
  unfold hubble
  rw [h1]
  simp

/-- `C38_normalised`: a curved w0waCDMR object with `H0 = 70`. -/
example : ∃ o : Obj, o.H0 = 70 ∧ o.wa = 0.1 ∧ e2func ⟨.w0wa, true, false⟩ o 2 0 = .ok 1 ∧ hubble ⟨.w0wa, true, false⟩ o 2 0 = .ok o.H0 := by
  obtain ⟨o₀, h⟩ := reachable_with exPhys ⟨.w0wa, true, false⟩ [(.H0, 70), (.wa, 0.1)]
  exact ⟨_, by simp [setParams, assign], by simp [setParams, assign], C38_normalised _ _ _ h (by simp) (by simp) 2 le_rfl⟩

/-- **C39** what the code computes for w0wzCDM: `E²(0) = 1` exactly when `wz = 0` or there is no dark
energy. -/
theorem C39_w0wz_iff (p : Phys) (c : Cls) (o : Obj) (hr : Reachable p c o) (hde : c.de = .w0wz)
    (hf : c.flat = false) (n : ℕ) (hn : 2 ≤ n) :
    e2func c o n 0 = .ok 1 ↔ o.wz = 0 ∨ ode0 c o n = .ok 0 := by
  obtain ⟨m, rfl⟩ := exists_add_two hn
  have hs := reachable_settled p c o hr
  rw [e2func_settled c o hs, ode0_settled c o hs, add_zero, e2Val_one]
  have h1 := normalised_of_flat_none c o (by simp [hf])
  simp only [Except.ok.injEq]
  have h2 : deScale c o 1 = Real.exp (-6 * o.wz) := by
    simp only [deScale, hde, Real.one_rpow, one_mul]
    congr 1; ring
  rw [h2]
  constructor
  · intro h
    have h3 : odeVal c o * (Real.exp (-6 * o.wz) - 1) = 0 := by linarith
    rcases mul_eq_zero.mp h3 with h4 | h4
    · exact .inr h4
    · left
      have h5 : Real.exp (-6 * o.wz) = Real.exp 0 := by rw [Real.exp_zero]; linarith
      have := Real.exp_injective h5
      linarith
  · rintro (h | h)
    · rw [h]; simp [h1]
    · rw [h] at h1 ⊢; linarith

/-- `C39_w0wz_iff`: with `wz = 1` and `Ode0 = 0.6` neither side holds. -/
example : ∃ o : Obj, o.wz = 1 ∧ o.ode = some 0.6 ∧
    (e2func ⟨.w0wz, false, false⟩ o 2 0 = .ok 1 ↔ o.wz = 0 ∨ ode0 ⟨.w0wz, false, false⟩ o 2 = .ok 0) := by
  obtain ⟨o₀, h⟩ := reachable_with exPhys ⟨.w0wz, false, false⟩ [(.wz, 1), (.Ode0, 0.6)]
  exact ⟨_, by simp [setParams, assign], by simp [setParams, assign], C39_w0wz_iff _ _ _ h rfl rfl 2 le_rfl⟩

/-- **C39** `E²(0) = 1` fails: w0wzCDM with `Om0 = 0.3`, `Ode0 = 0.7`, `wz = 1`. -/
theorem C39_false (p : Phys) : ∃ o, Reachable p ⟨.w0wz, false, false⟩ o ∧
    ∀ n, 2 ≤ n → e2func ⟨.w0wz, false, false⟩ o n 0 ≠ .ok 1 := by
  refine ⟨_, ⟨1, [(.Om0, 0.3), (.Ode0, 0.7), (.wz, 1)], [], _, rfl, rfl⟩, fun n hn h => ?_⟩
  rw [C39_w0wz_iff p _ _ ⟨1, [(.Om0, 0.3), (.Ode0, 0.7), (.wz, 1)], [], _, rfl, rfl⟩ rfl rfl n hn] at h
  obtain ⟨m, rfl⟩ := exists_add_two hn
  rcases h with h | h
  · simp [setParams, assign] at h
  · rw [ode0_some _ _ 0.7 (by simp [setParams, assign])] at h
    simp only [Except.ok.injEq] at h
    norm_num at h

/-- **C39** the part that holds: normalised when `wz = 0`. -/
theorem C39_normalised_partial (p : Phys) (c : Cls) (o : Obj) (hr : Reachable p c o) (hde : c.de = .w0wz)
    (hf : c.flat = false) (n : ℕ) (hn : 2 ≤ n) (hw : o.wz = 0) : e2func c o n 0 = .ok 1 :=
  (C39_w0wz_iff p c o hr hde hf n hn).mpr (.inl hw)

/-- `C39_normalised_partial`: with `wz = 0` and `Ode0 = 0.6`. -/
example : ∃ o : Obj, o.wz = 0 ∧ o.ode = some 0.6 ∧ e2func ⟨.w0wz, false, false⟩ o 2 0 = .ok 1 := by
  obtain ⟨o₀, h⟩ := reachable_with exPhys ⟨.w0wz, false, false⟩ [(.wz, 0), (.Ode0, 0.6)]
  have hw : (setParams exPhys ⟨.w0wz, false, false⟩ o₀ [(.wz, 0), (.Ode0, 0.6)]).wz = 0 := by simp [setParams, assign]
  exact ⟨_, hw, by simp [setParams, assign], C39_normalised_partial _ _ _ h rfl rfl 2 le_rfl hw⟩

/-- A reachable object of every class: constructed with `Om0 = 0.3`, `Ode0 = 0.7`, then given `Om0 = 0.2`. -/
theorem reachable_example (p : Phys) (c : Cls) : ∃ o, Reachable p c o ∧ o.Om0 = 0.2 := by
  have : ∃ o₀, construct p c 1 [(.Om0, 0.3), (.Ode0, 0.7)] = .ok o₀ := by
    unfold construct
    obtain ⟨de, rad, flat⟩ := c
    cases de <;> cases rad <;> cases flat <;> exact ⟨_, rfl⟩
  obtain ⟨o₀, h⟩ := this
  exact ⟨_, ⟨1, _, [(.Om0, 0.2)], o₀, h, rfl⟩, rfl⟩

/-! ### C40 -/

theorem hasDerivAt_pow_exp (a x : ℝ) (hx : 0 < x) (g : ℝ → ℝ) (g' : ℝ) (hg : HasDerivAt g g' x) :
    HasDerivAt (fun y => y ^ a * Real.exp (g y)) ((a / x + g') * (x ^ a * Real.exp (g x))) x := by
  have h1 := (Real.hasDerivAt_rpow_const (p := a) (.inl hx.ne')).fun_mul hg.exp
  refine (h1).congr_deriv ?_
  rw [Real.rpow_sub_one hx.ne']
  field_simp

/-- **C40** the dark-energy density of each class but w0wzCDM obeys the continuity equation with the class's own
equation of state `w(z)`. -/
theorem C40_continuity (c : Cls) (o : Obj) (hde : c.de ≠ .w0wz) : ContinuityEquation (deScale c o) (w c o) := by
  refine ⟨deScale_one c o hde, fun x hx => ?_⟩
  have hinv : HasDerivAt (fun y : ℝ => -3 * o.wa * (1 - 1 / y)) (-3 * o.wa / x ^ 2) x := by
    have := ((hasDerivAt_inv hx.ne').const_sub 1).const_mul (-3 * o.wa)
    simp only [one_div]
    refine (this).congr_deriv ?_
    ring
  cases hd : c.de
  · have : deScale c o = fun _ => 1 := by funext y; simp [deScale, hd]
    rw [this]
    simp only [w, hd]
    refine (hasDerivAt_const x (1 : ℝ)).congr_deriv ?_
    ring
  · have : deScale c o = fun y => y ^ (3 * (1 + o.w0)) := by funext y; simp [deScale, hd]
    rw [this]
    simp only [w, hd]
    refine (Real.hasDerivAt_rpow_const (p := 3 * (1 + o.w0)) (.inl hx.ne')).congr_deriv ?_
    rw [Real.rpow_sub_one hx.ne']
    field_simp
  · have : deScale c o = fun y => y ^ (3 * (1 + o.w0 + o.wa)) * Real.exp (-3 * o.wa * (1 - 1 / y)) := by
      funext y; simp [deScale, hd]
    rw [this]
    simp only [w, hd]
    refine (hasDerivAt_pow_exp (3 * (1 + o.w0 + o.wa)) x hx _ _ hinv).congr_deriv ?_
    congr 1
    field_simp
    ring
  · have : deScale c o = fun y => y ^ (3 * (1 + o.w0 + ap o * o.wa)) * Real.exp (-3 * o.wa * (1 - 1 / y)) := by
      funext y; simp [deScale, hd]
    rw [this]
    simp only [w, hd]
    refine (hasDerivAt_pow_exp (3 * (1 + o.w0 + ap o * o.wa)) x hx _ _ hinv).congr_deriv ?_
    congr 1
    field_simp
    ring
  · exact absurd hd hde

/-- `C40_continuity` for an evolving equation of state. -/
example (o : Obj) : ContinuityEquation (deScale ⟨.wpwa, false, false⟩ o) (w ⟨.wpwa, false, false⟩ o) := C40_continuity _ o (by simp)

/-- **C40** it is the only such density: any function obeying the continuity equation with that `w` equals the
code's, for every `1 + z > 0`. -/
theorem C40_unique (c : Cls) (o : Obj) (hde : c.de ≠ .w0wz) (f : ℝ → ℝ) (hf : ContinuityEquation f (w c o)) (x : ℝ)
    (hx : 0 < x) : deScale c o x = f x := by
  have h := C40_continuity c o hde
  have hpos : ∀ y, 0 < y → 0 < deScale c o y := by
    intro y hy
    unfold deScale
    cases c.de <;> positivity
  have hd : ∀ y ∈ Set.Ioi (0 : ℝ), HasDerivAt (fun t => f t / deScale c o t) 0 y := by
    intro y hy
    have := (hf.2 y hy).fun_div (h.2 y hy) (hpos y hy).ne'
    refine (this).congr_deriv ?_
    have hy' : y ≠ 0 := (Set.mem_Ioi.mp hy).ne'
    field_simp
    ring
  have hconst : f x / deScale c o x = f 1 / deScale c o 1 := by
    apply (convex_Ioi (0 : ℝ)).is_const_of_fderivWithin_eq_zero (f := fun t => f t / deScale c o t) (𝕜 := ℝ) ?_ ?_
      (Set.mem_Ioi.mpr hx) (Set.mem_Ioi.mpr one_pos)
    · intro y hy
      exact (hd y hy).differentiableAt.differentiableWithinAt
    · intro y hy
      rw [fderivWithin_of_isOpen isOpen_Ioi hy]
      ext
      simpa using (hd y hy).deriv
  rw [hf.1, h.1, div_one, div_eq_one_iff_eq (hpos x hx).ne'] at hconst
  exact hconst.symm

/-- `C40_unique`: at redshift 1 the density of wCDM is the solution `(1+z)^(3(1+w0))`. -/
example (o : Obj) : deScale ⟨.w, false, false⟩ o 2 = (fun x : ℝ => x ^ (3 * (1 + o.w0))) 2 :=
  C40_unique ⟨.w, false, false⟩ o (by simp) (fun x : ℝ => x ^ (3 * (1 + o.w0))) ⟨by simp, fun x hx => by
    have h := Real.hasDerivAt_rpow_const (p := 3 * (1 + o.w0)) (.inl hx.ne')
    refine h.congr_deriv ?_
    simp only [w]
    rw [Real.rpow_sub_one hx.ne']; ring⟩ 2 (by norm_num)

/-- **C40** w0wzCDM violates it at every redshift unless `wz = 0`: the logarithmic derivative of the density has
`-3 wz` where `+3 wz` belongs. -/
theorem C40_w0wz_wrong (c : Cls) (o : Obj) (hde : c.de = .w0wz) (hw : o.wz ≠ 0) :
    ¬ ContinuityEquation (deScale c o) (w c o) ∧
    ∀ x, 0 < x → ¬ HasDerivAt (deScale c o) (3 * (1 + w c o x) / x * deScale c o x) x := by
  have key : ∀ x, 0 < x → ¬ HasDerivAt (deScale c o) (3 * (1 + w c o x) / x * deScale c o x) x := by
    intro x hx h
    have hs : deScale c o = fun y => y ^ (3 * (1 + o.w0 - o.wz)) * Real.exp (-3 * o.wz * y - 3 * o.wz) := by
      funext y; simp [deScale, hde]
    have hg : HasDerivAt (fun y : ℝ => -3 * o.wz * y - 3 * o.wz) (-3 * o.wz) x := by
      have := ((hasDerivAt_id x).const_mul (-3 * o.wz)).sub_const (3 * o.wz)
      simpa using this
    have h2 := hasDerivAt_pow_exp (3 * (1 + o.w0 - o.wz)) x hx _ _ hg
    rw [hs] at h
    have h3 := h.unique h2
    have hpos : 0 < x ^ (3 * (1 + o.w0 - o.wz)) * Real.exp (-3 * o.wz * x - 3 * o.wz) := by positivity
    have h4 := mul_right_cancel₀ hpos.ne' h3
    simp only [w, hde] at h4
    field_simp at h4
    have h5 : o.wz * x = 0 := by linarith
    rcases mul_eq_zero.mp h5 with h6 | h6
    · exact hw h6
    · exact hx.ne' h6
  exact ⟨fun h => key 1 one_pos (h.2 1 one_pos), key⟩

/-- `C40_w0wz_wrong`: `wz = 1`. -/
example (o : Obj) : ¬ ContinuityEquation (deScale ⟨.w0wz, false, false⟩ { o with wz := 1 }) (w ⟨.w0wz, false, false⟩ { o with wz := 1 }) :=
  (C40_w0wz_wrong ⟨.w0wz, false, false⟩ { o with wz := 1 } rfl (by simp)).1

/-- **C40** with `wz = 0` also w0wzCDM obeys it. -/
theorem C40_w0wz_partial (c : Cls) (o : Obj) (hde : c.de = .w0wz) (hw : o.wz = 0) :
    ContinuityEquation (deScale c o) (w c o) := by
  have h1 : deScale c o = deScale ⟨.w, c.rad, c.flat⟩ o := by funext y; simp [deScale, hde, hw]
  have h2 : w c o = w ⟨.w, c.rad, c.flat⟩ o := by funext y; simp [w, hde, hw]
  rw [h1, h2]
  exact C40_continuity _ o (by simp)

/-- `C40_w0wz_partial`: `wz = 0`. -/
example (o : Obj) := C40_w0wz_partial ⟨.w0wz, true, false⟩ { o with wz := 0, w0 := -0.9 } rfl rfl

/-! ### C41 -/

/-- **C41** at every redshift where `E² ≠ 0`, the density fractions sum to one and baryons plus dark matter make up
the matter, for every class. -/
theorem C41_fractions (p : Phys) (c : Cls) (o : Obj) (hr : Reachable p c o) (n : ℕ) (hn : 2 ≤ n) (z : ℝ) :
    ∃ e a b d k r m, e2func c o n z = .ok e ∧ om c o n z = .ok a ∧ ob c o n z = .ok b ∧ ode c o n z = .ok d ∧
      ok c o n z = .ok k ∧ or' c o n z = .ok r ∧ odm c o n z = .ok m ∧
      (e ≠ 0 → a + d + k + (if c.rad then r else 0) = 1) ∧ b + m = a := by
  obtain ⟨i, rfl⟩ := exists_add_two hn
  have hs := reachable_settled p c o hr
  have he := e2func_settled c o hs i z
  have hd : ode c o (i + 2) z = .ok (odeVal c o * deScale c o (1 + z) / e2Val c o (1 + z)) := by
    unfold ode
    rw [ode0_settled c o hs, he, e2_settled c o hs]
    cases hd : c.de <;> simp [deScale, hd]
  refine ⟨_, _, _, _, _, _, _, he, by rw [om, redshiftPower, he], by rw [ob, redshiftPower, he], hd,
    by rw [ok, ok0_settled c o hs]; simp only [redshiftPower, he]; rfl, by rw [or', redshiftPower, he],
    by rw [odm, redshiftPower, he], ?_, ?_⟩
  · intro h
    have h2 : e2Val c o (1 + z) = o.Om0 * (z + 1) ^ 3 + odeVal c o * deScale c o (1 + z) + okVal c o * (z + 1) ^ 2 +
        (if c.rad then o.Or0 * (z + 1) ^ 4 else 0) := by
      unfold e2Val
      rw [add_comm 1 z]
      split_ifs <;> ring
    have h3 : (if c.rad then o.Or0 * (z + 1) ^ 4 / e2Val c o (1 + z) else 0) =
        (if c.rad then o.Or0 * (z + 1) ^ 4 else 0) / e2Val c o (1 + z) := by
      split_ifs <;> simp
    rw [h3, ← add_div, ← add_div, ← add_div, ← h2, div_self h]
  · unfold odm0
    ring

/-- `C41_fractions`: a curved LambdaCDMR object at redshift 1. -/
example : ∃ o : Obj, o.Or0 = 0.1 ∧ ∃ e a b d k r m, e2func ⟨.lambda, true, false⟩ o 2 1 = .ok e ∧ om ⟨.lambda, true, false⟩ o 2 1 = .ok a ∧
    ob ⟨.lambda, true, false⟩ o 2 1 = .ok b ∧ ode ⟨.lambda, true, false⟩ o 2 1 = .ok d ∧ ok ⟨.lambda, true, false⟩ o 2 1 = .ok k ∧
    or' ⟨.lambda, true, false⟩ o 2 1 = .ok r ∧ odm ⟨.lambda, true, false⟩ o 2 1 = .ok m ∧
    (e ≠ 0 → a + d + k + (if true then r else 0) = 1) ∧ b + m = a := by
  obtain ⟨o₀, h⟩ := reachable_with exPhys ⟨.lambda, true, false⟩ [(.Or0, 0.1), (.Ob0, 0.05)]
  exact ⟨_, by simp [setParams, assign], C41_fractions _ _ _ h 2 le_rfl 1⟩

/-! ### C42 -/

/-- **C42** flat classes have no curvature, whatever the history: `Ok0 = 0` and `Ok(z) = 0`. -/
theorem C42_flat (p : Phys) (c : Cls) (o : Obj) (hr : Reachable p c o) (hf : c.flat = true) (n : ℕ) (hn : 2 ≤ n)
    (z d : ℝ) : ok0 c o n = .ok 0 ∧ ok c o n z = .ok 0 ∧ transformCurved c.flat 0 d = d := by
  obtain ⟨i, rfl⟩ := exists_add_two hn
  have hs := reachable_settled p c o hr
  refine ⟨ok0_flat c o hf _, ?_, by simp [transformCurved, hf]⟩
  unfold ok redshiftPower
  rw [ok0_flat c o hf, e2func_settled c o hs]
  simp

/-- `C42_flat`: a flat w0waCDM object. -/
example : ∃ o : Obj, o.wa = 0.1 ∧ ok0 ⟨.w0wa, false, true⟩ o 2 = .ok 0 ∧ ok ⟨.w0wa, false, true⟩ o 2 1 = .ok 0 ∧
    transformCurved true 0 5 = 5 := by
  obtain ⟨o₀, h⟩ := reachable_with exPhys ⟨.w0wa, false, true⟩ [(.wa, 0.1)]
  exact ⟨_, by simp [setParams, assign], C42_flat _ _ _ h rfl 2 le_rfl 1 5⟩

/-- **C42** FlatLambdaCDM(R): after any history, assigning `Ode0` and reading it back returns it, `Om0` is the
rest, and `E²(0) = 1`. -/
theorem C42_flat_lambda_set (p : Phys) (c : Cls) (o : Obj) (hr : Reachable p c o) (hf : FlatLambda c) (v : ℝ) (n : ℕ)
    (hn : 2 ≤ n) :
    ode0 c (assign p c o .Ode0 v) n = .ok v ∧
    (assign p c o .Ode0 v).Om0 = 1 - v - (if c.rad then o.Or0 else 0) ∧
    e2func c (assign p c o .Ode0 v) n 0 = .ok 1 := by
  have hnone := assign_ode_none p c o .Ode0 v hf ((reachable_ode p c o hr).2 hf)
  have hr' : Reachable p c (assign p c o .Ode0 v) := by
    obtain ⟨h100, kw, hist, o₀, hc, rfl⟩ := hr
    exact ⟨h100, kw, hist ++ [(.Ode0, v)], o₀, hc, by simp [setParams]⟩
  refine ⟨?_, ?_, (C38_normalised p c _ hr' (by rw [hf.2]; simp) (.inr hf.2) n hn).1⟩
  · obtain ⟨i, rfl⟩ := exists_add_two hn
    rw [ode0_flat_none c _ hf.1 hnone]
    unfold sum0
    simp only [assign, if_pos hf]
    cases c.rad <;> simp
    ring
  · simp only [assign, if_pos hf]
    cases c.rad <;> simp
    ring

/-- `C42_flat_lambda_set`: `Ode0 = 0.6` assigned to a FlatLambdaCDMR object with `Or0 = 0.1`. -/
example : ∃ o : Obj, o.Or0 = 0.1 ∧ ode0 ⟨.lambda, true, true⟩ (assign exPhys ⟨.lambda, true, true⟩ o .Ode0 0.6) 2 = .ok 0.6 := by
  obtain ⟨o₀, h⟩ := reachable_with exPhys ⟨.lambda, true, true⟩ [(.Or0, 0.1)]
  exact ⟨_, by simp [setParams, assign], (C42_flat_lambda_set _ _ _ h ⟨rfl, rfl⟩ 0.6 2 le_rfl).1⟩

/-- **C42** the other flat classes: construction demands `Ode0`, and `E²(0)` is then the sum of the densities
given, 1 only if the user made them add up. -/
theorem C42_other_flat (p : Phys) (c : Cls) (o : Obj) (hr : Reachable p c o) (hf : c.flat = true) (hde : c.de ≠ .lambda)
    (hde' : c.de ≠ .w0wz) (n : ℕ) (hn : 2 ≤ n) :
    ∃ d, ode0 c o n = .ok d ∧ e2func c o n 0 = .ok (o.Om0 + (if c.rad then o.Or0 else 0) + d) := by
  obtain ⟨i, rfl⟩ := exists_add_two hn
  have hs := reachable_settled p c o hr
  refine ⟨_, ode0_settled c o hs _, ?_⟩
  rw [e2func_settled c o hs, add_zero, e2Val_one, deScale_one c o hde']
  unfold sum0 okVal
  cases c.rad <;> simp [hf]

/-- `C42_other_flat`: a FlatwCDM object with `Om0 = 0.3` and `Ode0 = 0.5`. -/
example : ∃ o : Obj, o.Om0 = 0.3 ∧ o.ode = some 0.5 ∧
    ∃ d, ode0 ⟨.w, false, true⟩ o 2 = .ok d ∧ e2func ⟨.w, false, true⟩ o 2 0 = .ok (o.Om0 + (if false then o.Or0 else 0) + d) := by
  obtain ⟨o₀, h⟩ := reachable_with exPhys ⟨.w, false, true⟩ [(.Om0, 0.3), (.Ode0, 0.5)]
  exact ⟨_, by simp [setParams, assign], by simp [setParams, assign], C42_other_flat _ _ _ h rfl (by simp) (by simp) 2 le_rfl⟩

/-- **C42** so a flat wCDM can have `E²(0) ≠ 1`. -/
theorem C42_other_flat_unnormalised (p : Phys) : ∃ o, Reachable p ⟨.w, false, true⟩ o ∧
    ∀ n, 2 ≤ n → e2func ⟨.w, false, true⟩ o n 0 ≠ .ok 1 := by
  have hr : Reachable p ⟨.w, false, true⟩ _ := ⟨1, [(.Om0, 0.5), (.Ode0, 0.7)], [], _, rfl, rfl⟩
  refine ⟨_, hr, fun n hn h => ?_⟩
  obtain ⟨d, h1, h2⟩ := C42_other_flat p _ _ hr rfl (by simp) (by simp) n hn
  rw [h2] at h
  obtain ⟨m, rfl⟩ := exists_add_two hn
  rw [ode0_some _ _ 0.7 (by simp [setParams, assign])] at h1
  simp only [Except.ok.injEq] at h1 h
  subst h1
  simp [setParams, assign] at h
  norm_num at h

/-- **C42** a curved cosmology whose `Ode0` was never set (possible through the module wrapper, which skips the
constructor's signature) cannot be evaluated: reading any density ends in a recursion error, whatever the
recursion limit. -/
theorem C42_curved_without_ode (c : Cls) (o : Obj) (hf : c.flat = false) (ho : o.ode = none) (n : ℕ) (z : ℝ) :
    ode0 c o n = .error .recursion ∧ ok0 c o n = .error .recursion ∧ e2func c o n z = .error .recursion := by
  obtain ⟨h1, h2⟩ := getters_loop c o hf ho n
  refine ⟨h1, h2, ?_⟩
  unfold e2func e2 e2base
  rw [h2]

/-- `C42_curved_without_ode`: the instance before any assignment. -/
example := C42_curved_without_ode ⟨.w, true, false⟩ (blank 70) rfl rfl 5 1

end Verif.Cosmo

import Verif.Ellred.CubicAbs
import Verif.Cosmo.Dist

/-! # The analytic distances of LambdaCDM are the integrals of its own Hubble function (C91-C93) -/

namespace Verif.Ellred

open MeasureTheory Set Filter Topology Verif.Carlson Verif.Cosmo

/-- Calling a method of the analytic `LambdaCDM` driver: the roots are computed, unpacked into three and passed on with the leading
coefficient (analytic.py:101-106, _analytic_base.py:31-37). `solve` is the root finder. -/
noncomputable def call3 {α : Type} (solve : List ℝ → List ℂ) (c : Cls) (o : Obj) (n : ℕ) (f : ℝ → ℂ → ℂ → ℂ → α) : Except Cosmo.Err α :=
  match ok0 c o n with
  | .error e => .error e
  | .ok k => match ode0 c o n with
    | .error e => .error e
    | .ok d => match epolyRoots solve c o k d with
      | [r1, r2, r3] => .ok (f (epolyLeading c o) r1 r2 r3)
      | _ => .error .typeError

/-- A LambdaCDM (flat or not) as a user can build it, with matter, and `E²` its squared Hubble function, positive from redshift `z0` on. -/
structure Universe (p : Phys) (c : Cls) (o : Obj) (n : ℕ) (E2 : ℝ → ℝ) (z0 : ℝ) : Prop where
  lam : c.de = .lambda
  rad : c.rad = false
  reach : Reachable p c o
  fuel : 2 ≤ n
  matter : 0 < o.Om0
  e2 : ∀ z, e2func c o n z = .ok (E2 z)
  pos : ∀ z, z0 ≤ z → 0 < E2 z

/-- The root finder returns the roots, whatever their order (C27, C48). -/
def Solves (solve : List ℝ → List ℂ) : Prop := ∀ cs, Roots.AreRoots (cs.map fun x : ℝ => (x : ℂ)) (solve cs)

variable {p : Phys} {c : Cls} {o : Obj} {n : ℕ} {E2 : ℝ → ℝ} {z0 z1 z2 z : ℝ} {solve : List ℝ → List ℂ}

theorem Universe.cubic (U : Universe p c o n E2 z0) (hs : Solves solve) : ∃ r1 r2 r3 : ℂ, ∃ b' c' d' : ℝ,
    (∀ {α : Type} (f : ℝ → ℂ → ℂ → ℂ → α), call3 solve c o n f = .ok (f o.Om0 r1 r2 r3)) ∧ CubicOK z0 r1 r2 r3 b' c' d' ∧ ∀ t, E2 t = o.Om0 * CubicOK.cubic b' c' d' t := by
  obtain ⟨k, d, e, hk, hd, -, -⟩ := C48_factorisation p c o U.reach U.lam n U.fuel (by simp [epolyLeading, U.rad, U.matter.ne']) solve hs 0
  have hlen : (epolyRoots solve c o k d).length = 3 := by
    rw [epolyRoots, List.length_map, (hs _).1]
    simp [epolyCoeffs, epolyCoeffs_, U.rad]
  obtain ⟨r1, r2, r3, hr⟩ : ∃ r1 r2 r3, epolyRoots solve c o k d = [r1, r2, r3] := by
    match h : epolyRoots solve c o k d, hlen with
    | [r1, r2, r3], _ => exact ⟨r1, r2, r3, rfl⟩
  have hE : ∀ z : ℝ, (o.Om0 : ℂ) * (((z : ℂ) - r1) * (z - r2) * (z - r3)) = E2 z := by
    intro z
    obtain ⟨k', d', e', hk', hd', he', h⟩ := C48_factorisation p c o U.reach U.lam n U.fuel (by simp [epolyLeading, U.rad, U.matter.ne']) solve hs z
    rw [hk] at hk'
    rw [hd] at hd'
    cases hk'
    cases hd'
    rw [U.e2 z] at he'
    cases he'
    rw [hr] at h
    simp only [epolyLeading, U.rad, List.map_cons, List.map_nil, List.prod_cons, List.prod_nil, mul_one, Bool.false_eq_true, if_false] at h
    rw [← h]
    ring
  -- the real coefficients
  have e2z : ∀ z, E2 z = o.Om0 * (1 + z) ^ 3 + k * (1 + z) ^ 2 + d := by
    intro z
    have := U.e2 z
    simp only [e2func, Cosmo.e2, e2base, hk, hd, U.lam, U.rad, Bool.false_eq_true, if_false, Except.ok.injEq] at this
    rw [← this]
    ring
  have hm := U.matter.ne'
  have hm' : (o.Om0 : ℂ) ≠ 0 := by exact_mod_cast hm
  refine ⟨r1, r2, r3, 3 + k / o.Om0, 3 + 2 * k / o.Om0, 1 + k / o.Om0 + d / o.Om0, fun f => ?_, ⟨fun w => ?_, fun t ht => ?_⟩, fun t => ?_⟩
  · simp only [call3, hk, hd, hr, epolyLeading, U.rad, Bool.false_eq_true, if_false]
  · -- two cubics that agree at all real points
    have hv : ∀ z : ℝ, ((z : ℂ) - r1) * (z - r2) * (z - r3) = z ^ 3 + (3 + k / o.Om0 : ℝ) * z ^ 2 + (3 + 2 * k / o.Om0 : ℝ) * z +
        (1 + k / o.Om0 + d / o.Om0 : ℝ) := by
      intro z
      have := hE z
      rw [e2z z] at this
      apply mul_left_cancel₀ hm'
      rw [this]
      push_cast
      field_simp
      ring
    have v0 := hv 0
    have v1 := hv 1
    have v2 := hv (-1)
    have v3 := hv 2
    push_cast at v0 v1 v2 v3 ⊢
    linear_combination (-(w - 1) * (w + 1) * (w - 2) / -2) * v0 + (w * (w + 1) * (w - 2) / -2) * v1 + (w * (w - 1) * (w - 2) / -6) * v2 +
      (w * (w - 1) * (w + 1) / 6) * v3
  · have := U.pos t ht
    rw [e2z t] at this
    have h1 : t ^ 3 + (3 + k / o.Om0) * t ^ 2 + (3 + 2 * k / o.Om0) * t + (1 + k / o.Om0 + d / o.Om0) =
        (o.Om0 * (1 + t) ^ 3 + k * (1 + t) ^ 2 + d) / o.Om0 := by
      field_simp
      ring
    rw [h1]
    exact div_pos this U.matter
  · rw [e2z t, CubicOK.cubic]
    field_simp
    ring

theorem invEfunc_eq {L C : ℝ} (hL : 0 < L) (hC : 0 < C) : invEfunc (L * C) = 1 / √C / L ^ (0.5 : ℝ) := by
  rw [invEfunc, Real.mul_rpow hL.le hC.le, show (-1 / 2 : ℝ) = -(1 / 2) by ring, Real.rpow_neg hL.le, Real.rpow_neg hC.le,
    ← Real.sqrt_eq_rpow C, show (0.5 : ℝ) = 1 / 2 by norm_num]
  field_simp

theorem integral_div_eq {y x L : ℝ} {f g : ℝ → ℝ} (hlt : y < x) (h : ∀ t ∈ Ioc y x, f t = g t / L) :
    ∫ t in y..x, f t = (∫ t in Ioc y x, g t) / L := by
  rw [intervalIntegral.integral_of_le hlt.le, ← integral_div]
  exact setIntegral_congr_fun measurableSet_Ioc h

theorem comoving3_swap (L : ℝ) (r1 r2 r3 : ℂ) (z1 z2 : ℝ) : comoving3 L r1 r2 r3 z1 z2 = -comoving3 L r1 r2 r3 z2 z1 := by
  simp only [comoving3, CubicOK.params3_swap z1 z2]
  ring

theorem comoving3_eq {L : ℝ} {r1 r2 r3 : ℂ} {b c d : ℝ} (h : CubicOK z1 r1 r2 r3 b c d) (hlt : z1 < z2) :
    comoving3 L r1 r2 r3 z1 z2 = (∫ t in Ioc z1 z2, 1 / √(CubicOK.cubic b c d t)) / L ^ (0.5 : ℝ) := by
  have := congrArg Complex.re (h.rf_eq hlt)
  simp only [Complex.ofReal_re] at this
  rw [← this]
  simp only [comoving3, fixDimless]
  rw [show (2 : ℂ) * ((z2 - z1 : ℝ) : ℂ) = ((2 * (z2 - z1) : ℝ) : ℂ) by push_cast; ring, Complex.re_ofReal_mul]
  ring

theorem CubicOK.mono {r1 r2 r3 : ℂ} {b c d z z' : ℝ} (h : CubicOK z r1 r2 r3 b c d) (hz : z ≤ z') : CubicOK z' r1 r2 r3 b c d :=
  ⟨h.vieta, fun t ht => h.pos t (hz.trans ht)⟩

/-- **C91** the analytic comoving distance of LambdaCDM between any two redshifts is the integral of `1/E` between them. -/
theorem C91_comoving (U : Universe p c o n E2 (min z1 z2)) (hs : Solves solve) :
    call3 solve c o n (fun L r1 r2 r3 => comoving3 L r1 r2 r3 z1 z2) = .ok (∫ z in z1..z2, invEfunc (E2 z)) := by
  obtain ⟨r1, r2, r3, b', c', d', hc, hC, hE⟩ := U.cubic hs
  rw [hc, Except.ok.injEq]
  have hi : ∀ t, min z1 z2 ≤ t → invEfunc (E2 t) = 1 / √(CubicOK.cubic b' c' d' t) / o.Om0 ^ (0.5 : ℝ) := fun t ht => by
    rw [hE, invEfunc_eq U.matter (hC.cpos ht)]
  rcases lt_trichotomy z1 z2 with h | h | h
  · rw [min_eq_left h.le] at hC hi
    rw [comoving3_eq hC h, integral_div_eq h fun t ht => hi t ht.1.le]
  · subst h
    simp [comoving3]
  · rw [min_eq_right h.le] at hC hi
    rw [comoving3_swap, comoving3_eq hC h, intervalIntegral.integral_symm, integral_div_eq h fun t ht => hi t ht.1.le]

theorem lookback3_pos {L : ℝ} {r1 r2 r3 : ℂ} {b c d : ℝ} (h : CubicOK 0 r1 r2 r3 b c d) (hz : 0 < z) :
    lookback3 L r1 r2 r3 z = (∫ t in Ioc 0 z, 1 / ((1 + t) * √(CubicOK.cubic b c d t))) / L ^ (0.5 : ℝ) := by
  have := congrArg Complex.re (h.lookback_eq (by norm_num) hz)
  simp only [Complex.ofReal_re] at this
  rw [← this]
  simp only [lookback3, fixDimless]
  rw [show (2 : ℂ) * ((z - 0 : ℝ) : ℂ) = ((2 * z : ℝ) : ℂ) by push_cast; ring, Complex.re_ofReal_mul, ← mul_div_assoc]
  simp only [sub_zero, Complex.ofReal_zero, zero_add, mul_one]
  rw [add_comm (Xr r1 z * Xr r2 z * Xr r3 z)]

theorem lookback3_neg {L : ℝ} {r1 r2 r3 : ℂ} {b c d : ℝ} (h : CubicOK z r1 r2 r3 b c d) (hz1 : -1 < z) (hz : z < 0) :
    lookback3 L r1 r2 r3 z = -(∫ t in Ioc z 0, 1 / ((1 + t) * √(CubicOK.cubic b c d t))) / L ^ (0.5 : ℝ) := by
  have := congrArg Complex.re (h.lookback_eq hz1 hz)
  simp only [Complex.ofReal_re] at this
  rw [← this]
  simp only [lookback3, fixDimless, CubicOK.params3_swap z 0]
  rw [show (2 : ℂ) * ((0 - z : ℝ) : ℂ) = ((-(2 * z) : ℝ) : ℂ) by push_cast; ring, Complex.re_ofReal_mul, ← mul_div_assoc]
  simp only [zero_sub, Complex.ofReal_zero, zero_add, one_mul, Complex.ofReal_neg, even_two.neg_pow, mul_one]
  ring

/-- **C92** the analytic lookback time of LambdaCDM is the integral of `1/((1+z) E)` from 0, for every redshift above -1. -/
theorem C92_lookback (U : Universe p c o n E2 (min 0 z)) (hz : -1 < z) (hs : Solves solve) :
    call3 solve c o n (fun L r1 r2 r3 => lookback3 L r1 r2 r3 z) = .ok (∫ t in (0 : ℝ)..z, lookbackIntegrand (E2 t) t) := by
  obtain ⟨r1, r2, r3, b', c', d', hc, hC, hE⟩ := U.cubic hs
  rw [hc, Except.ok.injEq]
  have hi : ∀ t, min 0 z ≤ t → lookbackIntegrand (E2 t) t = 1 / ((1 + t) * √(CubicOK.cubic b' c' d' t)) / o.Om0 ^ (0.5 : ℝ) := fun t ht => by
    have h0 := Real.rpow_pos_of_pos U.matter (0.5 : ℝ)
    have h1 := Real.sqrt_pos.mpr (hC.cpos ht)
    have h2 : 0 < 1 + t := by
      rcases min_le_iff.mp ht with h | h <;> linarith
    rw [lookbackIntegrand, hE, invEfunc_eq U.matter (hC.cpos ht), add_comm t 1]
    field_simp
  rcases lt_trichotomy 0 z with h | h | h
  · rw [min_eq_left h.le] at hC hi
    rw [lookback3_pos hC h, integral_div_eq h fun t ht => hi t ht.1.le]
  · subst h
    simp [lookback3]
  · rw [min_eq_right h.le] at hC hi
    rw [lookback3_neg hC hz h, intervalIntegral.integral_symm, integral_div_eq h fun t ht => hi t ht.1.le, neg_div]

theorem absorption3_pos {L : ℝ} {r1 r2 r3 : ℂ} {b c d : ℝ} (h : CubicOK z1 r1 r2 r3 b c d) (hlt : z1 < z2) :
    absorption3 L r1 r2 r3 z1 z2 = (∫ t in Ioc z1 z2, (1 + t) ^ 2 / √(CubicOK.cubic b c d t)) / L ^ (0.5 : ℝ) := by
  have := congrArg Complex.re (h.absorption_eq hlt)
  simp only [Complex.ofReal_re] at this
  rw [← this]
  simp only [absorption3, fixDimless]
  rw [show (2 : ℂ) / 3 * ((z2 - z1 : ℝ) : ℂ) = ((2 / 3 * (z2 - z1) : ℝ) : ℂ) by push_cast; ring, Complex.re_ofReal_mul, ← mul_div_assoc]

theorem absorption3_swap (L : ℝ) (r1 r2 r3 : ℂ) (z1 z2 : ℝ) : absorption3 L r1 r2 r3 z1 z2 = -absorption3 L r1 r2 r3 z2 z1 := by
  simp only [absorption3, CubicOK.params3_swap z1 z2, fixDimless]
  rw [show ((z2 - z1 : ℝ) : ℂ) = -((z1 - z2 : ℝ) : ℂ) by push_cast; ring, div_neg, ← neg_div, neg_sub, even_two.neg_pow, mul_comm (Xr r1 z1) (Xr r1 z2)]
  ring

/-- **C93** the analytic absorption distance of LambdaCDM is the integral of `(1+z)²/E` from 0, for every non-zero redshift. -/
theorem C93_absorption (U : Universe p c o n E2 (min 0 z)) (hz : z ≠ 0) (hs : Solves solve) :
    call3 solve c o n (fun L r1 r2 r3 => absorption3 L r1 r2 r3 0 z) = .ok (∫ t in (0 : ℝ)..z, absIntegrand (E2 t) t) := by
  obtain ⟨r1, r2, r3, b', c', d', hc, hC, hE⟩ := U.cubic hs
  rw [hc, Except.ok.injEq]
  have hi : ∀ t, min 0 z ≤ t → absIntegrand (E2 t) t = (1 + t) ^ 2 / √(CubicOK.cubic b' c' d' t) / o.Om0 ^ (0.5 : ℝ) := fun t ht => by
    rw [absIntegrand, hE, invEfunc_eq U.matter (hC.cpos ht), add_comm t 1]
    ring
  rcases lt_trichotomy 0 z with h | h | h
  · rw [min_eq_left h.le] at hC hi
    rw [absorption3_pos hC h, integral_div_eq h fun t ht => hi t ht.1.le]
  · exact absurd h.symm hz
  · rw [min_eq_right h.le] at hC hi
    rw [absorption3_swap, absorption3_pos hC h, intervalIntegral.integral_symm, integral_div_eq h fun t ht => hi t ht.1.le]

/-- The code's root finder qualifies: on at least two real coefficients it returns a list of the roots, by closed formulas or
numerically (C48). -/
theorem solves_exists (sq cb : ℂ → ℂ) (hs : Roots.IsPrincipalSqrt sq) (hcb : Roots.IsCbrt cb)
    (eig : (n : ℕ) → Matrix (Fin n) (Fin n) ℂ → List ℂ) (heig : Roots.EigSpec eig) (force : Bool) (eigBad) :
    ∃ solve, Solves solve ∧ ∀ cs : List ℝ, 2 ≤ cs.length →
      Roots.forward sq cb eig eigBad force ((cs.map fun x : ℝ => (x : ℂ)).map .fin) = .ok ((solve cs).map .fin) := by
  have h : ∀ cs : List ℝ, ∃ rts, (2 ≤ cs.length →
      Roots.forward sq cb eig eigBad force ((cs.map fun x : ℝ => (x : ℂ)).map .fin) = .ok (rts.map .fin)) ∧
      Roots.AreRoots (cs.map fun x : ℝ => (x : ℂ)) rts := by
    intro cs
    by_cases hn : 2 ≤ cs.length
    · obtain ⟨rts, h1, h2⟩ := C48_solver sq cb hs hcb eig heig force cs hn eigBad
      exact ⟨rts, fun _ => h1, h2⟩
    · match cs, hn with
      | [], hn => exact ⟨[], fun h => absurd h hn, rfl, fun x => by simp [Roots.rootProd, Roots.monicEval]⟩
      | [b], hn => exact ⟨[-(b : ℂ)], fun h => absurd h hn, rfl, fun x => by simp [Roots.rootProd, Roots.monicEval]⟩
      | _ :: _ :: _, hn => simp at hn
  choose solve h1 h2 using h
  exact ⟨solve, h2, h1⟩

/-- The hypotheses are met: a curved universe with `Om0 = 0.3`, `Ode0 = 0.5`, and a root finder. -/
example (p : Phys) : (∃ c o E2, c.flat = false ∧ Universe p c o 2 E2 (-1 / 2)) ∧ ∃ solve, Solves solve := by
  constructor
  · have hr : Reachable p ⟨.lambda, false, false⟩ _ := ⟨1, [(.Om0, 0.3), (.Ode0, 0.5)], [], _, rfl, rfl⟩
    refine ⟨⟨.lambda, false, false⟩, _, fun z => 0.3 * (1 + z) ^ 3 + 0.2 * (1 + z) ^ 2 + 0.5, rfl, rfl, rfl, hr, le_rfl, ?_, fun z => ?_, fun z hz => ?_⟩
    · norm_num [setParams, assign]
    · norm_num [setParams, assign, e2func, Cosmo.e2, e2base, ok0, ode0, sum0]
      ring
    · have : 0 < 1 + z := by linarith
      positivity
  · obtain ⟨eig, heig⟩ := Roots.eigSpec_nonempty
    obtain ⟨solve, h, -⟩ := solves_exists _ _ Roots.principal_cpow Roots.cbrt_cpow eig heig false fun _ => .ok []
    exact ⟨solve, h⟩

end Verif.Ellred

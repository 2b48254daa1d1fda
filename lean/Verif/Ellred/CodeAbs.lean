import Verif.Ellred.CodeDist
import Verif.Ellred.ComplexDRun
import Verif.Ellred.TapeLook

/-! # The absorption distance with the code's own `elliprf` and `elliprd` (C149) -/

namespace Verif.Ellred

open MeasureTheory Set Filter Topology Verif.Carlson Verif.Cosmo

open Classical in
/-- `LambdaCDM._ellipr_absorption_distance_dimless_z1z2` (analytic.py:124-137) with the routines `elliprf` and `elliprd` of the extension
(elliprf.h, elliprd.h). `none` stands for a value that is not a number; the code divides by `dz` and by `u1**0.5`. -/
noncomputable def codeAbsorption3 (eps L : ℝ) (r1 r2 r3 : ℂ) (z1 z2 : ℝ) : Option ℝ :=
  let dz := z2 - z1
  let u := params3 r1 r2 r3 z1 z2
  let dijdik := (r2 - r1) * (r3 - r1)
  if dz = 0 ∨ csqrt u.1 = 0 then none else
  match elliprf eps u.1 u.2.1 u.2.2, elliprd eps u.2.1 u.2.2 u.1 with
  | .val f, .val g => some (2 / 3 * dz * fixDimless L ((Xr r1 z2 * Xr r2 z2 * Xr r3 z2 - Xr r1 z1 * Xr r2 z1 * Xr r3 z1) / dz +
      (3 * (r1 + 1) ^ 2 - dijdik) * f + 2 * (r1 + r2 + r3 + 3) * (dz ^ 2 / 3 * dijdik * g + Xr r1 z1 * Xr r1 z2 / csqrt u.1)))
  | _, _ => none

theorem codeAbsorption3_swap (eps L : ℝ) (r1 r2 r3 : ℂ) (z1 z2 : ℝ) :
    codeAbsorption3 eps L r1 r2 r3 z1 z2 = (codeAbsorption3 eps L r1 r2 r3 z2 z1).map fun v => -v := by
  simp only [codeAbsorption3, CubicOK.params3_swap z1 z2]
  have hz : z2 - z1 = 0 ↔ z1 - z2 = 0 := by rw [sub_eq_zero, sub_eq_zero, eq_comm]
  by_cases hc : z1 - z2 = 0 ∨ csqrt (params3 r1 r2 r3 z2 z1).1 = 0
  · rw [if_pos hc, if_pos (by rwa [hz])]; rfl
  rw [if_neg hc, if_neg (by rwa [hz])]
  cases elliprf eps (params3 r1 r2 r3 z2 z1).1 (params3 r1 r2 r3 z2 z1).2.1 (params3 r1 r2 r3 z2 z1).2.2 <;>
    cases elliprd eps (params3 r1 r2 r3 z2 z1).2.1 (params3 r1 r2 r3 z2 z1).2.2 (params3 r1 r2 r3 z2 z1).1 <;> simp
  rw [show (z2 : ℂ) - z1 = -((z1 : ℂ) - z2) by ring, div_neg, ← neg_div, neg_sub, even_two.neg_pow, mul_comm (Xr r1 z1) (Xr r1 z2)]
  ring

/-- The first argument is not zero. -/
theorem CubicOK.u1_ne {y x : ℝ} {r1 r2 r3 : ℂ} {b c d : ℝ} (h : CubicOK y r1 r2 r3 b c d) (hlt : y < x) : (params3 r1 r2 r3 y x).1 ≠ 0 := by
  obtain ⟨V, W, K⟩ := h.kernel' hlt
  rw [params3_eq hlt]
  refine pow_ne_zero 2 (mul_ne_zero ?_ fun h0 => ?_)
  · exact_mod_cast (sub_pos.mpr hlt).ne'
  · have := K.re1 x ⟨hlt, le_rfl⟩
    rw [h0] at this
    simp at this

theorem CArgs.mu {x y z : ℂ} (h : CArgs x y z) : ∃ μ : ℝ, 0 < μ ∧ 2 * μ ≤ (csqrt x + csqrt y).re ∧ 2 * μ ≤ (csqrt x + csqrt z).re ∧
    2 * μ ≤ (csqrt y + csqrt z).re := by
  obtain ⟨h1, h2, h3⟩ := h.sum3
  simp only at h1 h2 h3
  refine ⟨min (min (csqrt x + csqrt y).re (csqrt x + csqrt z).re) (csqrt y + csqrt z).re / 2, ?_, ?_, ?_, ?_⟩
  · have := lt_min (lt_min h1 h2) h3
    linarith
  · linarith [min_le_left (min (csqrt x + csqrt y).re (csqrt x + csqrt z).re) (csqrt y + csqrt z).re, min_le_left (csqrt x + csqrt y).re (csqrt x + csqrt z).re]
  · linarith [min_le_left (min (csqrt x + csqrt y).re (csqrt x + csqrt z).re) (csqrt y + csqrt z).re, min_le_right (csqrt x + csqrt y).re (csqrt x + csqrt z).re]
  · linarith [min_le_right (min (csqrt x + csqrt y).re (csqrt x + csqrt z).re) (csqrt y + csqrt z).re]

/-- The difference of the value computed with the code's own routines from the one with exact integrals. -/
theorem codeAbsorption3_le {z1 z2 : ℝ} {L : ℝ} (hL : 0 < L) {r1 r2 r3 : ℂ} {b c d : ℝ} (h : CubicOK z1 r1 r2 r3 b c d) (hlt : z1 < z2) :
    ∃ K : ℝ, 0 ≤ K ∧ (r1 + r2 + r3 + 3 = 0 → 3 * (r1 + 1) ^ 2 - (r2 - r1) * (r3 - r1) = 0 → K = 0) ∧ ∀ eps, 0 < eps → eps ≤ 1 →
      ∃ D, codeAbsorption3 eps L r1 r2 r3 z1 z2 = some D ∧ |D - absorption3 L r1 r2 r3 z1 z2| ≤ K * eps := by
  have ha := h.args hlt.le
  have hu := h.u1_ne hlt
  obtain ⟨μ, hμ, m1, m2, m3⟩ := ha.swap12.swap23.mu
  have hl := Real.rpow_pos_of_pos hL (0.5 : ℝ)
  simp only [codeAbsorption3, absorption3]
  have hc : ¬(z2 - z1 = 0 ∨ csqrt (params3 r1 r2 r3 z1 z2).1 = 0) := by
    rw [not_or]
    exact ⟨(sub_pos.mpr hlt).ne', csqrt_ne0 hu⟩
  simp only [if_neg hc]
  generalize params3 r1 r2 r3 z1 z2 = u at *
  refine ⟨‖(2 / 3 * (z2 - z1) : ℝ)‖ / L ^ (0.5 : ℝ) * (‖3 * (r1 + 1) ^ 2 - (r2 - r1) * (r3 - r1)‖ * (2 * (1 / 1000000) * ‖RFc u.1 u.2.1 u.2.2‖) +
    ‖2 * (r1 + r2 + r3 + 3) * (((z2 - z1 : ℝ) : ℂ) ^ 2 / 3 * ((r2 - r1) * (r3 - r1)))‖ * (5 * (1 / 1000000) / μ ^ 3)), by positivity,
    fun e1 e2 => by rw [e1, e2]; simp, fun eps h0 h1 => ?_⟩
  obtain ⟨f, hf, ef⟩ := C145_elliprf h0 h1 ha
  obtain ⟨g, hg, eg⟩ := C148_elliprd h0 h1 ha.swap12.swap23 hu hμ m1 m2 m3
  rw [hf, hg]
  refine ⟨_, rfl, ?_⟩
  have hE : EPS eps = 1 / 1000000 * eps := by unfold EPS; ring
  rw [hE] at ef eg
  simp only [fixDimless]
  rw [← mul_sub, ← sub_div, ← Complex.sub_re, abs_mul, abs_div, abs_of_pos hl, ← Real.norm_eq_abs (2 / 3 * (z2 - z1))]
  have hd : ∀ A B C G : ℂ, A + (3 * (r1 + 1) ^ 2 - (r2 - r1) * (r3 - r1)) * f + 2 * (r1 + r2 + r3 + 3) * (((z2 - z1 : ℝ) : ℂ) ^ 2 / 3 * ((r2 - r1) * (r3 - r1)) * g + B) -
      (A + (3 * (r1 + 1) ^ 2 - (r2 - r1) * (r3 - r1)) * C + 2 * (r1 + r2 + r3 + 3) * (((z2 - z1 : ℝ) : ℂ) ^ 2 / 3 * ((r2 - r1) * (r3 - r1)) * G + B)) =
      (3 * (r1 + 1) ^ 2 - (r2 - r1) * (r3 - r1)) * (f - C) + 2 * (r1 + r2 + r3 + 3) * (((z2 - z1 : ℝ) : ℂ) ^ 2 / 3 * ((r2 - r1) * (r3 - r1))) * (g - G) := by
    intro A B C G
    ring
  rw [hd]
  have hn : |((3 * (r1 + 1) ^ 2 - (r2 - r1) * (r3 - r1)) * (f - RFc u.1 u.2.1 u.2.2) +
      2 * (r1 + r2 + r3 + 3) * (((z2 - z1 : ℝ) : ℂ) ^ 2 / 3 * ((r2 - r1) * (r3 - r1))) * (g - RDc u.2.1 u.2.2 u.1)).re| ≤
      ‖3 * (r1 + 1) ^ 2 - (r2 - r1) * (r3 - r1)‖ * (2 * (1 / 1000000 * eps) * ‖RFc u.1 u.2.1 u.2.2‖) +
        ‖2 * (r1 + r2 + r3 + 3) * (((z2 - z1 : ℝ) : ℂ) ^ 2 / 3 * ((r2 - r1) * (r3 - r1)))‖ * (5 * (1 / 1000000 * eps) / μ ^ 3) := by
    refine (Complex.abs_re_le_norm _).trans ((norm_add_le _ _).trans ?_)
    rw [norm_mul, norm_mul _ (g - _)]
    gcongr
  calc _ ≤ ‖(2 / 3 * (z2 - z1) : ℝ)‖ * ((‖3 * (r1 + 1) ^ 2 - (r2 - r1) * (r3 - r1)‖ * (2 * (1 / 1000000 * eps) * ‖RFc u.1 u.2.1 u.2.2‖) +
        ‖2 * (r1 + r2 + r3 + 3) * (((z2 - z1 : ℝ) : ℂ) ^ 2 / 3 * ((r2 - r1) * (r3 - r1)))‖ * (5 * (1 / 1000000 * eps) / μ ^ 3)) / L ^ (0.5 : ℝ)) := by gcongr
    _ = _ := by ring

variable {p : Phys} {c : Cls} {o : Obj} {n : ℕ} {E2 : ℝ → ℝ} {z0 z1 z2 z : ℝ} {solve : List ℝ → List ℂ}

theorem CubicOK.codeAbs_value {r1 r2 r3 : ℂ} {b c d : ℝ} (h : CubicOK (min 0 z) r1 r2 r3 b c d) {L : ℝ} (hL : 0 < L) (hz : z ≠ 0) :
    ∃ K : ℝ, 0 ≤ K ∧ (r1 + r2 + r3 + 3 = 0 → 3 * (r1 + 1) ^ 2 - (r2 - r1) * (r3 - r1) = 0 → K = 0) ∧ ∀ eps, 0 < eps → eps ≤ 1 →
      ∃ D, codeAbsorption3 eps L r1 r2 r3 0 z = some D ∧ |D - ∫ t in 0..z, absIntegrand (L * CubicOK.cubic b c d t) t| ≤ K * eps := by
  rw [← h.absorption_value hL hz]
  rcases lt_or_gt_of_ne hz with hlt | hlt
  · rw [min_eq_right hlt.le] at h
    obtain ⟨K, k0, k1, k2⟩ := codeAbsorption3_le hL h hlt
    refine ⟨K, k0, k1, fun eps h0 h1 => ?_⟩
    obtain ⟨D, hD, he⟩ := k2 eps h0 h1
    refine ⟨-D, by rw [codeAbsorption3_swap, hD]; rfl, ?_⟩
    rwa [absorption3_swap, ← neg_sub', abs_neg]
  · rw [min_eq_left hlt.le] at h
    exact codeAbsorption3_le hL h hlt

/-- **C149** the absorption distance of LambdaCDM that the code computes with its own `elliprf` and `elliprd` is a number at every non-zero redshift,
and differs from the integral of `(1+z)²/E` by at most a constant times the precision parameter. -/
theorem C149_absorption (U : Universe p c o n E2 (min 0 z)) (hz : z ≠ 0) (hs : Solves solve) :
    ∃ K : ℝ, ∀ eps, 0 < eps → eps ≤ 1 → ∃ D, call3 solve c o n (fun L r1 r2 r3 => codeAbsorption3 eps L r1 r2 r3 0 z) = .ok (some D) ∧
      |D - ∫ t in (0 : ℝ)..z, absIntegrand (E2 t) t| ≤ K * eps := by
  obtain ⟨r1, r2, r3, b', c', d', hc, hC, hE⟩ := U.cubic hs
  obtain ⟨K, -, -, hK⟩ := hC.codeAbs_value U.matter hz
  refine ⟨K, fun eps h0 h1 => ?_⟩
  obtain ⟨D, hD, he⟩ := hK eps h0 h1
  refine ⟨D, by rw [hc, hD], ?_⟩
  simp only [hE]
  exact he

/-- **C149** in a universe with neither curvature nor radiation the elliptic integrals drop out, and the value is exact whatever the precision parameter. -/
theorem C149_flat (U : Universe p c o n E2 (min 0 z)) (hflat : ∃ d, ∀ t, E2 t = o.Om0 * (1 + t) ^ 3 + d) (hz : z ≠ 0) (hs : Solves solve) {eps : ℝ} (h0 : 0 < eps) (h1 : eps ≤ 1) :
    call3 solve c o n (fun L r1 r2 r3 => codeAbsorption3 eps L r1 r2 r3 0 z) = .ok (some (∫ t in (0 : ℝ)..z, absIntegrand (E2 t) t)) := by
  obtain ⟨r1, r2, r3, b', c', d', hc, hC, hE⟩ := U.cubic hs
  obtain ⟨K, -, hK0, hK⟩ := hC.codeAbs_value U.matter hz
  obtain ⟨d, hf⟩ := hflat
  have hm := U.matter.ne'
  have e : ∀ t, CubicOK.cubic b' c' d' t = (1 + t) ^ 3 + d / o.Om0 := fun t => by
    have := hE t
    rw [hf t] at this
    field_simp
    linarith
  have c0 := e 0
  have c1 := e 1
  have c2 := e (-1)
  have c3 := e 2
  simp only [CubicOK.cubic] at c0 c1 c2 c3
  have hb : b' = 3 := by linarith
  have hcc : c' = 3 := by linarith
  have v0 := hC.vieta 0
  have v1 := hC.vieta 1
  have v2 := hC.vieta (-1)
  have v3 := hC.vieta 2
  have s1 : r1 + r2 + r3 + 3 = 0 := by
    rw [hb] at v0 v1 v2
    push_cast at v0 v1 v2
    linear_combination v0 - (v1 + v2) / 2
  have s2 : 3 * (r1 + 1) ^ 2 - (r2 - r1) * (r3 - r1) = 0 := by
    rw [hb, hcc] at v1 v2
    push_cast at v1 v2
    have s3 : r1 * r2 + r1 * r3 + r2 * r3 = 3 := by linear_combination (v1 - v2) / 2
    linear_combination 2 * r1 * s1 - s3
  have hK1 := hK0 s1 s2
  obtain ⟨D, hD, he⟩ := hK eps h0 h1
  rw [hK1, zero_mul] at he
  have hDe : D = ∫ t in (0 : ℝ)..z, absIntegrand (E2 t) t := by
    have := abs_nonpos_iff.mp he
    simp only [hE]
    linarith
  rw [hc, hD, hDe]

/-- **C149** at redshift zero the value is not a number. -/
theorem C149_zero (U : Universe p c o n E2 0) (hs : Solves solve) (eps : ℝ) :
    call3 solve c o n (fun L r1 r2 r3 => codeAbsorption3 eps L r1 r2 r3 0 0) = .ok none := by
  obtain ⟨r1, r2, r3, b', c', d', hc, -, -⟩ := U.cubic hs
  rw [hc, Except.ok.injEq]
  simp [codeAbsorption3]

/-! ### Examples -/

/-- A curved universe with `Om0 = 0.3`, `Ode0 = 0.5`, at a negative redshift; its value converges to the integral with the precision. -/
example (p : Phys) : ∃ c o E2 solve, c.flat = false ∧ Universe p c o 2 E2 (-1 / 2) ∧ Solves solve ∧ ∃ K : ℝ, ∀ eps, 0 < eps → eps ≤ 1 →
    ∃ D, call3 solve c o 2 (fun L r1 r2 r3 => codeAbsorption3 eps L r1 r2 r3 0 (-1 / 2)) = .ok (some D) ∧
      |D - ∫ t in (0 : ℝ)..(-1 / 2), absIntegrand (E2 t) t| ≤ K * eps := by
  have hr : Reachable p ⟨.lambda, false, false⟩ _ := ⟨1, [(.Om0, 0.3), (.Ode0, 0.5)], [], _, rfl, rfl⟩
  obtain ⟨eig, heig⟩ := Roots.eigSpec_nonempty
  obtain ⟨solve, hs, -⟩ := solves_exists _ _ Roots.principal_cpow Roots.cbrt_cpow eig heig false fun _ => .ok []
  have U : Universe p ⟨.lambda, false, false⟩ _ 2 (fun z => 0.3 * (1 + z) ^ 3 + 0.2 * (1 + z) ^ 2 + 0.5) (-1 / 2) :=
    ⟨rfl, rfl, hr, le_rfl, by norm_num [setParams, assign], fun z => by
      norm_num [setParams, assign, e2func, Cosmo.e2, e2base, ok0, ode0, sum0]
      ring, fun z hz => by
      have : 0 < 1 + z := by linarith
      positivity⟩
  exact ⟨_, _, _, solve, rfl, U, hs, C149_absorption (by rw [min_eq_right (by norm_num)]; exact U) (by norm_num) hs⟩

/-- A flat universe with `Om0 = 0.3` and `Ode0 = 0.7`. -/
example (p : Phys) : ∃ c o E2 solve, Universe p c o 2 E2 0 ∧ Solves solve ∧
    call3 solve c o 2 (fun L r1 r2 r3 => codeAbsorption3 (1 / 2 ^ 52) L r1 r2 r3 0 3) = .ok (some (∫ t in (0 : ℝ)..3, absIntegrand (E2 t) t)) ∧
    call3 solve c o 2 (fun L r1 r2 r3 => codeAbsorption3 (1 / 2 ^ 52) L r1 r2 r3 0 0) = .ok none := by
  have hr : Reachable p ⟨.lambda, false, false⟩ _ := ⟨1, [(.Om0, 0.3), (.Ode0, 0.7)], [], _, rfl, rfl⟩
  obtain ⟨eig, heig⟩ := Roots.eigSpec_nonempty
  obtain ⟨solve, hs, -⟩ := solves_exists _ _ Roots.principal_cpow Roots.cbrt_cpow eig heig false fun _ => .ok []
  have U : Universe p ⟨.lambda, false, false⟩ _ 2 (fun z => 0.3 * (1 + z) ^ 3 + 0.7) 0 :=
    ⟨rfl, rfl, hr, le_rfl, by norm_num [setParams, assign], fun z => by
      norm_num [setParams, assign, e2func, Cosmo.e2, e2base, ok0, ode0, sum0]
      ring, fun z hz => by
      have : 0 < 1 + z := by linarith
      positivity⟩
  exact ⟨_, _, _, solve, U, hs, C149_flat (by rw [min_eq_left (by norm_num)]; exact U) ⟨0.7, fun t => by norm_num [setParams, assign]⟩ (by norm_num) hs (by norm_num) (by norm_num),
    C149_zero U hs _⟩

end Verif.Ellred

import Verif.Special.TGammaOneTwo
import Mathlib.Analysis.Normed.Group.Tannery
import Mathlib.Analysis.Calculus.SmoothSeries
import Mathlib.Analysis.SpecialFunctions.Gamma.Deriv

/-!
# `Tgamma(3, a, x)` (C111)
-/

open Complex Finset Filter Topology

namespace Verif.Special

/-! ### The series of `T(3, a, x)` -/

/-- `∑ (-x)ⁿ / (n! (a+n)²)` -/
noncomputable def sqTerm (a x : ℝ) (n : ℕ) : ℝ := (-x) ^ n / n.factorial / (a + n) ^ 2

theorem abs_sqTerm_le {a c x : ℝ} (hc : 0 < c) (hca : c ≤ a) (n : ℕ) :
    |sqTerm a x n| ≤ |x| ^ n / n.factorial / c ^ 2 := by
  rw [sqTerm, abs_div, abs_div, abs_pow, abs_neg, abs_of_nonneg (a := (n.factorial : ℝ)) (by positivity),
    abs_of_nonneg (a := (a + n) ^ 2) (by positivity)]
  have : (0 : ℝ) ≤ n := by positivity
  gcongr
  linarith

/-- `x T(3,a,x) = Γ'(a) - Γ(a) log x + xᵃ ∑ (-x)ⁿ/(n! (a+n)²)`. -/
theorem TInt_three {a x : ℝ} (ha : 0 < a) (hx : 0 < x) :
    x * TInt 3 a x = deriv Real.Gamma a - Real.Gamma a * Real.log x + x ^ a * ∑' n, sqTerm a x n := by
  have hG : DifferentiableAt ℝ Real.Gamma a :=
    Real.differentiableAt_Gamma fun m e => by
      have : (0 : ℝ) ≤ m := by positivity
      linarith
  have h1 := TInt_hasDerivAt_a 1 a hx
  have hser : HasDerivAt (fun b => ∑' n, altTerm b x n) (∑' n, -sqTerm a x n) a := by
    refine hasDerivAt_tsum_of_isPreconnected (t := Set.Ioi (a / 2))
      (u := fun n => |x| ^ n / n.factorial / (a / 2) ^ 2)
      (g' := fun n b => -sqTerm b x n)
      ((Real.summable_pow_div_factorial |x|).div_const _) isOpen_Ioi
      isPreconnected_Ioi (fun n b hb => ?_) (fun n b hb => ?_) (y₀ := a) ?_ ?_ ?_
    · have hb' : a / 2 < b := hb
      have hb0 : (0 : ℝ) < b + n := by
        have : (0 : ℝ) ≤ n := by positivity
        linarith
      have := (hasDerivAt_const b ((-x) ^ n / n.factorial)).div
        ((hasDerivAt_id b).add_const (n : ℝ)) hb0.ne'
      refine this.congr_deriv ?_
      simp only [id_eq, sqTerm]; field_simp; ring
    · rw [norm_neg, Real.norm_eq_abs]; exact abs_sqTerm_le (by linarith) (le_of_lt hb) n
    · exact Set.mem_Ioi.2 (by linarith)
    · exact (hasSum_altTerm ha hx).summable
    · exact Set.mem_Ioi.2 (by linarith)
  have h2 : HasDerivAt (fun b => (Real.Gamma b - x ^ b * ∑' n, altTerm b x n) / x)
      ((deriv Real.Gamma a - (Real.log x * 1 * x ^ a * (∑' n, altTerm a x n) +
        x ^ a * ∑' n, -sqTerm a x n)) / x) a :=
    (hG.hasDerivAt.sub (((hasDerivAt_id a).const_rpow hx).mul hser)).div_const x
  have hform : ∀ b : ℝ, 0 < b → TInt 2 b x = (Real.Gamma b - x ^ b * ∑' n, altTerm b x n) / x := by
    intro b hb
    have hpq := incP_add_incQ hb hx.le
    have : incQ b x = 1 - incP b x := by linarith
    rw [TInt_two hb, (hasSum_altTerm hb hx).tsum_eq, this]
    have := (Real.rpow_pos_of_pos hx b).ne'
    field_simp
  have h3 := h2.congr_of_eventuallyEq (f₁ := fun b => TInt 2 b x)
    (by filter_upwards [lt_mem_nhds ha] with b hb using hform b hb)
  have e := h1.unique h3
  rw [hform a ha, tsum_neg] at e
  push_cast at e
  field_simp at e
  linarith

/-! ### The three terms -/

theorem series_three (z a0 a1 b0 b1 b2 : ℂ) : meijergSeries1 3 0 (3 - 1) 3 z 1 [a0, a1, b0, b1, b2] =
    [{ w := [z], c := [b0], alpha := [b1 - b0, b2 - b0], beta := [a0 - b0, a1 - b0],
       a := [1 - a0 + b0, 1 - a1 + b0], b := [1 - b1 + b0, 1 - b2 + b0], z := -z },
     { w := [z], c := [b1], alpha := [b0 - b1, b2 - b1], beta := [a0 - b1, a1 - b1],
       a := [1 - a0 + b1, 1 - a1 + b1], b := [1 - b0 + b1, 1 - b2 + b1], z := -z },
     { w := [z], c := [b2], alpha := [b0 - b2, b1 - b2], beta := [a0 - b2, a1 - b2],
       a := [1 - a0 + b2, 1 - a1 + b2], b := [1 - b0 + b2, 1 - b1 + b2], z := -z }] := by
  simp [meijergSeries1, List.range_succ, List.range'_succ]

theorem perturbed_three (h : ℝ) (a : ℂ) : perturbFrom 0 h (tgammaArgs 3 a) =
    [(h : ℂ), 2 * h, a - 1 + 3 * h, -1 + 4 * h, -1 + 5 * h] := by
  simp only [tgammaArgs, perturbFrom, show 3 - 1 = 2 from rfl, List.replicate, List.cons_append,
    List.nil_append, List.cons.injEq, and_true]
  refine ⟨by simp, ?_, ?_, ?_, ?_⟩ <;> push_cast <;> ring

/-- The terms of `Tgamma(3, a, z)` with step `h`. -/
noncomputable def threeTerms (h : ℝ) (a z : ℂ) : List CombTerm :=
  [{ w := [z], c := [a - 1 + 3 * h], alpha := [-a + h, -a + 2 * h], beta := [1 - a - 2 * h, 1 - a - h],
     a := [a + 2 * h, a + h], b := [a + 1 - h, a + 1 - 2 * h], z := -z },
   { w := [z], c := [-1 + 4 * h], alpha := [a - h, h], beta := [1 - 3 * h, 1 - 2 * h],
     a := [3 * h, 2 * h], b := [1 - a + h, 1 - h], z := -z },
   { w := [z], c := [-1 + 5 * h], alpha := [a - 2 * h, -h], beta := [1 - 4 * h, 1 - 3 * h],
     a := [4 * h, 3 * h], b := [1 - a + 2 * h, 1 + h], z := -z }]

theorem Tgamma_three_eq (gam : ℂ → Option ℂ) (hyp : List ℂ → List ℂ → ℂ → Option ℂ) (eps h : ℝ) (a z : ℂ) :
    TgammaWith gam hyp eps h 3 a z = .ok (combSum gam hyp (threeTerms h a z)) := by
  rw [TgammaWith_eq (by norm_num), if_pos (tgamma_perturbed le_rfl a z), perturbed_three, series_three,
    threeTerms]
  congr 3
  all_goals simp only [List.cons.injEq, CombTerm.mk.injEq, and_true, true_and]
  all_goals refine ⟨?_, ?_, ?_⟩
  all_goals (try constructorm* _ ∧ _)
  all_goals ring

theorem combSum_three (gam : ℂ → Option ℂ) (hyp : List ℂ → List ℂ → ℂ → Option ℂ) (t u w : CombTerm) {v : ℂ} :
    combSum gam hyp [t, u, w] = some v ↔
    ∃ p q r, t.value gam hyp = some p ∧ u.value gam hyp = some q ∧ w.value gam hyp = some r ∧
      v = p + q + r := by
  simp only [combSum, List.foldlM_cons, List.foldlM_nil]
  cases ht : t.value gam hyp with
  | none => simp
  | some p =>
    cases hu : u.value gam hyp with
    | none => simp
    | some q =>
      cases hw : w.value gam hyp with
      | none => simp
      | some r => simp [eq_comm]

end Verif.Special

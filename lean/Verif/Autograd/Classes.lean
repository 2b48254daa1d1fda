import Verif.Autograd.Props
import Mathlib.Analysis.Calculus.FDeriv.Mul

/-! # C78: every function class pairs its gradient functions with its inputs -/

namespace Verif.Autograd

/-- A function class: the names of its inputs in call order, the attributes that matter to `__init_subclass__`, and the
gradient functions defined by each class of its MRO (most derived first, classes without any omitted), each labelled by
the class and the attribute. -/
structure ClassDef where
  name : String
  sig : List String
  ninputs : Option ℕ := none
  explicit : Option (List (Option (String × String))) := none
  auto : Bool := false
  mro : List (List (String × (String × String))) := []
  update : List (String × String) → List (String × String) := id

/-- Attributes `grad_…` of one class, in definition order. -/
def own (cls : String) (attrs : List String) : List (String × (String × String)) := attrs.map fun a => (a, (cls, a))

/-- The function classes of phytorch: special/ellipr.py:17-182, special/ellip.py:16-172, special/gamma.py:10-79,
special/gammainc.py:9-67. The names of the inputs are those of the functions they call
(phytorch-extensions/elliptic/elliptic.cpp:3-23); the second argument of the incomplete gamma functions is called `z`
in the names of their gradient functions. -/
def classes : List ClassDef := [
  { name := "Elliprc", sig := ["x", "y"], ninputs := some 2, mro := [own "Elliprc" ["grad_x", "grad_y"]] },
  { name := "Elliprd", sig := ["x", "y", "z"], ninputs := some 3,
    mro := [own "Elliprd" ["grad_x", "grad_y", "grad_z"]] },
  { name := "Elliprj", sig := ["x", "y", "z", "p"], ninputs := some 4,
    mro := [own "Elliprj" ["grad_x", "grad_y", "grad_z", "grad_p"]] },
  { name := "CosecantSquared", sig := ["phi"], mro := [own "CosecantSquared" ["grad_phi"]] },
  { name := "EllipK", sig := ["m"], mro := [own "EllipK" ["grad_m"]] },
  { name := "EllipE", sig := ["m"], mro := [own "EllipE" ["grad_m"]] },
  { name := "EllipD", sig := ["m"], mro := [own "EllipD" ["grad_m"]] },
  { name := "EllipPi", sig := ["n", "m"], mro := [own "EllipPi" ["grad_n", "grad_m"]] },
  { name := "EllipKinc", sig := ["c", "m"], ninputs := some 2, auto := true,
    mro := [own "EllipKinc" ["grad_m"], own "BaseEllipinc" ["grad_c", "grad_m"]] },
  { name := "EllipEinc", sig := ["c", "m"], ninputs := some 2, auto := true,
    mro := [own "EllipEinc" ["grad_m"], own "BaseEllipinc" ["grad_c", "grad_m"]] },
  { name := "EllipDinc", sig := ["c", "m"], ninputs := some 2, auto := true,
    mro := [own "EllipDinc" ["grad_m"], own "BaseEllipinc" ["grad_c", "grad_m"]] },
  { name := "EllipPiinc", sig := ["n", "c", "m"], ninputs := some 2, auto := true,
    mro := [own "EllipPiinc" ["grad_n", "grad_m"], own "BaseEllipinc" ["grad_c", "grad_m"]], update := lastToFront },
  { name := "Gamma", sig := ["z"], explicit := some [some ("Gamma", "grad_z")] },
  { name := "Loggamma", sig := ["z"], explicit := some [some ("Loggamma", "grad_z")] },
  { name := "Digamma", sig := ["z"], explicit := some [some ("Digamma", "grad_z")] },
  { name := "Polygamma", sig := ["n", "z"], explicit := some [none, some ("Polygamma", "grad_z")] },
  { name := "TGamma", sig := ["m", "a", "z"], ninputs := some 3,
    explicit := some [none, some ("TGamma", "grad_a"), some ("TGamma", "grad_z")] },
  { name := "Gammainc", sig := ["a", "z"], ninputs := some 2, mro := [own "Gammainc" ["grad_a", "grad_z"]] },
  { name := "Gammaincc", sig := ["a", "z"], ninputs := some 2, mro := [own "Gammaincc" ["grad_a", "grad_z"]] } ]

/-- **C78** every class ends up with one gradient function per input, in the order of the inputs: entry `i` is the
function named after input `i`, the class's own if it has one; only the integer orders `n` of `Polygamma` and `m` of
`TGamma` have none. -/
theorem C78_classes : ∀ c ∈ classes,
    let r := initSubclass c.explicit c.auto c.ninputs c.mro c.update
    r.2.2 = some c.sig.length ∧
    r.1 = some (c.sig.map fun a =>
      if (c.name = "Polygamma" ∧ a = "n") ∨ (c.name = "TGamma" ∧ a = "m") then none
      else some (if c.auto ∧ a = "c" then "BaseEllipinc" else c.name, "grad_" ++ a)) := by
  decide +kernel

/-- Without the `_update_gradfuncs` of `EllipPiinc` the gradients would be attributed to the wrong inputs. -/
example : (initSubclass none true (some 2)
    [own "EllipPiinc" ["grad_n", "grad_m"], own "BaseEllipinc" ["grad_c", "grad_m"]] id).1 =
    some [some ("BaseEllipinc", "grad_c"), some ("EllipPiinc", "grad_m"), some ("EllipPiinc", "grad_n")] := by
  decide +kernel

/-- The hypotheses of `C78_override` are met by the incomplete elliptic integrals. -/
example : autoGradfuncs [own "EllipKinc" ["grad_m"], own "BaseEllipinc" ["grad_c", "grad_m"]] =
    [("grad_c", ("BaseEllipinc", "grad_c")), ("grad_m", ("EllipKinc", "grad_m"))] :=
  C78_override (own "BaseEllipinc" ["grad_c", "grad_m"]) (own "EllipKinc" ["grad_m"]) (by decide +kernel)
    (by decide +kernel) (by decide +kernel) (by decide +kernel)

/-- `C58_aligned`: two inputs, only the second needs a gradient. -/
example : backward (K := ℚ) id (some 2) (rawBackward [some fun l => l.sum, some fun l => l.prod] [false, true] [2, 3, 5])
    [some 7] = .ret [none, some 210] := by
  have : ([some 7] : List (Option ℚ)).filterMap id = [7] := rfl
  unfold backward
  rw [this]
  norm_num [rawBackward, padded]

/-- `C36_symmetric`: three arguments, the first and third need gradients. -/
example : symmetricBackward (K := ℚ) (fun o v => o.sum + 100 * v) [true, false, true] [1, 2, 3] =
    [some 105, none, some 303] := by
  norm_num [symmetricBackward, circularShifts, List.range_succ, List.rotate]

/-- `C59_inverse` is met by the inverse in `x` of `F (a, x) = a x` at `a = (2, 6)`: `G = 3`, with derivatives
`-3/2` and `1/2`. -/
example : ∃ G' : (Fin 2 → ℝ) →L[ℝ] ℝ, HasFDerivAt (fun b : Fin 2 → ℝ => b 1 / b 0) G' ![2, 6] ∧
    G' (Pi.single 0 1) = -3 / 2 ∧ G' (Pi.single 1 1) = 1 / 2 := by
  have hF : HasFDerivAt (fun b : Fin 2 → ℝ => b 0 * b 1)
      ((3 : ℝ) • ContinuousLinearMap.proj (R := ℝ) (φ := fun _ : Fin 2 => ℝ) 0 +
        (2 : ℝ) • ContinuousLinearMap.proj (R := ℝ) (φ := fun _ : Fin 2 => ℝ) 1)
      (Function.update ![2, 6] 1 ((fun b : Fin 2 → ℝ => b 1 / b 0) ![2, 6])) := by
    have h0 := (ContinuousLinearMap.proj (R := ℝ) (φ := fun _ : Fin 2 => ℝ) 0).hasFDerivAt
      (x := Function.update ![2, 6] 1 ((fun b : Fin 2 → ℝ => b 1 / b 0) ![2, 6]))
    have h1 := (ContinuousLinearMap.proj (R := ℝ) (φ := fun _ : Fin 2 => ℝ) 1).hasFDerivAt
      (x := Function.update ![2, 6] 1 ((fun b : Fin 2 → ℝ => b 1 / b 0) ![2, 6]))
    refine (HasFDerivAt.mul h0 h1).congr_fderiv ?_
    ext v
    simp [Function.update]
    norm_num
    ring
  obtain ⟨G', hG, he⟩ := C59_inverse 2 (fun b : Fin 2 → ℝ => b 0 * b 1) (fun b => b 1 / b 0) 1 ![2, 6] _ hF
    (by simp) (by
      refine ContinuousAt.div (continuous_apply 1).continuousAt (continuous_apply 0).continuousAt (by simp))
    (by
      have : ∀ᶠ b in nhds (![2, 6] : Fin 2 → ℝ), b 0 ≠ 0 :=
        (continuous_apply (0 : Fin 2)).continuousAt.eventually_ne (by simp)
      filter_upwards [this] with b hb
      simp [Function.update]
      field_simp)
    [fun l => l.getD 1 0, fun l => l.getD 0 0] rfl
    (by
      intro i
      fin_cases i
      · simp [Function.update, List.ofFn_succ]; norm_num
      · simp [Function.update, List.ofFn_succ])
    (fun _ => true)
  refine ⟨G', hG, ?_⟩
  simp only [inverseBackward, rawBackward, reorder, List.ofFn_succ, List.ofFn_zero, List.mapIdx_cons, List.mapIdx_nil] at he
  norm_num at he
  refine ⟨?_, ?_⟩
  · linarith [he.1]
  · linarith [he.2]

end Verif.Autograd

import Verif.Units.Model

/-! Specification vocabulary for units (used in the statements of `Verif.Units.Props`). -/

namespace Verif.Units

/-- The exponent of dimension `k` in a unit: what `u[k]` returns. -/
def Unit.exp (u : Unit) (k : Dim) : ℚ := dget u.dims k

/-- Well-formed unit: what C01 says every unit that can be built satisfies. -/
def Unit.WF (u : Unit) : Prop :=
  (u.dims.map Prod.fst).Nodup ∧ ∀ kv ∈ u.dims, kv.2 ≠ 0 ∧ kv.2.den ≤ 1000000

/-- All exponents are integer multiples of `1/N`. -/
def Unit.OnGrid (N : ℕ) (u : Unit) : Prop := ∀ k, ∃ z : ℤ, u.exp k * N = z

/-- Any Python expression building a unit; each product may see a different set order. -/
inductive UExpr
  | lit (items : List (Dim × ℚ)) (value : ℝ)
  | mul (σ : SetOrder) (a b : UExpr)
  | mulReal (a : UExpr) (x : ℝ)
  | inv (a : UExpr)
  | pow (a : UExpr) (p : ℚ)
  | div (σ : SetOrder) (a b : UExpr)
  | rdivReal (a : UExpr) (x : ℝ)
  | divReal (a : UExpr) (x : ℝ)

/-- Evaluation of a unit expression; exceptions propagate. -/
noncomputable def UExpr.eval : UExpr → Except Err Unit
  | .lit items v => .ok (Unit.mk' items v)
  | .mul σ a b => do return (← a.eval).mul σ (← b.eval)
  | .mulReal a x => do return (← a.eval).mulReal x
  | .inv a => do (← a.eval).inv
  | .pow a p => do (← a.eval).pow p
  | .div σ a b => do (← a.eval).div σ (← b.eval)
  | .rdivReal a x => do (← a.eval).rdivReal x
  | .divReal a x => do (← a.eval).divReal x

/-- The identity enumeration of a set (used in examples). -/
def SetOrder.id : SetOrder := ⟨fun l => l, fun _ => List.Perm.refl _⟩

/-- The reversed enumeration of a set (used in examples). -/
def SetOrder.rev : SetOrder := ⟨List.reverse, List.reverse_perm⟩

end Verif.Units

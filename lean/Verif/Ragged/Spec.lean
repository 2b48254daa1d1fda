import Verif.Ragged.Model

/-! # Specification vocabulary for ragged shapes -/

namespace Verif.Ragged

mutual
/-- Total number of data entries below a nested size. -/
def Nested.total : Nested → Nat
  | .int n => n
  | .node cs => Nested.totalL cs
/-- The same for a list. -/
def Nested.totalL : List Nested → Nat
  | [] => 0
  | c :: cs => c.total + Nested.totalL cs
end

/-- Every path from the top to an integer has length `d`. -/
inductive Uniform : Nat → Nested → Prop
  | int (n : Nat) : Uniform 0 (.int n)
  | node {d : Nat} {cs : List Nested} (h : ∀ c ∈ cs, Uniform d c) : Uniform (d + 1) (.node cs)

/-- The nodes at depth `k`, left to right. -/
def level : Nat → List Nested → List Nested
  | 0, q => q
  | k + 1, q => level k (q.flatMap Nested.children)

/-- `lens` describes a ragged array: the groups of each level are the elements of the next. -/
def Consistent : List (List Nat) → Prop
  | [] => True
  | [_] => True
  | l :: m :: rest => l.sum = m.length ∧ Consistent (m :: rest)

/-- Broadcasting level by level: repeat every element once per element of its group. -/
def repeatLevels {α : Type} (xs : List α) (lens : List (List Nat)) : List α := lens.foldl repI xs

end Verif.Ragged

/-! # Model of `phytorch/ragged/__init__.py`

Tensors are modelled by their last dimension only (`List α`): every operation used acts on the last
dimension and is applied independently at each index of the leading dimensions.  Sizes are natural
numbers (negative Python ints are excluded). -/

namespace Verif.Ragged

/-- `more_itertools.split_into(iterable, sizes)` for integer sizes: one chunk per size; chunks run short
when the iterable is exhausted and left-over items are dropped. -/
def splitInto {α : Type} : List α → List Nat → List (List α)
  | _, [] => []
  | xs, n :: ns => xs.take n :: splitInto (xs.drop n) ns

/-- The loop of `RaggedShape.__post_init__` (ragged/__init__.py:21-23): `cur` is `sizes[i]`, the list is
`lens[-2], lens[-3], ...`; returns `sizes[i:]`. -/
def sizesLoop (cur : List Nat) : List (List Nat) → List (List Nat)
  | [] => [cur]
  | l :: rest => cur :: sizesLoop ((splitInto cur l).map List.sum) rest

/-- The list `sizes` before reversal (ragged/__init__.py:20-25). -/
def rawSizes (lens : List (List Nat)) : List (List Nat) :=
  match lens.reverse with
  | [] => []
  | last :: rest => sizesLoop last rest

/-- `RaggedShape` (ragged/__init__.py:12-28). -/
structure Shape where
  lens : List (List Nat)
  sizes : List (List Nat)
  ndim : Nat
  size : Nat
  deriving DecidableEq, Repr

/-- `RaggedShape(lens)` (ragged/__init__.py:19-28). -/
def Shape.mk' (lens : List (List Nat)) : Shape :=
  let sizes := rawSizes lens
  { lens, sizes := sizes.reverse, ndim := lens.length,
    size := match sizes with | [] => 1 | s :: _ => s.sum }

/-- Nested sizes: an `int` or a sequence of nested sizes (ragged/__init__.py:38-43). -/
inductive Nested
  | int (n : Nat)
  | node (cs : List Nested)

mutual
/-- Number of constructors: termination measure only. -/
def Nested.weight : Nested → Nat
  | .int _ => 1
  | .node cs => 1 + Nested.weightL cs
/-- The same for a list. -/
def Nested.weightL : List Nested → Nat
  | [] => 0
  | c :: cs => c.weight + Nested.weightL cs
end

/-- What is appended to `lens[-1]` for one element (ragged/__init__.py:40 and :42). -/
def Nested.arity : Nested → Nat
  | .int n => n
  | .node cs => cs.length

/-- What is queued for one element (ragged/__init__.py:43; nothing for an `int`). -/
def Nested.children : Nested → List Nested
  | .int _ => []
  | .node cs => cs

theorem weightL_append (a b : List Nested) :
    Nested.weightL (a ++ b) = Nested.weightL a + Nested.weightL b := by
  induction a with
  | nil => simp [Nested.weightL]
  | cons x xs ih => simp [Nested.weightL, ih, Nat.add_assoc]

theorem weightL_flatMap_le (q : List Nested) :
    Nested.weightL (q.flatMap Nested.children) + q.length ≤ Nested.weightL q := by
  induction q with
  | nil => simp [Nested.weightL]
  | cons x xs ih =>
    simp only [List.flatMap_cons, weightL_append, List.length_cons, Nested.weightL]
    cases x <;> simp only [Nested.children, Nested.weight, Nested.weightL] <;> omega

/-- The `while q` loop of `from_nested_sizes` (ragged/__init__.py:34-43).  One pass of the inner `for`
pops exactly the elements queued at its start, so a pass is a map and a concatenation. -/
def bfs (q : List Nested) : List (List Nat) :=
  match q with
  | [] => []
  | x :: xs => (x :: xs).map Nested.arity :: bfs ((x :: xs).flatMap Nested.children)
  termination_by Nested.weightL q
  decreasing_by
    have := weightL_flatMap_le (x :: xs)
    simp only [List.length_cons] at this
    omega

/-- `RaggedShape.from_nested_sizes` (ragged/__init__.py:30-44). -/
def Shape.fromNested (q : List Nested) : Shape := Shape.mk' (bfs q)

/-- `RaggedShape.broadcastable` for two shapes (ragged/__init__.py:46-49). -/
def broadcastable (s t : Shape) : Bool :=
  let m := min s.ndim t.ndim
  s.lens.take m == t.lens.take m

/-- `Tensor.expand` of the last dimension to `n` (torch). -/
def expand {α : Type} (xs : List α) (n : Nat) : Option (List α) :=
  if xs.length = n then some xs
  else match xs with
    | [x] => some (List.replicate n x)
    | _ => none

/-- `Tensor.repeat_interleave(repeats, dim=-1)` for matching lengths. -/
def repI {α : Type} : List α → List Nat → List α
  | x :: xs, n :: ns => List.replicate n x ++ repI xs ns
  | _, _ => []

/-- `repeat_interleave(repeats, dim=-1, output_size=n)`: raises unless there is one repeat per element
and they add up to `output_size`. -/
def repeatInterleave {α : Type} (xs : List α) (ns : List Nat) (out : Nat) : Option (List α) :=
  if xs.length = ns.length ∧ ns.sum = out then some (repI xs ns) else none

/-- `RaggedTensor` (ragged/__init__.py:52-58). -/
structure Tensor (α : Type) where
  data : List α
  shape : Shape

/-- `RaggedTensor(data, shape)` with the assertion of ragged/__init__.py:57-58. -/
def Tensor.mk' {α : Type} (data : List α) (shape : Shape) : Option (Tensor α) :=
  if data.length = shape.size then some ⟨data, shape⟩ else none

/-- `RaggedTensor.broadcast_to` (ragged/__init__.py:60-69); `none` is any exception. -/
def Tensor.broadcastTo {α : Type} (t : Tensor α) (s : Shape) : Option (Tensor α) := do
  if ¬ t.shape.ndim < s.ndim then none
  if ¬ broadcastable t.shape s then none
  let l ← s.lens[t.shape.ndim]?
  let z ← s.sizes[t.shape.ndim]?
  let e ← expand t.data l.length
  let d ← repeatInterleave e z s.size
  Tensor.mk' d s

end Verif.Ragged

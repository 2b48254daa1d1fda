import Mathlib.Analysis.SpecialFunctions.Pow.Complex
import Mathlib.LinearAlgebra.Matrix.NonsingularInverse

/-! # Model of `phytorch/roots/__init__.py`, `phytorch/utils/symmetry.py` and
`phytorch-extensions/roots/roots.h`

Tensors are modelled by their entries (batch dimensions are elementwise).  Numbers are exact (a field, or ℂ):
rounding is not modelled. -/

namespace Verif.Roots

/-- Exceptions raised by the modelled functions. -/
inductive Err | valueError | notImplemented | typeError
  deriving DecidableEq, Repr

/-! ### `utils/symmetry.py` -/

/-- `itertools.combinations(l, p)`, in its (lexicographic) order. -/
def combos {α : Type*} : ℕ → List α → List (List α)
  | 0, _ => [[]]
  | _ + 1, [] => []
  | p + 1, x :: xs => (combos p xs).map (x :: ·) ++ combos (p + 1) xs

/-- `product = partial(reduce, mul)` (symmetry.py:11): `reduce` raises `TypeError` on an empty sequence. -/
def product {R : Type*} [Mul R] : List R → Except Err R
  | [] => .error .typeError
  | x :: xs => .ok (xs.foldl (· * ·) x)

/-- `map(product, ls)`, consumed in order: stops at the first exception. -/
def mapE {α β : Type*} (f : α → Except Err β) : List α → Except Err (List β)
  | [] => .ok []
  | x :: xs => match f x with
    | .error e => .error e
    | .ok y => match mapE f xs with
      | .error e => .error e
      | .ok ys => .ok (y :: ys)

/-- `elementary_symmetric(p, a)` (symmetry.py:18-19): `sum` starts from 0. -/
def elementarySymmetric {R : Type*} [Add R] [Mul R] [Zero R] (p : ℕ) (a : List R) : Except Err R :=
  match mapE product (combos p a) with
  | .error e => .error e
  | .ok ls => .ok (ls.foldl (· + ·) 0)

/-! ### `roots/__init__.py` -/

/-- `vieta(rts)` (roots/__init__.py:21-35). -/
def vieta {R : Type*} [Ring R] (rts : List R) : Except Err (List R) :=
  mapE (fun k => match elementarySymmetric k rts with
    | .error e => .error e
    | .ok e => .ok ((-1) ^ k * e)) ((List.range rts.length).map (· + 1))

/-- `companion_matrix(*coeffs)` (roots/__init__.py:38-43): the row of negated coefficients on top of
`torch.eye(n - 1, n)`. -/
def companion {R : Type*} [Ring R] {n : ℕ} (c : Fin n → R) : Matrix (Fin n) (Fin n) R :=
  fun i j => if i.val = 0 then -c j else if i.val - 1 = j.val then 1 else 0

/-- Row-major `unflatten` of the list of rows produced in `Roots.backward`. -/
def unflatten {R : Type*} [Zero R] (n : ℕ) (rows : List (List R)) : Matrix (Fin n) (Fin n) R :=
  fun i j => (rows.flatten).getD (i.val * n + j.val) 0

/-- The matrix built in `Roots.backward` (roots/__init__.py:71-75) before `inverse()`: for every
`(n-1)`-combination of the reversed roots, 1 followed by its `vieta` coefficients. -/
def backwardMatrix {R : Type*} [Ring R] (rts : List R) : Except Err (Matrix (Fin rts.length) (Fin rts.length) R) :=
  match mapE (fun r : List R => match vieta r with
    | .error e => .error e
    | .ok cs => .ok (1 :: cs)) (combos (rts.length - 1) rts.reverse) with
  | .error e => .error e
  | .ok rows => .ok (unflatten rts.length rows)

/-- `grads` in `Roots.backward` (roots/__init__.py:71-75): minus the inverse; index 0 is the coefficient,
index 1 the root.  (`inverse` of a singular matrix raises in torch; see the hypotheses of the theorems.) -/
noncomputable def grads {R : Type*} [Field R] (rts : List R) :
    Except Err (Matrix (Fin rts.length) (Fin rts.length) R) :=
  match backwardMatrix rts with
  | .error e => .error e
  | .ok m => .ok (-m⁻¹)

/-- The value returned by `Roots.backward` for the coefficients (roots/__init__.py:76):
`(grads.conj() * grad_outputs).sum(1)`. -/
noncomputable def backward (rts : List ℂ) (gout : Fin rts.length → ℂ) : Except Err (Fin rts.length → ℂ) :=
  match grads rts with
  | .error e => .error e
  | .ok g => .ok fun j => ∑ m, (starRingEnd ℂ) (g j m) * gout m

/-! ### `roots.h`: closed forms over ℂ

`sq` and `cb` stand for `sqrt` and `pow(·, 1/3)`. -/

/-- `roots2` (roots.h:11-18). -/
noncomputable def roots2 (sq : ℂ → ℂ) (b c : ℂ) : ℂ × ℂ :=
  open Classical in
  if c = 0 then (0, -b)
  else
    let q := sq (b * b - 4 * c)
    let q := -(if 0 ≤ b.re then b + q else b - q) / 2
    (q, c / q)

/-- `roots3` (roots.h:21-32). -/
noncomputable def roots3 (sq cb : ℂ → ℂ) (b c d : ℂ) : ℂ × ℂ × ℂ :=
  open Classical in
  let Q := (b * b - 3 * c) / 9
  let R := (2 * b * b * b - 9 * b * c + 27 * d) / 54
  let A := sq (R * R - Q * Q * Q)
  let A := -cb (if 0 ≤ R.re then R + A else R - A)
  let B := if A = 0 then 0 else Q / A
  let AB := A + B
  let Re := -AB / 2 - b / 3
  let Im := (Real.sqrt 3 / 2 : ℝ) * (A - B)
  (AB - b / 3, Re + Complex.I * Im, Re - Complex.I * Im)

/-- `roots4_depressed` (roots.h:35-45). -/
noncomputable def roots4Depressed (sq cb : ℂ → ℂ) (p q r : ℂ) : ℂ × ℂ × ℂ × ℂ :=
  open Classical in
  if q = 0 then
    let y := roots2 sq p r
    let s1 := sq y.1
    let s2 := sq y.2
    (s1, -s1, s2, -s2)
  else
    let y := roots3 sq cb (2 * p) (p * p - 4 * r) (-q * q)
    let s1 := sq y.2.1
    let s2 := sq y.2.2
    let s3 := -q / (s1 * s2)
    ((s1 + s2 + s3) / 2, (s1 - s2 - s3) / 2, (s2 - s1 - s3) / 2, (s3 - s1 - s2) / 2)

/-- `sort4` (roots.h:47-125), the decision tree as written. -/
def sort4 {α T : Type*} [LinearOrder α] (v1 : α) (r1 : T) (v2 : α) (r2 : T) (v3 : α) (r3 : T) (v4 : α) (r4 : T) :
    T × T × T × T :=
  if v1 > v2 then
    if v2 > v3 then
      if v4 > v2 then
        if v4 > v1 then (r4, r1, r2, r3) else (r1, r4, r2, r3)
      else
        if v4 > v3 then (r1, r2, r4, r3) else (r1, r2, r3, r4)
    else
      if v1 > v3 then
        if v4 > v3 then
          if v4 > v1 then (r4, r1, r3, r2) else (r1, r4, r3, r2)
        else
          if v4 > v2 then (r1, r3, r4, r2) else (r1, r3, r2, r4)
      else
        if v4 > v1 then
          if v4 > v3 then (r4, r3, r1, r2) else (r3, r4, r1, r2)
        else
          if v4 > v2 then (r3, r1, r4, r2) else (r3, r1, r2, r4)
  else
    if v1 > v3 then
      if v4 > v1 then
        if v4 > v2 then (r4, r2, r1, r3) else (r2, r4, r1, r3)
      else
        if v4 > v3 then (r2, r1, r4, r3) else (r2, r1, r3, r4)
    else
      if v2 > v3 then
        if v4 > v3 then
          if v4 > v2 then (r4, r2, r3, r1) else (r2, r4, r3, r1)
        else
          if v4 > v1 then (r2, r3, r4, r1) else (r2, r3, r1, r4)
      else
        if v4 > v2 then
          if v4 > v3 then (r4, r3, r2, r1) else (r3, r4, r2, r1)
        else
          if v4 > v1 then (r3, r2, r4, r1) else (r3, r2, r1, r4)

/-- `roots4` (roots.h:127-140). -/
noncomputable def roots4 (sq cb : ℂ → ℂ) (b c d e : ℂ) : ℂ × ℂ × ℂ × ℂ :=
  let y := roots4Depressed sq cb ((8 * c - 3 * b * b) / 8) ((b * b * b - 4 * b * c + 8 * d) / 8)
    ((-3 * b * b * b * b + 256 * e - 64 * b * d + 16 * b * b * c) / 256)
  let r1 := y.1 - b / 4
  let r2 := y.2.1 - b / 4
  let r3 := y.2.2.1 - b / 4
  let r4 := y.2.2.2 - b / 4
  sort4 ‖r1‖ r1 ‖r2‖ r2 ‖r3‖ r3 ‖r4‖ r4

/-! ### Dispatch -/

/-- A complex floating point number: finite, or not (infinite or NaN). -/
inductive Num
  | fin (z : ℂ)
  | bad

/-- All coefficients finite? -/
def allFin : List Num → Option (List ℂ)
  | [] => some []
  | .bad :: _ => none
  | .fin z :: cs => match allFin cs with
    | none => none
    | some zs => some (z :: zs)

/-- `Roots._rootfuncs.get(n, _roots_via_companion)` applied to finite coefficients.  `eig` stands for
`torch.linalg.eigvals`, `sq`, `cb` as above. -/
noncomputable def solve (sq cb : ℂ → ℂ) (eig : (n : ℕ) → Matrix (Fin n) (Fin n) ℂ → List ℂ) (force : Bool)
    (cs : List ℂ) : List ℂ :=
  match force, cs with
  | false, [b, c] => let y := roots2 sq b c; [y.1, y.2]
  | false, [b, c, d] => let y := roots3 sq cb b c d; [y.1, y.2.1, y.2.2]
  | false, [b, c, d, e] => let y := roots4 sq cb b c d e; [y.1, y.2.1, y.2.2.1, y.2.2.2]
  | _, cs => eig cs.length (companion fun i => cs.get i)

/-- `Roots.forward` (roots/__init__.py:54-67).  For non-finite coefficients the closed forms return NaN
(roots.h:12-13, 22-23, 128-129); `eigBad` is whatever `eigvals` does on them (unspecified: the project's tests
skip it because torch crashes). -/
noncomputable def forward (sq cb : ℂ → ℂ) (eig : (n : ℕ) → Matrix (Fin n) (Fin n) ℂ → List ℂ)
    (eigBad : List Num → Except Err (List Num)) (force : Bool) (cs : List Num) : Except Err (List Num) :=
  if cs.length = 0 then .error .valueError
  else if cs.length = 1 then .error .notImplemented
  else match allFin cs with
    | some zs => .ok ((solve sq cb eig force zs).map .fin)
    | none =>
      if force = false ∧ (cs.length = 2 ∨ cs.length = 3 ∨ cs.length = 4) then
        .ok (List.replicate cs.length .bad)
      else eigBad cs

end Verif.Roots

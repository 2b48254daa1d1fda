import Verif.Ellred.Spec
import Verif.Roots.Model
import Mathlib.Combinatorics.Enumerative.Partition.Basic

/-! # Model: `EllipticReduction` (special/elliptic_reduction/core.py)

Carlson's reduction of `∫ ∏ (a_i + t) ^ (m_i - [i ≤ h] / 2) dt` to the basic integrals, and those to `R_F`, `R_D`, `R_J`, `R_C`
(modelled by the integrals they stand for, as in `Ellred/Model.lean`; that the routines compute them is C78-C82).  Arithmetic is exact.
The limits are real; the `a_i` are complex.  `h` is 3 or 4: for other values `idx_set` makes no sense.  `OneIndexedSequence` raises
`IndexError` beyond the end and `Ie` raises `ValueError` beyond `n`; here the value is 0, and the theorems keep to indices up to `n ≥ h`.
Caching (`cache`, `cached_property`) is not modelled: the functions are pure. -/

namespace Verif.Ellred

open Verif.Carlson

/-- The fields of the dataclass (core.py:64-69). -/
structure EllRed where
  x : ℝ
  y : ℝ
  a : List ℂ
  h : ℕ
  hh : h = 3 ∨ h = 4

namespace EllRed

variable (E : EllRed)

/-- `n` (core.py:76-78). -/
def n : ℕ := E.a.length

/-- `self.a[i]`: one-based, with `default=1` below (core.py:22-33, 84-86). -/
def av (i : ℕ) : ℂ := if 0 < i then E.a.getD (i - 1) 0 else 1

/-- `self.d[i, j]` (core.py:48-53). -/
def d (i j : ℕ) : ℂ :=
  if j < i then -(E.av j - E.av i * (if j ≠ 0 then 1 else 0)) else E.av i - E.av j * (if i ≠ 0 then 1 else 0)

/-- `self.X[i]` (core.py:56-61, 124-125). -/
noncomputable def X (i : ℕ) : ℂ := if i = 0 then 1 else csqrt (E.av i + E.x)

/-- `self.Y[i]` (core.py:56-61, 128-129). -/
noncomputable def Y (i : ℕ) : ℂ := if i = 0 then 1 else csqrt (E.av i + E.y)

/-- `xmy` (core.py:132-133); `xmy2` is its square. -/
def xmy : ℂ := (E.x : ℂ) - E.y

/-- `idx_set` (core.py:80-82), in the order in which the set of small integers is iterated. -/
def idxSet : List ℕ := (List.range 4).map (· + if E.h = 4 then 1 else 0)

/-- `idx_set - {...}` (core.py:142, 161, 166). -/
def rest (l : List ℕ) : List ℕ := E.idxSet.filter (· ∉ l)

/-- `s(z)` (core.py:91-92). -/
noncomputable def s (z : ℝ) : ℂ := ((List.range E.h).map fun i => csqrt (E.av (i + 1) + z)).prod

/-- `U2(i, j)` (core.py:139-146). -/
noncomputable def U2 (i j : ℕ) : ℂ :=
  match E.rest [i, j] with
  | [k, l] => (E.X i * E.X j * E.Y k * E.Y l + E.Y i * E.Y j * E.X k * E.X l) ^ 2
  | _ => 0

/-- `U2nu(i, nu)` (core.py:158-162). -/
noncomputable def U2nu (i nu : ℕ) : ℂ :=
  match E.rest [i] with
  | [j, k, l] => E.U2 i j - E.xmy ^ 2 * E.d i k * E.d i l * E.d j nu / E.d i nu
  | _ => 0

/-- `S2(i, nu)` (core.py:164-172). -/
noncomputable def S2 (i nu : ℕ) : ℂ :=
  match E.rest [i] with
  | [j, k, l] => (E.X j * E.X k * E.X l / E.X i * E.Y nu ^ 2 + E.Y j * E.Y k * E.Y l / E.Y i * E.X nu ^ 2) ^ 2
  | _ => 0

/-- `Q2(i, nu)` (core.py:174-177). -/
noncomputable def Q2 (i nu : ℕ) : ℂ := E.X nu ^ 2 * E.Y nu ^ 2 / (E.X i ^ 2 * E.Y i ^ 2) * E.U2nu i nu

/-- `Ie(0)` (core.py:205-207). -/
noncomputable def Ie0 : ℂ := 2 * E.xmy * RFc (E.U2 1 2) (E.U2 1 3) (E.U2 2 3)

/-- `Ie(-nu)` for `nu > h` (core.py:187-195). -/
noncomputable def IeOut (nu : ℕ) : ℂ :=
  match E.idxSet with
  | [i, j, k, l] =>
    let ret := 2 * E.xmy * (E.d i j * E.d i k * E.d i l / E.d i nu / 3 * E.xmy ^ 2 *
      RJc (E.U2 1 2) (E.U2 1 3) (E.U2 2 3) (E.U2nu i nu) + RCc (E.S2 i nu) (E.Q2 i nu))
    (if i = 0 then ret else ret - E.Ie0) / E.d i nu
  | _ => 0

/-- `Ie(-i)` for `1 ≤ i ≤ h` (core.py:196-204). -/
noncomputable def IeBr (i : ℕ) : ℂ :=
  match E.rest [i] with
  | [j, k, l] =>
    let ret := 2 * E.xmy * (E.d j k * E.d j l / 3 * E.xmy ^ 2 * RDc (E.U2 i k) (E.U2 j k) (E.U2 i j) +
      E.X j * E.Y j / (E.X i * E.Y i * csqrt (E.U2 i j)))
    (if j = 0 then ret else ret - E.Ie0) / E.d j i
  | _ => 0

/-- `Ie(i)` for `1 ≤ i ≤ h` (core.py:208-223). -/
noncomputable def IePos (i : ℕ) : ℂ :=
  if E.h = 3 then
    match [1, 2, 3].filter (· ∉ [i]) with
    | [j, k] => E.d i j * E.d i k * E.IeBr i + 2 * (E.s E.x / (E.av i + E.x) - E.s E.y / (E.av i + E.y))
    | _ => 0
  else
    match E.rest [i] with
    | [j, k, l] => 2 * E.xmy * (RCc (E.S2 i 0) (E.Q2 i 0) -
        E.d i j * E.d i k * E.d i l / 3 * E.xmy ^ 2 * RJc (E.U2 1 2) (E.U2 1 3) (E.U2 2 3) (E.U2nu i 0))
    | _ => 0

/-- `Ie(i)` (core.py:183-227); the last case is (4.30). -/
noncomputable def Ie (i : ℤ) : ℂ :=
  if i < -E.h then E.IeOut (-i).toNat
  else if i < 0 then E.IeBr (-i).toNat
  else if i = 0 then E.Ie0
  else if i ≤ E.h then E.IePos i.toNat
  else E.IePos 1 + E.d i.toNat 1 * E.Ie0

/-- `v(m, z)` (core.py:102-107). -/
noncomputable def v (m : List ℤ) (z : ℝ) : ℂ :=
  ((E.a.zip m).mapIdx fun i am => (am.1 + (z : ℂ)) ^ ((am.2 : ℂ) - (if i < E.h then 1 else 0) / 2)).prod

/-- `A(m)` (core.py:109-117, 229-232). -/
noncomputable def A (m : List ℤ) : ℂ := E.v m E.x + -E.v m E.y

/-- `sigma(p, j)` (core.py:234-240). -/
noncomputable def sigma (p j : ℕ) : ℂ :=
  if p = 0 then 1 else
    match Roots.elementarySymmetric p ((List.range E.h).map fun i => E.d (i + 1) j) with
    | .ok e => e
    | .error _ => 0

/-- `_Iqe_pref(q, r, j)` (core.py:242-244). -/
noncomputable def IqePref (q : ℤ) (r j : ℕ) : ℂ := (q + r / 2 + 1) * E.sigma (E.h - r) j

/-- The exponents in `Iqe` (core.py:272). -/
def mvec (q : ℤ) (j : ℕ) : List ℤ := (List.range E.n).map fun i => (if i + 1 ≤ E.h then 1 else 0) + (q + 1) * (if i + 1 = j then 1 else 0)

/-- `low` in the branch `q > 1` of `Iqe` (core.py:257). -/
def low (j : ℕ) : ℕ := if E.h < j then 0 else 1

/-- `Iqe(q, j)` (core.py:246-274); the branches of `ri`, `low` and `high` are written out, and `q` is `q - ri` in each. -/
noncomputable def Iqe (q : ℤ) (j : ℕ) : ℂ :=
  if _h1 : E.h < j ∧ E.h = 4 ∧ q = 2 then
    ∑ r : Fin 3, ((Nat.choose 2 r : ℕ) : ℂ) * E.d j 1 ^ (2 - (r : ℕ)) * Iqe (r : ℕ) 1
  else if _h2 : 1 < q then
    (E.A (E.mvec (q - E.h) j) - ∑ r : Fin (E.h - E.low j), E.IqePref (q - E.h) (E.low j + r) j * Iqe (q - E.h + (E.low j + r : ℕ)) j) /
      E.IqePref (q - E.h) E.h j
  else if _h3 : q < -1 then
    if _h4 : E.h < j then
      (E.A (E.mvec (q - 0) j) - ∑ r : Fin E.h, E.IqePref (q - 0) (1 + r) j * Iqe (q - 0 + (1 + r : ℕ)) j) / E.IqePref (q - 0) 0 j
    else
      (E.A (E.mvec (q - 1) j) - ∑ r : Fin (E.h - 1), E.IqePref (q - 1) (2 + r) j * Iqe (q - 1 + (2 + r : ℕ)) j) / E.IqePref (q - 1) 1 j
  else E.Ie (q * j)
termination_by (if q < -1 then 1 else 0, q.natAbs, if E.h < j then 1 else 0)
decreasing_by
  all_goals
    have hh := E.hh
    have hr := r.isLt
    have hl : (E.h < j ∧ E.low j = 0) ∨ (¬E.h < j ∧ E.low j = 1) := by unfold low; split_ifs <;> simp_all
    simp only [Prod.lex_def]
    generalize (r : ℕ) = k at *
    generalize E.low j = l at *
    split_ifs <;> omega

/-- `m[j]`: one-based (core.py:22-33, 315). -/
def mget (m : List ℤ) (j : ℕ) : ℤ := if 0 < j then m.getD (j - 1) 0 else 0

/-- `D(m, i)` (core.py:276-279). -/
noncomputable def D (m : List ℤ) (i : ℕ) : ℂ := ∏ j ∈ (Finset.Icc 1 E.n).erase i, E.d j i ^ mget m j

/-- `mu(m, s, i)` (core.py:281-287). -/
noncomputable def mu (m : List ℤ) (s : ℤ) (i : ℕ) : ℂ :=
  -1 / (s.natAbs : ℂ) * ∑ j ∈ (Finset.Icc 1 E.n).erase i, (mget m j : ℂ) * E.d i j ^ s

/-- `C(m, s, i)` (core.py:289-296): the sum over the partitions of `|s|` (sympy's `partitions`: part ↦ multiplicity). -/
noncomputable def C (m : List ℤ) (s : ℤ) (i : ℕ) : ℂ :=
  if s = 0 then 1 else
    ∑ p : s.natAbs.Partition, ∏ v ∈ p.parts.toFinset, E.mu m (s.sign * v) i ^ p.parts.count v / (p.parts.count v).factorial

/-- `Im(m)` (core.py:298-328). -/
noncomputable def Im (m : List ℤ) : ℂ :=
  if ∀ k ∈ m, k = 0 then E.Ie 0
  else match (m.zipIdx 1).filter (fun k => k.1 ≠ 0) with
    | [(q, j)] => E.Iqe q j
    | _ => ∑ q ∈ Finset.range (m.sum + 1).toNat, E.C m (m.sum - q) 1 * E.Iqe q 1 +
        ∑ i ∈ Finset.Icc 1 E.n, E.D m i * ∑ q ∈ Finset.Icc 1 (-mget m i).toNat, E.C m (mget m i + q) i * E.Iqe (-q) i

end EllRed

end Verif.Ellred

import Verif.Special.IncGammaModel
import Mathlib.Data.EReal.Basic

/-!
# Model of `gammaincinv.h`

`phytorch-extensions/special/gammaincinv.h` in exact real arithmetic for `a > 0`; `none` is NaN and
`⊤` is infinity.  Inside `find_inverse_gamma` the logarithm and the square root are Lean's total
functions: where C++ would produce NaN from them (the code then returns NaN), the model continues
with some real number.
-/

open Real

namespace Verif.Special

/-- `common/moremath.h:12`: `EULER`. -/
noncomputable def EULERc : ℝ := 0.577215664901532860606512090082402431

open Classical in
/-- `gammaincinv.h:16-24`: `find_inverse_s`. -/
noncomputable def findInverseS (p q : ℝ) : ℝ :=
  let t := if p < 0.5 then √(-2 * log p) else √(-2 * log q)
  let s := t - horner t [0.213623493715853, 4.28342155967104, 11.6616720288968, 3.31125922108741] /
    horner t [0.3611708101884203e-1, 1.27364489782223, 6.40691597760039, 6.61053765625462, 1]
  if p < 0.5 then -s else s

open Classical in
/-- `gammaincinv.h:34-39`: the loop `for i in [i, i + fuel)` of `didonato_SN`. -/
noncomputable def didonatoLoop (a x tol : ℝ) : ℕ → ℕ → ℝ → ℝ → ℝ
  | 0, _, _, sum => sum
  | fuel + 1, i, part, sum =>
    let part := part * (x / (a + i))
    if part < tol then sum + part else didonatoLoop a x tol fuel (i + 1) part (sum + part)

/-- `gammaincinv.h:26-42`: `didonato_SN` for `N ≥ 1`. -/
noncomputable def didonatoSN (a x : ℝ) (N : ℕ) (tol : ℝ) : ℝ :=
  didonatoLoop a x tol (N - 1) 2 (x / (a + 1)) (1 + x / (a + 1))

/-- `gammaincinv.h:81-108` and `139-165`: DiDonato & Morris Eq 25, written out twice in the
source. -/
noncomputable def didonato25 (a y : ℝ) : ℝ :=
  let c1 := (a - 1) * log y
  let c2 := (a - 1) * (1 + c1)
  let c3 := (a - 1) * (-(c1 ^ 2 / 2) + (a - 2) * c1 + (3 * a - 5) / 2)
  let c4 := (a - 1) * (c1 ^ 3 / 3 - (3 * a - 5) * c1 ^ 2 / 2 + (a ^ 2 - 6 * a + 7) * c1 +
    (11 * a ^ 2 - 46 * a + 47) / 6)
  let c5 := (a - 1) * (-(c1 ^ 4 / 4) + (11 * a - 17) * c1 ^ 3 / 6 +
    (-3 * a ^ 2 + 13 * a - 13) * c1 ^ 2 + (2 * a ^ 3 - 25 * a ^ 2 + 72 * a - 61) * c1 / 2 +
    (25 * a ^ 3 - 195 * a ^ 2 + 477 * a - 379) / 12)
  y + c1 + c2 / y + c3 / y ^ 2 + c4 / y ^ 3 + c5 / y ^ 4

open Classical in
/-- `gammaincinv.h:48-109`: `find_inverse_gamma` for `a < 1`. -/
noncomputable def guessSmall (a p q : ℝ) : ℝ :=
  let g := Gamma a
  let b := q * g
  if 0.6 < b ∨ 0.45 ≤ b ∧ 0.3 ≤ a then
    let u := if 1e-8 < b * q ∧ 1e-5 < q then (p * g * a) ^ (1 / a) else exp (-q / a - EULERc)
    u / (1 - u / (a + 1))
  else if a < 0.3 ∧ 0.35 ≤ b then
    let t := exp (-EULERc - b)
    t * exp (t * exp t)
  else if 0.15 < b ∨ 0.3 ≤ a then
    let y := -log b
    let u := y - (1 - a) * log y
    y - (1 - a) * log u - log (1 + (1 - a) / (1 + u))
  else if 0.1 < b then
    let y := -log b
    let u := y - (1 - a) * log y
    y - (1 - a) * log u -
      log ((u * u + 2 * (3 - a) * u + (2 - a) * (3 - a)) / (u * u + (5 - a) * u + 2))
  else didonato25 a (-log b)

open Classical in
/-- `gammaincinv.h:110-192`: `find_inverse_gamma` for `a > 1`. -/
noncomputable def guessLarge (a p q : ℝ) : ℝ :=
  let s := findInverseS p q
  let ra := √a
  let w := a + s * ra + (s ^ 2 - 1) / 3 + (s ^ 3 - 7 * s) / (36 * ra) -
    (3 * s ^ 4 + 7 * s ^ 2 - 16) / (810 * a) +
    (9 * s ^ 5 + 256 * s ^ 3 - 433 * s) / (38880 * a * ra)
  if 500 ≤ a ∧ abs (1 - w / a) < 1e-6 then w
  else if 0.5 < p then
    if w < 3 * a then w
    else
      let D := max 2 (a * (a - 1))
      let lb := log q + lgamma a
      if lb < -D * 2.3 then didonato25 a (-lb)
      else
        let u := -lb + (a - 1) * log w - log (1 + (1 - a) / (1 + w))
        0 - lb + (a - 1) * log u - log (1 + (1 - a) / (1 + u))
  else
    let ap1 := a + 1
    let ap2 := a + 2
    let z :=
      if w < 0.15 * ap1 then
        let v := log p + lgamma ap1
        let z := exp ((v + w) / a)
        let s := log (1 + z / ap1 * (1 + z / ap2))
        let z := exp ((v + z - s) / a)
        let s := log (1 + z / ap1 * (1 + z / ap2))
        let z := exp ((v + z - s) / a)
        let s := log (1 + z / ap1 * (1 + z / ap2 * (1 + z / (a + 3))))
        exp ((v + z - s) / a)
      else w
    if z ≤ 0.01 * ap1 ∨ 0.7 * ap1 < z then z
    else
      let ls := log (didonatoSN a z 100 1e-4)
      let v := log p + lgamma ap1
      let z := exp ((v + z - ls) / a)
      z * (1 - (a * log z - z - v + ls) / (a - z))

open Classical in
/-- `gammaincinv.h:45-193`: `find_inverse_gamma`. -/
noncomputable def findInverseGamma (a p q : ℝ) : ℝ :=
  if a = 1 then (if 0.9 < q then -log (1 - p) else -log q)
  else if a < 1 then guessSmall a p q
  else guessLarge a p q

open Classical in
/-- `gammaincinv.h:207-218` (`sgn = 1`) and `233-242` (`sgn = -1`): the refinement, with `fuel`
steps left; `F` is `gammainc a` or `gammaincc a`.  `(a - 1) / x - 1` is finite iff `x ≠ 0`. -/
noncomputable def invLoop (F : ℝ → Option ℝ) (sgn a t : ℝ) : ℕ → ℝ → Option ℝ
  | 0, x => some x
  | fuel + 1, x =>
    (igamFac a x).bind fun fac =>
      if fac = 0 then some x
      else (F x).bind fun v =>
        let f_fp := (v - t) * x / (sgn * fac)
        let fpp_fp := (a - 1) / x - 1
        invLoop F sgn a t fuel (x - if x ≠ 0 then f_fp else f_fp / (1 - f_fp * fpp_fp / 2))

/-- A finite result. -/
noncomputable def fin (r : Option ℝ) : Option EReal := Option.map Real.toEReal r

open Classical in
/-- `gammaincinv.h:196-243`: `gammaincinv` (`compl = false`) and `gammainccinv` (`compl = true`),
which call each other; `fuel` bounds the depth of calls (`none` when exhausted). -/
noncomputable def incInv (eps : ℝ) (d : ℕ → ℕ → ℝ) : ℕ → Bool → ℝ → ℝ → Option EReal
  | 0, _, _, _ => none
  | fuel + 1, compl, a, p =>
    if a < 0 ∨ p < 0 ∨ 1 < p then none
    else if p = 0 then some (if compl then ⊤ else 0)
    else if p = 1 then some (if compl then 0 else ⊤)
    else if 0.9 < p then incInv eps d fuel (!compl) a (1 - p)
    else if compl then
      fin (invLoop (gammaincc eps d a) (-1) a p 3 (findInverseGamma a (1 - p) p))
    else fin (invLoop (gammainc eps d a) 1 a p 3 (findInverseGamma a p (1 - p)))

/-- `gammaincinv.h:196-220`: `gammaincinv` (calls are at most two deep, see `C61_depth`). -/
noncomputable def gammaincinv (eps : ℝ) (d : ℕ → ℕ → ℝ) (a p : ℝ) : Option EReal :=
  incInv eps d 2 false a p

/-- `gammaincinv.h:223-243`: `gammainccinv`. -/
noncomputable def gammainccinv (eps : ℝ) (d : ℕ → ℕ → ℝ) (a q : ℝ) : Option EReal :=
  incInv eps d 2 true a q

end Verif.Special

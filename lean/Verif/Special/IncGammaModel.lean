import Mathlib.Analysis.SpecialFunctions.Gamma.Basic
import Mathlib.Analysis.SpecialFunctions.Gaussian.GaussianIntegral

/-!
# Model of `gammainc.h`

`phytorch-extensions/special/gammainc.h` in exact real arithmetic, for finite arguments; `none` is
NaN, `eps` is `numeric_limits<scalar_t>::epsilon()`.  `M_PI`, `M_E`, `lgamma`, `erfc`, `expm1` and
the other library functions are the mathematical ones.
-/

open Real

namespace Verif.Special

/-- The library function `lgamma`: `log |Γ(a)|`. -/
noncomputable def lgamma (a : ℝ) : ℝ := log |Gamma a|

/-- The library function `erfc`. -/
noncomputable def erfc (z : ℝ) : ℝ := 2 / √π * ∫ t in Set.Ioi z, exp (-t ^ 2)

/-- `common/moremath.h:6`: `CEPHES_MAXLOG`. -/
noncomputable def CEPHES_MAXLOG : ℝ := 7.09782712893383996843e2

/-- `gammahead.h:8`: `lanczos_g`. -/
noncomputable def lanczosG : ℝ := 6.024680040776729583740234375

/-- `common/preprocessor.h:19-22`: `HORNER(x, coeffs)`, highest power first. -/
noncomputable def horner (x : ℝ) (l : List ℝ) : ℝ := l.foldl (fun s c => c + x * s) 0

/-- `gammainc.h:117-119`: `log1pmx`. -/
noncomputable def log1pmx (x : ℝ) : ℝ := log (1 + x) - x

/-- `gammainc.h:166-168`: `lgam1p`. -/
noncomputable def lgam1p (x : ℝ) : ℝ := lgamma (1 + x)

/-- `gammainc.h:173-187`: the numerator of the Lanczos sum, highest power first. -/
noncomputable def lanczosNum : List ℝ := [
  0.006061842346248906525783753964555936883222,
  0.5098416655656676188125178644804694509993,
  19.51992788247617482847860966235652136208,
  449.9445569063168119446858607650988409623,
  6955.999602515376140356310115515198987526,
  75999.29304014542649875303443598909137092,
  601859.6171681098786670226533699352302507,
  3481712.15498064590882071018964774556468,
  14605578.08768506808414169982791359218571,
  43338889.32467613834773723740590533316085,
  86363131.28813859145546927288977868422342,
  103794043.1163445451906271053616070238554,
  56906521.91347156388090791033559122686859]

/-- `gammainc.h:188-201`: the denominator of the Lanczos sum, highest power first. -/
noncomputable def lanczosDen : List ℝ :=
  [1, 66, 1925, 32670, 357423, 2637558, 13339535, 45995730, 105258076, 150917976, 120543840,
   39916800, 0]

/-- `gammainc.h:171-202`: `_lanczos_sum_expg_scaled`. -/
noncomputable def lanczosSum (x : ℝ) : ℝ := horner x lanczosNum / horner x lanczosDen

open Classical in
/-- `gammainc.h:204-222`: `igam_fac`, for `a > 0`.  `log` of a negative number is NaN, and
`log 0 = -∞` makes the result 0. -/
noncomputable def igamFac (a x : ℝ) : Option ℝ :=
  if 0.4 * |a| < |a - x| then
    if x < 0 then none
    else if x = 0 then some 0
    else
      let ax := a * log x - x - lgamma a
      some (if ax < -CEPHES_MAXLOG then 0 else exp ax)
  else
    let fac := a + lanczosG - 0.5
    some (√(fac / exp 1) / lanczosSum a *
      (if a < 200 ∧ x < 200 then exp (a - x) * (x / fac) ^ a
       else exp (a * log1pmx ((x - a - lanczosG + 0.5) / fac) + x * (0.5 - lanczosG) / fac)))

/-- `gammainc.h:104`: `MAXITER`. -/
def MAXITER : ℕ := 2000

open Classical in
/-- `gammainc.h:276-282`: the loop of `igam_series`, with at most `fuel` iterations left. -/
noncomputable def igamSeriesLoop (eps x : ℝ) : ℕ → ℝ → ℝ → ℝ → ℝ
  | 0, _, _, ans => ans
  | fuel + 1, r, c, ans =>
    let r := r + 1
    let c := c * (x / r)
    let ans := ans + c
    if c ≤ eps * ans then ans else igamSeriesLoop eps x fuel r c ans

open Classical in
/-- `gammainc.h:270-285`: `igam_series`. -/
noncomputable def igamSeries (eps a x : ℝ) : Option ℝ :=
  (igamFac a x).map fun ax =>
    if ax = 0 then 0 else igamSeriesLoop eps x MAXITER a 1 1 * ax / a

open Classical in
/-- `gammainc.h:294-299`: the loop `for n in [n, n + fuel)` of `igamc_series`. -/
noncomputable def igamcSeriesLoop (eps a x : ℝ) : ℕ → ℕ → ℝ → ℝ → ℝ
  | 0, _, _, sum => sum
  | fuel + 1, n, fac, sum =>
    let fac := fac * (-x / n)
    let term := fac / (a + n)
    let sum := sum + term
    if |term| ≤ eps * |sum| then sum else igamcSeriesLoop eps a x fuel (n + 1) fac sum

/-- `gammainc.h:288-304`: `igamc_series`, for `x > 0`. -/
noncomputable def igamcSeries (eps a x : ℝ) : ℝ :=
  let sum := igamcSeriesLoop eps a x (MAXITER - 1) 1 1 0
  let logx := log x
  let term := -(exp (a * logx - lgam1p a) - 1)
  term - exp (a * logx - lgamma a) * sum

/-- The state of the loop of `igamc_continued_fraction`. -/
structure CFState where
  y : ℝ
  z : ℝ
  c : ℝ
  pkm2 : ℝ
  qkm2 : ℝ
  pkm1 : ℝ
  qkm1 : ℝ
  ans : ℝ

/-- `gammainc.h:114-115`. -/
noncomputable def BIG : ℝ := 4.503599627370496e15
/-- `gammainc.h:115`. -/
noncomputable def BIGINV : ℝ := 2.22044604925031308085e-16

open Classical in
/-- `gammainc.h:239-262`: one iteration; the second component is the test `t <= TEPS`.  (If
`pk = 0` then `t` is infinite or NaN and the test is false.) -/
noncomputable def cfStep (eps : ℝ) (s : CFState) : CFState × Prop :=
  let z := s.z + 2
  let y := s.y + 1
  let c := s.c + 1
  let yc := y * c
  let pk := s.pkm1 * z - s.pkm2 * yc
  let qk := s.qkm1 * z - s.qkm2 * yc
  let r := pk / qk
  let ans := if qk ≠ 0 then r else s.ans
  let done := if qk ≠ 0 then r ≠ 0 ∧ |(s.ans - r) / r| ≤ eps else 1 ≤ eps
  let k := if BIG < |pk| then BIGINV else 1
  (⟨y, z, c, s.pkm1 * k, s.qkm1 * k, pk * k, qk * k, ans⟩, done)

open Classical in
/-- `gammainc.h:238-264`: the loop, with at most `fuel` iterations left. -/
noncomputable def cfLoop (eps : ℝ) : ℕ → CFState → ℝ
  | 0, s => s.ans
  | fuel + 1, s => if (cfStep eps s).2 then (cfStep eps s).1.ans else cfLoop eps fuel (cfStep eps s).1

/-- `gammainc.h:230-236`: the state before the loop. -/
noncomputable def cfInit (a x : ℝ) : CFState :=
  let y := 1 - a
  let z := x + y + 1
  ⟨y, z, 0, 1, x, x + 1, z * x, (x + 1) / (z * x)⟩

open Classical in
/-- `gammainc.h:225-267`: `igamc_continued_fraction`. -/
noncomputable def igamcCF (eps a x : ℝ) : Option ℝ :=
  (igamFac a x).map fun ax => if ax = 0 then 0 else cfLoop eps MAXITER (cfInit a x) * ax

open Classical in
/-- `gammainc.h:349-357`: the inner loop of `asymptotic_series` for one `k`: `n` from `n`
to `n + fuel - 1`.  `etapow[n]` is `eta^n`. -/
noncomputable def asymInner (eps eta : ℝ) (dk : ℕ → ℝ) : ℕ → ℕ → ℝ → ℝ
  | 0, _, ck => ck
  | fuel + 1, n, ck =>
    let t := dk n * eta ^ n
    if |t| < eps * |ck + t| then ck + t else asymInner eps eta dk fuel (n + 1) (ck + t)

open Classical in
/-- `gammainc.h:346-365`: the outer loop; `old = none` is the initial `absoldterm = ∞`. -/
noncomputable def asymOuter (eps eta a : ℝ) (d : ℕ → ℕ → ℝ) : ℕ → ℕ → Option ℝ → ℝ → ℝ → ℝ
  | 0, _, _, _, sum => sum
  | fuel + 1, k, old, afac, sum =>
    let term := asymInner eps eta (d k) 24 1 (d k 0) * afac
    if ∃ o ∈ old, o < |term| then sum
    else if |term| < eps * |sum + term| then sum + term
    else asymOuter eps eta a d fuel (k + 1) (some |term|) (afac / a) (sum + term)

open Classical in
/-- `gammainc.h:343`: `eta`. -/
noncomputable def asymEta (a x : ℝ) : ℝ :=
  if 1 < x / a then √(-2 * log1pmx ((x - a) / a))
  else if x / a < 1 then -√(-2 * log1pmx ((x - a) / a)) else 0

/-- `gammainc.h:307-370`: `asymptotic_series`, `sgn = -1` for `IGAM` and `+1` for `IGAMC`.  The
table `d` of 25 × 25 coefficients (gammainc.h:316-341) is a parameter. -/
noncomputable def asymptoticSeries (eps : ℝ) (d : ℕ → ℕ → ℝ) (a x sgn : ℝ) : ℝ :=
  let eta := asymEta a x
  let res := erfc (sgn * eta * √(a / 2)) / 2
  res + sgn * exp (-a * eta * eta / 2) * asymOuter eps eta a d 25 0 none 1 0 / √(2 * π * a)

/-- `gammainc.h:385`, `400`: the regime `a ~ x` in which both functions use the asymptotic
expansion. -/
def asymRegime (a x : ℝ) : Prop :=
  20 < a ∧ a < 200 ∧ |x - a| / a < 0.3 ∨ 200 < a ∧ |x - a| / a < 4.5 / √a

open Classical in
/-- `gammainc.h:389-404`: `gammaincc` (finite arguments). -/
noncomputable def gammaincc (eps : ℝ) (d : ℕ → ℕ → ℝ) (a x : ℝ) : Option ℝ :=
  if x < 0 ∨ a < 0 then none
  else if a = 0 then (if 0 < x then some 0 else none)
  else if x = 0 then some 1
  else if asymRegime a x then some (asymptoticSeries eps d a x 1)
  else if 1.1 < x then
    if x < a then (igamSeries eps a x).map (1 - ·) else igamcCF eps a x
  else if x ≤ 0.5 then
    if -0.4 / log x < a then (igamSeries eps a x).map (1 - ·) else some (igamcSeries eps a x)
  else
    if x * 1.1 < a then (igamSeries eps a x).map (1 - ·) else some (igamcSeries eps a x)

open Classical in
/-- `gammainc.h:374-387`: `gammainc` (finite arguments). -/
noncomputable def gammainc (eps : ℝ) (d : ℕ → ℕ → ℝ) (a x : ℝ) : Option ℝ :=
  if x < 0 ∨ a < 0 then none
  else if a = 0 then (if 0 < x then some 1 else none)
  else if x = 0 then some 0
  else if asymRegime a x then some (asymptoticSeries eps d a x (-1))
  else if 1 < x ∧ a < x then (gammaincc eps d a x).map (1 - ·)
  else igamSeries eps a x

end Verif.Special

# DESIGN

Formal model of kosiokarchev/phytorch (pinned commit, read as text in /repo) in Lean 4.33 + Mathlib.
`lean/Verif.lean` imports everything; `properties.jsonl` states the properties, `MANIFEST.json` maps each to its
theorems (all named `Cxx_...`), `seeded/LOG.jsonl` records the wrong programs tried against them.

## Layout

Each area `lean/Verif/<Area>/` has `Model.lean` (definitions transcribing the code, each citing file and lines),
usually `Spec.lean` (vocabulary of the statements, independent of the code), lemma files, and files with the property
theorems. Every property theorem is followed by `example`s that instantiate it on a concrete, non-trivial case.

| Area | Source modelled | Properties |
|---|---|---|
| Units | `units/unit.py`, `fractions.Fraction.limit_denominator`, `units/_utils.py` (`Latexifier`) | C01-C05, C65, C121-C123, C154, C160 |
| Scope | `utils/scoping.py` | C08, C09, C66 |
| Names | `units/_utils.py`, `units/_prefixes.py`, `units/si.py`, `units/_si/*` | C06, C07, C67 |
| Consts | `constants/__init__.py`, `constants/codata.py`, `constants/astro.py` (names) | C10, C11 |
| Pytree | `utils/pytree.py` | C12-C16 |
| Quant | `quantities/dimspec.py` (all specs of the table), `quantity.py`, `tensor_quantity.py`, `delegating.py`, `signatures.py`; `inspect.Signature.bind`, `BoundArguments` | C17-C23, C68-C71, C127, C128, C131, C132, C155, C157 |
| Roots | `roots/__init__.py`, `utils/symmetry.py`, `phytorch-extensions/roots/roots.h` | C24-C31, C62, C118, C139, C140 |
| Carlson | `phytorch-extensions/elliptic/*.h`; `special/ellipr.py` (gradients); `special/ellip.py` (Legendre forms and gradients) | C32-C35, C79-C90, C119, C126, C141, C145, C148, C150, C152, C153 |
| Ellred | `cosmology/drivers/analytic.py` (`LambdaCDM`, `LambdaCDMR`: the `_ellipr_*` methods; gradients of the comoving distances and of the other `LambdaCDM` distances) | C91-C96, C143, C144, C146, C149, C151 |
| Ellred (reduction) | `special/elliptic_reduction/*.py`, `cosmology/drivers/analytic_diff.py` | C37, C104-C107, C142 |
| Special | `phytorch-extensions/special/*.h`, `special/gamma.py`, `special/gammainc.py`, `special/hyper.py` | C60, C61, C97-C103, C108-C112 |
| Cosmo | `cosmology/core.py`, `special/*.py`, `components.py`, `module.py`, `drivers/abstract.py`, `drivers/_analytic_base.py`, `drivers/odeint.py` | C38-C48, C64, C72-C75, C113, C115-C117 |
| Ragged | `ragged/__init__.py`, `ragged/ragged_old.py`, `meta.py` | C49, C50, C129, C130, C161 |
| Interp | `interpolate/*.py`, `distributions/__init__.py` | C51-C57, C63, C76, C77, C114, C133-C137, C147, C156, C158, C159 |
| Dtype | `utils/complex.py`, `phytorch-extensions/common/implement*.h` (promotion and dispatch) | C120 |
| PMath | `math.py` | C124 |
| Ext | `extensions/__init__.py` | C125 |
| Autograd | `utils/function_context.py`, bookkeeping of `special/ellipr.py`, `special/ellip.py` | C36, C58, C59, C78, C138 |

## Trusted base

* Lean 4.33's kernel. No axioms of our own; the theorems depend on `propext`, `Classical.choice` and `Quot.sound`
  only (Mathlib's usual three); many of the combinatorial ones on fewer.
* The transcription: that the definitions in the `Model.lean` files say what the cited lines do. Simplifications are
  stated in each definition's comment; the global ones are:
  * **Numbers.** Floating point numbers are exact reals or complex numbers. Rounding is modelled only in C116, C118-C120, C154 and C156-C160
    (Common/Round, Common/Near: `p` bits, any rounding to nearest, unbounded exponents); overflow, signed zeros are not modelled; NaN and infinities only where a definition says so (`Roots.Num`, `Carlson.Out`). Accuracy theorems
    (C32, C79-C81 ...) therefore bound the truncation error of the algorithm, not the rounding error. Python ints and
    `Fraction`s are exact integers and rationals.
  * **Tensors.** Elementwise operations are modelled on one element; batch dimensions and broadcasting are not
    modelled except where they are the subject (Ragged, Interp incl. batches and channels, Pytree).
  * **Libraries** are assumed to do what their documentation says: `torch` (`searchsorted`, `gather`, `roll`,
    `linalg.solve`, `inverse`, `eigvals`, `repeat_interleave`, `autograd.grad`, the calling convention of
    `torch.autograd.Function`, `__torch_function__`), `more_itertools`, `itertools`, `functools`, `forge` (binding of
    keyword arguments), `phytorchx` (`polyval` = Horner with the highest degree first, `mid_many`,
    `broadcast_gather`), Python's `dict`, `set` (any enumeration order: `Units.SetOrder`), `Fraction`.
  * **Objects.** Identity and mutation are modelled only where the property is about them (C10, C22, C38-C43).
* Not modelled at all:
  `utils/interop` beyond C122, CUDA sources and the C++ templating that
  instantiates the kernels, documentation, tests.

## What is proved, property by property

### Units (C01-C05, C65, C121-C123, C154, C160)
A unit is an insertion-ordered list of (dimension, exponent) and a real value. `limit_denominator` is modelled with its
continued-fraction loop; C01 is an invariant over all finite sequences of operations (inductive `Reachable`), C02/C03 are
algebraic laws proved through the exponent function `Unit.exp`, with `limDen x = x` for denominators up to 10^6 and a
witness that associativity fails beyond; C04, C05 by unfolding through `dictEq_iff`. Hash functions and rounding
functions are arbitrary parameters. C65 is false of the code (`dict.__ne__`). C121: `Latexifier` (Units/LatexModel), texts as their parts; `decimal`'s rounding
is transcribed for rationals; induction over the dimensions, rounding by monotonicity. C122, C123 (Units/NameModel): names are lists of tokens; the
specification is a left-to-right reader of such lists; induction over expressions. Astropy units are a scale and five exponents.
C160 (Units/CloseModel): `Unit.isclose` on the units of C154; `math.isclose` transcribed from CPython's `math_isclose_impl` (infinities, nan and the
OverflowError of converting a large `int` left out).
C154 (Units/NumModel): units whose value is a Python `int`, `Fraction` or `float`, with Python's arithmetic between them on any platform (`Plat`: IEEE
rounding to nearest, a C `pow` with an error below one ulp). Induction over expressions against the exact model of C01-C05: equal on Fractions, within a
computed number of roundings in general. Failures by the arithmetic of `1/49` in 53 bits, for every platform.

### Scopes, names, constants (C06-C11, C66, C67)
Scopes: state machine over assign/delete/register histories; C08 describes the final namespace for all histories (folds
over association lists). Names: C06 for every unit map and prefix row; C67 by evaluating the whole module namespace in
the kernel (`decide` over the complete finite table, which is the whole domain). Constants: C10 is an invariant on the
module's `globals()` over access histories; C11 evaluates the derived constants symbolically for all positive inputs.

### Pytrees (C12-C16), Ragged (C49, C50, C129, C130, C161)
Structural induction over nested values/specs. `Expands`/`NoNamed` in Spec describe "prefix of a spec" and "contains a
namedtuple" independently. Ragged: induction over levels; the breadth-first queue of `from_nested_sizes` is a
well-founded recursion. C129: `scatter_add_` row by row, by induction over the groups; the acceptance condition is an iff over
all shapes and integer sizes. C130: objects with their two cached properties; histories are lists of operations.
C161 (Ragged/QuantModel): the class graph with C3 linearisation, `super()` and method binding as Python does them, torch's order of overloaded arguments,
the three `__torch_function__`s; kernels and dimension specs arbitrary..

### Quantities (C17-C23, C68-C71, C131, C132, C155, C157)
The full `_dimspecs` table is transcribed; `torchCall` dispatches by name. The kernel is a parameter; "independent of the
units chosen" is: result's SI value = kernel applied to the SI values, for kernels with the stated homogeneity. One
theorem per family of functions. C17 holds up to the rounding of exponents (C17_add_fails is the witness beyond).
C155 (Quant/RegModel): class definitions as a state machine (classes, ordered registry); induction over histories from the end; `isinstance` is any relation.
C131: matrices over the complex numbers; a kernel is specified by the equation its outputs satisfy (not by a formula, so that
non-unique outputs are covered), and the same equation is shown of the measured values. C132: lists of spacings by induction.
C157 (Quant/FloatModel): the unit arithmetic of C154, the factor rounded to the data type of the tensor, then the product; counting roundings as factors `t` with
`NearOne p K t`. Sums: `alpha` divided by the ratio of the units, product rounded or fused. Counterexamples from `49 * fl(1/49) = 1 - 23/2^58` on every platform.

### Roots (C24-C31, C62, C118, C139, C140)
vieta/companion for all n by induction and `Polynomial` identities; closed forms over the complex numbers with `sq`,
`cb` any functions with `sq z ^2 = z` (principal branch where needed) and `cb z ^3 = z`; sort4 by case analysis over its
whole decision tree for any linear order; backward matrix inverse identified with `-r^(n-1-j)/P'(r)` and shown to be the
derivative of the root (implicit function theorem; C31_root_paths: along any differentiable path of coefficients
through a polynomial with simple roots there are paths of all its roots, whose derivatives are the saved gradients). C118: `roots2` with every operation rounded (Roots/RoundModel), real case.
C139, C140: the same functions on tensors with shapes (Roots/BatchModel, shapes as in Verif/Common/Tensor.lean): broadcasting in the kernels, in
`companion_matrix` and in the products and sums of `vieta`, `torch.stack`/`unbind`, `eigvals` and `inverse` matrix by matrix (`inverse` raises
if any matrix is singular, which is proved equivalent to a repeated root). Proved by reduction to the one-polynomial theorems at every index;
C140_vjp adds autograd's summation over broadcast dimensions (`sumTo`), a fibrewise sum over the indices.

### Carlson integrals (C32-C35, C79-C82, C119, C126, C141, C145, C148, C150, C152, C153)
Spec: the integrals as Lebesgue integrals over (0, inf). Proved from scratch: convergence, duplication theorems
(substitution and differentiation under no assumption but positivity), truncated series with explicit remainder, closed
forms of R_C. The C++ loops are modelled with `loopWhile` (the state at first exit, or divergence); termination,
homogeneity, symmetry for complex arguments; accuracy for real ones by the invariant "integral = accumulated sum + 4^-n
scaled integral of the current arguments". The tolerance is a parameter `eps`. R_G (C82) through its expression in R_F and
R_D, itself proved from the integrals.

C119: the routines for real arguments with every operation rounded (Carlson/RoundModel; complex arithmetic of real numbers is taken to
round the real result). Each duplication step keeps `R_F` up to 3 units because `R_F` is monotone and homogeneous of degree -1/2; the
difference between the mean and each argument is tracked by an absolute error proportional to the mean; the loop ends because the
mean stays above `1/(3 R_F^2)`; the polynomial is insensitive to its arguments near 0.

C126 (Carlson/RoundD*): the same for `elliprd`, with the accumulated sum in the invariant (sum so far + 4^-n R_D of the current arguments
stays within `17 n` units of R_D, all terms being positive); `elliprg` combines R_F, R_D and a square root with possible cancellation, so the
bound is relative to the sum of the absolute values of the terms; `ellipd`, `ellipe` add the rounding of `1 - m`, to which D, E, K are insensitive.

C141 (Carlson/RoundJ*): `elliprj`. Besides the state the invariant carries exact arguments within `6 n` roundings of the computed ones, because
the terms of the sum depend on `delta`, which is computed once from the initial arguments; the arctangent is `R_C(1, 1 + e)`, whose sensitivity to `e`
is bounded by `kappa` (`1 <= kappa (1 + e)`, which holds if no argument exceeds `kappa^2 p`, and is preserved by duplication). A flag records the `0/0` of `e = 0`.

C145 (Ellred/ComplexDup, ComplexSeries, ComplexRF, ComplexZero, ComplexCut): `elliprf` and `elliprc` for complex arguments. The duplication theorem for
R_F off the cut follows from the uniqueness of solutions of a linear differential equation along `t -> (x + t, y + t, z + t)` and the limit at infinity; after one
step the square roots of the arguments are in the right half plane and differ in angle by less than pi/2, which keeps every later root, and the final `1/sqrt(A)`, on
the right branch; `min Re sqrt` does not decrease, which gives termination; the truncated series is bounded by a Taylor remainder along a segment. A zero argument is the
limit of positive multiples. `C145_straddle` shows that the condition on the angles is needed.
C148 (Ellred/ComplexD, ComplexDRun): the same for `elliprd`. The duplication theorem and the series of R_D are derivatives of those of R_F in its last argument;
the loop invariant is `R_D(x, y, z) = 3 * sum + 4^-n R_D(current arguments)`. The error is absolute, in terms of the smallest real part of the roots, which the loop
does not decrease.

C150 (Ellred/ComplexJ, ComplexJRot, ComplexJRun): the same for `elliprj`. The duplication theorem of R_J is proved along t -> t + lambda(t): the difference of the two
sides has derivative zero (the derivative of arctan(kappa/d)/kappa, with d the product of the three sums of roots, is the difference of the two integrands) and tends to zero. The branch of
the arctangent is right where |kappa| < |d| and d stays off the line through plus and minus i kappa, which holds in the right half plane (every (sqrt p - sqrt x)/(sqrt p + sqrt x) is
in the unit disc) and for conjugate arguments. The series at the exit is that of C81 for complex arguments. For conjugate arguments all the terms of the sum are
positive, which turns the absolute bound into a relative one.

C152 (Ellred/ComplexLeg): Legendre's integrals along the real interval with complex m and n, principal roots, written as plain integrals. The substitution
t = 1/sin^2(theta) - 1/sin^2(phi) carries them to the complex R_F, R_D, R_J (no root crosses the cut because 1 - m sin^2(theta) runs along a segment from 1 to a
point off the cut), and C145, C148, C150 give the routines. `ellipe` goes through `elliprg(0, 1-m, 1)`, whose three terms collapse to R_F - m R_D / 3 there. Partial:
`ellippiinc` and `ellippi` are proved for Re m and Re n below 1/sin^2(phi), n not 1 or m (at n = m the code returns NaN). At phi = pi/2 the first argument of R_J
is zero: C150_elliprj_zero (Ellred/ComplexJZero), whose duplication step is the limit of the ones at x = r^2, r -> 0.

C153 (Ellred/ComplexG): `elliprg` with C145 and C148. The formula of the code (DLMF 19.21.10) is the case p = z of the identity behind C87 for arguments off the cut;
with x = 0 it is the limit of the ones at x = r^2 (dominated convergence for R_F, R_D, R_G).

### Gradients of the Carlson integrals and the Legendre forms (C83-C90)
`GradModel`/`LegendreGradModel` transcribe the gradient formulas with their equality-threshold branches; differentiation
under the integral sign (dominated convergence) gives the derivatives of the integrals, and the relations between R_F,
R_D, R_J, R_C, R_G (proved by differentiating under the integral or by partial fractions) identify them with the
formulas. For complex arguments (`Ellred/CarlsonGradModel`, `CarlsonGrad`) the formulas are transcribed again with complex powers; the relations are
reductions of integrals of products of powers of `t + x` off the cut (`CarlsonRed`: the derivative of a product of powers integrates to its boundary
term), and the claim is about real paths through the arguments, in torch's convention for complex gradients. Legendre forms: the substitution `t = 1/sin^2 - 1/sin^2 phi` identifies them with Carlson integrals.

### Analytic distances (C91-C96, C146, C149, C151)
The Carlson routines are taken here as the integrals they stand for, with complex arguments (`RFc`, ...). `Kernel` proves
the reduction: for functions X_i with X_i' = 1/(2 X_i) the substitution `v = U_12^2` maps the integral of 1/(X1 X2 X3 X4) to
R_F(U12^2, U13^2, U14^2), and similarly R_D, R_J. `Factors`, `Configs`, `Cubic`, `Quartic` show that the principal square
roots of `z - r_i` multiply up to the positive square root of the polynomial and that the U's stay in the right half
plane for every configuration of real and conjugate roots, in any order; for two conjugate pairs of a quartic this needs
the vanishing of the linear term in 1+z (`slope_of`). `RCpath` follows R_C along a path off its cut; `Third` and
`QuarticCond` say on which side of the cut the code's formula ends up, in terms of the last root. C95 and C96 are partial:
the general statement is refuted.

C146 (Ellred/CodeDist) replaces the integral by the routine `elliprf` in the comoving distances: the three arguments are squares of numbers in the right half
plane whose product is positive, so at least one has a non-negative real part, and C145 applies.
C149 (Ellred/CodeAbs) does the same for the absorption distance of `LambdaCDM`, with C145 and C148; without curvature both elliptic integrals have coefficient zero.

C151 (Ellred/CodeLook): the lookback time with C145 and C150. The arguments of `elliprj` are one positive number and a conjugate pair, in some order, or three positive
numbers, and p is positive, whatever the order of the roots; both terms are non-negative, so the relative errors do not add up. The difference of p and an argument is
z^2 (r + 1), which is zero exactly for a root at -1, that is without dark energy; there the routine divides by zero (`C151_no_dark_energy`).

### Gamma functions (C97, C98)
The C++ routines in exact complex arithmetic; `M_PI` is pi, every other literal is the rational written in the source.
The specification of Gamma is Mathlib's; that of log Gamma (`LogGammaSpec`) is Euler's limit of
`z log n + log n! - sum_k log(z+k)` with principal logarithms. `Binet` proves the asymptotic series with an explicit
remainder by telescoping; `LogGammaRefl` proves the reflection formula with its branch; the comparison of the series with
the coefficients in the source is a kernel computation on rational polynomials (`ListPoly`).

### Digamma (C108)
`DigammaModel` is digamma.h with the printed rational coefficients. Spec: `deriv Gamma z / Gamma z`. With f the
approximation, f(z+1) - f(z) - 1/z is a rational function plus a small tail of a logarithm; polynomial certificates
(`DigammaPoly`, checked by the kernel) bound it on the imaginary axis and on the real axis, Phragmen-Lindelof (Mathlib) carries
the bound to the half plane (`DigammaLim`), and telescoping with psi(z+n) - log(z+n) -> 0 (`DigammaAsym`) gives the error. Reflection covers re z < 1/2.

### Incomplete gamma functions and hypergeometric sums (C60, C61, C99-C103)
`IncGammaModel` models gammainc.h for finite arguments in exact real arithmetic (`none` = NaN; `lgamma`, `erfc`, `exp`,
`log` exact; underflow of the prefactor modelled as in the source; the 25x25 table of the asymptotic expansion is a
parameter, so nothing is claimed about accuracy inside the band around x = a). The specification is the integral
(`IncGammaSpec`). `LanczosReal`/`LanczosLim` bound the Lanczos sum by showing that its defect telescopes;
`IncGammaSpec`/`IncGammaAlt` prove the two power series with tail bounds; `IncGammaInt`/`IncGammaCF` prove the remainder
of the continued fraction as an integral, and its rate of convergence from a second-moment identity. `HypModel` models
hypsum over complex parameter lists. `GammaIncInvModel` models gammaincinv.h (real log and sqrt inside the starting guess are
total); C61 uses that P(a,.) is concave for a <= 1 and, for the inaccuracy, rational enclosures of the three iterates.

### Tgamma and gradients of the gamma functions (C109-C112)
`MeijerModel` models `hypercomb`, `meijerg` (p < q) and `Tgamma` over complex parameter lists, with the gamma function, the
series and the step as parameters, then instantiated with the modelled `gamma` and `hypsum`. Spec: `TGammaSpec.TInt`, the
integral. m = 1, 2: error bounds from C60/C97 and the alternating series; m = 3: `TInt_three` (the exact expansion) and dominated
convergence as the step tends to 0 (`TGammaLimit`), rate O(step) because the value extends to a holomorphic function of the step (`TGammaRate`). C109: derivative of the branch of log Gamma as a locally uniform limit,
composed with C58's backward. C110: partial derivatives by differentiation under the integral, joint differentiability by
continuity of one partial, the inverses by C59; the negative result compares the logarithmic growth of x T(3,a,x) with
the bound on the perturbed value (`GammaIncGradBad`). `torch.special.digamma`, `gammaln`, `gammainc` are trusted. In C110 the
hypothesis "Tgamma(3) exact" is not met by the code (see C111); the error is expressed by that of Tgamma(3) and is O(step) (`TGammaRate`).

### Elliptic reduction (C37, C104-C107, C142)
`RedModel` models `EllipticReduction` (core.py) function by function over complex `a_i` and real limits, with R_F, R_D, R_J, R_C the
integrals they stand for. `PartExp`/`PartFrac` prove the expansion of `expand` (multinomial sums) and the partial fractions; `RedRec`
the three-term recurrence behind `Iqe` (derivative of `s(t) (a_j+t)^q` integrated); `RedIqe`, `RedIm` the induction over exponents;
`RedCubic`, `RedQuartic` the basic integrals, from the R_J formulas of `Integral`/`Quartic`; `RedSwap` the exchange of the limits.
The specification `RedSpec.integrand` is the product of principal powers. `RedDriver`, `RedDriverR`: analytic_diff.py.
`Leibniz` differentiates an integral along a path of limits and parameters; `RedGrad` models `backward`. `Cache` models tensors by identity
and the outer cache as a state machine over histories (the inner caches are not modelled).

C142 (Ellred/DriverGrad*): the whole chain of backward passes of analytic_diff's LambdaCDM for one element: `_fix_dimless`, `EllipticIntegral`,
negation and subtraction of 1, `Roots`, division by the leading coefficient, the curvature. The backward formulas of torch's own operations
(division, power, real part, conversion to complex) are transcribed from torch's rules, not from /repo. The proof: `Roots.backward` times the gradients of
the roots is a partial fraction, so the gradients of the coefficients are integrals of (1+t)^k / E³ (Good3.rootsBackward_eq); the gradient of the leading
coefficient follows from homogeneity (Simple.euler); Leibniz' rule gives the same integrals as derivatives (hasDerivAt_dist). Gradients of redshifts come out
complex with imaginary part 0; whether torch accepts a complex gradient of a real tensor is not modelled.

C143 (Ellred/Tape*): the comoving distances of analytic.py as expressions over input tensors (`Ex`: arithmetic, squares, square roots, `.real`, `elliprf`),
with reverse-mode differentiation of such expressions (`Ex.back`) followed by the backward passes of `Roots`, of the division by the leading coefficient and of
the curvature. The gradient of `elliprf` is the code's; those of torch's own operations are transcribed from torch's rules. `CarlsonDeriv` differentiates R_F
along complex paths under the integral; `Ex.back_vjp` is the chain rule by induction over expressions; `C31_root_paths` provides the roots along
the path; `TapeCond` shows that no square root and no argument of `elliprf` meets the cut. A square root of 0 or a cut does not occur under the
hypotheses.

C144 (Ellred/TapeLook): the same for the lookback time and the absorption distance of `LambdaCDM`, whose expressions contain `elliprc`, `elliprd` and `elliprj`
with the gradients of the code (C84-C86 for complex arguments). The differences of the arguments that these formulas compare are `z^2` times roots, products of
roots or differences of roots, which gives the condition on the threshold. Lookback times and absorption distances of `LambdaCDMR` are not differentiated.

### Cosmology (C38-C48, C64, C72-C75, C113, C115-C117)
A class is (dark-energy family, radiation?, flat?); an instance is its attribute record. `Reachable` = construction
followed by any attribute assignments. C40 derives the continuity equation by differentiation and uniqueness; C47 by
real/complex trigonometry and differentiation; C74 by the fundamental theorem of calculus. Mutually recursive default
methods have an explicit recursion limit. C113: the ODE solver is a parameter of the model, specified as exact on continuous right-hand
sides and rejecting times that are not strictly monotone; such a solver is shown to exist. Batches of parameters are lists of instances.
C115: element by element, with the model of units (Units, Consts) for `c`, `G`, `pc`, `km/s/Mpc`; the dimensionless results are arguments.

C116: a floating-point model (Common/Round): numbers of `p` bits, unbounded exponents, any rounding to nearest, shown to exist; every operation, the sine
included, is taken to be correctly rounded, and the part of the complex argument that should vanish to be exactly 0. `csinc` and `comoving_volume_dimless`
operation by operation (Cosmo/CsincModel); the specification is the exact `(1 - sin(y)/y)/y^2` and the volume of C47.

C117: reverse-mode differentiation operation by operation (Cosmo/CurvGradModel) over numbers that may be non-finite; torch's backward formulas for `pow`,
`div`, `where`, `sinc`, `real` are trusted. The specification is Mathlib's `HasDerivAt`.

### Interpolation (C51-C57, C63, C76, C77, C114, C133-C137, C147, C156, C158, C159)
Grids are lists; splines are modelled down to the matrix rows; C56 proves that the linear system has exactly one
solution (uniqueness from the energy argument, existence by dimension), that the evaluated spline is C^2, natural, and
interpolates. C63: the cumulative tables and the inverse. C114: `grid_sample` (bilinear, zero or border padding) is transcribed from
torch's documentation; the bilinear interpolant is specified by the cell a point lies in.
C156 (Interp/FloatModel): every operation followed by any rounding to nearest; `sum` and `prod` as a relation, any order and bracketing. At grid points all
weights are 0 or 1 and all but one product vanish, so nothing is rounded; elsewhere the standard factors 1 + δ. The error in N dimensions (Interp/FloatNd):
reductions in any order are exact reductions of terms changed by few roundings; the sum over the corners of products of perturbed factors is a product of sums
(1 + 12u)^N, so the roundings of the weights cost no factor 2^N.
C158 (Interp/FloatSplineModel): the loop of `polyval` as a relation (product rounded, or fused); the coefficients of the solver are an argument. Each step
multiplies by factors within one rounding of one; induction over the coefficients collects them. The failing example is computed for every rounding to nearest from
the explicit coefficients, which uniqueness (C56) makes those of the solver. For the weights the columns of `A` are an argument too; C76_columns
identifies column j with the coefficients for unit data, so the same numbers appear.
C159 (Interp/FloatDistModel): as C156, with `cumsum` from the left, its accumulator in the same or a wider format. Rounding to nearest is monotone, which gives the
order of the table; relative errors of sums of non-negative numbers are carried by factors within K roundings of one.

C147 (Interp/Merge): `merge` on instances modelled by their attributes, so that the missing attribute `values` shows; the masks of `merge_grids` place the values of
each interpolant, so the ordinates are `op (f t) (g t)` at the merged knots, and both interpolants are affine on every merged interval of positive length.

C133-C137: tensors with shapes (Verif/Common/Tensor.lean: shapes and indices last dimension first, broadcasting proved to be the least
upper bound of the shapes). phytorchx's `broadcast_except`, `broadcast_gather` and torch's batched `solve`, `inverse` and `einsum` are
taken as documented. Every entry is reduced to the one-element models of C51-C57, C63, C77.

### Autograd (C36, C58, C59, C78, C138)
`backward` with padding, `None`s, and conjugation; inverse functions by the implicit function theorem; class creation
over MRO lists; the table of all function classes of the package is checked in `Classes.lean`.
C138: `forward` as a function of `saved_tensors`, `_forward` and the flags; composed with the backward pass of C58; the table of function classes
with parameter names, so a permuted argument shows up as a wrong name.

### Precision of arguments (C120)
One entry of each argument with its dtype and shape; `as_tensor`, `to`, `TensorIterator` promotion after PyTorch's documentation, rounding from
Common/Round. The kernel's format and inputs are the result; case analysis over the kinds of arguments, induction over the list.

### Functions of math.py (C124), loading of extensions (C125)
C124: values are Python numbers or tensor entries; cmath and torch functions after their documentation, by logarithms and square roots; proved against the textbook
definitions (`sin w = z` etc.). C125: a state machine over `sys.modules` and the attributes of the package; invariant over all programs of accesses and imports.

### Argument passing (C127), signatures (C128)
C127: `Signature.bind`, `apply_defaults`, `.args`, `.kwargs` transcribed from CPython (BindModel), the loop of `__torch_function__` on top. A signature is any
list of parameters Python accepts (all five kinds). `Passes` says that some positional arguments and keywords amount to given bound arguments; `bind_pass` shows that they
then arrive; `bind_good`, `rewrite_good` that bound arguments stay passable. The torch function is taken to bind its arguments by the signature found for it.
C128: the dict with `__missing__` as a state machine; what inspection of a function gives is a parameter (the parsing of docstrings is not modelled).

## Where code and expectation disagree

Each is stated in properties.jsonl and proved (negation with a witness, plus what does hold).

* C16 named tuples cannot be flattened (`issubclass(namedtuple, tuple)` raises); subclasses cannot be rebuilt.
* C17 exponents that differ by less than 1e-6 are treated as equal by add/sub.
* C23 `q.to(unit, dtype)` loses the unit or raises AttributeError.
* C27/C28 cubic closed form in exact arithmetic returns a triple root for (x+b/3)^3 = iy.
* C30 one coefficient raises NotImplementedError.
* C35/C80/C141 `elliprj` returns NaN when p equals x, y or z; `ellippi(m, m)` and `ellippi(n, m)` for n != 0 below half the precision are NaN.
* C151 For this reason the analytic lookback time of an open universe without dark energy (Ode0 = 0) is NaN in exact arithmetic.
* C39/C40 w0wzCDM: wrong sign in the exponential, E(0) != 1.
* C42 Flat* classes other than FlatLambdaCDM(R) need not have E(0)=1.
* C44 the default `age` ignores z.
* C54 N-d extrapolation is not linear (absolute values of weights).
* C57 the spline system is square only for degrees 1 and 3.
* C60 the stopping rule of hypsum is not sound. C100 fixed iteration count and underflow of the prefactor. C61 an inverted
  `isfinite` test turns Halley's method into Newton's, and three steps do not reach machine precision.
* C109 the gradient of digamma raises AttributeError. C110 the gradient of gammainc with respect to a is unboundedly wrong as
  x -> 0+. C111 Tgamma(m >= 3) is always perturbed by 2^-15 (double) or 2^-7 (single); Tgamma(0) raises. C112 Tgamma(1)'s gradient
  in z raises; no conjugation for complex arguments.
* C63 one-dimensional `icdf` raises ValueError.
* C64 with derived parameters the order of keywords matters.
* C65 `u != v` is not the negation of `u == v`. C66 `register` returns None when it ignores.
* C68 in-place operations ignore units. C69 integer quantities lose their unit. C70 histc's default range raises.
  C71 isclose depends on the unit when atol != 0.
* C73 the filter in `parameters` removes nothing. C75 `Omega` omits O0 and mixes up its two return forms.
* C82-C90: the gradients of the Carlson functions switch formulas at an absolute threshold; ellippi's gradient formulas divide by
  zero at n = 0, n = m, n = 1, m = 1; incomplete Legendre integrals are even and pi-periodic in phi (they should be odd and
  quasi-periodic).
* C93/C96 the absorption distance at z = 0 is 0/0.
* C95/C96 lookback time and absorption distance of LambdaCDMR depend on which root the root finder returns last.
* C106 the same for the first root in analytic_diff. C107 results of elliptic_integral are cached by the identity of tensors.
* C113 the odeint driver raises for unsorted or repeated redshifts and for redshift 0.
* C115 eval_hunit leaves a spurious power of time if H0 is a quantity.
* C117 gradients with respect to Ok0 are NaN at Ok0 = 0, and all gradients of the comoving volume there and at z = 0.
* C116 the comoving volume loses all its digits near flatness: 0 in single precision, 20 % off in double just above the threshold of `csinc`.
* C143 gradients of the comoving distances of analytic.py: LinAlgError at repeated roots of E², as for C142.
* C144 the same for lookback times and absorption distances.
* C156 in floating point the last knot need not give its value and monotone data need not give a monotone interpolant across a knot (last bits).
* C147 `Linear1dInterpolator.merge` always raises AttributeError (no attribute `values`); with it, grids sharing an end give NaN there.
* C145 `elliprf` and `elliprc` are wrong for arguments on both sides of the cut when all are close together (near -1 +- i0: value about 1, integral unbounded).
* C142 gradients of the distances of analytic_diff with respect to the density parameters raise LinAlgError whenever E² has a repeated root, in
  particular for Ode0 = 0 (so FlatLambdaCDM with Om0 = 1), where the distances are smooth.
* C140 one polynomial with a repeated root makes the backward pass of the whole batch raise.
* C118 near a double root half of the digits of the roots of a quadratic are lost.
* C131 torch.linalg functions without an entry (linalg_inv, linalg_det, linalg_cholesky, ...) keep the unit of their argument; packed LU
  factors cannot be converted. C132 torch.where with keyword branches raises IndexError.
* C129 group sizes that add up to 1 are accepted for any last dimension. C130 group sizes are lost in tuples, not compared between
  operands, kept by reduce_add itself, and frozen by the first reduce_add.
* C127 positional-only parameters with defaults that are left out cannot be passed on once the dimension spec changes them. C128 `f in sigdict` is always true and the default given to `get` never returned.
* C124 log, asin, ... of real tensors are NaN where Python numbers have complex values; csinc(0) raises for Python numbers. C125 accessing
  an extension overwrites `sys.modules` at its bare name.
* C157 in double precision 49 m == 1 (49*m) but 1 (49*m) != 49 m; 0 m + 1 (49*m) is 49 + 2^-47 m while 1 (49*m) converts to 49 m; conversion there and back loses the last bit.
* C158 a `Spline` in single precision through (8500, 0), (8501, 1), (8502, 0) evaluates to -32768 at its middle knot: the polynomials are expanded in powers of x and cancel.
* C161 every torch function of a `RaggedQuantity`, even `.shape`, raises TypeError.
* C159 `NDIDistribution.icdf` may return a coordinate above the last grid point (last bits).
* C155 an abstract quantity class (with a type variable) makes `unit * x` raise TypeError for every x; of several fitting backends the one introduced last is used, not the most special.
* C154 dividing a unit by an int gives a float: `m/1000 == milli_(m)` is False (true only for powers of two); with floats `u*~u` and `u.to(v)*v.to(u)` need not be 1.
* C122 dimensionless units cannot be converted to Astropy. C123 names of powers of powers have no brackets.
* C121 the number in the LaTeX form of a unit loses the last digit of a double, may have the mantissa 10, and ignores `prec`.
* C120 Python numbers and integers beside double precision tensors are rounded to single precision.
* C114 interp2d by default puts the table entries at cell centres, halves the values at the edges, and raises or returns wrong shapes
  for scalars, three-dimensional coordinates and batches of tables.
* C133 by default a batch of grids with a batch of values gives the outer product of the batches. C134 grids with different batch shapes
  raise unless the points have the full batch shape. C136 SplineNd aligns batch dimensions of the values with the points. C137 grids with batch dimensions raise.
* C78 an explicit gradient list is ignored if a base class collected one; a class with unknown `ninputs` hangs in backward.

Found while reading, outside the theorems: `Linear1dInterpolator.merge` uses `self.values`, which does not exist;
`merge_grids` with batch dimensions indexes the first dimension; `analytic_diff.FlatLambdaCDM.age` resolves to a
NotImplementedError; `eval_hunit` leaves a factor (km/s/Mpc)^p in the dimension (core.py:318-320); functions with several
outputs sum the incoming gradients; `functional.EllipticIntegral` is marked outdated by its author.

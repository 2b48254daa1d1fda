{"id": "C01", "title": "Unit exponents are always in normal form", "statement": "Every unit obtained from the Unit constructor and any sequence of *, /, ~, %, @, ** with rational powers, and multiplication by numbers stores at most one exponent per dimension, never stores a zero exponent, and every stored exponent has denominator at most 10^6.", "quantifier": "all constructor inputs and all finite sequences of unit operations, and every enumeration order Python's set may use", "why_tests_cant": "histories of operations are unbounded and set iteration order is randomised", "anchors": ["phytorch/units/unit.py:UnitBase.__init__", "phytorch/units/unit.py:UnitBase._operate_other", "phytorch/units/unit.py:UnitBase._operate_self"]}
{"id": "C02", "title": "Unit multiplication is commutative, has inverses, and is associative wherever no exponent is rounded", "statement": "u*v == v*u and u*~u == dimensionless unit 1 for all units; (u*v)*w == u*(v*w) and (u/v)*v == u whenever exponents are multiples of 1/N for some N<=10^6; the exponent of a product is the sum of exponents. Without that restriction associativity is false (a witness is exhibited).", "quantifier": "all units with nonzero value, all N up to 10^6, all set orders", "why_tests_cant": "infinitely many units; the rounding in limit_denominator only shows at rare denominators", "anchors": ["phytorch/units/unit.py:UnitBase.__mul__", "phytorch/units/unit.py:UnitBase.__init__", "phytorch/units/unit.py:Unit.__mul__", "phytorch/units/unit.py:Unit.__invert__"]}
{"id": "C03", "title": "Unit powers obey the laws of exponents", "statement": "u**1 == u, u**0 == 1 (dimensionless), u**-1 == ~u, u**(m+n) == u**m * u**n, (u**m)**n == u**(m*n) and (u*v)**n == u**n * v**n for integers m,n (the last for exponents on a common grid 1/N), and (u**p)**(1/p) == u for nonzero rational p when no rounding occurs.", "quantifier": "all units with positive value, all integers m,n, all admissible rational powers", "why_tests_cant": "infinitely many exponents and values", "anchors": ["phytorch/units/unit.py:UnitBase.__pow__", "phytorch/units/unit.py:Unit.__pow__", "phytorch/units/unit.py:UnitBase.__truediv__"]}
{"id": "C04", "title": "Unit conversion is defined exactly between equal dimensions and composes", "statement": "u.to(v) raises TypeError iff the dimensions of u and v differ; otherwise the factor f=u.to(v) satisfies f*v.value == u.value, u.to(v)*v.to(w) == u.to(w), u.to(u) == 1, and u.to(v)*v.to(u) == 1.", "quantifier": "all pairs/triples of units with nonzero value", "why_tests_cant": "infinitely many pairs", "anchors": ["phytorch/units/unit.py:Unit.to"]}
{"id": "C05", "title": "Unit equality is an equivalence independent of construction order and is compatible with hash", "statement": "Two units are equal iff they have equal value and equal exponent of every dimension, regardless of the order in which exponents were inserted; equal units have equal hash; equality is reflexive, symmetric and transitive; a unit never equals a bare dimension.", "quantifier": "all units, all insertion orders, every hash function of keys", "why_tests_cant": "orders are factorially many and set order is randomised per process", "anchors": ["phytorch/units/unit.py:Unit.__eq__", "phytorch/units/unit.py:Unit.__hash__", "phytorch/units/unit.py:UnitBase.__hash__"]}
{"id": "C06", "title": "SI prefixes and name registration", "statement": "Every prefixed unit registered under prefix p and unit u has value 10^p times the value of u and the same dimensions; different prefixes have different names and different powers; kilogram built from gram equals the base kilogram.", "quantifier": "every unit map and every prefix of the table", "why_tests_cant": "all unit maps, not a sample", "anchors": ["phytorch/units/_prefixes.py:_prefix_many_to_many", "phytorch/units/_prefixes.py:_prefix_map", "phytorch/units/_si/prefixed.py"]}
{"id": "C07", "title": "Name normalisation is idempotent", "statement": "names_and_abbrevs applied to its own output returns it unchanged; a plain string gives its lower-cased self as the name and its first character as the abbreviation; a one-element tuple is used for both; an empty string raises.", "quantifier": "all strings and nested tuples of strings", "why_tests_cant": "inputs are unbounded", "anchors": ["phytorch/units/_utils.py:names_and_abbrevs"]}
{"id": "C08", "title": "A cleanup scope leaves exactly the intended names", "statement": "After an AutoCleanupGlobalScope ends, the namespace contains: every registered name with its registered value; every dunder name that was there before; every name newly assigned since the scope was created; and no other name that existed when the scope was created. Ending the scope twice (explicit exit, then garbage collection) has the same effect as once even if the namespace was modified in between.", "quantifier": "all initial namespaces, all sequences of assignments/registrations, all later modifications", "why_tests_cant": "histories are unbounded and the finaliser runs at an arbitrary later time", "anchors": ["phytorch/utils/scoping.py:AutoCleanupGlobalScope", "phytorch/utils/scoping.py:GlobalScope.__exit__", "phytorch/utils/scoping.py:GlobalScope.__del__"]}
{"id": "C09", "title": "Registration order: first wins with ignore_if_exists, last wins without", "statement": "After any sequence of registrations the registered value of a name is the first one from its first registration if all later ones ignore existing names, and in general the value of the last registration that was not ignored; names never registered are absent.", "quantifier": "all sequences of register/register_many calls", "why_tests_cant": "unbounded histories", "anchors": ["phytorch/utils/scoping.py:GlobalScope.register", "phytorch/utils/scoping.py:GlobalScope.register_many"]}
{"id": "C10", "title": "Constant lookup does not depend on access history", "statement": "In any history of attribute accesses on phytorch.constants, each access returns what its name alone determines: a release name or `default` one CODATA object per release (codata2018 for default), a constant of the default set the one object of that instance (aliases of a constant the same object), otherwise an astronomical constant, otherwise AttributeError; accesses that fail never change later results. Default CODATA names shadow astro names.", "quantifier": "all finite sequences of accesses, all names already bound in the module", "why_tests_cant": "unbounded histories with caching", "anchors": ["phytorch/constants/__init__.py"]}
{"id": "C11", "title": "Derived physical constants satisfy their defining identities", "statement": "For every choice of positive primary CODATA values, and every set order: hbar = h/2pi; mu_0 = 2 alpha h/(e^2 c); eps_0 mu_0 c^2 == 1 and alpha = e^2/(4 pi eps_0 hbar c); the magnetons are e hbar/2m; R_inf = alpha^2 m_e c/2h = alpha/(4 pi a_0); the Thomson cross section is (8pi/3)(alpha^2 a_0)^2; sigma = 2 pi^5 k^4/(15 h^3 c^2); the Wien constants are hc/(k x) and x' k/h; each with the right SI dimensions.", "quantifier": "all positive primary values, all orders in which sets are enumerated", "why_tests_cant": "every CODATA release, not just the ones shipped", "anchors": ["phytorch/constants/codata.py"]}
{"id": "C12", "title": "Flatten/unflatten round trip", "statement": "Unflattening the leaves and the spec returned by flattening a nested list/tuple/dict value returns the original value, and flattening an unflattened list of leaves returns those leaves and the same spec.", "quantifier": "all nested containers of any depth", "why_tests_cant": "unbounded depth and width", "anchors": ["phytorch/utils/pytree.py:tree_flatten", "phytorch/utils/pytree.py:tree_unflatten"]}
{"id": "C13", "title": "Unflatten rejects a wrong number of leaves", "statement": "tree_unflatten raises ValueError iff the number of leaves differs from the spec's leaf count, which itself equals the number of leaves flattening yields.", "quantifier": "all specs and leaf lists", "why_tests_cant": "unbounded", "anchors": ["phytorch/utils/pytree.py:tree_unflatten", "phytorch/utils/pytree.py:TreeSpec"]}
{"id": "C14", "title": "tree_map preserves structure and is functorial", "statement": "Mapping keeps the spec, maps leaves in order, maps identity to identity and composition to composition.", "quantifier": "all trees and functions", "why_tests_cant": "unbounded", "anchors": ["phytorch/utils/pytree.py:tree_map"]}
{"id": "C15", "title": "Broadcasting a tree to a spec", "statement": "The broadcast helper either fails or returns exactly as many leaves as the target spec has; it succeeds iff the value's structure is a prefix of the target; broadcasting a full tree to its own spec returns its own leaves.", "quantifier": "all trees and specs", "why_tests_cant": "unbounded", "anchors": ["phytorch/utils/pytree.py:_broadcast_to_and_flatten"]}
{"id": "C16", "title": "Named tuples do not survive a flatten/unflatten round trip", "statement": "Flattening raises TypeError exactly when a genuine namedtuple occurs anywhere in the value, so named tuples (which the module claims to support) do not survive a round trip; an instance of a subclass of a namedtuple flattens, but unflattening it raises TypeError (two or more fields) or returns a different value (one field).", "quantifier": "all nested values, all named tuples and subclasses", "why_tests_cant": "depends on isinstance dispatch for every type", "anchors": ["phytorch/utils/pytree.py:_get_node_type", "phytorch/utils/pytree.py:CustomDict"]}
{"id": "C17", "title": "Operations on incompatible dimensions always raise UnitError", "statement": "Adding, subtracting, comparing, or joining quantities of different dimensions, or a dimensionful quantity with a bare number, raises UnitError and never reaches the torch kernel. For add/sub the claim is restricted to dimensions whose exponents differ by a fraction with denominator up to a million (the code rounds the difference of exponents; without the restriction the claim is false and C17_add_fails proves it).", "quantifier": "all units and values", "why_tests_cant": "infinitely many unit pairs", "anchors": ["phytorch/quantities/dimspec.py:DimSpec.__call__", "phytorch/quantities/dimspec.py"]}
{"id": "C18", "title": "Addition and subtraction are independent of the units chosen", "statement": "The SI value of a+alpha*b, a-alpha*b, rsub etc. is the corresponding operation on SI values, whichever compatible units the operands are expressed in; the result carries the first operand's unit.", "quantifier": "all values, alphas and compatible units with nonzero value", "why_tests_cant": "infinitely many units", "anchors": ["phytorch/quantities/dimspec.py"]}
{"id": "C19", "title": "Products, quotients and powers are independent of the units chosen", "statement": "SI value of a*b, a/b, a**n, sqrt, fused ops (addcmul, addcdiv, addmm ...) equals the operation on the SI values, with the unit of the result the product/quotient/power of the units.", "quantifier": "all values and units", "why_tests_cant": "infinitely many units", "anchors": ["phytorch/quantities/dimspec.py"]}
{"id": "C20", "title": "Comparisons are independent of the units chosen", "statement": "a<b, a==b, max/min etc. between compatible quantities agree with the comparison of their SI values (positive unit values).", "quantifier": "all values and compatible units", "why_tests_cant": "infinitely many units", "anchors": ["phytorch/quantities/dimspec.py"]}
{"id": "C21", "title": "Bare numbers are accepted only as dimensionless", "statement": "A bare number or tensor combined where a unit is required is accepted iff that unit is dimensionless and is then scaled so that its SI value is unchanged; booleans are passed untouched.", "quantifier": "all values and units", "why_tests_cant": "infinitely many", "anchors": ["phytorch/quantities/dimspec.py:DimSpec.__call__"]}
{"id": "C22", "title": "Converting a quantity does not change what it measures or the original object", "statement": "q.to(unit) has the same SI value as q, raises iff dimensions differ, composes, and never mutates q.", "quantifier": "all quantities, units", "why_tests_cant": "aliasing depends on the branch taken", "anchors": ["phytorch/quantities/quantity.py:GenericQuantity.to"]}
{"id": "C23", "title": "q.to(unit, dtype) keeps the unit", "statement": "Converting unit and dtype together gives a quantity in the requested unit. (False of the code: unit lost or AttributeError when the dtype changes.)", "quantifier": "all quantities", "why_tests_cant": "branch on object identity", "anchors": ["phytorch/quantities/quantity.py:GenericQuantity.to"]}
{"id": "C24", "title": "vieta inverts root finding", "statement": "The coefficients returned by vieta(r1..rn) are those of the monic polynomial prod (x-ri), for every n; order of roots is irrelevant.", "quantifier": "all n and all roots", "why_tests_cant": "unbounded n", "anchors": ["phytorch/roots/__init__.py:vieta"]}
{"id": "C25", "title": "The companion matrix has the polynomial's roots as eigenvalues", "statement": "x is an eigenvalue of the matrix built by companion_matrix iff x is a root of the monic polynomial with the given coefficients.", "quantifier": "all degrees and coefficients", "why_tests_cant": "unbounded degree", "anchors": ["phytorch/roots/__init__.py:companion_matrix"]}
{"id": "C26", "title": "Quadratic roots are exactly the roots", "statement": "The two numbers returned by the quadratic formula satisfy (x-r1)(x-r2)=x^2+bx+c for any choice of complex square root.", "quantifier": "all complex coefficients and branch choices", "why_tests_cant": "continuum", "anchors": ["phytorch-extensions/roots/roots.h:roots2"]}
{"id": "C27", "title": "Cubic roots are exactly the roots", "statement": "The three numbers returned satisfy prod(x-ri)=x^3+bx^2+cx+d in every branch, for the principal square root (either value on its cut) and any cube root, for all complex coefficients except cubics of the form (x+b/3)^3=iy with real y!=0, for which the exact-arithmetic code can sit on the wrong side of the square root's cut and return a triple zero; all real coefficients are covered.", "quantifier": "all complex coefficients but the excluded ones, both branches", "why_tests_cant": "degenerate branches have measure zero", "anchors": ["phytorch-extensions/roots/roots.h:roots3"]}
{"id": "C28", "title": "Quartic roots are exactly the roots", "statement": "The four numbers returned satisfy prod(x-ri)=x^4+bx^3+cx^2+dx+e in every branch, for all complex coefficients whose resolvent cubic is not of the form excluded in C27 (in particular all real coefficients).", "quantifier": "all complex coefficients, branches", "why_tests_cant": "degenerate branches have measure zero", "anchors": ["phytorch-extensions/roots/roots.h:roots4"]}
{"id": "C29", "title": "Sorting four roots returns an ordered permutation", "statement": "sort4 returns a permutation of its inputs ordered by the comparison, for every total preorder.", "quantifier": "all inputs", "why_tests_cant": "all inputs", "anchors": ["phytorch-extensions/roots/roots.h:sort4"]}
{"id": "C30", "title": "roots() dispatch", "statement": "roots of n coefficients: n=0 raises ValueError, n=1 NotImplementedError; for n>=2 finite coefficients it returns n numbers which are the roots with multiplicity, the same up to order whether or not the numeric (companion matrix) method is forced; any non-finite coefficient makes the closed forms return NaN for all roots.", "quantifier": "all n", "why_tests_cant": "unbounded n", "anchors": ["phytorch/roots/__init__.py:Roots.forward", "phytorch/roots/__init__.py:roots"]}
{"id": "C31", "title": "Gradient of roots is the implicit derivative", "statement": "The backward pass multiplies by -r^(n-1-j)/P'(r) for simple roots, the derivative of root r with respect to coefficient j, so that perturbed roots satisfy the perturbed polynomial to first order. Moreover, along every differentiable path of coefficients through a polynomial with distinct roots, the roots themselves extend to differentiable paths that near that point are exactly all the roots, with the velocities the backward pass uses.", "quantifier": "all n, all distinct roots, all paths of coefficients differentiable at the point", "why_tests_cant": "unbounded n", "anchors": ["phytorch/roots/__init__.py:Roots.backward"]}
{"id": "C32", "title": "elliprf computes R_F", "statement": "For real non-negative x, y, z with at most one zero, `elliprf(x,y,z)` stops and its exact-arithmetic value differs from Carlson's integral R_F(x,y,z) = 1/2 int_0^inf dt/sqrt((t+x)(t+y)(t+z)) by a relative error of at most 2e-6 machine epsilons; with two zero arguments the result is infinity.", "quantifier": "all real non-negative arguments, every precision 0<eps<=1", "why_tests_cant": "accuracy over a continuum of arguments spanning all magnitudes", "anchors": ["phytorch-extensions/elliptic/elliprf.h", "phytorch-extensions/elliptic/elliptic.h:ellipr_iter", "phytorch-extensions/elliptic/elliprc.h"]}
{"id": "C33", "title": "Carlson functions are symmetric and homogeneous", "statement": "elliprf is unchanged under permutations of its arguments, elliprd under exchange of the first two, elliprj under permutations of the first three; scaling all arguments by k>0 scales elliprc and elliprf by k^(-1/2), elliprd and elliprj by k^(-3/2) and elliprg by k^(1/2); special outcomes (inf, nan) are kept.", "quantifier": "all complex arguments, all k > 0", "why_tests_cant": "continuum of arguments; number of loop passes is unbounded", "anchors": ["phytorch-extensions/elliptic/elliprf.h", "phytorch-extensions/elliptic/elliprc.h", "phytorch-extensions/elliptic/elliprd.h", "phytorch-extensions/elliptic/elliprg.h", "phytorch-extensions/elliptic/elliprj.h"]}
{"id": "C34", "title": "Series variables of the duplication loops", "statement": "After any number n of duplication steps, the reduced variables the routines compute from the initial arguments, (A_0-x)/(4^n A_n), are the relative distances of the current arguments from their current mean, and the polynomials evaluated are Carlson's truncated series in the elementary symmetric functions of those variables.", "quantifier": "all step counts, all complex arguments", "why_tests_cant": "unbounded loop count", "anchors": ["phytorch-extensions/elliptic/elliptic.h", "phytorch-extensions/elliptic/elliprf.h", "phytorch-extensions/elliptic/elliprd.h", "phytorch-extensions/elliptic/elliprj.h", "phytorch-extensions/elliptic/elliprc.h"]}
{"id": "C35", "title": "Carlson routines return a number", "statement": "For complex arguments with positive real part the routines elliprc, elliprf, elliprd, elliprg and elliprj stop and return a finite number; elliprc and elliprf do so for all complex arguments off the negative real axis, at most one of them (the first, for elliprc) being zero. (False of elliprj: when p equals one of x, y, z and a duplication step is taken, atan(0)/0 makes the result NaN, e.g. R_J(1,2,3,2); proved to be the only exception.)", "quantifier": "all complex arguments with positive real part, every precision", "why_tests_cant": "termination and absence of NaN over a continuum", "anchors": ["phytorch-extensions/elliptic/elliprj.h", "phytorch-extensions/elliptic/elliprd.h", "phytorch-extensions/elliptic/elliprf.h", "phytorch-extensions/elliptic/elliprg.h", "phytorch-extensions/elliptic/elliprc.h"]}
{"id": "C36", "title": "Gradient bookkeeping for symmetric integrals", "statement": "For a symmetric function whose class gives the derivative in its last argument (elliprf, elliprg), the i-th gradient returned is the derivative in the i-th argument for every subset of inputs that need gradients, and None for the others.", "quantifier": "all numbers of arguments, all subsets of inputs requiring grad, all symmetric functions", "why_tests_cant": "all subsets and arities", "anchors": ["phytorch/special/ellipr.py:SymmetricElliprMixin._backward"]}
{"id": "C37", "title": "EllipticReduction.Im is the integral", "statement": "In exact arithmetic, EllipticReduction(x, y, a, h).Im(m) = integral from y to x of prod (a_i+t)^(m_i - [i<=h]/2) dt (principal powers) for every list of integer exponents m, of any sign and size, any number of factors and either order of the limits: (i) for any distinct complex a_i off the cut, whenever its basic integrals (one exponent in -1, 0, 1) are right; (ii) for h = 3, with distinct a_i, the first three closed under conjugation and the others real; (iii) for h = 4 with distinct real a_i, where the last argument of each R_J call is positive.", "quantifier": "all x, y, a, m as described; no bound on the number of factors or the exponents", "why_tests_cant": "the recursion reduces arbitrary exponents by recurrences, partial fractions and binomial expansions; the result is an integral over a continuum", "anchors": ["phytorch/special/elliptic_reduction/core.py: EllipticReduction.Im, Iqe, Ie, U2, U2nu, S2, Q2, P2, A, I, vx, vy"]}
{"id": "C38", "title": "E(0)=1", "statement": "E(0)=1 and H(0)=H0 for every LambdaCDM, wCDM, w0waCDM and wpwaCDM cosmology with or without radiation and for FlatLambdaCDM(R), however it was constructed and whatever attributes were assigned since.", "quantifier": "all constructor arguments and all histories of attribute assignments", "why_tests_cant": "continuum of parameters", "anchors": ["phytorch/cosmology/core.py", "phytorch/cosmology/special/decdm.py"]}
{"id": "C39", "title": "E(0)=1 for w0wzCDM", "statement": "E(0)=1 for w0wzCDM. (False of the code: the exponential factor at z=0 is exp(-6 wz), so it holds exactly when wz = 0 or there is no dark energy.)", "quantifier": "all parameter values", "why_tests_cant": "continuum", "anchors": ["phytorch/cosmology/special/decdm.py"]}
{"id": "C40", "title": "Dark-energy density obeys the continuity equation", "statement": "The dark-energy density scale f of each class satisfies f(0)=1 and d ln f/d ln(1+z) = 3(1+w(z)) with the class's own w(z). (False of the code for w0wzCDM, whose exponential has the wrong sign.)", "quantifier": "all z > -1 and parameters", "why_tests_cant": "continuum", "anchors": ["phytorch/cosmology/special/decdm.py"]}
{"id": "C41", "title": "Density fractions sum to one", "statement": "Om(z)+Ode(z)+Ok(z)(+Or(z)) = 1 at every redshift.", "quantifier": "all z, parameters", "why_tests_cant": "continuum", "anchors": ["phytorch/cosmology/core.py"]}
{"id": "C42", "title": "Flat models are flat", "statement": "Classes named Flat* have zero curvature at every redshift and never transform distances. For FlatLambdaCDM(R), after any history of assignments, setting Ode0 makes it read back, sets Om0 to the rest and keeps E(0)=1. For the other Flat* classes E^2(0) is the sum of the densities given, which need not be 1 (a witness is exhibited). A curved cosmology whose Ode0 was never set ends in a recursion error.", "quantifier": "all classes, all assignment histories, all z, every recursion limit", "why_tests_cant": "histories", "anchors": ["phytorch/cosmology/special/flat.py"]}
{"id": "C43", "title": "Tcmb0 round trip", "statement": "On a class with radiation (H0 != 0, 1+Neff*nu != 0): assigning Tcmb0 >= 0 and reading it returns it, and Or0 is then (1+Neff nu) a T^4/rho_crit; assigning Tcmb0 its own value (non-negative photon density) changes nothing; a Tcmb0 passed to the constructor with any other parameters, in any order, reads back.", "quantifier": "all cosmologies with radiation, all temperatures >= 0, all constructor calls", "why_tests_cant": "continuum", "anchors": ["phytorch/cosmology/core.py"]}
{"id": "C44", "title": "Default age depends on redshift", "statement": "The age at z of a cosmology whose driver provides only the lookback time is lookback(inf)-lookback(z); with a driver that provides only the age, the lookback time is age(0)-age(z). (The first half is false of the code: the default age ignores z, so it holds exactly where lookback(z)=0.) A driver that provides neither ends in a recursion error.", "quantifier": "all drivers, all z, every recursion limit", "why_tests_cant": "continuum", "anchors": ["phytorch/cosmology/drivers/abstract.py", "phytorch/cosmology/core.py"]}
{"id": "C45", "title": "Comoving distance is additive", "statement": "D(z1,z2)+D(z2,z3)=D(z1,z3), D(z,z)=0.", "quantifier": "all z", "why_tests_cant": "continuum", "anchors": ["phytorch/cosmology/core.py"]}
{"id": "C46", "title": "Distance duality", "statement": "luminosity distance=(1+z)^2 angular diameter distance=(1+z) transverse distance; distmod=5log10(D_L/10pc).", "quantifier": "all z", "why_tests_cant": "continuum", "anchors": ["phytorch/cosmology/core.py"]}
{"id": "C47", "title": "Curvature transform", "statement": "The transverse distance is sinh/identity/sin of comoving distance by sign of curvature, continuous at zero curvature, odd in distance; comoving volume has derivative 4 pi D_M^2.", "quantifier": "all curvatures", "why_tests_cant": "branch boundary", "anchors": ["phytorch/cosmology/core.py"]}
{"id": "C48", "title": "Analytic polynomial factorisation", "statement": "E^2 equals leading coefficient times the product of (z - root) over computed roots.", "quantifier": "all parameters", "why_tests_cant": "continuum", "anchors": ["phytorch/cosmology/drivers/_analytic_base.py"]}
{"id": "C49", "title": "Ragged sizes are consistent", "statement": "Sizes at each level sum to the number at the next; last level sums to data length.", "quantifier": "all nestings", "why_tests_cant": "unbounded", "anchors": ["phytorch/ragged/__init__.py"]}
{"id": "C50", "title": "Ragged broadcasting has the right length", "statement": "broadcast_to yields data of the target size repeating each entry for its group.", "quantifier": "all nestings", "why_tests_cant": "unbounded", "anchors": ["phytorch/ragged/__init__.py"]}
{"id": "C51", "title": "Grid projection brackets the query", "statement": "For a sorted grid of at least two points and any query x the index used to interpolate selects an interval [g_i, g_{i+1}) containing x (the last one closed on the right); a query below the grid selects the first interval and one above the last; on increasing grids the interval is unique.", "quantifier": "all sorted grids of any length, all real x", "why_tests_cant": "unbounded grid length and a continuum of queries", "anchors": ["phytorch/interpolate/abc.py:AbstractBatchedInterpolator.project_one"]}
{"id": "C52", "title": "1-D linear interpolation", "statement": "Linear1dInterpolator is exact at every knot, reproduces affine functions everywhere (also outside the grid), lies between the neighbouring values inside an interval, is monotone if the data is, continuous, and `derivative` is its derivative away from the knots.", "quantifier": "all strictly increasing grids, all data, all x", "why_tests_cant": "unbounded grid length, continuum", "anchors": ["phytorch/interpolate/Linear1dInterpolator.py:Linear1dInterpolator"]}
{"id": "C53", "title": "N-D interpolation weights", "statement": "For a query within the grid the 2^N weights of LinearNDGridInterpolator are nonnegative, sum to 1 and multiply grid values; it is exact at grid points, reproduces every multilinear function, and for any query stays within the range of the data.", "quantifier": "all N, grid sizes, data and queries", "why_tests_cant": "unbounded dimension and grid sizes", "anchors": ["phytorch/interpolate/LinearNDGridInterpolator.py:LinearNDGridInterpolator"]}
{"id": "C54", "title": "N-D extrapolation", "statement": "Within the grid the N-D interpolator agrees with multilinear functions and (in one dimension) with Linear1dInterpolator; outside the grid it does not continue linearly, because the weights are taken in absolute value: in one dimension it agrees with the linear interpolator exactly when the query is in range or the two end values used are equal.", "quantifier": "all grids, data and x", "why_tests_cant": "continuum; the failing region is outside the tested one", "anchors": ["phytorch/interpolate/LinearNDGridInterpolator.py:LinearNDGridInterpolator.__call__"]}
{"id": "C55", "title": "merge_grids", "statement": "Merging two sorted unbatched grids always succeeds, yields a sorted grid with the entries of both (with multiplicity), and two complementary masks that select the two inputs in order; an unsorted right grid can make it fail.", "quantifier": "all pairs of sorted grids", "why_tests_cant": "unbounded lengths, ties", "anchors": ["phytorch/interpolate/Linear1dInterpolator.py:merge_grids"]}
{"id": "C56", "title": "Cubic splines interpolate and are C2", "statement": "For strictly increasing knots the linear system of the cubic spline has exactly one solution; the evaluated spline passes through all data, is twice continuously differentiable on the real line and has zero second derivative at both end knots.", "quantifier": "all knots, data and queries", "why_tests_cant": "unbounded number of knots, continuum", "anchors": ["phytorch/interpolate/splines.py:Spline"]}
{"id": "C57", "title": "Which spline degrees work", "statement": "The spline system has as many equations as unknowns exactly for degree 1 and 3, and each row has one entry per unknown.", "quantifier": "all numbers of knots, all degrees", "why_tests_cant": "unbounded", "anchors": ["phytorch/interpolate/splines.py:Spline"]}
{"id": "C58", "title": "Gradient alignment", "statement": "backward returns one entry per input: None exactly for inputs that need no gradient (or have no gradient function), otherwise gradient function i at the saved tensors (conjugated for complex functions) times the sum of the incoming gradients; all None if no gradient arrives; the same for functions differentiated through an alternative implementation. A class whose number of inputs is unknown never returns.", "quantifier": "all arities, subsets, gradient functions and incoming gradients", "why_tests_cant": "all subsets and arities", "anchors": ["phytorch/utils/function_context.py:TorchFunction.backward,_backward", "phytorch/utils/function_context.py:AlternativeForwardMixin._backward"]}
{"id": "C59", "title": "Inverse-function gradients", "statement": "If G inverts F in its k-th variable near a point, is continuous there, and F is differentiable with nonvanishing k-th partial derivative and correct gradient functions, then G is differentiable and the gradients returned by the inverse class are its partial derivatives, for every subset of inputs.", "quantifier": "all functions, arities, inverted variables, points and subsets of inputs", "why_tests_cant": "all functions", "anchors": ["phytorch/utils/function_context.py:InverseMixin"]}
{"id": "C60", "title": "Truncation of hypergeometric sums", "statement": "In exact arithmetic the extension's hypergeometric sum returns s exactly when some term of the series with index 1 <= N <= maxterms is below eps in modulus, and then s is the sum of the terms up to the first such N; otherwise it is NaN. If p <= q, or p = q+1 and |z| < 1, and no lower parameter is a non-positive integer, the series converges and for a large enough maxterms the function returns a value; the value is within eps rho/(1-rho) of the series if the terms after the cut decrease by the factor rho. (The rule is not sound in general: for every eps and M there is a 1F1 whose returned value is off by more than M.)", "quantifier": "all parameter lists, all complex z, all eps and term limits", "why_tests_cant": "the parameters, the argument and the number of terms are unbounded", "anchors": ["phytorch-extensions/special/hyper.h: hypsum, hyper"]}
{"id": "C61", "title": "Inverse incomplete gamma functions", "statement": "gammaincinv(a,p) is the x with P(a,x)=p, and gammainccinv(a,q) the x with Q(a,x)=q, to near machine precision; both are NaN outside a>=0, 0<=p<=1, end points map to 0 and infinity; the two call each other at most once; gammaincinv(a,p) = gammainccinv(a,1-p). (False of the code: the test on the second derivative is inverted, so the refinement is plain Newton and not Halley; at a=1/10, q=1/(10 Gamma(1/10)) the returned value has an upper tail more than 5e-6 q above q. What holds: the starting value for a > 1 is on the right side of the median; the domain and the end points; the recursion depth; the complement identity exactly for p outside [0.1,0.9] and for every p when a>20, a != 200; at a=1 the result is -log(1-p) to a relative 1e-12+4000 eps; for a<=1 the result never overshoots, P(a,y) <= p+1e-12+100 eps unless the density underflows at y.)", "quantifier": "all a, p, all tables of the asymptotic expansion, machine epsilons from 2^-52", "why_tests_cant": "a continuum of arguments; the result is compared with the exact integral", "anchors": ["phytorch-extensions/special/gammaincinv.h: gammaincinv, gammainccinv, find_inverse_gamma"]}
{"id": "C62", "title": "Elementary symmetric polynomials", "statement": "elementary_symmetric(p, xs) is the sum of products over all p-subsets for every p>=1, independent of the order of xs; p=0 raises TypeError.", "quantifier": "all n, xs", "why_tests_cant": "unbounded", "anchors": ["phytorch/utils/symmetry.py"]}
{"id": "C63", "title": "Distributions on a grid", "statement": "For nonnegative grid probabilities with nonvanishing marginals the tabulated (conditional) cumulative probabilities of a dimension are the normalised trapezoidal sums, with unit steps whatever the grid, of the probabilities summed over the earlier dimensions; they start at 0, end at 1 and are nondecreasing. In two or more dimensions icdf of uniforms in [0,1) succeeds, stays within the grids and, dimension by dimension (the first uniform belonging to the last dimension), inverts the cumulative distribution interpolated at the later coordinates. In one dimension icdf always raises ValueError.", "quantifier": "all dimensions >= 2, grids, probabilities, uniforms", "why_tests_cant": "unbounded dimension, continuum", "anchors": ["phytorch/distributions/__init__.py:NDIDistribution"]}
{"id": "C64", "title": "Module parameter routing", "statement": "CosmologyModule forward passes each keyword either to the cosmology's parameters or to the method, never both or neither; a call that passes every independent parameter forgets earlier state; with derived parameters (Tcmb0) the order of the keywords matters.", "quantifier": "all kwargs", "why_tests_cant": "all subsets", "anchors": ["phytorch/cosmology/module.py"]}
{"id": "C65", "title": "`u != v` is the negation of `u == v`", "statement": "For all units u, v: u != v is True exactly when u == v is False. (False of the code: Unit defines __eq__ but inherits dict.__ne__, which compares exponents only, so two units of equal dimension and different value, like km and m, are neither == nor !=. What holds: u != v is True iff some exponent differs, so u != v implies not u == v.)", "quantifier": "all pairs of units, all values and exponent maps", "why_tests_cant": "the domain of units is infinite; the discrepancy only shows for pairs with equal dimension and unequal value", "anchors": ["phytorch/units/unit.py: Unit.__eq__", "phytorch/units/unit.py: UnitBase"]}
{"id": "C66", "title": "register() can be chained", "statement": "AutoCleanupGlobalScope.register and register_many-style helpers always return the scope so calls can be chained. (False of the code: register returns None when ignore_if_exists is set and the name exists.) In every other case it returns the scope.", "quantifier": "all scopes, names, values and flags", "why_tests_cant": "depends on the whole registration history", "anchors": ["phytorch/utils/scoping.py: AutoCleanupGlobalScope.register"]}
{"id": "C67", "title": "SI names keep their meaning", "statement": "Every name that phytorch.units.si defines denotes one unit: no prefixed name is overwritten by a different unit, except `A` (abbreviation of both ampere and angstrom, ends as the ampere) and the kilogram (ends as the base unit).", "quantifier": "all prefix/unit/abbreviation combinations registered by the module", "why_tests_cant": "thousands of generated names; a collision is silent", "anchors": ["phytorch/units/si.py", "phytorch/units/_si/prefixed.py"]}
{"id": "C68", "title": "In-place operations respect units", "statement": "In-place operations on quantities (a += b, a.mul_(b), a.clamp_(...)) either account for the units of all operands or raise. (False of the code: they are missing from the dispatch table and combine the stored numbers, keeping the first unit; functions outside the table are unit-correct only when they are linear in a single tensor argument.)", "quantifier": "all in-place torch functions, values and units", "why_tests_cant": "The claim ranges over every unit and value and every function name not in a table; a test checks one pair.", "anchors": ["phytorch/quantities/tensor_quantity.py:__torch_function__", "phytorch/quantities/dimspec.py:default_dimspec,_dimspecs,BasicDimSpec"]}
{"id": "C69", "title": "Integer quantities lose their unit", "statement": "Every function of the same-unit family (maximum, minimum, hypot, clamp, ...) applied to integer quantities in one unit returns a bare tensor stripped of the unit, although the result is not dimensionless: integer quantities lose their unit.", "quantifier": "all integer tensors and units", "why_tests_cant": "Must hold for every value, unit and function.", "anchors": ["phytorch/quantities/dimspec.py:BasePostprocessor.filter_only_float_tensors,process"]}
{"id": "C70", "title": "histc with the default range rejects every dimensionful quantity", "statement": "torch.histc(q) with the default range min=max=0 raises UnitError for every quantity q with a dimension, whatever its values: the defaults are bare numbers.", "quantifier": "all quantities", "why_tests_cant": "Must hold for every unit and tensor.", "anchors": ["phytorch/quantities/dimspec.py:_dimspecs.histc", "phytorch/quantities/tensor_quantity.py:__torch_function__"]}
{"id": "C71", "title": "isclose/allclose do not depend on the units chosen", "statement": "torch.isclose(a, b) and allclose give the same answer whichever compatible units a and b are expressed in. (False of the code with atol != 0, which is compared with the number stored in the unit of a; holds with atol = 0.)", "quantifier": "all quantities, compatible units and tolerances", "why_tests_cant": "Must hold for every pair of units and values.", "anchors": ["phytorch/quantities/dimspec.py:_dimspecs.isclose"]}
{"id": "C72", "title": "Cosmology construction is total and order-free", "statement": "Constructing a cosmology succeeds exactly when every keyword is one of the class's parameters, Om0 is given, and Ode0 is given (unless the class is FlatLambdaCDM(R)); the result does not depend on the order of the keywords.", "quantifier": "all classes, all sets and orders of keywords", "why_tests_cant": "every subset and permutation of keywords for 20 classes", "anchors": ["phytorch/cosmology/core.py:_set_params", "phytorch/cosmology/core.py:__init_subclass__"]}
{"id": "C73", "title": "Parameters of a cosmology reproduce it", "statement": "The `parameters` of any cosmology, passed back to the constructor, give a cosmology with the same parameter values and the same E(z) at every z; the mapping also contains derived parameters such as Tcmb0 (its filter removes nothing).", "quantifier": "all reachable cosmologies with physical radiation density, all z", "why_tests_cant": "histories and continuum", "anchors": ["phytorch/cosmology/core.py:parameters"]}
{"id": "C74", "title": "Closed-form age of FlatLambdaCDM", "statement": "The age of FlatLambdaCDM at z is the integral of 1/((1+z')E(z')) from z to infinity with the class's own E, and the derived lookback time is the integral from 0 to z.", "quantifier": "all 0<Om0<1, z>-1", "why_tests_cant": "continuum; improper integral", "anchors": ["phytorch/cosmology/special/flat.py:age_dimless"]}
{"id": "C75", "title": "Componentwise densities", "statement": "Each component's density law agrees with its equation of state and with the corresponding dark-energy class; E^2(0) is the sum of the densities; Omega(z, components) gives the fractions, summing to one. (False of the code for Omega: it omits O0 and returns a number or an iterable the wrong way round.)", "quantifier": "all component lists, all z", "why_tests_cant": "all lists of components", "anchors": ["phytorch/cosmology/components.py"]}
{"id": "C76", "title": "Spline weights", "statement": "The weights computed for a query, applied to the data, give the evaluated spline; they sum to 1, reproduce affine functions, and at a knot pick that knot's value; column j of the operator A behind them holds the coefficients of the spline through the data 1 at knot j and 0 at the others.", "quantifier": "all knots, data, queries", "why_tests_cant": "continuum, unbounded number of knots", "anchors": ["phytorch/interpolate/splines.py:Spline"]}
{"id": "C77", "title": "N-D splines", "statement": "SplineNd passes through the data at every grid point and reproduces multilinear functions at every query, in any number of dimensions.", "quantifier": "all dimensions, knots, data, queries", "why_tests_cant": "unbounded dimension", "anchors": ["phytorch/interpolate/splines.py:SplineNd"]}
{"id": "C78", "title": "Gradient functions are paired with inputs", "statement": "Collecting gradient functions over the class hierarchy keeps the order of the base class and replaces overridden functions; every function class of the package ends up with one gradient function per input in the order of the inputs, and with the right number of inputs. An explicit list is kept, unless a base class collected its list automatically: then it is ignored.", "quantifier": "all class hierarchies; all function classes of the package", "why_tests_cant": "must hold for every hierarchy; a permutation is only visible in gradients", "anchors": ["phytorch/utils/function_context.py:TorchFunction.__init_subclass__", "phytorch/special/ellip.py:EllipPiinc._update_gradfuncs"]}
{"id": "C79", "title": "elliprd computes R_D", "statement": "For real non-negative x, y, z with at most one zero and z>0, the exact-arithmetic value of `elliprd(x,y,z)` differs from R_D(x,y,z) = 3/2 int_0^inf dt/(sqrt((t+x)(t+y)(t+z))(t+z)) by a relative error of at most 4e-6 machine epsilons; for z=0 or x=y=0 the result is infinity.", "quantifier": "all real non-negative arguments, every precision 0<eps<=1", "why_tests_cant": "accuracy over a continuum", "anchors": ["phytorch-extensions/elliptic/elliprd.h", "phytorch-extensions/elliptic/elliptic.h"]}
{"id": "C80", "title": "elliprj computes R_J", "statement": "For real non-negative x, y, z with at most one zero and p>0 the value of `elliprj(x,y,z,p)` in exact arithmetic differs from R_J(x,y,z,p) = 3/2 int_0^inf dt/(sqrt((t+x)(t+y)(t+z))(t+p)) by a relative error of at most 4000 machine epsilons. (False of the code when p equals x, y or z, see C35; proved for all other p.)", "quantifier": "all real non-negative arguments, p>0, every precision eps<=2^-20", "why_tests_cant": "accuracy over a continuum", "anchors": ["phytorch-extensions/elliptic/elliprj.h"]}
{"id": "C81", "title": "elliprc computes R_C", "statement": "For real x>=0, y>0 the exact-arithmetic value of `elliprc(x,y)` differs from R_C(x,y) (arctan / logarithm closed forms) by a relative error of at most 1e-6 machine epsilons; for y<0 it is the Cauchy principal value sqrt(x/(x-y)) R_C(x-y,-y) with the same accuracy.", "quantifier": "all real x>=0 and y != 0, every precision 0<eps<=1", "why_tests_cant": "accuracy over a continuum", "anchors": ["phytorch-extensions/elliptic/elliprc.h"]}
{"id": "C82", "title": "elliprg computes R_G", "statement": "For real x,y>=0 not both zero and z>0, the exact-arithmetic value of `elliprg(x,y,z)` differs from R_G(x,y,z) = 1/4 int_0^inf t/sqrt((t+x)(t+y)(t+z)) (x/(t+x)+y/(t+y)+z/(t+z)) dt by at most 1e-6 machine epsilons times z R_F + 2/3 |(x-z)(y-z)| R_D; the relative error is at most 4e-6 epsilons when z lies between x and y. With z=0 the same holds with the roles of x and z exchanged, with two or three zeros the value is exact.", "quantifier": "all real non-negative arguments, every precision 0<eps<=1", "why_tests_cant": "accuracy over a continuum of arguments", "anchors": ["phytorch-extensions/elliptic/elliprg.h"]}
{"id": "C83", "title": "Gradients of elliprf and elliprg are the partial derivatives", "statement": "Back-propagating through `elliprf(x,y,z)` or `elliprg(x,y,z)` yields, for each positive argument that requires a gradient, the partial derivative of R_F or R_G with respect to that argument (with the other arguments in whatever order), and nothing for the arguments that do not. For complex arguments off the cut (-inf, 0] the gradients of elliprf give the derivative along every path of the arguments.", "quantifier": "all real non-negative arguments with at most one zero, every combination of requires_grad flags; all complex arguments off the cut for elliprf", "why_tests_cant": "a gradient check samples points; an argument permutation or a wrong coefficient is only excluded for all inputs by calculus", "anchors": ["phytorch/special/ellipr.py:SymmetricElliprMixin", "phytorch/special/ellipr.py:Elliprf", "phytorch/special/ellipr.py:Elliprg"]}
{"id": "C84", "title": "Gradients of elliprc", "statement": "For positive x, y that are equal or at least the threshold (1e-9, or 1e-4 when the default dtype is float) apart, the gradients of `elliprc(x,y)` are the partial derivatives of R_C. The threshold is an absolute number: for distinct arguments closer than it, however small they are, the x-gradient is not the derivative, and its error is at most 1/6 (min(x,y)^(-3/2) - max(x,y)^(-3/2)). With devil_may_care the general formula is used and is right for all distinct arguments. For complex arguments off the cut (-inf, 0], equal or at least the threshold apart, the gradients give the derivative along every path of the arguments.", "quantifier": "all positive x, y and every threshold; all complex arguments off the cut, all paths through them", "why_tests_cant": "the failing region is a thin strip around x=y (but all of it for tiny arguments)", "anchors": ["phytorch/special/ellipr.py:Elliprc", "phytorch/special/ellipr.py:feq"]}
{"id": "C85", "title": "Gradients of elliprd", "statement": "The gradients of `elliprd(x,y,z)` are the partial derivatives of R_D in each of the branches (all distinct; one or two arguments equal to z; all equal), provided arguments are equal or at least the threshold apart. For complex arguments off the cut (-inf, 0], with x and y each equal to z or at least the threshold from it, the gradients give the derivative along every path of the arguments.", "quantifier": "all real x,y>=0 not both zero, z>0; all complex arguments off the cut, all paths through them", "why_tests_cant": "four formulas selected by equality of real arguments; sampling misses the equality branches", "anchors": ["phytorch/special/ellipr.py:Elliprd"]}
{"id": "C86", "title": "Gradients of elliprj", "statement": "The gradients of `elliprj(x,y,z,p)` with respect to x, y, z and p are the partial derivatives of R_J in each of the branches chosen by coincidences among the arguments, provided arguments are equal or at least the threshold apart. For complex arguments off the cut (-inf, 0], with x, y and z each equal to p or at least the threshold from it, the gradients give the derivative along every path of the arguments.", "quantifier": "all real x,y,z>=0 with at most one zero, p>0; all complex arguments off the cut, all paths through them", "why_tests_cant": "thirteen formulas selected by equality of real arguments", "anchors": ["phytorch/special/ellipr.py:Elliprj"]}
{"id": "C87", "title": "Legendre routines compute Legendre integrals", "statement": "For phi in (0, pi/2] and a parameter m with m*sin(phi)^2 < 1, ellipkinc, ellipdinc and ellipeinc return the defining integrals F, D and E over theta from 0 to phi up to a stated relative error fixed by the Carlson iteration tolerance, and ellipk, ellipd, ellipe return the complete ones; ellippiinc and ellippi do the same for characteristics n with n*sin(phi)^2 < 1. (False of the code for Pi at two characteristics: n = m at the complete integral or where c-n hits a Carlson argument, elliprj divides by zero; proved with those values excluded.)", "quantifier": "all real phi in (0, pi/2], all m and n with the integrals convergent, all iteration tolerances in (0,1]", "why_tests_cant": "The claim ranges over a continuum of amplitudes, parameters and characteristics; it needs the change of variables and the convergence of the duplication algorithm, not sample values.", "anchors": ["phytorch/special/ellip.py: ellipk, ellipe, ellipd, ellippi, ellipkinc, ellipeinc, ellipdinc, ellippiinc", "phytorch-extensions/elliptic/ellip.h"]}
{"id": "C88", "title": "Amplitudes outside (0, pi/2]", "statement": "The incomplete Legendre integrals depend on phi only through 1/sin(phi)^2: for every complex phi, m, n the values at -phi and at phi+pi equal the value at phi. Hence for negative real phi the result has the wrong sign: it differs from the (odd) Legendre integral by at least 1.9 times its size.", "quantifier": "all complex phi, m, n and all tolerances; the second part all phi in (0, pi/2] with m*sin(phi)^2 < 1", "why_tests_cant": "Quasi-periodicity is a statement about all amplitudes.", "anchors": ["phytorch/special/ellip.py: ellipkinc, ellipeinc, ellipdinc, ellippiinc", "phytorch-extensions/elliptic/ellip.h: csc2"]}
{"id": "C89", "title": "Gradients of the complete Legendre integrals", "statement": "The gradient formulas attached to ellipk, ellipe, ellipd and ellippi are the derivatives of the Legendre integrals: for every m < 1, including the special value m = 0, the m-gradients of K, E and D; for n < 1 with n different from m the m-gradient of Pi; for n < 1 with n different from m and from 0 the n-gradient of Pi. (At n = 0 and n = m, where the derivative exists, the formulas divide by zero.)", "quantifier": "all real m < 1, n < 1", "why_tests_cant": "A derivative identity over a continuum of parameters; finite differences only sample it.", "anchors": ["phytorch/special/ellip.py: EllipK.grad_m, EllipE.grad_m, EllipD.grad_m, EllipPi.grad_n, EllipPi.grad_m"]}
{"id": "C90", "title": "Gradients of the incomplete Legendre integrals", "statement": "For 0 < phi <= pi/2 and m*sin(phi)^2 < 1 the m-gradients attached to ellipkinc and ellipdinc (m != 1) and ellipeinc, and, for n*sin(phi)^2 < 1, the m-gradient (m != 1, n != m) and n-gradient (n not 0, 1, m) of ellippiinc are the derivatives of the Legendre integrals, m = 0 included; for phi < pi/2 the product of the gradient in csc(phi)^2 and the gradient of csc^2 is the derivative in phi of all four; at phi = 0 all m- and n-gradients are 0, as they should be. (At the excluded values the formulas divide by zero although the derivative exists.)", "quantifier": "all real phi in [0, pi/2], m, n as stated", "why_tests_cant": "A derivative identity over a continuum of parameters.", "anchors": ["phytorch/special/ellip.py: BaseEllipinc, EllipKinc, EllipEinc, EllipDinc, EllipPiinc, CosecantSquared"]}
{"id": "C91", "title": "Analytic comoving distance", "statement": "For the analytic LambdaCDM and FlatLambdaCDM drivers with Om0>0 and E^2>0 at all redshifts from the lower limit on, the comoving distance between z1 and z2 (in either order) equals the integral of 1/E over the redshift between them, E being the cosmology's own Hubble function, whatever the order in which the root finder returns the roots, real or complex. (In exact arithmetic, the Carlson routines standing for their integrals.)", "quantifier": "all parameters, all pairs of redshifts, all root orders", "why_tests_cant": "continuum of parameters; branch cuts of the complex square roots", "anchors": ["phytorch/cosmology/drivers/analytic.py:LambdaCDM", "phytorch/cosmology/drivers/_analytic_base.py:BaseAnalyticLambdaCDM"]}
{"id": "C92", "title": "Analytic lookback time", "statement": "For the analytic LambdaCDM and FlatLambdaCDM drivers with Om0>0 and E^2>0 at all redshifts from the lower limit on, the lookback time equals the integral of 1/((1+z)E) from 0 to z for every z>-1, whatever the order in which the root finder returns the roots, real or complex. (In exact arithmetic, the Carlson routines standing for their integrals.)", "quantifier": "all parameters, all redshifts, all root orders", "why_tests_cant": "continuum of parameters; branch cuts", "anchors": ["phytorch/cosmology/drivers/analytic.py:LambdaCDM", "phytorch/cosmology/drivers/_analytic_base.py:BaseAnalyticLambdaCDM"]}
{"id": "C93", "title": "Analytic absorption distance", "statement": "For the analytic LambdaCDM and FlatLambdaCDM drivers with Om0>0 and E^2>0 at all redshifts from the lower limit on, the absorption distance equals the integral of (1+z)^2/E from 0 to z for every z other than 0 (where the code divides 0 by 0), whatever the order in which the root finder returns the roots, real or complex. (In exact arithmetic, the Carlson routines standing for their integrals.)", "quantifier": "all parameters, all redshifts, all root orders", "why_tests_cant": "continuum of parameters; branch cuts", "anchors": ["phytorch/cosmology/drivers/analytic.py:LambdaCDM", "phytorch/cosmology/drivers/_analytic_base.py:BaseAnalyticLambdaCDM"]}
{"id": "C94", "title": "Analytic comoving distance with radiation", "statement": "For the analytic LambdaCDMR and FlatLambdaCDMR drivers with Om0>0, Or0>0 and E^2>0 at all redshifts from the lower limit on, the comoving distance between z1 and z2 (not below -1, in either order) equals the integral of 1/E over the redshift between them, E being the cosmology's own Hubble function, whatever the order in which the root finder returns the four roots, real or complex. (In exact arithmetic, the Carlson routines standing for their integrals.)", "quantifier": "all parameters, all pairs of redshifts, all root orders", "why_tests_cant": "continuum of parameters; branch cuts of the complex square roots", "anchors": ["phytorch/cosmology/drivers/analytic.py:LambdaCDMR", "phytorch/cosmology/drivers/_analytic_base.py:BaseAnalyticLambdaCDMR"]}
{"id": "C95", "title": "Analytic lookback time with radiation", "statement": "For the analytic LambdaCDMR and FlatLambdaCDMR drivers with Om0>0, Or0>0 and E^2>0 at all redshifts from the lower limit on, the lookback time equals the integral of 1/((1+z)E) from 0 to z for every z>-1, whatever the order in which the root finder returns the four roots. (False of the code: the formula singles out the last root. It is right if that root r is real, not -1, with Ode0 <= Or0 ((1+r)(1+min(0,z)))^2, or not real with real part <= min(0,z) and Ode0 (1+Re r) >= 0; if it is not real and has a positive real part, the result is below the integral at every small enough z>0.) (In exact arithmetic, the Carlson routines standing for their integrals.)", "quantifier": "all parameters, all redshifts, all root orders", "why_tests_cant": "continuum of parameters; branch cuts; depends on the order of the roots", "anchors": ["phytorch/cosmology/drivers/analytic.py:LambdaCDMR", "phytorch/cosmology/drivers/_analytic_base.py:BaseAnalyticLambdaCDMR"]}
{"id": "C96", "title": "Analytic absorption distance with radiation", "statement": "For the analytic LambdaCDMR and FlatLambdaCDMR drivers with Om0>0, Or0>0 and E^2>0 at all redshifts from the lower limit on, the absorption distance equals the integral of (1+z)^2/E from 0 to z for every z>=-1 other than 0, whatever the order in which the root finder returns the four roots. (False of the code: the formula singles out the last root. It is right if that root r is real with -r <= 2 + Om0/(2 Or0) + min(0,z), or not real with real part <= min(0,z); if it is not real, the result is below the integral at every 0<z<=Re r.) (In exact arithmetic, the Carlson routines standing for their integrals.)", "quantifier": "all parameters, all redshifts, all root orders", "why_tests_cant": "continuum of parameters; branch cuts; depends on the order of the roots", "anchors": ["phytorch/cosmology/drivers/analytic.py:LambdaCDMR", "phytorch/cosmology/drivers/_analytic_base.py:BaseAnalyticLambdaCDMR"]}
{"id": "C97", "title": "gamma returns Euler's gamma function", "statement": "In exact arithmetic the extension's gamma(z) is NaN exactly when z is real, <= 0 and within 100 eps of an integer; everywhere else its value differs from Gamma(z) by at most 1e-13 |Gamma(z)|: the shift-up loop, the 1/(z(1+0.577z)) branch near poles, the Stirling sum and the reflection formula all agree to that accuracy.", "quantifier": "every complex z and every eps > 0", "why_tests_cant": "The error is a supremum over the complex plane, including arguments with arbitrarily large imaginary part; a test samples points.", "anchors": ["phytorch-extensions/special/gamma.h: stirling, gamma", "phytorch-extensions/common/complex.h: is_int, is_real_nonpositive"]}
{"id": "C98", "title": "loggamma returns the continuous branch of log Gamma", "statement": "In exact arithmetic the extension's loggamma(z) is NaN exactly at the (eps-)poles; elsewhere it differs from the branch of log Gamma given by Euler's limit (analytic off the negative axis; not log of Gamma) by at most 1e-14 for |z| <= 9.9e7 and 1e-8 for all z, also left of -14 where it reflects; and exp(loggamma(z)) is Gamma(z) to 2e-14 relative.", "quantifier": "every complex z and every eps > 0", "why_tests_cant": "The branch (multiple of 2 pi i) can be wrong on a region tests do not sample; the loop accumulates arguments over a number of steps that depends on z.", "anchors": ["phytorch-extensions/special/loggamma.h: loggamma"]}
{"id": "C99", "title": "The prefactor of the incomplete gamma functions", "statement": "In exact arithmetic (and with exact library lgamma, log, exp) the prefactor used by gammainc, gammaincc and their inverses is x^a e^-x / Gamma(a) to a relative 1e-14 for all a, x > 0, on both sides of the threshold |a-x| > 0.4a and in both forms of the Lanczos branch, or 0 when that quantity is below e^-709.78; 0 at x=0, NaN for x<0.", "quantifier": "all a, x > 0", "why_tests_cant": "the Lanczos sum is a rational approximation valid on an unbounded range; a test samples it", "anchors": ["phytorch-extensions/special/gammainc.h: igam_fac, _lanczos_sum_expg_scaled, log1pmx"]}
{"id": "C100", "title": "gammainc in its power series regime", "statement": "In exact arithmetic, for x <= 1 or x <= a, outside the band around x = a handled by the asymptotic expansion, the extension's gammainc(a, x) is the regularised lower incomplete gamma function to a relative 1e-14 + 100 eps for 1e-200 <= a <= 50000, except for an underflow to 0 when P(a,x) <= 1e-90; NaN for negative arguments or a=x=0, 0 at x=0, 1 at a=0. (The bounds on a are needed: at a=1e10, x=a-5 sqrt a the 2000 iterations are too few and the result is below P/2; at a=1e-310, x=1 the prefactor underflows and the result is 0 although P>1/2.)", "quantifier": "all such a, x and all eps in [2^-52, 1]", "why_tests_cant": "the number of iterations needed grows with a; the truncation error of an infinite series is compared with the exact integral for a continuum of arguments", "anchors": ["phytorch-extensions/special/gammainc.h: gammainc, igam_series"]}
{"id": "C101", "title": "gammaincc in its power series regimes", "statement": "In exact arithmetic, for x <= 1.1 or x < a, outside the band around x = a, the extension's gammaincc(a, x) is the regularised upper incomplete gamma function to an absolute 1e-14 + 100 eps for 1e-200 <= a <= 50000, and to a relative 60 eps where it sums the alternating series (x <= 0.5 and a <= -0.4/log x, or 0.5 < x <= 1.1 and a <= 1.1 x); NaN for negative arguments or a=x=0, 1 at x=0, 0 at a=0.", "quantifier": "all such a, x and all eps in [2^-52, 1]", "why_tests_cant": "continuum of arguments across five branches; alternating series with a relative stopping rule", "anchors": ["phytorch-extensions/special/gammainc.h: gammaincc, igam_series, igamc_series"]}
{"id": "C102", "title": "gammaincc by continued fraction", "statement": "In exact arithmetic, for x > 1.1 and x >= a, outside the band around x = a, with 0 < a <= 2000, the loop of the continued fraction ends by its own test within 2000 iterations and the extension's gammaincc(a, x) is Q(a,x) to a relative 2e-14 + 100 eps (or 0 when Q <= 1e-300); hence for x > 1, x > a gammainc(a,x) is P(a,x) to an absolute 2e-14 + 100 eps. For every a the stopping rule is sound: two convergents that agree to eps are within 83 eps of the limit. The rescaling of large numerators and denominators changes nothing.", "quantifier": "all such a, x and all eps in [2^-52, 1/100]", "why_tests_cant": "the number of iterations and the rate of convergence depend on a and x without bound", "anchors": ["phytorch-extensions/special/gammainc.h: gammaincc, igamc_continued_fraction"]}
{"id": "C103", "title": "gammainc + gammaincc = 1", "statement": "In exact arithmetic, for all a, x > 0, the extension's gammainc(a,x) + gammaincc(a,x) is exactly 1, also in the asymptotic regime and whatever the coefficient table there, except where the two are computed by unrelated expansions (alternating series with x <= 1 or x <= a, and x = a > 1.1 outside the asymptotic regime); there the sum is 1 to 3e-14 + 200 eps (1e-200 <= a <= 2000).", "quantifier": "all a, x > 0", "why_tests_cant": "continuum of arguments; the branch conditions of the two functions differ", "anchors": ["phytorch-extensions/special/gammainc.h: gammainc, gammaincc, asymptotic_series"]}
{"id": "C104", "title": "Distances of the differentiable LambdaCDM driver", "statement": "In exact arithmetic, for (Flat)LambdaCDM with Om0>0 and E^2>0 on the integration range, the driver of analytic_diff returns comoving_distance_dimless_z1z2 = integral of 1/E from z1 to z2, lookback_time_dimless = integral of 1/((1+z)E) from 0 to z and absorption_distance_dimless = integral of (1+z)^2/E from 0 to z, for any z>-1 (z=0 included), any order in which the root finder returns the roots, and repeated roots.", "quantifier": "all parameter values, redshifts and correct root finders", "why_tests_cant": "continuum; a general reduction of elliptic integrals is specialised to exponents -1, 0, 2", "anchors": ["phytorch/cosmology/drivers/analytic_diff.py: AnalyticFLRWDriver, LambdaCDM", "phytorch/special/elliptic_reduction/functional.py: elliptic_integral", "phytorch/cosmology/drivers/_analytic_base.py"]}
{"id": "C105", "title": "Gradients of elliptic_integral", "statement": "In exact arithmetic, the gradients that the backward pass of elliptic_integral returns for both limits and all coefficients obey the chain rule: if g is the gradient of a real loss with respect to the integral (PyTorch's convention for complex numbers), then along any differentiable path of limits and coefficients the derivative of the loss is the sum of Re(conj(gradient) d(input)/ds) - for h = 3 with distinct coefficients, the first three closed under conjugation along the path, the others real; for h = 4 with distinct real coefficients, where the last arguments of R_J are positive; for all exponents m.", "quantifier": "all paths, limits, coefficients, exponents and losses as described", "why_tests_cant": "differentiation under the integral sign over a continuum; the gradient is another elliptic integral with lowered exponent", "anchors": ["phytorch/special/elliptic_reduction/functional.py: EllipticIntegral.backward"]}
{"id": "C106", "title": "Distances of the differentiable LambdaCDMR driver", "statement": "In exact arithmetic, for (Flat)LambdaCDMR with Or0, Om0>0 and E^2>0 on the integration range, the driver of analytic_diff returns the integrals of 1/E, 1/((1+z)E) and (1+z)^2/E. (False of the code for the lookback time: it depends on the first root that the root finder returns; if that root is not real and right of 0, the lookback time falls short of the integral at all small redshifts. Comoving distance: always right.)", "quantifier": "all parameter values, redshifts and correct root finders", "why_tests_cant": "continuum; depends on the branch of R_J", "anchors": ["phytorch/cosmology/drivers/analytic_diff.py: AnalyticFLRWDriver, LambdaCDMR", "phytorch/special/elliptic_reduction/functional.py: elliptic_integral"]}
{"id": "C107", "title": "elliptic_integral depends on current values only", "statement": "Every call of elliptic_integral returns the integral for the values that its tensor arguments have at that time. (False of the code: results are cached by the identity of the tensors, forever: after any of the tensors - limits, complex coefficients - is modified in place, as an optimiser does, the same call returns the old result; after the returned tensor is modified in place, the same call returns the modified tensor.)", "quantifier": "all histories of calls, creations and in-place modifications", "why_tests_cant": "depends on the whole history of the process", "anchors": ["phytorch/special/elliptic_reduction/core.py: EllipticReduction (unsafe_hash), Im (cache)", "phytorch/special/elliptic_reduction/functional.py: elliptic_integral", "phytorch/utils/complex.py: to_complex"]}
{"id": "C108", "title": "digamma is the logarithmic derivative of the gamma function", "statement": "digamma(z) is NaN exactly when z is real, at most 0 and within 100 machine epsilons of an integer; everywhere else it returns Gamma'(z)/Gamma(z) with an absolute error of at most 1e-13, and at most 3e-15 for real z (exact arithmetic: this is the error of the truncated formula and the printed coefficients).", "quantifier": "all complex z", "why_tests_cant": "a continuum of inputs; the error of a rational approximation in an unbounded half plane is not settled by samples", "anchors": ["phytorch-extensions/special/digamma.h: digamma", "phytorch-extensions/special/gammahead.h: polygamma_g, polygamma_h, is_int", "phytorch/special/gamma.py: Digamma"]}
{"id": "C109", "title": "Gradients of gamma, loggamma and digamma", "statement": "Backward through gamma and loggamma multiplies the incoming gradient by the conjugate of the derivative (torch's convention): Gamma'(z) for gamma, Gamma'(z)/Gamma(z) for loggamma, with errors of order 1e-13 of the exact value (exact arithmetic), wherever the forward pass returns a number. Backward through digamma should give the trigamma function. (False of the code for digamma: the extension module defines no polygamma, so the gradient raises AttributeError for every z.)", "quantifier": "all complex z, all incoming gradients, all branches of the cut", "why_tests_cant": "a continuum of inputs; the derivative of a function defined by limits is not settled by finite differences", "anchors": ["phytorch/special/gamma.py: Gamma, Loggamma, Digamma, Polygamma", "phytorch-extensions/special/special.cpp: PYBIND11_MODULE", "phytorch/utils/function_context.py: CargsMixin.process_grad"]}
{"id": "C110", "title": "Gradients of gammainc, gammaincc, gammaincinv, gammainccinv", "statement": "The gradients with respect to both arguments are the partial derivatives of P(a,x), Q(a,x) and of their inverse functions, for every subset of inputs that needs one. (False of the code: the formula is right where Tgamma(3,a,x) is exact, but the gradient of gammainc with respect to a that is actually returned has an unbounded error as x -> 0+, for every a > 0, because Tgamma(3) shifts its parameters by a fixed step.)", "quantifier": "all a > 0, x > 0, p in (0,1), all subsets of inputs, every error bound", "why_tests_cant": "a continuum of inputs; the failure is in a limit", "anchors": ["phytorch/special/gammainc.py: Gammainc.grad_a, Gammainc.grad_z, Gammaincc, Gammaincinv, Gammainccinv", "phytorch/utils/function_context.py: InverseMixin", "phytorch-extensions/special/hyper.h: hypercomb"]}
{"id": "C111", "title": "Tgamma is the Meijer-type function T(m,a,x)", "statement": "Tgamma(m,a,x) is T(1,a,x) = x^(a-1) e^(-x) and T(m,a,x) = (1/x) int_x^oo log(t/x)^(m-2)/(m-2)! t^(a-1) e^(-t) dt for m >= 2. (True up to stated errors for m = 1, for m = 2 and non-integer a, and for m = 3 in the limit of a vanishing perturbation step with exact sub-functions. False of the code in general: for m >= 3 all parameters are always shifted by multiples of a fixed step, for m = 1 they are if x < 2 eps and a < 1; m = 0 raises length_error.)", "quantifier": "all a > 0 (non-integer for m >= 2), x > 0, all m >= 3 for the perturbation, all steps h -> 0+", "why_tests_cant": "a continuum of inputs and a limit", "anchors": ["phytorch-extensions/special/meijerg.h: Tgamma, meijerg, meijerg_series1", "phytorch-extensions/special/hyper.h: hypercomb, check_need_perturb, nint_distance", "phytorch-extensions/special/hyperhead.h"]}
{"id": "C112", "title": "Gradients of Tgamma", "statement": "Backward through Tgamma(m,a,z) gives the derivatives of T(m,a,z): for real arguments, m >= 2 and exact neighbouring values T(m-1), T(m+1) the gradients are dT/da and dT/dx. (False of the code otherwise: for m = 1 the gradient with respect to z raises length_error because it calls Tgamma(0,a,z), and for complex arguments the gradient is not conjugated as torch's convention requires.)", "quantifier": "all m >= 2, real a, x > 0, all incoming gradients; all complex a, z for m = 1", "why_tests_cant": "a continuum of inputs and orders", "anchors": ["phytorch/special/gammainc.py: TGamma.grad_a, TGamma.grad_z, Tgamma", "phytorch/utils/function_context.py: TorchFunction.process_grad, TorchFunction.backward"]}
{"id": "C113", "title": "Distances of the odeint driver", "statement": "In exact arithmetic (the ODE solver returning the solution of the equation it is given), for every class of cosmology and every batch of parameter values with E^2>0 on the integration range, the odeint driver returns for every element of the array of redshifts the integral of 1/E from the lower limit (comoving_distance_dimless_z1z2), of 1/((1+z)E) from 0 (lookback_time_dimless) and of (1+z)^2/E from 0 (absorption_distance_dimless), in the shape of the redshifts followed by that of the parameters - provided that the lower limit followed by the redshifts in the order given is strictly monotone; otherwise (unsorted or repeated redshifts, redshift 0, more than one lower limit) it raises AssertionError. For LambdaCDM it agrees with the analytic driver. A subclass's override of an integrand is honoured, one of the integral itself is silently overwritten.", "quantifier": "all classes, batches, arrays of redshifts, exact solvers", "why_tests_cant": "continuum of cosmologies and redshifts; every order of redshifts", "anchors": ["phytorch/cosmology/drivers/odeint.py: OdeintFLRWDriver._integrate, __init_subclass__"]}
{"id": "C114", "title": "Two-dimensional interpolation", "statement": "interp2d(x, y, z, extents) returns, for every element of the broadcast of x, y and the batch of tables z, the bilinear interpolant of its table on the regular grid spanning the extents. (False of the code in general: it holds with align_corners=True; by default the table entries sit at the centres of equal cells of the extents, and with zero padding the value at the lower corner is a quarter of the first entry. Scalar coordinates raise, as do tables with more batch dimensions than the coordinates; three-dimensional coordinates of shape (k,l,m) raise unless k=m or one of them is 1, and those of shape (k,l,1) give a result of shape (k,l,k).)", "quantifier": "all shapes, coordinates, tables, extents, alignment and padding options", "why_tests_cant": "a continuum of inputs and every shape", "anchors": ["phytorch/interpolate/__init__.py: interp2d"]}
{"id": "C115", "title": "Dimensionful cosmology", "statement": "For H0 given as a bare unit or as a quantity of dimension 1/time, in any unit, every dimensionful result is its dimensionless counterpart times the Hubble time 1/H0, distance c/H0 or volume (c/H0)^3, with the right dimensions; critical_density(z) = 3 H(z)^2/(8 pi G) is a density; hubble_distance_in_10pc is c/H0 divided by 10 pc with pc = 149597870700*648000/pi metres, and raises TypeError if H0 does not have dimension 1/time. eval_hunit replaces the pseudo-dimension H, to any power e, by H0 in km/s/Mpc and leaves every other dimension alone. (False of the code for the last if H0 is a quantity: the result then has a spurious dimension T^-e.)", "quantifier": "all H0, units, constants, redshift-dependent factors, set iteration orders", "why_tests_cant": "continuum of values and every unit", "anchors": ["phytorch/cosmology/core.py: FLRW", "phytorch/cosmology/utils.py: Hunit, h100", "phytorch/units/astro.py", "phytorch/units/angular.py", "phytorch/units/unit.py: Unit.__mul__, Unit.to", "phytorch/quantities/quantity.py: GenericQuantity.to"]}
{"id": "C116", "title": "Comoving volume near flatness", "statement": "comoving_volume of a slightly curved universe is accurate up to rounding: its relative error is a small multiple of the precision of the numbers used, however small the curvature. (False of the code: in single precision the returned volume is exactly 0 whenever 1e-7 <= 2 sqrt|Ok0| d <= 3e-4, although the true volume is at least 4 d^3; in double precision csinc is wrong by at least a fifth of its value for all arguments between 1.005e-8 and 1.02e-8. In general the absolute error of csinc above its threshold is at most 2^-p (4|sin(y)/y|/y^2 + 5|csinc|).)", "quantifier": "all precisions, all rounding functions to nearest with any tie breaking, all curvatures, distances", "why_tests_cant": "a continuum of inputs, and every rounding rule", "anchors": ["phytorch/math.py: sinc, csinc", "phytorch/cosmology/core.py: FLRWDriver.comoving_volume_dimless, isqrtOk0_pi"]}
{"id": "C117", "title": "Gradients through curvature", "statement": "Backpropagation through the transverse comoving distance and the comoving volume of a non-flat class gives the derivatives with respect to Ok0 and the comoving distance. (False of the code: at Ok0 = 0 the gradient of the transverse distance with respect to Ok0 is not finite, though the derivative is d^3/6; at Ok0 = 0, and at zero distance in every universe, both gradients of the comoving volume are not finite; below the threshold of csinc its gradient with respect to Ok0 is 0, where the derivative at Ok0 = 0 is 4 pi d^5/15. It is true of the transverse distance for Ok0 != 0, of its gradient in the distance always, and of the volume above the threshold.)", "quantifier": "all curvatures, distances, thresholds", "why_tests_cant": "a continuum of inputs", "anchors": ["phytorch/cosmology/core.py: FLRWDriver.transform_curved, comoving_volume_dimless, sqrtOk0, isqrtOk0_pi", "phytorch/math.py: csinc, sinc, where, realise, complexify"]}
{"id": "C118", "title": "Accuracy of the roots of a quadratic", "statement": "roots(b, c) of a quadratic with real roots is accurate up to rounding: each returned root differs from a root of the polynomial by a small multiple of the precision, relative to that root. (False of the code near a double root: for every precision p there are representable b, c with two distinct real roots, both missed by the first returned value by more than 2^-(p/2+2) relatively, that is half of the digits. What holds: whenever the computed discriminant is not negative, the product of the returned roots is c up to one rounding and their sum is -b up to 8 roundings of the larger root, so they are the roots of a polynomial next to the given one; and if c < 0 both roots are accurate, to 4 and 6 roundings.)", "quantifier": "all precisions of at least 5 bits, all rounding functions to nearest, all real coefficients", "why_tests_cant": "a continuum of coefficients, every precision and rounding rule", "anchors": ["phytorch-extensions/roots/roots.h: roots2", "phytorch/roots/__init__.py: roots"]}
{"id": "C119", "title": "Rounding in elliprc, elliprf and ellipk", "statement": "Evaluated in floating point with p >= 24 bits, elliprf, elliprc and ellipk lose no digits: for real non-negative arguments, two of them at least s > 0, elliprf returns after at most N = log4(10 K (x+y+z)/s) steps a number whose relative distance from R_F(x, y, z) is at most (6 N + 14) 2^-p; the same for elliprc(x, y) with x >= 0, y > 0, (7 N + 20) 2^-p for its principal value with y < 0, and (6 N + 16) 2^-p for ellipk(m) at every m < 1, however close to 1. (K = (3 EPS)^(-1/6), about 3400 in double precision.)", "quantifier": "all precisions of at least 24 bits, all rounding functions to nearest, all such arguments with N <= 1000", "why_tests_cant": "a continuum of arguments, every precision and rounding rule; the true values are not available to a test", "anchors": ["phytorch-extensions/elliptic/elliprf.h: elliprf", "phytorch-extensions/elliptic/elliprc.h: elliprc", "phytorch-extensions/elliptic/ellip.h: ellipk", "phytorch-extensions/elliptic/elliptic.h: ELLIPR_HEADER, ELLIPR_STEP, ELLIPR_UPDATE, ELLIPR_XY"]}
{"id": "C120", "title": "Precision of mixed arguments of the extension functions", "statement": "If one of the arguments of ellipk, ellippi, the Carlson forms, roots, ... is a double precision tensor (with dimensions), the computation is in double precision and uses every argument with full double precision, including Python numbers and integer tensors. (False of the code: Python numbers and integers are first rounded to torch's default dtype, so with the usual default the float 1+2^-26 is used as 1, and the integer 2^24+1 not exactly. What holds: the computation is in the largest precision of the arguments with dimensions, or of all of them if none has dimensions; floating point tensors are then used exactly if that is double; Python floats are used with relative error 2^-24, exactly if they fit in single precision; everything is exact if the default dtype is double; double tensors without dimensions are rounded to single beside single precision tensors with dimensions; half precision is an error.)", "quantifier": "all lists of arguments (Python bool, int, float, complex, tensors of any shape and dtype), all default dtypes, any rounding to nearest", "why_tests_cant": "all combinations of kinds, shapes and dtypes of arguments and all values; tests use tensors of one dtype", "anchors": ["phytorch/utils/complex.py:to_complex", "phytorch/utils/complex.py:as_complex_tensors", "phytorch/utils/complex.py:with_complex_args", "phytorch-extensions/common/implement.h:implement_", "phytorch-extensions/common/implement_cpu.h:IMPLEMENT_CPU"]}
{"id": "C121", "title": "LaTeX form of a unit", "statement": "Latexifier(base_units)(u) writes u: number times power of ten times the base units of the dimensions of u, in the order of the table, with their exponents; the number has a mantissa in [1, 10) and reads back as the value of u in base units, to prec digits. A dimension without a base unit raises KeyError. (False of the code: the doubles 1 and 1+2^-52 are both written 1; 1e-6 is written 1E+1 x 10^-7; prec is ignored. What holds: to_base(u) times the base units is u in exact arithmetic, powers are written correctly, the whole text stands for u to a relative 6.2e-16, mantissa in [1, 10], exponent that of the number; infinities and NaN raise TypeError.)", "quantifier": "all tables of base units (one unit of positive value per dimension), all units, all finite doubles, all numbers of digits", "why_tests_cant": "all rational exponents, all doubles including those that round up to the next power of ten", "anchors": ["phytorch/units/_utils.py:Latexifier"]}
{"id": "C122", "title": "Conversion of units to Astropy", "statement": "u.toAstropy() is the Astropy unit with the value and the dimension of u, for every unit of the dimensions length, time, mass, current, temperature; a unit with another dimension raises KeyError. (False of the code: every dimensionless unit, e.g. radian, degree or m/m, raises TypeError, reduce of an empty iterable. Holds for all the others.)", "quantifier": "all units", "why_tests_cant": "all combinations of rational exponents, including none", "anchors": ["phytorch/units/unit.py:UnitBase._toAstropy", "phytorch/units/unit.py:Unit._toAstropy", "phytorch/utils/symmetry.py:product"]}
{"id": "C123", "title": "Names of computed units", "statement": "The displayed name str(u) of a unit computed from named units with *, /, ** and numbers, read as a product of names, numbers and bracketed texts with powers, is the unit u. (False of the code if exponents are rounded: (m**(1/1000))**(1/1001) is displayed as m^(1/1000)^(1/1001); and powers of powers are displayed without brackets, (m**2)**3 as m^(2)^(3), to be read from left to right. Holds for that reading as long as all exponents have denominators up to 10^6.)", "quantifier": "all expressions over named and unnamed units, nested in any way", "why_tests_cant": "all nestings of products, powers and scalings", "anchors": ["phytorch/units/unit.py:Unit.__str__", "phytorch/units/unit.py:Unit.bracketed_name", "phytorch/units/unit.py:Unit.__mul__", "phytorch/units/unit.py:Unit.__pow__", "phytorch/units/unit.py:Unit.__invert__"]}
{"id": "C124", "title": "phytorch.math on Python numbers and tensors", "statement": "The functions of phytorch.math give the same number for a Python number and for a tensor with that entry: exp, log, log10, sin, cos, asin, acos, sinh, cosh, asinh, acosh, sinc, csinc, where, realise, conjugate, complexify. (False of the code: log, log10, asin, acos, acosh of real tensors outside the real domain are NaN where Python numbers have a complex value; csinc(0) raises ZeroDivisionError for Python numbers and is 1/6 for tensors; where with a tensor condition and a Python number raises AttributeError. Everywhere else they agree, and are the principal values of the textbook functions, but for Python floats the result is always a complex.)", "quantifier": "all functions, all real and complex numbers, all thresholds", "why_tests_cant": "the whole complex plane and the boundaries of the real domains", "anchors": ["phytorch/math.py:_overload", "phytorch/math.py:where", "phytorch/math.py:sinc", "phytorch/math.py:csinc", "phytorch/math.py:realise", "phytorch/math.py:conjugate", "phytorch/math.py:complexify"]}
{"id": "C125", "title": "Extensions as attributes of phytorch.extensions", "statement": "phytorch.extensions.n is the compiled extension n, or the dummy of its stub if it is not compiled, or an AttributeError, and always the same object, whatever is accessed or imported in between; import phytorch.extensions.n gives the same object; nothing else changes. (False of the code: the first access also replaces sys.modules[n], so that an unrelated top level module of that name, e.g. special or roots, is replaced by the extension; and dummies cannot be imported by name. The rest holds.)", "quantifier": "all programs of accesses and imports, all sets of compiled extensions, stubs and top level modules", "why_tests_cant": "all orders of imports and accesses", "anchors": ["phytorch/extensions/__init__.py:__getattr__"]}
{"id": "C126", "title": "Rounding in elliprd, elliprg, ellipd and ellipe", "statement": "Evaluated in floating point with p >= 24 bits, for real non-negative arguments, two of them at least s > 0: elliprd(x, y, z), z > 0, returns after at most N = log4(15 K (x+y+z)/s) steps a number whose relative distance from R_D is at most (17 N + 22) 2^-p, and infinity exactly where the integral diverges; ellipd(m), m < 1, has a relative error of at most (17 N + 28) 2^-p; elliprg has an error of at most (17 N + 31) 2^-p times half the sum of the absolute values of the three terms it adds, which is a relative error if the third argument lies between the others; ellipe(m) has a relative error of at most (17 N + 34) 2^-p for m <= 0 and an error of at most (17 N + 34) 2^-p (2 K(m) - E(m)) for 0 <= m < 1, and ellipe(1) is exactly 1.", "quantifier": "all precisions of at least 24 bits, all rounding functions to nearest, all such arguments with N <= 1000", "why_tests_cant": "a continuum of arguments, every precision and rounding rule; the true values are not available to a test", "anchors": ["phytorch-extensions/elliptic/elliprd.h: elliprd", "phytorch-extensions/elliptic/elliprg.h: elliprg", "phytorch-extensions/elliptic/ellip.h: ellipd, ellipe", "phytorch-extensions/elliptic/elliptic.h: ELLIPR_HEADER, ELLIPR_STEP, ELLIPR_UPDATE, ELLIPR_XY"]}
{"id": "C127", "title": "Arguments arrive at the torch function however they are passed", "statement": "When a torch function is called with quantities, some arguments by position, some by name, some left to their defaults, then the torch function receives, parameter by parameter, exactly what the dimension spec made of the complete list of arguments, including changed defaults (alpha in add), *args and **kwargs, and unchanged arguments for the parameters the spec says nothing about. Hence the result does not depend on whether an argument is passed by position or by name, nor on the order of keywords, and equals that of the call with all arguments written out. (Needs positional-only parameters to have no default: otherwise the call may fail with TypeError, which is proved.)", "quantifier": "all signatures Python accepts, all ways of splitting the arguments, all dimension specs that keep the structure of the arguments, all functions with a DimSpec", "why_tests_cant": "The rewriting goes through BoundArguments.args/.kwargs, whose split into positional and keyword arguments depends on which arguments were left out; tests call each function in one or two ways.", "anchors": ["phytorch/quantities/tensor_quantity.py: TensorQuantity.__torch_function__", "phytorch/quantities/dimspec.py: DimSpec.__call__"]}
{"id": "C128", "title": "Signatures of torch functions are found once and do not depend on history", "statement": "Looking up the signature of a torch function gives the same answer whatever was looked up before and in whatever way (indexing, in, get); after the first success the function is not inspected again. `f in sigdict` is never False and the default given to get is never returned (a function without signature gives None).", "quantifier": "all histories of lookups, all functions", "why_tests_cant": "A cache with side effects in __contains__ and get: independence of history is a statement about all sequences of accesses.", "anchors": ["phytorch/quantities/signatures.py: SigDict"]}
{"id": "C129", "title": "RaggedTensor.reduce_add sums consecutive groups", "statement": "For a ragged tensor of any leading shape whose group sizes (at least one, none negative) add up to its last dimension, reduce_add() returns the tensor with the last dimension replaced by the number of groups, holding the sum of every consecutive group (0 for an empty group); the group sums of a row add up to the sum of the row. The call raises exactly if there are no groups, a size is negative, the tensor has no dimension, or the sizes add up neither to the last dimension nor to 1; in the last case (sizes adding up to 1, last dimension not 1) it does not raise, and the one group of size 1 receives the whole row.", "quantifier": "all leading shapes, row lengths, contents and lists of sizes", "why_tests_cant": "unbounded shapes and size lists", "anchors": ["phytorch/ragged/ragged_old.py: RaggedTensor.reduce_add, reduce_indices, reduced_shape", "phytorch/meta.py: Meta.__new__"]}
{"id": "C130", "title": "Group sizes follow a ragged tensor through torch functions", "statement": "A single tensor returned by a torch function has the sizes of the leftmost ragged argument, so summing over groups commutes with elementwise functions. Tensors inside a tuple result have no sizes and reduce_add on them raises AttributeError; sizes of two ragged operands are never compared; the result of reduce_add keeps the sizes of the original, so that reducing it again raises unless the sizes add up to their number or to 1; and after the first reduce_add assignments to sizes no longer change the grouping, whatever happens in between.", "quantifier": "all torch functions, argument lists, sizes, and histories of assignments, in-place updates and calls", "why_tests_cant": "arbitrary functions and unbounded histories", "anchors": ["phytorch/ragged/ragged_old.py: RaggedTensor.__torch_function__, _meta_update, reduce_indices, reduced_shape", "phytorch/meta.py: Meta._meta_update"]}
{"id": "C131", "title": "Linear algebra on quantities", "statement": "For torch functions with an entry in the table of dimensions - solve, triangular_solve, inverse, pinverse, cholesky, cholesky_inverse, cholesky_solve, eig, qr, svd, lstsq, lu, lu_solve, lu_unpack and det - the returned quantities satisfy the defining equations between the measured values, whatever units the arguments are in: if the kernel solves A X = B for plain numbers then solve(B, A) has the unit of B over that of A and satisfies the equation between measured values, the inverse has the inverse unit, L of cholesky the square root, det the n-th power for n x n matrices, and so on. The packed LU matrix gets the unit of A but must not be converted to another unit: converting it and then solving gives a wrong solution. torch.linalg functions without an entry (linalg_inv, linalg_det, linalg_cholesky, ...) return the unit of their first argument, which is wrong for every kernel whose degree is not 1.", "quantifier": "all matrices, all sizes, all units, every kernel that is correct for plain numbers, any further non-tensor arguments", "why_tests_cant": "Tests compare a few matrices in a few units; the claim is about every kernel output, including non-unique ones (eigenvectors, pivots), and all units.", "anchors": ["phytorch/quantities/dimspec.py: DimSpec, _dimspecs", "phytorch/quantities/tensor_quantity.py: TensorQuantity.__torch_function__"]}
{"id": "C132", "title": "torch.where and torch.gradient on quantities", "statement": "torch.where(cond, x, y) for tensors x, y of one dimension returns a quantity in the unit of x that measures x or y as the condition says; of different dimensions it raises UnitError. With fewer than three positional arguments (x, y by keyword, or only the condition) it raises IndexError, and if the first branch is a Unit or not a tensor TypeError. torch.gradient with several spacings or dimensions returns one quantity per dimension, in the unit of the argument over that of this dimension's spacing, measuring the derivative of the measured values; one spacing serves all dimensions, no spacing is 1, no dim is all dimensions in order, and different numbers of spacings and dimensions raise.", "quantifier": "all tensors, units, conditions, lists of spacings and dimensions of any length, all kernels homogeneous in the obvious way", "why_tests_cant": "The number of dimensions, the units and the kernels are unbounded; tests try two or three combinations.", "anchors": ["phytorch/quantities/tensor_quantity.py: TensorQuantity.__torch_function__ (where, gradient)"]}
{"id": "C133", "title": "Linear interpolation on batches and channels", "statement": "Linear1dInterpolator(x0, y0, channel_ndim)(x), for grids of shape (B..., n), values of shape (V..., C..., n) with channel_ndim channel dimensions C, and points of any shape S: the result has the shape (Z..., C...), Z being the broadcast of B, V and S, and every entry is the one-dimensional linear interpolation of exactly the grid, the row of values and the point that belong to its index. If B, V, S do not broadcast, RuntimeError; if the lengths of grid and values differ, AssertionError. The default channel_ndim=-1 takes all dimensions of y0 but the last for channels, so that a batch of grids with an equal batch of values gives the outer product of both batches, shape (B..., B...).", "quantifier": "all shapes with any number of dimensions and sizes, all entries, all numbers of channel dimensions", "why_tests_cant": "Shapes are unbounded in number and size; an alignment error shows only for particular combinations of sizes.", "anchors": ["phytorch/interpolate/abc.py: AbstractBatchedInterpolator.__init__, _unsqueeeze_channels, project_one", "phytorch/interpolate/Linear1dInterpolator.py: Linear1dInterpolator"]}
{"id": "C134", "title": "N-dimensional linear interpolation on batches and channels", "statement": "LinearNDGridInterpolator(*grids, values, channel_ndim)(x), for grids of shapes (B_k..., n_k), values (V..., C..., n_1, ..., n_d) and points (S..., d): if every B_k broadcasts with S to one and the same shape Z1, and V with Z1 to Z, the result has the shape (Z..., C...) and every entry is the multilinear interpolation of the table on the grids at the point that belong to its index. In all other cases RuntimeError is raised - in particular when the grids have different batch shapes and the points do not bring the common one along, although the shapes broadcast. Wrong numbers of grid points or coordinates raise AssertionError.", "quantifier": "all numbers of dimensions, shapes, sizes and entries", "why_tests_cant": "Dimension, shapes and sizes are unbounded.", "anchors": ["phytorch/interpolate/LinearNDGridInterpolator.py: LinearNDGridInterpolator", "phytorch/interpolate/abc.py: AbstractBatchedInterpolator"]}
{"id": "C135", "title": "Splines on batches", "statement": "Spline(x0, degree).evaluate(x, y0) with knots (B..., n), values (V..., n) and points (S..., m) has the shape (Z..., m), Z being the broadcast of B, V and S, and every entry is the spline through the row of values on the row of knots at the point that belong to its index (for degree 3: the value of a twice continuously differentiable function through that row). Shapes that do not broadcast and different numbers of knots and values raise RuntimeError. weights(x) has the shape (Z..., m, n) and each row is the weights for one row of knots and one point.", "quantifier": "all shapes, sizes and entries, every solver that solves each linear system of the batch", "why_tests_cant": "Shapes and sizes are unbounded; smoothness is a statement about all reals.", "anchors": ["phytorch/interpolate/splines.py: Spline.evaluate, weights, pick_poly, solve"]}
{"id": "C136", "title": "N-dimensional splines on batches", "statement": "SplineNd(*x0s).evaluate(y0, *xs) with knots (B_k..., n_k), points (S_k..., m) and values (V..., n_1, ..., n_d) has the shape (Z..., m), Z being the broadcast of all B_k, S_k and V, and every entry is the product spline through the grid of values that belongs to its index. (False of the code: the batch dimensions of y0 are aligned with (Z..., m) instead of Z, so b sets of values at m points raise RuntimeError for m != b and are silently paired with the points for m = b. True without batch dimensions of y0 or with a dimension of size one inserted before the grid. Proved in full: shape and entries as the code computes them for every shape of y0, and the RuntimeError in all remaining cases.)", "quantifier": "all numbers of dimensions, shapes, sizes and entries", "why_tests_cant": "Shapes, sizes and dimensions are unbounded; the misalignment is silent when sizes happen to agree.", "anchors": ["phytorch/interpolate/splines.py: SplineNd.evaluate, Spline.weights"]}
{"id": "C137", "title": "Sampling batches of grid distributions", "statement": "NDIDistribution(grids, probs) with grids of shapes (n_1,), ..., (n_d,), d >= 2, and probabilities of shape (V..., n_1, ..., n_d): icdf of d tensors of shape T has the shape (Z..., d), Z being the broadcast of V and T, and every point is what the distribution with the one table belonging to its index returns for its own d numbers. rsample(sample_shape) has the shape sample_shape + V + (d,), and for uniform numbers in [0, 1), increasing grids and tables with non-negative entries and positive conditional masses every sample lies in the box of the grids and the conditional distribution functions of its own batch element take the values of its own uniform numbers. Grids with batch dimensions raise AssertionError unless the first dimension happens to be the number of points (len is taken), although their batch shapes are broadcast; with one grid construction succeeds and every sampling raises ValueError.", "quantifier": "all numbers of dimensions, batch and sample shapes, sizes, grids, tables and random numbers", "why_tests_cant": "Shapes, dimensions and tables are unbounded; samples are random, so tests see only averages.", "anchors": ["phytorch/distributions/__init__.py: NDIDistribution"]}
{"id": "C138", "title": "From the call to the gradient functions", "statement": "Applying any of the package's differentiable special function classes (Carlson and Legendre elliptic integrals, gamma functions, incomplete gamma functions and their inverses) to its inputs evaluates the kernel once, on exactly those inputs in the order of the signature, and returns its value; in the backward pass every gradient function receives exactly the values its parameters are named after - the inputs (for an inverse function: those of the forward function, the returned value standing in the inverted place, with the value of the forward function last) and, if the class keeps it, the output - so entry i of the gradient is gradient function i at the inputs and output times the incoming gradient, None where not needed or not available. Outputs are marked non-differentiable exactly for classes without gradient functions and without a backward of their own. With an unknown number of inputs the kernel would receive all inputs twice.", "quantifier": "all kernels, inputs, gradient function lists, needed-gradient flags and incoming gradients; all 23 function classes of the package", "why_tests_cant": "The plumbing is generic in the class: tests fix one class and numbers, and a permuted argument is invisible wherever the function is symmetric.", "anchors": ["phytorch/utils/function_context.py: TorchFunction.forward, CimplMixin._forward, TorchFunctionInvMixin", "phytorch/special/ellipr.py", "phytorch/special/ellip.py", "phytorch/special/gamma.py", "phytorch/special/gammainc.py"]}
{"id": "C139", "title": "Roots of batches of polynomials", "statement": "roots(*coeffs) with n >= 2 tensors whose shapes broadcast to Z returns n tensors of shape Z; at every index of Z they hold the roots, with multiplicity, of the polynomial whose coefficients stand at that index of the broadcast coefficients, and they are what roots returns for that polynomial alone (degrees 2 to 4 by the closed forms, which need regular coefficients, otherwise or if forced by eigenvalues of companion_matrix, whose matrices have the polynomials as characteristic polynomials). sroots stacks them along the requested new dimension (counted from the first, or from the last if negative) and raises IndexError exactly if there is none. vieta of tensors gives the coefficients at every index, and vieta(roots(*coeffs)) is the coefficients broadcast against each other. Shapes that do not broadcast raise RuntimeError, no coefficients ValueError, one coefficient NotImplementedError.", "quantifier": "all degrees, batch shapes, coefficients, values of dim, branches of the square and cube root (principal half-plane for the square root), any correct eigenvalue routine", "why_tests_cant": "Degrees, shapes and coefficients are unbounded; a mix-up between batch entries shows only for particular shapes.", "anchors": ["phytorch/roots/__init__.py: roots, sroots, Roots.forward, companion_matrix, vieta", "phytorch/utils/symmetry.py: elementary_symmetric, product", "phytorch-extensions/roots/roots.h", "phytorch-extensions/common/implement.h"]}
{"id": "C140", "title": "Gradients of the roots of batches of polynomials", "statement": "Backpropagation through roots(*coeffs): it raises LinAlgError exactly if some polynomial of the batch has a repeated root. Otherwise the gradient accumulated in every coefficient (of that coefficient's own shape, summed over the broadcast dimensions) is the exact vector-Jacobian product: for every perturbation of the coefficients, the sum over coefficients and their entries of conj(gradient) * perturbation equals the sum over roots and batch entries of conj(incoming gradient) * (velocity of that root), the velocities being those for which the moved root stays a root of the moved polynomial to first order.", "quantifier": "all degrees >= 2, batch shapes, coefficient shapes broadcasting to them, coefficients with simple roots, incoming gradients, perturbations", "why_tests_cant": "Gradient checks perturb a few numbers of one shape; the identity ranges over all shapes and directions, and the exception depends on every entry of the batch.", "anchors": ["phytorch/roots/__init__.py: Roots.backward, vieta", "phytorch/utils/symmetry.py: elementary_symmetric"]}
{"id": "C141", "title": "Rounding in elliprj and ellippi", "statement": "Evaluated in floating point with p >= 24 bits, for real non-negative x, y, z, two of them at least s > 0, and p > 0 different from all three and no less than 1/kappa^2 of any of them: elliprj returns after at most N = log4(15 K (x+y+z+p)/s) steps a number whose relative distance from R_J is at most (kappa (20 N + 29) + 81 N + 9861) 2^-p, and infinity exactly where the integral diverges. When p equals x, y or z and the largest argument is at least twice the smallest, the result is NaN. ellippi(n, m), m < 1, n < 1, differs from the integral by at most (kappa (20 N + 29) + 81 N + 9869) 2^-p of K + |Pi - K| (relative to Pi for n > 0), except that it is NaN whenever n != 0 and the rounded 1 - n equals 1 or the rounded 1 - m: on the whole diagonal n = m and for every 0 < |n| < 2^-(p+1).", "quantifier": "all precisions of at least 24 bits, all rounding functions to nearest, all such arguments with N <= 1000 and 100 kappa (18 N + 26) <= 2^p", "why_tests_cant": "a continuum of arguments, every precision and rounding rule; the true values are not available to a test, and the exceptional set is a curve plus a strip of width 2^-p that samples miss", "anchors": ["phytorch-extensions/elliptic/elliprj.h: elliprj", "phytorch-extensions/elliptic/ellip.h: ellippi", "phytorch-extensions/elliptic/elliptic.h: ELLIPR_HEADER, ELLIPR_STEP, ELLIPR_UPDATE, ELLIPR_XY"]}
{"id": "C142", "title": "Gradients of the differentiable LambdaCDM distances", "statement": "For the LambdaCDM and FlatLambdaCDM classes of drivers.analytic_diff, backpropagating any loss of the comoving distance, the lookback time or the absorption distance gives its derivative with respect to Om0, Ode0 and the redshifts, along any differentiable path of these, wherever there is matter, E^2 is positive from the smaller redshift on, and neither Ode0 nor 4 Ok0^3 + 27 Om0^2 Ode0 vanishes (flat: Om0 != 1). Where one of the two vanishes the gradients of the parameters raise LinAlgError, whatever the distance and the redshifts, although the distance is smooth there: a universe without dark energy has none. The gradients of the redshifts alone are right there too.", "quantifier": "all universes a user can build, all paths of parameters and redshifts, all losses; every root finder that returns the roots in any order", "why_tests_cant": "a continuum of parameters, and the exceptional set is a curve in the plane of parameters that samples miss; the gradient passes through five operations, each with its own backward pass, whose errors finite differences only bound", "anchors": ["phytorch/cosmology/drivers/analytic_diff.py: LambdaCDM, FlatLambdaCDM", "phytorch/cosmology/drivers/_analytic_base.py: _epoly_coeffs, _epoly_roots, _fix_dimless", "phytorch/special/elliptic_reduction/functional.py: EllipticIntegral.backward", "phytorch/roots/__init__.py: Roots.backward"]}
{"id": "C143", "title": "Gradients of the analytic comoving distances", "statement": "For LambdaCDM, FlatLambdaCDM, LambdaCDMR and FlatLambdaCDMR of drivers.analytic, backpropagating any loss of the comoving distance between two redshifts (equal ones included) succeeds and gives the derivative of the loss with respect to Om0, Or0, Ode0 and the redshifts, along any differentiable path of these, wherever the leading density (matter, with radiation both) is positive, E^2 is positive from the smaller redshift on (with radiation: redshifts above -1) and E^2 as a polynomial in 1+z has no repeated complex root. Where it has one, in particular in every universe without dark energy, backpropagation raises LinAlgError, although the distance is right and smooth there; it never fails otherwise.", "quantifier": "all universes a user can build, all paths of parameters and redshifts, all losses; every root finder that returns the roots in any order", "why_tests_cant": "a continuum of parameters with an exceptional set that samples miss; complex intermediate values (conjugate roots, square roots, elliprf of complex arguments) whose gradients must combine to a real derivative for every order of the roots", "anchors": ["phytorch/cosmology/drivers/analytic.py: LambdaCDM, LambdaCDMR, _ellipr_comoving_distance_dimless_z1z2", "phytorch/cosmology/drivers/_analytic_base.py: _epoly_coeffs, _epoly_roots, _fix_dimless", "phytorch/special/ellipr.py: Elliprf.backward", "phytorch/roots/__init__.py: Roots.backward"]}
{"id": "C144", "title": "Gradients of the analytic lookback time and absorption distance", "statement": "For LambdaCDM and FlatLambdaCDM of drivers.analytic with positive Om0, at a redshift such that E^2 is positive from the smaller of it and 0 on, and where E^2 as a polynomial in 1+z has no repeated complex root, backpropagating any loss of lookback_time_dimless(z) (z > -1, z = 0 included) or absorption_distance_dimless(z) (z not 0) succeeds and gives the derivative of the loss with respect to Om0, Ode0 and z, along any differentiable path of these, provided the threshold of the gradient formulas of the Carlson functions is at most z^2 times: the absolute values of the roots and of their product for a lookback time at z not 0; the distances between distinct roots for an absorption distance. Where E^2 has a repeated root, in particular without dark energy, backpropagation raises LinAlgError; it never fails otherwise.", "quantifier": "all universes a user can build, all paths of parameters and redshifts, all losses, all thresholds; every root finder that returns the roots in any order", "why_tests_cant": "the gradient formulas of elliprc, elliprd and elliprj have branches chosen by coincidence of complex arguments that depend on the redshift and the roots; all of them must combine to a real derivative for every universe and order of the roots", "anchors": ["phytorch/cosmology/drivers/analytic.py: LambdaCDM._ellipr_lookback_time_dimless, _ellipr_absorption_distance_dimless_z1z2", "phytorch/special/ellipr.py: Elliprc, Elliprd, Elliprj", "phytorch/roots/__init__.py: Roots.backward"]}
{"id": "C145", "title": "Accuracy of elliprf and elliprc for complex arguments", "statement": "For complex arguments x, y, z off the negative real axis, at most one of them zero, such that one has a non-negative real part or the angles of any two differ by less than pi, elliprf(x, y, z) stops and differs from the integral R_F(x, y, z) = 1/2 int_0^inf dt/(sqrt(t+x) sqrt(t+y) sqrt(t+z)) by at most a relative error of 2e-6 times the machine precision parameter; likewise elliprc(x, y) for R_C(x, y) = R_F(x, y, y), which also may have x = 0. Without the condition on the angles the claim fails: for arguments just above and just below -1 both routines return a number of modulus at most 2 while the integral is arbitrarily large.", "quantifier": "all complex arguments off the cut, every precision eps in (0, 1]; exact arithmetic", "why_tests_cant": "the loop's number of steps is unbounded as arguments approach the cut or 0; the principal square roots of the duplication step and of the final division must stay on the right branch for every triple of arguments", "anchors": ["phytorch-extensions/elliptic/elliprf.h: elliprf", "phytorch-extensions/elliptic/elliprc.h: elliprc", "phytorch-extensions/elliptic/elliptic.h: Rf_, get_Q"]}
{"id": "C146", "title": "The analytic comoving distance with the code's own elliprf", "statement": "For LambdaCDM and FlatLambdaCDM of drivers.analytic with positive Om0 (and LambdaCDMR, FlatLambdaCDMR with positive Om0 and Or0, for redshifts not below -1), between any two redshifts such that E^2 is positive from the smaller one on, comoving_distance_dimless_z1z2 with the routine elliprf of the extension returns a number, and it differs from the integral of 1/E between the redshifts by a relative error of at most 2e-6 times the machine precision parameter, if the rest of the arithmetic is exact.", "quantifier": "all universes a user can build, all pairs of redshifts in any order, every precision eps in (0, 1]; every root finder that returns the roots in any order", "why_tests_cant": "the arguments of elliprf are complex and depend on the roots; they must avoid the cut and the region where the routine is wrong (C145) for every universe, redshift pair and order of the roots", "anchors": ["phytorch/cosmology/drivers/analytic.py: LambdaCDM._ellipr_comoving_distance_dimless_z1z2, LambdaCDMR._ellipr_comoving_distance_dimless_z1z2", "phytorch-extensions/elliptic/elliprf.h: elliprf", "phytorch-extensions/elliptic/elliprc.h: elliprc"]}
{"id": "C147", "title": "Merging one-dimensional interpolators", "statement": "f.merge(g, op) of two Linear1dInterpolators on strictly increasing grids (no batch or channel dimensions) returns an interpolator on the sorted union of the grids with the value op(f(t), g(t)) at every knot t of either, and at every t if op is affine. (False of the code: merge always raises, because the class has no attribute `values`; for a subclass that provides it the claim is proved, except that where both grids share their first or last knot the merged interpolator is NaN below the first or from the last knot on, that knot included.)", "quantifier": "all grids, values, elementwise operations and query points", "why_tests_cant": "the knots of the two grids interleave in unboundedly many ways, with ties; values outside both grids follow from two extrapolations", "anchors": ["phytorch/interpolate/Linear1dInterpolator.py: Linear1dInterpolator.merge, merge_grids"]}
{"id": "C148", "title": "Accuracy of elliprd for complex arguments", "statement": "For complex x, y, z off the negative real axis, at most one of x and y zero and z not zero, either all three within an angle of less than pi of each other or at least one with non-negative real part, the routine elliprd of the extension returns a number, and it differs from the integral R_D(x, y, z) (principal square roots) by at most 5e-6 times the precision parameter divided by m^3, where 2m is the smallest real part of the sum of two of the three square roots, if the arithmetic is exact.", "quantifier": "all complex arguments in that domain, every precision eps in (0, 1]", "why_tests_cant": "the arguments range over a complex domain with a cut; the number of iterations is unbounded, and a wrong branch of a square root or of a product of square roots shows only in part of the domain", "anchors": ["phytorch-extensions/elliptic/elliprd.h: elliprd"]}
{"id": "C149", "title": "The analytic absorption distance with the code's own elliprf and elliprd", "statement": "For LambdaCDM and FlatLambdaCDM of drivers.analytic with positive Om0 and every non-zero redshift z such that E^2 is positive from min(0, z) on, absorption_distance_dimless(z) with the routines elliprf and elliprd of the extension returns a number, and it differs from the integral of (1+z)^2/E from 0 to z by at most a constant (of the universe and z) times the precision parameter, if the rest of the arithmetic is exact; without curvature it is the integral exactly, whatever the precision parameter. At z = 0 it is not a number.", "quantifier": "all universes a user can build, all redshifts, every precision eps in (0, 1]; every root finder that returns the roots in any order", "why_tests_cant": "the arguments of elliprf and elliprd are complex and depend on the roots and their order; they must be in the domain of C145 and C148 for every universe and redshift", "anchors": ["phytorch/cosmology/drivers/analytic.py: LambdaCDM._ellipr_absorption_distance_dimless_z1z2", "phytorch-extensions/elliptic/elliprf.h: elliprf", "phytorch-extensions/elliptic/elliprd.h: elliprd"]}
{"id": "C150", "title": "Accuracy of elliprj for complex arguments", "statement": "For complex x, y, z, p that are all in the open right half plane, or with x and p positive and y and z complex conjugates off the negative real axis, and with p different from x, y and z, the routine elliprj of the extension returns a number; it differs from the integral R_J(x, y, z, p) (principal square roots) by at most 4400 times the precision parameter divided by m^3, where 2m is at most the real part of the sum of any two of the square roots of x, y and z; and in the case of conjugate arguments the relative error is at most 5000 times the precision parameter, however small or large the arguments, if the arithmetic is exact. The routine uses arctan(sqrt e)/sqrt e for the elementary part of each duplication step; the statement includes that this is on the right branch for all these arguments.", "quantifier": "all complex arguments in that domain, every precision eps in (0, 2^-20]", "why_tests_cant": "the arguments range over a complex domain with cuts; the number of iterations is unbounded, and a wrong branch of a square root or of the arctangent shows only in part of the domain", "anchors": ["phytorch-extensions/elliptic/elliprj.h: elliprj"]}
{"id": "C151", "title": "The analytic lookback time with the code's own elliprc and elliprj", "statement": "For LambdaCDM and FlatLambdaCDM of drivers.analytic with positive Om0 and every redshift z > -1 such that E^2 is positive from min(0, z) on, lookback_time_dimless(z) with the routines elliprc and elliprj of the extension returns a number with a relative error of at most 5000 times the precision parameter, if the rest of the arithmetic is exact. (False of the code without dark energy: with Ode0 = 0 one of the roots is -1, the argument p of elliprj equals another argument, and in every open universe of matter with Ok0 >= Om0 the result is a NaN at every redshift from 1 on, at double precision. Proved with dark energy, and at redshift 0.)", "quantifier": "all universes a user can build, all redshifts above -1, every precision eps in (0, 2^-20]; every root finder that returns the roots in any order", "why_tests_cant": "the arguments of elliprj are complex and depend on the roots and their order; they must be in the domain of C150 for every universe and redshift, and the relative error must not grow with the arguments", "anchors": ["phytorch/cosmology/drivers/analytic.py: LambdaCDM._ellipr_lookback_time_dimless", "phytorch-extensions/elliptic/elliprc.h: elliprc", "phytorch-extensions/elliptic/elliprj.h: elliprj"]}
{"id": "C152", "title": "Legendre functions at complex parameters", "statement": "For a real amplitude phi in (0, pi/2] and any complex parameter m that is not a real number >= 1/sin(phi)^2, ellipkinc, ellipdinc and ellipeinc return a number within round-off scale (a stated multiple of eps) of the integral from 0 to phi of 1/sqrt(1 - m sin^2), sin^2/sqrt(1 - m sin^2), sqrt(1 - m sin^2), with the principal root; the same for the complete ellipk, ellipd, ellipe for any complex m off [1, inf). ellippiinc(n, phi, m) and ellippi(n, m) return the third integral for every such m and n.", "quantifier": "all phi in (0, pi/2], all complex m off the cut, all complex n off the cut, all eps in (0, 1] (third kind: eps <= 2^-20)", "why_tests_cant": "tests compare with mpmath at sampled real or complex parameters; the branch taken by the roots in each duplication step depends on where m lies relative to the cut", "anchors": ["phytorch-extensions/elliptic/ellip.h: ellipk, ellipe, ellipd, ellippiinc_, ellipkinc, ellipeinc, ellipdinc, ellippiinc", "phytorch-extensions/elliptic/elliptic.h: elliprf, elliprd, elliprg, elliprj"]}
{"id": "C153", "title": "elliprg at complex arguments", "statement": "For complex x, y, z off the negative real axis, not all on opposite sides of it in the left half plane, elliprg returns R_G(x, y, z) = 1/4 int t/sqrt((t+x)(t+y)(t+z)) (x/(t+x) + y/(t+y) + z/(t+z)) dt with principal roots, up to a stated multiple of eps, whichever single argument is zero; with two or three zero arguments the value is exact.", "quantifier": "all complex x, y, z in that domain, all eps in (0, 1]", "why_tests_cant": "the routine combines elliprf, elliprd and a quotient of roots, each with its own branch; and exchanges arguments when the last one is zero: tests sample a few points", "anchors": ["phytorch-extensions/elliptic/elliprg.h: elliprg", "phytorch-extensions/elliptic/elliprf.h: elliprf", "phytorch-extensions/elliptic/elliprd.h: elliprd"]}
{"id": "C154", "title": "Exactness of unit arithmetic with Python's numbers", "statement": "Units computed from ints and Fractions with *, /, ~, ** (integer powers) are exact: the value is the rational number of the exact calculation, so all laws (u*~u == 1, (u/x)*x == u, u/n == Fraction(1,n)*u, u.to(v)*v.to(u) == 1) hold with ==. (False of the code: dividing by an int n makes the value a float, u/n == Fraction(1,n)*u holds for value 1 exactly if n is plus or minus a power of two, so m/1000 is not milli_(m); 49.0-valued units have u*~u != 1; (49*m).to(m)*m.to(49*m) != 1.0. What holds: exact if units start from Fractions, as those without a value do, and are divided by Fractions and units only; in general same errors, same dimensions, and a value within a computed number of roundings of the exact one; multiplication commutes, u.to(u) is 1.0 and conversion factors of ints and Fractions are correctly rounded.)", "quantifier": "all expressions over units with int, Fraction and (finite) float values and such numbers, every rounding to nearest, every C pow with an error below one ulp, no overflow or underflow", "why_tests_cant": "all numbers and nestings; rounding errors show for few operands only", "anchors": ["phytorch/units/unit.py:Unit.__mul__", "phytorch/units/unit.py:Unit.__invert__", "phytorch/units/unit.py:Unit.__pow__", "phytorch/units/unit.py:UnitBase.__truediv__", "phytorch/units/unit.py:Unit.to", "phytorch/units/unit.py:Unit.__eq__"]}
{"id": "C155", "title": "Which quantity class a unit times a bare object makes", "statement": "unit * x for a bare object x makes a quantity of the class registered for the most special backend type that x is an instance of, whichever quantity classes have been defined before; abstract classes do not matter; without a fitting backend the product is refused. (False of the code: the backend introduced last among those that fit is used, so a backend for tensors defined after one for a kind of tensors hides it; and a class whose backend is a type variable makes unit * x raise TypeError for every x without a later backend. What holds: exactly that rule, the first class defined for a backend is used, plain subclasses of quantity classes change nothing, and with backends introduced from the general to the special the most special is used.)", "quantifier": "all histories of class definitions (failed ones included), all subtype relations, all types of x", "why_tests_cant": "histories of class definitions and subtype relations are unbounded", "anchors": ["phytorch/quantities/quantity.py:GenericQuantity.__init_subclass__", "phytorch/quantities/delegating.py:Delegating", "phytorch/units/unit.py:Unit.__mul__"]}
{"id": "C156", "title": "Linear interpolation in floating point", "statement": "In floating point too the linear interpolators return the tabulated value exactly at every grid point, and the one-dimensional one is monotone where the data are. (False of the code: in one dimension the last knot need not give its value, with knots 0, 49 and values 0, 1 the value at 49 is 1-2^-53; and just below a knot the value may exceed that at the knot, with knots -25, 0, 1 and values 0, 7, 8 the value at -2^-60 is 7+2^-50. What holds: one-dimensional, exact at all knots but the last, exactly constant where the data are, monotone within each interval, and within 14 units of roundoff of the exact value relative to the larger of the two values used; N-dimensional, exact at every grid point including the last ones, the divisor is never zero, within the grid the value is within 80*2^N*2^-p times the largest of the table of the exact one (if 40*2^N <= 2^p), and for every query, inside or outside, the value is bounded by the largest of the table up to (1+u)^(2^N+2)/(1-u)^(2^N); all this whatever the order of the sums and products.)", "quantifier": "all grids, data and queries, every precision of at least 2 (5 for the error bound) bits, every rounding to nearest and every order of summation, no overflow or underflow", "why_tests_cant": "rounding errors show for few operands only; the order of reductions differs between devices and versions", "anchors": ["phytorch/interpolate/Linear1dInterpolator.py:Linear1dInterpolator.__call__", "phytorch/interpolate/Linear1dInterpolator.py:Linear1dInterpolator.dydx", "phytorch/interpolate/LinearNDGridInterpolator.py:LinearNDGridInterpolator.__call__"]}
{"id": "C157", "title": "Quantities in floating point", "statement": "With the roundings of Python's numbers and of torch: converting a quantity to a compatible unit and back returns the quantity; whether a == b, a < b, a > b, ... holds does not depend on the units, so that a == b iff b == a and a < b iff b > a; and a + b equals b + a, with x + 0 equal to x. (False of the code, already in double precision: Tensor 49 in m equals 1 of the unit 49*m, but not the other way round, where 1 * (49*m) counts as greater than 49 m though 49 m is not less; 49 m converted to 49*m and back is less than 49 m; 0 m + 1 * (49*m) is 49 + 2**-47 m, not 49 m, and differs from the sum in the other order.) What holds: errors are raised exactly where they should be, conversion changes the measured value by at most six roundings (three for units with rational values), keeps the order, the signs and the zeros; a comparison is that of values changed by at most six roundings, exactly one of <, ==, > holds for a fixed order of the operands, and comparisons are exact in equal units; a sum is that of a and of b changed by at most eleven roundings, rounded once.", "quantifier": "every floating point format of the tensor with up to 53 bits, every rule for ties, every correctly rounding platform with any pow accurate to below one ulp, every unit value (int, Fraction or float), every tensor, fused or separate multiply and add", "why_tests_cant": "Which values are affected by the last bit depends on the format, the platform and the unit; tests compare with a tolerance or use units whose values are powers of two or ten.", "anchors": ["phytorch/quantities/quantity.py: GenericQuantity.to", "phytorch/quantities/dimspec.py: DimSpec.__call__, _dimspecs.add, same_to_nounit", "phytorch/units/unit.py: Unit.to, __truediv__, __pow__"]}
{"id": "C158", "title": "Splines in floating point", "statement": "In floating point too a Spline reproduces its data at the knots, up to rounding errors of the size of the data. (False of the code: the polynomials are expanded in powers of x, not of the distance to a knot, and the terms cancel. In single precision, with knots 8500, 8501, 8502 and data 0, 1, 0, evaluating at the knot 8501 gives -32768 (or -40048 with a fused multiply-add) instead of 1, even if the solver returns the exact coefficients correctly rounded; with knots 0, 1, 2 the same data are reproduced exactly. Spline.weights gives the middle datum the weight -32768 (or -40048) in the same place, and SplineNd.evaluate passes it on.) What holds: the result is the exact value for coefficients changed by at most 2(degree+1) roundings; its error, at the knots and elsewhere, is at most (1-2^-p)^-(2(degree+1)+K) - 1 times the sum of |c_j||x|^j over the coefficients used, where K counts the roundings in the coefficients, and that of a weight likewise from its column of the operator A; and it is exact at integers if the coefficients are multiples of a power of two 2^e and that sum is at most 2^(p+e).", "quantifier": "all knots, data, queries and degrees (at knots: degree 3, increasing knots), every precision and every rounding to nearest, separate or fused multiply and add, no overflow or underflow", "why_tests_cant": "cancellation depends on where the knots lie, not on their number or distance; tests use knots near the origin and double precision", "anchors": ["phytorch/interpolate/splines.py:Spline.evaluate", "phytorch/interpolate/splines.py:Spline.pick_coeffs", "phytorch/interpolate/splines.py:Spline.coeffs", "phytorch/interpolate/splines.py:Spline.weights", "phytorch/interpolate/splines.py:SplineNd.evaluate"]}
{"id": "C159", "title": "Sampling in floating point", "statement": "In floating point too every coordinate that icdf (and so rsample) returns for uniforms in [0,1) lies within its grid. (False of the code: in double precision, on the grid -3, -2, 0.1 with cumulative probabilities 0, 1/4, 1 the largest uniform below one gives 0.1 + 6*2^-56.) What holds of the coordinate of the last dimension, which is drawn first: the tabulated cumulative probabilities start at 0, end at exactly 1, never decrease and are right up to 2(N+n)+5 roundings, N the number of points of the other dimensions and n that of this one; the code never divides by zero; no value lies below the grid, or below the cell whose cumulative probabilities enclose u, and it exceeds the cell by at most five roundings of its width and a last one; at a tabulated probability followed by a larger one the grid point is returned exactly; within a cell the value does not decrease with u.", "quantifier": "all grids and nonnegative probabilities with nonvanishing marginals, all uniforms in [0,1), every precision of at least 2 bits, every rounding to nearest, every order of the sums, cumsum from the left in the same or a higher precision, no overflow or underflow", "why_tests_cant": "excesses need particular grids and the rarest uniforms; the order of sums differs between devices", "anchors": ["phytorch/distributions/__init__.py:NDIDistribution", "phytorch/interpolate/Linear1dInterpolator.py:Linear1dInterpolator.__call__"]}
{"id": "C160", "title": "Approximate equality of units", "statement": "u.isclose(v, rel_tol, abs_tol) never converts: it is False if v is not a unit, whatever the tolerances; it raises ValueError iff v is a unit and a tolerance is negative, even if the dimensions differ; it is never True for units of different dimensions. Equal units are close; the relation is symmetric. For units of one dimension, abs_tol 0 and rel_tol up to 1 (the default is 1e-9), the result is True if the values differ by at most (rel_tol - 2^-50) times the larger one, and False if they differ by more than (rel_tol + 2^-50) times the larger one. With both tolerances 0 it says whether the values are the same float, which is weaker than ==. It is not transitive.", "quantifier": "all units whose values are int, Fraction or float, all tolerances, every rounding to nearest (symmetry: that treats both signs alike), no overflow or underflow", "why_tests_cant": "the values form a continuum of three types, and failures need values at the tolerance", "anchors": ["phytorch/units/unit.py:Unit.isclose"]}
{"id": "C161", "title": "Ragged quantities are quantities and ragged tensors at once", "statement": "A RaggedQuantity can be used as a quantity and as a ragged tensor: a torch function of it returns a ragged quantity with the unit a quantity would have and with its group sizes, and reduce_add() sums its groups. (False of the code: every torch function, tensor method, operator or tensor attribute like .shape raises on it, a TypeError unless the units are already wrong, because the class method of TensorQuantity calls the plain method of RaggedTensor through super() without an object. So do reduce_add() and every conversion to another unit.) What holds: the constructor keeps the sizes, the unit given or else that of the quantity it is made from, and the numbers, which .value returns; .to(unit) with the unit it has returns it. Quantities and ragged tensors on their own do work, but a quantity and a ragged tensor in one call raise.", "quantifier": "all torch functions with arbitrary kernels, dimension specs and signatures, all argument lists of tensors, quantities, ragged tensors and ragged quantities, by position or name", "why_tests_cant": "the claim is about every torch function; the method called depends on the resolution order of a diamond of classes and on torch's order of overloaded arguments", "anchors": ["phytorch/ragged/ragged_old.py:RaggedQuantity", "phytorch/ragged/ragged_old.py:RaggedTensor.__torch_function__", "phytorch/quantities/tensor_quantity.py:TensorQuantity.__torch_function__", "phytorch/meta.py:Meta"]}

import Mathlib.Analysis.SpecialFunctions.Pow.Complex
import Mathlib.Analysis.Complex.Norm

/-!
# Model of `hyper.h`: the hypergeometric series

`phytorch-extensions/special/hyper.h`, in exact complex arithmetic; `none` is the NaN result, `eps`
is `numeric_limits<scalar_t>::epsilon()`.
-/

open Complex

namespace Verif.Special

open Classical in
/-- `hyper.h:17-19` (body of the loop): `t` after the multiplications by `a + k` and the divisions by
`b + k`.  A division by zero makes `t` infinite or NaN: then `t` stays so in all later
iterations, the test `abs(t) < TEPS` is never true again and the function ends with NaN.  The
model returns `none` at once. -/
noncomputable def hypFactor (as bs : List ℂ) (k : ℕ) (t : ℂ) : Option ℂ :=
  let num := as.foldl (fun t a => t * (a + (k : ℂ))) t
  bs.foldl (fun t b => t.bind fun t => if b + (k : ℂ) = 0 then none
    else some (t / (b + (k : ℂ)))) (some num)

open Classical in
/-- `hyper.h:16-22`: the loop `for k in [k, k + fuel)` with its state `(s, t)`; `none` after the
last iteration is `return TNAN`. -/
noncomputable def hypLoop (eps : ℝ) (as bs : List ℂ) (z : ℂ) : ℕ → ℕ → ℂ → ℂ → Option ℂ
  | 0, _, _, _ => none
  | fuel + 1, k, s, t =>
    (hypFactor as bs k t).bind fun t1 =>
      let t2 := t1 / (k + 1) * z
      if ‖t2‖ < eps then some (s + t2) else hypLoop eps as bs z fuel (k + 1) (s + t2) t2

/-- `hyper.h:12-24`: `hypsum`. -/
noncomputable def hypsum (eps : ℝ) (as bs : List ℂ) (z : ℂ) (maxterms : ℕ) : Option ℂ :=
  hypLoop eps as bs z maxterms 0 1 1

/-- `hyper.h:27-49`: `hyper` (all special cases are commented out in the source). -/
noncomputable def hyper (eps : ℝ) (as bs : List ℂ) (z : ℂ) (maxterms : ℕ) : Option ℂ :=
  hypsum eps as bs z maxterms

end Verif.Special

import Verif.Special.HypModel
import Verif.Special.GammaModel

/-!
# Model of `hypercomb` (`hyper.h`), `meijerg` and `Tgamma` (`meijerg.h`)

`phytorch-extensions/special/hyper.h:5-9, 80-156` and `meijerg.h`, in exact complex arithmetic;
`none` is a NaN result.  The gamma function `gam` and the hypergeometric series `hyp` that
`hypercomb` calls, the machine epsilon `eps` and the step `h` of the perturbation are parameters; `Tgamma`
below supplies those of the source.

Not modelled: `meijerg_series2` (`Tgamma` always has `p < q`), `pow` at the base `0`.
-/

open Complex

namespace Verif.Special

/-- `hyperhead.h:40-41`: `term_t`. -/
structure CombTerm where
  w : List ℂ
  c : List ℂ
  alpha : List ℂ
  beta : List ℂ
  a : List ℂ
  b : List ℂ
  z : ℂ

open Classical in
/-- `hyper.h:5-9` (`nint_distance`) and `hyper.h:103-105`: `x` is exactly an integer `n ≤ 0`.
(`n` is an `int` in the source; overflow is not modelled.) -/
noncomputable def isPole (x : ℂ) : Bool :=
  decide (((round x.re : ℤ) : ℂ) = x ∧ round x.re ≤ 0)

open Classical in
/-- `hyper.h:92-96`: a leading factor that divides by (nearly) zero. -/
noncomputable def CombTerm.singular (eps : ℝ) (t : CombTerm) : Bool :=
  (t.w.zip t.c).any fun p => decide (‖p.1‖ < 2 * eps ∧ p.2.re ≤ 0 ∧ p.2 ≠ 0)

open Classical in
/-- `hyper.h:98-115`: `pole_count[0]`, `pole_count[1]`, `pole_count[2]`.  The last does not count a
parameter `n` if some non-zero `u` among the upper parameters has `u.real() > n`. -/
noncomputable def CombTerm.poles (t : CombTerm) : ℕ × ℕ × ℕ :=
  (t.alpha.countP isPole, t.beta.countP isPole,
    t.b.countP fun x => isPole x && !(t.a.any fun u => decide (u ≠ 0 ∧ (round x.re : ℝ) < u.re)))

/-- `hyper.h:116-117`: the term is discarded. -/
noncomputable def CombTerm.discard (eps : ℝ) (t : CombTerm) : Bool :=
  decide (t.poles.1 + t.poles.2.2 < t.poles.2.1) && !t.singular eps

/-- `hyper.h:94, 118-119`: the term asks for a perturbation. -/
noncomputable def CombTerm.perturb (eps : ℝ) (t : CombTerm) : Bool :=
  t.singular eps || (!t.discard eps && decide (t.poles ≠ (0, 0, 0)))

/-- `hyper.h:133-141`: the perturbed parameters; `h` is the current step, `k` the index. -/
noncomputable def perturbFrom : ℕ → ℝ → List ℂ → List ℂ
  | _, _, [] => []
  | k, h, p :: ps => (p + h) :: perturbFrom (k + 1) (h + h / (k + 1)) ps

/-- `hyper.h:148-152`: the value of one term. -/
noncomputable def CombTerm.value (gam : ℂ → Option ℂ) (hyp : List ℂ → List ℂ → ℂ → Option ℂ)
    (t : CombTerm) : Option ℂ := do
  let v ← hyp t.a t.b t.z
  let v ← t.alpha.foldlM (fun v a => (gam a).map (v * ·)) v
  let v ← t.beta.foldlM (fun v b => (gam b).map (v / ·)) v
  return (t.w.zip t.c).foldl (fun v p => v * p.1 ^ p.2) v

/-- `hyper.h:128-156`: `hypercomb`.  Which terms are discarded is decided before the perturbation. -/
noncomputable def hypercomb (gam : ℂ → Option ℂ) (hyp : List ℂ → List ℂ → ℂ → Option ℂ) (eps h : ℝ)
    (f : List ℂ → List CombTerm) (params : List ℂ) : Option ℂ :=
  let terms := f params
  let disc := terms.map (·.discard eps)
  let terms' := if terms.any (·.perturb eps) then f (perturbFrom 0 h params) else terms
  (disc.zip terms').foldlM (fun ret p => if p.1 then some ret
    else (p.2.value gam hyp).map (ret + ·)) 0

/-- `meijerg.h:4-28`: `meijerg_series1`.  `args` holds `a₁, …, a_p, b₁, …, b_q`. -/
noncomputable def meijergSeries1 (m n p q : ℕ) (z r : ℂ) (args : List ℂ) : List CombTerm :=
  let a := fun j => args.getD j 0
  let b := fun j => args.getD (p + j) 0
  (List.range m).map fun k =>
    { w := [z]
      c := [b k / r]
      alpha := ((List.range m).filter (· ≠ k)).map (fun j => b j - b k) ++
        (List.range n).map (fun j => 1 - a j + b k)
      beta := (List.range' n (p - n)).map (fun j => a j - b k) ++
        (List.range' m (q - m)).map (fun j => 1 - b j + b k)
      a := (List.range p).map (fun j => 1 - a j + b k)
      b := ((List.range q).filter (· ≠ k)).map (fun j => 1 - b j + b k)
      z := (-1) ^ ((p : ℤ) - m - n) * z ^ (1 / r) }

/-- `meijerg.h:60-68`: `meijerg` for `p < q`. -/
noncomputable def meijerg (gam : ℂ → Option ℂ) (hyp : List ℂ → List ℂ → ℂ → Option ℂ) (eps h : ℝ)
    (m n p q : ℕ) (args : List ℂ) (z r : ℂ) : Option ℂ :=
  hypercomb gam hyp eps h (meijergSeries1 m n p q z r) args

/-- `meijerg.h:74-77`: the arguments that `Tgamma` passes: `m - 1` zeros, `a - 1`, `m - 1` times `-1`. -/
noncomputable def tgammaArgs (m : ℕ) (a : ℂ) : List ℂ :=
  List.replicate (m - 1) 0 ++ (a - 1) :: List.replicate (m - 1) (-1)

/-- `meijerg.h:73-79`: `Tgamma` with the functions it is built from as parameters.  For `m = 0` the
size `m + m - 1` of the vector wraps around and its constructor throws. -/
noncomputable def TgammaWith (gam : ℂ → Option ℂ) (hyp : List ℂ → List ℂ → ℂ → Option ℂ) (eps h : ℝ)
    (m : ℕ) (a z : ℂ) : Except String (Option ℂ) :=
  if m = 0 then .error "length_error"
  else .ok (meijerg gam hyp eps h m 0 (m - 1) m (tgammaArgs m a) z 1)

/-- `hyper.h:134`: the step of the perturbation, for `prec` binary digits (24 or 53). -/
noncomputable def combStep (prec : ℕ) : ℝ := 2 ^ (-⌊(0.3 : ℝ) * prec⌋)

/-- `meijerg.h:73-79`, `hyperhead.h:10` (`maxterms = 6000`): `Tgamma`. -/
noncomputable def Tgamma (eps : ℝ) (prec : ℕ) (m : ℕ) (a z : ℂ) : Except String (Option ℂ) :=
  TgammaWith (gamma eps) (fun as bs z => hyper eps as bs z 6000) eps (combStep prec) m a z

end Verif.Special

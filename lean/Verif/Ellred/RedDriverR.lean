import Verif.Ellred.RedDriver
import Verif.Ellred.LambdaR

/-! # The differentiable analytic driver with radiation (cosmology/drivers/analytic_diff.py): C106 -/

namespace Verif.Ellred

open MeasureTheory Set Verif.Carlson Verif.Cosmo ComplexConjugate
open QuarticOK (lam W2 Good)

/-- `elliptic_integral(z1, z2, *a, m=m, h=4)` (special/elliptic_reduction/functional.py:19-24, 43-44). -/
noncomputable def ellipticIntegral4 (z1 z2 : ℝ) (a : List ℂ) (m : List ℤ) : ℂ := (EllRed.mk z2 z1 a 4 (Or.inr rfl)).Im m

/-- `comoving_distance_dimless_z1z2` (analytic_diff.py:27-31) with `_epoly_degree = 4`. -/
noncomputable def diffComoving4 (L : ℝ) (r1 r2 r3 r4 : ℂ) (z1 z2 : ℝ) : ℝ :=
  fixDimless L (ellipticIntegral4 z1 z2 ([r1, r2, r3, r4].map Neg.neg) (List.replicate 4 0))

/-- `lookback_time_dimless` (analytic_diff.py:12-16). -/
noncomputable def diffLookback4 (L : ℝ) (r1 r2 r3 r4 : ℂ) (z : ℝ) : ℝ :=
  fixDimless L (ellipticIntegral4 0 z ([r1, r2, r3, r4].map Neg.neg ++ [1]) (List.replicate 4 0 ++ [-1]))

/-- `absorption_distance_dimless` (analytic_diff.py:21-25). -/
noncomputable def diffAbsorption4 (L : ℝ) (r1 r2 r3 r4 : ℂ) (z : ℝ) : ℝ :=
  fixDimless L (ellipticIntegral4 0 z ([r1, r2, r3, r4].map Neg.neg ++ [1]) (List.replicate 4 0 ++ [2]))

/-- Calling a method of the differentiable `LambdaCDMR` driver: the four roots are passed on in the order in which the root finder returns
them (analytic_diff.py:12-31, _analytic_base.py:31-37). -/
noncomputable def callD4 (solve : List ℝ → List ℂ) (c : Cls) (o : Obj) (n : ℕ) (f : ℝ → ℂ → ℂ → ℂ → ℂ → ℝ) : Except Cosmo.Err ℝ :=
  match ok0 c o n with
  | .error e => .error e
  | .ok k => match ode0 c o n with
    | .error e => .error e
    | .ok d => match epolyRoots solve c o k d with
      | [r1, r2, r3, r4] => .ok (f (epolyLeading c o) r1 r2 r3 r4)
      | _ => .error .typeError

/-- A root finder that returns the roots in the opposite order. -/
theorem Solves.reverse {solve : List ℝ → List ℂ} (hs : Solves solve) : Solves fun cs => (solve cs).reverse := by
  intro cs
  obtain ⟨h1, h2⟩ := hs cs
  refine ⟨by simpa using h1, fun x => ?_⟩
  rw [← h2 x]
  simp [Roots.rootProd, List.map_reverse, List.prod_reverse]

theorem callD4_eq (solve : List ℝ → List ℂ) (c : Cls) (o : Obj) (n : ℕ) (f : ℝ → ℂ → ℂ → ℂ → ℂ → ℝ) :
    callD4 solve c o n f = call4 (fun cs => (solve cs).reverse) c o n f := by
  have : ∀ k d, (epolyRoots (fun cs => (solve cs).reverse) c o k d).reverse = epolyRoots solve c o k d := by
    intro k d
    simp [epolyRoots, List.map_reverse]
  simp only [callD4, call4, this]
  rfl

theorem last_reverse (solve : List ℝ → List ℂ) (c : Cls) (o : Obj) (k d : ℝ) :
    (epolyRoots (fun cs => (solve cs).reverse) c o k d).getLast? = (epolyRoots solve c o k d).head? := by
  simp [epolyRoots, List.map_reverse]

theorem diffComoving4_eq (L : ℝ) (r1 r2 r3 r4 : ℂ) (z1 z2 : ℝ) : diffComoving4 L r1 r2 r3 r4 z1 z2 = comoving4 L r1 r2 r3 r4 z1 z2 := by
  rw [diffComoving4, comoving4, ellipticIntegral4, EllRed.Im, if_pos (by simp), EllRed.Ie]
  have hx : ∀ (r : ℂ) (t : ℝ), csqrt (-r + t) = Xr r t := fun r t => by rw [Xr, neg_add_eq_sub]
  simp only [EllRed.Ie0, EllRed.U2, EllRed.rest, EllRed.idxSet, List.range_succ, List.range_zero, List.nil_append, List.cons_append, List.map_cons,
    List.map_nil, EllRed.xmy]
  simp [EllRed.X, EllRed.Y, EllRed.av, hx]
  rw [fixDimless, fixDimless, ← Complex.ofReal_sub, show (2 : ℂ) * ((z2 - z1 : ℝ) : ℂ) = ((2 * (z2 - z1) : ℝ) : ℂ) by push_cast; ring,
    Complex.re_ofReal_mul, ← mul_div_assoc]
  simp only [params4]
  congr 4
  all_goals ring

theorem diffLookback4_eq (L : ℝ) (r1 r2 r3 r4 : ℂ) (z : ℝ) : diffLookback4 L r1 r2 r3 r4 z = lookback4 L r1 r2 r3 r4 z := by
  rw [diffLookback4, ellipticIntegral4]
  set E := EllRed.mk z 0 ([r1, r2, r3, r4].map Neg.neg ++ [1]) 4 (Or.inr rfl) with hE
  have hx : ∀ (r : ℂ) (t : ℝ), csqrt (-r + t) = Xr r t := fun r t => by rw [Xr, neg_add_eq_sub]
  have a1 : E.av 1 = -r1 := by simp [hE, EllRed.av]
  have a2 : E.av 2 = -r2 := by simp [hE, EllRed.av]
  have a3 : E.av 3 = -r3 := by simp [hE, EllRed.av]
  have a4 : E.av 4 = -r4 := by simp [hE, EllRed.av]
  have a5 : E.av 5 = 1 := by simp [hE, EllRed.av]
  have X1 : E.X 1 = Xr r1 z := by rw [EllRed.X, if_neg (by omega), a1, hx]
  have X2 : E.X 2 = Xr r2 z := by rw [EllRed.X, if_neg (by omega), a2, hx]
  have X3 : E.X 3 = Xr r3 z := by rw [EllRed.X, if_neg (by omega), a3, hx]
  have X4 : E.X 4 = Xr r4 z := by rw [EllRed.X, if_neg (by omega), a4, hx]
  have X5 : E.X 5 ^ 2 = z + 1 := by rw [EllRed.X, if_neg (by omega), a5, sq, csqrt_sq, add_comm]
  have Y1 : E.Y 1 = Xr r1 0 := by rw [EllRed.Y, if_neg (by omega), a1, hx]
  have Y2 : E.Y 2 = Xr r2 0 := by rw [EllRed.Y, if_neg (by omega), a2, hx]
  have Y3 : E.Y 3 = Xr r3 0 := by rw [EllRed.Y, if_neg (by omega), a3, hx]
  have Y4 : E.Y 4 = Xr r4 0 := by rw [EllRed.Y, if_neg (by omega), a4, hx]
  have Y5 : E.Y 5 ^ 2 = 1 := by rw [EllRed.Y, if_neg (by omega), a5, sq, csqrt_sq]; simp [hE]
  have xm : E.xmy = z := by rw [EllRed.xmy]; simp [hE]
  have i4 := EllRed.idx4 (E := E) rfl
  have e1 : E.Im (List.replicate 4 0 ++ [-1]) = E.IeOut 5 := by
    rw [EllRed.Im, if_neg (by simp)]
    have : ((List.replicate 4 0 ++ [-1] : List ℤ).zipIdx 1).filter (fun k => k.1 ≠ 0) = [(-1, 5)] := by decide
    rw [this]
    simp only
    rw [EllRed.Iqe, dif_neg (by omega), dif_neg (by omega), dif_neg (by omega), EllRed.Ie, if_pos (by simp [hE])]
    rfl
  have hd : ∀ i j, i ≠ 0 → j ≠ 0 → E.d i j = E.av i - E.av j := fun i j h1 h2 => EllRed.d_eq h1 h2
  have U12 : E.U2 1 2 = (params4 r1 r2 r3 r4 0 z).1 := by
    simp [EllRed.U2, EllRed.rest, i4, X1, X2, X3, X4, Y1, Y2, Y3, Y4, params4]; ring
  have U13 : E.U2 1 3 = (params4 r1 r2 r3 r4 0 z).2.1 := by
    simp [EllRed.U2, EllRed.rest, i4, X1, X2, X3, X4, Y1, Y2, Y3, Y4, params4]; ring
  have U23 : E.U2 2 3 = (params4 r1 r2 r3 r4 0 z).2.2 := by
    simp [EllRed.U2, EllRed.rest, i4, X1, X2, X3, X4, Y1, Y2, Y3, Y4, params4]; ring
  have h1 : E.rest [1] = [2, 3, 4] := by simp [EllRed.rest, i4]
  have nu : E.U2nu 1 5 = (params4 r1 r2 r3 r4 0 z).1 - (r3 - r1) * (r4 - r1) * (r2 + 1) / (r1 + 1) * z ^ 2 := by
    rw [EllRed.U2nu, h1]
    simp only
    rw [U12, xm, hd 1 3 (by omega) (by omega), hd 1 4 (by omega) (by omega), hd 2 5 (by omega) (by omega), hd 1 5 (by omega) (by omega), a1, a2, a3, a4, a5,
      show -r2 - 1 = -(r2 + 1) by ring, show -r1 - 1 = -(r1 + 1) by ring, mul_neg, neg_div_neg_eq]
    ring
  have hS : E.S2 1 5 = (Xr r2 0 * Xr r3 0 * Xr r4 0 / Xr r1 0 * (z + 1) + Xr r2 z * Xr r3 z * Xr r4 z / Xr r1 z) ^ 2 := by
    rw [EllRed.S2, h1]
    simp only
    rw [X1, X2, X3, X4, Y1, Y2, Y3, Y4, X5, Y5]
    ring
  have hQ : E.Q2 1 5 = (z + 1) / Xr r1 0 ^ 2 / Xr r1 z ^ 2 *
      ((params4 r1 r2 r3 r4 0 z).1 - (r3 - r1) * (r4 - r1) * (r2 + 1) / (r1 + 1) * z ^ 2) := by
    rw [EllRed.Q2, nu, X1, Y1, X5, Y5, mul_one, mul_comm (Xr r1 z ^ 2), div_mul_eq_div_div]
  rw [e1, EllRed.IeOut, i4]
  simp only
  rw [if_neg (by omega), EllRed.Ie0, hS, hQ, nu, U12, U13, U23, xm, hd 1 2 (by omega) (by omega), hd 1 3 (by omega) (by omega),
    hd 1 4 (by omega) (by omega), hd 1 5 (by omega) (by omega), a1, a2, a3, a4, a5, show -r1 - 1 = -(r1 + 1) by ring, lookback4]
  simp only [fixDimless]
  rw [← mul_div_assoc, ← Complex.re_ofReal_mul]
  congr 2
  push_cast
  rw [div_neg, div_neg]
  ring

variable {p : Phys} {c : Cls} {o : Obj} {n : ℕ} {k d : ℝ} {E2 : ℝ → ℝ} {z1 z2 z : ℝ} {solve : List ℝ → List ℂ}

/-- C106: the comoving distance of the differentiable driver with radiation is the integral of `1/E`. -/
theorem C106_comoving (U : Universe4 p c o n k d E2 (min z1 z2)) (h1 : -1 ≤ z1) (h2 : -1 ≤ z2) (hs : Solves solve) :
    callD4 solve c o n (fun L r1 r2 r3 r4 => diffComoving4 L r1 r2 r3 r4 z1 z2) = .ok (∫ z in z1..z2, invEfunc (E2 z)) := by
  rw [callD4_eq, ← C94_comoving U h1 h2 hs.reverse]
  congr 1
  funext L r1 r2 r3 r4
  exact diffComoving4_eq L r1 r2 r3 r4 z1 z2

/-- C106: the lookback time of the differentiable driver with radiation, under conditions on the first root.  Missing: for other first roots
it is false (`C106_lookback_wrong`), or not settled. -/
theorem C106_lookback_partial (U : Universe4 p c o n k d E2 (min 0 z)) (hz : -1 < z) (hs : Solves solve) {r : ℂ}
    (hr : (epolyRoots solve c o k d).head? = some r) (hr' : LookCond o.Or0 d r z) :
    callD4 solve c o n (fun L r1 r2 r3 r4 => diffLookback4 L r1 r2 r3 r4 z) = .ok (∫ t in (0 : ℝ)..z, lookbackIntegrand (E2 t) t) := by
  rw [callD4_eq, ← C95_lookback_partial U hz hs.reverse (by rw [last_reverse]; exact hr) hr']
  congr 1
  funext L r1 r2 r3 r4
  exact diffLookback4_eq L r1 r2 r3 r4 z

/-- C106: with a first root that is not real and to the right of 0, the lookback time falls short of the integral. -/
theorem C106_lookback_wrong (U : Universe4 p c o n k d E2 0) (hs : Solves solve) {r : ℂ}
    (hr : (epolyRoots solve c o k d).head? = some r) (hi : r.im ≠ 0) (hp : 0 < r.re) : ∃ δ > 0, ∀ z, 0 < z → z < δ →
    ∃ v, callD4 solve c o n (fun L r1 r2 r3 r4 => diffLookback4 L r1 r2 r3 r4 z) = .ok v ∧ v < ∫ t in (0 : ℝ)..z, lookbackIntegrand (E2 t) t := by
  obtain ⟨δ, h0, h⟩ := C95_wrong U hs.reverse (by rw [last_reverse]; exact hr) hi hp
  refine ⟨δ, h0, fun z z0 z1 => ?_⟩
  obtain ⟨v, e, hv⟩ := h z z0 z1
  refine ⟨v, ?_, hv⟩
  rw [callD4_eq, ← e]
  congr 1
  funext L r1 r2 r3 r4
  exact diffLookback4_eq L r1 r2 r3 r4 z

/-- `Im` for the absorption distance with radiation. -/
theorem EllRed.Im_abs4 {x y : ℝ} {r1 r2 r3 r4 : ℂ} {b c d e : ℝ} (hq : QuarticOK (min x y) r1 r2 r3 r4 b c d e) (hx : -1 < x) (hy : -1 < y)
    (h12 : r1 ≠ r2) (hg : min x y < max x y → Good 1 0 (min x y) (max x y) r1 r2 r3 r4) :
    (EllRed.mk x y [-r1, -r2, -r3, -r4, 1] 4 (Or.inr rfl)).Im [0, 0, 0, 0, 2] =
      ((∫ t in y..x, (1 + t) ^ 2 / √(quartic b c d e t) : ℝ) : ℂ) := by
  set E := EllRed.mk x y [-r1, -r2, -r3, -r4, 1] 4 (Or.inr rfl) with hE
  have a1 : -E.av 1 = r1 := by simp [hE, av]
  have a2 : -E.av 2 = r2 := by simp [hE, av]
  have a3 : -E.av 3 = r3 := by simp [hE, av]
  have a4 : -E.av 4 = r4 := by simp [hE, av]
  have a5 : E.av 5 = (1 : ℝ) := by simp [hE, av]
  have hm : -1 < min x y := lt_min hx hy
  have ht' : ∀ t ∈ uIcc y x, min x y ≤ t := fun t ht => by rw [uIcc_comm] at ht; exact ht.1
  have h : Ok0 E := by
    refine ⟨by simp [hE, n], fun w hw t ht => ?_⟩
    have ht := ht' t ht
    obtain ⟨s1, s2, s3, s4, -⟩ := hq.kernel (x := t + 1) (by linarith)
    have s1 := s1 t ⟨ht, by linarith⟩
    have s2 := s2 t ⟨ht, by linarith⟩
    have s3 := s3 t ⟨ht, by linarith⟩
    have s4 := s4 t ⟨ht, by linarith⟩
    simp only [hE, List.mem_cons, List.not_mem_nil, or_false] at hw
    rcases hw with rfl | rfl | rfl | rfl | rfl
    · rwa [neg_add_eq_sub]
    · rwa [neg_add_eq_sub]
    · rwa [neg_add_eq_sub]
    · rwa [neg_add_eq_sub]
    · left; simp; linarith
  have key : ∀ F : EllRed, F.y < F.x → F.h = 4 → F.a = E.a → Ok0 F → QuarticOK F.y r1 r2 r3 r4 b c d e → Good 1 0 F.y F.x r1 r2 r3 r4 →
      ∀ q : ℤ, -1 ≤ q → q ≤ 1 → F.Ie (q * (1 : ℕ)) = F.J q 1 := by
    intro F hlt f4 fa fo fc fg q q1 q2
    have hav : F.av = E.av := by funext i; rw [av, av, fa]
    have fn : F.n = 5 := by rw [n, fa]; rfl
    have C : Quar F b c d e := ⟨f4, hlt, by rw [hav, a1, a2, a3, a4]; exact fc⟩
    have hq : q = -1 ∨ q = 0 ∨ q = 1 := by omega
    rcases hq with rfl | rfl | rfl
    · rw [Ie, if_neg (by rw [f4]; norm_num), if_pos (by norm_num)]
      refine C.IeBr_eq fo le_rfl (by omega) fun j j1 j2 j3 => ?_
      obtain rfl : j = 2 := by omega
      rw [d_eq (by omega) (by omega), hav]
      intro e0
      have e0 : E.av 2 - E.av 1 = 0 := e0
      apply h12
      rw [← a1, ← a2]
      linear_combination e0
    · rw [Ie, if_neg (by omega), if_neg (by omega), if_pos (by ring), C.Ie0_eq 1]
    · rw [Ie, if_neg (by omega), if_neg (by omega), if_neg (by omega), if_pos (by rw [f4]; norm_num)]
      exact C.IePos_gen (by simp [rest, idx4 f4]) C.ord.1 (by
        change Good 1 0 F.y F.x (-F.av 1) (-F.av 2) (-F.av 3) (-F.av 4)
        rw [hav, a1, a2, a3, a4]; exact fg)
  have hb : ∀ q : ℤ, -1 ≤ q → q ≤ 1 → E.Ie (q * (1 : ℕ)) = E.J q 1 := by
    intro q q1 q2
    rcases lt_trichotomy y x with hlt | heq | hgt
    · have hg' := hg (by rw [min_eq_right hlt.le, max_eq_left hlt.le]; exact hlt)
      rw [min_eq_right hlt.le] at hq
      rw [min_eq_right hlt.le, max_eq_left hlt.le] at hg'
      exact key E hlt rfl rfl h hq hg' q q1 q2
    · rw [Ie_zero (E := E) heq.symm, J_zero (E := E) heq.symm]
    · have hg' := hg (by rw [min_eq_left hgt.le, max_eq_right hgt.le]; exact hgt)
      rw [min_eq_left hgt.le] at hq
      rw [min_eq_left hgt.le, max_eq_right hgt.le] at hg'
      have := key E.swap hgt rfl rfl h.swap hq hg' q q1 q2
      rw [Ie_swap, J_swap] at this
      exact neg_injective this
  have e1 : E.Im [0, 0, 0, 0, 2] = E.Iqe 2 5 := by
    rw [Im, if_neg (by simp)]
    have : (([0, 0, 0, 0, 2] : List ℤ).zipIdx 1).filter (fun k => k.1 ≠ 0) = [(2, 5)] := by decide
    rw [this]
  have e2 : E.Iqe 2 5 = E.J 2 5 := by
    rw [Iqe, dif_pos ⟨by simp [hE], rfl, rfl⟩]
    have hn : 5 ≤ E.n := by simp [hE, n]
    have g : ∀ q : ℤ, -1 ≤ q → E.Iqe q 1 = E.J q 1 := fun q q1 =>
      Iqe_ge h q 1 (fun i hi => by obtain rfl : i = 1 := by omega
                                   exact hb) le_rfl (by omega) q1
    rw [Fin.sum_univ_three, g _ (by simp), g _ (by simp), g _ (by simp), J_two h (by omega) hn]
    simp [Nat.choose]
  rw [e1, e2, J, ← intervalIntegral.integral_ofReal]
  apply intervalIntegral.integral_congr
  intro t ht
  have ht := ht' t ht
  simp only
  rw [s4 rfl, a1, a2, a3, a4, a5, hq.sqrt_eq ht, zpow_ofNat]
  push_cast
  rfl

/-- C106: the absorption distance of the differentiable driver with radiation, under conditions on the first root, which must differ from the
second.  Missing: other first roots. -/
theorem C106_absorption_partial (U : Universe4 p c o n k d E2 (min 0 z)) (hz : -1 < z) (hs : Solves solve) {r s : ℂ} {l : List ℂ}
    (hr : epolyRoots solve c o k d = r :: s :: l) (hrs : r ≠ s) (hr' : AbsCond o.Or0 o.Om0 r z) :
    callD4 solve c o n (fun L r1 r2 r3 r4 => diffAbsorption4 L r1 r2 r3 r4 z) = .ok (∫ t in (0 : ℝ)..z, absIntegrand (E2 t) t) := by
  obtain ⟨r1, r2, r3, r4, b', c', d', e', hR, hc, hC, hb, -, hE⟩ := U.factors (le_min (by norm_num) hz.le) hs.reverse
  have hR' : epolyRoots solve c o k d = [r1, r2, r3, r4] := by
    have : epolyRoots solve c o k d = (epolyRoots (fun cs => (solve cs).reverse) c o k d).reverse := by simp [epolyRoots, List.map_reverse]
    rw [this, hR]
    rfl
  rw [hR'] at hr
  obtain ⟨rfl, rfl, -⟩ : r1 = r ∧ r2 = s ∧ _ := by simpa using hr
  rw [callD4_eq, hc, Except.ok.injEq, diffAbsorption4, ellipticIntegral4]
  have hg : min z 0 < max z 0 → Good 1 0 (min z 0) (max z 0) r1 r2 r3 r4 := fun h => by
    rw [min_comm] at h ⊢
    exact abs_good hC h hb hr' rfl
  rw [min_comm] at hC
  refine Eq.trans (congrArg _ (EllRed.Im_abs4 hC hz (by norm_num) hrs hg)) (fix_integral fun t ht => ?_)
  rw [uIcc_comm] at ht
  have ht : min z 0 ≤ t := ht.1
  rw [absIntegrand, hE, invEfunc_eq U.radiation (hC.pos t ht), add_comm t 1]
  ring

/-- A universe with radiation and a root finder whose first root is `i` and differs from the second. -/
example (p : Phys) : ∃ c o k d E2 solve l, Universe4 p c o 2 k d E2 0 ∧ Solves solve ∧ epolyRoots solve c o k d = Complex.I :: -Complex.I :: l ∧
    Complex.I ≠ -Complex.I ∧ ∀ z, 0 < z → LookCond o.Or0 d Complex.I z ∧ AbsCond o.Or0 o.Om0 Complex.I z := by
  obtain ⟨c, o, U, h1, h2, h3⟩ := universe4_exists p 2 (-2) 8 (by norm_num) (by norm_num) 0 fun z hz => by
    have : 0 ≤ 1 + z := by linarith
    nlinarith [mul_pos (show 0 < (1 + z + 2) ^ 2 by positivity) (show 0 < z ^ 2 + 1 by positivity)]
  obtain ⟨solve, hs, he⟩ := solves_with [2, -2, 0, 8] [1 + Complex.I, 1 - Complex.I, -2, -2] ⟨rfl, fun x => by
    simp only [Roots.rootProd, Roots.monicEval, List.map_cons, List.map_nil, List.foldl_cons, List.foldl_nil, List.prod_cons, List.prod_nil]
    push_cast
    linear_combination (-(x + 2) ^ 2) * Complex.I_sq⟩
  refine ⟨c, o, _, _, _, solve, [-3, -3], U, hs, ?_, ?_, fun z hz => ⟨⟨?_, Or.inr ⟨?_, ?_, ?_⟩⟩, Or.inr ⟨?_, ?_⟩⟩⟩
  · rw [epolyRoots, h3, he]
    simp
    norm_num
  · intro e0
    have := congrArg Complex.im e0
    norm_num at this
  · intro e0
    have := congrArg Complex.im e0
    simp at this
  all_goals simp [hz.le]
  norm_num

end Verif.Ellred
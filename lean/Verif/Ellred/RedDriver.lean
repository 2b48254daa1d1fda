import Verif.Ellred.RedProps
import Verif.Ellred.Lambda

/-! # The differentiable analytic driver (cosmology/drivers/analytic_diff.py): C104 -/

namespace Verif.Ellred

open MeasureTheory Set Verif.Carlson Verif.Cosmo ComplexConjugate

/-- `elliptic_integral(z1, z2, *a, m=m, h=3)` (special/elliptic_reduction/functional.py:19-24, 43-44): `forward` builds
`EllipticReduction(z2, z1, a, h)` and returns `Im(m)`. -/
noncomputable def ellipticIntegral3 (z1 z2 : ℝ) (a : List ℂ) (m : List ℤ) : ℂ := (EllRed.mk z2 z1 a 3 (Or.inl rfl)).Im m

/-- `comoving_distance_dimless_z1z2` (analytic_diff.py:27-31) with `_epoly_degree = 3`. -/
noncomputable def diffComoving3 (L : ℝ) (r1 r2 r3 : ℂ) (z1 z2 : ℝ) : ℝ :=
  fixDimless L (ellipticIntegral3 z1 z2 ([r1, r2, r3].map Neg.neg) (List.replicate 3 0))

/-- `lookback_time_dimless` (analytic_diff.py:12-16). -/
noncomputable def diffLookback3 (L : ℝ) (r1 r2 r3 : ℂ) (z : ℝ) : ℝ :=
  fixDimless L (ellipticIntegral3 0 z ([r1, r2, r3].map Neg.neg ++ [1]) (List.replicate 3 0 ++ [-1]))

/-- `absorption_distance_dimless` (analytic_diff.py:21-25). -/
noncomputable def diffAbsorption3 (L : ℝ) (r1 r2 r3 : ℂ) (z : ℝ) : ℝ :=
  fixDimless L (ellipticIntegral3 0 z ([r1, r2, r3].map Neg.neg ++ [1]) (List.replicate 3 0 ++ [2]))

namespace EllRed

variable {E : EllRed}

/-- `Iqe` from -1 on: no two factors need differ. -/
theorem Iqe_ge (h : Ok0 E) (q : ℤ) (j : ℕ) (hb : ∀ i : ℕ, i = j ∨ (E.h = 4 ∧ i = 1) → ∀ q : ℤ, -1 ≤ q → q ≤ 1 → E.Ie (q * i) = E.J q i) :
    1 ≤ j → j ≤ E.n → -1 ≤ q → E.Iqe q j = E.J q j := by
  have hle := h.le
  have hh3 := E.hh
  induction q, j using EllRed.Iqe.induct E with
  | case1 q j h1 ih =>
    intro a1 a2 aq
    rw [Iqe, dif_pos h1]
    obtain ⟨-, h4, rfl⟩ := h1
    have hb1 : ∀ i : ℕ, i = 1 ∨ (E.h = 4 ∧ i = 1) → ∀ q : ℤ, -1 ≤ q → q ≤ 1 → E.Ie (q * i) = E.J q i := fun i hi => hb i (by omega)
    rw [Fin.sum_univ_three, ih 0 hb1 le_rfl (by omega) (by simp), ih 1 hb1 le_rfl (by omega) (by simp), ih 2 hb1 le_rfl (by omega) (by simp),
      J_two h a1 a2]
    simp [Nat.choose]
  | case2 q j h1 h2 ih =>
    intro a1 a2 aq
    rw [Iqe, dif_neg h1, dif_pos h2]
    have hr := A_rec h a1 a2 (q - E.h)
    have hs0 : E.sigma 0 j = 1 := by simp [sigma]
    have hne : E.IqePref (q - E.h) E.h j ≠ 0 := by
      rw [IqePref, Nat.sub_self, hs0]
      exact pref_ne _ _ _ one_ne_zero (by omega)
    rw [div_eq_iff hne, hr, Finset.sum_range_succ, show (q - E.h + (E.h : ℕ) : ℤ) = q by ring]
    have hlow : (E.h < j ∧ E.low j = 0) ∨ (j ≤ E.h ∧ E.low j = 1) := by
      unfold low
      split_ifs with hj
      · exact Or.inl ⟨hj, rfl⟩
      · exact Or.inr ⟨by omega, rfl⟩
    have e1 : ∑ r : Fin (E.h - E.low j), E.IqePref (q - E.h) (E.low j + r) j * E.Iqe (q - E.h + (E.low j + r : ℕ)) j =
        ∑ r : Fin (E.h - E.low j), E.IqePref (q - E.h) (E.low j + r) j * E.J (q - E.h + (E.low j + r : ℕ)) j :=
      Finset.sum_congr rfl fun r _ => by rw [ih r hb a1 a2 (by push_cast; omega)]
    rw [e1, Fin.sum_univ_eq_sum_range (fun r => E.IqePref (q - E.h) (E.low j + r) j * E.J (q - E.h + (E.low j + r : ℕ)) j)]
    have e2 : ∑ r ∈ Finset.range (E.h - E.low j), E.IqePref (q - E.h) (E.low j + r) j * E.J (q - E.h + (E.low j + r : ℕ)) j =
        ∑ r ∈ Finset.range E.h, E.IqePref (q - E.h) r j * E.J (q - E.h + (r : ℕ)) j := by
      rcases hlow with ⟨-, hl⟩ | ⟨hj, hl⟩
      · simp [hl]
      · obtain ⟨k, hk⟩ : ∃ k, E.h = k + 1 := ⟨E.h - 1, by omega⟩
        rw [hl, hk, Finset.sum_range_succ', Nat.add_sub_cancel]
        have : E.IqePref (q - (k + 1 : ℕ)) 0 j = 0 := by
          rw [IqePref, Nat.sub_zero, sigma_top a1 (by omega), mul_zero]
        rw [this, zero_mul, add_zero]
        simp only [add_comm 1]
    rw [e2]
    ring
  | case3 q j h1 h2 h3 h4 ih => omega
  | case4 q j h1 h2 h3 h4 ih => omega
  | case5 q j h1 h2 h3 =>
    intro a1 a2 aq
    rw [Iqe, dif_neg h1, dif_neg h2, dif_neg h3]
    exact hb j (Or.inl rfl) q (by omega) (by omega)

/-- The factor `1 + t`, outside the root of a cubic. -/
theorem Im_out {x y : ℝ} {r1 r2 r3 : ℂ} {b c d : ℝ} (hc : CubicOK (min x y) r1 r2 r3 b c d) (hx : -1 < x) (hy : -1 < y) {q : ℤ} (hq : -1 ≤ q)
    (hq0 : q ≠ 0) : (EllRed.mk x y [-r1, -r2, -r3, 1] 3 (Or.inl rfl)).Im [0, 0, 0, q] =
      ((∫ t in y..x, (1 + t) ^ q / √(CubicOK.cubic b c d t) : ℝ) : ℂ) := by
  set E := EllRed.mk x y [-r1, -r2, -r3, 1] 3 (Or.inl rfl) with hE
  have a1 : -E.av 1 = r1 := by simp [hE, av]
  have a2 : -E.av 2 = r2 := by simp [hE, av]
  have a3 : -E.av 3 = r3 := by simp [hE, av]
  have a4 : E.av 4 = (1 : ℝ) := by simp [hE, av]
  have hm : -1 < min x y := lt_min hx hy
  have ht' : ∀ t ∈ uIcc y x, min x y ≤ t := fun t ht => by rw [uIcc_comm] at ht; exact ht.1
  have h : Ok0 E := by
    refine ⟨by simp [hE, n], fun w hw t ht => ?_⟩
    have ht := ht' t ht
    obtain ⟨s1, s2, s3, -⟩ := hc.kernel (x := t + 1) (by linarith)
    have s1 := s1 t ⟨ht, by linarith⟩
    have s2 := s2 t ⟨ht, by linarith⟩
    have s3 := s3 t ⟨ht, by linarith⟩
    simp only [hE, List.mem_cons, List.not_mem_nil, or_false] at hw
    rcases hw with rfl | rfl | rfl | rfl
    · rwa [neg_add_eq_sub]
    · rwa [neg_add_eq_sub]
    · rwa [neg_add_eq_sub]
    · left; simp; linarith
  have key : ∀ F : EllRed, F.y < F.x → F.h = 3 → F.a = E.a → Ok0 F → CubicOK F.y r1 r2 r3 b c d → -1 < F.y → ∀ q : ℤ, -1 ≤ q → q ≤ 1 →
      F.Ie (q * (4 : ℕ)) = F.J q 4 := by
    intro F hlt f3 fa fo fc fy q q1 q2
    have hav : F.av = E.av := by funext i; rw [av, av, fa]
    have fn : F.n = 4 := by rw [n, fa]; rfl
    refine Cub.Ie_eq0 (b := b) (c := c) (d := d) ⟨f3, hlt, by rw [hav, a1, a2, a3]; exact fc⟩ fo (fun j j1 j2 => ?_) (fun h => absurd h (by omega))
      (by omega) (by omega) q1 q2
    obtain rfl : j = 4 := by omega
    exact ⟨1, by rw [hav, a4], by linarith⟩
  have hb : ∀ q : ℤ, -1 ≤ q → q ≤ 1 → E.Ie (q * (4 : ℕ)) = E.J q 4 := by
    intro q q1 q2
    rcases lt_trichotomy y x with hlt | heq | hgt
    · exact key E hlt rfl rfl h (by rw [min_eq_right hlt.le] at hc; exact hc) hy q q1 q2
    · rw [Ie_zero (E := E) heq.symm, J_zero (E := E) heq.symm]
    · have := key E.swap hgt rfl rfl h.swap (by rw [min_eq_left hgt.le] at hc; exact hc) hx q q1 q2
      rw [Ie_swap, J_swap] at this
      exact neg_injective this
  have e1 : E.Im [0, 0, 0, q] = E.Iqe q 4 := by
    rw [Im, if_neg (by simp [hq0])]
    have : ([0, 0, 0, q].zipIdx 1).filter (fun k => k.1 ≠ 0) = [(q, 4)] := by simp [List.zipIdx, hq0]
    rw [this]
  rw [e1, Iqe_ge h q 4 (fun i hi => by obtain rfl | ⟨h4, -⟩ := hi; exacts [hb, absurd h4 (by simp [hE])]) (by omega) (by simp [hE, n]) hq, J, ← intervalIntegral.integral_ofReal]
  apply intervalIntegral.integral_congr
  intro t ht
  have ht := ht' t ht
  simp only
  rw [s3 rfl, a1, a2, a3, a4, hc.sqrt_eq (x := t + 1) (by linarith) ⟨ht, by linarith⟩]
  push_cast
  rfl

end EllRed

variable {p : Phys} {c : Cls} {o : Obj} {n : ℕ} {E2 : ℝ → ℝ} {z1 z2 z : ℝ} {solve : List ℝ → List ℂ}

theorem fix_integral {L : ℝ} {x y : ℝ} {f g : ℝ → ℝ} (h : ∀ t ∈ uIcc y x, g t = f t / L ^ (0.5 : ℝ)) :
    fixDimless L ((∫ t in y..x, f t : ℝ) : ℂ) = ∫ t in y..x, g t := by
  rw [fixDimless, Complex.ofReal_re, ← intervalIntegral.integral_div]
  exact (intervalIntegral.integral_congr h).symm

/-- C104: the comoving distance of the differentiable driver is the integral of `1/E`. -/
theorem C104_comoving (U : Universe p c o n E2 (min z1 z2)) (hs : Solves solve) :
    call3 solve c o n (fun L r1 r2 r3 => diffComoving3 L r1 r2 r3 z1 z2) = .ok (∫ z in z1..z2, invEfunc (E2 z)) := by
  rw [← C91_comoving U hs]
  congr 1
  funext L r1 r2 r3
  rw [diffComoving3, comoving3, ellipticIntegral3, EllRed.Im, if_pos (by simp), EllRed.Ie]
  have hx : ∀ (r : ℂ) (t : ℝ), csqrt (-r + t) = Xr r t := fun r t => by rw [Xr, neg_add_eq_sub]
  simp only [EllRed.Ie0, EllRed.U2, EllRed.rest, EllRed.idxSet, List.range_succ, List.range_zero, List.nil_append, List.cons_append, List.map_cons,
    List.map_nil, EllRed.xmy]
  simp [EllRed.X, EllRed.Y, EllRed.av, hx]
  rw [RFc_swap12, RFc_swap23, RFc_swap12, fixDimless, fixDimless, ← Complex.ofReal_sub, show (2 : ℂ) * ((z2 - z1 : ℝ) : ℂ) = ((2 * (z2 - z1) : ℝ) : ℂ) by push_cast; ring, Complex.re_ofReal_mul,
    ← mul_div_assoc]
  simp only [params3]
  congr 4
  all_goals ring

/-- C104: the lookback time of the differentiable driver is the integral of `1/((1+z) E)`. -/
theorem C104_lookback (U : Universe p c o n E2 (min 0 z)) (hz : -1 < z) (hs : Solves solve) :
    call3 solve c o n (fun L r1 r2 r3 => diffLookback3 L r1 r2 r3 z) = .ok (∫ t in (0 : ℝ)..z, lookbackIntegrand (E2 t) t) := by
  obtain ⟨r1, r2, r3, b', c', d', hc, hC, hE⟩ := U.cubic hs
  rw [hc, Except.ok.injEq, diffLookback3, ellipticIntegral3]
  rw [min_comm] at hC
  have := EllRed.Im_out hC hz (by norm_num) (q := -1) le_rfl (by norm_num)
  refine Eq.trans (congrArg _ this) (fix_integral fun t ht => ?_)
  rw [uIcc_comm] at ht
  have ht : min z 0 ≤ t := ht.1
  have h0 := Real.rpow_pos_of_pos U.matter (0.5 : ℝ)
  have h1 := Real.sqrt_pos.mpr (hC.cpos ht)
  have h2 : 0 < 1 + t := by
    rcases min_le_iff.mp ht with h | h <;> linarith
  rw [lookbackIntegrand, hE, invEfunc_eq U.matter (hC.cpos ht), add_comm t 1, zpow_neg_one]
  field_simp

/-- C104: the absorption distance of the differentiable driver is the integral of `(1+z)² / E`. -/
theorem C104_absorption (U : Universe p c o n E2 (min 0 z)) (hz : -1 < z) (hs : Solves solve) :
    call3 solve c o n (fun L r1 r2 r3 => diffAbsorption3 L r1 r2 r3 z) = .ok (∫ t in (0 : ℝ)..z, absIntegrand (E2 t) t) := by
  obtain ⟨r1, r2, r3, b', c', d', hc, hC, hE⟩ := U.cubic hs
  rw [hc, Except.ok.injEq, diffAbsorption3, ellipticIntegral3]
  rw [min_comm] at hC
  have := EllRed.Im_out hC hz (by norm_num) (q := 2) (by norm_num) (by norm_num)
  refine Eq.trans (congrArg _ this) (fix_integral fun t ht => ?_)
  rw [uIcc_comm] at ht
  have ht : min z 0 ≤ t := ht.1
  rw [absIntegrand, hE, invEfunc_eq U.matter (hC.cpos ht), add_comm t 1, zpow_ofNat]
  ring

/-- A curved universe that the driver integrates from `z = -1/2` on, and a root finder. -/
example (p : Phys) : (∃ c o E2, c.flat = false ∧ Universe p c o 2 E2 (min 0 (-1 / 2 : ℝ))) ∧ ∃ solve, Solves solve := by
  rw [min_eq_right (by norm_num)]
  constructor
  · have hr : Reachable p ⟨.lambda, false, false⟩ _ := ⟨1, [(.Om0, 0.3), (.Ode0, 0.5)], [], _, rfl, rfl⟩
    refine ⟨⟨.lambda, false, false⟩, _, fun z => 0.3 * (1 + z) ^ 3 + 0.2 * (1 + z) ^ 2 + 0.5, rfl, rfl, rfl, hr, le_rfl, ?_, fun z => ?_, fun z hz => ?_⟩
    · norm_num [setParams, assign]
    · norm_num [setParams, assign, e2func, Cosmo.e2, e2base, ok0, ode0, sum0]
      ring
    · have : 0 < 1 + z := by linarith
      positivity
  · obtain ⟨eig, heig⟩ := Roots.eigSpec_nonempty
    obtain ⟨solve, h, -⟩ := solves_exists _ _ Roots.principal_cpow Roots.cbrt_cpow eig heig false fun _ => .ok []
    exact ⟨solve, h⟩

end Verif.Ellred

import Verif.Ellred.TapeProps

/-! # Gradients of the analytic comoving distance with radiation (C143) -/

namespace Verif.Ellred

open MeasureTheory Set Filter Topology Verif.Carlson Verif.Cosmo ComplexConjugate

variable {p : Phys} {c : Cls} {o : Obj} {n : ℕ} {solve : List ℝ → List ℂ}

/-! ### Repeated roots -/

theorem hasDerivAt_rootProd (rts : List ℂ) (m : Fin rts.length) :
    HasDerivAt (Roots.rootProd rts) (∏ k ∈ Finset.univ.erase m, (rts.get m - rts.get k)) (rts.get m) := by
  have hg : DifferentiableAt ℂ (fun x => ∏ k ∈ Finset.univ.erase m, (x - rts.get k)) (rts.get m) :=
    DifferentiableAt.fun_finset_prod fun k _ => differentiableAt_id.sub_const _
  have := ((hasDerivAt_id (rts.get m)).sub_const (rts.get m)).mul hg.hasDerivAt
  refine (this.congr_of_eventuallyEq (Eventually.of_forall fun x => ?_)).congr_deriv ?_
  · exact Roots.rootProd_erase rts m x
  · simp

/-- A list has no repetition iff the polynomial with these roots has no root in common with its derivative. -/
theorem nodup_iff_simple (rts : List ℂ) {P' : ℂ → ℂ} (h : ∀ x, HasDerivAt (Roots.rootProd rts) (P' x) x) :
    rts.Nodup ↔ ∀ x, Roots.rootProd rts x = 0 → P' x ≠ 0 := by
  refine ⟨fun hn x hx => ?_, fun hs => ?_⟩
  · have : x ∈ rts := by
      rw [Roots.rootProd, List.prod_eq_zero_iff, List.mem_map] at hx
      obtain ⟨a, ha, e⟩ := hx
      rwa [sub_eq_zero.mp e]
    obtain ⟨m, rfl⟩ := List.mem_iff_get.mp this
    rw [(h _).unique (hasDerivAt_rootProd rts m)]
    exact Roots.prod_ne_zero_of_nodup rts hn m
  · rw [List.nodup_iff_injective_get]
    intro i j e
    by_contra hne
    refine hs (rts.get i) ?_ ?_
    · rw [Roots.rootProd_erase rts i, sub_self, zero_mul]
    · rw [(h _).unique (hasDerivAt_rootProd rts i)]
      exact Finset.prod_eq_zero (Finset.mem_erase.mpr ⟨fun h => hne h.symm, Finset.mem_univ j⟩) (by rw [e, sub_self])

/-! ### Four roots -/

/-- `E²` as a quartic in `1 + t`. -/
def Q4 (r m k d t : ℝ) : ℝ := r * (1 + t) ^ 4 + m * (1 + t) ^ 3 + k * (1 + t) ^ 2 + d

theorem Q4_quartic {L : ℝ} (hL : L ≠ 0) (m k d t : ℝ) : Q4 L m k d t =
    L * quartic (4 + m / L) (6 + 3 * (m / L) + k / L) (4 + 3 * (m / L) + 2 * (k / L)) (1 + m / L + k / L + d / L) t := by
  rw [Q4, quartic]
  field_simp
  ring

/-- Positivity from a moving lower limit on is stable. -/
theorem eventually_pos4 {L m k d lo : ℝ → ℝ} {s0 : ℝ} (hL : ContinuousAt L s0) (hm : ContinuousAt m s0) (hk : ContinuousAt k s0) (hd : ContinuousAt d s0)
    (hlo : ContinuousAt lo s0) (h0 : 0 < L s0) (h : ∀ t, lo s0 ≤ t → 0 < Q4 (L s0) (m s0) (k s0) (d s0) t) :
    ∀ᶠ s in 𝓝 s0, ∀ t, lo s ≤ t → 0 < Q4 (L s) (m s) (k s) (d s) t := by
  set a := L s0 / 2 with ha
  set M := |m s0| + 1 with hM
  set K := |k s0| + 1 with hK
  set D := |d s0| + 1 with hD
  have a0 : 0 < a := by positivity
  have M0 : 0 < M := by positivity
  have K0 : 0 < K := by positivity
  have D0 : 0 < D := by positivity
  set T := |lo s0| + 1 + (M + K + D) / a + 1 with hT
  have e1 : ∀ᶠ s in 𝓝 s0, a < L s := hL.eventually_const_lt (by rw [ha]; linarith)
  have e6 : ∀ᶠ s in 𝓝 s0, |m s| < M := hm.abs.eventually_lt_const (by rw [hM]; linarith)
  have e2 : ∀ᶠ s in 𝓝 s0, |k s| < K := hk.abs.eventually_lt_const (by rw [hK]; linarith)
  have e3 : ∀ᶠ s in 𝓝 s0, |d s| < D := hd.abs.eventually_lt_const (by rw [hD]; linarith)
  have e4 : ∀ᶠ s in 𝓝 s0, lo s0 - 1 < lo s := hlo.eventually_const_lt (by linarith)
  have e5 : ∀ᶠ s in 𝓝 s0, ∀ u ∈ Icc (0 : ℝ) T, 0 < Q4 (L s) (m s) (k s) (d s) (lo s + u) := by
    refine isCompact_Icc.eventually_forall_of_forall_eventually fun u hu => ?_
    have f : ∀ {φ : ℝ → ℝ}, ContinuousAt φ s0 → ContinuousAt (fun p : ℝ × ℝ => φ p.1) (s0, u) := fun hφ =>
      ContinuousAt.comp (f := Prod.fst) (x := (s0, u)) hφ continuousAt_fst
    have hx : ContinuousAt (fun p : ℝ × ℝ => 1 + (lo p.1 + p.2)) (s0, u) := continuousAt_const.add ((f hlo).add continuousAt_snd)
    have hc : ContinuousAt (fun p : ℝ × ℝ => Q4 (L p.1) (m p.1) (k p.1) (d p.1) (lo p.1 + p.2)) (s0, u) :=
      ((((f hL).mul (hx.pow 4)).add ((f hm).mul (hx.pow 3))).add ((f hk).mul (hx.pow 2))).add (f hd)
    exact hc.eventually_const_lt (h _ (by linarith [hu.1]))
  filter_upwards [e1, e2, e3, e4, e5, e6] with s s1 s2 s3 s4 s5 s6 t ht
  by_cases hu : t - lo s ≤ T
  · have := s5 (t - lo s) ⟨by linarith, hu⟩
    rwa [add_sub_cancel] at this
  · push Not at hu
    have hlo' := neg_abs_le (lo s0)
    have hv : (M + K + D) / a + 1 ≤ 1 + t := by rw [hT] at hu; linarith
    set v := 1 + t with hv'
    have hq : 0 < (M + K + D) / a := by positivity
    have v1 : 1 ≤ v := by linarith
    have hb : M + K + D < a * v := by
      have : (M + K + D) / a < v := by linarith
      rwa [div_lt_iff₀' a0] at this
    rw [abs_lt] at s2 s3 s6
    have v2 : 1 ≤ v ^ 3 := one_le_pow₀ v1
    have v3 : 0 ≤ v ^ 3 - v ^ 2 := by nlinarith [sq_nonneg v]
    have p1 : 0 ≤ (L s - a) * v ^ 4 := mul_nonneg (by linarith) (by positivity)
    have p5 : 0 ≤ (m s + M) * v ^ 3 := mul_nonneg (by linarith) (by positivity)
    have p2 : 0 ≤ (k s + K) * v ^ 2 := mul_nonneg (by linarith) (by positivity)
    have p6 : 0 ≤ K * (v ^ 3 - v ^ 2) := mul_nonneg K0.le v3
    have p3 : 0 ≤ D * (v ^ 3 - 1) := mul_nonneg D0.le (by linarith)
    have p4 : 0 < (a * v - M - K - D) * v ^ 3 := mul_pos (by linarith) (by positivity)
    rw [Q4, ← hv']
    nlinarith

/-- A path of universes with radiation. -/
structure Path4 (p : Phys) (c : Cls) (n : ℕ) (U : ℝ → Obj) (Or Om k d : ℝ → ℝ) : Prop where
  lam : c.de = .lambda
  rad : c.rad = true
  reach : ∀ s, Reachable p c (U s)
  fuel : 2 ≤ n
  om : ∀ s, (U s).Om0 = Om s
  or : ∀ s, (U s).Or0 = Or s
  hk : ∀ s, ok0 c (U s) n = .ok (k s)
  hd : ∀ s, ode0 c (U s) n = .ok (d s)

theorem quarticOK_roots {L m k d y : ℝ} (hL : 0 < L) (hm : 0 < m) (hy : -1 ≤ y) (hp : ∀ t, y ≤ t → 0 < Q4 L m k d t) {R : Fin 4 → ℂ}
    (hr : Roots.AreRoots (List.ofFn fun j => ((![m, k, 0, d] j / L : ℝ) : ℂ)) (List.ofFn R)) :
    QuarticOK y (R 3 - 1) (R 2 - 1) (R 1 - 1) (R 0 - 1) (4 + m / L) (6 + 3 * (m / L) + k / L) (4 + 3 * (m / L) + 2 * (k / L)) (1 + m / L + k / L + d / L) := by
  refine ⟨fun z => ?_, fun t ht => ?_, QuarticOK.slope_of hy (by have := div_pos hm hL; linarith) (by ring)⟩
  · have := hr.2 (z + 1)
    simp [Roots.rootProd, Roots.monicEval, List.ofFn_succ] at this
    push_cast at this ⊢
    linear_combination this
  · have := hp t ht
    rw [Q4_quartic hL.ne'] at this
    exact pos_of_mul_pos_right this hL.le

theorem e2func_Q4 {k d : ℝ} (hde : c.de = .lambda) (hrad : c.rad = true) (hk : ok0 c o n = .ok k) (hd : ode0 c o n = .ok d) (z : ℝ) :
    e2func c o n z = .ok (Q4 o.Or0 o.Om0 k d z) := by
  simp only [e2func, Cosmo.e2, e2base, hk, hd, hde, hrad, if_true, Q4]
  congr 1
  ring

theorem roots4 (hs : Solves solve) (a b d : ℝ) : ∃ R1 R2 R3 R4, solve [a, b, 0, d] = [R1, R2, R3, R4] ∧
    ∀ x, Roots.rootProd [R1, R2, R3, R4] x = x ^ 4 + a * x ^ 3 + b * x ^ 2 + d := by
  obtain ⟨h1, h2⟩ := hs [a, b, 0, d]
  match h : solve [a, b, 0, d], h1 with
  | [R1, R2, R3, R4], _ =>
    refine ⟨R1, R2, R3, R4, rfl, fun x => ?_⟩
    have := h2 x
    rw [h] at this
    rw [this]
    simp [Roots.monicEval]
    ring

/-- The roots of `x⁴ + (m/L) x³ + (k/L) x² + d/L` are simple iff `E²` as a polynomial in `1 + z` has no zero in common with its derivative. -/
theorem nodup4_iff {R1 R2 R3 R4 : ℂ} {L m k d : ℝ} (hL : L ≠ 0)
    (h : ∀ x, Roots.rootProd [R1, R2, R3, R4] x = x ^ 4 + (m / L : ℝ) * x ^ 3 + (k / L : ℝ) * x ^ 2 + (d / L : ℝ)) :
    [R1, R2, R3, R4].Nodup ↔ ∀ x : ℂ, L * x ^ 4 + m * x ^ 3 + k * x ^ 2 + d = 0 → 4 * L * x ^ 3 + 3 * m * x ^ 2 + 2 * k * x ≠ 0 := by
  have hL' : (L : ℂ) ≠ 0 := by exact_mod_cast hL
  have hd : ∀ x, HasDerivAt (Roots.rootProd [R1, R2, R3, R4]) (4 * x ^ 3 + (m / L : ℝ) * (3 * x ^ 2) + (k / L : ℝ) * (2 * x)) x := fun x => by
    rw [show Roots.rootProd [R1, R2, R3, R4] = fun x : ℂ => x ^ 4 + ((m / L : ℝ) : ℂ) * x ^ 3 + ((k / L : ℝ) : ℂ) * x ^ 2 + ((d / L : ℝ) : ℂ) from funext h]
    have := (((hasDerivAt_pow 4 x).add ((hasDerivAt_pow 3 x).const_mul ((m / L : ℝ) : ℂ))).add ((hasDerivAt_pow 2 x).const_mul ((k / L : ℝ) : ℂ))).add_const ((d / L : ℝ) : ℂ)
    refine this.congr_deriv ?_
    norm_num
  rw [nodup_iff_simple _ hd]
  refine forall_congr' fun x => ?_
  rw [h]
  have e1 : (L : ℂ) * x ^ 4 + m * x ^ 3 + k * x ^ 2 + d = L * (x ^ 4 + (m / L : ℝ) * x ^ 3 + (k / L : ℝ) * x ^ 2 + (d / L : ℝ)) := by
    push_cast; field_simp
  have e2 : 4 * (L : ℂ) * x ^ 3 + 3 * m * x ^ 2 + 2 * k * x = L * (4 * x ^ 3 + (m / L : ℝ) * (3 * x ^ 2) + (k / L : ℝ) * (2 * x)) := by
    push_cast; field_simp
  rw [e1, e2, mul_eq_zero, mul_ne_zero_iff]
  simp [hL']

attribute [local irreducible] Ex.back

theorem Path4.comoving {U : ℝ → Obj} {Or Om k d z1 z2 : ℝ → ℝ} {Om' k' d' De' Or' z1' z2' s0 : ℝ} (P : Path4 p c n U Or Om k d) (hs : Solves solve)
    (hOr : HasDerivAt Or Or' s0) (hOm : HasDerivAt Om Om' s0)
    (hk : HasDerivAt k k' s0) (hd : HasDerivAt d d' s0) (h1 : HasDerivAt z1 z1' s0) (h2 : HasDerivAt z2 z2' s0)
    (hleaf : ∀ gL g0 g1 g2 g3 z, let G := leavesOf true c.flat gL [g0, g1, g2, g3] z
      G.Om0 * Om' + G.Or0 * Or' + G.Ode0 * De' = gL * Or' + g0 * Om' + g1 * k' + g3 * d') (hr0 : 0 < Or s0) (hm : 0 < Om s0) (hlo : -1 < min (z1 s0) (z2 s0))
    (hp : ∀ t, min (z1 s0) (z2 s0) ≤ t → 0 < Q4 (Or s0) (Om s0) (k s0) (d s0) t)
    (hsim : ∀ x : ℂ, Or s0 * x ^ 4 + Om s0 * x ^ 3 + k s0 * x ^ 2 + d s0 = 0 → 4 * Or s0 * x ^ 3 + 3 * Om s0 * x ^ 2 + 2 * k s0 * x ≠ 0) :
    ComovingGradOK solve c n U z1 z2 Om' Or' De' z1' z2' s0 := by
  have hmin := h1.continuousAt.min h2.continuousAt
  have e1 := eventually_pos4 hOr.continuousAt hOm.continuousAt hk.continuousAt hd.continuousAt hmin hr0 hp
  have e2 : ∀ᶠ s in 𝓝 s0, 0 < Om s := hOm.continuousAt.eventually_const_lt hm
  have e3 : ∀ᶠ s in 𝓝 s0, 0 < Or s := hOr.continuousAt.eventually_const_lt hr0
  have e4 : ∀ᶠ s in 𝓝 s0, -1 < min (z1 s) (z2 s) := hmin.eventually_const_lt hlo
  obtain ⟨R1, R2, R3, R4, hr, hpr⟩ := roots4 hs (Om s0 / Or s0) (k s0 / Or s0) (d s0 / Or s0)
  have hnd : [R1, R2, R3, R4].Nodup := (nodup4_iff hr0.ne' hpr).mpr hsim
  have hAR : Roots.AreRoots (List.ofFn fun j : Fin 4 => ((![Om s0, k s0, 0, d s0] j / Or s0 : ℝ) : ℂ)) [R1, R2, R3, R4] := by
    have := hs [Om s0 / Or s0, k s0 / Or s0, 0, d s0 / Or s0]
    rw [hr] at this
    simpa [List.ofFn_succ] using this
  refine ⟨fun s => ∫ t in (z1 s)..(z2 s), invEfunc (Q4 (Or s) (Om s) (k s) (d s) t), ?_, fun ℓ g hℓ => ?_⟩
  · filter_upwards [e1, e2, e3, e4] with s s1 s2 s3 s4
    rw [comovingCall, P.rad, if_pos rfl]
    refine C94_comoving (E2 := Q4 (Or s) (Om s) (k s) (d s)) ⟨P.lam, P.rad, P.reach s, P.fuel, by rwa [P.om], by rwa [P.or], P.hk s, P.hd s, ?_, s1⟩
      (lt_min_iff.mp s4).1.le (lt_min_iff.mp s4).2.le hs
    have := e2func_Q4 P.lam P.rad (P.hk s) (P.hd s)
    rwa [P.om, P.or] at this
  · have hok : ex4.OK (inputs (Or s0) (z1 s0) (z2 s0) [R1, R2, R3, R4].get) :=
      ex4_ok hr0 [R1, R2, R3, R4].get (quarticOK_roots hr0 hm hlo.le hp (R := [R1, R2, R3, R4].get) (by rw [List.ofFn_get]; exact hAR))
    obtain ⟨r, -, hev, dd, hder, hG⟩ := backprop (rts := [R1, R2, R3, R4]) (by simp) hnd ex4 (C := fun s => ![Om s, k s, 0, d s]) (C' := ![Om', k', 0, d']) hOr h1 h2
      (fun j => by
        fin_cases j
        · exact hOm
        · exact hk
        · exact hasDerivAt_const s0 (0 : ℝ)
        · exact hd) hr0.ne' hAR hok
    have hD : HasDerivAt (fun s => ∫ t in (z1 s)..(z2 s), invEfunc (Q4 (Or s) (Om s) (k s) (d s) t)) dd.re s0 := by
      have := Complex.reCLM.hasFDerivAt.comp_hasDerivAt s0 hder
      refine HasDerivAt.congr_of_eventuallyEq this ?_
      filter_upwards [e1, e2, hev, e3, e4] with s s1 s2 s3 s4 s5
      have hC := quarticOK_roots s4 s2 s5.le s1 (R := r s) s3
      have e := ex4_eval (z1 := z1 s) (z2 := z2 s) s4 (r s)
      simp only [Function.comp_apply, Complex.reCLM_apply]
      rw [e, Complex.ofReal_re, hC.comoving_value s4]
      exact intervalIntegral.integral_congr fun t _ => by rw [Q4_quartic s4.ne']
    obtain ⟨gc, hgc, hsum⟩ := hG g
    have hl : epolyLeading c (U s0) = Or s0 := by simp [epolyLeading, P.rad, P.or]
    have hc : epolyCoeffs_ c (U s0) (k s0) (d s0) = [Om s0, k s0, 0, d s0] := by simp [epolyCoeffs_, P.rad, P.om]
    have hc' : epolyCoeffs c (U s0) (k s0) (d s0) = [Om s0 / Or s0, k s0 / Or s0, 0, d s0 / Or s0] := by simp [epolyCoeffs, hc, hl]
    set G := ex4.back (inputs (Or s0) (z1 s0) (z2 s0) [R1, R2, R3, R4].get) g with hGd
    have hb : comovingBackward solve c (U s0) n (z1 s0) (z2 s0) g =
        .ok (leavesOf true c.flat ((G (Fin.castAdd _ 0)).re + (-(gc 0).re * (Om s0 / Or s0 / Or s0) + (-(gc 1).re * (k s0 / Or s0 / Or s0) +
            (-(gc 2).re * (0 / Or s0 / Or s0) + (-(gc 3).re * (d s0 / Or s0 / Or s0) + 0)))))
          [(gc 0).re / Or s0, (gc 1).re / Or s0, (gc 2).re / Or s0, (gc 3).re / Or s0] ((G (Fin.castAdd _ 1)).re, (G (Fin.castAdd _ 2)).re)) := by
      simp only [comovingBackward, methodBackward, P.hk, P.hd, hc', hr]
      rw [methodBackwardAt_eq (rts := [R1, R2, R3, R4]) (e := ex4) comovingEx_four (gc := gc) (by rw [hl]; exact hgc), hl, hc, P.rad, map_ofFn4 gc]
      simp only [coeffsBackward, List.map_cons, List.map_nil, List.zipWith_cons_cons, List.zipWith_nil_right, List.sum_cons, List.sum_nil]
      rfl
    refine ⟨_, hb, (hℓ.comp s0 hD).congr_deriv ?_⟩
    have hS := Fin.sum_univ_four fun j : Fin 4 => (gc j).re * ((![Om', k', 0, d'] : Fin 4 → ℝ) j / Or s0 - (![Om s0, k s0, 0, d s0] : Fin 4 → ℝ) j / Or s0 / Or s0 * Or')
    rw [hsum, hleaf]
    refine Eq.trans (congrArg _ hS) ?_
    simp only [(leavesOf_z _ _ _ _ _).1, (leavesOf_z _ _ _ _ _).2, Matrix.cons_val_zero, Matrix.cons_val_one, Matrix.cons_val]
    ring

end Verif.Ellred

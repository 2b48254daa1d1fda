import Verif.Ellred.TapeCond

/-! # Gradients of the analytic comoving distances (C143) -/

namespace Verif.Ellred

open MeasureTheory Set Filter Topology Verif.Carlson Verif.Cosmo ComplexConjugate

variable {p : Phys} {c : Cls} {o : Obj} {n : ℕ} {solve : List ℝ → List ℂ}

/-- What is proved: along a path `U` of universes and redshifts `z1`, `z2`, every loss of the comoving distance has the derivative that the gradients of
backpropagation give. -/
def ComovingGradOK (solve : List ℝ → List ℂ) (c : Cls) (n : ℕ) (U : ℝ → Obj) (z1 z2 : ℝ → ℝ) (Om' Or' De' z1' z2' s0 : ℝ) : Prop :=
  ∃ D : ℝ → ℝ, (∀ᶠ s in 𝓝 s0, comovingCall solve c (U s) n (z1 s) (z2 s) = .ok (D s)) ∧
    ∀ (ℓ : ℝ → ℝ) (g : ℝ), HasDerivAt ℓ g (D s0) → ∃ G, comovingBackward solve c (U s0) n (z1 s0) (z2 s0) g = .ok G ∧
      HasDerivAt (fun s => ℓ (D s)) (G.Om0 * Om' + G.Or0 * Or' + G.Ode0 * De' + G.z1 * z1' + G.z2 * z2') s0

theorem methodBackwardAt_eq {ex : (m : ℕ) → Option (Ex (3 + m))} {rts : List ℂ} {e : Ex (3 + rts.length)} (he : ex rts.length = some e) {k d z1 z2 g : ℝ} {gc : Fin rts.length → ℂ}
    (hg : rootsBackward rts (List.ofFn fun i : Fin rts.length => e.back (inputs (epolyLeading c o) z1 z2 rts.get) g (Fin.natAdd 3 i)) = .ok (List.ofFn gc)) :
    methodBackwardAt ex rts c o k d z1 z2 g =
      let G := e.back (inputs (epolyLeading c o) z1 z2 rts.get) g
      let gcs := coeffsBackward (epolyLeading c o) (epolyCoeffs_ c o k d) ((List.ofFn gc).map Complex.re)
      .ok (leavesOf c.rad c.flat ((G (Fin.castAdd _ 0)).re + gcs.2) gcs.1 ((G (Fin.castAdd _ 1)).re, (G (Fin.castAdd _ 2)).re)) := by
  simp only [methodBackwardAt, he, hg]

theorem leavesOf_z (rad flat : Bool) (gL : ℝ) (gc : List ℝ) (z : ℝ × ℝ) : (leavesOf rad flat gL gc z).z1 = z.1 ∧ (leavesOf rad flat gL gc z).z2 = z.2 := by
  unfold leavesOf
  cases flat <;> simp

theorem map_ofFn3 (gc : Fin 3 → ℂ) : (List.ofFn gc).map Complex.re = [(gc 0).re, (gc 1).re, (gc 2).re] := by simp [List.ofFn_succ]

theorem map_ofFn4 (gc : Fin 4 → ℂ) : (List.ofFn gc).map Complex.re = [(gc 0).re, (gc 1).re, (gc 2).re, (gc 3).re] := by simp [List.ofFn_succ]

attribute [local irreducible] Ex.back

/-! ### Three roots -/

theorem cubicOK_roots {L k d y : ℝ} (hL : 0 < L) (hp : ∀ t, y ≤ t → 0 < Q L k d t) {R : Fin 3 → ℂ}
    (hr : Roots.AreRoots (List.ofFn fun j => ((![k, 0, d] j / L : ℝ) : ℂ)) (List.ofFn R)) :
    CubicOK y (R 0 - 1) (R 1 - 1) (R 2 - 1) (3 + k / L) (3 + 2 * k / L) (1 + k / L + d / L) := by
  refine ⟨fun z => ?_, fun t ht => ?_⟩
  · have := hr.2 (z + 1)
    simp [Roots.rootProd, Roots.monicEval, List.ofFn_succ] at this
    push_cast at this ⊢
    linear_combination this
  · have := hp t ht
    rw [Q_cubic hL.ne'] at this
    exact pos_of_mul_pos_right this hL.le

/-- A method on a path of universes with simple roots: backpropagation through its operations gives the derivative of its value. -/
theorem Path.method {U : ℝ → Obj} {Om k d z1 z2 : ℝ → ℝ} {Om' k' d' De' Or' z1' z2' s0 : ℝ} (P : Path p c n U Om k d) (hs : Solves solve) (hOm : HasDerivAt Om Om' s0)
    (hk : HasDerivAt k k' s0) (hd : HasDerivAt d d' s0) (h1 : HasDerivAt z1 z1' s0) (h2 : HasDerivAt z2 z2' s0)
    (hleaf : ∀ gL g0 g1 g2 z, let G := leavesOf false c.flat gL [g0, g1, g2] z
      G.Om0 * Om' + G.Or0 * Or' + G.Ode0 * De' = gL * Om' + g0 * k' + g2 * d') (hm : 0 < Om s0)
    (hd0 : d s0 ≠ 0) (hdisc : 4 * k s0 ^ 3 + 27 * Om s0 ^ 2 * d s0 ≠ 0) {ex : (m : ℕ) → Option (Ex (3 + m))} {e : Ex (3 + 3)} (hex : ex 3 = some e) {D : ℝ → ℝ}
    (hok : ∀ R : Fin 3 → ℂ, Roots.AreRoots (List.ofFn fun j => ((![k s0, 0, d s0] j / Om s0 : ℝ) : ℂ)) (List.ofFn R) → Function.Injective R →
      e.OK (inputs (Om s0) (z1 s0) (z2 s0) R))
    (hval : ∀ᶠ s in 𝓝 s0, ∀ R : Fin 3 → ℂ, Roots.AreRoots (List.ofFn fun j => ((![k s, 0, d s] j / Om s : ℝ) : ℂ)) (List.ofFn R) →
      (e.eval (inputs (Om s) (z1 s) (z2 s) R)).re = D s) (ℓ : ℝ → ℝ) (g : ℝ) (hℓ : HasDerivAt ℓ g (D s0)) :
    ∃ G, methodBackward ex solve c (U s0) n (z1 s0) (z2 s0) g = .ok G ∧
      HasDerivAt (fun s => ℓ (D s)) (G.Om0 * Om' + G.Or0 * Or' + G.Ode0 * De' + G.z1 * z1' + G.z2 * z2') s0 := by
  obtain ⟨R1, R2, R3, hr⟩ := roots3 hs (k s0 / Om s0) (d s0 / Om s0)
  have hnd : [R1, R2, R3].Nodup := hr.nodup_iff.mpr ⟨div_ne_zero hd0 hm.ne', by
    rw [show 4 * (k s0 / Om s0) ^ 3 + 27 * (d s0 / Om s0) = (4 * k s0 ^ 3 + 27 * Om s0 ^ 2 * d s0) / Om s0 ^ 3 by field_simp]
    exact div_ne_zero hdisc (pow_ne_zero _ hm.ne')⟩
  have hAR : Roots.AreRoots (List.ofFn fun j : Fin 3 => ((![k s0, 0, d s0] j / Om s0 : ℝ) : ℂ)) [R1, R2, R3] := by
    have := hs [k s0 / Om s0, 0, d s0 / Om s0]
    rw [hr.eq] at this
    simpa [List.ofFn_succ] using this
  have hok' : e.OK (inputs (Om s0) (z1 s0) (z2 s0) [R1, R2, R3].get) := hok [R1, R2, R3].get (by rw [List.ofFn_get]; exact hAR) (List.nodup_iff_injective_get.mp hnd)
  obtain ⟨r, -, hev, dd, hder, hG⟩ := backprop (rts := [R1, R2, R3]) (by simp) hnd e (C := fun s => ![k s, 0, d s]) (C' := ![k', 0, d']) hOm h1 h2
    (fun j => by
      fin_cases j
      · exact hk
      · exact hasDerivAt_const s0 (0 : ℝ)
      · exact hd) hm.ne' hAR hok'
  have hD : HasDerivAt D dd.re s0 := by
    have := Complex.reCLM.hasFDerivAt.comp_hasDerivAt s0 hder
    refine HasDerivAt.congr_of_eventuallyEq this ?_
    filter_upwards [hval, hev] with s s1 s3
    exact (s1 (r s) s3).symm
  obtain ⟨gc, hgc, hsum⟩ := hG g
  have hl : epolyLeading c (U s0) = Om s0 := by simp [epolyLeading, P.rad, P.om]
  have hc : epolyCoeffs_ c (U s0) (k s0) (d s0) = [k s0, 0, d s0] := by simp [epolyCoeffs_, P.rad]
  have hc' : epolyCoeffs c (U s0) (k s0) (d s0) = [k s0 / Om s0, 0, d s0 / Om s0] := by simp [epolyCoeffs, hc, hl]
  set G := e.back (inputs (Om s0) (z1 s0) (z2 s0) [R1, R2, R3].get) g with hGd
  have hb : methodBackward ex solve c (U s0) n (z1 s0) (z2 s0) g =
      .ok (leavesOf false c.flat ((G (Fin.castAdd _ 0)).re + (-(gc 0).re * (k s0 / Om s0 / Om s0) + (-(gc 1).re * (0 / Om s0 / Om s0) + (-(gc 2).re * (d s0 / Om s0 / Om s0) + 0))))
        [(gc 0).re / Om s0, (gc 1).re / Om s0, (gc 2).re / Om s0] ((G (Fin.castAdd _ 1)).re, (G (Fin.castAdd _ 2)).re)) := by
    simp only [methodBackward, P.hk, P.hd, hc', hr.eq]
    rw [methodBackwardAt_eq (rts := [R1, R2, R3]) (e := e) hex (gc := gc) (by rw [hl]; exact hgc), hl, hc, P.rad, map_ofFn3 gc]
    simp only [coeffsBackward, List.map_cons, List.map_nil, List.zipWith_cons_cons, List.zipWith_nil_right, List.sum_cons, List.sum_nil]
    rfl
  refine ⟨_, hb, (hℓ.comp s0 hD).congr_deriv ?_⟩
  have hS := Fin.sum_univ_three fun j : Fin 3 => (gc j).re * ((![k', 0, d'] : Fin 3 → ℝ) j / Om s0 - (![k s0, 0, d s0] : Fin 3 → ℝ) j / Om s0 / Om s0 * Om')
  rw [hsum, hleaf]
  refine Eq.trans (congrArg _ hS) ?_
  simp only [(leavesOf_z _ _ _ _ _).1, (leavesOf_z _ _ _ _ _).2, Matrix.cons_val_zero, Matrix.cons_val_one, Matrix.cons_val]
  ring

theorem Path.comoving {U : ℝ → Obj} {Om k d z1 z2 : ℝ → ℝ} {Om' k' d' De' Or' z1' z2' s0 : ℝ} (P : Path p c n U Om k d) (hs : Solves solve) (hOm : HasDerivAt Om Om' s0)
    (hk : HasDerivAt k k' s0) (hd : HasDerivAt d d' s0) (h1 : HasDerivAt z1 z1' s0) (h2 : HasDerivAt z2 z2' s0)
    (hleaf : ∀ gL g0 g1 g2 z, let G := leavesOf false c.flat gL [g0, g1, g2] z
      G.Om0 * Om' + G.Or0 * Or' + G.Ode0 * De' = gL * Om' + g0 * k' + g2 * d') (hm : 0 < Om s0)
    (hp : ∀ t, min (z1 s0) (z2 s0) ≤ t → 0 < Q (Om s0) (k s0) (d s0) t) (hd0 : d s0 ≠ 0) (hdisc : 4 * k s0 ^ 3 + 27 * Om s0 ^ 2 * d s0 ≠ 0) :
    ComovingGradOK solve c n U z1 z2 Om' Or' De' z1' z2' s0 := by
  have e1 := eventually_pos hOm.continuousAt hk.continuousAt hd.continuousAt (h1.continuousAt.min h2.continuousAt) hm hp
  have e2 : ∀ᶠ s in 𝓝 s0, 0 < Om s := hOm.continuousAt.eventually_const_lt hm
  refine ⟨fun s => ∫ t in (z1 s)..(z2 s), invEfunc (Q (Om s) (k s) (d s) t), ?_,
    P.method (D := fun s => ∫ t in (z1 s)..(z2 s), invEfunc (Q (Om s) (k s) (d s) t)) hs hOm hk hd h1 h2 hleaf hm hd0 hdisc comovingEx_three (fun R hR _ => ex3_ok hm R (cubicOK_roots hm hp hR)) ?_⟩
  · filter_upwards [e1, e2] with s s1 s2
    rw [comovingCall, P.rad, if_neg (by simp)]
    refine C91_comoving (E2 := Q (Om s) (k s) (d s)) ⟨P.lam, P.rad, P.reach s, P.fuel, by rwa [P.om], ?_, s1⟩ hs
    have := e2func_Q P.lam P.rad (P.hk s) (P.hd s)
    rwa [P.om] at this
  · filter_upwards [e1, e2] with s s1 s2 R hR
    rw [ex3_eval s2, Complex.ofReal_re, (cubicOK_roots s2 s1 hR).comoving_value s2]
    exact intervalIntegral.integral_congr fun t _ => by rw [Q_cubic s2.ne']

end Verif.Ellred

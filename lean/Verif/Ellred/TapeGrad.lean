import Verif.Ellred.TapeQuartic

/-! # C143: gradients of the comoving distances of cosmology/drivers/analytic.py -/

namespace Verif.Ellred

open MeasureTheory Set Filter Topology Verif.Carlson Verif.Cosmo ComplexConjugate

variable {p : Phys} {c : Cls} {o : Obj} {n : ℕ} {solve : List ℝ → List ℂ}

/-- Assigning `Om0`, `Or0` and `Ode0` to a LambdaCDMR. -/
theorem path4_curved (ho : Reachable p ⟨.lambda, true, false⟩ o) (hn : 2 ≤ n) (Om Or De : ℝ → ℝ) :
    Path4 p ⟨.lambda, true, false⟩ n (fun s => setParams p ⟨.lambda, true, false⟩ o [(.Om0, Om s), (.Or0, Or s), (.Ode0, De s)]) Or Om
      (fun s => 1 - (Om s + Or s) - De s) De := by
  obtain ⟨m, rfl⟩ := exists_add_two hn
  refine ⟨rfl, rfl, fun s => reach_set ho _, hn, fun s => ?_, fun s => ?_, fun s => ?_, fun s => ?_⟩
  · simp [setParams, assign]
  · simp [setParams, assign]
  · rw [ok0_settled _ _ (reachable_settled p _ _ (reach_set ho _))]
    simp [okVal, odeVal, setParams, assign, sum0]
  · rw [ode0_settled _ _ (reachable_settled p _ _ (reach_set ho _))]
    simp [odeVal, setParams, assign]

/-- Assigning `Om0` and `Or0` to a FlatLambdaCDMR. -/
theorem path4_flat (ho : Reachable p ⟨.lambda, true, true⟩ o) (hn : 2 ≤ n) (Om Or : ℝ → ℝ) :
    Path4 p ⟨.lambda, true, true⟩ n (fun s => setParams p ⟨.lambda, true, true⟩ o [(.Om0, Om s), (.Or0, Or s)]) Or Om (fun _ => 0) (fun s => 1 - (Om s + Or s)) := by
  obtain ⟨m, rfl⟩ := exists_add_two hn
  have hode := (reachable_ode p _ _ ho).2 ⟨rfl, rfl⟩
  refine ⟨rfl, rfl, fun s => reach_set ho _, hn, fun s => ?_, fun s => ?_, fun s => ?_, fun s => ?_⟩
  · simp [setParams, assign]
  · simp [setParams, assign]
  · rw [ok0_settled _ _ (reachable_settled p _ _ (reach_set ho _))]
    simp [okVal]
  · rw [ode0_settled _ _ (reachable_settled p _ _ (reach_set ho _))]
    simp [odeVal, setParams, assign, sum0, hode]

/-- **C143** (LambdaCDM).  Let `Om0`, `Ode0` and both redshifts depend on a parameter `s`.  Where `Om0 > 0`, `E²` is positive from the smaller redshift on,
and neither `Ode0` nor `4 Ok0³ + 27 Om0² Ode0` vanishes, the analytic comoving distance has a derivative and backpropagation of any loss of it succeeds and
gives the derivative of the loss. -/
theorem C143_comoving (ho : Reachable p ⟨.lambda, false, false⟩ o) (hn : 2 ≤ n) (hs : Solves solve) {Om De z1 z2 : ℝ → ℝ} {Om' De' z1' z2' s0 : ℝ}
    (hOm : HasDerivAt Om Om' s0) (hDe : HasDerivAt De De' s0) (h1 : HasDerivAt z1 z1' s0) (h2 : HasDerivAt z2 z2' s0) (hm : 0 < Om s0)
    (hp : ∀ t, min (z1 s0) (z2 s0) ≤ t → 0 < Om s0 * (1 + t) ^ 3 + (1 - Om s0 - De s0) * (1 + t) ^ 2 + De s0) (hd : De s0 ≠ 0)
    (hdisc : 4 * (1 - Om s0 - De s0) ^ 3 + 27 * Om s0 ^ 2 * De s0 ≠ 0) :
    ComovingGradOK solve ⟨.lambda, false, false⟩ n (fun s => setParams p ⟨.lambda, false, false⟩ o [(.Om0, Om s), (.Ode0, De s)]) z1 z2 Om' 0 De' z1' z2' s0 :=
  (path_curved ho hn Om De).comoving hs hOm (((hasDerivAt_const s0 (1 : ℝ)).sub hOm).sub hDe) hDe h1 h2
    (fun gL g0 g1 g2 z => by simp [leavesOf]; ring) hm hp hd hdisc

/-- C143 (FlatLambdaCDM): the only exception with matter is `Om0 = 1`. -/
theorem C143_flat_comoving (ho : Reachable p ⟨.lambda, false, true⟩ o) (hn : 2 ≤ n) (hs : Solves solve) {Om z1 z2 : ℝ → ℝ} {Om' z1' z2' s0 : ℝ}
    (hOm : HasDerivAt Om Om' s0) (h1 : HasDerivAt z1 z1' s0) (h2 : HasDerivAt z2 z2' s0) (hm : 0 < Om s0)
    (hp : ∀ t, min (z1 s0) (z2 s0) ≤ t → 0 < Om s0 * (1 + t) ^ 3 + (1 - Om s0)) (hne : Om s0 ≠ 1) :
    ComovingGradOK solve ⟨.lambda, false, true⟩ n (fun s => setParams p ⟨.lambda, false, true⟩ o [(.Om0, Om s)]) z1 z2 Om' 0 0 z1' z2' s0 :=
  (path_flat ho hn Om).comoving hs hOm (hasDerivAt_const s0 0) ((hasDerivAt_const s0 (1 : ℝ)).sub hOm) h1 h2
    (fun gL g0 g1 g2 z => by simp [leavesOf]; ring) hm (fun t ht => by rw [Q, zero_mul, add_zero]; exact hp t ht) (flat_disc hm hne).1 (flat_disc hm hne).2

/-- C143 (LambdaCDMR).  Let `Om0`, `Or0`, `Ode0` and both redshifts depend on `s`.  Where `Om0` and `Or0` are positive, both redshifts are above -1, `E²` is positive
from the smaller one on and, as a polynomial in `1 + z`, has no complex zero in common with its derivative, backpropagation of any loss of the analytic comoving
distance succeeds and gives the derivative of the loss. -/
theorem C143_radiation (ho : Reachable p ⟨.lambda, true, false⟩ o) (hn : 2 ≤ n) (hs : Solves solve) {Om Or De z1 z2 : ℝ → ℝ} {Om' Or' De' z1' z2' s0 : ℝ}
    (hOm : HasDerivAt Om Om' s0) (hOr : HasDerivAt Or Or' s0) (hDe : HasDerivAt De De' s0) (h1 : HasDerivAt z1 z1' s0) (h2 : HasDerivAt z2 z2' s0)
    (hm : 0 < Om s0) (hr : 0 < Or s0) (hz1 : -1 < z1 s0) (hz2 : -1 < z2 s0)
    (hp : ∀ t, min (z1 s0) (z2 s0) ≤ t → 0 < Or s0 * (1 + t) ^ 4 + Om s0 * (1 + t) ^ 3 + (1 - (Om s0 + Or s0) - De s0) * (1 + t) ^ 2 + De s0)
    (hsim : ∀ x : ℂ, Or s0 * x ^ 4 + Om s0 * x ^ 3 + (1 - (Om s0 + Or s0) - De s0 : ℝ) * x ^ 2 + De s0 = 0 →
      4 * Or s0 * x ^ 3 + 3 * Om s0 * x ^ 2 + 2 * (1 - (Om s0 + Or s0) - De s0 : ℝ) * x ≠ 0) :
    ComovingGradOK solve ⟨.lambda, true, false⟩ n (fun s => setParams p ⟨.lambda, true, false⟩ o [(.Om0, Om s), (.Or0, Or s), (.Ode0, De s)]) z1 z2
      Om' Or' De' z1' z2' s0 :=
  (path4_curved ho hn Om Or De).comoving hs hOr hOm (((hasDerivAt_const s0 (1 : ℝ)).sub (hOm.add hOr)).sub hDe) hDe h1 h2
    (fun gL g0 g1 g2 g3 z => by simp [leavesOf]; ring) hr hm (lt_min hz1 hz2) hp hsim

/-- C143 (FlatLambdaCDMR). -/
theorem C143_flat_radiation (ho : Reachable p ⟨.lambda, true, true⟩ o) (hn : 2 ≤ n) (hs : Solves solve) {Om Or z1 z2 : ℝ → ℝ} {Om' Or' z1' z2' s0 : ℝ}
    (hOm : HasDerivAt Om Om' s0) (hOr : HasDerivAt Or Or' s0) (h1 : HasDerivAt z1 z1' s0) (h2 : HasDerivAt z2 z2' s0)
    (hm : 0 < Om s0) (hr : 0 < Or s0) (hz1 : -1 < z1 s0) (hz2 : -1 < z2 s0)
    (hp : ∀ t, min (z1 s0) (z2 s0) ≤ t → 0 < Or s0 * (1 + t) ^ 4 + Om s0 * (1 + t) ^ 3 + (1 - (Om s0 + Or s0)))
    (hsim : ∀ x : ℂ, Or s0 * x ^ 4 + Om s0 * x ^ 3 + (1 - (Om s0 + Or s0) : ℝ) = 0 → 4 * Or s0 * x ^ 3 + 3 * Om s0 * x ^ 2 ≠ 0) :
    ComovingGradOK solve ⟨.lambda, true, true⟩ n (fun s => setParams p ⟨.lambda, true, true⟩ o [(.Om0, Om s), (.Or0, Or s)]) z1 z2 Om' Or' 0 z1' z2' s0 :=
  (path4_flat ho hn Om Or).comoving hs hOr hOm (hasDerivAt_const s0 0) ((hasDerivAt_const s0 (1 : ℝ)).sub (hOm.add hOr)) h1 h2
    (fun gL g0 g1 g2 g3 z => by simp [leavesOf]; ring) hr hm (lt_min hz1 hz2) (fun t ht => by rw [Q4, zero_mul, add_zero]; exact hp t ht)
    (fun x hx => by simpa using hsim x (by simpa using hx))

theorem methodBackwardAt_cases {ex : (m : ℕ) → Option (Ex (3 + m))} {rts : List ℂ} (hne : rts ≠ []) (hex : ∃ e, ex rts.length = some e) (c : Cls) (o : Obj) (k d z1 z2 g : ℝ) :
    (rts.Nodup ∧ ∃ G, methodBackwardAt ex rts c o k d z1 z2 g = .ok G) ∨ (¬ rts.Nodup ∧ methodBackwardAt ex rts c o k d z1 z2 g = .error .linalg) := by
  obtain ⟨ex, hex⟩ := hex
  have hrb := rootsBackward_iff (rts := rts) (List.ofFn fun i : Fin rts.length => ex.back (inputs (epolyLeading c o) z1 z2 rts.get) g (Fin.natAdd 3 i)) hne
  by_cases hnd : rts.Nodup
  · refine .inl ⟨hnd, ?_⟩
    have hok : ∀ gout, ∃ gc, rootsBackward rts gout = .ok gc := fun gout => by
      rw [rootsBackward, Roots.backwardMatrix_ok rts hne]
      simp only
      rw [if_neg fun h0 => (Roots.Batch.det_eq_zero_iff rts).mp h0 hnd]
      exact ⟨_, rfl⟩
    obtain ⟨gc, hgc⟩ := hok (List.ofFn fun i : Fin rts.length => ex.back (inputs (epolyLeading c o) z1 z2 rts.get) g (Fin.natAdd 3 i))
    simp only [methodBackwardAt, hex, hgc]
    exact ⟨_, rfl⟩
  · refine .inr ⟨hnd, ?_⟩
    simp only [methodBackwardAt, hex, hrb.mpr hnd]

/-- The roots of `x³ + (k/L) x² + d/L` are simple iff `E²` as a polynomial in `1 + z` has no zero in common with its derivative. -/
theorem nodup3_iff {R1 R2 R3 : ℂ} {L k d : ℝ} (hL : L ≠ 0) (h : ∀ x, Roots.rootProd [R1, R2, R3] x = x ^ 3 + (k / L : ℝ) * x ^ 2 + (d / L : ℝ)) :
    [R1, R2, R3].Nodup ↔ ∀ x : ℂ, L * x ^ 3 + k * x ^ 2 + d = 0 → 3 * L * x ^ 2 + 2 * k * x ≠ 0 := by
  have hL' : (L : ℂ) ≠ 0 := by exact_mod_cast hL
  have hd : ∀ x, HasDerivAt (Roots.rootProd [R1, R2, R3]) (3 * x ^ 2 + (k / L : ℝ) * (2 * x)) x := fun x => by
    rw [show Roots.rootProd [R1, R2, R3] = fun x : ℂ => x ^ 3 + ((k / L : ℝ) : ℂ) * x ^ 2 + ((d / L : ℝ) : ℂ) from funext h]
    have := ((hasDerivAt_pow 3 x).add ((hasDerivAt_pow 2 x).const_mul ((k / L : ℝ) : ℂ))).add_const ((d / L : ℝ) : ℂ)
    refine this.congr_deriv ?_
    norm_num
  rw [nodup_iff_simple _ hd]
  refine forall_congr' fun x => ?_
  rw [h]
  have e1 : (L : ℂ) * x ^ 3 + k * x ^ 2 + d = L * (x ^ 3 + (k / L : ℝ) * x ^ 2 + (d / L : ℝ)) := by
    push_cast; field_simp
  have e2 : 3 * (L : ℂ) * x ^ 2 + 2 * k * x = L * (3 * x ^ 2 + (k / L : ℝ) * (2 * x)) := by
    push_cast; field_simp
  rw [e1, e2, mul_eq_zero, mul_ne_zero_iff]
  simp [hL']

/-- C143: with `_epoly_leading` not zero, backpropagation fails exactly when `E²` as a polynomial in `1 + z` has a complex zero in common with its derivative, and
then with `LinAlgError`; this includes every universe without dark energy, where the distance itself is right. -/
theorem C143_raises_iff (hde : c.de = .lambda) (ho : Reachable p c o) (hn : 2 ≤ n) (hs : Solves solve) (hL : epolyLeading c o ≠ 0) (z1 z2 g : ℝ) :
    ∃ k d, ok0 c o n = .ok k ∧ ode0 c o n = .ok d ∧
      ((∃ e, comovingBackward solve c o n z1 z2 g = .error e) ↔ comovingBackward solve c o n z1 z2 g = .error .linalg) ∧
      (comovingBackward solve c o n z1 z2 g = .error .linalg ↔
        ∃ x : ℂ, (if c.rad then (o.Or0 : ℂ) else 0) * x ^ 4 + o.Om0 * x ^ 3 + k * x ^ 2 + d = 0 ∧
          4 * (if c.rad then (o.Or0 : ℂ) else 0) * x ^ 3 + 3 * o.Om0 * x ^ 2 + 2 * k * x = 0) := by
  obtain ⟨k, d, -, hk, hd, -⟩ := C48_factorisation p c o ho hde n hn hL solve hs 0
  refine ⟨k, d, hk, hd, ?_⟩
  have hb : comovingBackward solve c o n z1 z2 g = methodBackwardAt comovingEx (solve (epolyCoeffs c o k d)) c o k d z1 z2 g := by simp only [comovingBackward, methodBackward, hk, hd]
  have fin : ∀ {rts : List ℂ} {S : Prop}, (rts.length = 3 ∨ rts.length = 4) → (rts.Nodup ↔ ¬ S) → solve (epolyCoeffs c o k d) = rts →
      ((∃ e, comovingBackward solve c o n z1 z2 g = .error e) ↔ comovingBackward solve c o n z1 z2 g = .error .linalg) ∧
      (comovingBackward solve c o n z1 z2 g = .error .linalg ↔ S) := by
    intro rts S hl hS he
    rw [hb, he]
    rcases methodBackwardAt_cases (ex := comovingEx) (rts := rts) (by rintro rfl; simp at hl) (by rcases hl with h | h <;> rw [h] <;> exact ⟨_, rfl⟩) c o k d z1 z2 g with ⟨hnd, G, hG⟩ | ⟨hnd, hG⟩
    · rw [hG]
      simp [hS.mp hnd]
    · rw [hG]
      simp [not_not.mp (fun h => hnd (hS.mpr h))]
  cases hrad : c.rad
  · have hm : o.Om0 ≠ 0 := by simpa [epolyLeading, hrad] using hL
    obtain ⟨R1, R2, R3, hr⟩ := roots3 hs (k / o.Om0) (d / o.Om0)
    have hc : epolyCoeffs c o k d = [k / o.Om0, 0, d / o.Om0] := by simp [epolyCoeffs, epolyCoeffs_, epolyLeading, hrad]
    refine fin (rts := [R1, R2, R3]) (.inl rfl) ?_ (by rw [hc, hr.eq])
    have hpr : ∀ x, Roots.rootProd [R1, R2, R3] x = x ^ 3 + ((k / o.Om0 : ℝ) : ℂ) * x ^ 2 + ((d / o.Om0 : ℝ) : ℂ) := fun x => by
      rw [← hr.prod x]
      simp [Roots.rootProd]
      ring
    rw [nodup3_iff hm hpr]
    simp
  · have hm : o.Or0 ≠ 0 := by simpa [epolyLeading, hrad] using hL
    obtain ⟨R1, R2, R3, R4, hr, hpr⟩ := roots4 hs (o.Om0 / o.Or0) (k / o.Or0) (d / o.Or0)
    have hc : epolyCoeffs c o k d = [o.Om0 / o.Or0, k / o.Or0, 0, d / o.Or0] := by simp [epolyCoeffs, epolyCoeffs_, epolyLeading, hrad]
    refine fin (rts := [R1, R2, R3, R4]) (.inr rfl) ?_ (by rw [hc, hr])
    rw [nodup4_iff hm hpr]
    simp

/-- C143: a universe without dark energy gives no gradients (the distance itself is right, C91 and C94). -/
theorem C143_no_dark_energy (hde : c.de = .lambda) (ho : Reachable p c o) (hn : 2 ≤ n) (hs : Solves solve) (hL : epolyLeading c o ≠ 0)
    (hd : ode0 c o n = .ok 0) (z1 z2 g : ℝ) : comovingBackward solve c o n z1 z2 g = .error .linalg := by
  obtain ⟨k, d, -, h, -, e⟩ := C143_raises_iff hde ho hn hs hL z1 z2 g
  rw [hd] at h
  exact e.mpr ⟨0, by rw [← Except.ok.inj h]; simp⟩

/-- C83 for complex arguments off the cut `(-∞, 0]`: along any path of the arguments, a loss with gradient `g` (torch's convention: its derivative along `w'` is
`Re (conj g * w')`) of `elliprf` has the derivative that the gradients of `Elliprf.backward` give. -/
theorem C83_elliprf_complex {x y z : ℝ → ℂ} {x' y' z' : ℂ} {s0 : ℝ} (hx : HasDerivAt x x' s0) (hy : HasDerivAt y y' s0) (hz : HasDerivAt z z' s0)
    (h1 : x s0 ∈ Complex.slitPlane) (h2 : y s0 ∈ Complex.slitPlane) (h3 : z s0 ∈ Complex.slitPlane) :
    ∃ w', HasDerivAt (fun s => RFc (x s) (y s) (z s)) w' s0 ∧ ∀ g : ℂ,
      let G := Ex.rfBackward (x s0) (y s0) (z s0) g
      (conj g * w').re = (conj G.1 * x').re + (conj G.2.1 * y').re + (conj G.2.2 * z').re := by
  refine ⟨_, RFc_deriv hx hy hz h1 h2 h3, fun g => ?_⟩
  rw [Ex.rfBackward_eq]
  simp only [map_mul, Complex.conj_conj]
  rw [← Complex.add_re, ← Complex.add_re, RDc_swap (y s0) (z s0), RDc_swap (x s0) (y s0)]
  congr 1
  ring

/-! ### The hypotheses are met -/

/-- `C83_elliprf_complex` at `1 + i s`, `-1 + 2 i`, `3 - i`. -/
example := C83_elliprf_complex (s0 := 0) ((hasDerivAt_id (0 : ℝ)).ofReal_comp.const_mul Complex.I |>.const_add 1) (hasDerivAt_const _ (-1 + 2 * Complex.I : ℂ))
  (hasDerivAt_const _ (3 - Complex.I : ℂ)) (by simp [Complex.mem_slitPlane_iff]) (by simp [Complex.mem_slitPlane_iff]) (by simp [Complex.mem_slitPlane_iff])

/-- A LambdaCDM with `Om0 = 0.3 + s`, `Ode0 = 0.5 - 2 s`, between redshifts `-1/2 + s` and `3`. -/
example (p : Phys) : ∃ solve o, Solves solve ∧ ComovingGradOK solve ⟨.lambda, false, false⟩ 2
      (fun s => setParams p ⟨.lambda, false, false⟩ o [(.Om0, 0.3 + s), (.Ode0, 0.5 - 2 * s)]) (fun s => -1 / 2 + s) (fun _ => 3) 1 0 (-2) 1 0 0 := by
  obtain ⟨solve, hs⟩ := someSolver
  have hr : Reachable p ⟨.lambda, false, false⟩ _ := ⟨1, [(.Om0, 0.3), (.Ode0, 0.5)], [], _, rfl, rfl⟩
  refine ⟨solve, _, hs, C143_comoving hr le_rfl hs ((hasDerivAt_id (0 : ℝ)).const_add 0.3) ?_ ((hasDerivAt_id (0 : ℝ)).const_add (-1 / 2)) (hasDerivAt_const _ _) (by norm_num) ?_ (by norm_num) (by norm_num)⟩
  · simpa using ((hasDerivAt_id (0 : ℝ)).const_mul 2).const_sub 0.5
  · intro t ht
    have : -1 / 2 ≤ t := by
      simp only [id, add_zero] at ht
      rcases min_le_iff.mp ht with h | h <;> linarith
    have : 0 < 1 + t := by linarith
    have : 0 < (1 + t) ^ 3 := by positivity
    have : 0 < (1 + t) ^ 2 := by positivity
    norm_num
    linarith

/-- A FlatLambdaCDM with `Om0 = 0.3 + s`. -/
example (p : Phys) : ∃ solve o, Solves solve ∧ ComovingGradOK solve ⟨.lambda, false, true⟩ 2
      (fun s => setParams p ⟨.lambda, false, true⟩ o [(.Om0, 0.3 + s)]) (fun _ => 0) (fun s => 1 + s) 1 0 0 0 1 0 := by
  obtain ⟨solve, hs⟩ := someSolver
  have hr : Reachable p ⟨.lambda, false, true⟩ _ := ⟨1, [(.Om0, 0.3)], [], _, rfl, rfl⟩
  refine ⟨solve, _, hs, C143_flat_comoving hr le_rfl hs ((hasDerivAt_id (0 : ℝ)).const_add 0.3) (hasDerivAt_const _ _) ((hasDerivAt_id (0 : ℝ)).const_add 1) (by norm_num) ?_ (by norm_num)⟩
  intro t ht
  have : 0 ≤ t := by simpa using ht
  have : 0 < (1 + t) ^ 3 := by positivity
  norm_num
  linarith

/-- A curved LambdaCDMR with `Om0 = 0.2 + s`, `Or0 = 0.1 - s`, `Ode0 = 0.6 + 3 s`. -/
example (p : Phys) : ∃ solve o, Solves solve ∧ ComovingGradOK solve ⟨.lambda, true, false⟩ 2
      (fun s => setParams p ⟨.lambda, true, false⟩ o [(.Om0, 0.2 + s), (.Or0, 0.1 - s), (.Ode0, 0.6 + s)]) (fun s => 3 + s) (fun _ => 1) 1 (-1) 1 1 0 0 := by
  obtain ⟨solve, hs⟩ := someSolver
  have hr : Reachable p ⟨.lambda, true, false⟩ _ := ⟨1, [(.Om0, 0.2), (.Or0, 0.1), (.Ode0, 0.6)], [], _, rfl, rfl⟩
  refine ⟨solve, _, hs, C143_radiation hr le_rfl hs ((hasDerivAt_id (0 : ℝ)).const_add 0.2) ((hasDerivAt_id (0 : ℝ)).const_sub 0.1) ((hasDerivAt_id (0 : ℝ)).const_add 0.6)
    ((hasDerivAt_id (0 : ℝ)).const_add 3) (hasDerivAt_const _ _) (by norm_num) (by norm_num) (by norm_num) (by norm_num) ?_ ?_⟩
  · intro t ht
    have : 1 ≤ t := by
      simp only [id, add_zero] at ht
      rcases min_le_iff.mp ht with h | h <;> linarith
    have : 0 < 1 + t := by linarith
    have : 0 < (1 + t) ^ 4 := by positivity
    have : 0 < (1 + t) ^ 3 := by positivity
    have : 0 < (1 + t) ^ 2 := by positivity
    norm_num
    linarith
  · intro x h0 h1
    norm_num at h0 h1
    have h2 : x * ((x + 1) * (2 * x + 1)) = 0 := by linear_combination 5 * h1
    rcases mul_eq_zero.mp h2 with rfl | h2
    · norm_num at h0
    · rcases mul_eq_zero.mp h2 with h | h
      · obtain rfl : x = -1 := by linear_combination h
        norm_num at h0
      · obtain rfl : x = -1 / 2 := by linear_combination h / 2
        norm_num at h0

/-- A FlatLambdaCDMR. -/
example (p : Phys) : ∃ solve o, Solves solve ∧ ComovingGradOK solve ⟨.lambda, true, true⟩ 2
      (fun s => setParams p ⟨.lambda, true, true⟩ o [(.Om0, 0.3 + s), (.Or0, 0.1 - s)]) (fun _ => 0) (fun s => 1 + s) 1 (-1) 0 0 1 0 := by
  obtain ⟨solve, hs⟩ := someSolver
  have hr : Reachable p ⟨.lambda, true, true⟩ _ := ⟨1, [(.Om0, 0.3), (.Or0, 0.1)], [], _, rfl, rfl⟩
  refine ⟨solve, _, hs, C143_flat_radiation hr le_rfl hs ((hasDerivAt_id (0 : ℝ)).const_add 0.3) ((hasDerivAt_id (0 : ℝ)).const_sub 0.1) (hasDerivAt_const _ _)
    ((hasDerivAt_id (0 : ℝ)).const_add 1) (by norm_num) (by norm_num) (by norm_num) (by norm_num) ?_ ?_⟩
  · intro t ht
    have : 0 ≤ t := by simpa using ht
    have : 0 < (1 + t) ^ 4 := by positivity
    have : 0 < (1 + t) ^ 3 := by positivity
    norm_num
    linarith
  · intro x h0 h1
    norm_num at h0 h1
    have h2 : x ^ 2 * (4 * x + 9) = 0 := by linear_combination 10 * h1
    rcases mul_eq_zero.mp h2 with h | h
    · obtain rfl : x = 0 := pow_eq_zero_iff two_ne_zero |>.mp h
      norm_num at h0
    · obtain rfl : x = -9 / 4 := by linear_combination h / 4
      norm_num at h0

/-- A LambdaCDMR without dark energy raises: zero is a common root. -/
example (p : Phys) : ∃ solve o, Solves solve ∧ Reachable p ⟨.lambda, true, false⟩ o ∧ comovingBackward solve ⟨.lambda, true, false⟩ o 2 0 1 1 = .error .linalg := by
  obtain ⟨solve, hs⟩ := someSolver
  have hr : Reachable p ⟨.lambda, true, false⟩ _ := ⟨1, [(.Om0, 0.3), (.Or0, 0.1), (.Ode0, 0)], [], _, rfl, rfl⟩
  exact ⟨solve, _, hs, hr, C143_no_dark_energy rfl hr le_rfl hs (by norm_num [epolyLeading, setParams, assign]) (by norm_num [setParams, assign, ode0]) _ _ _⟩

end Verif.Ellred

import Verif.Ellred.DriverLeib

/-! # Gradients of the differentiable LambdaCDM driver (C142) -/

namespace Verif.Ellred

open MeasureTheory Set Filter Topology Verif.Carlson Verif.Cosmo ComplexConjugate

/-! ### The roots -/

/-- Three roots of `x³ + κ x² + δ`. -/
structure Roots3 (solve : List ℝ → List ℂ) (κ δ : ℝ) (R1 R2 R3 : ℂ) : Prop where
  eq : solve [κ, 0, δ] = [R1, R2, R3]
  prod : ∀ x : ℂ, (x - R1) * (x - R2) * (x - R3) = x ^ 3 + κ * x ^ 2 + δ

theorem roots3 {solve : List ℝ → List ℂ} (hs : Solves solve) (κ δ : ℝ) : ∃ R1 R2 R3, Roots3 solve κ δ R1 R2 R3 := by
  obtain ⟨h1, h2⟩ := hs [κ, 0, δ]
  match h : solve [κ, 0, δ], h1 with
  | [R1, R2, R3], _ =>
    refine ⟨R1, R2, R3, h, fun x => ?_⟩
    have := h2 x
    rw [h] at this
    simp [Roots.rootProd, Roots.monicEval] at this
    linear_combination this

namespace Roots3

variable {solve : List ℝ → List ℂ} {κ δ : ℝ} {R1 R2 R3 : ℂ}

theorem e1 (h : Roots3 solve κ δ R1 R2 R3) : R1 + R2 + R3 = -κ := by
  have h0 := h.prod 0
  have h1 := h.prod 1
  have h2 := h.prod (-1)
  linear_combination -1 / 2 * h1 - 1 / 2 * h2 + h0

theorem e2 (h : Roots3 solve κ δ R1 R2 R3) : R1 * R2 + R1 * R3 + R2 * R3 = 0 := by
  have h1 := h.prod 1
  have h2 := h.prod (-1)
  linear_combination 1 / 2 * h1 - 1 / 2 * h2

theorem e3 (h : Roots3 solve κ δ R1 R2 R3) : R1 * R2 * R3 = -δ := by
  have h0 := h.prod 0
  linear_combination -h0

theorem disc (h : Roots3 solve κ δ R1 R2 R3) : ((R1 - R2) * (R1 - R3) * (R2 - R3)) ^ 2 = -(δ * (4 * κ ^ 3 + 27 * δ)) := by
  have h1 := h.e1
  have h2 := h.e2
  have h3 := h.e3
  have hκ : (κ : ℂ) = -(R1 + R2 + R3) := by rw [h1, neg_neg]
  have hδ : (δ : ℂ) = -(R1 * R2 * R3) := by rw [h3, neg_neg]
  rw [hκ, hδ]
  linear_combination ((R1 + R2 + R3) ^ 2 * (R1 * R2 + R1 * R3 + R2 * R3) - 4 * (R1 * R2 + R1 * R3 + R2 * R3) ^ 2 + 18 * (R1 + R2 + R3) * (R1 * R2 * R3)) * h2

/-- The roots are simple unless `δ = 0` or `4 κ³ + 27 δ = 0`. -/
theorem nodup_iff (h : Roots3 solve κ δ R1 R2 R3) : [R1, R2, R3].Nodup ↔ δ ≠ 0 ∧ 4 * κ ^ 3 + 27 * δ ≠ 0 := by
  have hd := h.disc
  have e : (δ ≠ 0 ∧ 4 * κ ^ 3 + 27 * δ ≠ 0) ↔ -((δ : ℂ) * (4 * κ ^ 3 + 27 * δ)) ≠ 0 := by
    rw [neg_ne_zero, mul_ne_zero_iff]
    norm_cast
  rw [e, ← hd, ne_eq, pow_eq_zero_iff two_ne_zero, mul_eq_zero, mul_eq_zero, sub_eq_zero, sub_eq_zero, sub_eq_zero]
  simp only [List.nodup_cons, List.mem_cons, List.not_mem_nil, or_false, not_or, not_false_eq_true, List.nodup_nil, and_true]

end Roots3

/-! ### The gradients -/

variable {p : Phys} {c : Cls} {o : Obj} {n : ℕ} {k d z1 z2 : ℝ} {ex : List ℤ} {solve : List ℝ → List ℂ}

theorem Q_cubic {L : ℝ} (hL : L ≠ 0) (k d t : ℝ) : Q L k d t = L * CubicOK.cubic (3 + k / L) (3 + 2 * k / L) (1 + k / L + d / L) t := by
  rw [Q, CubicOK.cubic]
  field_simp
  ring

/-- A universe without radiation at a point where its cubic has simple roots. -/
structure Simple (c : Cls) (o : Obj) (n : ℕ) (k d z1 z2 : ℝ) (ex : List ℤ) : Prop where
  rad : c.rad = false
  hk : ok0 c o n = .ok k
  hd : ode0 c o n = .ok d
  matter : 0 < o.Om0
  pos : ∀ t, min z1 z2 ≤ t → 0 < Q o.Om0 k d t
  one : ex = [] ∨ ∃ q, ex = [q]
  lo : ex ≠ [] → -1 < min z1 z2

namespace Simple

theorem coeffs (h : Simple c o n k d z1 z2 ex) : epolyCoeffs c o k d = [k / o.Om0, 0, d / o.Om0] := by
  simp [epolyCoeffs, epolyCoeffs_, epolyLeading, h.rad]

theorem cubicOK (h : Simple c o n k d z1 z2 ex) {R1 R2 R3 : ℂ} (hr : Roots3 solve (k / o.Om0) (d / o.Om0) R1 R2 R3) :
    CubicOK (min z1 z2) (R1 - 1) (R2 - 1) (R3 - 1) (3 + k / o.Om0) (3 + 2 * k / o.Om0) (1 + k / o.Om0 + d / o.Om0) := by
  refine ⟨fun z => ?_, fun t ht => ?_⟩
  · have := hr.prod (z + 1)
    push_cast at this ⊢
    linear_combination this
  · have := h.pos t ht
    rw [Q_cubic h.matter.ne'] at this
    exact pos_of_mul_pos_right this h.matter.le

theorem good (h : Simple c o n k d z1 z2 ex) {R1 R2 R3 : ℂ} (hr : Roots3 solve (k / o.Om0) (d / o.Om0) R1 R2 R3) (hn : [R1, R2, R3].Nodup) :
    Good3 ex (min z1 z2) (R1 - 1) (R2 - 1) (R3 - 1) (3 + k / o.Om0) (3 + 2 * k / o.Om0) (1 + k / o.Om0 + d / o.Om0) where
  ok := h.cubicOK hr
  nodup := (List.nodup_map_iff (f := (· - (1 : ℂ))) (sub_left_injective)).mpr hn
  one := h.one
  lo := h.lo
  out := by
    intro _
    have h3 := hr.e3
    have hd : (d / o.Om0 : ℝ) ≠ 0 := ((hr.nodup_iff).mp hn).1
    have hne : R1 * R2 * R3 ≠ 0 := by rw [h3]; exact neg_ne_zero.mpr (by exact_mod_cast hd)
    have f : ∀ R : ℂ, R - 1 = -1 → R = 0 := fun R h => by linear_combination h
    exact ⟨fun e => hne (by rw [f _ e]; ring), fun e => hne (by rw [f _ e]; ring), fun e => hne (by rw [f _ e]; ring)⟩

theorem sqrt_pow {L : ℝ} (hL : 0 < L) : L ^ (0.5 : ℝ) = √L := by rw [Real.sqrt_eq_rpow]; norm_num

theorem three_half {C : ℝ} (hC : 0 < C) : C ^ (-3 / 2 : ℝ) = 1 / (C * √C) := by
  rw [show (-3 / 2 : ℝ) = -(1 + 1 / 2) by norm_num, Real.rpow_neg hC.le, Real.rpow_add hC, Real.rpow_one, ← Real.sqrt_eq_rpow, one_div]

/-- `dQ` in terms of the monic cubic. -/
theorem dQ_eq {L : ℝ} (hL : 0 < L) (hp : ∀ t, min z1 z2 ≤ t → 0 < Q L k d t) (j : ℕ) :
    dQ ex z1 z2 L k d j = -1 / 2 / (L * √L) * Good3.K ex z1 z2 (3 + k / L) (3 + 2 * k / L) (1 + k / L + d / L) j := by
  rw [dQ, Good3.K, ← intervalIntegral.integral_const_mul]
  refine intervalIntegral.integral_congr fun t ht => ?_
  have h := hp t ht.1
  rw [Q_cubic hL.ne'] at h ⊢
  have hC := pos_of_mul_pos_right h hL.le
  beta_reduce
  rw [three_half h, Real.sqrt_mul hL.le]
  have := Real.sqrt_pos.mpr hC
  have := Real.sqrt_pos.mpr hL
  field_simp

theorem K_int (h : Simple c o n k d z1 z2 ex) (j : ℕ) : IntervalIntegrable (fun t => weight ex t * (-1 / 2 * Q o.Om0 k d t ^ (-3 / 2 : ℝ)) * (1 + t) ^ j) volume z1 z2 := by
  refine ContinuousOn.intervalIntegrable fun t ht => ContinuousAt.continuousWithinAt ?_
  have hm : min z1 z2 ≤ t := ht.1
  have hqc : ContinuousAt (fun t => Q o.Om0 k d t) t := by unfold Q; fun_prop
  exact ((weight_cont h.one fun he => lt_of_lt_of_le (h.lo he) hm).mul (continuousAt_const.mul (hqc.rpow_const (Or.inl (h.pos t hm).ne')))).mul (by fun_prop)

/-- Euler's relation: the integral is homogeneous of degree -1/2 in the coefficients. -/
theorem euler (h : Simple c o n k d z1 z2 ex) :
    o.Om0 * dQ ex z1 z2 o.Om0 k d 3 + k * dQ ex z1 z2 o.Om0 k d 2 + d * dQ ex z1 z2 o.Om0 k d 0 =
      -1 / 2 * ∫ t in z1..z2, weight ex t * invEfunc (Q o.Om0 k d t) := by
  simp only [dQ]
  rw [← intervalIntegral.integral_const_mul, ← intervalIntegral.integral_const_mul, ← intervalIntegral.integral_const_mul, ← intervalIntegral.integral_const_mul,
    ← intervalIntegral.integral_add ((h.K_int 3).const_mul _) ((h.K_int 2).const_mul _),
    ← intervalIntegral.integral_add (((h.K_int 3).const_mul _).add ((h.K_int 2).const_mul _)) ((h.K_int 0).const_mul _)]
  refine intervalIntegral.integral_congr fun t ht => ?_
  have hq := h.pos t ht.1
  beta_reduce
  have e : invEfunc (Q o.Om0 k d t) = Q o.Om0 k d t * Q o.Om0 k d t ^ (-3 / 2 : ℝ) := by
    rw [invEfunc, ← Real.rpow_one_add' hq.le (by norm_num)]; norm_num
  rw [e]
  generalize Q o.Om0 k d t ^ (-3 / 2 : ℝ) = X
  rw [Q]
  ring

/-- The value of `elliptic_integral`. -/
theorem value (h : Simple c o n k d z1 z2 ex) {R1 R2 R3 : ℂ} (hr : Roots3 solve (k / o.Om0) (d / o.Om0) R1 R2 R3) (hn : [R1, R2, R3].Nodup) :
    forward (args3 [R1 - 1, R2 - 1, R3 - 1] ex).2 ⟨3, Or.inl rfl⟩ z1 z2 (args3 [R1 - 1, R2 - 1, R3 - 1] ex).1 =
      ((o.Om0 ^ (0.5 : ℝ) * ∫ t in z1..z2, weight ex t * invEfunc (Q o.Om0 k d t) : ℝ) : ℂ) := by
  have G := h.good hr hn
  have := G.forward_eq 0 0 0
  rw [show (args3 [R1 - 1, R2 - 1, R3 - 1] ex).2 = [0, 0, 0] ++ ex by simp [args3, List.replicate], this, ← intervalIntegral.integral_const_mul,
    ← intervalIntegral.integral_ofReal]
  refine intervalIntegral.integral_congr fun t ht => ?_
  have hq := h.pos t ht.1
  beta_reduce
  rw [Q_cubic h.matter.ne'] at hq ⊢
  have hC := pos_of_mul_pos_right hq h.matter.le
  rw [invEfunc_eq h.matter hC]
  have h0 := Real.rpow_pos_of_pos h.matter (0.5 : ℝ)
  simp only [zpow_zero, one_mul]
  rw [← Complex.ofReal_div]
  congr 1
  field_simp

theorem roots_eq (h : Simple c o n k d z1 z2 ex) {R1 R2 R3 : ℂ} (hr : Roots3 solve (k / o.Om0) (d / o.Om0) R1 R2 R3) :
    epolyRoots solve c o k d = [R1 - 1, R2 - 1, R3 - 1] := by
  rw [epolyRoots, h.coeffs, hr.eq]
  rfl

/-- The gradients of the parameters. -/
theorem params_eq (h : Simple c o n k d z1 z2 ex) (hs : Solves solve) (h1 : d ≠ 0) (h2 : 4 * k ^ 3 + 27 * o.Om0 ^ 2 * d ≠ 0) (g : ℝ) :
    paramsBackward solve c o n ex z1 z2 g =
      .ok (leaves c.flat (g * dQ ex z1 z2 o.Om0 k d 3) (g * dQ ex z1 z2 o.Om0 k d 2) (g * dQ ex z1 z2 o.Om0 k d 0)) := by
  obtain ⟨R1, R2, R3, hr⟩ := roots3 hs (k / o.Om0) (d / o.Om0)
  have hm := h.matter
  have hn : [R1, R2, R3].Nodup := hr.nodup_iff.mpr ⟨div_ne_zero h1 hm.ne', by
    rw [show 4 * (k / o.Om0) ^ 3 + 27 * (d / o.Om0) = (4 * k ^ 3 + 27 * o.Om0 ^ 2 * d) / o.Om0 ^ 3 by field_simp]
    exact div_ne_zero h2 (pow_ne_zero _ hm.ne')⟩
  have G := h.good hr hn
  have hb := G.rootsBackward_eq (g / o.Om0 ^ (0.5 : ℝ))
  simp only [sub_add_cancel] at hb
  have hl : epolyLeading c o = o.Om0 := by simp [epolyLeading, h.rad]
  have hc : epolyCoeffs_ c o k d = [k, 0, d] := by simp [epolyCoeffs_, h.rad]
  simp only [paramsBackward, h.hk, h.hd, h.roots_eq hr, hl, fixBackward, h.coeffs, hr.eq, hb, h.value hr hn, hc, coeffsBackward, List.map_cons, List.map_nil,
    Complex.ofReal_re, List.zipWith_cons_cons, List.zipWith_nil_right, List.sum_cons, List.sum_nil, List.getD_cons_zero, List.getD_cons_succ]
  have he := h.euler
  set V := ∫ t in z1..z2, weight ex t * invEfunc (Q o.Om0 k d t) with hV
  have sp := Real.sqrt_pos.mpr hm
  have ss := Real.mul_self_sqrt hm.le
  have e3 : dQ ex z1 z2 o.Om0 k d 3 = (-1 / 2 * V - k * dQ ex z1 z2 o.Om0 k d 2 - d * dQ ex z1 z2 o.Om0 k d 0) / o.Om0 := by
    rw [eq_div_iff hm.ne']; linear_combination he
  have hpm : o.Om0 ^ (0.5 - 1 : ℝ) = 1 / √o.Om0 := by
    rw [show (0.5 - 1 : ℝ) = -(1 / 2) by norm_num, Real.rpow_neg hm.le, ← Real.sqrt_eq_rpow, one_div]
  rw [e3, dQ_eq hm h.pos 2, dQ_eq hm h.pos 0, sqrt_pow hm, hpm]
  generalize Good3.K ex z1 z2 _ _ _ 2 = K2
  generalize Good3.K ex z1 z2 _ _ _ 0 = K0
  generalize Good3.K ex z1 z2 _ _ _ 1 = K1
  congr 2
  · field_simp
    linear_combination g * V * o.Om0 * ss
  · field_simp
  · field_simp

/-- `Roots.backward` raises at repeated roots. -/
theorem params_raises (h : Simple c o n k d z1 z2 ex) (hs : Solves solve) (h1 : d = 0 ∨ 4 * k ^ 3 + 27 * o.Om0 ^ 2 * d = 0) (g : ℝ) :
    paramsBackward solve c o n ex z1 z2 g = .error .linalg := by
  obtain ⟨R1, R2, R3, hr⟩ := roots3 hs (k / o.Om0) (d / o.Om0)
  have hm := h.matter
  have hn : ¬ [R1, R2, R3].Nodup := by
    rw [hr.nodup_iff, not_and_or, not_not, not_not]
    refine h1.imp (fun e => by rw [e, zero_div]) fun e => ?_
    rw [show 4 * (k / o.Om0) ^ 3 + 27 * (d / o.Om0) = (4 * k ^ 3 + 27 * o.Om0 ^ 2 * d) / o.Om0 ^ 3 by field_simp, e, zero_div]
  simp only [paramsBackward, h.hk, h.hd, h.coeffs, hr.eq]
  rw [rootsBackward_raises (by simp) hn]

/-- The gradients of the limits; repeated roots do no harm. -/
theorem limits_eq (h : Simple c o n k d z1 z2 ex) (hs : Solves solve) (g : ℝ) :
    limitsBackward solve c o n ex z1 z2 g =
      .ok (((-(g * (weight ex z1 * invEfunc (Q o.Om0 k d z1))) : ℝ) : ℂ), ((g * (weight ex z2 * invEfunc (Q o.Om0 k d z2)) : ℝ) : ℂ)) := by
  obtain ⟨R1, R2, R3, hr⟩ := roots3 hs (k / o.Om0) (d / o.Om0)
  have C := h.cubicOK hr
  have hl : epolyLeading c o = o.Om0 := by simp [epolyLeading, h.rad]
  have h0 := Real.rpow_pos_of_pos h.matter (0.5 : ℝ)
  have hv : ∀ t, min z1 z2 ≤ t → ∀ E : EllRed, E.a = (args3 [R1 - 1, R2 - 1, R3 - 1] ex).1 → E.h = 3 → E.v (args3 [R1 - 1, R2 - 1, R3 - 1] ex).2 t =
      ((o.Om0 ^ (0.5 : ℝ) * (weight ex t * invEfunc (Q o.Om0 k d t)) : ℝ) : ℂ) := by
    intro t ht E ha hh
    have s := C.slit ht
    rw [EllRed.v_eq_integrand (by simp [EllRed.n, ha, args3]) t, ha, hh, show (args3 [R1 - 1, R2 - 1, R3 - 1] ex).2 = [0, 0, 0] ++ ex by simp [args3, List.replicate],
      integrand_args h.one (Complex.slitPlane_ne_zero s.1) (Complex.slitPlane_ne_zero s.2.1) (Complex.slitPlane_ne_zero s.2.2),
      C.sqrt_eq (x := t + 1) (by linarith) ⟨ht, by linarith⟩]
    have hq := h.pos t ht
    rw [Q_cubic h.matter.ne'] at hq ⊢
    have hC := pos_of_mul_pos_right hq h.matter.le
    rw [invEfunc_eq h.matter hC]
    simp only [zpow_zero, one_mul]
    rw [← Complex.ofReal_div]
    congr 1
    field_simp
  simp only [limitsBackward, h.hk, h.hd, h.roots_eq hr, hl, fixBackward, backward]
  rw [hv _ (min_le_left _ _) _ rfl rfl, hv _ (min_le_right _ _) _ rfl rfl]
  congr 2
  · rw [map_neg, Complex.conj_ofReal, ← Complex.ofReal_neg, ← Complex.ofReal_mul]
    congr 1
    field_simp
  · rw [Complex.conj_ofReal, ← Complex.ofReal_mul]
    congr 1
    field_simp

end Simple

/-! ### Along a path -/

variable {z : ℝ}

theorem e2func_Q (hde : c.de = .lambda) (hrad : c.rad = false) (hk : ok0 c o n = .ok k) (hd : ode0 c o n = .ok d) (z : ℝ) : e2func c o n z = .ok (Q o.Om0 k d z) := by
  simp only [e2func, Cosmo.e2, e2base, hk, hd, hde, hrad, Bool.false_eq_true, if_false, Q]
  congr 1
  ring

/-- The distance of a method with exponents `ex`. -/
theorem call_value (U : Universe p c o n (Q o.Om0 k d) (min z1 z2)) (hs : Solves solve) :
    call3 solve c o n (fun L r1 r2 r3 => diffComoving3 L r1 r2 r3 z1 z2) = .ok (∫ t in z1..z2, weight [] t * invEfunc (Q o.Om0 k d t)) ∧
    (z1 = 0 → -1 < z2 → call3 solve c o n (fun L r1 r2 r3 => diffLookback3 L r1 r2 r3 z2) = .ok (∫ t in z1..z2, weight [-1] t * invEfunc (Q o.Om0 k d t)) ∧
      call3 solve c o n (fun L r1 r2 r3 => diffAbsorption3 L r1 r2 r3 z2) = .ok (∫ t in z1..z2, weight [2] t * invEfunc (Q o.Om0 k d t))) := by
  refine ⟨?_, ?_⟩
  · rw [C104_comoving U hs]
    simp [weight]
  · rintro rfl h2
    rw [C104_lookback U h2 hs, C104_absorption U h2 hs]
    refine ⟨congrArg _ (intervalIntegral.integral_congr fun t ht => ?_), congrArg _ (intervalIntegral.integral_congr fun t ht => ?_)⟩
    · have ht : min 0 z2 ≤ t := ht.1
      have : 0 < 1 + t := by
        rcases min_le_iff.mp ht with h | h <;> linarith
      simp only [lookbackIntegrand, weight, List.map_cons, List.map_nil, List.prod_cons, List.prod_nil, mul_one, zpow_neg_one]
      rw [add_comm t 1]
      field_simp
    · simp only [absIntegrand, weight, List.map_cons, List.map_nil, List.prod_cons, List.prod_nil, mul_one, zpow_ofNat]
      rw [add_comm t 1]

/-- What is proved of a method whose distance is `D` along a path `U` of universes with limits `z1`, `z2`: a loss `ℓ` of the distance has, along the
path, the derivative that the gradients of backpropagation give. -/
def GradOK (solve : List ℝ → List ℂ) (c : Cls) (n : ℕ) (ex : List ℤ) (f : ℝ → ℝ → ℂ → ℂ → ℂ → ℝ) (U : ℝ → Obj) (z1 z2 : ℝ → ℝ) (Om' De' z1' z2' s0 : ℝ) : Prop :=
  ∃ D : ℝ → ℝ, (∀ᶠ s in 𝓝 s0, call3 solve c (U s) n (f s) = .ok (D s)) ∧
    ∀ (ℓ : ℝ → ℝ) (g : ℝ), HasDerivAt ℓ g (D s0) → ∃ G gz,
      paramsBackward solve c (U s0) n ex (z1 s0) (z2 s0) g = .ok G ∧ limitsBackward solve c (U s0) n ex (z1 s0) (z2 s0) g = .ok gz ∧ gz.1.im = 0 ∧ gz.2.im = 0 ∧
      HasDerivAt (fun s => ℓ (D s)) (G.Om0 * Om' + G.Ode0 * De' + gz.1.re * z1' + gz.2.re * z2') s0

/-- A path of universes. -/
structure Path (p : Phys) (c : Cls) (n : ℕ) (U : ℝ → Obj) (Om k d : ℝ → ℝ) : Prop where
  lam : c.de = .lambda
  rad : c.rad = false
  reach : ∀ s, Reachable p c (U s)
  fuel : 2 ≤ n
  om : ∀ s, (U s).Om0 = Om s
  hk : ∀ s, ok0 c (U s) n = .ok (k s)
  hd : ∀ s, ode0 c (U s) n = .ok (d s)

theorem Path.grad {U : ℝ → Obj} {Om k d z1 z2 : ℝ → ℝ} {Om' k' d' De' z1' z2' s0 : ℝ} (P : Path p c n U Om k d) (hs : Solves solve) (hOm : HasDerivAt Om Om' s0)
    (hk : HasDerivAt k k' s0) (hd : HasDerivAt d d' s0) (h1 : HasDerivAt z1 z1' s0) (h2 : HasDerivAt z2 z2' s0) (hex : ex = [] ∨ ∃ q, ex = [q])
    (hleaf : ∀ a b e, (leaves c.flat a b e).Om0 * Om' + (leaves c.flat a b e).Ode0 * De' = a * Om' + b * k' + e * d') (hm : 0 < Om s0)
    (hp : ∀ t, min (z1 s0) (z2 s0) ≤ t → 0 < Q (Om s0) (k s0) (d s0) t) (hlo : ex ≠ [] → -1 < min (z1 s0) (z2 s0)) (hd0 : d s0 ≠ 0)
    (hdisc : 4 * k s0 ^ 3 + 27 * Om s0 ^ 2 * d s0 ≠ 0) {f : ℝ → ℝ → ℂ → ℂ → ℂ → ℝ}
    (hf : ∀ s, Universe p c (U s) n (Q (U s).Om0 (k s) (d s)) (min (z1 s) (z2 s)) → (ex ≠ [] → -1 < min (z1 s) (z2 s)) →
      call3 solve c (U s) n (f s) = .ok (∫ t in (z1 s)..(z2 s), weight ex t * invEfunc (Q (Om s) (k s) (d s) t))) :
    GradOK solve c n ex f U z1 z2 Om' De' z1' z2' s0 := by
  refine ⟨fun s => ∫ t in (z1 s)..(z2 s), weight ex t * invEfunc (Q (Om s) (k s) (d s) t), ?_, fun ℓ g hℓ => ?_⟩
  · have e1 := eventually_pos hOm.continuousAt hk.continuousAt hd.continuousAt (h1.continuousAt.min h2.continuousAt) hm hp
    have e2 : ∀ᶠ s in 𝓝 s0, 0 < Om s := hOm.continuousAt.eventually_const_lt hm
    have e3 : ∀ᶠ s in 𝓝 s0, ex ≠ [] → -1 < min (z1 s) (z2 s) := by
      by_cases he : ex = []
      · exact Eventually.of_forall fun s h => absurd he h
      · exact ((h1.continuousAt.min h2.continuousAt).eventually_const_lt (hlo he)).mono fun s h _ => h
    filter_upwards [e1, e2, e3] with s s1 s2 s3
    refine hf s ⟨P.lam, P.rad, P.reach s, P.fuel, by rwa [P.om], e2func_Q P.lam P.rad (P.hk s) (P.hd s), ?_⟩ s3
    rwa [P.om]
  · have S : Simple c (U s0) n (k s0) (d s0) (z1 s0) (z2 s0) ex := ⟨P.rad, P.hk s0, P.hd s0, by rwa [P.om], by rwa [P.om], hex, hlo⟩
    refine ⟨_, _, S.params_eq hs hd0 (by rwa [P.om]) g, S.limits_eq hs g, Complex.ofReal_im _, Complex.ofReal_im _, ?_⟩
    rw [hleaf, P.om]
    simp only [Complex.ofReal_re]
    have := hℓ.comp s0 (hasDerivAt_dist hex hOm hk hd h1 h2 hm hp hlo)
    refine this.congr_deriv ?_
    ring

theorem reach_set (h : Reachable p c o) (kw : List (Key × ℝ)) : Reachable p c (setParams p c o kw) := by
  obtain ⟨h100, kw0, hist, o₀, hc, rfl⟩ := h
  exact ⟨h100, kw0, hist ++ kw, o₀, hc, by simp [setParams, List.foldl_append]⟩

/-- Assigning `Om0` and `Ode0` to a LambdaCDM. -/
theorem path_curved (ho : Reachable p ⟨.lambda, false, false⟩ o) (hn : 2 ≤ n) (Om De : ℝ → ℝ) :
    Path p ⟨.lambda, false, false⟩ n (fun s => setParams p ⟨.lambda, false, false⟩ o [(.Om0, Om s), (.Ode0, De s)]) Om (fun s => 1 - Om s - De s) De := by
  obtain ⟨m, rfl⟩ := exists_add_two hn
  refine ⟨rfl, rfl, fun s => reach_set ho _, hn, fun s => ?_, fun s => ?_, fun s => ?_⟩
  · simp [setParams, assign]
  · rw [ok0_settled _ _ (reachable_settled p _ _ (reach_set ho _))]
    simp [okVal, odeVal, setParams, assign, sum0]
  · rw [ode0_settled _ _ (reachable_settled p _ _ (reach_set ho _))]
    simp [odeVal, setParams, assign]

/-- Assigning `Om0` to a FlatLambdaCDM. -/
theorem path_flat (ho : Reachable p ⟨.lambda, false, true⟩ o) (hn : 2 ≤ n) (Om : ℝ → ℝ) :
    Path p ⟨.lambda, false, true⟩ n (fun s => setParams p ⟨.lambda, false, true⟩ o [(.Om0, Om s)]) Om (fun _ => 0) (fun s => 1 - Om s) := by
  obtain ⟨m, rfl⟩ := exists_add_two hn
  have hode := (reachable_ode p _ _ ho).2 ⟨rfl, rfl⟩
  refine ⟨rfl, rfl, fun s => reach_set ho _, hn, fun s => ?_, fun s => ?_, fun s => ?_⟩
  · simp [setParams, assign]
  · rw [ok0_settled _ _ (reachable_settled p _ _ (reach_set ho _))]
    simp [okVal]
  · rw [ode0_settled _ _ (reachable_settled p _ _ (reach_set ho _))]
    simp [odeVal, setParams, assign, sum0, hode]

/-! ### Statements -/

/-- **C142** (LambdaCDM, comoving distance).  Let `Om0`, `Ode0` and both redshifts depend on a parameter `s`.  Where `Om0 > 0`, `E²` is positive from the smaller
redshift on, and neither `Ode0` nor `4 Ok0³ + 27 Om0² Ode0` vanishes, backpropagation of any loss of the distance succeeds and gives its derivative. -/
theorem C142_comoving (ho : Reachable p ⟨.lambda, false, false⟩ o) (hn : 2 ≤ n) (hs : Solves solve) {Om De z1 z2 : ℝ → ℝ} {Om' De' z1' z2' s0 : ℝ}
    (hOm : HasDerivAt Om Om' s0) (hDe : HasDerivAt De De' s0) (h1 : HasDerivAt z1 z1' s0) (h2 : HasDerivAt z2 z2' s0) (hm : 0 < Om s0)
    (hp : ∀ t, min (z1 s0) (z2 s0) ≤ t → 0 < Om s0 * (1 + t) ^ 3 + (1 - Om s0 - De s0) * (1 + t) ^ 2 + De s0) (hd : De s0 ≠ 0)
    (hdisc : 4 * (1 - Om s0 - De s0) ^ 3 + 27 * Om s0 ^ 2 * De s0 ≠ 0) :
    GradOK solve ⟨.lambda, false, false⟩ n [] (fun s L r1 r2 r3 => diffComoving3 L r1 r2 r3 (z1 s) (z2 s))
      (fun s => setParams p ⟨.lambda, false, false⟩ o [(.Om0, Om s), (.Ode0, De s)]) z1 z2 Om' De' z1' z2' s0 :=
  (path_curved ho hn Om De).grad hs hOm (((hasDerivAt_const s0 (1 : ℝ)).sub hOm).sub hDe) hDe h1 h2 (.inl rfl)
    (fun a b e => by simp only [leaves, Bool.false_eq_true, if_false]; ring) hm hp (by simp) hd hdisc
    fun s hU _ => by rw [(call_value hU hs).1, (path_curved ho hn Om De).om s]

/-- C142 (LambdaCDM, lookback time and absorption distance). -/
theorem C142_lookback_absorption (ho : Reachable p ⟨.lambda, false, false⟩ o) (hn : 2 ≤ n) (hs : Solves solve) {Om De z : ℝ → ℝ} {Om' De' z' s0 : ℝ}
    (hOm : HasDerivAt Om Om' s0) (hDe : HasDerivAt De De' s0) (hz : HasDerivAt z z' s0) (hm : 0 < Om s0) (hz1 : -1 < z s0)
    (hp : ∀ t, min 0 (z s0) ≤ t → 0 < Om s0 * (1 + t) ^ 3 + (1 - Om s0 - De s0) * (1 + t) ^ 2 + De s0) (hd : De s0 ≠ 0)
    (hdisc : 4 * (1 - Om s0 - De s0) ^ 3 + 27 * Om s0 ^ 2 * De s0 ≠ 0) :
    GradOK solve ⟨.lambda, false, false⟩ n [-1] (fun s L r1 r2 r3 => diffLookback3 L r1 r2 r3 (z s))
      (fun s => setParams p ⟨.lambda, false, false⟩ o [(.Om0, Om s), (.Ode0, De s)]) (fun _ => 0) z Om' De' 0 z' s0 ∧
    GradOK solve ⟨.lambda, false, false⟩ n [2] (fun s L r1 r2 r3 => diffAbsorption3 L r1 r2 r3 (z s))
      (fun s => setParams p ⟨.lambda, false, false⟩ o [(.Om0, Om s), (.Ode0, De s)]) (fun _ => 0) z Om' De' 0 z' s0 := by
  have hl : -1 < min 0 (z s0) := lt_min (by norm_num) hz1
  have P := path_curved ho hn Om De
  exact ⟨P.grad hs hOm (((hasDerivAt_const s0 (1 : ℝ)).sub hOm).sub hDe) hDe (hasDerivAt_const s0 0) hz (.inr ⟨_, rfl⟩)
      (fun a b e => by simp only [leaves, Bool.false_eq_true, if_false]; ring) hm hp (fun _ => hl) hd hdisc
      fun s hU h => by rw [((call_value hU hs).2 rfl (lt_min_iff.mp (h (by simp))).2).1, P.om s],
    P.grad hs hOm (((hasDerivAt_const s0 (1 : ℝ)).sub hOm).sub hDe) hDe (hasDerivAt_const s0 0) hz (.inr ⟨_, rfl⟩)
      (fun a b e => by simp only [leaves, Bool.false_eq_true, if_false]; ring) hm hp (fun _ => hl) hd hdisc
      fun s hU h => by rw [((call_value hU hs).2 rfl (lt_min_iff.mp (h (by simp))).2).2, P.om s]⟩

theorem flat_disc {x : ℝ} (hm : 0 < x) (h1 : x ≠ 1) : 1 - x ≠ 0 ∧ 4 * (0 : ℝ) ^ 3 + 27 * x ^ 2 * (1 - x) ≠ 0 := by
  have h := sub_ne_zero.mpr h1.symm
  refine ⟨h, ?_⟩
  rw [zero_pow three_ne_zero, mul_zero, zero_add]
  exact mul_ne_zero (by positivity) h

/-- C142 (FlatLambdaCDM, comoving distance): the only exception with matter is `Om0 = 1`. -/
theorem C142_flat_comoving (ho : Reachable p ⟨.lambda, false, true⟩ o) (hn : 2 ≤ n) (hs : Solves solve) {Om z1 z2 : ℝ → ℝ} {Om' z1' z2' s0 : ℝ}
    (hOm : HasDerivAt Om Om' s0) (h1 : HasDerivAt z1 z1' s0) (h2 : HasDerivAt z2 z2' s0) (hm : 0 < Om s0)
    (hp : ∀ t, min (z1 s0) (z2 s0) ≤ t → 0 < Om s0 * (1 + t) ^ 3 + (1 - Om s0)) (hne : Om s0 ≠ 1) :
    GradOK solve ⟨.lambda, false, true⟩ n [] (fun s L r1 r2 r3 => diffComoving3 L r1 r2 r3 (z1 s) (z2 s))
      (fun s => setParams p ⟨.lambda, false, true⟩ o [(.Om0, Om s)]) z1 z2 Om' 0 z1' z2' s0 :=
  (path_flat ho hn Om).grad hs hOm (hasDerivAt_const s0 0) ((hasDerivAt_const s0 (1 : ℝ)).sub hOm) h1 h2 (.inl rfl)
    (fun a b e => by simp only [leaves, if_true]; ring) hm (fun t ht => by rw [Q, zero_mul, add_zero]; exact hp t ht) (by simp) (flat_disc hm hne).1 (flat_disc hm hne).2
    fun s hU _ => by rw [(call_value hU hs).1, (path_flat ho hn Om).om s]

/-- C142 (FlatLambdaCDM, lookback time and absorption distance). -/
theorem C142_flat_lookback_absorption (ho : Reachable p ⟨.lambda, false, true⟩ o) (hn : 2 ≤ n) (hs : Solves solve) {Om z : ℝ → ℝ} {Om' z' s0 : ℝ}
    (hOm : HasDerivAt Om Om' s0) (hz : HasDerivAt z z' s0) (hm : 0 < Om s0) (hz1 : -1 < z s0)
    (hp : ∀ t, min 0 (z s0) ≤ t → 0 < Om s0 * (1 + t) ^ 3 + (1 - Om s0)) (hne : Om s0 ≠ 1) :
    GradOK solve ⟨.lambda, false, true⟩ n [-1] (fun s L r1 r2 r3 => diffLookback3 L r1 r2 r3 (z s))
      (fun s => setParams p ⟨.lambda, false, true⟩ o [(.Om0, Om s)]) (fun _ => 0) z Om' 0 0 z' s0 ∧
    GradOK solve ⟨.lambda, false, true⟩ n [2] (fun s L r1 r2 r3 => diffAbsorption3 L r1 r2 r3 (z s))
      (fun s => setParams p ⟨.lambda, false, true⟩ o [(.Om0, Om s)]) (fun _ => 0) z Om' 0 0 z' s0 := by
  have hl : -1 < min 0 (z s0) := lt_min (by norm_num) hz1
  have P := path_flat ho hn Om
  exact ⟨P.grad hs hOm (hasDerivAt_const s0 0) ((hasDerivAt_const s0 (1 : ℝ)).sub hOm) (hasDerivAt_const s0 0) hz (.inr ⟨_, rfl⟩)
      (fun a b e => by simp only [leaves, if_true]; ring) hm (fun t ht => by rw [Q, zero_mul, add_zero]; exact hp t ht) (fun _ => hl) (flat_disc hm hne).1 (flat_disc hm hne).2
      fun s hU h => by rw [((call_value hU hs).2 rfl (lt_min_iff.mp (h (by simp))).2).1, P.om s],
    P.grad hs hOm (hasDerivAt_const s0 0) ((hasDerivAt_const s0 (1 : ℝ)).sub hOm) (hasDerivAt_const s0 0) hz (.inr ⟨_, rfl⟩)
      (fun a b e => by simp only [leaves, if_true]; ring) hm (fun t ht => by rw [Q, zero_mul, add_zero]; exact hp t ht) (fun _ => hl) (flat_disc hm hne).1 (flat_disc hm hne).2
      fun s hU h => by rw [((call_value hU hs).2 rfl (lt_min_iff.mp (h (by simp))).2).2, P.om s]⟩

theorem rootsBackward_iff {rts : List ℂ} (gout : List ℂ) (h : rts ≠ []) : rootsBackward rts gout = .error .linalg ↔ ¬ rts.Nodup := by
  refine ⟨fun e hd => ?_, rootsBackward_raises h⟩
  rw [rootsBackward, Roots.backwardMatrix_ok rts h] at e
  simp only at e
  rw [if_neg fun h0 => (Roots.Batch.det_eq_zero_iff rts).mp h0 hd] at e
  cases e

/-- C142: for any limits and any distance, the gradients of the parameters raise `LinAlgError` exactly when `Ode0 = 0` or `4 Ok0³ + 27 Om0² Ode0 = 0` (`E²` has a
repeated root), although the distance is smooth there. -/
theorem C142_raises_iff (hde : c.de = .lambda) (hrad : c.rad = false) (ho : Reachable p c o) (hn : 2 ≤ n) (hs : Solves solve) (hm : o.Om0 ≠ 0) (ex : List ℤ)
    (z1 z2 g : ℝ) : ∃ k d, ok0 c o n = .ok k ∧ ode0 c o n = .ok d ∧
      (paramsBackward solve c o n ex z1 z2 g = .error .linalg ↔ d = 0 ∨ 4 * k ^ 3 + 27 * o.Om0 ^ 2 * d = 0) := by
  obtain ⟨k, d, -, hk, hd, -⟩ := C48_factorisation p c o ho hde n hn (by simpa [epolyLeading, hrad] using hm) solve hs 0
  refine ⟨k, d, hk, hd, ?_⟩
  obtain ⟨R1, R2, R3, hr⟩ := roots3 hs (k / o.Om0) (d / o.Om0)
  have hc : epolyCoeffs c o k d = [k / o.Om0, 0, d / o.Om0] := by simp [epolyCoeffs, epolyCoeffs_, epolyLeading, hrad]
  have e : ∀ gout, (rootsBackward [R1, R2, R3] gout = .error .linalg ↔ d = 0 ∨ 4 * k ^ 3 + 27 * o.Om0 ^ 2 * d = 0) := fun gout => by
    rw [rootsBackward_iff _ (by simp), hr.nodup_iff, not_and_or, not_not, not_not,
      show 4 * (k / o.Om0) ^ 3 + 27 * (d / o.Om0) = (4 * k ^ 3 + 27 * o.Om0 ^ 2 * d) / o.Om0 ^ 3 by field_simp, div_eq_zero_iff, div_eq_zero_iff]
    simp [hm]
  rw [← e]
  simp only [paramsBackward, hk, hd, hc, hr.eq]
  split
  · rename_i e' h'
    rw [h']
    simp
  · rename_i gc h'
    rw [h']
    simp

/-- C142: a universe without dark energy gives no gradients of its parameters, whatever the distance and the redshifts (the distance itself is correct, C104). -/
theorem C142_no_dark_energy (hrad : c.rad = false) (hde : c.de = .lambda) (ho : Reachable p c o) (hn : 2 ≤ n) (hs : Solves solve) (hm : o.Om0 ≠ 0)
    (hd : ode0 c o n = .ok 0) (ex : List ℤ) (z1 z2 g : ℝ) : paramsBackward solve c o n ex z1 z2 g = .error .linalg := by
  obtain ⟨k, d, -, h, e⟩ := C142_raises_iff hde hrad ho hn hs hm ex z1 z2 g
  rw [hd] at h
  exact e.mpr (.inl (Except.ok.inj h).symm)

/-- C142: the gradients of the redshifts alone never raise and are right at every such universe, repeated roots included. -/
theorem C142_redshift {E2 : ℝ → ℝ} (U : Universe p c o n E2 (min z1 z2)) (hs : Solves solve) (g : ℝ) :
    limitsBackward solve c o n [] z1 z2 g = .ok (((-(g * invEfunc (E2 z1)) : ℝ) : ℂ), ((g * invEfunc (E2 z2) : ℝ) : ℂ)) ∧
    (-1 < z1 → -1 < z2 → limitsBackward solve c o n [-1] z1 z2 g = .ok (((-(g * lookbackIntegrand (E2 z1) z1) : ℝ) : ℂ), ((g * lookbackIntegrand (E2 z2) z2 : ℝ) : ℂ)) ∧
      limitsBackward solve c o n [2] z1 z2 g = .ok (((-(g * absIntegrand (E2 z1) z1) : ℝ) : ℂ), ((g * absIntegrand (E2 z2) z2 : ℝ) : ℂ))) := by
  obtain ⟨k, d, -, hk, hd, -⟩ := C48_factorisation p c o U.reach U.lam n U.fuel (by simp [epolyLeading, U.rad, U.matter.ne']) solve hs 0
  have hE : E2 = Q o.Om0 k d := funext fun t => by
    have := U.e2 t
    rw [e2func_Q U.lam U.rad hk hd] at this
    exact (Except.ok.inj this).symm
  subst hE
  have S : ∀ ex : List ℤ, (ex = [] ∨ ∃ q, ex = [q]) → (ex ≠ [] → -1 < min z1 z2) → Simple c o n k d z1 z2 ex := fun ex h1 h2 =>
    ⟨U.rad, hk, hd, U.matter, U.pos, h1, h2⟩
  refine ⟨?_, fun h1 h2 => ⟨?_, ?_⟩⟩
  · rw [(S [] (.inl rfl) (by simp)).limits_eq hs]
    simp [weight]
  · rw [(S [-1] (.inr ⟨_, rfl⟩) fun _ => lt_min h1 h2).limits_eq hs]
    simp only [weight, lookbackIntegrand, List.map_cons, List.map_nil, List.prod_cons, List.prod_nil, mul_one, zpow_neg_one, add_comm _ (1 : ℝ), div_eq_inv_mul]
  · rw [(S [2] (.inr ⟨_, rfl⟩) fun _ => lt_min h1 h2).limits_eq hs]
    simp only [weight, absIntegrand, List.map_cons, List.map_nil, List.prod_cons, List.prod_nil, mul_one, zpow_ofNat, add_comm _ (1 : ℝ)]

/-! ### The hypotheses are met -/

theorem someSolver : ∃ solve, Solves solve := by
  obtain ⟨eig, heig⟩ := Roots.eigSpec_nonempty
  obtain ⟨solve, h, -⟩ := solves_exists _ _ Roots.principal_cpow Roots.cbrt_cpow eig heig false fun _ => .ok []
  exact ⟨solve, h⟩

/-- A LambdaCDM with `Om0 = 0.3 + s`, `Ode0 = 0.5 - 2 s`, between redshifts `-1/2 + s` and `3`. -/
example (p : Phys) : ∃ solve o, Solves solve ∧ GradOK solve ⟨.lambda, false, false⟩ 2 [] (fun s L r1 r2 r3 => diffComoving3 L r1 r2 r3 (-1 / 2 + s) 3)
      (fun s => setParams p ⟨.lambda, false, false⟩ o [(.Om0, 0.3 + s), (.Ode0, 0.5 - 2 * s)]) (fun s => -1 / 2 + s) (fun _ => 3) 1 (-2) 1 0 0 := by
  obtain ⟨solve, hs⟩ := someSolver
  have hr : Reachable p ⟨.lambda, false, false⟩ _ := ⟨1, [(.Om0, 0.3), (.Ode0, 0.5)], [], _, rfl, rfl⟩
  refine ⟨solve, _, hs, C142_comoving hr le_rfl hs ((hasDerivAt_id (0 : ℝ)).const_add 0.3) ?_ ((hasDerivAt_id (0 : ℝ)).const_add (-1 / 2)) (hasDerivAt_const _ _) (by norm_num) ?_ (by norm_num) (by norm_num)⟩
  · simpa using ((hasDerivAt_id (0 : ℝ)).const_mul 2).const_sub 0.5
  · intro t ht
    have : -1 / 2 ≤ t := by
      simp only [id, add_zero] at ht
      rcases min_le_iff.mp ht with h | h <;> linarith
    have : 0 < 1 + t := by linarith
    have : 0 < (1 + t) ^ 3 := by positivity
    have : 0 < (1 + t) ^ 2 := by positivity
    norm_num
    linarith

/-- The lookback time and absorption distance of the same universe to redshift `2 - s`. -/
example (p : Phys) : ∃ solve o, Solves solve ∧ GradOK solve ⟨.lambda, false, false⟩ 2 [-1] (fun s L r1 r2 r3 => diffLookback3 L r1 r2 r3 (2 - s))
      (fun s => setParams p ⟨.lambda, false, false⟩ o [(.Om0, 0.3 + s), (.Ode0, 0.5)]) (fun _ => 0) (fun s => 2 - s) 1 0 0 (-1) 0 := by
  obtain ⟨solve, hs⟩ := someSolver
  have hr : Reachable p ⟨.lambda, false, false⟩ _ := ⟨1, [(.Om0, 0.3), (.Ode0, 0.5)], [], _, rfl, rfl⟩
  refine ⟨solve, _, hs, (C142_lookback_absorption hr le_rfl hs ((hasDerivAt_id (0 : ℝ)).const_add 0.3) (hasDerivAt_const _ _) ((hasDerivAt_id (0 : ℝ)).const_sub 2) (by norm_num) (by norm_num) ?_ (by norm_num) (by norm_num)).1⟩
  intro t ht
  have : 0 ≤ t := by simpa using ht
  have : 0 < 1 + t := by linarith
  have : 0 < (1 + t) ^ 3 := by positivity
  have : 0 < (1 + t) ^ 2 := by positivity
  norm_num
  linarith

/-- A FlatLambdaCDM with `Om0 = 0.3 + s`. -/
example (p : Phys) : ∃ solve o, Solves solve ∧ GradOK solve ⟨.lambda, false, true⟩ 2 [] (fun s L r1 r2 r3 => diffComoving3 L r1 r2 r3 0 (1 + s))
      (fun s => setParams p ⟨.lambda, false, true⟩ o [(.Om0, 0.3 + s)]) (fun _ => 0) (fun s => 1 + s) 1 0 0 1 0 ∧
    GradOK solve ⟨.lambda, false, true⟩ 2 [2] (fun s L r1 r2 r3 => diffAbsorption3 L r1 r2 r3 (1 + s))
      (fun s => setParams p ⟨.lambda, false, true⟩ o [(.Om0, 0.3 + s)]) (fun _ => 0) (fun s => 1 + s) 1 0 0 1 0 := by
  obtain ⟨solve, hs⟩ := someSolver
  have hr : Reachable p ⟨.lambda, false, true⟩ _ := ⟨1, [(.Om0, 0.3)], [], _, rfl, rfl⟩
  have hp : ∀ t : ℝ, min 0 (1 + id (0 : ℝ)) ≤ t → 0 < (0.3 + id (0 : ℝ)) * (1 + t) ^ 3 + (1 - (0.3 + id (0 : ℝ))) := by
    intro t ht
    have : 0 ≤ t := by simpa using ht
    have : 0 < (1 + t) ^ 3 := by positivity
    norm_num
    linarith
  exact ⟨solve, _, hs, C142_flat_comoving hr le_rfl hs ((hasDerivAt_id (0 : ℝ)).const_add 0.3) (hasDerivAt_const _ _) ((hasDerivAt_id (0 : ℝ)).const_add 1) (by norm_num) hp (by norm_num),
    (C142_flat_lookback_absorption hr le_rfl hs ((hasDerivAt_id (0 : ℝ)).const_add 0.3) ((hasDerivAt_id (0 : ℝ)).const_add 1) (by norm_num) (by norm_num) hp (by norm_num)).2⟩

/-- An open universe without dark energy raises. -/
example (p : Phys) : ∃ solve o, Solves solve ∧ Reachable p ⟨.lambda, false, false⟩ o ∧ paramsBackward solve ⟨.lambda, false, false⟩ o 2 [] 0 1 1 = .error .linalg := by
  obtain ⟨solve, hs⟩ := someSolver
  have hr : Reachable p ⟨.lambda, false, false⟩ _ := ⟨1, [(.Om0, 0.3), (.Ode0, 0)], [], _, rfl, rfl⟩
  exact ⟨solve, _, hs, hr, C142_no_dark_energy rfl rfl hr le_rfl hs (by norm_num [setParams, assign]) (by norm_num [setParams, assign, ode0]) _ _ _ _⟩

end Verif.Ellred

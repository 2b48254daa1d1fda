import Verif.Cosmo.Params
import Verif.Roots.Props
import Mathlib.Analysis.Calculus.DSlope
import Mathlib.Analysis.SpecialFunctions.Trigonometric.DerivHyp
import Mathlib.Analysis.SpecialFunctions.Sqrt
import Mathlib.MeasureTheory.Integral.IntegralEqImproper

/-! # Distances and times: C44-C48, C74, C75 -/

namespace Verif.Cosmo

/-! ### C44: age and lookback time -/

/-- **C44** a driver that provides only the age: lookback time is the difference of ages. -/
theorem C44_lookback_from_age (d : Driver) (f : WithTop ℝ → ℝ) (hl : d.lookback = none)
    (ha : d.age = some fun z => .ok (f z)) (n : ℕ) (hn : 2 ≤ n) (z : WithTop ℝ) :
    lookback d n z = .ok (f (0 : ℝ) - f z) ∧ age d n z = .ok (f z) := by
  obtain ⟨m, rfl⟩ := exists_add_two hn
  simp [lookback, age, hl, ha, sub]

/-- `C44_lookback_from_age`: a driver with an age only. -/
example (f : WithTop ℝ → ℝ) := C44_lookback_from_age ⟨none, some fun z => .ok (f z), none, none⟩ f rfl rfl 2 le_rfl (3 : ℝ)

/-- **C44** a driver that provides only the lookback time: the default age is `lookback(∞)` at every redshift. -/
theorem C44_age_from_lookback (d : Driver) (f : WithTop ℝ → ℝ) (ha : d.age = none)
    (hl : d.lookback = some fun z => .ok (f z)) (n : ℕ) (hn : 2 ≤ n) (z : WithTop ℝ) :
    age d n z = .ok (f ⊤) := by
  obtain ⟨m, rfl⟩ := exists_add_two hn
  simp [lookback, age, hl, ha]

/-- `C44_age_from_lookback`: a driver with a lookback time only. -/
example (f : WithTop ℝ → ℝ) := C44_age_from_lookback ⟨some fun z => .ok (f z), none, none, none⟩ f rfl rfl 2 le_rfl (3 : ℝ)

/-- **C44** so the claim `age(z) = lookback(∞) - lookback(z)` holds of the default exactly where
`lookback(z) = 0`, in particular at `z = 0`: `age` ignores its argument. -/
theorem C44_age_partial (d : Driver) (f : WithTop ℝ → ℝ) (ha : d.age = none)
    (hl : d.lookback = some fun z => .ok (f z)) (n : ℕ) (hn : 2 ≤ n) (z : WithTop ℝ) :
    age d n z = .ok (f ⊤ - f z) ↔ f z = 0 := by
  rw [C44_age_from_lookback d f ha hl n hn z]
  simp only [Except.ok.injEq]
  constructor <;> intro h <;> linarith

/-- `C44_age_partial`: the same driver. -/
example (f : WithTop ℝ → ℝ) := C44_age_partial ⟨some fun z => .ok (f z), none, none, none⟩ f rfl rfl 2 le_rfl (3 : ℝ)

/-- **C44** hence it is false for any driver whose lookback time is not identically 0. -/
theorem C44_false : ∃ (d : Driver) (f : WithTop ℝ → ℝ), d.age = none ∧ (d.lookback = some fun z => .ok (f z)) ∧
    ∀ n, 2 ≤ n → age d n ((1 : ℝ) : WithTop ℝ) ≠ .ok (f ⊤ - f ((1 : ℝ) : WithTop ℝ)) := by
  refine ⟨⟨some fun z => .ok (if z = (0 : ℝ) then 0 else 1), none, none, none⟩, fun z => if z = (0 : ℝ) then 0 else 1,
    rfl, rfl, fun n hn => ?_⟩
  intro h
  rw [C44_age_partial _ (fun z => if z = ((0 : ℝ) : WithTop ℝ) then (0 : ℝ) else 1) rfl rfl n hn] at h
  simp at h

/-- **C44** a driver that provides neither fails with a recursion error, whatever the recursion limit. -/
theorem C44_neither (d : Driver) (hl : d.lookback = none) (ha : d.age = none) (n : ℕ) (z : WithTop ℝ) :
    lookback d n z = .error .recursion ∧ age d n z = .error .recursion := by
  induction n generalizing z with
  | zero => exact ⟨rfl, rfl⟩
  | succ n ih => simp [lookback, age, hl, ha, (ih _).1, (ih _).2, sub]

/-- `C44_neither`: a driver with distances only. -/
example (f : ℝ → ℝ) := C44_neither ⟨none, none, some fun z => .ok (f z), none⟩ rfl rfl 100 (3 : ℝ)

/-! ### C45: comoving distance -/

/-- **C45** a driver that provides the distance from here: distances between redshifts are additive,
antisymmetric and vanish between equal redshifts, and the distance to `z` is the provided one. -/
theorem C45_from_single (d : Driver) (f : ℝ → ℝ) (h1 : d.comoving = some fun z => .ok (f z))
    (h2 : d.comovingZ = none) (n : ℕ) (hn : 2 ≤ n) :
    ∃ D : ℝ → ℝ → ℝ, (∀ a b, comovingZ d n a b = .ok (D a b)) ∧ (∀ z, comoving d n z = .ok (f z)) ∧
      (∀ a b c, D a b + D b c = D a c) ∧ (∀ a b, D a b = -D b a) ∧ ∀ a, D a a = 0 := by
  obtain ⟨m, rfl⟩ := exists_add_two hn
  refine ⟨fun a b => f b - f a, ?_, ?_, ?_, ?_, ?_⟩
  · intro a b; simp [comovingZ, comoving, h1, h2, sub]
  · intro z; simp [comoving, h1]
  · intro a b c; ring
  · intro a b; ring
  · intro a; ring

/-- `C45_from_single`: a driver with the distance to one redshift. -/
example := C45_from_single ⟨none, none, some fun z => .ok (z ^ 2), none⟩ (fun z => z ^ 2) rfl rfl 2 le_rfl

/-- **C45** a driver that provides the distance between redshifts: the distance to `z` is the one from 0. -/
theorem C45_from_pair (d : Driver) (D : ℝ → ℝ → ℝ) (h1 : d.comoving = none)
    (h2 : d.comovingZ = some fun a b => .ok (D a b)) (n : ℕ) (hn : 2 ≤ n) (a b : ℝ) :
    comoving d n b = .ok (D 0 b) ∧ comovingZ d n a b = .ok (D a b) := by
  obtain ⟨m, rfl⟩ := exists_add_two hn
  simp [comoving, comovingZ, h1, h2]

/-- `C45_from_pair`: a driver with the distance between two redshifts. -/
example := C45_from_pair ⟨none, none, none, some fun a b => .ok (b ^ 2 - a ^ 2)⟩ (fun a b => b ^ 2 - a ^ 2) rfl rfl 2 le_rfl 1 3

/-- **C45** a driver that provides neither fails with a recursion error. -/
theorem C45_neither (d : Driver) (h1 : d.comoving = none) (h2 : d.comovingZ = none) (n : ℕ) (a b : ℝ) :
    comoving d n b = .error .recursion ∧ comovingZ d n a b = .error .recursion := by
  induction n generalizing a b with
  | zero => exact ⟨rfl, rfl⟩
  | succ n ih => simp [comoving, comovingZ, h1, h2, (ih 0 b).1, (ih 0 b).2, sub]

/-- `C45_neither`: a driver with an age only. -/
example (f : WithTop ℝ → ℝ) := C45_neither ⟨none, some fun z => .ok (f z), none, none⟩ rfl rfl 100 1 3

/-- **C45** a driver that integrates `1/E` exactly (what the `odeint` and analytic drivers approximate): additive,
vanishing between equal redshifts, with derivative `1/E(z)`, and strictly increasing, for every class of model, as
long as `E²` is positive from `z = -1` (exclusive) on. -/
theorem C45_integral (e2 : ℝ → ℝ) (hc : ContinuousOn e2 (Set.Ioi (-1))) (hp : ∀ z, -1 < z → 0 < e2 z)
    (d : Driver) (h1 : d.comoving = none)
    (h2 : d.comovingZ = some fun a b => .ok (∫ t in a..b, invEfunc (e2 t))) (n : ℕ) (hn : 2 ≤ n) :
    ∃ D : ℝ → ℝ → ℝ, (∀ a b, comovingZ d n a b = .ok (D a b)) ∧ (∀ z, comoving d n z = .ok (D 0 z)) ∧
      (∀ a b c, -1 < a → -1 < b → -1 < c → D a b + D b c = D a c) ∧ (∀ a, D a a = 0) ∧
      (∀ a z, -1 < a → -1 < z → HasDerivAt (D a) (invEfunc (e2 z)) z) ∧
      (∀ a x y, -1 < a → -1 < x → x < y → D a x < D a y) := by
  have hcont : ContinuousOn (fun t => invEfunc (e2 t)) (Set.Ioi (-1)) := by
    intro t ht
    exact ContinuousWithinAt.rpow_const (hc t ht) (.inl (hp t ht).ne')
  have hsub : ∀ a b : ℝ, -1 < a → -1 < b → Set.uIcc a b ⊆ Set.Ioi (-1) := by
    intro a b ha hb x hx
    have := (Set.mem_uIcc.mp hx)
    rcases this with h | h
    · exact lt_of_lt_of_le ha h.1
    · exact lt_of_lt_of_le hb h.1
  have hint : ∀ a b : ℝ, -1 < a → -1 < b → IntervalIntegrable (fun t => invEfunc (e2 t)) MeasureTheory.volume a b :=
    fun a b ha hb => (hcont.mono (hsub a b ha hb)).intervalIntegrable
  refine ⟨fun a b => ∫ t in a..b, invEfunc (e2 t), fun a b => (C45_from_pair d _ h1 h2 n hn a b).2,
    fun z => (C45_from_pair d _ h1 h2 n hn 0 z).1, ?_, ?_, ?_, ?_⟩
  · intro a b c ha hb hc'
    exact intervalIntegral.integral_add_adjacent_intervals (hint a b ha hb) (hint b c hb hc')
  · intro a; simp
  · intro a z ha hz
    apply intervalIntegral.integral_hasDerivAt_right (hint a z ha hz)
    · exact hcont.stronglyMeasurableAtFilter isOpen_Ioi z hz
    · exact hcont.continuousAt (Ioi_mem_nhds hz)
  · intro a x y ha hx hxy
    have hy := hx.trans hxy
    have h3 := intervalIntegral.integral_add_adjacent_intervals (hint a x ha hx) (hint x y hx hy)
    have h4 : 0 < ∫ t in x..y, invEfunc (e2 t) := by
      apply intervalIntegral.intervalIntegral_pos_of_pos_on (hint x y hx hy) _ hxy
      intro t ht
      exact Real.rpow_pos_of_pos (hp t (hx.trans ht.1)) _
    simp only
    linarith

/-- The hypotheses are met by LambdaCDM's `E²`. -/
example : ContinuousOn (fun z : ℝ => 0.3 * (1 + z) ^ 3 + 0.7) (Set.Ioi (-1)) ∧
    ∀ z : ℝ, -1 < z → 0 < 0.3 * (1 + z) ^ 3 + 0.7 := by
  refine ⟨by fun_prop, fun z hz => ?_⟩
  have : 0 < 1 + z := by linarith
  positivity

/-! ### C46: distance duality -/

/-- **C46** `D_L = (1+z)² D_A = (1+z) D_M` for `z ≠ -1`. -/
theorem C46_duality (dm z : ℝ) (hz : z ≠ -1) :
    luminosity dm z = (1 + z) ^ 2 * angularDiameter dm z ∧ luminosity dm z = (1 + z) * dm := by
  have : z + 1 ≠ 0 := fun h => hz (by linarith)
  unfold luminosity angularDiameter
  constructor
  · field_simp; ring
  · ring

/-- `C46_duality`: distance 5 at redshift 3. -/
example := C46_duality 5 3 (by norm_num)

/-- **C46** the distance modulus is `5 log₁₀(|D_L| / 10 pc)` with `D_L` the dimensionful luminosity distance. -/
theorem C46_distmod (p : Phys) (o : Obj) (dl : ℝ) :
    distmod p o dl = 5 * Real.logb 10 (|hubbleDistance p o * dl| / p.pc10) := by
  unfold distmod hubbleDistance10pc
  have h : (dl * (hubbleDistance p o / p.pc10)) ^ 2 = (|hubbleDistance p o * dl| / p.pc10) ^ 2 := by
    rw [div_pow, sq_abs, mul_pow, div_pow, mul_pow]
    ring
  rw [h, Real.logb_pow]
  push_cast
  ring

/-- **C46** a distance ten times larger adds 5 magnitudes. -/
theorem C46_distmod_tenfold (p : Phys) (o : Obj) (dl : ℝ) (hd : dl ≠ 0) (hH : o.H0 ≠ 0) :
    distmod p o (10 * dl) = distmod p o dl + 5 := by
  rw [C46_distmod, C46_distmod]
  have hh : hubbleDistance p o * dl ≠ 0 := mul_ne_zero (div_ne_zero p.cl_pos.ne' hH) hd
  have e : |hubbleDistance p o * (10 * dl)| / p.pc10 = 10 * (|hubbleDistance p o * dl| / p.pc10) := by
    rw [show hubbleDistance p o * (10 * dl) = 10 * (hubbleDistance p o * dl) by ring, abs_mul]
    norm_num
    ring
  rw [e, Real.logb_mul (by norm_num) (div_ne_zero (abs_ne_zero.mpr hh) p.pc10_pos.ne'), Real.logb_self_eq_one (by norm_num)]
  ring

/-- `C46_distmod_tenfold`: `H0 = 70`, distances 5 and 50. -/
example := C46_distmod_tenfold exPhys (blank 70) 5 (by norm_num) (by simp [blank])

/-! ### C47: curvature -/

/-- The principal square root of a real number of either sign. -/
theorem sqrtOk0_eq (k : ℝ) : sqrtOk0 k = (√k : ℂ) + (√(-k) : ℂ) * Complex.I := by
  unfold sqrtOk0
  rcases lt_trichotomy k 0 with h | rfl | h
  · have h0 : √k = 0 := Real.sqrt_eq_zero_of_nonpos h.le
    rw [h0, Complex.ofReal_cpow_of_nonpos h.le, Real.sqrt_eq_rpow, Complex.ofReal_cpow (by linarith)]
    have he : Complex.exp (Real.pi * Complex.I * ((1 / 2 : ℝ) : ℂ)) = Complex.I := by
      rw [show (Real.pi : ℂ) * Complex.I * ((1 / 2 : ℝ) : ℂ) = (Real.pi / 2 : ℂ) * Complex.I by push_cast; ring]
      exact Complex.exp_pi_div_two_mul_I
    rw [he]
    push_cast
    ring
  · simp
  · have h0 : √(-k) = 0 := Real.sqrt_eq_zero_of_nonpos (by linarith)
    rw [h0, Real.sqrt_eq_rpow, Complex.ofReal_cpow h.le]
    simp

theorem sinc_arg (k d : ℝ) : isqrtOk0Pi k * d * Real.pi = Complex.I * sqrtOk0 k * d := by
  unfold isqrtOk0Pi
  have : (Real.pi : ℂ) ≠ 0 := by exact_mod_cast Real.pi_ne_zero
  field_simp

/-- The value of the `sinc` factor, a real number. -/
theorem sinc_eq (k d : ℝ) : (d : ℂ) * sinc (isqrtOk0Pi k * d) = (transverse k d : ℝ) := by
  unfold sinc transverse
  rw [sinc_arg, sqrtOk0_eq]
  rcases lt_trichotomy k 0 with h | rfl | h
  · have h0 : √k = 0 := Real.sqrt_eq_zero_of_nonpos h.le
    have hs : 0 < √(-k) := Real.sqrt_pos.mpr (by linarith)
    rw [if_neg (not_lt.mpr h.le), if_pos h, h0]
    have e : Complex.I * (((0 : ℝ) : ℂ) + (√(-k) : ℂ) * Complex.I) * d = -((√(-k) * d : ℝ) : ℂ) := by
      push_cast
      linear_combination ((√(-k) : ℂ) * d) * Complex.I_mul_I
    rw [e]
    by_cases hd : d = 0
    · subst hd; simp
    · have hne : (√(-k) * d : ℝ) ≠ 0 := mul_ne_zero hs.ne' hd
      have hne' : -((√(-k) * d : ℝ) : ℂ) ≠ 0 := by
        rw [neg_ne_zero]; exact_mod_cast hne
      have hdc : (d : ℂ) ≠ 0 := by exact_mod_cast hd
      have hsc : (√(-k) : ℂ) ≠ 0 := by exact_mod_cast hs.ne'
      rw [if_pos hne', Complex.sin_neg]
      push_cast
      field_simp
  · rw [if_neg (by simp), if_neg (by simp)]
    simp
  · have h0 : √(-k) = 0 := Real.sqrt_eq_zero_of_nonpos (by linarith)
    have hs : 0 < √k := Real.sqrt_pos.mpr h
    rw [if_pos h, h0]
    have e : Complex.I * ((√k : ℂ) + ((0 : ℝ) : ℂ) * Complex.I) * d = ((√k * d : ℝ) : ℂ) * Complex.I := by
      push_cast; ring
    rw [e]
    by_cases hd : d = 0
    · subst hd; simp
    · have hdc : (d : ℂ) ≠ 0 := by exact_mod_cast hd
      have hsc : (√k : ℂ) ≠ 0 := by exact_mod_cast hs.ne'
      have hne' : ((√k * d : ℝ) : ℂ) * Complex.I ≠ 0 := by
        push_cast
        exact mul_ne_zero (mul_ne_zero hsc hdc) Complex.I_ne_zero
      rw [if_pos hne', Complex.sin_mul_I]
      push_cast
      field_simp [Complex.I_ne_zero]

/-- **C47** the transverse distance of curved models is sinh / identity / sin by the sign of the curvature density,
and taking the real part loses nothing. -/
theorem C47_transform (k d : ℝ) :
    transformCurved false k d = transverse k d ∧ ((d : ℂ) * sinc (isqrtOk0Pi k * d)).im = 0 := by
  have h := sinc_eq k d
  refine ⟨?_, by rw [h, Complex.ofReal_im]⟩
  have h2 := congrArg Complex.re h
  rw [Complex.ofReal_re, Complex.re_ofReal_mul] at h2
  simpa [transformCurved] using h2

/-- **C47** flat classes skip the transformation, consistently with zero curvature. -/
theorem C47_flat (k d : ℝ) : transformCurved true k d = transformCurved false 0 d := by
  rw [(C47_transform 0 d).1]
  simp [transformCurved, transverse]

/-- **C47** odd in the distance. -/
theorem C47_odd (k d : ℝ) : transverse k (-d) = -transverse k d := by
  unfold transverse
  split_ifs
  · rw [mul_neg, Real.sinh_neg, neg_div]
  · rw [mul_neg, Real.sin_neg, neg_div]
  · rfl

/-- **C47** the transverse distance is jointly continuous in curvature and distance, in particular across zero
curvature. -/
theorem C47_continuous : Continuous fun x : ℝ × ℝ => transformCurved false x.1 x.2 := by
  have hs : Continuous (dslope Complex.sin 0) := by
    rw [← continuousOn_univ, continuousOn_dslope Filter.univ_mem]
    exact ⟨Complex.continuous_sin.continuousOn, Complex.differentiable_sin.differentiableAt⟩
  have he : ∀ x : ℂ, sinc x = dslope Complex.sin 0 (x * Real.pi) := by
    intro x
    unfold sinc
    split_ifs with h
    · rw [dslope_of_ne _ h, slope_def_field]
      simp
    · have : x * Real.pi = 0 := by simpa using h
      rw [this, dslope_same, Complex.deriv_sin, Complex.cos_zero]
  have h1 : ∀ x : ℝ × ℝ, transformCurved false x.1 x.2 =
      x.2 * (dslope Complex.sin 0 (Complex.I * ((√x.1 : ℂ) + (√(-x.1) : ℂ) * Complex.I) * x.2)).re := by
    intro x
    simp only [transformCurved, Bool.false_eq_true, if_false]
    rw [he, sinc_arg, sqrtOk0_eq]
  simp only [h1]
  apply Continuous.mul continuous_snd
  apply Complex.continuous_re.comp
  apply hs.comp
  have c1 : Continuous fun x : ℝ × ℝ => (√x.1 : ℂ) :=
    Complex.continuous_ofReal.comp (Real.continuous_sqrt.comp continuous_fst)
  have c2 : Continuous fun x : ℝ × ℝ => (√(-x.1) : ℂ) :=
    Complex.continuous_ofReal.comp (Real.continuous_sqrt.comp continuous_fst.neg)
  have c3 : Continuous fun x : ℝ × ℝ => (x.2 : ℂ) := Complex.continuous_ofReal.comp continuous_snd
  exact (continuous_const.mul (c1.add (c2.mul continuous_const))).mul c3

/-- The comoving volume within comoving distance `d`. -/
noncomputable def volumeSpec (k d : ℝ) : ℝ :=
  if k = 0 then 4 * Real.pi / 3 * d ^ 3 else 2 * Real.pi / k * (transverse k (2 * d) / 2 - d)

/-- Its derivative is `4π D_M²`. -/
theorem volumeSpec_deriv (k d : ℝ) : HasDerivAt (volumeSpec k) (4 * Real.pi * transverse k d ^ 2) d := by
  rcases lt_trichotomy k 0 with h | rfl | h
  · have hs : 0 < √(-k) := Real.sqrt_pos.mpr (by linarith)
    have hsq : √(-k) ^ 2 = -k := Real.sq_sqrt (by linarith)
    have hf : volumeSpec k = fun d => 2 * Real.pi / k * (Real.sin (√(-k) * (2 * d)) / √(-k) / 2 - d) := by
      funext x; simp [volumeSpec, transverse, h.ne, not_lt.mpr h.le, h]
    have hd : HasDerivAt (fun d => 2 * Real.pi / k * (Real.sin (√(-k) * (2 * d)) / √(-k) / 2 - d))
        (2 * Real.pi / k * (Real.cos (√(-k) * (2 * d)) * (√(-k) * (2 * 1)) / √(-k) / 2 - 1)) d := by
      have hlin : HasDerivAt (fun d : ℝ => √(-k) * (2 * d)) (√(-k) * (2 * 1)) d :=
        ((hasDerivAt_id d).const_mul 2).const_mul _
      exact (((hlin.sin.div_const _).div_const 2).sub (hasDerivAt_id d)).const_mul _
    rw [hf]
    refine hd.congr_deriv ?_
    rw [transverse, if_neg (not_lt.mpr h.le), if_pos h, show √(-k) * (2 * d) = 2 * (√(-k) * d) by ring, Real.cos_two_mul,
      div_pow, hsq, Real.sin_sq]
    field_simp
    ring
  · have hf : volumeSpec 0 = fun d => 4 * Real.pi / 3 * d ^ 3 := by funext x; simp [volumeSpec]
    rw [hf]
    refine ((hasDerivAt_pow 3 d).const_mul _).congr_deriv ?_
    simp [transverse]
    ring
  · have hs : 0 < √k := Real.sqrt_pos.mpr h
    have hsq : √k ^ 2 = k := Real.sq_sqrt h.le
    have hf : volumeSpec k = fun d => 2 * Real.pi / k * (Real.sinh (√k * (2 * d)) / √k / 2 - d) := by
      funext x; simp [volumeSpec, transverse, h.ne', h]
    have hd : HasDerivAt (fun d => 2 * Real.pi / k * (Real.sinh (√k * (2 * d)) / √k / 2 - d))
        (2 * Real.pi / k * (Real.cosh (√k * (2 * d)) * (√k * (2 * 1)) / √k / 2 - 1)) d := by
      have hlin : HasDerivAt (fun d : ℝ => √k * (2 * d)) (√k * (2 * 1)) d :=
        ((hasDerivAt_id d).const_mul 2).const_mul _
      exact (((hlin.sinh.div_const _).div_const 2).sub (hasDerivAt_id d)).const_mul _
    rw [hf]
    refine hd.congr_deriv ?_
    rw [transverse, if_pos h, show √k * (2 * d) = 2 * (√k * d) by ring, Real.cosh_two_mul, div_pow, hsq, Real.cosh_sq]
    field_simp
    ring

theorem isqrt_norm (k d : ℝ) : ‖2 * isqrtOk0Pi k * d‖ = 2 * √|k| * |d| / Real.pi := by
  unfold isqrtOk0Pi
  rw [norm_mul, norm_mul, norm_div, norm_mul, Complex.norm_I, Complex.norm_real, Complex.norm_real]
  have h1 : ‖sqrtOk0 k‖ = √|k| := by
    unfold sqrtOk0
    by_cases hk : k = 0
    · subst hk; simp
    · rw [Complex.norm_cpow_real, Complex.norm_real, Real.norm_eq_abs, Real.sqrt_eq_rpow]
  rw [h1]
  simp [abs_of_pos Real.pi_pos]
  ring

/-- The argument of `csinc` squared. -/
theorem isqrt_sq (k d : ℝ) : (2 * isqrtOk0Pi k * d * Real.pi) ^ 2 = ((-4 * k * d ^ 2 : ℝ) : ℂ) := by
  have h1 : sqrtOk0 k ^ 2 = k := by
    unfold sqrtOk0
    by_cases hk : k = 0
    · subst hk; simp
    · have : (k : ℂ) ≠ 0 := by exact_mod_cast hk
      rw [pow_two, ← Complex.cpow_add _ _ this]
      push_cast
      norm_num
  have h2 : 2 * isqrtOk0Pi k * d * Real.pi = 2 * (Complex.I * sqrtOk0 k * d) := by
    rw [← sinc_arg]; ring
  rw [h2]
  push_cast
  linear_combination (-4 * (d : ℂ) ^ 2) * h1 + (4 * sqrtOk0 k ^ 2 * (d : ℂ) ^ 2) * Complex.I_sq

theorem comovingVolume_far (eps k d : ℝ) (he : 0 ≤ eps) (h : eps < ‖2 * isqrtOk0Pi k * d‖) :
    comovingVolume false eps k d = volumeSpec k d := by
  have hne : ‖2 * isqrtOk0Pi k * d‖ ≠ 0 := (lt_of_le_of_lt he h).ne'
  rw [isqrt_norm] at hne
  have hk : k ≠ 0 := by rintro rfl; simp at hne
  have hd : d ≠ 0 := by rintro rfl; simp at hne
  simp only [comovingVolume, Bool.false_eq_true, if_false, csinc, if_pos h]
  have hpi : (Real.pi : ℂ) ≠ 0 := by exact_mod_cast Real.pi_ne_zero
  have hs := sinc_eq k (2 * d)
  have earg : isqrtOk0Pi k * ((2 * d : ℝ) : ℂ) = 2 * isqrtOk0Pi k * d := by push_cast; ring
  rw [earg] at hs
  have hdc : (d : ℂ) ≠ 0 := by exact_mod_cast hd
  have hsinc : sinc (2 * isqrtOk0Pi k * d) = ((transverse k (2 * d) / (2 * d) : ℝ) : ℂ) := by
    push_cast at hs ⊢
    rw [← hs]
    field_simp
  rw [isqrt_sq, hsinc]
  have : ((1 : ℂ) - ((transverse k (2 * d) / (2 * d) : ℝ) : ℂ)) / ((-4 * k * d ^ 2 : ℝ) : ℂ) =
      (((1 - transverse k (2 * d) / (2 * d)) / (-4 * k * d ^ 2) : ℝ) : ℂ) := by push_cast; rfl
  rw [this, Complex.ofReal_re, volumeSpec, if_neg hk]
  field_simp
  ring

theorem comovingVolume_near (eps k d : ℝ) (h : ‖2 * isqrtOk0Pi k * d‖ ≤ eps) :
    comovingVolume false eps k d = 4 * Real.pi / 3 * d ^ 3 := by
  have h6 : ((1 / 6 : ℂ)).re = 1 / 6 := by
    rw [show (1 / 6 : ℂ) = ((1 / 6 : ℝ) : ℂ) by push_cast; rfl, Complex.ofReal_re]
  simp only [comovingVolume, Bool.false_eq_true, if_false, csinc, if_neg (not_lt.mpr h), h6]
  ring

/-- **C47** the comoving volume: away from the series region (`|2 √Ok0 d / π| > eps`) its derivative with respect to
the comoving distance is exactly `4π D_M²`; inside it is the Euclidean volume, also with derivative `4π d²`, which is
exact for zero curvature. -/
theorem C47_volume (eps k d : ℝ) (he : 0 ≤ eps) :
    (eps < ‖2 * isqrtOk0Pi k * d‖ →
      HasDerivAt (comovingVolume false eps k) (4 * Real.pi * transformCurved false k d ^ 2) d) ∧
    (‖2 * isqrtOk0Pi k * d‖ ≤ eps → comovingVolume false eps k d = 4 * Real.pi / 3 * d ^ 3) ∧
    HasDerivAt (comovingVolume false eps 0) (4 * Real.pi * transformCurved false 0 d ^ 2) d ∧
    HasDerivAt (comovingVolume true eps k) (4 * Real.pi * transformCurved true k d ^ 2) d := by
  have h0 : ∀ x : ℝ, comovingVolume false eps 0 x = 4 * Real.pi / 3 * x ^ 3 := by
    intro x
    apply comovingVolume_near
    rw [isqrt_norm]
    simpa using he
  have hcube : HasDerivAt (fun x : ℝ => 4 * Real.pi / 3 * x ^ 3) (4 * Real.pi * d ^ 2) d := by
    refine ((hasDerivAt_pow 3 d).const_mul _).congr_deriv ?_
    norm_num
    ring
  refine ⟨?_, comovingVolume_near eps k d, ?_, ?_⟩
  · intro h
    rw [(C47_transform k d).1]
    refine (volumeSpec_deriv k d).congr_of_eventuallyEq ?_
    have hcont : Continuous fun x : ℝ => ‖2 * isqrtOk0Pi k * x‖ :=
      (continuous_const.mul Complex.continuous_ofReal).norm
    filter_upwards [hcont.continuousAt.eventually (Ioi_mem_nhds h)] with x hx
    exact comovingVolume_far eps k x he hx
  · rw [(C47_transform 0 d).1, show comovingVolume false eps 0 = fun x => 4 * Real.pi / 3 * x ^ 3 from funext h0]
    simpa [transverse] using hcube
  · have : comovingVolume true eps k = fun x => 4 * Real.pi / 3 * x ^ 3 := by
      funext x; simp [comovingVolume, transformCurved]
    rw [this]
    simpa [transformCurved] using hcube

/-- `C47_volume`: both regions at the code's threshold `eps = 1e-8`, in a universe with `Ok0 = 1`. -/
example : HasDerivAt (comovingVolume false 1e-8 1) (4 * Real.pi * transformCurved false 1 Real.pi ^ 2) Real.pi ∧
    comovingVolume false 1e-8 1 0 = 4 * Real.pi / 3 * 0 ^ 3 := by
  constructor
  · refine (C47_volume 1e-8 1 Real.pi (by norm_num)).1 ?_
    rw [isqrt_norm]
    simp [abs_of_pos Real.pi_pos]
    norm_num
  · refine (C47_volume 1e-8 1 0 (by norm_num)).2.1 ?_
    simp
    norm_num

/-- **C47** hence with `D_C' = 1/E`, the volume's derivative in redshift is `4π` times
`differential_comoving_volume`. -/
theorem C47_volume_redshift (eps k : ℝ) (he : 0 ≤ eps) (D e2 : ℝ → ℝ) (z : ℝ) (hD : HasDerivAt D (invEfunc (e2 z)) z)
    (h : eps < ‖2 * isqrtOk0Pi k * D z‖) :
    HasDerivAt (fun z => comovingVolume false eps k (D z))
      (4 * Real.pi * differentialVolume (transformCurved false k (D z)) (e2 z)) z := by
  refine (((C47_volume eps k (D z) he).1 h).comp z hD).congr_deriv ?_
  unfold differentialVolume invEfunc
  ring

/-- The region is met by, for instance, `Ok0 = 1`, distance `π` and `eps = 1`. -/
example : (1 : ℝ) < ‖2 * isqrtOk0Pi 1 * (Real.pi : ℝ)‖ := by
  rw [isqrt_norm]
  simp [abs_of_pos Real.pi_pos]

/-! ### C48: factorisation -/

/-- **C48** if the root finder returns the roots of the polynomial it is given, then
`E²(z) = leading · ∏ (z - root)` at every redshift, for the LambdaCDM(R) models of the analytic drivers. -/
theorem C48_factorisation (p : Phys) (c : Cls) (o : Obj) (hr : Reachable p c o) (hde : c.de = .lambda)
    (n : ℕ) (hn : 2 ≤ n) (hl : epolyLeading c o ≠ 0) (solve : List ℝ → List ℂ)
    (hsolve : ∀ cs, Roots.AreRoots (cs.map fun x : ℝ => (x : ℂ)) (solve cs)) (z : ℝ) :
    ∃ k d e, ok0 c o n = .ok k ∧ ode0 c o n = .ok d ∧ e2func c o n z = .ok e ∧
      (epolyLeading c o : ℂ) * ((epolyRoots solve c o k d).map fun r => (z : ℂ) - r).prod = e := by
  obtain ⟨m, rfl⟩ := exists_add_two hn
  have hs := reachable_settled p c o hr
  refine ⟨_, _, _, ok0_settled c o hs m, ode0_settled c o hs _, e2func_settled c o hs m z, ?_⟩
  have h1 : ((epolyRoots solve c o (okVal c o) (odeVal c o)).map fun r => (z : ℂ) - r).prod =
      Roots.rootProd (solve (epolyCoeffs c o (okVal c o) (odeVal c o))) (1 + z) := by
    unfold epolyRoots Roots.rootProd
    rw [List.map_map]
    congr 1
    apply List.map_congr_left
    intro r _
    simp only [Function.comp]
    ring
  rw [h1, (hsolve _).2]
  unfold e2Val epolyCoeffs epolyCoeffs_ epolyLeading Roots.monicEval at *
  have hd : deScale c o (1 + z) = 1 := by simp [deScale, hde]
  rw [hd]
  cases hrad : c.rad
  · simp only [hrad, Bool.false_eq_true, if_false] at hl ⊢
    have hlc : (o.Om0 : ℂ) ≠ 0 := by exact_mod_cast hl
    simp only [List.map_cons, List.map_nil, List.foldl_cons, List.foldl_nil]
    push_cast
    field_simp
    ring
  · simp only [hrad, if_true] at hl ⊢
    have hlc : (o.Or0 : ℂ) ≠ 0 := by exact_mod_cast hl
    simp only [List.map_cons, List.map_nil, List.foldl_cons, List.foldl_nil]
    push_cast
    field_simp
    ring

/-- **C48** the code's root finder qualifies: real coefficients are regular (C27, C28), so closed forms and numeric
method both return the roots. -/
theorem C48_solver (sq cb : ℂ → ℂ) (hs : Roots.IsPrincipalSqrt sq) (hcb : Roots.IsCbrt cb)
    (eig : (n : ℕ) → Matrix (Fin n) (Fin n) ℂ → List ℂ) (heig : Roots.EigSpec eig) (force : Bool) (cs : List ℝ)
    (hn : 2 ≤ cs.length) (eigBad) :
    ∃ rts, Roots.forward sq cb eig eigBad force ((cs.map fun x : ℝ => (x : ℂ)).map .fin) = .ok (rts.map .fin) ∧
      Roots.AreRoots (cs.map fun x : ℝ => (x : ℂ)) rts := by
  apply Roots.C30_roots sq cb hs hcb eig heig eigBad force _ (by simpa using hn)
  intro _
  match cs with
  | [] => trivial
  | [_] => trivial
  | [_, _] => trivial
  | [b, c, d] => exact Roots.C27_real_regular b c d
  | [b, c, d, e] => exact Roots.C28_real_regular b c d e
  | _ :: _ :: _ :: _ :: _ :: _ => trivial

/-- `C48_solver` and `C48_factorisation`: a root finder exists, and LambdaCDMR with `Or0 = 0.1` has a leading coefficient. -/
example : ∃ (solve : List ℝ → List ℂ) (o : Obj), o.Or0 = 0.1 ∧
    ∃ k d e, ok0 ⟨.lambda, true, false⟩ o 2 = .ok k ∧ ode0 ⟨.lambda, true, false⟩ o 2 = .ok d ∧ e2func ⟨.lambda, true, false⟩ o 2 1 = .ok e ∧
      (epolyLeading ⟨.lambda, true, false⟩ o : ℂ) * ((epolyRoots solve ⟨.lambda, true, false⟩ o k d).map fun r => ((1 : ℝ) : ℂ) - r).prod = e := by
  obtain ⟨eig, heig⟩ := Roots.eigSpec_nonempty
  have h : ∀ cs : List ℝ, ∃ rts, Roots.AreRoots (cs.map fun x : ℝ => (x : ℂ)) rts := by
    intro cs
    match cs with
    | [] => exact ⟨[], by simp [Roots.AreRoots, Roots.rootProd, Roots.monicEval]⟩
    | [c] => exact ⟨[-(c : ℂ)], by simp [Roots.AreRoots, Roots.rootProd, Roots.monicEval]⟩
    | c :: c' :: cs =>
      obtain ⟨rts, -, h⟩ := C48_solver _ _ Roots.principal_cpow Roots.cbrt_cpow eig heig false (c :: c' :: cs) (by simp) fun _ => .ok []
      exact ⟨rts, h⟩
  choose solve hsolve using h
  obtain ⟨o₀, hr⟩ := reachable_with exPhys ⟨.lambda, true, false⟩ [(.Or0, 0.1)]
  have ho : (setParams exPhys ⟨.lambda, true, false⟩ o₀ [(.Or0, 0.1)]).Or0 = 0.1 := by simp [setParams, assign]
  exact ⟨solve, _, ho, C48_factorisation _ _ _ hr rfl 2 le_rfl (by simp only [epolyLeading, if_true]; rw [ho]; norm_num) solve hsolve 1⟩

/-! ### C74: age of FlatLambdaCDM -/

/-- `E²` of FlatLambdaCDM. -/
theorem flatLambda_e2 (p : Phys) (o : Obj) (hr : Reachable p ⟨.lambda, false, true⟩ o) (n : ℕ) (hn : 2 ≤ n) (z : ℝ) :
    e2func ⟨.lambda, false, true⟩ o n z = .ok (o.Om0 * (1 + z) ^ 3 + (1 - o.Om0)) := by
  obtain ⟨m, rfl⟩ := exists_add_two hn
  rw [e2func_settled _ o (.inl rfl)]
  have hnone := (reachable_ode p _ o hr).2 ⟨rfl, rfl⟩
  simp only [e2Val, okVal, odeVal, sum0, deScale, hnone, Option.getD_none, Bool.false_eq_true, if_false, if_true,
    Except.ok.injEq]
  ring

/-- The derivative of the closed-form age. -/
theorem flatAge_deriv (Om z : ℝ) (h0 : 0 < Om) (h1 : Om < 1) (hz : -1 < z) :
    HasDerivAt (flatAge Om) (-lookbackIntegrand (Om * (1 + z) ^ 3 + (1 - Om)) z) z := by
  have hx : 0 < 1 + z := by linarith
  have hA : 0 < 1 / Om - 1 := by
    rw [sub_pos, lt_div_iff₀ h0]; linarith
  have hf : flatAge Om = fun z => (2 / 3) / √(1 - Om) * Real.arsinh (√((1 / Om - 1) / (1 + z) ^ 3)) := by
    funext y
    simp only [flatAge, Real.sqrt_eq_rpow]
  rw [hf]
  have hu : HasDerivAt (fun y : ℝ => (1 / Om - 1) / (1 + y) ^ 3) (-(3 * (1 / Om - 1)) / (1 + z) ^ 4) z := by
    have hp : HasDerivAt (fun y : ℝ => (1 + y) ^ 3) (3 * (1 + z) ^ 2 * 1) z := by
      simpa using ((hasDerivAt_id z).const_add 1).fun_pow 3
    have := (hasDerivAt_const z (1 / Om - 1)).fun_div hp (pow_pos hx 3).ne'
    refine this.congr_deriv ?_
    field_simp
    ring
  have hupos : 0 < (1 / Om - 1) / (1 + z) ^ 3 := by positivity
  have hd := ((hu.sqrt hupos.ne').arsinh).const_mul ((2 / 3) / √(1 - Om))
  refine hd.congr_deriv ?_
  set u := (1 / Om - 1) / (1 + z) ^ 3 with hudef
  set E := Om * (1 + z) ^ 3 + (1 - Om) with hE
  have hEpos : 0 < E := by rw [hE]; have : 0 < 1 - Om := by linarith
                           positivity
  have hinv : lookbackIntegrand E z = 1 / √E / (1 + z) := by
    unfold lookbackIntegrand invEfunc
    rw [show (-1 / 2 : ℝ) = -(1 / 2) by norm_num, Real.rpow_neg hEpos.le, Real.sqrt_eq_rpow, add_comm z 1]
    simp
  rw [hinv]
  have hW : √(1 + √u ^ 2) = √(1 + u) := by rw [Real.sq_sqrt hupos.le]
  have hkey : √u * √E = √(1 - Om) * √(1 + u) := by
    rw [← Real.sqrt_mul hupos.le, ← Real.sqrt_mul (by linarith)]
    congr 1
    rw [hudef, hE]
    field_simp
  have hU : 0 < √u := Real.sqrt_pos.mpr hupos
  have ha : 0 < √(1 - Om) := Real.sqrt_pos.mpr (by linarith)
  have he : 0 < √E := Real.sqrt_pos.mpr hEpos
  have hw : 0 < √(1 + u) := Real.sqrt_pos.mpr (by linarith)
  have hu2 : -(3 * (1 / Om - 1)) / (1 + z) ^ 4 = -3 * √u ^ 2 / (1 + z) := by
    rw [Real.sq_sqrt hupos.le, hudef]
    field_simp
  rw [hW, hu2, smul_eq_mul]
  clear_value u E
  field_simp
  linear_combination (-1) * hkey

theorem flatAge_tendsto (Om : ℝ) : Filter.Tendsto (flatAge Om) Filter.atTop (nhds 0) := by
  have hf : flatAge Om = fun z => (2 / 3) / √(1 - Om) * Real.arsinh (√((1 / Om - 1) / (1 + z) ^ 3)) := by
    funext y
    simp only [flatAge, Real.sqrt_eq_rpow]
  rw [hf]
  have h1 : Filter.Tendsto (fun z : ℝ => (1 + z) ^ 3) Filter.atTop Filter.atTop :=
    (Filter.tendsto_pow_atTop (by norm_num)).comp (Filter.tendsto_atTop_add_const_left _ 1 Filter.tendsto_id)
  have h2 : Filter.Tendsto (fun z : ℝ => (1 / Om - 1) / (1 + z) ^ 3) Filter.atTop (nhds 0) := h1.const_div_atTop _
  have h3 := (Real.continuous_arsinh.tendsto (√0)).comp ((Real.continuous_sqrt.tendsto 0).comp h2)
  have h4 := h3.const_mul ((2 / 3) / √(1 - Om))
  simpa using h4

/-- **C74** the closed-form age of FlatLambdaCDM is the integral of `1/((1+z') E(z'))` from `z` to infinity, with
the class's own `E`, for every `0 < Om0 < 1` and `z > -1`. -/
theorem C74_flat_age (p : Phys) (o : Obj) (hr : Reachable p ⟨.lambda, false, true⟩ o) (h0 : 0 < o.Om0) (h1 : o.Om0 < 1)
    (n : ℕ) (hn : 2 ≤ n) (z : ℝ) (hz : -1 < z) :
    ∃ e : ℝ → ℝ, (∀ t, e2func ⟨.lambda, false, true⟩ o n t = .ok (e t)) ∧
      flatAge o.Om0 z = ∫ t in Set.Ioi z, lookbackIntegrand (e t) t := by
  refine ⟨fun t => o.Om0 * (1 + t) ^ 3 + (1 - o.Om0), fun t => flatLambda_e2 p o hr n hn t, ?_⟩
  have h := MeasureTheory.integral_Ioi_of_hasDerivAt_of_nonpos'
    (fun x (hx : x ∈ Set.Ici z) => flatAge_deriv o.Om0 x h0 h1 (lt_of_lt_of_le hz hx))
    (fun x hx => by
      have hx1 : 0 < 1 + x := by have := Set.mem_Ioi.mp hx; linarith
      have hE : 0 < o.Om0 * (1 + x) ^ 3 + (1 - o.Om0) := by
        have : 0 < 1 - o.Om0 := by linarith
        positivity
      unfold lookbackIntegrand invEfunc
      rw [neg_nonpos]
      have h2 := Real.rpow_pos_of_pos hE (-1 / 2)
      exact div_nonneg h2.le (by linarith))
    (flatAge_tendsto o.Om0)
  rw [MeasureTheory.integral_neg] at h
  linarith

/-- `C74_flat_age` for a reachable object with `Om0 = 0.2`. -/
example : ∃ (o : Obj) (e : ℝ → ℝ), o.Om0 = 0.2 ∧ (∀ t, e2func ⟨.lambda, false, true⟩ o 2 t = .ok (e t)) ∧
    flatAge o.Om0 1 = ∫ t in Set.Ioi 1, lookbackIntegrand (e t) t := by
  obtain ⟨o, h1, h2⟩ := reachable_example exPhys ⟨.lambda, false, true⟩
  obtain ⟨e, h⟩ := C74_flat_age exPhys o h1 (by rw [h2]; norm_num) (by rw [h2]; norm_num) 2 le_rfl 1 (by norm_num)
  exact ⟨o, e, h2, h⟩

/-- **C74** and the derived lookback time (age at 0 minus age at `z`) is the integral from 0 to `z`. -/
theorem C74_flat_lookback (Om z : ℝ) (h0 : 0 < Om) (h1 : Om < 1) (hz : -1 < z) :
    flatAge Om 0 - flatAge Om z = ∫ t in (0 : ℝ)..z, lookbackIntegrand (Om * (1 + t) ^ 3 + (1 - Om)) t := by
  have hsub : ∀ x ∈ Set.uIcc (0 : ℝ) z, -1 < x := by
    intro x hx
    rcases Set.mem_uIcc.mp hx with h | h <;> linarith [h.1]
  have hd : ∀ x ∈ Set.uIcc (0 : ℝ) z, HasDerivAt (fun t => -flatAge Om t)
      (lookbackIntegrand (Om * (1 + x) ^ 3 + (1 - Om)) x) x := by
    intro x hx
    have := (flatAge_deriv Om x h0 h1 (hsub x hx)).fun_neg
    simpa using this
  have hc : ContinuousOn (fun x => lookbackIntegrand (Om * (1 + x) ^ 3 + (1 - Om)) x) (Set.uIcc 0 z) := by
    intro x hx
    have hx1 : 0 < 1 + x := by have := hsub x hx; linarith
    have hE : Om * (1 + x) ^ 3 + (1 - Om) ≠ 0 := by
      have : 0 < 1 - Om := by linarith
      positivity
    unfold lookbackIntegrand invEfunc
    apply ContinuousAt.continuousWithinAt
    apply ContinuousAt.div
    · apply ContinuousAt.rpow_const
      · fun_prop
      · exact .inl hE
    · fun_prop
    · linarith
  rw [intervalIntegral.integral_eq_sub_of_hasDerivAt hd hc.intervalIntegrable]
  ring

example (p : Phys) : ∃ o, Reachable p ⟨.lambda, false, true⟩ o ∧ 0 < o.Om0 ∧ o.Om0 < 1 := by
  obtain ⟨o, h1, h2⟩ := reachable_example p ⟨.lambda, false, true⟩
  exact ⟨o, h1, by rw [h2]; norm_num, by rw [h2]; norm_num⟩

/-! ### C75: componentwise models -/

/-- **C75** each component's `redshift` is the density law of its equation of state, in agreement with the
dark-energy classes of `special`. -/
theorem C75_component_laws (o : Obj) (O0 z : ℝ) (hz : -1 < z) :
    (Component.w0 O0 o.w0).redshift z = deScale ⟨.w, false, false⟩ o (1 + z) ∧
    (Component.w0wa O0 o.w0 o.wa).redshift z = deScale ⟨.w0wa, false, false⟩ o (1 + z) ∧
    (Component.lambda O0).redshift z = deScale ⟨.lambda, false, false⟩ o (1 + z) ∧
    (Component.matter O0).redshift z = (1 + z) ^ (3 * (1 + (0 : ℝ))) ∧
    (Component.radiation O0).redshift z = (1 + z) ^ (3 * (1 + (1 / 3 : ℝ))) := by
  have hx : z + 1 ≠ 0 := by linarith
  refine ⟨by simp only [Component.redshift, deScale, add_comm z 1], ?_, rfl, ?_, ?_⟩
  · simp only [Component.redshift, deScale, add_comm 1 z]
    congr 1
    · congr 1; ring
    · congr 1; field_simp; ring
  · simp only [Component.redshift, add_comm z 1]
    rw [← Real.rpow_natCast]
    norm_num
  · simp only [Component.redshift, add_comm z 1]
    rw [← Real.rpow_natCast]
    norm_num

/-- `C75_component_laws` at redshift 1. -/
example (o : Obj) := C75_component_laws o 0.7 1 (by norm_num)

/-- **C75** `E²(0)` of a componentwise model is the sum of its densities. -/
theorem C75_e2_zero (cs : List Component) : componentsE2 cs 0 = (cs.map Component.O0).sum := by
  unfold componentsE2
  rw [← List.sum_eq_foldl]
  congr 1
  apply List.map_congr_left
  intro c _
  cases c <;> simp [Component.O0, Component.redshift]

/-- **C75** what `Omega` returns: for one component an iterable instead of a number, for several only the first
value; and the values are `redshift/E²`, without the density `O0`. -/
theorem C75_omega_wrong (cs : List Component) (z : ℝ) (c c' : Component) (rest : List Component) :
    omega cs z [c] = .many [c.redshift z * (1 / componentsE2 cs z)] ∧
    omega cs z (c :: c' :: rest) = .one (c.redshift z * (1 / componentsE2 cs z)) := by
  simp [omega]

/-- **C75** so the fractions do not sum to one: with matter 0.3 and Lambda 0.7 at `z = 0`, the values are both 1. -/
theorem C75_fractions_false : ∃ cs : List Component, componentsE2 cs 0 = 1 ∧
    ∀ c ∈ cs, omega cs 0 [c] = .many [1] ∧ c.O0 ≠ 1 := by
  refine ⟨[.matter 0.3, .lambda 0.7], by rw [C75_e2_zero]; simp [Component.O0]; norm_num, ?_⟩
  have h : componentsE2 [.matter 0.3, .lambda 0.7] 0 = 1 := by rw [C75_e2_zero]; simp [Component.O0]; norm_num
  intro c hc
  have h1 := (C75_omega_wrong [.matter 0.3, .lambda 0.7] 0 c c []).1
  simp only [List.mem_cons, List.not_mem_nil, or_false] at hc
  rcases hc with rfl | rfl
  · refine ⟨by rw [h1, h]; simp [Component.redshift], by simp [Component.O0]; norm_num⟩
  · refine ⟨by rw [h1, h]; simp [Component.redshift], by simp [Component.O0]; norm_num⟩

/-- **C75** what does hold: multiplied by the densities, the values returned one by one sum to 1. -/
theorem C75_weighted_sum_partial (cs : List Component) (z : ℝ) (h : componentsE2 cs z ≠ 0) :
    (cs.map fun c => c.O0 * (c.redshift z * (1 / componentsE2 cs z))).sum = 1 := by
  have : (cs.map fun c => c.O0 * (c.redshift z * (1 / componentsE2 cs z))) =
      (cs.map fun c => c.O0 * c.redshift z).map (· * (1 / componentsE2 cs z)) := by
    rw [List.map_map]
    apply List.map_congr_left
    intro c _
    simp only [Function.comp]
    ring
  rw [this, List.sum_map_mul_right, List.map_id', mul_one_div]
  have h2 : (cs.map fun c => c.O0 * c.redshift z).sum = componentsE2 cs z := by
    unfold componentsE2
    rw [List.sum_eq_foldl]
  rw [h2, div_self h]

/-- `C75_weighted_sum_partial`: matter and a cosmological constant at redshift 1. -/
example := C75_weighted_sum_partial [.matter 0.3, .lambda 0.7] 1 (by
  simp [componentsE2, Component.redshift, Component.O0]; norm_num)

end Verif.Cosmo

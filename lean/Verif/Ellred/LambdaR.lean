import Verif.Ellred.QuarticCond
import Verif.Ellred.Lambda

/-! # The analytic distances of LambdaCDMR (C94-C96) -/

namespace Verif.Ellred

open MeasureTheory Set Filter Topology Verif.Carlson Verif.Cosmo

/-- Calling a method of the analytic `LambdaCDMR` driver: the four roots are computed and unpacked in reverse, and passed on with the
leading coefficient (analytic.py:172-177, _analytic_base.py:31-37). `solve` is the root finder. -/
noncomputable def call4 {α : Type} (solve : List ℝ → List ℂ) (c : Cls) (o : Obj) (n : ℕ) (f : ℝ → ℂ → ℂ → ℂ → ℂ → α) : Except Cosmo.Err α :=
  match ok0 c o n with
  | .error e => .error e
  | .ok k => match ode0 c o n with
    | .error e => .error e
    | .ok d => match (epolyRoots solve c o k d).reverse with
      | [r1, r2, r3, r4] => .ok (f (epolyLeading c o) r1 r2 r3 r4)
      | _ => .error .typeError

/-- A LambdaCDMR (flat or not) as a user can build it, with matter and radiation, curvature `k` and dark energy `d`, and `E²` its squared
Hubble function, positive from redshift `z0` on. -/
structure Universe4 (p : Phys) (c : Cls) (o : Obj) (n : ℕ) (k d : ℝ) (E2 : ℝ → ℝ) (z0 : ℝ) : Prop where
  lam : c.de = .lambda
  rad : c.rad = true
  reach : Reachable p c o
  fuel : 2 ≤ n
  matter : 0 < o.Om0
  radiation : 0 < o.Or0
  curv : ok0 c o n = .ok k
  dark : ode0 c o n = .ok d
  e2 : ∀ z, e2func c o n z = .ok (E2 z)
  pos : ∀ z, z0 ≤ z → 0 < E2 z

variable {p : Phys} {c : Cls} {o : Obj} {n : ℕ} {k d : ℝ} {E2 : ℝ → ℝ} {z0 z1 z2 z : ℝ} {solve : List ℝ → List ℂ}

theorem Universe4.e2z (U : Universe4 p c o n k d E2 z0) (z : ℝ) :
    E2 z = o.Or0 * (1 + z) ^ 4 + o.Om0 * (1 + z) ^ 3 + k * (1 + z) ^ 2 + d := by
  have := U.e2 z
  simp only [e2func, Cosmo.e2, e2base, U.curv, U.dark, U.lam, U.rad, if_true, Except.ok.injEq] at this
  rw [← this]
  ring

theorem Universe4.factors (U : Universe4 p c o n k d E2 z0) (hz : -1 ≤ z0) (hs : Solves solve) : ∃ r1 r2 r3 r4 : ℂ, ∃ b' c' d' e' : ℝ,
    epolyRoots solve c o k d = [r4, r3, r2, r1] ∧
    (∀ {α : Type} (f : ℝ → ℂ → ℂ → ℂ → ℂ → α), call4 solve c o n f = .ok (f o.Or0 r1 r2 r3 r4)) ∧ QuarticOK z0 r1 r2 r3 r4 b' c' d' e' ∧ b' = 4 + o.Om0 / o.Or0 ∧
    1 - b' + c' - d' + e' = d / o.Or0 ∧ ∀ t, E2 t = o.Or0 * quartic b' c' d' e' t := by
  have hl : epolyLeading c o ≠ 0 := by simp [epolyLeading, U.rad, U.radiation.ne']
  have hlen : (epolyRoots solve c o k d).length = 4 := by
    rw [epolyRoots, List.length_map, (hs _).1]
    simp [epolyCoeffs, epolyCoeffs_, U.rad]
  obtain ⟨r1, r2, r3, r4, hr⟩ : ∃ r1 r2 r3 r4, epolyRoots solve c o k d = [r4, r3, r2, r1] := by
    match h : epolyRoots solve c o k d, hlen with
    | [r4, r3, r2, r1], _ => exact ⟨r1, r2, r3, r4, rfl⟩
  have hE : ∀ z : ℝ, (o.Or0 : ℂ) * (((z : ℂ) - r1) * (z - r2) * (z - r3) * (z - r4)) = E2 z := by
    intro z
    obtain ⟨k', d', e', hk', hd', he', h⟩ := C48_factorisation p c o U.reach U.lam n U.fuel hl solve hs z
    rw [U.curv] at hk'
    rw [U.dark] at hd'
    cases hk'
    cases hd'
    rw [U.e2 z] at he'
    cases he'
    rw [hr] at h
    simp only [epolyLeading, U.rad, List.map_cons, List.map_nil, List.prod_cons, List.prod_nil, mul_one, if_true] at h
    rw [← h]
    ring
  have hm := U.radiation.ne'
  have hm' : (o.Or0 : ℂ) ≠ 0 := by exact_mod_cast hm
  have hq : ∀ t : ℝ, E2 t = o.Or0 * quartic (4 + o.Om0 / o.Or0) (6 + 3 * (o.Om0 / o.Or0) + k / o.Or0) (4 + 3 * (o.Om0 / o.Or0) + 2 * (k / o.Or0))
      (1 + o.Om0 / o.Or0 + k / o.Or0 + d / o.Or0) t := by
    intro t
    rw [U.e2z t, Verif.Ellred.quartic]
    field_simp
    ring
  have hb : 0 < o.Om0 / o.Or0 := div_pos U.matter U.radiation
  refine ⟨r1, r2, r3, r4, 4 + o.Om0 / o.Or0, 6 + 3 * (o.Om0 / o.Or0) + k / o.Or0, 4 + 3 * (o.Om0 / o.Or0) + 2 * (k / o.Or0),
    1 + o.Om0 / o.Or0 + k / o.Or0 + d / o.Or0, hr, fun f => ?_, ⟨fun w => ?_, fun t ht => ?_, ?_⟩, rfl, by ring, hq⟩
  · simp only [call4, U.curv, U.dark, hr, epolyLeading, U.rad, if_true, List.reverse_cons, List.reverse_nil, List.nil_append, List.cons_append]
  · -- two quartics that agree at all real points
    have hv : ∀ z : ℝ, ((z : ℂ) - r1) * (z - r2) * (z - r3) * (z - r4) = z ^ 4 + (4 + o.Om0 / o.Or0 : ℝ) * z ^ 3 +
        (6 + 3 * (o.Om0 / o.Or0) + k / o.Or0 : ℝ) * z ^ 2 + (4 + 3 * (o.Om0 / o.Or0) + 2 * (k / o.Or0) : ℝ) * z +
        (1 + o.Om0 / o.Or0 + k / o.Or0 + d / o.Or0 : ℝ) := by
      intro z
      have := hE z
      rw [U.e2z z] at this
      apply mul_left_cancel₀ hm'
      rw [this]
      push_cast
      field_simp
      ring
    have v0 := hv 0
    have v1 := hv 1
    have v2 := hv (-1)
    have v3 := hv 2
    push_cast at v0 v1 v2 v3 ⊢
    linear_combination (-(w - 1) * (w + 1) * (w - 2) / -2) * v0 + (w * (w + 1) * (w - 2) / -2) * v1 + (w * (w - 1) * (w - 2) / -6) * v2 +
      (w * (w - 1) * (w + 1) / 6) * v3
  · have := U.pos t ht
    rw [hq t] at this
    exact (mul_pos_iff_of_pos_left U.radiation).mp this
  · exact QuarticOK.slope_of hz (by linarith) (by ring)

theorem comoving4_swap (L : ℝ) (r1 r2 r3 r4 : ℂ) (z1 z2 : ℝ) : comoving4 L r1 r2 r3 r4 z1 z2 = -comoving4 L r1 r2 r3 r4 z2 z1 := by
  simp only [comoving4, QuarticOK.params4_swap z1 z2]
  ring

theorem comoving4_eq {L : ℝ} {r1 r2 r3 r4 : ℂ} {b c d e : ℝ} (h : QuarticOK z1 r1 r2 r3 r4 b c d e) (hlt : z1 < z2) :
    comoving4 L r1 r2 r3 r4 z1 z2 = (∫ t in Ioc z1 z2, 1 / √(quartic b c d e t)) / L ^ (0.5 : ℝ) := by
  have := congrArg Complex.re (h.rf_eq hlt)
  simp only [Complex.ofReal_re] at this
  rw [← this]
  simp only [comoving4, fixDimless]
  rw [show (2 : ℂ) * ((z2 - z1 : ℝ) : ℂ) = ((2 * (z2 - z1) : ℝ) : ℂ) by push_cast; ring, Complex.re_ofReal_mul]
  ring

/-- **C94** the analytic comoving distance of LambdaCDMR between any two redshifts not below -1 is the integral of `1/E` between them, whatever
the order of the roots. -/
theorem C94_comoving (U : Universe4 p c o n k d E2 (min z1 z2)) (h1 : -1 ≤ z1) (h2 : -1 ≤ z2) (hs : Solves solve) :
    call4 solve c o n (fun L r1 r2 r3 r4 => comoving4 L r1 r2 r3 r4 z1 z2) = .ok (∫ z in z1..z2, invEfunc (E2 z)) := by
  obtain ⟨r1, r2, r3, r4, b', c', d', e', -, hc, hC, -, -, hE⟩ := U.factors (le_min h1 h2) hs
  rw [hc, Except.ok.injEq]
  have hi : ∀ t, min z1 z2 ≤ t → invEfunc (E2 t) = 1 / √(Verif.Ellred.quartic b' c' d' e' t) / o.Or0 ^ (0.5 : ℝ) := fun t ht => by
    rw [hE, invEfunc_eq U.radiation (hC.pos t ht)]
  rcases lt_trichotomy z1 z2 with h | h | h
  · rw [min_eq_left h.le] at hC hi
    rw [comoving4_eq hC h, integral_div_eq h fun t ht => hi t ht.1.le]
  · subst h
    simp [comoving4]
  · rw [min_eq_right h.le] at hC hi
    rw [comoving4_swap, comoving4_eq hC h, intervalIntegral.integral_symm, integral_div_eq h fun t ht => hi t ht.1.le]

theorem lookback4_val (L : ℝ) (r1 r2 r3 r4 : ℂ) (z : ℝ) : let u := params4 r1 r2 r3 r4 0 z
    let k : ℂ := ((z - 0 : ℝ) : ℂ)
    let p := u.1 - (r3 - r1) * (r4 - r1) * (r2 + 1) / (r1 + 1) * k ^ 2
    lookback4 L r1 r2 r3 r4 z = (2 * k * ((RFc u.1 u.2.1 u.2.2 + k ^ 2 / 3 * (r2 - r1) * (r3 - r1) * (r4 - r1) / (r1 + 1) * RJc u.1 u.2.1 u.2.2 p -
      RCc ((Xr r2 0 * Xr r3 0 * Xr r4 0 / Xr r1 0 * (z + 1) + Xr r2 z * Xr r3 z * Xr r4 z / Xr r1 z * ((0 : ℝ) + 1)) ^ 2)
        ((z + 1) * ((0 : ℝ) + 1) / Xr r1 0 ^ 2 / Xr r1 z ^ 2 * p)) / (r1 + 1))).re / L ^ (0.5 : ℝ) := by
  intro u k p
  simp only [lookback4, fixDimless, u, k, p]
  rw [show (2 : ℂ) * ((z - 0 : ℝ) : ℂ) = ((2 * z : ℝ) : ℂ) by push_cast; ring, Complex.re_ofReal_mul, ← mul_div_assoc]
  simp only [sub_zero, Complex.ofReal_zero, zero_add, mul_one]

theorem lookback4_pos {L : ℝ} {r1 r2 r3 r4 : ℂ} {b c d e : ℝ} (h : QuarticOK 0 r1 r2 r3 r4 b c d e) (hz : 0 < z) (hl : r1 + 1 ≠ 0)
    (hg : QuarticOK.Good 1 1 0 z r1 r2 r3 r4) :
    lookback4 L r1 r2 r3 r4 z = (∫ t in Ioc 0 z, 1 / ((1 + t) * √(quartic b c d e t))) / L ^ (0.5 : ℝ) := by
  have := congrArg Complex.re (h.lookback_eq (by norm_num) hz hl hg)
  simp only [Complex.ofReal_re] at this
  rw [← this, lookback4_val]

theorem lookback4_neg {L : ℝ} {r1 r2 r3 r4 : ℂ} {b c d e : ℝ} (h : QuarticOK z r1 r2 r3 r4 b c d e) (hz1 : -1 < z) (hz : z < 0) (hl : r1 + 1 ≠ 0)
    (hg : QuarticOK.Good 1 1 z 0 r1 r2 r3 r4) :
    lookback4 L r1 r2 r3 r4 z = -(∫ t in Ioc z 0, 1 / ((1 + t) * √(quartic b c d e t))) / L ^ (0.5 : ℝ) := by
  have := congrArg Complex.re (h.lookback_eq hz1 hz hl hg)
  simp only [Complex.ofReal_re] at this
  rw [← this, lookback4_val, QuarticOK.params4_swap z 0, ← Complex.neg_re]
  congr 2
  push_cast
  simp only [sub_zero, zero_sub, zero_add, mul_one, one_mul, even_two.neg_pow]
  rw [add_comm (Xr r2 0 * Xr r3 0 * Xr r4 0 / Xr r1 0 * ((z : ℂ) + 1)),
    show ((z : ℂ) + 1) / Xr r1 z ^ 2 / Xr r1 0 ^ 2 = ((z : ℂ) + 1) / Xr r1 0 ^ 2 / Xr r1 z ^ 2 by rw [div_right_comm]]
  ring

/-- The conditions on the last root `r` under which the lookback time is proved right. -/
def LookCond (Or0 Ode0 : ℝ) (r : ℂ) (z : ℝ) : Prop :=
  r ≠ -1 ∧ ((r.im = 0 ∧ Ode0 ≤ Or0 * ((1 + r.re) * (1 + min 0 z)) ^ 2) ∨ (r.im ≠ 0 ∧ r.re ≤ min 0 z ∧ 0 ≤ Ode0 * (1 + r.re)))

theorem look_good {L : ℝ} {r1 r2 r3 r4 : ℂ} {b c d e y x Ode0 : ℝ} (h : QuarticOK y r1 r2 r3 r4 b c d e) (hL : 0 < L) (hy : -1 < y) (hyx : y < x)
    (hk : 1 - b + c - d + e = Ode0 / L) (hc : LookCond L Ode0 r1 z) (hm : min 0 z = y) : r1 + 1 ≠ 0 ∧ QuarticOK.Good 1 1 y x r1 r2 r3 r4 := by
  obtain ⟨h1, h2⟩ := hc
  rw [hm] at h2
  refine ⟨fun e0 => h1 (by linear_combination e0), ?_⟩
  rcases h2 with ⟨h2, h3⟩ | ⟨h2, h3, h4⟩
  · refine h.look_real hy hyx h2 h1 ?_
    rw [hk, div_le_iff₀ hL]
    linarith
  · refine h.look_cpx hy hyx h2 h3 ?_
    rw [hk, div_mul_eq_mul_div]
    positivity

/-- **C95** the analytic lookback time of LambdaCDMR is the integral of `1/((1+z) E)` from 0, under conditions on the last root. Missing: for other
last roots the statement is false (`C95_wrong`), or not settled. -/
theorem C95_lookback_partial (U : Universe4 p c o n k d E2 (min 0 z)) (hz : -1 < z) (hs : Solves solve) {r : ℂ}
    (hr : (epolyRoots solve c o k d).getLast? = some r) (hr' : LookCond o.Or0 d r z) :
    call4 solve c o n (fun L r1 r2 r3 r4 => lookback4 L r1 r2 r3 r4 z) = .ok (∫ t in (0 : ℝ)..z, lookbackIntegrand (E2 t) t) := by
  obtain ⟨r1, r2, r3, r4, b', c', d', e', hR, hc, hC, -, hK, hE⟩ := U.factors (le_min (by norm_num) hz.le) hs
  rw [hR, List.getLast?_cons_cons, List.getLast?_cons_cons, List.getLast?_cons_cons, List.getLast?_singleton, Option.some.injEq] at hr
  subst hr
  rw [hc, Except.ok.injEq]
  have hi : ∀ t, min 0 z ≤ t → lookbackIntegrand (E2 t) t = 1 / ((1 + t) * √(quartic b' c' d' e' t)) / o.Or0 ^ (0.5 : ℝ) := fun t ht => by
    have h0 := Real.rpow_pos_of_pos U.radiation (0.5 : ℝ)
    have h1 := Real.sqrt_pos.mpr (hC.pos t ht)
    have h2 : 0 < 1 + t := by
      rcases min_le_iff.mp ht with h | h <;> linarith
    rw [lookbackIntegrand, hE, invEfunc_eq U.radiation (hC.pos t ht), add_comm t 1]
    field_simp
  rcases lt_trichotomy 0 z with h | h | h
  · have hm := min_eq_left h.le
    rw [hm] at hC hi
    obtain ⟨g1, g2⟩ := look_good hC U.radiation (by norm_num) h hK hr' hm
    rw [lookback4_pos hC h g1 g2, integral_div_eq h fun t ht => hi t ht.1.le]
  · subst h
    simp [lookback4]
  · have hm := min_eq_right h.le
    rw [hm] at hC hi
    obtain ⟨g1, g2⟩ := look_good hC U.radiation hz h hK hr' hm
    rw [lookback4_neg hC hz h g1 g2, intervalIntegral.integral_symm, integral_div_eq h fun t ht => hi t ht.1.le, neg_div]

/-- **C95** is false for a last root that is not real and to the right of 0: the lookback time then falls short of the integral at every small
enough positive redshift. -/
theorem C95_wrong (U : Universe4 p c o n k d E2 0) (hs : Solves solve) {r : ℂ}
    (hr : (epolyRoots solve c o k d).getLast? = some r) (hi : r.im ≠ 0) (hp : 0 < r.re) : ∃ δ > 0, ∀ z, 0 < z → z < δ →
    ∃ v, call4 solve c o n (fun L r1 r2 r3 r4 => lookback4 L r1 r2 r3 r4 z) = .ok v ∧ v < ∫ t in (0 : ℝ)..z, lookbackIntegrand (E2 t) t := by
  obtain ⟨r1, r2, r3, r4, b', c', d', e', hR, hc, hC, -, hK, hE⟩ := U.factors (by norm_num) hs
  rw [hR, List.getLast?_cons_cons, List.getLast?_cons_cons, List.getLast?_cons_cons, List.getLast?_singleton, Option.some.injEq] at hr
  subst hr
  have hL := Real.rpow_pos_of_pos U.radiation (0.5 : ℝ)
  have hi' : ∀ t, 0 ≤ t → lookbackIntegrand (E2 t) t = 1 / ((1 + t) * √(quartic b' c' d' e' t)) / o.Or0 ^ (0.5 : ℝ) := fun t ht => by
    have h1 := Real.sqrt_pos.mpr (hC.pos t ht)
    rw [lookbackIntegrand, hE, invEfunc_eq U.radiation (hC.pos t ht), add_comm t 1]
    field_simp
  have hw := hC.look_wrong (by norm_num) hi hp
  rw [eventually_nhdsWithin_iff, Metric.eventually_nhds_iff] at hw
  obtain ⟨δ, hδ, hw⟩ := hw
  refine ⟨δ, hδ, fun z hz hzδ => ⟨_, hc _, ?_⟩⟩
  have := hw (by rw [Real.dist_eq, sub_zero, abs_of_pos hz]; exact hzδ) hz
  rw [integral_div_eq hz fun t ht => hi' t ht.1.le, lookback4_val]
  exact div_lt_div_of_pos_right this hL

theorem absorption4_val (L : ℝ) (r1 r2 r3 r4 : ℂ) (y x : ℝ) : let u := params4 r1 r2 r3 r4 y x
    let dz : ℂ := ((x - y : ℝ) : ℂ)
    let p := u.1 - dz ^ 2 * (r3 - r1) * (r4 - r1)
    let q := p / (y - r1) / (x - r1)
    absorption4 L r1 r2 r3 r4 y x = (dz * ((Xr r1 x * Xr r2 x * Xr r3 x / Xr r4 x - Xr r1 y * Xr r2 y * Xr r3 y / Xr r4 y) / dz +
      (2 * (r1 + 1) ^ 2 - (r2 - r1) * (r3 - r1)) * RFc u.1 u.2.1 u.2.2 +
      (r4 - r2) * (r4 - r3) * (dz ^ 2 / 3 * (r2 - r1) * (r3 - r1) * RDc u.1 u.2.1 u.2.2 +
        Xr r1 x * Xr r1 y / Xr r4 x / Xr r4 y / csqrt u.2.2) +
      (r1 + r2 + r3 + r4 + 4) * (RCc (q + dz ^ 2) q - dz ^ 2 / 3 * (r2 - r1) * (r3 - r1) * (r4 - r1) * RJc u.1 u.2.1 u.2.2 p))).re / L ^ (0.5 : ℝ) := by
  intro u dz p q
  simp only [absorption4, fixDimless, u, dz, p, q]
  rw [Complex.re_ofReal_mul, ← mul_div_assoc]

theorem absorption4_swap (L : ℝ) (r1 r2 r3 r4 : ℂ) (z1 z2 : ℝ) : absorption4 L r1 r2 r3 r4 z1 z2 = -absorption4 L r1 r2 r3 r4 z2 z1 := by
  simp only [absorption4, QuarticOK.params4_swap z1 z2, fixDimless]
  rw [show ((z2 - z1 : ℝ) : ℂ) = -((z1 - z2 : ℝ) : ℂ) by push_cast; ring, div_neg, ← neg_div, neg_sub, even_two.neg_pow, mul_comm (Xr r1 z1) (Xr r1 z2),
    div_right_comm _ (Xr r4 z2) (Xr r4 z1), div_right_comm _ ((z1 : ℂ) - r1) ((z2 : ℂ) - r1)]
  ring

/-- The conditions on the last root `r` under which the absorption distance is proved right. -/
def AbsCond (Or0 Om0 : ℝ) (r : ℂ) (z : ℝ) : Prop :=
  (r.im = 0 ∧ -r.re ≤ 2 + Om0 / (2 * Or0) + min 0 z) ∨ (r.im ≠ 0 ∧ r.re ≤ min 0 z)

theorem abs_good {L Om0 y x : ℝ} {r1 r2 r3 r4 : ℂ} {b c d e : ℝ} (h : QuarticOK y r1 r2 r3 r4 b c d e) (hyx : y < x)
    (hb : b = 4 + Om0 / L) (hc : AbsCond L Om0 r1 z) (hm : min 0 z = y) : QuarticOK.Good 1 0 y x r1 r2 r3 r4 := by
  rw [AbsCond, hm] at hc
  rcases hc with ⟨h1, h2⟩ | ⟨h1, h2⟩
  · refine h.abs_real hyx h1 (h2.trans_eq ?_)
    rw [hb, mul_comm 2 L, ← div_div]
    ring
  · exact h.abs_cpx hyx h1 h2

theorem absorption4_pos {L Om0 y x : ℝ} {r1 r2 r3 r4 : ℂ} {b c d e : ℝ} (h : QuarticOK y r1 r2 r3 r4 b c d e) (hyx : y < x)
    (hb : b = 4 + Om0 / L) (hc : AbsCond L Om0 r1 z) (hm : min 0 z = y) :
    absorption4 L r1 r2 r3 r4 y x = (∫ t in Ioc y x, (1 + t) ^ 2 / √(quartic b c d e t)) / L ^ (0.5 : ℝ) := by
  have hg := abs_good h hyx hb hc hm
  have := congrArg Complex.re (h.absorption_eq hyx hg)
  simp only [Complex.ofReal_re] at this
  rw [← this, absorption4_val]

/-- **C96** the analytic absorption distance of LambdaCDMR is the integral of `(1+z)²/E` from 0, for every non-zero redshift, under conditions on the
last root. Missing: for other last roots the statement is false (`C96_wrong`), or not settled. -/
theorem C96_absorption_partial (U : Universe4 p c o n k d E2 (min 0 z)) (hz : z ≠ 0) (hz1 : -1 ≤ z) (hs : Solves solve) {r : ℂ}
    (hr : (epolyRoots solve c o k d).getLast? = some r) (hr' : AbsCond o.Or0 o.Om0 r z) :
    call4 solve c o n (fun L r1 r2 r3 r4 => absorption4 L r1 r2 r3 r4 0 z) = .ok (∫ t in (0 : ℝ)..z, absIntegrand (E2 t) t) := by
  obtain ⟨r1, r2, r3, r4, b', c', d', e', hR, hc, hC, hb, -, hE⟩ := U.factors (le_min (by norm_num) hz1) hs
  rw [hR, List.getLast?_cons_cons, List.getLast?_cons_cons, List.getLast?_cons_cons, List.getLast?_singleton, Option.some.injEq] at hr
  subst hr
  rw [hc, Except.ok.injEq]
  have hi : ∀ t, min 0 z ≤ t → absIntegrand (E2 t) t = (1 + t) ^ 2 / √(quartic b' c' d' e' t) / o.Or0 ^ (0.5 : ℝ) := fun t ht => by
    rw [absIntegrand, hE, invEfunc_eq U.radiation (hC.pos t ht), add_comm t 1]
    ring
  rcases lt_trichotomy 0 z with h | h | h
  · have hm := min_eq_left h.le
    rw [hm] at hC hi
    rw [absorption4_pos hC h hb hr' hm, integral_div_eq h fun t ht => hi t ht.1.le]
  · exact absurd h.symm hz
  · have hm := min_eq_right h.le
    rw [hm] at hC hi
    rw [absorption4_swap, absorption4_pos hC h hb hr' hm, intervalIntegral.integral_symm, integral_div_eq h fun t ht => hi t ht.1.le]

/-- **C96** is false for a last root that is not real: the absorption distance falls short of the integral at every positive redshift up to its
real part. -/
theorem C96_wrong (U : Universe4 p c o n k d E2 0) (hs : Solves solve) {r : ℂ}
    (hr : (epolyRoots solve c o k d).getLast? = some r) (hi : r.im ≠ 0) (hz : 0 < z) (hp : z ≤ r.re) :
    ∃ v, call4 solve c o n (fun L r1 r2 r3 r4 => absorption4 L r1 r2 r3 r4 0 z) = .ok v ∧ v < ∫ t in (0 : ℝ)..z, absIntegrand (E2 t) t := by
  obtain ⟨r1, r2, r3, r4, b', c', d', e', hR, hc, hC, hb, -, hE⟩ := U.factors (by norm_num) hs
  rw [hR, List.getLast?_cons_cons, List.getLast?_cons_cons, List.getLast?_cons_cons, List.getLast?_singleton, Option.some.injEq] at hr
  subst hr
  have hL := Real.rpow_pos_of_pos U.radiation (0.5 : ℝ)
  have hi' : ∀ t, 0 ≤ t → absIntegrand (E2 t) t = (1 + t) ^ 2 / √(quartic b' c' d' e' t) / o.Or0 ^ (0.5 : ℝ) := fun t ht => by
    rw [absIntegrand, hE, invEfunc_eq U.radiation (hC.pos t ht), add_comm t 1]
    ring
  refine ⟨_, hc _, ?_⟩
  have := hC.abs_wrong hz hi hp (by have := div_pos U.matter U.radiation; linarith)
  rw [integral_div_eq hz fun t ht => hi' t ht.1.le, absorption4_val]
  exact div_lt_div_of_pos_right this hL

/-! ### The hypotheses are met, on both sides -/

/-- A root finder that returns the given roots of one polynomial. -/
theorem solves_with (cs : List ℝ) (rts : List ℂ) (h : Roots.AreRoots (cs.map fun x : ℝ => (x : ℂ)) rts) : ∃ solve, Solves solve ∧ solve cs = rts := by
  classical
  obtain ⟨eig, heig⟩ := Roots.eigSpec_nonempty
  obtain ⟨solve, hs, -⟩ := solves_exists _ _ Roots.principal_cpow Roots.cbrt_cpow eig heig false fun _ => .ok []
  refine ⟨fun l => if l = cs then rts else solve l, fun l => ?_, if_pos rfl⟩
  by_cases hl : l = cs
  · simp only [hl, if_true]
    exact h
  · simp only [hl, if_false]
    exact hs l

/-- The universes with `E² = (a (1+z)⁴ + m (1+z)³ + q (1+z)² + l) / (a + m + q + l)`. -/
theorem universe4_exists (p : Phys) (m q l : ℝ) (hm : 0 < m) (hl : 0 < 1 + m + q + l) (z0 : ℝ)
    (hpos : ∀ z, z0 ≤ z → 0 < (1 + z) ^ 4 + m * (1 + z) ^ 3 + q * (1 + z) ^ 2 + l) : ∃ c o,
    Universe4 p c o 2 (q / (1 + m + q + l)) (l / (1 + m + q + l)) (fun z => ((1 + z) ^ 4 + m * (1 + z) ^ 3 + q * (1 + z) ^ 2 + l) / (1 + m + q + l)) z0 ∧
    o.Or0 = 1 / (1 + m + q + l) ∧ o.Om0 = m / (1 + m + q + l) ∧
    epolyCoeffs c o (q / (1 + m + q + l)) (l / (1 + m + q + l)) = [m, q, 0, l] := by
  set T := 1 + m + q + l with hT
  have hr : Reachable p ⟨.lambda, true, false⟩ _ := ⟨1, [(.Om0, m / T), (.Ode0, l / T), (.Or0, 1 / T)], [], _, rfl, rfl⟩
  have hT0 : T ≠ 0 := hl.ne'
  refine ⟨⟨.lambda, true, false⟩, _, ⟨rfl, rfl, hr, le_rfl, ?_, ?_, ?_, ?_, fun z => ?_, fun z hz => div_pos (hpos z hz) hl⟩, ?_, ?_, ?_⟩ <;>
    simp only [setParams, List.foldl, assign, blank]
  all_goals try simp
  all_goals try positivity
  all_goals simp [e2func, Cosmo.e2, e2base, ok0, ode0, sum0, epolyCoeffs, epolyCoeffs_, epolyLeading]
  all_goals clear hr hpos
  all_goals field_simp
  all_goals first | (rw [hT]; ring) | simp

/-- The last root can be `i`, and then the lookback time and the absorption distance are right at every positive redshift: the universe with
`(Or0, Om0, Ok0, Ode0) = (1, 2, -2, 8) / 9`. -/
example (p : Phys) : ∃ c o k d E2 solve, Universe4 p c o 2 k d E2 0 ∧ Solves solve ∧ (epolyRoots solve c o k d).getLast? = some Complex.I ∧
    ∀ z, 0 < z → LookCond o.Or0 d Complex.I z ∧ AbsCond o.Or0 o.Om0 Complex.I z := by
  obtain ⟨c, o, U, h1, h2, h3⟩ := universe4_exists p 2 (-2) 8 (by norm_num) (by norm_num) 0 fun z hz => by
    have : 0 ≤ 1 + z := by linarith
    nlinarith [mul_pos (show 0 < (1 + z + 2) ^ 2 by positivity) (show 0 < z ^ 2 + 1 by positivity)]
  obtain ⟨solve, hs, he⟩ := solves_with [2, -2, 0, 8] [-2, -2, 1 - Complex.I, 1 + Complex.I] ⟨rfl, fun x => by
    simp only [Roots.rootProd, Roots.monicEval, List.map_cons, List.map_nil, List.foldl_cons, List.foldl_nil, List.prod_cons, List.prod_nil]
    push_cast
    linear_combination (-(x + 2) ^ 2) * Complex.I_sq⟩
  refine ⟨c, o, _, _, _, solve, U, hs, ?_, fun z hz => ⟨⟨?_, Or.inr ⟨?_, ?_, ?_⟩⟩, Or.inr ⟨?_, ?_⟩⟩⟩
  · rw [epolyRoots, h3, he]
    simp
  · intro e0
    have := congrArg Complex.im e0
    simp at this
  all_goals simp [hz.le]
  norm_num

/-- The last root can be `1 + i`, and then they are wrong: the universe with `(Or0, Om0, Ok0, Ode0) = (1, 4, -17, 50) / 38`. -/
example (p : Phys) : ∃ c o k d E2 solve, Universe4 p c o 2 k d E2 0 ∧ Solves solve ∧ (epolyRoots solve c o k d).getLast? = some (1 + Complex.I) := by
  obtain ⟨c, o, U, h1, h2, h3⟩ := universe4_exists p 4 (-17) 50 (by norm_num) (by norm_num) 0 fun z hz => by
    have : 0 ≤ 1 + z := by linarith
    nlinarith [mul_pos (show 0 < (1 + z) ^ 2 + 8 * (1 + z) + 10 by positivity) (show 0 < (1 + z - 2) ^ 2 + 1 by positivity)]
  obtain ⟨solve, hs, he⟩ := solves_with [4, -17, 0, 50] [-4 - (√6 : ℝ), -4 + (√6 : ℝ), 2 - Complex.I, 2 + Complex.I] ⟨rfl, fun x => by
    have h6 : ((√6 : ℝ) : ℂ) ^ 2 = 6 := by
      rw [← Complex.ofReal_pow, Real.sq_sqrt (by norm_num)]
      norm_num
    simp only [Roots.rootProd, Roots.monicEval, List.map_cons, List.map_nil, List.foldl_cons, List.foldl_nil, List.prod_cons, List.prod_nil]
    push_cast
    linear_combination (-((x + 4) ^ 2 - ((√6 : ℝ) : ℂ) ^ 2)) * Complex.I_sq - ((x - 2) ^ 2 + 1) * h6⟩
  refine ⟨c, o, _, _, _, solve, U, hs, ?_⟩
  rw [epolyRoots, h3, he]
  simp
  ring

end Verif.Ellred

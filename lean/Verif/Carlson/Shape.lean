import Verif.Carlson.Run

/-! # Termination, symmetry, homogeneity and series of the Carlson routines, for complex arguments -/

namespace Verif.Carlson

/-! ### C35: the routines return a number -/

theorem elliprcCore_val (eps : ℝ) {x y : ℂ} (hx : 0 < x.re) (hy : 0 < y.re) : ∃ v, elliprcCore eps x y = .val v := by
  obtain ⟨n, hn⟩ := c_terminates (lt_min hx hy) ⟨x, y, cA0 x y, 1⟩ (min_le_left _ _) (min_le_right _ _) (by
    simp only [cA0]
    rw [show (3 : ℂ) = ((3 : ℝ) : ℂ) by norm_num, Complex.div_ofReal_re, Complex.add_re, Complex.add_re]
    have h1 := min_le_left x.re y.re
    have h2 := min_le_right x.re y.re
    linarith) (cQ eps x y)
  obtain ⟨k, hk, _, _⟩ := loopWhile_spec (cond := fun s : CState => s.pow4 * cQ eps x y > ‖s.A‖) (step := cStep)
    (s := ⟨x, y, cA0 x y, 1⟩) ⟨n, not_lt.mpr hn.le⟩
  rw [elliprcCore, hk]
  exact ⟨_, rfl⟩

/-- C35, `elliprc`: it returns a number for all complex arguments in the open right half plane. -/
theorem C35_elliprc (eps : ℝ) {x y : ℂ} (hx : 0 < x.re) (hy : 0 < y.re) : ∃ v, elliprc eps x y = .val v := by
  have hy0 : y ≠ 0 := by rintro rfl; simp at hy
  have hx0 : x ≠ 0 := by rintro rfl; simp at hx
  rw [elliprc, if_neg hy0, if_neg hx0, if_neg (fun h => absurd h.2 (not_lt.mpr hy.le))]
  exact elliprcCore_val eps hx hy

theorem mean3_re {x y z : ℂ} {μ : ℝ} (hx : μ ≤ x.re) (hy : μ ≤ y.re) (hz : μ ≤ z.re) : μ ≤ (fA0 x y z).re := by
  simp only [fA0]
  rw [show (3 : ℂ) = ((3 : ℝ) : ℂ) by norm_num, Complex.div_ofReal_re, Complex.add_re, Complex.add_re]
  linarith

theorem min3 {a b c : ℝ} (ha : 0 < a) (hb : 0 < b) (hc : 0 < c) : ∃ μ, 0 < μ ∧ μ ≤ a ∧ μ ≤ b ∧ μ ≤ c :=
  ⟨min a (min b c), lt_min ha (lt_min hb hc), min_le_left _ _, (min_le_right _ _).trans (min_le_left _ _),
    (min_le_right _ _).trans (min_le_right _ _)⟩

/-- C35, `elliprf`: it returns a number for all complex arguments in the open right half plane. -/
theorem C35_elliprf (eps : ℝ) {x y z : ℂ} (hx : 0 < x.re) (hy : 0 < y.re) (hz : 0 < z.re) :
    ∃ v, elliprf eps x y z = .val v := by
  rw [elliprf]
  split_ifs
  · exact C35_elliprc eps hx hy
  · exact C35_elliprc eps hy hx
  · exact C35_elliprc eps hz hx
  · obtain ⟨μ, hμ, h1, h2, h3⟩ := min3 hx hy hz
    obtain ⟨n, hn⟩ := f_terminates hμ ⟨x, y, z, fA0 x y z, 1⟩ h1 h2 h3 (mean3_re h1 h2 h3) (hQ eps 3 (fA0 x y z) x y z)
    obtain ⟨k, hk, _, _⟩ := loopWhile_spec (cond := fun s : FState => s.pow4 * hQ eps 3 (fA0 x y z) x y z > ‖s.A‖)
      (step := fStep) (s := ⟨x, y, z, fA0 x y z, 1⟩) ⟨n, not_lt.mpr hn.le⟩
    simp only [elliprfCore]
    rw [hk]
    exact ⟨_, rfl⟩

theorem mean5_re {x y z : ℂ} {μ : ℝ} (hx : μ ≤ x.re) (hy : μ ≤ y.re) (hz : μ ≤ z.re) : μ ≤ (dA0 x y z).re := by
  simp only [dA0]
  rw [show (5 : ℂ) = ((5 : ℝ) : ℂ) by norm_num, Complex.div_ofReal_re, Complex.add_re, Complex.add_re,
    show (3 : ℂ) = ((3 : ℝ) : ℂ) by norm_num, Complex.re_ofReal_mul]
  linarith

theorem ne_zero_of_re {x : ℂ} (hx : 0 < x.re) : x ≠ 0 := by rintro rfl; simp at hx

theorem isZero_of_ne {x : ℂ} (hx : x ≠ 0) : isZero x = 0 := if_neg hx

/-- C35, `elliprd`: it returns a number for all complex arguments in the open right half plane. -/
theorem C35_elliprd (eps : ℝ) {x y z : ℂ} (hx : 0 < x.re) (hy : 0 < y.re) (hz : 0 < z.re) :
    ∃ v, elliprd eps x y z = .val v := by
  obtain ⟨μ, hμ, h1, h2, h3⟩ := min3 hx hy hz
  obtain ⟨n, hn⟩ := d_terminates hμ ⟨x, y, z, dA0 x y z, 1, 0, False⟩ h1 h2 h3 (mean5_re h1 h2 h3)
    (hQ eps (1 / 4) (dA0 x y z) x y z)
  obtain ⟨k, hk, _, _⟩ := loopWhile_spec (cond := fun s : DState => s.pow4 * hQ eps (1 / 4) (dA0 x y z) x y z > ‖s.A‖)
    (step := dStep) (s := ⟨x, y, z, dA0 x y z, 1, 0, False⟩) ⟨n, not_lt.mpr hn.le⟩
  have hbad := iterate_inv (step := dStep) (fun s => (0 < s.x.re ∧ 0 < s.y.re ∧ 0 < s.z.re) ∧ ¬s.bad) (by
    rintro s ⟨⟨a, b, c⟩, d⟩
    obtain ⟨ν, hν, a', b', c'⟩ := min3 a b c
    have hl := re_lmOf hν a' b' c'
    have hz1 : 0 < (s.z + lmOf s.x s.y s.z).re := by rw [Complex.add_re]; linarith
    simp only [dStep, re_add_div4]
    refine ⟨⟨by linarith, by linarith, by linarith⟩, ?_⟩
    rintro (h | h | h)
    · exact d h
    · exact ne_zero_of_re c (csqrt_eq_zero.mp h)
    · exact ne_zero_of_re hz1 h) (s := ⟨x, y, z, dA0 x y z, 1, 0, False⟩) ⟨⟨hx, hy, hz⟩, not_false⟩ k
  simp only [elliprd]
  rw [if_neg, hk]
  · simp only
    rw [if_neg hbad.2]
    exact ⟨_, rfl⟩
  · rw [isZero_of_ne (ne_zero_of_re hx), isZero_of_ne (ne_zero_of_re hy), isZero_of_ne (ne_zero_of_re hz)]
    rintro (h | h)
    · exact ne_zero_of_re hz h
    · omega

/-- C35, `elliprg`: it returns a number for all complex arguments in the open right half plane. -/
theorem C35_elliprg (eps : ℝ) {x y z : ℂ} (hx : 0 < x.re) (hy : 0 < y.re) (hz : 0 < z.re) :
    ∃ v, elliprg eps x y z = .val v := by
  obtain ⟨f, hf⟩ := C35_elliprf eps hx hy hz
  obtain ⟨d, hd⟩ := C35_elliprd eps hx hy hz
  rw [elliprg, isZero_of_ne (ne_zero_of_re hx), isZero_of_ne (ne_zero_of_re hy), isZero_of_ne (ne_zero_of_re hz),
    if_neg (by norm_num), if_neg (by norm_num), if_neg (by norm_num), elliprgMain, if_neg, hf, hd]
  · exact ⟨_, rfl⟩
  · rintro (⟨h, _⟩ | ⟨h, _⟩ | ⟨h, _⟩)
    · exact absurd h.2 (not_lt.mpr hx.le)
    · exact absurd h.2 (not_lt.mpr hx.le)
    · exact absurd h.2 (not_lt.mpr hy.le)

theorem dm_ne_zero {x y z p : ℂ} (hp : 0 < p.re) : dmOf x y z p ≠ 0 := by
  have h : 0 < (csqrt p).re := by
    have h0 := csqrt_re p
    rcases lt_or_eq_of_le h0 with h | h
    · exact h
    · exfalso
      have h1 := csqrt_sq p
      have h2 : (csqrt p * csqrt p).re = p.re := by rw [h1]
      rw [Complex.mul_re, ← h] at h2
      nlinarith [mul_self_nonneg (csqrt p).im]
  have : ∀ a : ℂ, csqrt p + csqrt a ≠ 0 := fun a => ne_zero_of_re (by
    rw [Complex.add_re]
    linarith [csqrt_re a])
  exact mul_ne_zero (mul_ne_zero (this x) (this y)) (this z)

theorem mean5_re' {x y z p : ℂ} {μ : ℝ} (hx : μ ≤ x.re) (hy : μ ≤ y.re) (hz : μ ≤ z.re) (hp : μ ≤ p.re) :
    μ ≤ (jA0 x y z p).re := by
  simp only [jA0]
  rw [show (5 : ℂ) = ((5 : ℝ) : ℂ) by norm_num, Complex.div_ofReal_re, Complex.add_re, Complex.add_re, Complex.add_re,
    Complex.add_re]
  linarith

theorem j_state {x y z p : ℂ} (hx : 0 < x.re) (hy : 0 < y.re) (hz : 0 < z.re) (hp : 0 < p.re) (k : ℕ) :
    let st := (jStep ((p - x) * (p - y) * (p - z)))^[k] ⟨x, y, z, p, jA0 x y z p, 1, 0, 0, False⟩
    (0 < st.x.re ∧ 0 < st.y.re ∧ 0 < st.z.re ∧ 0 < st.p.re) ∧
      (st.bad ↔ (p = x ∨ p = y ∨ p = z) ∧ k ≠ 0) := by
  intro st
  induction k with
  | zero => exact ⟨⟨hx, hy, hz, hp⟩, by simp [st]⟩
  | succ k ih =>
    simp only [st]
    rw [Function.iterate_succ_apply']
    obtain ⟨⟨a, b, c, d⟩, e⟩ := ih
    generalize (jStep ((p - x) * (p - y) * (p - z)))^[k] ⟨x, y, z, p, jA0 x y z p, 1, 0, 0, False⟩ = s at *
    obtain ⟨ν, hν, a', b', c'⟩ := min3 a b c
    have hl := re_lmOf hν a' b' c'
    have hdm := dm_ne_zero (x := s.x) (y := s.y) (z := s.z) d
    have h4 : (1 / 4 ^ (3 * s.m) : ℂ) ≠ 0 := one_div_ne_zero (pow_ne_zero _ (by norm_num))
    simp only [jStep, re_add_div4]
    refine ⟨⟨by linarith, by linarith, by linarith, by linarith⟩, ?_⟩
    rw [e, csqrt_eq_zero, div_eq_zero_iff, mul_eq_zero, mul_eq_zero, mul_eq_zero, mul_eq_zero, sub_eq_zero, sub_eq_zero,
      sub_eq_zero]
    simp only [hdm, h4, or_false, false_or]
    tauto

/-- C35, `elliprj`: in the open right half plane the routine stops, and returns a number, when `p` differs from the other
arguments, or when all are so close to each other that no duplication step is taken. -/
theorem C35_elliprj_partial (eps : ℝ) {x y z p : ℂ} (hx : 0 < x.re) (hy : 0 < y.re) (hz : 0 < z.re) (hp : 0 < p.re) :
    ((∃ v, elliprj eps x y z p = .val v) ↔ ¬((p = x ∨ p = y ∨ p = z) ∧ ‖jA0 x y z p‖ ≤ jQ eps x y z p)) ∧
      (elliprj eps x y z p = .nan ↔ (p = x ∨ p = y ∨ p = z) ∧ ‖jA0 x y z p‖ ≤ jQ eps x y z p) := by
  obtain ⟨μ, hμ, h1, h2, h3⟩ := min3 hx hy (lt_min hz hp)
  obtain ⟨n, hn⟩ := j_terminates hμ ((p - x) * (p - y) * (p - z)) ⟨x, y, z, p, jA0 x y z p, 1, 0, 0, False⟩ h1 h2
    (h3.trans (min_le_left _ _)) (mean5_re' h1 h2 (h3.trans (min_le_left _ _)) (h3.trans (min_le_right _ _)))
    (jQ eps x y z p)
  obtain ⟨k, hk, hk1, hk2⟩ := loopWhile_spec (cond := fun s : JState => s.pow4 * jQ eps x y z p ≥ ‖s.A‖)
    (step := jStep ((p - x) * (p - y) * (p - z))) (s := ⟨x, y, z, p, jA0 x y z p, 1, 0, 0, False⟩) ⟨n, not_le.mpr hn⟩
  have hst := (j_state hx hy hz hp k).2
  have hk0 : k ≠ 0 ↔ ‖jA0 x y z p‖ ≤ jQ eps x y z p := by
    constructor
    · intro h
      have := hk2 0 (Nat.pos_of_ne_zero h)
      simpa using this
    · rintro h rfl
      apply hk1
      simpa using h
  rw [hk0] at hst
  simp only [elliprj]
  rw [if_neg, hk]
  · simp only
    by_cases hb : ((jStep ((p - x) * (p - y) * (p - z)))^[k] ⟨x, y, z, p, jA0 x y z p, 1, 0, 0, False⟩).bad
    · rw [if_pos hb]
      rw [hst] at hb
      exact ⟨⟨fun ⟨v, hv⟩ => Out.noConfusion hv, fun h => absurd hb h⟩, ⟨fun _ => hb, fun _ => rfl⟩⟩
    · rw [if_neg hb]
      rw [hst] at hb
      exact ⟨⟨fun _ => hb, fun _ => ⟨_, rfl⟩⟩, ⟨fun h => Out.noConfusion h, fun h => absurd h hb⟩⟩
  · rw [isZero_of_ne (ne_zero_of_re hx), isZero_of_ne (ne_zero_of_re hy), isZero_of_ne (ne_zero_of_re hz)]
    rintro (h | h)
    · exact ne_zero_of_re hp h
    · omega

/-- `C35_elliprc`, `C35_elliprd`, `C35_elliprg`, `C35_elliprj_partial`: complex arguments in the right half plane. -/
example := C35_elliprc (1 / 2 ^ 52) (x := 1 + Complex.I) (y := 2) (by simp) (by simp)
example := C35_elliprd (1 / 2 ^ 52) (x := 1 + Complex.I) (y := 2) (z := 3) (by simp) (by simp) (by simp)
example := C35_elliprg (1 / 2 ^ 52) (x := 1 + Complex.I) (y := 2) (z := 3) (by simp) (by simp) (by simp)
example := C35_elliprj_partial (1 / 2 ^ 52) (x := 1 + Complex.I) (y := 2) (z := 3) (p := 4) (by simp) (by simp) (by simp) (by simp)

/-- The claim fails for `elliprj` without that condition: `R_J(1, 2, 3, 2)` is finite, the routine returns a NaN at every
precision `eps ≤ 2^-20`. -/
theorem C35_elliprj_nan (eps : ℝ) (h0 : 0 < eps) (h1 : eps ≤ 1 / 2 ^ 20) : elliprj eps 1 2 3 2 = .nan := by
  rw [(C35_elliprj_partial eps (x := 1) (y := 2) (z := 3) (p := 2) (by simp) (by simp) (by simp) (by simp)).2]
  refine ⟨Or.inr (Or.inl rfl), ?_⟩
  have hA : jA0 1 2 3 2 = ((2 : ℝ) : ℂ) := by simp only [jA0]; norm_num
  have hs : (2 : ℝ) ≤ (1 / 4 * eps * 2 ^ 10) ^ (-(1 / 6) : ℝ) := by
    have hb : 0 < 1 / 4 * eps * 2 ^ 10 := by positivity
    have hle : 1 / 4 * eps * 2 ^ 10 ≤ (1 / 2) ^ (6 : ℝ) := by
      rw [show (6 : ℝ) = ((6 : ℕ) : ℝ) by norm_num, Real.rpow_natCast]
      calc 1 / 4 * eps * 2 ^ 10 ≤ 1 / 4 * (1 / 2 ^ 20) * 2 ^ 10 := by gcongr
        _ ≤ _ := by norm_num
    calc (2 : ℝ) = ((1 / 2) ^ (6 : ℝ)) ^ (-(1 / 6) : ℝ) := by
          rw [← Real.rpow_mul (by norm_num)]
          norm_num [Real.rpow_neg_one]
      _ ≤ _ := Real.rpow_le_rpow_of_nonpos hb hle (by norm_num)
  simp only [jQ, hA]
  rw [show ((2 : ℝ) : ℂ) - 1 = 1 by norm_num, show ((2 : ℝ) : ℂ) - 2 = 0 by norm_num, show ((2 : ℝ) : ℂ) - 3 = -1 by norm_num]
  rw [Complex.norm_real]
  norm_num
  norm_num at hs
  exact hs

example : ∃ v, elliprf (1 / 2 ^ 52) (1 + Complex.I) 2 3 = .val v := C35_elliprf _ (by simp) (by simp) (by simp)

/-! ### C34: the series variables and polynomials -/

/-- C34, invariant of the loops: after any number `n` of steps, the reduced variable `(A_0 - x) 4^{-n} / A_n` that the code
uses, computed from the initial arguments, is the relative distance of the current argument from the current mean. -/
theorem C34_reduced_rf (x y z : ℂ) (n : ℕ) :
    let A0 := fA0 x y z
    let st := fStep^[n] ⟨x, y, z, A0, 1⟩
    st.A = (st.x + st.y + st.z) / 3 ∧ st.pow4 = 1 / 4 ^ n ∧
      (A0 - x) * (st.pow4 / st.A) = (st.A - st.x) / st.A ∧ (A0 - y) * (st.pow4 / st.A) = (st.A - st.y) / st.A ∧
      -((A0 - x) * (st.pow4 / st.A) + (A0 - y) * (st.pow4 / st.A)) = (st.A - st.z) / st.A := by
  intro A0 st
  have key : st.A = (st.x + st.y + st.z) / 3 ∧ st.pow4 = 1 / 4 ^ n ∧ (A0 - x) * st.pow4 = st.A - st.x ∧
      (A0 - y) * st.pow4 = st.A - st.y := by
    induction n with
    | zero => simp [st, A0, fA0]
    | succ n ih =>
      simp only [st, Function.iterate_succ_apply']
      generalize fStep^[n] ⟨x, y, z, A0, 1⟩ = s at *
      obtain ⟨h1, h2, h3, h4⟩ := ih
      simp only [fStep]
      refine ⟨by rw [h1]; ring, by rw [h2, pow_succ]; ring, ?_, ?_⟩
      · push_cast
        linear_combination h3 / 4
      · push_cast
        linear_combination h4 / 4
  obtain ⟨h1, h2, h3, h4⟩ := key
  refine ⟨h1, h2, by rw [← h3]; ring, by rw [← h4]; ring, ?_⟩
  have h5 : st.A - st.z = -((st.A - st.x) + (st.A - st.y)) := by linear_combination 3 * h1
  rw [h5, ← h3, ← h4]
  ring

/-- C34, the same for `elliprd`, whose mean counts `z` three times. -/
theorem C34_reduced_rd (x y z : ℂ) (n : ℕ) :
    let A0 := dA0 x y z
    let st := dStep^[n] ⟨x, y, z, A0, 1, 0, False⟩
    st.A = (st.x + st.y + 3 * st.z) / 5 ∧ st.pow4 = 1 / 4 ^ n ∧
      (A0 - x) * (st.pow4 / st.A) = (st.A - st.x) / st.A ∧ (A0 - y) * (st.pow4 / st.A) = (st.A - st.y) / st.A ∧
      -((A0 - x) * (st.pow4 / st.A) + (A0 - y) * (st.pow4 / st.A)) / 3 = (st.A - st.z) / st.A := by
  intro A0 st
  have key : st.A = (st.x + st.y + 3 * st.z) / 5 ∧ st.pow4 = 1 / 4 ^ n ∧ (A0 - x) * st.pow4 = st.A - st.x ∧
      (A0 - y) * st.pow4 = st.A - st.y := by
    induction n with
    | zero => simp [st, A0, dA0]
    | succ n ih =>
      simp only [st, Function.iterate_succ_apply']
      generalize dStep^[n] ⟨x, y, z, A0, 1, 0, False⟩ = s at *
      obtain ⟨h1, h2, h3, h4⟩ := ih
      simp only [dStep]
      refine ⟨by rw [h1]; ring, by rw [h2, pow_succ]; ring, ?_, ?_⟩
      · push_cast
        linear_combination h3 / 4
      · push_cast
        linear_combination h4 / 4
  obtain ⟨h1, h2, h3, h4⟩ := key
  refine ⟨h1, h2, by rw [← h3]; ring, by rw [← h4]; ring, ?_⟩
  have h5 : st.A - st.z = -((st.A - st.x) + (st.A - st.y)) / 3 := by linear_combination 5 / 3 * h1
  rw [h5, ← h3, ← h4]
  ring

/-- C34, the same for `elliprj`, whose mean counts `p` twice. -/
theorem C34_reduced_rj (x y z p : ℂ) (delta : ℂ) (n : ℕ) :
    let A0 := jA0 x y z p
    let st := (jStep delta)^[n] ⟨x, y, z, p, A0, 1, 0, 0, False⟩
    let t := st.pow4 / st.A
    st.A = (st.x + st.y + st.z + 2 * st.p) / 5 ∧ st.pow4 = 1 / 4 ^ n ∧ st.m = n ∧
      (A0 - x) * t = (st.A - st.x) / st.A ∧ (A0 - y) * t = (st.A - st.y) / st.A ∧
      (A0 - z) * t = (st.A - st.z) / st.A ∧
      (-((A0 - x) * t) - (A0 - y) * t - (A0 - z) * t) / 2 = (st.A - st.p) / st.A := by
  intro A0 st t
  have key : st.A = (st.x + st.y + st.z + 2 * st.p) / 5 ∧ st.pow4 = 1 / 4 ^ n ∧ st.m = n ∧
      (A0 - x) * st.pow4 = st.A - st.x ∧ (A0 - y) * st.pow4 = st.A - st.y ∧ (A0 - z) * st.pow4 = st.A - st.z := by
    clear t
    induction n with
    | zero =>
      refine ⟨?_, ?_, rfl, ?_, ?_, ?_⟩ <;> simp [st, A0, jA0]
      ring
    | succ n ih =>
      simp only [st, Function.iterate_succ_apply']
      generalize (jStep delta)^[n] ⟨x, y, z, p, A0, 1, 0, 0, False⟩ = s at *
      obtain ⟨h1, h2, h0, h3, h4, h5⟩ := ih
      simp only [jStep]
      refine ⟨by rw [h1]; ring, by rw [h2, pow_succ]; ring, by rw [h0], ?_, ?_, ?_⟩
      · push_cast
        linear_combination h3 / 4
      · push_cast
        linear_combination h4 / 4
      · push_cast
        linear_combination h5 / 4
  obtain ⟨h1, h2, h0, h3, h4, h5⟩ := key
  have e1 : (A0 - x) * t = (st.A - st.x) / st.A := by rw [← h3]; ring
  have e2 : (A0 - y) * t = (st.A - st.y) / st.A := by rw [← h4]; ring
  have e3 : (A0 - z) * t = (st.A - st.z) / st.A := by rw [← h5]; ring
  refine ⟨h1, h2, h0, e1, e2, e3, ?_⟩
  rw [e1, e2, e3]
  have h6 : st.A - st.p = (-(st.A - st.x) - (st.A - st.y) - (st.A - st.z)) / 2 := by linear_combination 5 / 2 * h1
  rw [h6]
  ring

/-- C34, the same for `elliprc`. -/
theorem C34_reduced_rc (x y : ℂ) (n : ℕ) :
    let A0 := cA0 x y
    let st := cStep^[n] ⟨x, y, A0, 1⟩
    st.A = (st.x + 2 * st.y) / 3 ∧ st.pow4 = 1 / 4 ^ n ∧ (y - A0) * st.pow4 / st.A = (st.y - st.A) / st.A ∧
      (A0 - x) * st.pow4 = st.A - st.x := by
  intro A0 st
  have key : st.A = (st.x + 2 * st.y) / 3 ∧ st.pow4 = 1 / 4 ^ n ∧ (A0 - x) * st.pow4 = st.A - st.x ∧
      (y - A0) * st.pow4 = st.y - st.A := by
    induction n with
    | zero =>
      refine ⟨?_, ?_, ?_, ?_⟩ <;> simp [st, A0, cA0]
      ring
    | succ n ih =>
      simp only [st, Function.iterate_succ_apply']
      generalize cStep^[n] ⟨x, y, A0, 1⟩ = s at *
      obtain ⟨h1, h2, h3, h4⟩ := ih
      simp only [cStep]
      refine ⟨by rw [h1]; ring, by rw [h2, pow_succ]; ring, ?_, ?_⟩
      · push_cast
        linear_combination h3 / 4
      · push_cast
        linear_combination h4 / 4
  obtain ⟨h1, h2, h3, h4⟩ := key
  exact ⟨h1, h2, by rw [← h4], h3⟩

/-- C34, `elliprf`: the polynomial is the series of `R_F` up to degree 5 (DLMF 19.36.1) in the elementary symmetric functions of
`X`, `Y` and `Z = -X - Y`. -/
theorem C34_poly_rf (X Y Z : ℂ) (hZ : X + Y + Z = 0) :
    ∃ E2 E3 : ℂ, (∀ T, (1 + X * T) * (1 + Y * T) * (1 + Z * T) = 1 + E2 * T ^ 2 + E3 * T ^ 3) ∧
      fPoly X Y = 1 - E2 / 10 + E3 / 14 + E2 ^ 2 / 24 - 3 * E2 * E3 / 44 := by
  refine ⟨X * Y + X * Z + Y * Z, X * Y * Z, fun T => ?_, ?_⟩
  · linear_combination T * hZ
  · have : Z = -(X + Y) := by linear_combination hZ
    subst this
    simp only [fPoly]
    ring

/-- `C34_poly_rf`: reduced variables 1/10, 1/5, -3/10. -/
example := C34_poly_rf (1 / 10) (1 / 5) (-3 / 10) (by norm_num)

/-- C34, `elliprc`: the series up to degree 7 at `X = 2s... `, with arguments `1 - 2s, 1 + s, 1 + s`. -/
theorem C34_poly_rc (s : ℂ) :
    ∃ E2 E3 : ℂ, (∀ T, (1 + 2 * s * T) * (1 - s * T) * (1 - s * T) = 1 + E2 * T ^ 2 + E3 * T ^ 3) ∧
      cPoly s = 1 - E2 / 10 + E3 / 14 + E2 ^ 2 / 24 - 3 * E2 * E3 / 44 - 5 * E2 ^ 3 / 208 + 3 * E3 ^ 2 / 104 +
        E2 ^ 2 * E3 / 16 := by
  refine ⟨-3 * s ^ 2, 2 * s ^ 3, fun T => by ring, ?_⟩
  simp only [cPoly]
  ring

/-- C34, `elliprj`: the series of `R_J` up to degree 5 (DLMF 19.36.2) in the elementary symmetric functions of `X, Y, Z, P, P`. -/
theorem C34_poly_rj (X Y Z P : ℂ) (hP : X + Y + Z + 2 * P = 0) :
    ∃ E2 E3 E4 E5 : ℂ, (∀ T, (1 + X * T) * (1 + Y * T) * (1 + Z * T) * (1 + P * T) * (1 + P * T) =
        1 + E2 * T ^ 2 + E3 * T ^ 3 + E4 * T ^ 4 + E5 * T ^ 5) ∧
      jPoly X Y Z = 1 - 3 * E2 / 14 + E3 / 6 + 9 * E2 ^ 2 / 88 - 3 * E4 / 22 - 9 * E2 * E3 / 52 + 3 * E5 / 26 := by
  refine ⟨X * Y + X * Z + Y * Z - 3 * P ^ 2, X * Y * Z + 2 * (X * Y + X * Z + Y * Z) * P - 2 * P ^ 3,
    2 * X * Y * Z * P + (X * Y + X * Z + Y * Z) * P ^ 2, X * Y * Z * P ^ 2, fun T => ?_, ?_⟩
  · linear_combination (T + 2 * P * T ^ 2 + P ^ 2 * T ^ 3) * hP
  · have : P = (-X - Y - Z) / 2 := by linear_combination hP / 2
    subst this
    simp only [jPoly]
    ring

/-- `C34_poly_rj`: reduced variables 1/10, 1/5, 1/10, -1/5. -/
example := C34_poly_rj (1 / 10) (1 / 5) (1 / 10) (-1 / 5) (by norm_num)

/-- C34, `elliprd`: the same series with `P = Z`. -/
theorem C34_poly_rd (X Y Z : ℂ) (hZ : X + Y + 3 * Z = 0) :
    ∃ E2 E3 E4 E5 : ℂ, (∀ T, (1 + X * T) * (1 + Y * T) * (1 + Z * T) * (1 + Z * T) * (1 + Z * T) =
        1 + E2 * T ^ 2 + E3 * T ^ 3 + E4 * T ^ 4 + E5 * T ^ 5) ∧
      dPoly X Y = 1 - 3 * E2 / 14 + E3 / 6 + 9 * E2 ^ 2 / 88 - 3 * E4 / 22 - 9 * E2 * E3 / 52 + 3 * E5 / 26 := by
  refine ⟨X * Y - 6 * Z ^ 2, 3 * (X * Y * Z) - 8 * Z ^ 3, 3 * (X * Y - Z ^ 2) * Z ^ 2, X * Y * Z * Z ^ 2, fun T => ?_, ?_⟩
  · linear_combination (T + 3 * Z * T ^ 2 + 3 * Z ^ 2 * T ^ 3 + Z ^ 3 * T ^ 4) * hZ
  · have : Z = -(X + Y) / 3 := by linear_combination hZ / 3
    subst this
    simp only [dPoly]
    ring

/-- `C34_poly_rd`: reduced variables 1/10, 1/5, -1/10. -/
example := C34_poly_rd (1 / 10) (1 / 5) (-1 / 10) (by norm_num)

/-! ### C33: symmetry and homogeneity -/

theorem norm_scale {k : ℝ} (hk : 0 < k) (z : ℂ) : ‖(k : ℂ) * z‖ = k * ‖z‖ := by
  rw [norm_mul, Complex.norm_real, Real.norm_eq_abs, abs_of_pos hk]

theorem max_scale {k : ℝ} (hk : 0 < k) (a b : ℝ) : max (k * a) (k * b) = k * max a b :=
  (mul_max_of_nonneg a b hk.le).symm

theorem elliprcCore_scale (eps : ℝ) {k : ℝ} (hk : 0 < k) (x y : ℂ) :
    elliprcCore eps (k * x) (k * y) = (elliprcCore eps x y).map fun v => v / (√k : ℝ) := by
  have hk' : (k : ℂ) ≠ 0 := by exact_mod_cast hk.ne'
  have hs : ((√k : ℝ) : ℂ) * ((√k : ℝ) : ℂ) = k := by
    rw [← Complex.ofReal_mul, Real.mul_self_sqrt hk.le]
  have hA : cA0 (k * x) (k * y) = k * cA0 x y := by simp only [cA0]; ring
  have hQs : cQ eps (k * x) (k * y) = k * cQ eps x y := by
    simp only [cQ, hA, ← mul_sub, norm_scale hk]; ring
  have hmap := loopWhile_map (cond := fun s : CState => s.pow4 * cQ eps x y > ‖s.A‖)
    (cond' := fun s : CState => s.pow4 * cQ eps (k * x) (k * y) > ‖s.A‖) (step := cStep) (step' := cStep)
    (fun s => ⟨k * s.x, k * s.y, k * s.A, s.pow4⟩) (by
      intro s
      simp only [cStep, csqrt_mul_pos hk, CState.mk.injEq]
      refine ⟨?_, ?_, ?_, trivial⟩ <;> rw [← hs] <;> ring) (by
      intro s
      simp only [hQs, norm_scale hk]
      rw [show s.pow4 * (k * cQ eps x y) = k * (s.pow4 * cQ eps x y) by ring]
      exact mul_lt_mul_iff_of_pos_left hk) ⟨x, y, cA0 x y, 1⟩
  simp only [elliprcCore]
  rw [hA, hmap]
  cases loopWhile (fun s : CState => s.pow4 * cQ eps x y > ‖s.A‖) cStep ⟨x, y, cA0 x y, 1⟩ with
  | none => rfl
  | some st =>
    simp only [Option.map_some, Out.map, Out.bind, csqrt_mul_pos hk]
    congr 1
    rw [show (k * y - k * cA0 x y) * st.pow4 / (k * st.A) = (y - cA0 x y) * st.pow4 / st.A by
      rw [← mul_sub, mul_assoc, mul_div_mul_left _ _ hk']]
    rw [div_div, mul_comm (csqrt st.A)]

/-- C33, `elliprc` is homogeneous of degree -1/2. -/
theorem C33_homogeneous_rc (eps : ℝ) {k : ℝ} (hk : 0 < k) (x y : ℂ) :
    elliprc eps (k * x) (k * y) = (elliprc eps x y).map fun v => v / (√k : ℝ) := by
  have hk' : (k : ℂ) ≠ 0 := by exact_mod_cast hk.ne'
  have hz : ∀ a : ℂ, k * a = 0 ↔ a = 0 := fun a => by rw [mul_eq_zero, or_iff_right hk']
  simp only [elliprc, hz, ← mul_sub]
  have him : ((k * y).im = 0 ∧ (k * y).re < 0) ↔ (y.im = 0 ∧ y.re < 0) := by
    rw [Complex.im_ofReal_mul, Complex.re_ofReal_mul, mul_eq_zero, or_iff_right hk.ne', mul_neg_iff]
    simp [hk, hk.le, not_lt.mpr hk.le]
  simp only [him]
  split_ifs with h1 h2 h3 h4
  · rfl
  · simp only [Out.map, Out.bind, csqrt_mul_pos hk]
    congr 1
    rw [div_div, mul_comm]
  · rfl
  · rw [show -((k : ℂ) * y) = k * (-y) by ring, elliprcCore_scale eps hk, mul_div_mul_left _ _ hk']
    cases elliprcCore eps (x - y) (-y) <;> simp only [Out.map, Out.bind, mul_div_assoc]
  · exact elliprcCore_scale eps hk x y

theorem hQ_scale (eps r : ℝ) {k : ℝ} (hk : 0 < k) (A x y z : ℂ) :
    hQ eps r (k * A) (k * x) (k * y) (k * z) = k * hQ eps r A x y z := by
  simp only [hQ, ← mul_sub, norm_scale hk, max_scale hk]
  ring

/-- C33, `elliprf` is homogeneous of degree -1/2. -/
theorem C33_homogeneous_rf (eps : ℝ) {k : ℝ} (hk : 0 < k) (x y z : ℂ) :
    elliprf eps (k * x) (k * y) (k * z) = (elliprf eps x y z).map fun v => v / (√k : ℝ) := by
  have hk' : (k : ℂ) ≠ 0 := by exact_mod_cast hk.ne'
  have hc : ∀ a b : ℂ, k * a = k * b ↔ a = b := fun a b => mul_right_inj' hk'
  simp only [elliprf, hc]
  split_ifs
  · exact C33_homogeneous_rc eps hk _ _
  · exact C33_homogeneous_rc eps hk _ _
  · exact C33_homogeneous_rc eps hk _ _
  · have hA : fA0 (k * x) (k * y) (k * z) = k * fA0 x y z := by simp only [fA0]; ring
    have hmap := loopWhile_map (cond := fun s : FState => s.pow4 * hQ eps 3 (fA0 x y z) x y z > ‖s.A‖)
      (cond' := fun s : FState => s.pow4 * hQ eps 3 (k * fA0 x y z) (k * x) (k * y) (k * z) > ‖s.A‖) (step := fStep)
      (step' := fStep) (fun s => ⟨k * s.x, k * s.y, k * s.z, k * s.A, s.pow4⟩) (by
        intro s
        simp only [fStep, lmOf_scale hk, FState.mk.injEq]
        refine ⟨?_, ?_, ?_, ?_, trivial⟩ <;> ring) (by
        intro s
        simp only [hQ_scale eps 3 hk, norm_scale hk]
        rw [show s.pow4 * (k * hQ eps 3 (fA0 x y z) x y z) = k * (s.pow4 * hQ eps 3 (fA0 x y z) x y z) by ring]
        exact mul_lt_mul_iff_of_pos_left hk) ⟨x, y, z, fA0 x y z, 1⟩
    simp only [elliprfCore, hA]
    rw [hmap]
    cases loopWhile (fun s : FState => s.pow4 * hQ eps 3 (fA0 x y z) x y z > ‖s.A‖) fStep ⟨x, y, z, fA0 x y z, 1⟩ with
    | none => rfl
    | some st =>
      simp only [Option.map_some, Out.map, Out.bind, csqrt_mul_pos hk]
      congr 1
      have : ∀ a : ℂ, (k * fA0 x y z - k * a) * (st.pow4 / (k * st.A)) = (fA0 x y z - a) * (st.pow4 / st.A) := by
        intro a
        rw [← mul_sub, ← mul_div_assoc, ← mul_div_assoc, mul_assoc, mul_div_mul_left _ _ hk']
      rw [this, this, div_div, mul_comm (csqrt st.A)]

theorem fCore_swap12 (eps : ℝ) (x y z : ℂ) : elliprfCore eps y x z = elliprfCore eps x y z := by
  have hA : fA0 y x z = fA0 x y z := by simp only [fA0]; ring
  have hmap := loopWhile_map (cond := fun s : FState => s.pow4 * hQ eps 3 (fA0 x y z) x y z > ‖s.A‖)
    (cond' := fun s : FState => s.pow4 * hQ eps 3 (fA0 x y z) y x z > ‖s.A‖) (step := fStep)
    (step' := fStep) (fun s => ⟨s.y, s.x, s.z, s.A, s.pow4⟩) (by
      intro s
      simp only [fStep, lmOf_swap12 s.x]) (by
      intro s
      simp only [hQ, max_comm ‖fA0 x y z - y‖]) ⟨x, y, z, fA0 x y z, 1⟩
  simp only [elliprfCore, hA]
  rw [hmap]
  cases loopWhile (fun s : FState => s.pow4 * hQ eps 3 (fA0 x y z) x y z > ‖s.A‖) fStep ⟨x, y, z, fA0 x y z, 1⟩ with
  | none => rfl
  | some st =>
    simp only [Option.map_some]
    congr 2
    simp only [fPoly]
    ring

theorem fCore_swap23 (eps : ℝ) (x y z : ℂ) : elliprfCore eps x z y = elliprfCore eps x y z := by
  have hA : fA0 x z y = fA0 x y z := by simp only [fA0]; ring
  have hmap := loopWhile_map (cond := fun s : FState => s.pow4 * hQ eps 3 (fA0 x y z) x y z > ‖s.A‖)
    (cond' := fun s : FState => s.pow4 * hQ eps 3 (fA0 x y z) x z y > ‖s.A‖) (step := fStep)
    (step' := fStep) (fun s => ⟨s.x, s.z, s.y, s.A, s.pow4⟩) (by
      intro s
      simp only [fStep, lmOf_swap23 s.x]) (by
      intro s
      simp only [hQ, max_assoc, max_comm ‖fA0 x y z - z‖]) ⟨x, y, z, fA0 x y z, 1⟩
  simp only [elliprfCore, hA]
  rw [hmap]
  cases loopWhile (fun s : FState => s.pow4 * hQ eps 3 (fA0 x y z) x y z > ‖s.A‖) fStep ⟨x, y, z, fA0 x y z, 1⟩ with
  | none => rfl
  | some st =>
    simp only [Option.map_some]
    congr 2
    have : (fA0 x y z - z) * (st.pow4 / st.A) = -((fA0 x y z - x) * (st.pow4 / st.A) + (fA0 x y z - y) * (st.pow4 / st.A)) := by
      simp only [fA0]; ring
    rw [this]
    simp only [fPoly]
    ring

/-- C33, `elliprf` is symmetric: exchanging the first two or the last two arguments, and hence any permutation, does not change
the outcome, whatever it is. -/
theorem C33_symmetric_rf (eps : ℝ) (x y z : ℂ) :
    elliprf eps y x z = elliprf eps x y z ∧ elliprf eps x z y = elliprf eps x y z := by
  constructor
  · simp only [elliprf]
    by_cases h1 : y = z
    · subst h1
      by_cases h2 : x = y
      · subst h2; rfl
      · rw [if_neg h2, if_pos rfl, if_pos rfl]
    · by_cases h2 : x = z
      · subst h2
        rw [if_pos rfl, if_neg h1, if_pos rfl]
      · by_cases h3 : x = y
        · subst h3; rfl
        · rw [if_neg h2, if_neg h1, if_neg (Ne.symm h3), if_neg h1, if_neg h2, if_neg h3]
          exact fCore_swap12 eps x y z
  · simp only [elliprf]
    by_cases h1 : y = z
    · subst h1; rfl
    · by_cases h2 : x = z
      · subst h2
        rw [if_neg (Ne.symm h1), if_neg (Ne.symm h1), if_pos rfl, if_neg h1, if_pos rfl]
      · by_cases h3 : x = y
        · subst h3
          rw [if_neg (Ne.symm h1), if_pos rfl, if_neg h1, if_neg h1, if_pos rfl]
        · rw [if_neg (Ne.symm h1), if_neg h3, if_neg h2, if_neg h1, if_neg h2, if_neg h3]
          exact fCore_swap23 eps x y z

/-- C33, `elliprd` is symmetric in its first two arguments. -/
theorem C33_symmetric_rd (eps : ℝ) (x y z : ℂ) : elliprd eps y x z = elliprd eps x y z := by
  have hA : dA0 y x z = dA0 x y z := by simp only [dA0]; ring
  have hmap := loopWhile_map (cond := fun s : DState => s.pow4 * hQ eps (1 / 4) (dA0 x y z) x y z > ‖s.A‖)
    (cond' := fun s : DState => s.pow4 * hQ eps (1 / 4) (dA0 x y z) y x z > ‖s.A‖) (step := dStep)
    (step' := dStep) (fun s => ⟨s.y, s.x, s.z, s.A, s.pow4, s.s, s.bad⟩) (by
      intro s
      simp only [dStep, lmOf_swap12 s.x]) (by
      intro s
      simp only [hQ, max_comm ‖dA0 x y z - y‖]) ⟨x, y, z, dA0 x y z, 1, 0, False⟩
  simp only [elliprd, hA, add_comm (isZero y)]
  rw [hmap]
  split_ifs
  · rfl
  · cases loopWhile (fun s : DState => s.pow4 * hQ eps (1 / 4) (dA0 x y z) x y z > ‖s.A‖) dStep
      ⟨x, y, z, dA0 x y z, 1, 0, False⟩ with
    | none => rfl
    | some st =>
      simp only [Option.map_some]
      split_ifs
      · rfl
      · congr 3
        simp only [dPoly]
        ring

/-- C33, `elliprd` is homogeneous of degree -3/2. -/
theorem C33_homogeneous_rd (eps : ℝ) {k : ℝ} (hk : 0 < k) (x y z : ℂ) :
    elliprd eps (k * x) (k * y) (k * z) = (elliprd eps x y z).map fun v => v / (k * (√k : ℝ)) := by
  have hk' : (k : ℂ) ≠ 0 := by exact_mod_cast hk.ne'
  have hs' : ((√k : ℝ) : ℂ) ≠ 0 := by exact_mod_cast (Real.sqrt_pos.mpr hk).ne'
  have hz : ∀ a : ℂ, k * a = 0 ↔ a = 0 := fun a => by rw [mul_eq_zero, or_iff_right hk']
  have hiz : ∀ a : ℂ, isZero (k * a) = isZero a := fun a => by simp only [isZero, hz]
  have hA : dA0 (k * x) (k * y) (k * z) = k * dA0 x y z := by simp only [dA0]; ring
  have hmap := loopWhile_map (cond := fun s : DState => s.pow4 * hQ eps (1 / 4) (dA0 x y z) x y z > ‖s.A‖)
    (cond' := fun s : DState => s.pow4 * hQ eps (1 / 4) (k * dA0 x y z) (k * x) (k * y) (k * z) > ‖s.A‖) (step := dStep)
    (step' := dStep) (fun s => ⟨k * s.x, k * s.y, k * s.z, k * s.A, s.pow4, s.s / (k * (√k : ℝ)), s.bad⟩) (by
      intro s
      simp only [dStep, lmOf_scale hk, DState.mk.injEq, csqrt_mul_pos hk, ← mul_add, hz, mul_eq_zero, hs', false_or]
      refine ⟨by ring, by ring, by ring, by ring, trivial, ?_, trivial⟩
      rw [add_div]
      congr 1
      rw [div_div, div_div, div_div]
      congr 1
      ring) (by
      intro s
      simp only [hQ_scale eps (1 / 4) hk, norm_scale hk]
      rw [show s.pow4 * (k * hQ eps (1 / 4) (dA0 x y z) x y z) = k * (s.pow4 * hQ eps (1 / 4) (dA0 x y z) x y z) by ring]
      exact mul_lt_mul_iff_of_pos_left hk) ⟨x, y, z, dA0 x y z, 1, 0, False⟩
  simp only [zero_div] at hmap
  simp only [elliprd, hA, hz, hiz]
  rw [hmap]
  split_ifs
  · rfl
  · cases loopWhile (fun s : DState => s.pow4 * hQ eps (1 / 4) (dA0 x y z) x y z > ‖s.A‖) dStep
      ⟨x, y, z, dA0 x y z, 1, 0, False⟩ with
    | none => rfl
    | some st =>
      simp only [Option.map_some]
      split_ifs
      · rfl
      · simp only [Out.map, Out.bind, csqrt_mul_pos hk]
        congr 1
        have : ∀ a : ℂ, (k * dA0 x y z - k * a) * (st.pow4 / (k * st.A)) = (dA0 x y z - a) * (st.pow4 / st.A) := by
          intro a
          rw [← mul_sub, ← mul_div_assoc, ← mul_div_assoc, mul_assoc, mul_div_mul_left _ _ hk']
        rw [this, this, add_div]
        congr 1
        · rw [mul_div_assoc]
        · rw [div_div, div_div, div_mul_eq_mul_div, div_mul_eq_mul_div, div_div]
          congr 1
          ring

/-- C33, `elliprg` is homogeneous of degree 1/2. -/
theorem C33_homogeneous_rg (eps : ℝ) {k : ℝ} (hk : 0 < k) (x y z : ℂ) :
    elliprg eps (k * x) (k * y) (k * z) = (elliprg eps x y z).map fun v => v * (√k : ℝ) := by
  have hk' : (k : ℂ) ≠ 0 := by exact_mod_cast hk.ne'
  have hs : ((√k : ℝ) : ℂ) * ((√k : ℝ) : ℂ) = k := by
    rw [← Complex.ofReal_mul, Real.mul_self_sqrt hk.le]
  have hs' : ((√k : ℝ) : ℂ) ≠ 0 := by exact_mod_cast (Real.sqrt_pos.mpr hk).ne'
  have hz : ∀ a : ℂ, k * a = 0 ↔ a = 0 := fun a => by rw [mul_eq_zero, or_iff_right hk']
  have hiz : ∀ a : ℂ, isZero (k * a) = isZero a := fun a => by simp only [isZero, hz]
  have hneg : ∀ a b : ℂ, areEqualNegative (k * a) (k * b) ↔ areEqualNegative a b := by
    intro a b
    simp only [areEqualNegative, Complex.im_ofReal_mul, Complex.re_ofReal_mul, mul_eq_zero, or_iff_right hk.ne',
      mul_right_inj' hk.ne', mul_neg_iff, hk, not_lt.mpr hk.le]
    simp
  have main : ∀ x y z : ℂ, elliprgMain eps (k * x) (k * y) (k * z) = (elliprgMain eps x y z).map fun v => v * (√k : ℝ) := by
    intro x y z
    have hneg3 : (areEqualNegative (k * x) (k * y) ∨ areEqualNegative (k * x) (k * z) ∨ areEqualNegative (k * y) (k * z)) ↔
        (areEqualNegative x y ∨ areEqualNegative x z ∨ areEqualNegative y z) := by rw [hneg, hneg, hneg]
    rw [elliprgMain, elliprgMain, C33_homogeneous_rf eps hk, C33_homogeneous_rd eps hk]
    by_cases hn : areEqualNegative x y ∨ areEqualNegative x z ∨ areEqualNegative y z
    · rw [if_pos (hneg3.mpr hn), if_pos hn]
      rfl
    · rw [if_neg (fun h => hn (hneg3.mp h)), if_neg hn]
      cases elliprf eps x y z <;> cases elliprd eps x y z <;> simp only [Out.map, Out.bind]
      congr 1
      simp only [csqrt_mul_pos hk]
      have e1 : (√k : ℝ) * csqrt x * ((√k : ℝ) * csqrt y) / ((√k : ℝ) * csqrt z) = csqrt x * csqrt y / csqrt z * (√k : ℝ) := by
        rw [mul_assoc, mul_div_mul_left _ _ hs']
        ring
      rw [e1, ← hs]
      field_simp
  rw [elliprg, elliprg, hiz, hiz, hiz, main, main]
  by_cases h3 : isZero x + isZero y + isZero z = 3
  · rw [if_pos h3, if_pos h3]
    simp [Out.map, Out.bind]
  rw [if_neg h3, if_neg h3]
  by_cases h2 : isZero x + isZero y + isZero z = 2
  · rw [if_pos h2, if_pos h2]
    by_cases hx : x = 0
    · rw [if_neg (not_not.mpr ((hz x).mpr hx)), if_neg (not_not.mpr hx)]
      by_cases hy : y = 0
      · rw [if_neg (not_not.mpr ((hz y).mpr hy)), if_neg (not_not.mpr hy)]
        simp only [Out.map, Out.bind, csqrt_mul_pos hk]
        congr 1
        ring
      · rw [if_pos (fun h => hy ((hz y).mp h)), if_pos hy]
        simp only [Out.map, Out.bind, csqrt_mul_pos hk]
        congr 1
        ring
    · rw [if_pos (fun h => hx ((hz x).mp h)), if_pos hx]
      simp only [Out.map, Out.bind, csqrt_mul_pos hk]
      congr 1
      ring
  rw [if_neg h2, if_neg h2]
  by_cases h1 : isZero x + isZero y + isZero z = 1 ∧ z = 0
  · rw [if_pos ⟨h1.1, (hz z).mpr h1.2⟩, if_pos h1]
  · rw [if_neg (fun h => h1 ⟨h.1, (hz z).mp h.2⟩), if_neg h1]

theorem dmOf_swap12 (x y z p : ℂ) : dmOf y x z p = dmOf x y z p := by simp only [dmOf]; ring
theorem dmOf_swap23 (x y z p : ℂ) : dmOf x z y p = dmOf x y z p := by simp only [dmOf]; ring

/-- C33, `elliprj` is symmetric in its first three arguments. -/
theorem C33_symmetric_rj (eps : ℝ) (x y z p : ℂ) :
    elliprj eps y x z p = elliprj eps x y z p ∧ elliprj eps x z y p = elliprj eps x y z p := by
  constructor
  · have hA : jA0 y x z p = jA0 x y z p := by simp only [jA0]; ring
    have hd : (p - y) * (p - x) * (p - z) = (p - x) * (p - y) * (p - z) := by ring
    have hq : jQ eps y x z p = jQ eps x y z p := by simp only [jQ, hA, max_comm ‖jA0 x y z p - y‖]
    have hmap := loopWhile_map (cond := fun s : JState => s.pow4 * jQ eps x y z p ≥ ‖s.A‖)
      (cond' := fun s : JState => s.pow4 * jQ eps x y z p ≥ ‖s.A‖) (step := jStep ((p - x) * (p - y) * (p - z)))
      (step' := jStep ((p - x) * (p - y) * (p - z))) (fun s => ⟨s.y, s.x, s.z, s.p, s.A, s.pow4, s.s, s.m, s.bad⟩) (by
        intro s
        simp only [jStep, lmOf_swap12 s.x, dmOf_swap12 s.x]) (by
        intro s
        rfl) ⟨x, y, z, p, jA0 x y z p, 1, 0, 0, False⟩
    simp only [elliprj, hA, hd, hq, add_comm (isZero y)]
    rw [hmap]
    split_ifs
    · rfl
    · cases loopWhile (fun s : JState => s.pow4 * jQ eps x y z p ≥ ‖s.A‖) (jStep ((p - x) * (p - y) * (p - z)))
        ⟨x, y, z, p, jA0 x y z p, 1, 0, 0, False⟩ with
      | none => rfl
      | some st =>
        simp only [Option.map_some]
        split_ifs
        · rfl
        · congr 3
          simp only [jPoly]
          ring
  · have hA : jA0 x z y p = jA0 x y z p := by simp only [jA0]; ring
    have hd : (p - x) * (p - z) * (p - y) = (p - x) * (p - y) * (p - z) := by ring
    have hq : jQ eps x z y p = jQ eps x y z p := by
      simp only [jQ, hA, max_assoc, max_left_comm ‖jA0 x y z p - z‖ ‖jA0 x y z p - y‖]
    have hmap := loopWhile_map (cond := fun s : JState => s.pow4 * jQ eps x y z p ≥ ‖s.A‖)
      (cond' := fun s : JState => s.pow4 * jQ eps x y z p ≥ ‖s.A‖) (step := jStep ((p - x) * (p - y) * (p - z)))
      (step' := jStep ((p - x) * (p - y) * (p - z))) (fun s => ⟨s.x, s.z, s.y, s.p, s.A, s.pow4, s.s, s.m, s.bad⟩) (by
        intro s
        simp only [jStep, lmOf_swap23 s.x, dmOf_swap23 s.x]) (by
        intro s
        rfl) ⟨x, y, z, p, jA0 x y z p, 1, 0, 0, False⟩
    have hi : isZero x + isZero z + isZero y = isZero x + isZero y + isZero z := by omega
    simp only [elliprj, hA, hd, hq, hi]
    rw [hmap]
    split_ifs
    · rfl
    · cases loopWhile (fun s : JState => s.pow4 * jQ eps x y z p ≥ ‖s.A‖) (jStep ((p - x) * (p - y) * (p - z)))
        ⟨x, y, z, p, jA0 x y z p, 1, 0, 0, False⟩ with
      | none => rfl
      | some st =>
        simp only [Option.map_some]
        split_ifs
        · rfl
        · congr 3
          simp only [jPoly]
          ring

/-- C33, `elliprj` is homogeneous of degree -3/2. -/
theorem C33_homogeneous_rj (eps : ℝ) {k : ℝ} (hk : 0 < k) (x y z p : ℂ) :
    elliprj eps (k * x) (k * y) (k * z) (k * p) = (elliprj eps x y z p).map fun v => v / (k * (√k : ℝ)) := by
  have hk' : (k : ℂ) ≠ 0 := by exact_mod_cast hk.ne'
  have hs' : ((√k : ℝ) : ℂ) ≠ 0 := by exact_mod_cast (Real.sqrt_pos.mpr hk).ne'
  have hs : ((√k : ℝ) : ℂ) * ((√k : ℝ) : ℂ) = k := by
    rw [← Complex.ofReal_mul, Real.mul_self_sqrt hk.le]
  have hz : ∀ a : ℂ, k * a = 0 ↔ a = 0 := fun a => by rw [mul_eq_zero, or_iff_right hk']
  have hiz : ∀ a : ℂ, isZero (k * a) = isZero a := fun a => by simp only [isZero, hz]
  have hA : jA0 (k * x) (k * y) (k * z) (k * p) = k * jA0 x y z p := by simp only [jA0]; ring
  have hd : (k * p - k * x) * (k * p - k * y) * (k * p - k * z) = (k : ℂ) ^ 3 * ((p - x) * (p - y) * (p - z)) := by ring
  have hq : jQ eps (k * x) (k * y) (k * z) (k * p) = k * jQ eps x y z p := by
    simp only [jQ, hA, ← mul_sub, norm_scale hk, max_scale hk]
    ring
  have hdm : ∀ x y z p : ℂ, dmOf (k * x) (k * y) (k * z) (k * p) = k * (√k : ℝ) * dmOf x y z p := by
    intro x y z p
    simp only [dmOf, csqrt_mul_pos hk]
    linear_combination ((√k : ℝ) : ℂ) * ((csqrt p + csqrt x) * (csqrt p + csqrt y) * (csqrt p + csqrt z)) * hs
  have hem : ∀ (δ : ℂ) (c : ℂ) (d : ℂ), (k : ℂ) ^ 3 * δ * c / (k * (√k : ℝ) * d * (k * (√k : ℝ) * d)) = δ * c / (d * d) := by
    intro δ c d
    have : (k : ℂ) * (√k : ℝ) * d * (k * (√k : ℝ) * d) = (k : ℂ) ^ 3 * (d * d) := by
      calc _ = (k : ℂ) * k * (((√k : ℝ) : ℂ) * ((√k : ℝ) : ℂ)) * (d * d) := by ring
        _ = _ := by rw [hs]; ring
    rw [this, mul_assoc, mul_div_mul_left _ _ (pow_ne_zero 3 hk')]
  have hmap := loopWhile_map (cond := fun s : JState => s.pow4 * jQ eps x y z p ≥ ‖s.A‖)
    (cond' := fun s : JState => s.pow4 * (k * jQ eps x y z p) ≥ ‖s.A‖) (step := jStep ((p - x) * (p - y) * (p - z)))
    (step' := jStep ((k : ℂ) ^ 3 * ((p - x) * (p - y) * (p - z))))
    (fun s => ⟨k * s.x, k * s.y, k * s.z, k * s.p, k * s.A, s.pow4, s.s / (k * (√k : ℝ)), s.m, s.bad⟩) (by
      intro s
      simp only [jStep, lmOf_scale hk, hdm, hem, JState.mk.injEq, ← mul_add, mul_eq_zero, hk', hs', false_or]
      refine ⟨by ring, by ring, by ring, by ring, by ring, trivial, ?_, trivial, trivial⟩
      rw [add_div]
      congr 1
      rw [div_div]
      congr 1
      ring) (by
      intro s
      simp only [norm_scale hk]
      rw [show s.pow4 * (k * jQ eps x y z p) = k * (s.pow4 * jQ eps x y z p) by ring]
      exact mul_le_mul_iff_of_pos_left hk) ⟨x, y, z, p, jA0 x y z p, 1, 0, 0, False⟩
  simp only [zero_div] at hmap
  simp only [elliprj, hA, hz, hiz, hd, hq]
  rw [hmap]
  split_ifs
  · rfl
  · cases loopWhile (fun s : JState => s.pow4 * jQ eps x y z p ≥ ‖s.A‖) (jStep ((p - x) * (p - y) * (p - z)))
      ⟨x, y, z, p, jA0 x y z p, 1, 0, 0, False⟩ with
    | none => rfl
    | some st =>
      simp only [Option.map_some]
      split_ifs
      · rfl
      · simp only [Out.map, Out.bind, csqrt_mul_pos hk]
        congr 1
        have : ∀ a : ℂ, (k * jA0 x y z p - k * a) * (st.pow4 / (k * st.A)) = (jA0 x y z p - a) * (st.pow4 / st.A) := by
          intro a
          rw [← mul_sub, ← mul_div_assoc, ← mul_div_assoc, mul_assoc, mul_div_mul_left _ _ hk']
        rw [this, this, this, add_div]
        congr 1
        · rw [mul_div_assoc]
        · rw [div_div, div_div, div_mul_eq_mul_div, div_mul_eq_mul_div, div_div]
          congr 1
          ring

/-- The scaling laws `C33_homogeneous_rc`, `_rf`, `_rd`, `_rg`, `_rj` with the factor 4. -/
example := C33_homogeneous_rc (1 / 2 ^ 52) (k := 4) (by norm_num) 1 Complex.I
example := C33_homogeneous_rf (1 / 2 ^ 52) (k := 4) (by norm_num) 1 2 Complex.I
example := C33_homogeneous_rd (1 / 2 ^ 52) (k := 4) (by norm_num) 1 2 Complex.I
example := C33_homogeneous_rg (1 / 2 ^ 52) (k := 4) (by norm_num) 1 2 Complex.I
example := C33_homogeneous_rj (1 / 2 ^ 52) (k := 4) (by norm_num) 1 2 3 Complex.I

end Verif.Carlson

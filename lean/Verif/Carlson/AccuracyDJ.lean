import Verif.Carlson.Accuracy

/-! # Accuracy of `elliprd`, `elliprj` and `elliprg` for real arguments -/

namespace Verif.Carlson

open MeasureTheory Set Filter Topology

theorem isZero_real (a : ℝ) : isZero (a : ℂ) = if a = 0 then 1 else 0 := by
  unfold isZero
  by_cases h : a = 0
  · rw [if_pos (by exact_mod_cast h), if_pos h]
  · rw [if_neg (by exact_mod_cast h), if_neg h]

theorem zeros_le_one {x y z : ℝ} (h : Args x y z) : ¬isZero (x : ℂ) + isZero (y : ℂ) + isZero (z : ℂ) > 1 := by
  rw [isZero_real, isZero_real, isZero_real]
  have h1 := h.xy
  have h2 := h.yz
  have h3 := h.xz
  split_ifs <;> first | omega | (exfalso; linarith)

/-! ### C79: elliprd -/

/-- C79: for real non-negative arguments, at most one of them zero and `z > 0`, `elliprd` returns `R_D(x, y, z)` with a relative
error below `4 EPS = 4·10^-6 eps`. -/
theorem C79_elliprd {eps : ℝ} (h0 : 0 < eps) (h1 : eps ≤ 1) {x y z : ℝ} (h : Args x y z) (hz : 0 < z) :
    ∃ v : ℝ, elliprd eps x y z = .val v ∧ |v - RD x y z| ≤ 4 * EPS eps * RD x y z := by
  have hE : 0 < EPS eps := by unfold EPS; positivity
  have hE1 : EPS eps ≤ 1 / 1000000 := by unfold EPS; linarith
  obtain ⟨ε, hε0, hε4, hε6, hκ⟩ := tolerance (b := EPS eps * (1 / 4)) (by positivity) (by linarith)
  have hA0 : dA0 (x : ℂ) y z = ((x + y + 3 * z) / 5 : ℝ) := by simp only [dA0]; push_cast; ring
  have hstep : ∀ s : DState, (∃ a b c σ : ℝ, s.x = a ∧ s.y = b ∧ s.z = c ∧ s.s = σ ∧ ¬s.bad ∧ Args a b c ∧ 0 < c ∧ 0 ≤ σ ∧
        0 ≤ s.pow4 ∧ RD x y z = 3 * σ + s.pow4 * RD a b c) →
      (∃ a b c σ : ℝ, (dStep s).x = a ∧ (dStep s).y = b ∧ (dStep s).z = c ∧ (dStep s).s = σ ∧ ¬(dStep s).bad ∧ Args a b c ∧
        0 < c ∧ 0 ≤ σ ∧ 0 ≤ (dStep s).pow4 ∧ RD x y z = 3 * σ + (dStep s).pow4 * RD a b c) ∧
      ∃ a b : ℝ, (dStep s).x = a ∧ (dStep s).y = b ∧ 0 < a ∧ 0 < b := by
    rintro s ⟨a, b, c, σ, e1, e2, e3, e4, e5, hargs, hc, hσ, hp, hR⟩
    obtain ⟨hl, hargs'⟩ := hargs.dup
    have q1 := hargs.x0
    have q2 := hargs.y0
    have q3 := hargs.z0
    have hlm : lmOf s.x s.y s.z = (lam a b c 0 : ℝ) := by rw [e1, e2, e3, lmOf_real q1 q2 q3]
    have hcs : 0 < √c := Real.sqrt_pos.mpr hc
    have f1 : (dStep s).x = (((a + lam a b c 0) / 4 : ℝ) : ℂ) := by simp only [dStep]; rw [hlm, e1]; push_cast; ring
    have f2 : (dStep s).y = (((b + lam a b c 0) / 4 : ℝ) : ℂ) := by simp only [dStep]; rw [hlm, e2]; push_cast; ring
    refine ⟨⟨_, _, (c + lam a b c 0) / 4, σ + s.pow4 / √c / (c + lam a b c 0), f1, f2, ?_, ?_, ?_, hargs', by positivity,
      by positivity, ?_, ?_⟩, _, _, f1, f2, by linarith, by linarith⟩
    · simp only [dStep]
      rw [hlm, e3]; push_cast; ring
    · simp only [dStep]
      rw [hlm, e3, e4, csqrt_ofReal hc.le]
      push_cast
      ring
    · simp only [dStep]
      rw [hlm, e3, csqrt_eq_zero]
      rintro (k | k | k)
      · exact e5 k
      · exact hc.ne' (by exact_mod_cast k)
      · exact (show 0 < c + lam a b c 0 by linarith).ne' (by exact_mod_cast k)
    · simp only [dStep]
      positivity
    · rw [hR, RD_dup hargs hc]
      simp only [dStep]
      have : 0 < c + lam a b c 0 := by linarith
      field_simp
      ring
  have hinit : (fun s : DState => ∃ a b c σ : ℝ, s.x = a ∧ s.y = b ∧ s.z = c ∧ s.s = σ ∧ ¬s.bad ∧ Args a b c ∧ 0 < c ∧ 0 ≤ σ ∧
        0 ≤ s.pow4 ∧ RD x y z = 3 * σ + s.pow4 * RD a b c) ⟨x, y, z, dA0 x y z, 1, 0, False⟩ :=
    ⟨x, y, z, 0, rfl, rfl, rfl, by simp, not_false, h, hz, le_rfl, by simp, by simp⟩
  obtain ⟨n, hn⟩ : ∃ n, (dStep^[n] ⟨x, y, z, dA0 x y z, 1, 0, False⟩).pow4 * hQ eps (1 / 4) (dA0 x y z) x y z <
      ‖(dStep^[n] ⟨x, y, z, dA0 x y z, 1, 0, False⟩).A‖ := by
    obtain ⟨⟨-, -, c, -, -, -, e3, -, -, -, hc, -⟩, a, b, e1, e2, ha, hb⟩ := hstep _ hinit
    obtain ⟨μ, hμ, m1, m2, m3⟩ := min3 ha hb hc
    obtain ⟨n, hn⟩ := d_terminates hμ (dStep ⟨x, y, z, dA0 x y z, 1, 0, False⟩) (by rw [e1]; exact m1) (by rw [e2]; exact m2)
      (by rw [e3]; exact m3) (by
        have hm := (C34_reduced_rd x y z 1).1
        simp only [Function.iterate_one] at hm
        rw [hm, e1, e2, e3, show (3 : ℂ) = ((3 : ℝ) : ℂ) by norm_num, ← Complex.ofReal_mul, ← Complex.ofReal_add,
          ← Complex.ofReal_add, show (5 : ℂ) = ((5 : ℝ) : ℂ) by norm_num, ← Complex.ofReal_div, Complex.ofReal_re]
        linarith) (hQ eps (1 / 4) (dA0 x y z) x y z)
    exact ⟨n + 1, by rw [Function.iterate_succ_apply]; exact hn⟩
  obtain ⟨k, hk, hexit, _⟩ := loopWhile_spec (cond := fun s : DState => s.pow4 * hQ eps (1 / 4) (dA0 x y z) x y z > ‖s.A‖)
    (step := dStep) (s := ⟨x, y, z, dA0 x y z, 1, 0, False⟩) ⟨n, not_lt.mpr hn.le⟩
  have hinv := iterate_inv (step := dStep) _ (fun s hs => (hstep s hs).1) hinit k
  obtain ⟨hA, hp4, hX, hY, hZ⟩ := C34_reduced_rd x y z k
  simp only [elliprd]
  rw [if_neg (by
    rintro (k | k)
    · exact hz.ne' (by exact_mod_cast k)
    · exact zeros_le_one h k), hk]
  simp only at hX hY hZ hexit hinv ⊢
  generalize dStep^[k] ⟨x, y, z, dA0 x y z, 1, 0, False⟩ = st at *
  obtain ⟨a, b, c, σ, ha', hb', hc', hs', hbad, hargs, hc, hσ, hp4', hR⟩ := hinv
  rw [if_neg hbad]
  rw [ha', hb', hc'] at hA
  obtain ⟨A, hAd⟩ : ∃ A : ℝ, A = (a + b + 3 * c) / 5 := ⟨_, rfl⟩
  have hAc : st.A = (A : ℂ) := by rw [hA, hAd]; push_cast; ring
  have hApos : 0 < A := by rw [hAd]; linarith [hargs.x0, hargs.y0]
  rw [hAc, ha'] at hX
  rw [hAc, hb'] at hY
  have exitR : st.pow4 * (1 / ε * max (max |(x + y + 3 * z) / 5 - x| |(x + y + 3 * z) / 5 - y|) |(x + y + 3 * z) / 5 - z|) ≤
      A := by
    have := not_lt.mp hexit
    rw [hAc, Complex.norm_real, Real.norm_eq_abs, abs_of_pos hApos, hQ, hκ, hA0, norm_real_sub, norm_real_sub,
      norm_real_sub] at this
    exact this
  obtain ⟨X, hXd⟩ : ∃ X : ℝ, X = (A - a) / A := ⟨_, rfl⟩
  obtain ⟨Y, hYd⟩ : ∃ Y : ℝ, Y = (A - b) / A := ⟨_, rfl⟩
  obtain ⟨Z, hZd⟩ : ∃ Z : ℝ, Z = (A - c) / A := ⟨_, rfl⟩
  have hXr : X = ((x + y + 3 * z) / 5 - x) * st.pow4 / A := by
    rw [hA0] at hX
    rw [hXd, mul_div_assoc]
    exact_mod_cast hX.symm
  have hYr : Y = ((x + y + 3 * z) / 5 - y) * st.pow4 / A := by
    rw [hA0] at hY
    rw [hYd, mul_div_assoc]
    exact_mod_cast hY.symm
  have hsum : X + Y + Z + 2 * Z = 0 := by
    rw [hXd, hYd, hZd]
    field_simp
    rw [hAd]; ring
  have hZr : Z = ((x + y + 3 * z) / 5 - z) * st.pow4 / A := by
    have : Z = -(X + Y) / 3 := by linarith
    rw [this, hXr, hYr]
    ring
  have bX : |X| ≤ ε := by rw [hXr]; exact reduced_le hε0 hApos hp4' ((le_max_left _ _).trans (le_max_left _ _)) exitR
  have bY : |Y| ≤ ε := by rw [hYr]; exact reduced_le hε0 hApos hp4' ((le_max_right _ _).trans (le_max_left _ _)) exitR
  have bZ : |Z| ≤ ε := by rw [hZr]; exact reduced_le hε0 hApos hp4' (le_max_right _ _) exitR
  have ha1 : a = A * (1 - X) := by rw [hXd]; field_simp; ring
  have hb1 : b = A * (1 - Y) := by rw [hYd]; field_simp; ring
  have hc1 : c = A * (1 - Z) := by rw [hZd]; field_simp; ring
  have hser := RJ_series X Y Z Z ε hε4 bX bY bZ bZ hsum _ _ _ _ rfl rfl rfl rfl
  have hscale : RD a b c = RJ (1 - X) (1 - Y) (1 - Z) (1 - Z) / (A * √A) := by
    rw [RD_eq_RJ, ha1, hb1, hc1, RJ_scale _ _ _ _ _ hApos]
  have hAs : 0 < √A := Real.sqrt_pos.mpr hApos
  set P := (1 - 3 / 14 * (X * Y + X * Z + Y * Z - 3 * Z ^ 2) + (X * Y * Z + 2 * (X * Y + X * Z + Y * Z) * Z - 2 * Z ^ 3) / 6 +
        9 / 88 * (X * Y + X * Z + Y * Z - 3 * Z ^ 2) ^ 2 - 3 / 22 * (2 * X * Y * Z * Z + (X * Y + X * Z + Y * Z) * Z ^ 2) -
      9 / 52 * (X * Y + X * Z + Y * Z - 3 * Z ^ 2) * (X * Y * Z + 2 * (X * Y + X * Z + Y * Z) * Z - 2 * Z ^ 3) +
    3 / 26 * (X * Y * Z * Z ^ 2)) with hP
  refine ⟨3 * σ + st.pow4 / A / √A * P, ?_, ?_⟩
  · have hX2 : (dA0 (x : ℂ) y z - x) * (st.pow4 / st.A) = (X : ℂ) := by rw [hAc, hX, hXd]; push_cast; ring
    have hY2 : (dA0 (x : ℂ) y z - y) * (st.pow4 / st.A) = (Y : ℂ) := by rw [hAc, hY, hYd]; push_cast; ring
    rw [hX2, hY2, hAc, csqrt_ofReal hApos.le, hs']
    congr 1
    have hpoly : dPoly (X : ℂ) Y = (P : ℂ) := by
      have : X = -(Y + 3 * Z) := by linarith
      rw [hP, this]
      simp only [dPoly]
      push_cast
      ring
    rw [hpoly]
    push_cast
    ring
  · clear_value P
    have e1 : 3 * σ + st.pow4 / A / √A * P - RD x y z = -(st.pow4 * ((RJ (1 - X) (1 - Y) (1 - Z) (1 - Z) - P) / (A * √A))) := by
      rw [hR, hscale]
      field_simp
      ring
    have b1 := abs_le.mp bX
    have b2 := abs_le.mp bY
    have b3 := abs_le.mp bZ
    have hlow : 1 / (A * (1 + ε) * √(A * (1 + ε))) ≤ RD a b c := by
      rw [RD_eq_RJ]
      apply RJ_lower hargs hc
      · rw [ha1]; apply mul_le_mul_of_nonneg_left _ hApos.le; linarith
      · rw [hb1]; apply mul_le_mul_of_nonneg_left _ hApos.le; linarith
      · rw [hc1]; apply mul_le_mul_of_nonneg_left _ hApos.le; linarith
      · rw [hc1]; apply mul_le_mul_of_nonneg_left _ hApos.le; linarith
    have h9 := sqrt_ratio3 hApos hε0.le hε4
    have hRpos : 0 ≤ RD a b c := le_trans (by positivity) hlow
    have hAA : 0 < A * √A := by positivity
    rw [e1, abs_neg, abs_mul, abs_of_nonneg hp4', abs_div, abs_of_pos hAA]
    calc _ ≤ st.pow4 * (10 * ε ^ 6 / (A * √A)) := by gcongr
      _ = st.pow4 * (5 / 2 * EPS eps * (1 / (A * √A))) := by rw [hε6]; ring
      _ ≤ st.pow4 * (5 / 2 * EPS eps * (45 / 32 * RD a b c)) := by
        apply mul_le_mul_of_nonneg_left _ hp4'
        apply mul_le_mul_of_nonneg_left _ (by positivity)
        linarith
      _ = 225 / 64 * EPS eps * (st.pow4 * RD a b c) := by ring
      _ ≤ 4 * EPS eps * RD x y z := by
        have : st.pow4 * RD a b c ≤ RD x y z := by rw [hR]; linarith
        have h3 : 0 ≤ st.pow4 * RD a b c := mul_nonneg hp4' hRpos
        apply mul_le_mul _ this h3 (by positivity)
        linarith

/-- C79: `elliprd` answers infinity exactly when `z = 0` or two arguments are zero, where the integral diverges. -/
theorem C79_elliprd_inf (eps : ℝ) (x y z : ℂ) (hz : z = 0 ∨ (x = 0 ∧ y = 0)) : elliprd eps x y z = .inf := by
  rw [elliprd, if_pos]
  rcases hz with h | ⟨h1, h2⟩
  · exact Or.inl h
  · right
    subst h1 h2
    simp only [isZero, if_true]
    omega

example : ∃ v : ℝ, elliprd (1 / 2 ^ 52) (0 : ℝ) (2 : ℝ) (1 : ℝ) = .val v ∧
    |v - RD 0 2 1| ≤ 4 * EPS (1 / 2 ^ 52) * RD 0 2 1 :=
  C79_elliprd (by norm_num) (by norm_num) ⟨by norm_num, by norm_num, by norm_num, by norm_num, by norm_num, by norm_num⟩
    (by norm_num)

/-! ### C80: elliprj -/

theorem dmOf_real {a b c q : ℝ} (ha : 0 ≤ a) (hb : 0 ≤ b) (hc : 0 ≤ c) (hq : 0 ≤ q) : dmOf a b c q = (dd a b c q 0 : ℝ) := by
  simp only [dmOf, csqrt_ofReal ha, csqrt_ofReal hb, csqrt_ofReal hc, csqrt_ofReal hq, dd, zero_add]
  push_cast
  ring

theorem dd_pos {a b c q : ℝ} (hq : 0 < q) : 0 < dd a b c q 0 := by
  have : 0 < √(0 + q) := Real.sqrt_pos.mpr (by linarith)
  unfold dd
  positivity

theorem em_gt {a b c q : ℝ} (ha : 0 ≤ a) (hb : 0 ≤ b) (hc : 0 ≤ c) (hq : 0 < q) :
    -1 < (q - a) * (q - b) * (q - c) / dd a b c q 0 ^ 2 := by
  have hd := dd_pos (a := a) (b := b) (c := c) hq
  have ea := Real.mul_self_sqrt ha
  have eb := Real.mul_self_sqrt hb
  have ec := Real.mul_self_sqrt hc
  have eq := Real.mul_self_sqrt hq.le
  have hs : dd a b c q 0 ^ 2 + (q - a) * (q - b) * (q - c) = dd a b c q 0 * (2 * √q * (q + lam a b c 0)) := by
    have e1 : q - a = √q * √q - √a * √a := by rw [ea, eq]
    have e2 : q - b = √q * √q - √b * √b := by rw [eb, eq]
    have e3 : q - c = √q * √q - √c * √c := by rw [ec, eq]
    rw [e1, e2, e3, show q + lam a b c 0 = √q * √q + lam a b c 0 by rw [eq]]
    unfold dd lam
    simp only [zero_add]
    ring
  have hlam : 0 ≤ lam a b c 0 := by unfold lam; positivity
  have hsq : 0 < √q := Real.sqrt_pos.mpr hq
  have : 0 < dd a b c q 0 ^ 2 + (q - a) * (q - b) * (q - c) := by rw [hs]; positivity
  rw [lt_div_iff₀ (by positivity)]
  linarith

theorem RC_pos {x y : ℝ} (hx : 0 ≤ x) (hy : 0 < y) : 0 < RC x y :=
  lt_of_lt_of_le (by positivity) (RC_lower (M := max x y) hx hy (le_max_left _ _) (le_max_right _ _))

/-- C80: for real non-negative `x, y, z`, at most one of them zero, and `p > 0` different from all of them, `elliprj` returns
`R_J(x, y, z, p)` with a relative error below `4000 eps`, at every precision `eps ≤ 2^-20`. The loop stops at
`(256 eps)^(1/6)`, which is why the bound is so much larger than for the other routines. Missing from the full claim: `p`
equal to one of the arguments, where the routine returns a NaN (`C35_elliprj_nan`). -/
theorem C80_elliprj_partial {eps : ℝ} (h0 : 0 < eps) (h1 : eps ≤ 1 / 2 ^ 20) {x y z p : ℝ} (h : Args x y z) (hp : 0 < p)
    (hpx : p ≠ x) (hpy : p ≠ y) (hpz : p ≠ z) :
    ∃ v : ℝ, elliprj eps x y z p = .val v ∧ |v - RJ x y z p| ≤ 4000 * eps * RJ x y z p := by
  obtain ⟨ε, hε0, hε4, hε6, hκ⟩ := tolerance (b := 1 / 4 * eps * 2 ^ 10) (by positivity) (by
    calc 1 / 4 * eps * 2 ^ 10 ≤ 1 / 4 * (1 / 2 ^ 20) * 2 ^ 10 := by gcongr
      _ ≤ 1 / 4096 := by norm_num)
  have hA0 : jA0 (x : ℂ) y z p = ((x + y + z + p + p) / 5 : ℝ) := by simp only [jA0]; push_cast; ring
  have hdelta : ((p : ℂ) - x) * (p - y) * (p - z) = (((p - x) * (p - y) * (p - z) : ℝ) : ℂ) := by push_cast; ring
  set δ := (p - x) * (p - y) * (p - z) with hδ
  have hδ0 : δ ≠ 0 := mul_ne_zero (mul_ne_zero (sub_ne_zero.mpr hpx) (sub_ne_zero.mpr hpy)) (sub_ne_zero.mpr hpz)
  clear_value δ
  have hstep : ∀ s : JState, (∃ a b c q σ : ℝ, s.x = a ∧ s.y = b ∧ s.z = c ∧ s.p = q ∧ s.s = σ ∧ ¬s.bad ∧ Args a b c ∧ 0 < q ∧
        0 ≤ σ ∧ 0 ≤ s.pow4 ∧ δ * (1 / 4 ^ (3 * s.m)) = (q - a) * (q - b) * (q - c) ∧
        RJ x y z p = 6 * σ + s.pow4 * RJ a b c q) →
      (∃ a b c q σ : ℝ, (jStep δ s).x = a ∧ (jStep δ s).y = b ∧ (jStep δ s).z = c ∧ (jStep δ s).p = q ∧ (jStep δ s).s = σ ∧
        ¬(jStep δ s).bad ∧ Args a b c ∧ 0 < q ∧ 0 ≤ σ ∧ 0 ≤ (jStep δ s).pow4 ∧
        δ * (1 / 4 ^ (3 * (jStep δ s).m)) = (q - a) * (q - b) * (q - c) ∧
        RJ x y z p = 6 * σ + (jStep δ s).pow4 * RJ a b c q) ∧
      ∃ a b c : ℝ, (jStep δ s).x = a ∧ (jStep δ s).y = b ∧ (jStep δ s).z = c ∧ 0 < a ∧ 0 < b ∧ 0 < c := by
    rintro s ⟨a, b, c, q, σ, e1, e2, e3, e4, e5, e6, hargs, hq, hσ, hp4, hem, hR⟩
    obtain ⟨hl, hargs'⟩ := hargs.dup
    have q1 := hargs.x0
    have q2 := hargs.y0
    have q3 := hargs.z0
    have hlm : lmOf s.x s.y s.z = (lam a b c 0 : ℝ) := by rw [e1, e2, e3, lmOf_real q1 q2 q3]
    have hdm : dmOf s.x s.y s.z s.p = (dd a b c q 0 : ℝ) := by rw [e1, e2, e3, e4, dmOf_real q1 q2 q3 hq.le]
    have hd := dd_pos (a := a) (b := b) (c := c) hq
    obtain ⟨e, he⟩ : ∃ e : ℝ, e = (q - a) * (q - b) * (q - c) / dd a b c q 0 ^ 2 := ⟨_, rfl⟩
    have he1 : -1 < e := by rw [he]; exact em_gt q1 q2 q3 hq
    have he0 : e ≠ 0 := by
      rw [he, ← hem]
      exact div_ne_zero (mul_ne_zero hδ0 (by positivity)) (by positivity)
    have hemC : (δ : ℂ) * (1 / 4 ^ (3 * s.m)) / (dmOf s.x s.y s.z s.p * dmOf s.x s.y s.z s.p) = (e : ℂ) := by
      rw [hdm, he, ← hem]
      push_cast
      ring
    have f1 : (jStep δ s).x = (((a + lam a b c 0) / 4 : ℝ) : ℂ) := by simp only [jStep]; rw [hlm, e1]; push_cast; ring
    have f2 : (jStep δ s).y = (((b + lam a b c 0) / 4 : ℝ) : ℂ) := by simp only [jStep]; rw [hlm, e2]; push_cast; ring
    have f3 : (jStep δ s).z = (((c + lam a b c 0) / 4 : ℝ) : ℂ) := by simp only [jStep]; rw [hlm, e3]; push_cast; ring
    have hRC : 0 < RC 1 (1 + e) := RC_pos (by norm_num) (by linarith)
    refine ⟨⟨_, _, _, (q + lam a b c 0) / 4, σ + RC 1 (1 + e) * s.pow4 / dd a b c q 0, f1, f2, f3, ?_, ?_, ?_, hargs',
      by positivity, by positivity, ?_, ?_, ?_⟩, _, _, _, f1, f2, f3, by linarith, by linarith, by linarith⟩
    · simp only [jStep]
      rw [hlm, e4]; push_cast; ring
    · simp only [jStep]
      rw [hemC, arctan_ratio he1 he0, e5, hdm]
      push_cast
      ring
    · simp only [jStep]
      rw [hemC, hdm, csqrt_eq_zero]
      rintro (k | k | k)
      · exact e6 k
      · exact hd.ne' (by exact_mod_cast k)
      · exact he0 (by exact_mod_cast k)
    · simp only [jStep]
      positivity
    · simp only [jStep]
      rw [show 3 * (s.m + 1) = 3 * s.m + 3 by ring, pow_add]
      have : δ * (1 / (4 ^ (3 * s.m) * 4 ^ 3)) = δ * (1 / 4 ^ (3 * s.m)) / 64 := by
        rw [← one_div_mul_one_div]
        norm_num
        ring
      rw [this, hem]
      ring
    · rw [hR, RJ_dup hargs hq, ← he]
      simp only [jStep]
      field_simp
      ring
  have hinit : (fun s : JState => ∃ a b c q σ : ℝ, s.x = a ∧ s.y = b ∧ s.z = c ∧ s.p = q ∧ s.s = σ ∧ ¬s.bad ∧ Args a b c ∧ 0 < q ∧
        0 ≤ σ ∧ 0 ≤ s.pow4 ∧ δ * (1 / 4 ^ (3 * s.m)) = (q - a) * (q - b) * (q - c) ∧
        RJ x y z p = 6 * σ + s.pow4 * RJ a b c q) ⟨x, y, z, p, jA0 x y z p, 1, 0, 0, False⟩ :=
    ⟨x, y, z, p, 0, rfl, rfl, rfl, rfl, by simp, not_false, h, hp, le_rfl, by simp, by simp [hδ], by simp⟩
  obtain ⟨n, hn⟩ : ∃ n, ((jStep δ)^[n] ⟨x, y, z, p, jA0 x y z p, 1, 0, 0, False⟩).pow4 * jQ eps x y z p <
      ‖((jStep δ)^[n] ⟨x, y, z, p, jA0 x y z p, 1, 0, 0, False⟩).A‖ := by
    obtain ⟨⟨-, -, -, q, -, -, -, -, e4, -, -, -, hq, -⟩, a, b, c, e1, e2, e3, ha, hb, hc⟩ := hstep _ hinit
    obtain ⟨μ, hμ, m1, m2, m3⟩ := min3 ha hb (lt_min hc hq)
    have m4 := m3.trans (min_le_right _ _)
    have m3 := m3.trans (min_le_left _ _)
    obtain ⟨n, hn⟩ := j_terminates hμ δ (jStep δ ⟨x, y, z, p, jA0 x y z p, 1, 0, 0, False⟩) (by rw [e1]; exact m1)
      (by rw [e2]; exact m2) (by rw [e3]; exact m3) (by
        have hm := (C34_reduced_rj x y z p δ 1).1
        simp only [Function.iterate_one] at hm
        rw [hm, e1, e2, e3, e4, show (2 : ℂ) = ((2 : ℝ) : ℂ) by norm_num, ← Complex.ofReal_mul, ← Complex.ofReal_add,
          ← Complex.ofReal_add, ← Complex.ofReal_add, show (5 : ℂ) = ((5 : ℝ) : ℂ) by norm_num, ← Complex.ofReal_div,
          Complex.ofReal_re]
        linarith) (jQ eps x y z p)
    exact ⟨n + 1, by rw [Function.iterate_succ_apply]; exact hn⟩
  obtain ⟨k, hk, hexit, _⟩ := loopWhile_spec (cond := fun s : JState => s.pow4 * jQ eps x y z p ≥ ‖s.A‖)
    (step := jStep δ) (s := ⟨x, y, z, p, jA0 x y z p, 1, 0, 0, False⟩) ⟨n, not_le.mpr hn⟩
  have hinv := iterate_inv (step := jStep δ) _ (fun s hs => (hstep s hs).1) hinit k
  obtain ⟨hA, hp4, -, hX, hY, hZ, -⟩ := C34_reduced_rj x y z p δ k
  simp only [elliprj]
  rw [if_neg (by
    rintro (k | k)
    · exact hp.ne' (by exact_mod_cast k)
    · exact zeros_le_one h k), hdelta, hk]
  simp only at hX hY hZ hexit hinv ⊢
  generalize (jStep δ)^[k] ⟨x, y, z, p, jA0 x y z p, 1, 0, 0, False⟩ = st at *
  obtain ⟨a, b, c, q, σ, ha', hb', hc', hq', hs', hbad, hargs, hq, hσ, hp4', -, hR⟩ := hinv
  rw [if_neg hbad]
  rw [ha', hb', hc', hq'] at hA
  obtain ⟨A, hAd⟩ : ∃ A : ℝ, A = (a + b + c + 2 * q) / 5 := ⟨_, rfl⟩
  have hAc : st.A = (A : ℂ) := by rw [hA, hAd]; push_cast; ring
  have hApos : 0 < A := by rw [hAd]; linarith [hargs.x0, hargs.y0, hargs.z0]
  rw [hAc, ha'] at hX
  rw [hAc, hb'] at hY
  rw [hAc, hc'] at hZ
  have exitR : st.pow4 * (1 / ε * max (max (max |(x + y + z + p + p) / 5 - x| |(x + y + z + p + p) / 5 - y|)
      |(x + y + z + p + p) / 5 - z|) |(x + y + z + p + p) / 5 - p|) ≤ A := by
    have := (not_le.mp hexit).le
    rw [hAc, Complex.norm_real, Real.norm_eq_abs, abs_of_pos hApos, jQ, hκ, hA0, norm_real_sub, norm_real_sub,
      norm_real_sub, norm_real_sub] at this
    exact this
  obtain ⟨X, hXd⟩ : ∃ X : ℝ, X = (A - a) / A := ⟨_, rfl⟩
  obtain ⟨Y, hYd⟩ : ∃ Y : ℝ, Y = (A - b) / A := ⟨_, rfl⟩
  obtain ⟨Z, hZd⟩ : ∃ Z : ℝ, Z = (A - c) / A := ⟨_, rfl⟩
  obtain ⟨P, hPd⟩ : ∃ P : ℝ, P = (A - q) / A := ⟨_, rfl⟩
  have hXr : X = ((x + y + z + p + p) / 5 - x) * st.pow4 / A := by
    rw [hA0] at hX
    rw [hXd, mul_div_assoc]
    exact_mod_cast hX.symm
  have hYr : Y = ((x + y + z + p + p) / 5 - y) * st.pow4 / A := by
    rw [hA0] at hY
    rw [hYd, mul_div_assoc]
    exact_mod_cast hY.symm
  have hZr : Z = ((x + y + z + p + p) / 5 - z) * st.pow4 / A := by
    rw [hA0] at hZ
    rw [hZd, mul_div_assoc]
    exact_mod_cast hZ.symm
  have hsum : X + Y + Z + 2 * P = 0 := by
    rw [hXd, hYd, hZd, hPd]
    field_simp
    rw [hAd]; ring
  have hPr : P = ((x + y + z + p + p) / 5 - p) * st.pow4 / A := by
    have : P = -(X + Y + Z) / 2 := by linarith
    rw [this, hXr, hYr, hZr]
    ring
  have bX : |X| ≤ ε := by
    rw [hXr]
    exact reduced_le hε0 hApos hp4' (((le_max_left _ _).trans (le_max_left _ _)).trans (le_max_left _ _)) exitR
  have bY : |Y| ≤ ε := by
    rw [hYr]
    exact reduced_le hε0 hApos hp4' (((le_max_right _ _).trans (le_max_left _ _)).trans (le_max_left _ _)) exitR
  have bZ : |Z| ≤ ε := by rw [hZr]; exact reduced_le hε0 hApos hp4' ((le_max_right _ _).trans (le_max_left _ _)) exitR
  have bP : |P| ≤ ε := by rw [hPr]; exact reduced_le hε0 hApos hp4' (le_max_right _ _) exitR
  have ha1 : a = A * (1 - X) := by rw [hXd]; field_simp; ring
  have hb1 : b = A * (1 - Y) := by rw [hYd]; field_simp; ring
  have hc1 : c = A * (1 - Z) := by rw [hZd]; field_simp; ring
  have hq1 : q = A * (1 - P) := by rw [hPd]; field_simp; ring
  have hser := RJ_series X Y Z P ε hε4 bX bY bZ bP hsum _ _ _ _ rfl rfl rfl rfl
  have hscale : RJ a b c q = RJ (1 - X) (1 - Y) (1 - Z) (1 - P) / (A * √A) := by
    rw [ha1, hb1, hc1, hq1, RJ_scale _ _ _ _ _ hApos]
  have hAs : 0 < √A := Real.sqrt_pos.mpr hApos
  set W := (1 - 3 / 14 * (X * Y + X * Z + Y * Z - 3 * P ^ 2) + (X * Y * Z + 2 * (X * Y + X * Z + Y * Z) * P - 2 * P ^ 3) / 6 +
        9 / 88 * (X * Y + X * Z + Y * Z - 3 * P ^ 2) ^ 2 - 3 / 22 * (2 * X * Y * Z * P + (X * Y + X * Z + Y * Z) * P ^ 2) -
      9 / 52 * (X * Y + X * Z + Y * Z - 3 * P ^ 2) * (X * Y * Z + 2 * (X * Y + X * Z + Y * Z) * P - 2 * P ^ 3) +
    3 / 26 * (X * Y * Z * P ^ 2)) with hW
  refine ⟨6 * σ + st.pow4 / A / √A * W, ?_, ?_⟩
  · have hX2 : (jA0 (x : ℂ) y z p - x) * (st.pow4 / st.A) = (X : ℂ) := by rw [hAc, hX, hXd]; push_cast; ring
    have hY2 : (jA0 (x : ℂ) y z p - y) * (st.pow4 / st.A) = (Y : ℂ) := by rw [hAc, hY, hYd]; push_cast; ring
    have hZ2 : (jA0 (x : ℂ) y z p - z) * (st.pow4 / st.A) = (Z : ℂ) := by rw [hAc, hZ, hZd]; push_cast; ring
    rw [hX2, hY2, hZ2, hAc, csqrt_ofReal hApos.le, hs']
    congr 1
    have hpoly : jPoly (X : ℂ) Y Z = (W : ℂ) := by
      have : X = -(Y + Z + 2 * P) := by linarith
      rw [hW, this]
      simp only [jPoly]
      push_cast
      ring
    rw [hpoly]
    push_cast
    ring
  · clear_value W
    have e1 : 6 * σ + st.pow4 / A / √A * W - RJ x y z p = -(st.pow4 * ((RJ (1 - X) (1 - Y) (1 - Z) (1 - P) - W) / (A * √A))) := by
      rw [hR, hscale]
      field_simp
      ring
    have b1 := abs_le.mp bX
    have b2 := abs_le.mp bY
    have b3 := abs_le.mp bZ
    have b4 := abs_le.mp bP
    have hlow : 1 / (A * (1 + ε) * √(A * (1 + ε))) ≤ RJ a b c q := by
      apply RJ_lower hargs hq
      · rw [ha1]; apply mul_le_mul_of_nonneg_left _ hApos.le; linarith
      · rw [hb1]; apply mul_le_mul_of_nonneg_left _ hApos.le; linarith
      · rw [hc1]; apply mul_le_mul_of_nonneg_left _ hApos.le; linarith
      · rw [hq1]; apply mul_le_mul_of_nonneg_left _ hApos.le; linarith
    have h9 := sqrt_ratio3 hApos hε0.le hε4
    have hRpos : 0 ≤ RJ a b c q := le_trans (by positivity) hlow
    have hAA : 0 < A * √A := by positivity
    rw [e1, abs_neg, abs_mul, abs_of_nonneg hp4', abs_div, abs_of_pos hAA]
    calc _ ≤ st.pow4 * (10 * ε ^ 6 / (A * √A)) := by gcongr
      _ = st.pow4 * (2560 * eps * (1 / (A * √A))) := by rw [hε6]; ring
      _ ≤ st.pow4 * (2560 * eps * (45 / 32 * RJ a b c q)) := by
        apply mul_le_mul_of_nonneg_left _ hp4'
        apply mul_le_mul_of_nonneg_left _ (by positivity)
        linarith
      _ = 3600 * eps * (st.pow4 * RJ a b c q) := by ring
      _ ≤ 4000 * eps * RJ x y z p := by
        have : st.pow4 * RJ a b c q ≤ RJ x y z p := by rw [hR]; linarith
        have h3 : 0 ≤ st.pow4 * RJ a b c q := mul_nonneg hp4' hRpos
        apply mul_le_mul _ this h3 (by positivity)
        linarith

example : ∃ v : ℝ, elliprj (1 / 2 ^ 52) (0 : ℝ) (2 : ℝ) (1 : ℝ) (3 : ℝ) = .val v ∧
    |v - RJ 0 2 1 3| ≤ 4000 * (1 / 2 ^ 52) * RJ 0 2 1 3 :=
  C80_elliprj_partial (by norm_num) (by norm_num)
    ⟨by norm_num, by norm_num, by norm_num, by norm_num, by norm_num, by norm_num⟩ (by norm_num) (by norm_num) (by norm_num)
    (by norm_num)

end Verif.Carlson

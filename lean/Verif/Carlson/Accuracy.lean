import Verif.Carlson.ClosedRC
import Verif.Carlson.Shape

/-! # Accuracy of the Carlson routines for real arguments -/

namespace Verif.Carlson

/-! ### Helpers -/

theorem lmOf_real {a b c : ℝ} (ha : 0 ≤ a) (hb : 0 ≤ b) (hc : 0 ≤ c) : lmOf a b c = (lam a b c 0 : ℝ) := by
  simp only [lmOf, csqrt_ofReal ha, csqrt_ofReal hb, csqrt_ofReal hc, lam, zero_add]
  push_cast
  ring

/-- The tolerance behind `pow(b, -1/6)`. -/
theorem tolerance {b : ℝ} (hb : 0 < b) (hb' : b ≤ 1 / 4096) :
    ∃ ε : ℝ, 0 < ε ∧ ε ≤ 1 / 4 ∧ ε ^ 6 = b ∧ b ^ (-(1 / 6) : ℝ) = 1 / ε := by
  have h6 : (b ^ (1 / 6 : ℝ)) ^ 6 = b := by
    rw [← Real.rpow_natCast, ← Real.rpow_mul hb.le]
    norm_num
  have hpos : 0 < b ^ (1 / 6 : ℝ) := Real.rpow_pos_of_pos hb _
  refine ⟨b ^ (1 / 6 : ℝ), hpos, ?_, h6, ?_⟩
  · by_contra hc
    have : (1 / 4 : ℝ) ^ 6 < (b ^ (1 / 6 : ℝ)) ^ 6 := pow_lt_pow_left₀ (not_le.mp hc) (by norm_num) (by norm_num)
    rw [h6] at this
    norm_num at this
    linarith
  · rw [Real.rpow_neg hb.le, ← one_div]

/-- From the exit condition to the reduced variable. -/
theorem reduced_le {ε A M d p4 : ℝ} (hε : 0 < ε) (hA : 0 < A) (hp : 0 ≤ p4) (hd : |d| ≤ M) (hexit : p4 * (1 / ε * M) ≤ A) :
    |d * p4 / A| ≤ ε := by
  rw [abs_div, abs_mul, abs_of_pos hA, abs_of_nonneg hp, div_le_iff₀ hA]
  have h1 : p4 * M ≤ ε * A := by
    have : p4 * (1 / ε * M) = p4 * M / ε := by ring
    rw [this, div_le_iff₀ hε] at hexit
    linarith
  calc |d| * p4 ≤ M * p4 := mul_le_mul_of_nonneg_right hd hp
    _ ≤ ε * A := by linarith

theorem sqrt_ratio {A ε : ℝ} (hA : 0 < A) (hε0 : 0 ≤ ε) (hε : ε ≤ 1 / 4) : 1 / √A ≤ 9 / 8 * (1 / √(A * (1 + ε))) := by
  have h1 : √(A * (1 + ε)) ≤ 9 / 8 * √A := by
    rw [Real.sqrt_mul hA.le, mul_comm]
    apply mul_le_mul_of_nonneg_right _ (Real.sqrt_nonneg _)
    rw [Real.sqrt_le_left (by norm_num)]
    linarith
  have hs : 0 < √A := Real.sqrt_pos.mpr hA
  have hs2 : 0 < √(A * (1 + ε)) := Real.sqrt_pos.mpr (by positivity)
  rw [mul_one_div, div_le_div_iff₀ hs hs2]
  linarith

theorem sqrt_ratio3 {A ε : ℝ} (hA : 0 < A) (hε0 : 0 ≤ ε) (hε : ε ≤ 1 / 4) :
    1 / (A * √A) ≤ 45 / 32 * (1 / (A * (1 + ε) * √(A * (1 + ε)))) := by
  have h1 := sqrt_ratio hA hε0 hε
  have hs : 0 < √A := Real.sqrt_pos.mpr hA
  have hs2 : 0 < √(A * (1 + ε)) := Real.sqrt_pos.mpr (by positivity)
  have h2 : 1 / A ≤ 5 / 4 * (1 / (A * (1 + ε))) := by
    rw [mul_one_div, div_le_div_iff₀ hA (by positivity)]
    nlinarith
  calc 1 / (A * √A) = 1 / A * (1 / √A) := by rw [one_div_mul_one_div]
    _ ≤ 5 / 4 * (1 / (A * (1 + ε))) * (9 / 8 * (1 / √(A * (1 + ε)))) := by
      apply mul_le_mul h2 h1 (by positivity) (by positivity)
    _ = _ := by
      rw [← one_div_mul_one_div (A * (1 + ε))]
      generalize 1 / √(A * (1 + ε)) = u
      generalize 1 / (A * (1 + ε)) = w
      ring

theorem norm_real_sub (a b : ℝ) : ‖((a : ℂ) - b)‖ = |a - b| := by
  rw [← Complex.ofReal_sub, Complex.norm_real, Real.norm_eq_abs]

/-! ### C81: elliprc -/

theorem rcCore_accurate {eps : ℝ} (h0 : 0 < eps) (h1 : eps ≤ 1) {x y : ℝ} (hx : 0 < x) (hy : 0 < y) :
    ∃ v : ℝ, elliprcCore eps x y = .val v ∧ |v - RC x y| ≤ EPS eps / 100 * RC x y := by
  have hE : 0 < EPS eps := by unfold EPS; positivity
  have hE1 : EPS eps ≤ 1 / 1000000 := by unfold EPS; linarith
  obtain ⟨ε, hε0, hε4, hε6, hκ⟩ := tolerance (b := 3 * EPS eps) (by positivity) (by linarith)
  have hA0 : cA0 (x : ℂ) y = ((x + y + y) / 3 : ℝ) := by simp only [cA0]; push_cast; ring
  obtain ⟨n, hn⟩ := c_terminates (lt_min hx hy) ⟨x, y, cA0 x y, 1⟩ (by simp) (by simp) (by
    rw [hA0, Complex.ofReal_re]
    have h1 := min_le_left x y
    have h2 := min_le_right x y
    linarith) (cQ eps x y)
  obtain ⟨k, hk, hexit, _⟩ := loopWhile_spec (cond := fun s : CState => s.pow4 * cQ eps x y > ‖s.A‖) (step := cStep)
    (s := ⟨x, y, cA0 x y, 1⟩) ⟨n, not_lt.mpr hn.le⟩
  have hinv := iterate_inv (step := cStep) (fun s => ∃ a b : ℝ, s.x = a ∧ s.y = b ∧ 0 < a ∧ 0 < b ∧ RC a b = RC x y) (by
    rintro s ⟨a, b, h1, h2, ha, hb, hR⟩
    have hl : (2 * csqrt s.x * csqrt s.y + s.y) = (lam a b b 0 : ℝ) := by
      rw [h1, h2, csqrt_ofReal ha.le, csqrt_ofReal hb.le]
      simp only [lam, zero_add]
      have := Real.mul_self_sqrt hb.le
      push_cast
      rw [← Complex.ofReal_mul √b √b, this]
      ring
    have hlam : 0 ≤ lam a b b 0 := by unfold lam; positivity
    refine ⟨(a + lam a b b 0) / 4, (b + lam a b b 0) / 4, ?_, ?_, by positivity, by positivity, ?_⟩
    · simp only [cStep]
      rw [hl, h1]; push_cast; ring
    · simp only [cStep]
      rw [hl, h2]; push_cast; ring
    · rw [RC_eq_RF _ _ (by positivity), RF_dup (Args.of_pair ha.le hb), ← RC_eq_RF _ _ hb.le, hR])
    (s := ⟨x, y, cA0 x y, 1⟩) ⟨x, y, rfl, rfl, hx, hy, rfl⟩ k
  obtain ⟨hA, hp4, hs, hdiff⟩ := C34_reduced_rc x y k
  rw [elliprcCore, hk]
  simp only at hs hdiff hexit ⊢
  generalize cStep^[k] ⟨x, y, cA0 x y, 1⟩ = st at *
  obtain ⟨a, b, ha', hb', ha, hb, hR⟩ := hinv
  rw [ha', hb'] at hA
  rw [hb'] at hs
  rw [ha'] at hdiff
  obtain ⟨A, hAd⟩ : ∃ A : ℝ, A = (a + 2 * b) / 3 := ⟨_, rfl⟩
  have hAc : st.A = (A : ℂ) := by rw [hA, hAd]; push_cast; ring
  have hApos : 0 < A := by rw [hAd]; positivity
  have hp4' : 0 ≤ st.pow4 := by rw [hp4]; positivity
  obtain ⟨s, hsd⟩ : ∃ s : ℝ, s = (b - A) / A := ⟨_, rfl⟩
  have has : a = A * (1 - 2 * s) := by rw [hsd]; field_simp; rw [hAd]; ring
  have hbs : b = A * (1 + s) := by rw [hsd]; field_simp; ring
  have hsb : |2 * s| ≤ ε := by
    have hd2 : ((x + y + y) / 3 - x) * st.pow4 = A - a := by
      rw [hA0, hAc] at hdiff
      exact_mod_cast hdiff
    have : 2 * s = ((x + y + y) / 3 - x) * st.pow4 / A := by
      rw [hd2, has]
      field_simp
      ring
    rw [this]
    apply reduced_le hε0 hApos hp4' le_rfl
    have := not_lt.mp hexit
    rw [hAc, Complex.norm_real, Real.norm_eq_abs, abs_of_pos hApos, cQ, hκ, hA0, norm_real_sub] at this
    exact this
  have hs8 : |s| ≤ 1 / 8 := by
    rw [abs_mul, abs_of_pos (by norm_num : (0 : ℝ) < 2)] at hsb
    linarith
  have hser := RC_series s hs8
  have hscale : RC x y = RC (1 - 2 * s) (1 + s) / √A := by
    have hs' := abs_le.mp hs8
    rw [← hR, has, hbs, RC_scale _ _ _ hApos (by linarith)]
  have hAs : 0 < √A := Real.sqrt_pos.mpr hApos
  refine ⟨(1 + 3 / 10 * s ^ 2 + s ^ 3 / 7 + 3 / 8 * s ^ 4 + 9 / 22 * s ^ 5 + 159 / 208 * s ^ 6 + 9 / 8 * s ^ 7) / √A, ?_, ?_⟩
  · rw [hs, hAc, csqrt_ofReal hApos.le]
    have : ((b : ℂ) - A) / A = (s : ℂ) := by rw [hsd]; push_cast; ring
    rw [this]
    congr 1
    simp only [cPoly]
    push_cast
    ring
  · rw [abs_sub_comm, hscale, ← sub_div, abs_div, abs_of_pos hAs, ← hscale]
    have hlow : 1 / √(A * (1 + ε)) ≤ RC x y := by
      rw [← hR]
      have h2 := abs_le.mp hsb
      apply RC_lower ha.le hb
      · rw [has]; apply mul_le_mul_of_nonneg_left _ hApos.le; linarith
      · rw [hbs]; apply mul_le_mul_of_nonneg_left _ hApos.le; linarith
    have h9 := sqrt_ratio hApos hε0.le hε4
    have hs8' : s ^ 8 ≤ ε ^ 8 / 256 := by
      have : (2 * s) ^ 8 ≤ ε ^ 8 := by
        rw [← abs_of_nonneg (show 0 ≤ (2 * s) ^ 8 by positivity), abs_pow]
        gcongr
      have e : (2 * s) ^ 8 = 256 * s ^ 8 := by ring
      linarith
    have hε8 : ε ^ 8 ≤ 1 / 16 * (3 * EPS eps) := by
      have : ε ^ 8 = ε ^ 2 * ε ^ 6 := by ring
      rw [this, hε6]
      apply mul_le_mul_of_nonneg_right _ (by positivity)
      nlinarith
    have hRpos : 0 ≤ RC x y := le_trans (by positivity) hlow
    calc _ ≤ 8 * s ^ 8 / √A := by gcongr
      _ = 8 * s ^ 8 * (1 / √A) := by ring
      _ ≤ (EPS eps / 160) * (9 / 8 * RC x y) := by
        apply mul_le_mul _ _ (by positivity) (by positivity)
        · linarith
        · linarith
      _ ≤ _ := by nlinarith [mul_nonneg hE.le hRpos]

/-- C81: for real `x ≥ 0`, `y > 0` the routine returns `R_C(x, y)` with a relative error below `EPS = 10^-6 eps`. -/
theorem C81_elliprc {eps : ℝ} (h0 : 0 < eps) (h1 : eps ≤ 1) {x y : ℝ} (hx : 0 ≤ x) (hy : 0 < y) :
    ∃ v : ℝ, elliprc eps x y = .val v ∧ |v - RC x y| ≤ EPS eps * RC x y := by
  have hE : 0 < EPS eps := by unfold EPS; positivity
  rw [elliprc, if_neg (by exact_mod_cast hy.ne')]
  rcases eq_or_lt_of_le hx with hx | hx
  · subst hx
    rw [if_pos (by norm_num)]
    refine ⟨Real.pi / 2 / √y, ?_, ?_⟩
    · rw [csqrt_ofReal hy.le]; push_cast; rfl
    · rw [RC_zero hy, sub_self, abs_zero]
      have := Real.pi_pos
      positivity
  · rw [if_neg (by exact_mod_cast hx.ne'), if_neg (by rw [Complex.ofReal_re]; exact fun h => absurd h.2 (not_lt.mpr hy.le))]
    obtain ⟨v, hv, hb⟩ := rcCore_accurate h0 h1 hx hy
    refine ⟨v, hv, hb.trans ?_⟩
    have hR : 0 ≤ RC x y := le_trans (by positivity) (RC_lower (M := max x y) hx.le hy (le_max_left _ _) (le_max_right _ _))
    apply mul_le_mul_of_nonneg_right _ hR
    linarith

/-- C81, negative `y`: the routine returns `√(x/(x-y)) R_C(x-y, -y)`, the Cauchy principal value (DLMF 19.2.20), with the same
accuracy. -/
theorem C81_elliprc_pv {eps : ℝ} (h0 : 0 < eps) (h1 : eps ≤ 1) {x y : ℝ} (hx : 0 < x) (hy : y < 0) :
    ∃ v : ℝ, elliprc eps x y = .val v ∧
      |v - √(x / (x - y)) * RC (x - y) (-y)| ≤ EPS eps * (√(x / (x - y)) * RC (x - y) (-y)) := by
  have hE : 0 < EPS eps := by unfold EPS; positivity
  obtain ⟨v, hv, hb⟩ := rcCore_accurate h0 h1 (show 0 < x - y by linarith) (show 0 < -y by linarith)
  refine ⟨√(x / (x - y)) * v, ?_, ?_⟩
  · rw [elliprc, if_neg (by exact_mod_cast hy.ne), if_neg (by exact_mod_cast hx.ne'),
      if_pos ⟨Complex.ofReal_im _, by rw [Complex.ofReal_re]; exact hy⟩, if_neg]
    · rw [← Complex.ofReal_sub, ← Complex.ofReal_neg, hv, ← Complex.ofReal_div,
        csqrt_ofReal (div_nonneg hx.le (by linarith))]
      simp [Out.map, Out.bind]
    · rw [← Complex.ofReal_sub]
      exact_mod_cast (show 0 < x - y by linarith).ne'
  · rw [← mul_sub, abs_mul, abs_of_nonneg (Real.sqrt_nonneg _)]
    have hR : 0 ≤ RC (x - y) (-y) := le_trans (by positivity)
      (RC_lower (M := max (x - y) (-y)) (by linarith) (by linarith) (le_max_left _ _) (le_max_right _ _))
    calc _ ≤ √(x / (x - y)) * (EPS eps / 100 * RC (x - y) (-y)) := by gcongr
      _ ≤ √(x / (x - y)) * (EPS eps * RC (x - y) (-y)) := by gcongr; linarith
      _ = _ := by ring

/-- The specification is the elementary function it should be (DLMF 19.2.18, 19.2.19). -/
theorem C81_closed_form {x y : ℝ} (hx : 0 < x) (hy : 0 < y) :
    RC x y = if x < y then Real.arctan √((y - x) / x) / √(y - x)
      else if x = y then 1 / √x
      else Real.log ((√x + √(x - y)) / (√x - √(x - y))) / (2 * √(x - y)) := by
  have hyx : 0 < y / x := by positivity
  have e : RC x y = RC 1 (y / x) / √x := by
    rw [← RC_scale x 1 (y / x) hx hyx.le, mul_one, mul_div_cancel₀ _ hx.ne']
  have hsx : 0 < √x := Real.sqrt_pos.mpr hx
  rw [e]
  split_ifs with h h'
  · have h1 : 0 < (y - x) / x := div_pos (by linarith) hx
    rw [show y / x = 1 + (y - x) / x by field_simp; ring, RC_arctan h1, div_div, ← Real.sqrt_mul h1.le,
      div_mul_cancel₀ _ hx.ne']
  · subst h'
    rw [div_self hx.ne']
    congr 1
    have := RC_series 0 (by norm_num)
    norm_num at this
    linarith
  · have hlt : y < x := lt_of_le_of_ne (not_lt.mp h) (Ne.symm h')
    have hq : 0 < (x - y) / x := div_pos (by linarith) hx
    have hs0 : 0 < √((x - y) / x) := Real.sqrt_pos.mpr hq
    have hs1 : √((x - y) / x) < 1 := by
      rw [Real.sqrt_lt' (by norm_num), div_lt_iff₀ hx]
      linarith
    rw [show y / x = 1 - √((x - y) / x) ^ 2 by rw [Real.sq_sqrt hq.le]; field_simp; ring, RC_log hs0 hs1,
      Real.sqrt_div (by linarith)]
    have hd : 0 < √(x - y) := Real.sqrt_pos.mpr (by linarith)
    rw [Real.sqrt_div (by linarith), div_lt_one hsx] at hs1
    have e2 : (1 + √(x - y) / √x) / (1 - √(x - y) / √x) = (√x + √(x - y)) / (√x - √(x - y)) := by
      have : √x - √(x - y) ≠ 0 := by linarith
      have : 1 - √(x - y) / √x ≠ 0 := by
        rw [sub_ne_zero]
        exact fun h => by rw [eq_comm, div_eq_one_iff_eq hsx.ne'] at h; linarith
      field_simp
    rw [e2]
    field_simp

/-! ### C32: elliprf -/

theorem isNonneg_args {x y z : ℝ} (h : Args x y z) : 0 < x + y + z := by linarith [h.xy, h.z0]

theorem rfCore_accurate {eps : ℝ} (h0 : 0 < eps) (h1 : eps ≤ 1) {x y z : ℝ} (h : Args x y z) :
    ∃ v : ℝ, elliprfCore eps x y z = .val v ∧ |v - RF x y z| ≤ 2 * EPS eps * RF x y z := by
  have hE : 0 < EPS eps := by unfold EPS; positivity
  have hE1 : EPS eps ≤ 1 / 1000000 := by unfold EPS; linarith
  obtain ⟨ε, hε0, hε4, hε6, hκ⟩ := tolerance (b := EPS eps * 3) (by positivity) (by linarith)
  have hA0 : fA0 (x : ℂ) y z = ((x + y + z) / 3 : ℝ) := by simp only [fA0]; push_cast; ring
  have hstep : ∀ s : FState, (∃ a b c : ℝ, s.x = a ∧ s.y = b ∧ s.z = c ∧ Args a b c ∧ RF a b c = RF x y z) →
      ∃ a b c : ℝ, (fStep s).x = a ∧ (fStep s).y = b ∧ (fStep s).z = c ∧ (0 < a ∧ 0 < b ∧ 0 < c) ∧ Args a b c ∧
        RF a b c = RF x y z := by
    rintro s ⟨a, b, c, h1, h2, h3, hargs, hR⟩
    obtain ⟨hl, hargs'⟩ := hargs.dup
    have := hargs.x0
    have := hargs.y0
    have := hargs.z0
    refine ⟨_, _, _, ?_, ?_, ?_, ⟨?_, ?_, ?_⟩, hargs', by rw [RF_dup hargs, hR]⟩
    · simp only [fStep]
      rw [h1, h2, h3, lmOf_real hargs.x0 hargs.y0 hargs.z0]; push_cast; ring
    · simp only [fStep]
      rw [h1, h2, h3, lmOf_real hargs.x0 hargs.y0 hargs.z0]; push_cast; ring
    · simp only [fStep]
      rw [h1, h2, h3, lmOf_real hargs.x0 hargs.y0 hargs.z0]; push_cast; ring
    · linarith
    · linarith
    · linarith
  have hinit : ∃ a b c : ℝ, (⟨x, y, z, fA0 x y z, 1⟩ : FState).x = a ∧ (⟨x, y, z, fA0 x y z, 1⟩ : FState).y = b ∧
      (⟨x, y, z, fA0 x y z, 1⟩ : FState).z = c ∧ Args a b c ∧ RF a b c = RF x y z := ⟨x, y, z, rfl, rfl, rfl, h, rfl⟩
  obtain ⟨n, hn⟩ : ∃ n, (fStep^[n] ⟨x, y, z, fA0 x y z, 1⟩).pow4 * hQ eps 3 (fA0 x y z) x y z <
      ‖(fStep^[n] ⟨x, y, z, fA0 x y z, 1⟩).A‖ := by
    obtain ⟨a, b, c, e1, e2, e3, ⟨ha, hb, hc⟩, -, -⟩ := hstep _ hinit
    obtain ⟨μ, hμ, m1, m2, m3⟩ := min3 ha hb hc
    obtain ⟨n, hn⟩ := f_terminates hμ (fStep ⟨x, y, z, fA0 x y z, 1⟩) (by rw [e1]; exact m1) (by rw [e2]; exact m2)
      (by rw [e3]; exact m3) (by
        have hm := (C34_reduced_rf x y z 1).1
        simp only [Function.iterate_one] at hm
        rw [hm, e1, e2, e3, ← Complex.ofReal_add, ← Complex.ofReal_add, show (3 : ℂ) = ((3 : ℝ) : ℂ) by norm_num,
          ← Complex.ofReal_div, Complex.ofReal_re]
        linarith) (hQ eps 3 (fA0 x y z) x y z)
    exact ⟨n + 1, by rw [Function.iterate_succ_apply]; exact hn⟩
  obtain ⟨k, hk, hexit, _⟩ := loopWhile_spec (cond := fun s : FState => s.pow4 * hQ eps 3 (fA0 x y z) x y z > ‖s.A‖)
    (step := fStep) (s := ⟨x, y, z, fA0 x y z, 1⟩) ⟨n, not_lt.mpr hn.le⟩
  have hinv := iterate_inv (step := fStep)
    (fun s => ∃ a b c : ℝ, s.x = a ∧ s.y = b ∧ s.z = c ∧ Args a b c ∧ RF a b c = RF x y z)
    (fun s hs => by
      obtain ⟨a, b, c, e1, e2, e3, -, e4, e5⟩ := hstep s hs
      exact ⟨a, b, c, e1, e2, e3, e4, e5⟩) hinit k
  obtain ⟨hA, hp4, hX, hY, hZ⟩ := C34_reduced_rf x y z k
  simp only [elliprfCore]
  rw [hk]
  simp only at hX hY hZ hexit ⊢
  generalize fStep^[k] ⟨x, y, z, fA0 x y z, 1⟩ = st at *
  obtain ⟨a, b, c, ha', hb', hc', hargs, hR⟩ := hinv
  rw [ha', hb', hc'] at hA
  obtain ⟨A, hAd⟩ : ∃ A : ℝ, A = (a + b + c) / 3 := ⟨_, rfl⟩
  have hAc : st.A = (A : ℂ) := by rw [hA, hAd]; push_cast; ring
  have hApos : 0 < A := by rw [hAd]; linarith [isNonneg_args hargs]
  have hp4' : 0 ≤ st.pow4 := by rw [hp4]; positivity
  rw [hAc, ha'] at hX
  rw [hAc, hb'] at hY
  have exitR : st.pow4 * (1 / ε * max (max |(x + y + z) / 3 - x| |(x + y + z) / 3 - y|) |(x + y + z) / 3 - z|) ≤ A := by
    have := not_lt.mp hexit
    rw [hAc, Complex.norm_real, Real.norm_eq_abs, abs_of_pos hApos, hQ, hκ, hA0, norm_real_sub, norm_real_sub,
      norm_real_sub] at this
    exact this
  obtain ⟨X, hXd⟩ : ∃ X : ℝ, X = (A - a) / A := ⟨_, rfl⟩
  obtain ⟨Y, hYd⟩ : ∃ Y : ℝ, Y = (A - b) / A := ⟨_, rfl⟩
  obtain ⟨Z, hZd⟩ : ∃ Z : ℝ, Z = (A - c) / A := ⟨_, rfl⟩
  have hXr : X = ((x + y + z) / 3 - x) * st.pow4 / A := by
    rw [hA0] at hX
    rw [hXd, mul_div_assoc]
    exact_mod_cast hX.symm
  have hYr : Y = ((x + y + z) / 3 - y) * st.pow4 / A := by
    rw [hA0] at hY
    rw [hYd, mul_div_assoc]
    exact_mod_cast hY.symm
  have hsum : X + Y + Z = 0 := by
    rw [hXd, hYd, hZd]
    field_simp
    rw [hAd]; ring
  have hZr : Z = ((x + y + z) / 3 - z) * st.pow4 / A := by
    have : Z = -(X + Y) := by linarith
    rw [this, hXr, hYr]
    ring
  have bX : |X| ≤ ε := by rw [hXr]; exact reduced_le hε0 hApos hp4' ((le_max_left _ _).trans (le_max_left _ _)) exitR
  have bY : |Y| ≤ ε := by rw [hYr]; exact reduced_le hε0 hApos hp4' ((le_max_right _ _).trans (le_max_left _ _)) exitR
  have bZ : |Z| ≤ ε := by rw [hZr]; exact reduced_le hε0 hApos hp4' (le_max_right _ _) exitR
  have ha1 : a = A * (1 - X) := by rw [hXd]; field_simp; ring
  have hb1 : b = A * (1 - Y) := by rw [hYd]; field_simp; ring
  have hc1 : c = A * (1 - Z) := by rw [hZd]; field_simp; ring
  have hser := RF_series X Y Z ε hε4 bX bY bZ hsum
  have hscale : RF x y z = RF (1 - X) (1 - Y) (1 - Z) / √A := by
    rw [← hR, ha1, hb1, hc1, RF_scale _ _ _ _ hApos]
  have hAs : 0 < √A := Real.sqrt_pos.mpr hApos
  refine ⟨(1 - (X * Y + X * Z + Y * Z) / 10 + (X * Y + X * Z + Y * Z) ^ 2 / 24 + X * Y * Z / 14 -
        (X * Y + X * Z + Y * Z) * (X * Y * Z) * (3 / 44)) / √A, ?_, ?_⟩
  · have hX2 : (fA0 (x : ℂ) y z - x) * (st.pow4 / st.A) = (X : ℂ) := by rw [hAc, hX, hXd]; push_cast; ring
    have hY2 : (fA0 (x : ℂ) y z - y) * (st.pow4 / st.A) = (Y : ℂ) := by rw [hAc, hY, hYd]; push_cast; ring
    rw [hX2, hY2, hAc, csqrt_ofReal hApos.le]
    congr 1
    have : Z = -(X + Y) := by linarith
    rw [this]
    simp only [fPoly]
    push_cast
    ring
  · rw [abs_sub_comm, hscale, ← sub_div, abs_div, abs_of_pos hAs, ← hscale]
    have b1 := abs_le.mp bX
    have b2 := abs_le.mp bY
    have b3 := abs_le.mp bZ
    have hlow : 1 / √(A * (1 + ε)) ≤ RF x y z := by
      rw [← hR]
      apply RF_lower hargs
      · rw [ha1]; apply mul_le_mul_of_nonneg_left _ hApos.le; linarith
      · rw [hb1]; apply mul_le_mul_of_nonneg_left _ hApos.le; linarith
      · rw [hc1]; apply mul_le_mul_of_nonneg_left _ hApos.le; linarith
      · positivity
    have h9 := sqrt_ratio hApos hε0.le hε4
    have hRpos : 0 ≤ RF x y z := le_trans (by positivity) hlow
    calc _ ≤ ε ^ 6 / 2 / √A := by gcongr
      _ = EPS eps * 3 / 2 * (1 / √A) := by rw [hε6]; ring
      _ ≤ EPS eps * 3 / 2 * (9 / 8 * RF x y z) := by
        apply mul_le_mul_of_nonneg_left _ (by positivity)
        linarith
      _ ≤ _ := by nlinarith [mul_nonneg hE.le hRpos]

/-- `R_F` is symmetric. -/
theorem RF_swap12 (x y z : ℝ) : RF y x z = RF x y z := by
  unfold RF
  congr 2
  funext t
  rw [mul_comm √(t + y)]

theorem RF_swap23 (x y z : ℝ) : RF x z y = RF x y z := by
  unfold RF
  congr 2
  funext t
  rw [mul_assoc, mul_assoc, mul_comm √(t + z)]

/-- C32: for real non-negative arguments, at most one of them zero, `elliprf` returns `R_F(x, y, z)` with a relative error below
`2 EPS = 2·10^-6 eps`. -/
theorem C32_elliprf {eps : ℝ} (h0 : 0 < eps) (h1 : eps ≤ 1) {x y z : ℝ} (h : Args x y z) :
    ∃ v : ℝ, elliprf eps x y z = .val v ∧ |v - RF x y z| ≤ 2 * EPS eps * RF x y z := by
  have hE : 0 < EPS eps := by unfold EPS; positivity
  have key : ∀ {a b : ℝ}, 0 ≤ a → 0 < b →
      ∃ v : ℝ, elliprc eps a b = .val v ∧ |v - RF a b b| ≤ 2 * EPS eps * RF a b b := by
    intro a b ha hb
    obtain ⟨v, hv, hb'⟩ := C81_elliprc h0 h1 ha hb
    refine ⟨v, hv, ?_⟩
    rw [← RC_eq_RF _ _ hb.le]
    have hR : 0 ≤ RC a b := le_trans (by positivity) (RC_lower (M := max a b) ha hb (le_max_left _ _) (le_max_right _ _))
    have := mul_nonneg hE.le hR
    linarith
  rw [elliprf]
  simp only [Complex.ofReal_inj]
  split_ifs with e1 e2 e3
  · subst e1
    exact key h.x0 (by linarith [h.yz])
  · subst e2
    rw [RF_swap12 y x x]
    exact key h.y0 (by linarith [h.xz])
  · subst e3
    obtain ⟨v, hv, hb⟩ := key (a := z) (b := x) h.z0 (by linarith [h.xy])
    refine ⟨v, hv, ?_⟩
    rw [← RF_swap23 x x z, RF_swap12 z x x]
    exact hb
  · exact rfCore_accurate h0 h1 h

/-- C32, two zero arguments: `R_F` is infinite and the routine says so. -/
theorem C32_elliprf_inf (eps : ℝ) (x : ℂ) : elliprf eps x 0 0 = .inf ∧ elliprf eps 0 x 0 = .inf ∧ elliprf eps 0 0 x = .inf := by
  have h : ∀ a : ℂ, elliprc eps a 0 = .inf := fun a => by rw [elliprc, if_pos rfl]
  have h2 : elliprf eps 0 x 0 = .inf := by
    rw [elliprf]
    by_cases e : x = 0
    · subst e
      rw [if_pos rfl, h]
    · rw [if_neg e, if_pos rfl, h]
  refine ⟨by rw [elliprf, if_pos rfl, h], h2, ?_⟩
  rw [(C33_symmetric_rf eps 0 x 0).2, h2]

example : ∃ v : ℝ, elliprf (1 / 2 ^ 52) (0 : ℝ) (2 : ℝ) (1 : ℝ) = .val v ∧
    |v - RF 0 2 1| ≤ 2 * EPS (1 / 2 ^ 52) * RF 0 2 1 :=
  C32_elliprf (by norm_num) (by norm_num) ⟨by norm_num, by norm_num, by norm_num, by norm_num, by norm_num, by norm_num⟩

/-- `C81_elliprc`, `C81_elliprc_pv`, `C81_closed_form`. -/
example := C81_elliprc (eps := 1 / 2 ^ 52) (by norm_num) (by norm_num) (x := 0) (y := 2) le_rfl (by norm_num)
example := C81_elliprc_pv (eps := 1 / 2 ^ 52) (by norm_num) (by norm_num) (x := 1) (y := -2) (by norm_num) (by norm_num)
example := C81_closed_form (x := 3) (y := 2) (by norm_num) (by norm_num)

end Verif.Carlson

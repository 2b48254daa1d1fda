import Verif.Ellred.CodeAbs
import Verif.Ellred.ComplexJRun

/-! # The lookback time with the code's own `elliprc` and `elliprj` (C151) -/

namespace Verif.Ellred

open MeasureTheory Set Filter Topology Verif.Carlson Verif.Cosmo

/-- `LambdaCDM._ellipr_lookback_time_dimless` (analytic.py:115-122) with the routines `elliprc` and `elliprj` of the extension
(elliprc.h, elliprj.h). `none` stands for a value that is not a number. -/
noncomputable def codeLookback3 (eps L : ℝ) (r1 r2 r3 : ℂ) (z : ℝ) : Option ℝ :=
  let u := params3 r1 r2 r3 0 z
  let p := (r1 + 1) * z ^ 2 + u.1
  match elliprc eps ((Xr r1 0 * Xr r2 0 * Xr r3 0 * (z + 1) + Xr r1 z * Xr r2 z * Xr r3 z) ^ 2) ((z + 1) * p), elliprj eps u.1 u.2.1 u.2.2 p with
  | .val f, .val g => some (2 * z * fixDimless L (f + z ^ 2 / 3 * g))
  | _, _ => none

theorem RJc_ofReal {a b c q : ℝ} (ha : 0 ≤ a) (hb : 0 ≤ b) (hc : 0 ≤ c) : RJc a b c q = (RJ a b c q : ℝ) := by
  rw [RJc, RJ]
  push_cast
  rw [← integral_complex_ofReal]
  congr 1
  apply setIntegral_congr_fun measurableSet_Ioi
  intro s hs
  have hs : 0 < s := hs
  simp only
  rw [← Complex.ofReal_add, ← Complex.ofReal_add, ← Complex.ofReal_add, ← Complex.ofReal_add, csqrt_ofReal (by linarith), csqrt_ofReal (by linarith), csqrt_ofReal (by linarith)]
  push_cast
  rfl

/-- `elliprj` computes the integral, a non-negative number, within the relative error `5000 eps`. -/
def JAcc (eps : ℝ) (u v w p : ℂ) : Prop :=
  ∃ R : ℝ, 0 ≤ R ∧ RJc u v w p = R ∧ ∃ e, elliprj eps u v w p = .val e ∧ ‖e - R‖ ≤ 5000 * eps * R

theorem JAcc.swap12 {eps : ℝ} {u v w p : ℂ} (h : JAcc eps u v w p) : JAcc eps v u w p := by
  rw [JAcc, (C33_symmetric_rj eps u v w p).1, RJc_swap12]
  exact h

theorem JAcc.swap23 {eps : ℝ} {u v w p : ℂ} (h : JAcc eps u v w p) : JAcc eps u w v p := by
  rw [JAcc, (C33_symmetric_rj eps u v w p).2, RJc_swap23]
  exact h

theorem JAcc_real {eps : ℝ} (h0 : 0 < eps) (h1 : eps ≤ 1 / 2 ^ 20) {a b c q : ℝ} (ha : 0 < a) (hb : 0 < b) (hc : 0 < c) (hq : 0 < q)
    (na : (q : ℂ) ≠ a) (nb : (q : ℂ) ≠ b) (nc : (q : ℂ) ≠ c) : JAcc eps a b c q := by
  have hA : Args a b c := ⟨ha.le, hb.le, hc.le, by linarith, by linarith, by linarith⟩
  obtain ⟨v, hv, he⟩ := C80_elliprj_partial h0 h1 hA hq (by exact_mod_cast na) (by exact_mod_cast nb) (by exact_mod_cast nc)
  have hR : 0 ≤ RJ a b c q := by
    have := (abs_nonneg _).trans he
    exact nonneg_of_mul_nonneg_right this (by positivity)
  refine ⟨RJ a b c q, hR, RJc_ofReal ha.le hb.le hc.le, v, hv, ?_⟩
  rw [← Complex.ofReal_sub, Complex.norm_real, Real.norm_eq_abs]
  refine he.trans ?_
  gcongr
  norm_num

theorem JAcc_conj {eps : ℝ} (h0 : 0 < eps) (h1 : eps ≤ 1 / 2 ^ 20) {a q : ℝ} {y : ℂ} (ha : 0 < a) (hq : 0 < q) (hy : y ∈ Complex.slitPlane)
    (na : (q : ℂ) ≠ a) (nb : (q : ℂ) ≠ y) : JAcc eps a y ((starRingEnd ℂ) y) q := by
  obtain ⟨v, hv, he⟩ := C150_elliprj_conj h0 h1 ha hq hy (by exact_mod_cast na) nb
  obtain ⟨R, hR, hl⟩ := RJ_lower_conj (M := max (max a ‖y‖) q) ha hq hy ((le_max_left _ _).trans (le_max_left _ _)) ((le_max_right _ _).trans (le_max_left _ _)) (le_max_right _ _)
  have hR0 : 0 ≤ R := le_trans (by have : 0 < max (max a ‖y‖) q := lt_max_of_lt_right hq; positivity) hl
  refine ⟨R, hR0, hR, v, hv, ?_⟩
  rw [hR, Complex.norm_real, Real.norm_of_nonneg hR0] at he
  exact he

theorem Xr_real {r : ℂ} {t : ℝ} (hr : r.im = 0) (ht : r.re < t) : Xr r t = (√(t - r.re) : ℝ) := by
  rw [Xr, ← CubicOK.re_eq hr, ← Complex.ofReal_sub, csqrt_ofReal (by simpa using (sub_pos.mpr ht).le)]
  simp

theorem Xr_conj {r : ℂ} {t : ℝ} (hr : r.im ≠ 0) : Xr ((starRingEnd ℂ) r) t = (starRingEnd ℂ) (Xr r t) := by
  rw [Xr, Xr, ← csqrt_conj' (Or.inr (by simpa using hr))]
  simp

theorem CubicOK.jacc_real {eps : ℝ} (h0 : 0 < eps) (h1 : eps ≤ 1 / 2 ^ 20) {z b c d P : ℝ} {r1 r2 r3 : ℂ} (h : CubicOK (min 0 z) r1 r2 r3 b c d) (hr : r1.im = 0) (hP : 0 < P)
    (n1 : (P : ℂ) ≠ (params3 r1 r2 r3 0 z).1) (n2 : (P : ℂ) ≠ (params3 r1 r2 r3 0 z).2.1) (n3 : (P : ℂ) ≠ (params3 r1 r2 r3 0 z).2.2) :
    JAcc eps (params3 r1 r2 r3 0 z).1 (params3 r1 r2 r3 0 z).2.1 (params3 r1 r2 r3 0 z).2.2 P := by
  obtain ⟨s1, s2, s3⟩ := h.params_slit (min_le_left 0 z) (min_le_right 0 z)
  have l0 : ∀ {r : ℂ}, r.re < min 0 z → 0 < √(0 - r.re) ∧ 0 < √(z - r.re) := fun {r} hl =>
    ⟨Real.sqrt_pos.mpr (by linarith [min_le_left 0 z]), Real.sqrt_pos.mpr (by linarith [min_le_right 0 z])⟩
  have e0 : ∀ {r : ℂ}, r.im = 0 → r.re < min 0 z → Xr r 0 = (√(0 - r.re) : ℝ) ∧ Xr r z = (√(z - r.re) : ℝ) := fun {r} hi hl =>
    ⟨Xr_real hi (hl.trans_le (min_le_left _ _)), Xr_real hi (hl.trans_le (min_le_right _ _))⟩
  obtain ⟨a1, a2⟩ := e0 hr (h.lt hr)
  obtain ⟨p1, p2⟩ := l0 (h.lt hr)
  by_cases h2 : r2.im = 0
  · have h3 : r3.im = 0 := by
      by_contra h3
      rcases h.swap23.swap12.pair h3 with ⟨e, -⟩ | ⟨e, -⟩
      · have := congrArg Complex.im e
        rw [hr, Complex.conj_im] at this
        exact absurd (by linarith) h3
      · have := congrArg Complex.im e
        rw [h2, Complex.conj_im] at this
        exact absurd (by linarith) h3
    obtain ⟨b1, b2⟩ := e0 h2 (h.swap12.lt h2)
    obtain ⟨q1, q2⟩ := l0 (h.swap12.lt h2)
    obtain ⟨c1, c2⟩ := e0 h3 (h.swap23.swap12.lt h3)
    obtain ⟨t1, t2⟩ := l0 (h.swap23.swap12.lt h3)
    simp only [params3, a1, a2, b1, b2, c1, c2] at n1 n2 n3 ⊢
    have := JAcc_real h0 h1 (a := (√(0 - r1.re) * √(z - r2.re) * √(z - r3.re) + √(z - r1.re) * √(0 - r2.re) * √(0 - r3.re)) ^ 2)
      (b := (√(0 - r1.re) * √(z - r2.re) * √(0 - r3.re) + √(z - r1.re) * √(0 - r2.re) * √(z - r3.re)) ^ 2)
      (c := (√(0 - r1.re) * √(0 - r2.re) * √(z - r3.re) + √(z - r1.re) * √(z - r2.re) * √(0 - r3.re)) ^ 2) (by positivity) (by positivity) (by positivity) hP
      (by push_cast; push_cast at n1; exact n1) (by push_cast; push_cast at n2; exact n2) (by push_cast; push_cast at n3; exact n3)
    push_cast at this ⊢
    exact this
  · rcases h.swap12.pair h2 with ⟨e, -⟩ | ⟨e, -⟩
    · have := congrArg Complex.im e
      rw [hr, Complex.conj_im] at this
      exact absurd (by linarith) h2
    · have ec : (params3 r1 r2 r3 0 z).2.2 = (starRingEnd ℂ) (params3 r1 r2 r3 0 z).2.1 := by
        simp only [params3, e, Xr_conj h2, a1, a2, map_pow, map_add, map_mul, Complex.conj_conj, Complex.conj_ofReal]
        ring
      have ea : (params3 r1 r2 r3 0 z).1 = (((√(0 - r1.re) * Complex.normSq (Xr r2 z) + √(z - r1.re) * Complex.normSq (Xr r2 0)) ^ 2 : ℝ) : ℂ) := by
        simp only [params3, e, Xr_conj h2, a1, a2]
        push_cast
        rw [← Complex.mul_conj, ← Complex.mul_conj]
        ring
      have hX : Xr r2 z ≠ 0 := csqrt_ne0 fun e => h2 (by have := congrArg Complex.im e; simpa using this)
      rw [ec, ea]
      rw [ea] at n1
      have := Complex.normSq_pos.mpr hX
      have := Complex.normSq_nonneg (Xr r2 0)
      exact JAcc_conj h0 h1 (by positivity) hP s2 n1 n2

theorem params3_swap12 (r1 r2 r3 : ℂ) (z1 z2 : ℝ) : params3 r2 r1 r3 z1 z2 = ((params3 r1 r2 r3 z1 z2).2.1, (params3 r1 r2 r3 z1 z2).1, (params3 r1 r2 r3 z1 z2).2.2) := by
  simp only [params3, Prod.mk.injEq]
  exact ⟨by ring, by ring, by ring⟩

theorem params3_swap23 (r1 r2 r3 : ℂ) (z1 z2 : ℝ) : params3 r1 r3 r2 z1 z2 = ((params3 r1 r2 r3 z1 z2).1, (params3 r1 r2 r3 z1 z2).2.2, (params3 r1 r2 r3 z1 z2).2.1) := by
  simp only [params3, Prod.mk.injEq]
  exact ⟨by ring, by ring, by ring⟩

theorem CubicOK.jacc {eps : ℝ} (h0 : 0 < eps) (h1 : eps ≤ 1 / 2 ^ 20) {z b c d P : ℝ} {r1 r2 r3 : ℂ} (h : CubicOK (min 0 z) r1 r2 r3 b c d) (hP : 0 < P)
    (n1 : (P : ℂ) ≠ (params3 r1 r2 r3 0 z).1) (n2 : (P : ℂ) ≠ (params3 r1 r2 r3 0 z).2.1) (n3 : (P : ℂ) ≠ (params3 r1 r2 r3 0 z).2.2) :
    JAcc eps (params3 r1 r2 r3 0 z).1 (params3 r1 r2 r3 0 z).2.1 (params3 r1 r2 r3 0 z).2.2 P := by
  by_cases hr : r1.im = 0
  · exact h.jacc_real h0 h1 hr hP n1 n2 n3
  · rcases h.pair hr with ⟨-, h3⟩ | ⟨-, h2⟩
    · have := h.swap23.swap12.jacc_real h0 h1 (P := P) h3 hP
      rw [params3_swap12, params3_swap23] at this
      exact (this n3 n1 n2).swap12.swap23
    · have := h.swap12.jacc_real h0 h1 (P := P) h2 hP
      rw [params3_swap12] at this
      exact (this n2 n1 n3).swap12

/-- `p` equals one of the arguments only if a root is -1. -/
theorem look_p (r1 r2 r3 : ℂ) (z : ℝ) : let u := params3 r1 r2 r3 0 z
    (r1 + 1) * z ^ 2 + u.1 - u.1 = (r1 + 1) * z ^ 2 ∧ (r1 + 1) * z ^ 2 + u.1 - u.2.1 = (r2 + 1) * z ^ 2 ∧ (r1 + 1) * z ^ 2 + u.1 - u.2.2 = (r3 + 1) * z ^ 2 := by
  obtain ⟨e1, e2⟩ := params3_sub r1 r2 r3 z
  simp only at e1 e2 ⊢
  exact ⟨by ring, by linear_combination -e1, by linear_combination -e2⟩

variable {p : Phys} {c : Cls} {o : Obj} {n : ℕ} {E2 : ℝ → ℝ} {z0 z1 z2 z : ℝ} {solve : List ℝ → List ℂ}

theorem CArgs_pos2 {a b : ℝ} (ha : 0 < a) (hb : 0 < b) : CArgs a b b := by
  have ha' : (a : ℂ) ∈ Complex.slitPlane := Complex.ofReal_mem_slitPlane.mpr ha
  have hb' : (b : ℂ) ∈ Complex.slitPlane := Complex.ofReal_mem_slitPlane.mpr hb
  have n1 : (a : ℂ) ≠ 0 := by exact_mod_cast ha.ne'
  have n2 : (b : ℂ) ≠ 0 := by exact_mod_cast hb.ne'
  exact ⟨Or.inr ha', Or.inr hb', Or.inr hb', Or.inl n1, Or.inl n1, Or.inl n2, Or.inr (Or.inl (by simpa using ha.le))⟩

theorem codeLookback3_value {eps : ℝ} (h0 : 0 < eps) (h1 : eps ≤ 1 / 2 ^ 20) {L : ℝ} (hL : 0 < L) {r1 r2 r3 : ℂ} {b c d : ℝ} (h : CubicOK (min 0 z) r1 r2 r3 b c d) (hz : -1 < z)
    (hJ : ∃ R : ℝ, 0 ≤ R ∧ RJc (params3 r1 r2 r3 0 z).1 (params3 r1 r2 r3 0 z).2.1 (params3 r1 r2 r3 0 z).2.2 ((r1 + 1) * z ^ 2 + (params3 r1 r2 r3 0 z).1) = R ∧
      ∃ e, elliprj eps (params3 r1 r2 r3 0 z).1 (params3 r1 r2 r3 0 z).2.1 (params3 r1 r2 r3 0 z).2.2 ((r1 + 1) * z ^ 2 + (params3 r1 r2 r3 0 z).1) = .val e ∧
        (z ≠ 0 → ‖e - R‖ ≤ 5000 * eps * R)) :
    ∃ D, codeLookback3 eps L r1 r2 r3 z = some D ∧ |D - lookback3 L r1 r2 r3 z| ≤ 5000 * eps * |lookback3 L r1 r2 r3 z| := by
  obtain ⟨P, P0, hP⟩ := h.p_pos hz
  obtain ⟨C, C0, hC⟩ := h.rc_pos hz
  obtain ⟨R, R0, hR, e, he, hb⟩ := hJ
  have hzP : 0 < (z + 1) * P := mul_pos (by linarith) P0
  obtain ⟨f, hf, ef⟩ := C145_elliprc h0 (h1.trans (by norm_num)) (CArgs_pos2 C0 hzP)
  rw [RCc_ofReal C0.le, Complex.norm_real, Real.norm_of_nonneg (RC_pos C0.le hzP).le] at ef
  have hl := Real.rpow_pos_of_pos hL (0.5 : ℝ)
  have hrc := RC_pos C0.le hzP
  have eP : ((z : ℂ) + 1) * ((r1 + 1) * z ^ 2 + (params3 r1 r2 r3 0 z).1) = (((z + 1) * P : ℝ) : ℂ) := by rw [hP]; push_cast; ring
  simp only [codeLookback3, lookback3]
  rw [eP, hC, he, hf, hR, RCc_ofReal C0.le]
  refine ⟨_, rfl, ?_⟩
  rcases eq_or_ne z 0 with rfl | hz0
  · simp
  have hb := hb hz0
  have er : (RC C ((z + 1) * P) : ℂ) + (z : ℂ) ^ 2 / 3 * R = ((RC C ((z + 1) * P) + z ^ 2 / 3 * R : ℝ) : ℂ) := by push_cast; ring
  simp only [fixDimless]
  rw [er, ← mul_sub, ← sub_div, abs_mul, abs_mul (2 * z), abs_div, abs_div, ← Complex.sub_re, Complex.ofReal_re, abs_of_nonneg (a := RC C ((z + 1) * P) + z ^ 2 / 3 * R) (by positivity)]
  have hE : EPS eps = 1 / 1000000 * eps := by unfold EPS; ring
  rw [hE] at ef
  have hn : |(f + (z : ℂ) ^ 2 / 3 * e - ((RC C ((z + 1) * P) + z ^ 2 / 3 * R : ℝ) : ℂ)).re| ≤ 5000 * eps * (RC C ((z + 1) * P) + z ^ 2 / 3 * R) := by
    refine (Complex.abs_re_le_norm _).trans ?_
    rw [show f + (z : ℂ) ^ 2 / 3 * e - ((RC C ((z + 1) * P) + z ^ 2 / 3 * R : ℝ) : ℂ) = (f - (RC C ((z + 1) * P) : ℝ)) + ((z ^ 2 / 3 : ℝ) : ℂ) * (e - R) by push_cast; ring]
    refine (norm_add_le _ _).trans ?_
    rw [norm_mul, Complex.norm_real, Real.norm_of_nonneg (by positivity)]
    have k1 : z ^ 2 / 3 * ‖e - R‖ ≤ z ^ 2 / 3 * (5000 * eps * R) := by gcongr
    nlinarith [mul_pos h0 hrc]
  calc _ ≤ |2 * z| * (5000 * eps * (RC C ((z + 1) * P) + z ^ 2 / 3 * R) / |L ^ (0.5 : ℝ)|) := by gcongr
    _ = _ := by ring

/-- **C151** in a universe with dark energy, or at redshift zero, the lookback time of LambdaCDM that the code computes with its own `elliprc` and `elliprj` has a
relative error of at most `5000 eps`, at every redshift above -1. -/
theorem C151_lookback_partial {eps : ℝ} (h0 : 0 < eps) (h1 : eps ≤ 1 / 2 ^ 20) (U : Universe p c o n E2 (min 0 z)) (hz : -1 < z) (hde : E2 (-1) ≠ 0 ∨ z = 0) (hs : Solves solve) :
    ∃ D, call3 solve c o n (fun L r1 r2 r3 => codeLookback3 eps L r1 r2 r3 z) = .ok (some D) ∧
      |D - ∫ t in (0 : ℝ)..z, lookbackIntegrand (E2 t) t| ≤ 5000 * eps * |∫ t in (0 : ℝ)..z, lookbackIntegrand (E2 t) t| := by
  obtain ⟨r1, r2, r3, b', c', d', hc, hC, hE⟩ := U.cubic hs
  simp only [hE]
  rw [hc, ← hC.lookback_value U.matter hz]
  obtain ⟨P, P0, hP⟩ := hC.p_pos hz
  suffices hJ : _ by
    obtain ⟨D, hD, he⟩ := codeLookback3_value h0 h1 U.matter hC hz hJ
    exact ⟨D, by rw [hD], he⟩
  obtain ⟨k1, k2, k3⟩ := look_p r1 r2 r3 z
  rcases eq_or_ne z 0 with rfl | hz0
  · have hs0 := hC.sqrt_eq (x := 1) (t := 0) (by simp) ⟨by simp, by simp⟩
    have hp0 := Real.sqrt_pos.mpr (hC.cpos (t := 0) (by simp))
    have hv : ∀ u : ℂ, u = 2 * (Xr r1 0 * Xr r2 0 * Xr r3 0) → u ^ 2 = ((4 * (√(CubicOK.cubic b' c' d' 0)) ^ 2 : ℝ) : ℂ) := by
      rintro u rfl
      rw [hs0]
      push_cast
      ring
    generalize hwd : 4 * (√(CubicOK.cubic b' c' d' 0)) ^ 2 = w at hv
    have hw : 0 < w := by rw [← hwd]; positivity
    have e1 : (params3 r1 r2 r3 0 0).1 = w := hv _ (by ring)
    have e2 : (params3 r1 r2 r3 0 0).2.1 = w := hv _ (by ring)
    have e3 : (params3 r1 r2 r3 0 0).2.2 = w := hv _ (by ring)
    rw [e1, e2, e3, show (r1 + 1) * ((0 : ℝ) : ℂ) ^ 2 + (w : ℂ) = w by simp]
    have hre : 0 < (w : ℂ).re := by simpa using hw
    obtain ⟨v, hv⟩ := (C35_elliprj_partial eps hre hre hre hre).1.mpr (by
      rintro ⟨-, hle⟩
      have hA : jA0 (w : ℂ) w w w = w := by simp only [jA0]; ring
      rw [jQ, hA, sub_self, norm_zero, max_self, max_self, max_self, mul_zero] at hle
      have := norm_pos_iff.mpr (show (w : ℂ) ≠ 0 by exact_mod_cast hw.ne')
      linarith)
    refine ⟨RJ w w w w, ?_, RJc_ofReal hw.le hw.le hw.le, v, hv, fun h => absurd rfl h⟩
    have := RJ_lower (M := w) (x := w) (y := w) (z := w) (p := w) ⟨hw.le, hw.le, hw.le, by linarith, by linarith, by linarith⟩ hw le_rfl le_rfl le_rfl le_rfl
    exact le_trans (by positivity) this
  · have hde := hde.resolve_right hz0
    have hm : (-1 - r1) * (-1 - r2) * (-1 - r3) ≠ 0 := by
      have := hC.vieta (-1)
      rw [this]
      have hE1 := hE (-1)
      intro h0
      apply hde
      have : CubicOK.cubic b' c' d' (-1) = 0 := by
        simp only [CubicOK.cubic]
        exact_mod_cast h0
      rw [hE1, this, mul_zero]
    have hz2 : (z : ℂ) ^ 2 ≠ 0 := pow_ne_zero 2 (by exact_mod_cast hz0)
    have m1 : r1 + 1 ≠ 0 := fun h => hm (by rw [show -1 - r1 = -(r1 + 1) by ring, h]; ring)
    have m2 : r2 + 1 ≠ 0 := fun h => hm (by rw [show -1 - r2 = -(r2 + 1) by ring, h]; ring)
    have m3 : r3 + 1 ≠ 0 := fun h => hm (by rw [show -1 - r3 = -(r3 + 1) by ring, h]; ring)
    rw [hP] at k1 k2 k3
    obtain ⟨R, q0, q1, e, q2, q3⟩ := hC.jacc h0 h1 P0 (fun h => mul_ne_zero m1 hz2 (by rw [← k1, h, sub_self])) (fun h => mul_ne_zero m2 hz2 (by rw [← k2, h, sub_self]))
      (fun h => mul_ne_zero m3 hz2 (by rw [← k3, h, sub_self]))
    rw [hP]
    exact ⟨R, q0, q1, e, q2, fun _ => q3⟩

theorem CubicOK.params_real {b c d : ℝ} {r1 r2 r3 : ℂ} (h : CubicOK (min 0 z) r1 r2 r3 b c d) (h1 : r1.im = 0) (h2 : r2.im = 0) (h3 : r3.im = 0) :
    0 < (params3 r1 r2 r3 0 z).1.re ∧ 0 < (params3 r1 r2 r3 0 z).2.1.re ∧ 0 < (params3 r1 r2 r3 0 z).2.2.re := by
  have l0 : ∀ {r : ℂ}, r.re < min 0 z → 0 < √(0 - r.re) ∧ 0 < √(z - r.re) := fun {r} hl =>
    ⟨Real.sqrt_pos.mpr (by linarith [min_le_left 0 z]), Real.sqrt_pos.mpr (by linarith [min_le_right 0 z])⟩
  have e0 : ∀ {r : ℂ}, r.im = 0 → r.re < min 0 z → Xr r 0 = (√(0 - r.re) : ℝ) ∧ Xr r z = (√(z - r.re) : ℝ) := fun {r} hi hl =>
    ⟨Xr_real hi (hl.trans_le (min_le_left _ _)), Xr_real hi (hl.trans_le (min_le_right _ _))⟩
  obtain ⟨a1, a2⟩ := e0 h1 (h.lt h1)
  obtain ⟨p1, p2⟩ := l0 (h.lt h1)
  obtain ⟨b1, b2⟩ := e0 h2 (h.swap12.lt h2)
  obtain ⟨q1, q2⟩ := l0 (h.swap12.lt h2)
  obtain ⟨c1, c2⟩ := e0 h3 (h.swap23.swap12.lt h3)
  obtain ⟨t1, t2⟩ := l0 (h.swap23.swap12.lt h3)
  simp only [params3, a1, a2, b1, b2, c1, c2, ← Complex.ofReal_mul, ← Complex.ofReal_add, ← Complex.ofReal_pow, Complex.ofReal_re]
  exact ⟨by positivity, by positivity, by positivity⟩

/-- **C151** is false without dark energy: in an open universe of matter with a curvature density of at least the matter density, `p` is one of the other arguments of `elliprj`, and
the lookback time is not a number at any redshift from 1 on, at double precision or better. -/
theorem C151_no_dark_energy {eps : ℝ} (h0 : 0 < eps) (h1 : eps ≤ 1 / 2 ^ 52) (U : Universe p c o n E2 0) {K : ℝ} (hE2 : ∀ t, E2 t = o.Om0 * (1 + t) ^ 3 + K * (1 + t) ^ 2) (hK : o.Om0 ≤ K)
    (hz : 1 ≤ z) (hs : Solves solve) : call3 solve c o n (fun L r1 r2 r3 => codeLookback3 eps L r1 r2 r3 z) = .ok none := by
  have hmin : min 0 z = 0 := min_eq_left (by linarith)
  obtain ⟨r1, r2, r3, b', c', d', hc, hC, hE⟩ := U.cubic hs
  have hm := U.matter
  rw [hc, Except.ok.injEq]
  have hC' : CubicOK (min 0 z) r1 r2 r3 b' c' d' := by rw [hmin]; exact hC
  obtain ⟨P, P0, hP⟩ := hC'.p_pos (z := z) (by linarith)
  obtain ⟨k, hk⟩ : ∃ k, k = K / o.Om0 := ⟨_, rfl⟩
  have hk1 : 1 ≤ k := by rw [hk, le_div_iff₀ hm]; linarith
  have e : ∀ t, CubicOK.cubic b' c' d' t = (1 + t) ^ 3 + k * (1 + t) ^ 2 := fun t => by
    have := hE t
    rw [hE2 t] at this
    rw [hk]
    field_simp
    linarith
  have c0 := e 0
  have c1 := e 1
  have c2 := e (-1)
  simp only [CubicOK.cubic] at c0 c1 c2
  have hd : d' = 1 + k := by linarith
  have hb : b' = 3 + k := by linarith
  have hcc : c' = 3 + 2 * k := by linarith
  have hsum : r1 + r2 + r3 = -(3 + k) := by
    have v0 := hC.vieta 0
    have v1 := hC.vieta 1
    have v2 := hC.vieta (-1)
    rw [hb] at v0 v1 v2
    push_cast at v0 v1 v2
    linear_combination v0 - (v1 + v2) / 2
  have fac : ∀ t : ℂ, (t - r1) * (t - r2) * (t - r3) = (t + 1) ^ 2 * (t + 1 + k) := fun t => by
    rw [hC.vieta, hb, hcc, hd]
    push_cast
    ring
  have real : ∀ r : ℂ, (r - r1) * (r - r2) * (r - r3) = 0 → r.im = 0 := fun r hr => by
    rw [fac] at hr
    rcases mul_eq_zero.mp hr with h | h
    · have := congrArg Complex.im (pow_eq_zero_iff (two_ne_zero) |>.mp h)
      simpa using this
    · have := congrArg Complex.im h
      simpa using this
  have i1 := real r1 (by ring)
  have i2 := real r2 (by ring)
  have i3 := real r3 (by ring)
  obtain ⟨w1, w2, w3⟩ := hC'.params_real i1 i2 i3
  obtain ⟨k1, k2, k3⟩ := look_p r1 r2 r3 z
  rw [hP] at k1 k2 k3
  have hrc := rc_sub r1 r2 r3 z
  simp only at hrc
  have hm1 : (r1 + 1) * (r2 + 1) * (r3 + 1) = 0 := by
    have := fac (-1)
    linear_combination -this
  have hs0 := hC.sqrt_eq (x := z + 1) (t := 0) (by linarith) ⟨le_rfl, by linarith⟩
  have hs1 := hC.sqrt_eq (x := z + 1) (t := z) (by linarith) ⟨by linarith, by linarith⟩
  rw [hm1, hP, hs0, hs1, e 0, e z] at hrc
  have hpe : (z + 1) * P = (√((1 + 0) ^ 3 + k * (1 + 0) ^ 2) * (z + 1) + √((1 + z) ^ 3 + k * (1 + z) ^ 2)) ^ 2 := by
    have : ((z + 1) * P : ℂ) = (√((1 + 0) ^ 3 + k * (1 + 0) ^ 2) * (z + 1) + √((1 + z) ^ 3 + k * (1 + z) ^ 2)) ^ 2 := by linear_combination -hrc
    exact_mod_cast this
  have hPle : P ≤ 2 * (1 + z) * (2 + 2 * k + z) := by
    have q1 : √((1 + 0) ^ 3 + k * (1 + 0) ^ 2) ^ 2 = (1 + 0) ^ 3 + k * (1 + 0) ^ 2 := Real.sq_sqrt (by positivity)
    have q2 : √((1 + z) ^ 3 + k * (1 + z) ^ 2) ^ 2 = (1 + z) ^ 3 + k * (1 + z) ^ 2 := Real.sq_sqrt (by positivity)
    generalize √((1 + 0) ^ 3 + k * (1 + 0) ^ 2) = s0 at *
    generalize √((1 + z) ^ 3 + k * (1 + z) ^ 2) = s1 at *
    have hz1 : 0 < z + 1 := by linarith
    refine le_of_mul_le_mul_left ?_ hz1
    rw [hpe]
    have : (s0 * (z + 1) + s1) ^ 2 ≤ 2 * (s0 ^ 2 * (z + 1) ^ 2 + s1 ^ 2) := by nlinarith [sq_nonneg (s0 * (z + 1) - s1)]
    refine this.trans (le_of_eq ?_)
    rw [q1, q2]
    ring
  have hA : jA0 (params3 r1 r2 r3 0 z).1 (params3 r1 r2 r3 0 z).2.1 (params3 r1 r2 r3 0 z).2.2 P = ((P + k * z ^ 2 / 5 : ℝ) : ℂ) := by
    simp only [jA0]
    push_cast
    linear_combination -(k1 + k2 + k3) / 5 - (z : ℂ) ^ 2 / 5 * hsum
  have hQ : (128 : ℝ) ≤ (1 / 4 * eps * 2 ^ 10) ^ (-(1 / 6) : ℝ) := by
    have hb : 0 < 1 / 4 * eps * 2 ^ 10 := by positivity
    have hle : 1 / 4 * eps * 2 ^ 10 ≤ (1 / 128) ^ (6 : ℝ) := by
      rw [show (6 : ℝ) = ((6 : ℕ) : ℝ) by norm_num, Real.rpow_natCast]
      calc 1 / 4 * eps * 2 ^ 10 ≤ 1 / 4 * (1 / 2 ^ 52) * 2 ^ 10 := by gcongr
        _ ≤ _ := by norm_num
    calc (128 : ℝ) = ((1 / 128) ^ (6 : ℝ)) ^ (-(1 / 6) : ℝ) := by
          rw [← Real.rpow_mul (by norm_num)]
          norm_num [Real.rpow_neg_one]
      _ ≤ _ := Real.rpow_le_rpow_of_nonpos hb hle (by norm_num)
  have hnan : elliprj eps (params3 r1 r2 r3 0 z).1 (params3 r1 r2 r3 0 z).2.1 (params3 r1 r2 r3 0 z).2.2 P = .nan := by
    refine (C35_elliprj_partial eps w1 w2 w3 (by simpa using P0)).2.mpr ⟨?_, ?_⟩
    · rcases mul_eq_zero.mp hm1 with h | h
      · rcases mul_eq_zero.mp h with h | h
        · exact Or.inl (by rw [h, zero_mul] at k1; exact sub_eq_zero.mp k1)
        · exact Or.inr (Or.inl (by rw [h, zero_mul] at k2; exact sub_eq_zero.mp k2))
      · exact Or.inr (Or.inr (by rw [h, zero_mul] at k3; exact sub_eq_zero.mp k3))
    · rw [jQ, hA]
      have hdev : ‖((P + k * z ^ 2 / 5 : ℝ) : ℂ) - P‖ = k * z ^ 2 / 5 := by
        rw [← Complex.ofReal_sub, Complex.norm_real, add_sub_cancel_left, Real.norm_of_nonneg (by positivity)]
      rw [hdev, Complex.norm_real, Real.norm_of_nonneg (by positivity)]
      calc P + k * z ^ 2 / 5 ≤ 128 * (k * z ^ 2 / 5) := by
            have a1 : 1 + z ≤ 2 * z := by linarith
            have a2 : 2 + 2 * k + z ≤ 5 * k * z := by nlinarith
            have a3 : 2 * (1 + z) * (2 + 2 * k + z) ≤ 2 * (2 * z) * (5 * k * z) := by gcongr
            nlinarith [mul_nonneg (by linarith : (0 : ℝ) ≤ k) (sq_nonneg z)]
        _ ≤ _ := mul_le_mul hQ (le_max_right _ _) (by positivity) (by positivity)
  simp only [codeLookback3]
  rw [hP, hnan]
  split
  · simp_all
  · rfl

/-! ### Examples -/

/-- A curved universe with `Om0 = 0.3`, `Ode0 = 0.5`, at a negative redshift. -/
example (p : Phys) : ∃ c o E2 solve D, c.flat = false ∧ Universe p c o 2 E2 (-1 / 2) ∧ call3 solve c o 2 (fun L r1 r2 r3 => codeLookback3 (1 / 2 ^ 52) L r1 r2 r3 (-1 / 2)) = .ok (some D) ∧
    |D - ∫ t in (0 : ℝ)..(-1 / 2), lookbackIntegrand (E2 t) t| ≤ 5000 * (1 / 2 ^ 52) * |∫ t in (0 : ℝ)..(-1 / 2), lookbackIntegrand (E2 t) t| := by
  have hr : Reachable p ⟨.lambda, false, false⟩ _ := ⟨1, [(.Om0, 0.3), (.Ode0, 0.5)], [], _, rfl, rfl⟩
  obtain ⟨eig, heig⟩ := Roots.eigSpec_nonempty
  obtain ⟨solve, hs, -⟩ := solves_exists _ _ Roots.principal_cpow Roots.cbrt_cpow eig heig false fun _ => .ok []
  have U : Universe p ⟨.lambda, false, false⟩ _ 2 (fun z => 0.3 * (1 + z) ^ 3 + 0.2 * (1 + z) ^ 2 + 0.5) (-1 / 2) :=
    ⟨rfl, rfl, hr, le_rfl, by norm_num [setParams, assign], fun z => by
      norm_num [setParams, assign, e2func, Cosmo.e2, e2base, ok0, ode0, sum0]
      ring, fun z hz => by
      have : 0 < 1 + z := by linarith
      positivity⟩
  obtain ⟨D, h1, h2⟩ := C151_lookback_partial (eps := 1 / 2 ^ 52) (z := -1 / 2) (by norm_num) (by norm_num) (by rw [min_eq_right (by norm_num)]; exact U) (by norm_num) (Or.inl (by norm_num)) hs
  exact ⟨_, _, _, solve, D, rfl, U, h1, h2⟩

/-- An open universe with `Om0 = 0.3` and no dark energy, at redshift 1. -/
example (p : Phys) : ∃ c o E2 solve, Universe p c o 2 E2 0 ∧ call3 solve c o 2 (fun L r1 r2 r3 => codeLookback3 (1 / 2 ^ 52) L r1 r2 r3 1) = .ok none := by
  have hr : Reachable p ⟨.lambda, false, false⟩ _ := ⟨1, [(.Om0, 0.3), (.Ode0, 0)], [], _, rfl, rfl⟩
  obtain ⟨eig, heig⟩ := Roots.eigSpec_nonempty
  obtain ⟨solve, hs, -⟩ := solves_exists _ _ Roots.principal_cpow Roots.cbrt_cpow eig heig false fun _ => .ok []
  have U : Universe p ⟨.lambda, false, false⟩ _ 2 (fun z => 0.3 * (1 + z) ^ 3 + 0.7 * (1 + z) ^ 2) 0 :=
    ⟨rfl, rfl, hr, le_rfl, by norm_num [setParams, assign], fun z => by
      norm_num [setParams, assign, e2func, Cosmo.e2, e2base, ok0, ode0, sum0]
      ring, fun z hz => by
      have : 0 < 1 + z := by linarith
      positivity⟩
  exact ⟨_, _, _, solve, U, C151_no_dark_energy (by norm_num) le_rfl U (K := 0.7) (fun t => by norm_num [setParams, assign]) (by norm_num [setParams, assign]) le_rfl hs⟩

end Verif.Ellred

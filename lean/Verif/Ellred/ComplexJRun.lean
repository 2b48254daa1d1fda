import Verif.Ellred.ComplexJRot
import Verif.Carlson.AccuracyDJ

/-! # `elliprj` with complex arguments (C150) -/

namespace Verif.Ellred

open MeasureTheory Set Filter Topology Verif.Carlson

/-- The variables `elliprj` shares with `elliprf`. -/
def toFJ (s : JState) : FState := ⟨s.x, s.y, s.z, s.A, s.pow4⟩

theorem toFJ_iter (δ : ℂ) (s : JState) (n : ℕ) : toFJ ((jStep δ)^[n] s) = fStep^[n] (toFJ s) := by
  induction n with
  | zero => rfl
  | succ n ih => rw [Function.iterate_succ_apply', Function.iterate_succ_apply', ← ih]; rfl

/-- The invariant of the loop of `elliprj`. -/
def JInv (δ x y z p : ℂ) (s : JState) : Prop :=
  JDom s.x s.y s.z s.p ∧ ¬s.bad ∧ δ * (1 / 4 ^ (3 * s.m)) = (s.p - s.x) * (s.p - s.y) * (s.p - s.z) ∧ RJc x y z p = 6 * s.s + s.pow4 * RJc s.x s.y s.z s.p

theorem JDom.dm_ne {x y z p : ℂ} (h : JDom x y z p) : dmOf x y z p ≠ 0 := by
  obtain ⟨s1, s2, s3, s4⟩ := h.slit
  have key : ∀ {w : ℂ}, w ∈ Complex.slitPlane → csqrt p + csqrt w ≠ 0 := fun hw e => by simpa [e] using re_sum_pos s4 hw
  exact mul_ne_zero (mul_ne_zero (key s1) (key s2)) (key s3)

theorem JInv.step {δ x y z p : ℂ} (hδ : δ ≠ 0) {s : JState} (h : JInv δ x y z p s) : JInv δ x y z p (jStep δ s) := by
  obtain ⟨hd, hb, hδs, hR⟩ := h
  have hdm := hd.dm_ne
  have hδ0 : δ * (1 / 4 ^ (3 * s.m)) ≠ 0 := mul_ne_zero hδ (one_div_ne_zero (pow_ne_zero _ (by norm_num)))
  set em := δ * (1 / 4 ^ (3 * s.m)) / (dmOf s.x s.y s.z s.p * dmOf s.x s.y s.z s.p) with hem
  have hem0 : csqrt em ≠ 0 := csqrt_ne0 (div_ne_zero hδ0 (mul_ne_zero hdm hdm))
  refine ⟨hd.step, ?_, ?_, ?_⟩
  · simp only [jStep]
    rintro (k | k | k)
    · exact hb k
    · exact hdm k
    · exact hem0 k
  · simp only [jStep]
    rw [show 3 * (s.m + 1) = 3 * s.m + 3 by ring, pow_add, ← one_div_mul_one_div, ← mul_assoc, hδs]
    ring
  · have hκ : (csqrt em * dmOf s.x s.y s.z s.p) ^ 2 = (s.p - s.x) * (s.p - s.y) * (s.p - s.z) := by
      rw [mul_pow, pow_two, csqrt_sq, hem, hδs]
      field_simp
    rw [hR, hd.dup hκ (mul_ne_zero hem0 hdm), mul_div_cancel_right₀ _ hdm]
    simp only [jStep]
    rw [← hem]
    push_cast
    field_simp
    ring

theorem RJ_lower_conj {X P M : ℝ} {y : ℂ} (hX : 0 < X) (hP : 0 < P) (hy : y ∈ Complex.slitPlane) (hXM : X ≤ M) (hyM : ‖y‖ ≤ M) (hPM : P ≤ M) :
    ∃ R : ℝ, RJc X y ((starRingEnd ℂ) y) P = R ∧ 1 / (M * √M) ≤ R := by
  have hM : 0 < M := hX.trans_le hXM
  have hs1 : (X : ℂ) ∈ Complex.slitPlane := Complex.ofReal_mem_slitPlane.mpr hX
  have hs4 : (P : ℂ) ∈ Complex.slitPlane := Complex.ofReal_mem_slitPlane.mpr hP
  have e : ∀ t ∈ Ioi (0 : ℝ), 1 / (cS X y ((starRingEnd ℂ) y) t * ((t : ℂ) + P)) = ((1 / (√(t + X) * ‖(t : ℂ) + y‖ * (t + P)) : ℝ) : ℂ) := by
    intro t ht
    have ht' : 0 < t := ht
    have hsl : (t : ℂ) + y ∈ Complex.slitPlane := by rw [add_comm]; exact slit_add hy ht'.le
    have h1 : (t : ℂ) + (starRingEnd ℂ) y = (starRingEnd ℂ) ((t : ℂ) + y) := by simp
    have h2 : csqrt ((t : ℂ) + X) = (√(t + X) : ℝ) := by rw [← Complex.ofReal_add]; exact csqrt_ofReal (by linarith)
    have h3 : csqrt ((t : ℂ) + y) * (starRingEnd ℂ) (csqrt ((t : ℂ) + y)) = (‖(t : ℂ) + y‖ : ℝ) := by
      rw [Complex.mul_conj, Complex.normSq_eq_norm_sq, pow_two, ← norm_mul, csqrt_sq]
    simp only [cS]
    rw [h1, csqrt_conj' hsl, h2, mul_assoc ((√(t + X) : ℝ) : ℂ), h3]
    push_cast
    ring
  have hint := (RJ_dec hs1 hy (conj_slit hy) hs4).integrable (by norm_num)
  have hint' : IntegrableOn (fun t : ℝ => 1 / (√(t + X) * ‖(t : ℂ) + y‖ * (t + P))) (Ioi 0) := by
    have := hint.re
    refine this.congr ?_
    rw [EventuallyEq, ae_restrict_iff' measurableSet_Ioi]
    refine Eventually.of_forall fun t ht => ?_
    rw [e t ht]
    exact Complex.ofReal_re _
  refine ⟨3 / 2 * ∫ t in Ioi (0 : ℝ), 1 / (√(t + X) * ‖(t : ℂ) + y‖ * (t + P)), ?_, ?_⟩
  · rw [RJc_cS, setIntegral_congr_fun measurableSet_Ioi e, integral_complex_ofReal]
    push_cast
    ring
  · have hM' : Args M M M := ⟨hM.le, hM.le, hM.le, by linarith, by linarith, by linarith⟩
    refine (RJ_lower hM' hM le_rfl le_rfl le_rfl le_rfl).trans ?_
    rw [RJ]
    apply mul_le_mul_of_nonneg_left _ (by norm_num)
    apply setIntegral_mono_on (RJ_integrable hM' hM) hint' measurableSet_Ioi
    intro t ht
    have ht : 0 < t := ht
    have hsl : (t : ℂ) + y ∈ Complex.slitPlane := by rw [add_comm]; exact slit_add hy ht.le
    have p1 : 0 < √(t + X) := Real.sqrt_pos.mpr (by linarith)
    have p2 : 0 < ‖(t : ℂ) + y‖ := norm_pos_iff.mpr (Complex.slitPlane_ne_zero hsl)
    apply one_div_le_one_div_of_le (by positivity)
    have h2 : ‖(t : ℂ) + y‖ ≤ √(t + M) * √(t + M) := by
      rw [Real.mul_self_sqrt (by linarith)]
      refine (norm_add_le _ _).trans ?_
      rw [Complex.norm_real, Real.norm_of_nonneg ht.le]
      linarith
    rw [mul_assoc (√(t + M))]
    gcongr

/-- The terms of the sum are positive for conjugate arguments. -/
theorem JConj.term {x y z p : ℂ} (h : JConj x y z p) (h0 : (p - x) * (p - y) * (p - z) ≠ 0) :
    ∃ τ : ℝ, 0 ≤ τ ∧ Complex.arctan (csqrt ((p - x) * (p - y) * (p - z) / (dmOf x y z p * dmOf x y z p))) /
      csqrt ((p - x) * (p - y) * (p - z) / (dmOf x y z p * dmOf x y z p)) / dmOf x y z p = τ := by
  have hD : JDom x y z p := Or.inr h
  have hdm := hD.dm_ne
  obtain ⟨X, P, hX, hP, rfl, rfl, hy, rfl⟩ := h
  obtain ⟨d, hd0, hd⟩ : ∃ d : ℝ, 0 ≤ d ∧ dmOf X y ((starRingEnd ℂ) y) P = d := by
    refine ⟨(√P + √X) * Complex.normSq (csqrt P + csqrt y), by have := Complex.normSq_nonneg (csqrt P + csqrt y); positivity, ?_⟩
    have h1 : csqrt (X : ℂ) = (√X : ℝ) := csqrt_ofReal hX.le
    have h2 : csqrt (P : ℂ) = (√P : ℝ) := csqrt_ofReal hP.le
    rw [dmOf, csqrt_conj' hy, Complex.ofReal_mul, ← Complex.mul_conj, map_add, h1, h2, Complex.conj_ofReal]
    push_cast
    ring
  have hdp : 0 < d := lt_of_le_of_ne hd0 fun e => hdm (by rw [hd, ← e]; simp)
  obtain ⟨e, he⟩ : ∃ e : ℝ, ((P : ℂ) - X) * (P - y) * (P - (starRingEnd ℂ) y) / (dmOf X y ((starRingEnd ℂ) y) P * dmOf X y ((starRingEnd ℂ) y) P) = e := by
    refine ⟨(P - X) * Complex.normSq (P - y) / (d * d), ?_⟩
    rw [hd]
    push_cast
    rw [← Complex.mul_conj, map_sub, Complex.conj_ofReal]
    ring
  have hκ : (csqrt (e : ℂ) * dmOf X y ((starRingEnd ℂ) y) P) ^ 2 = ((P : ℂ) - X) * (P - y) * (P - (starRingEnd ℂ) y) := by
    rw [mul_pow, pow_two, csqrt_sq, ← he]
    field_simp
  have hdisc := hD.disc hκ
  rw [mul_div_cancel_right₀ _ hdm] at hdisc
  have he1 : |e| < 1 := by
    have h1 : ‖csqrt (e : ℂ)‖ * ‖csqrt (e : ℂ)‖ = |e| := by rw [← norm_mul, csqrt_sq, Complex.norm_real, Real.norm_eq_abs]
    rw [← h1]
    nlinarith [norm_nonneg (csqrt (e : ℂ))]
  have he0 : e ≠ 0 := fun h => by
    rw [h, Complex.ofReal_zero, div_eq_zero_iff] at he
    rcases he with he | he
    · exact h0 he
    · exact mul_ne_zero hdm hdm he
  rw [he, arctan_ratio (abs_lt.mp he1).1 he0, hd]
  exact ⟨RC 1 (1 + e) / d, div_nonneg (RC_pos zero_le_one (by linarith [(abs_lt.mp he1).1])).le hdp.le, by push_cast; ring⟩

theorem KGood_of_re {A W : ℂ} (hA : 0 ≤ A.re) (hW : ‖W‖ ≤ 1 / 4) : KGood A (1 - W) := ⟨re_one_sub hW, fun h => absurd h (not_lt.mpr hA)⟩

theorem J_zero {x y z p : ℂ} (h : JDom x y z p) : ¬(p = 0 ∨ isZero x + isZero y + isZero z > 1) := by
  obtain ⟨s1, s2, s3, s4⟩ := h.slit
  unfold isZero
  rw [if_neg (Complex.slitPlane_ne_zero s1), if_neg (Complex.slitPlane_ne_zero s2), if_neg (Complex.slitPlane_ne_zero s3)]
  rintro (k | k)
  · exact Complex.slitPlane_ne_zero s4 k
  · omega

/-- A run of `elliprj`: the result, and its error in terms of the final state. -/
theorem J_core' {eps : ℝ} (h0 : 0 < eps) (h1 : eps ≤ 1 / 2 ^ 20) {x y z p : ℂ} (hzero : ¬(p = 0 ∨ isZero x + isZero y + isZero z > 1)) (hdz : JDom x y z p ∨ x = 0)
    (hsl : Slit3 (fStep ⟨x, y, z, jA0 x y z p, 1⟩)) (hδ : (p - x) * (p - y) * (p - z) ≠ 0)
    (hfirst : JInv ((p - x) * (p - y) * (p - z)) x y z p (jStep ((p - x) * (p - y) * (p - z)) ⟨x, y, z, p, jA0 x y z p, 1, 0, 0, False⟩)) :
    ∃ v n, elliprj eps x y z p = .val v ∧
      let st := (jStep ((p - x) * (p - y) * (p - z)))^[n] ⟨x, y, z, p, jA0 x y z p, 1, 0, 0, False⟩
      JInv ((p - x) * (p - y) * (p - z)) x y z p st ∧ 0 < st.pow4 ∧ st.pow4 ≤ 1 ∧ st.A ≠ 0 ∧ ‖(st.A - st.x) / st.A‖ ≤ 1 / 4 ∧ ‖(st.A - st.y) / st.A‖ ≤ 1 / 4 ∧
        ‖(st.A - st.p) / st.A‖ ≤ 1 / 4 ∧ 0 < st.A.re ∧ ‖v - RJc x y z p‖ ≤ st.pow4 * (3072 * eps * (1 / (‖st.A‖ * ‖csqrt st.A‖))) := by
  obtain ⟨ε, hε0, hε4, hε6, hκ⟩ := tolerance (b := 1 / 4 * eps * 2 ^ 10) (by positivity) (by
    calc 1 / 4 * eps * 2 ^ 10 ≤ 1 / 4 * (1 / 2 ^ 20) * 2 ^ 10 := by gcongr
      _ ≤ 1 / 4096 := by norm_num)
  set δ := (p - x) * (p - y) * (p - z) with hδd
  set s0 : JState := ⟨x, y, z, p, jA0 x y z p, 1, 0, 0, False⟩ with hs0
  obtain ⟨n, hn⟩ := rf_stops hsl (jQ eps x y z p)
  have hn' : ((jStep δ)^[n] s0).pow4 * jQ eps x y z p < ‖((jStep δ)^[n] s0).A‖ := by
    rw [show fStep^[n] ⟨x, y, z, jA0 x y z p, 1⟩ = toFJ ((jStep δ)^[n] s0) from (toFJ_iter δ s0 n).symm] at hn
    exact hn
  obtain ⟨k, hk, hexit, _⟩ := loopWhile_spec (cond := fun s : JState => s.pow4 * jQ eps x y z p ≥ ‖s.A‖)
    (step := jStep δ) (s := s0) ⟨n, not_le.mpr hn'⟩
  have hinv : JInv δ x y z p ((jStep δ)^[k] s0) := by
    rcases k with _ | k
    · rcases hdz with h | rfl
      · exact ⟨h, not_false, by simp [hs0, hδd], by simp [hs0]⟩
      · exfalso
        have hc := not_le.mp hexit
        simp only [Function.iterate_zero, id, hs0, one_mul, jQ, hκ] at hc
        have h4 : 4 ≤ 1 / ε := by rw [le_div_iff₀ hε0]; linarith
        have hm : ‖jA0 0 y z p‖ ≤ max (max (max ‖jA0 0 y z p - 0‖ ‖jA0 0 y z p - y‖) ‖jA0 0 y z p - z‖) ‖jA0 0 y z p - p‖ := by
          rw [sub_zero]
          exact ((le_max_left _ _).trans (le_max_left _ _)).trans (le_max_left _ _)
        nlinarith [norm_nonneg (jA0 0 y z p)]
    · rw [Function.iterate_succ_apply]
      exact iterate_inv (step := jStep δ) (JInv δ x y z p) (fun s hs => hs.step hδ) hfirst k
  obtain ⟨hA, hp4, -, hX, hY, hZ, hP⟩ := C34_reduced_rj x y z p δ k
  rw [← hs0] at hA hp4 hX hY hZ hP
  have hp0 : 0 < ((jStep δ)^[k] s0).pow4 := by rw [hp4]; positivity
  have hp1 : ((jStep δ)^[k] s0).pow4 ≤ 1 := by
    rw [hp4, div_le_one (by positivity)]
    exact one_le_pow₀ (by norm_num)
  simp only [elliprj]
  rw [if_neg hzero, ← hs0, hk]
  simp only
  rw [if_neg hinv.2.1]
  refine ⟨_, k, rfl, ?_⟩
  clear hk hn hn' n hp4
  generalize (jStep δ)^[k] s0 = st at *
  obtain ⟨hdom, hbad, hδs, hR⟩ := hinv
  have hexit' := not_le.mp hexit
  rw [jQ, hκ] at hexit'
  set M := max (max (max ‖jA0 x y z p - x‖ ‖jA0 x y z p - y‖) ‖jA0 x y z p - z‖) ‖jA0 x y z p - p‖ with hMd
  have hM0 : 0 ≤ M := (norm_nonneg _).trans (le_max_right _ _)
  have hApos : 0 < ‖st.A‖ := lt_of_le_of_lt (by positivity) hexit'
  have hA0 : st.A ≠ 0 := norm_pos_iff.mp hApos
  have red : ∀ {d w : ℂ}, d * (st.pow4 / st.A) = w → ‖d‖ ≤ M → ‖w‖ ≤ ε := by
    rintro d w rfl hm
    rw [norm_mul, norm_div, Complex.norm_real, Real.norm_of_nonneg hp0.le, ← mul_div_assoc, div_le_iff₀ hApos]
    have : st.pow4 * (1 / ε * ‖d‖) ≤ ‖st.A‖ := le_trans (by gcongr) hexit'.le
    have e : st.pow4 * (1 / ε * ‖d‖) = ‖d‖ * st.pow4 / ε := by ring
    rw [e, div_le_iff₀ hε0] at this
    linarith
  have bX := red hX (((le_max_left _ _).trans (le_max_left _ _)).trans (le_max_left _ _))
  have bY := red hY (((le_max_right _ _).trans (le_max_left _ _)).trans (le_max_left _ _))
  have bZ := red hZ ((le_max_right _ _).trans (le_max_left _ _))
  have hP' : (jA0 x y z p - p) * (st.pow4 / st.A) = (st.A - st.p) / st.A := by
    rw [← hP]
    simp only [jA0]
    ring
  have bP := red hP' (le_max_right _ _)
  have ew : ∀ w : ℂ, st.A * (1 - (st.A - w) / st.A) = w := fun w => by field_simp; ring
  have hre : 0 < st.A.re := by
    rcases hdom with ⟨r1, r2, r3, r4⟩ | ⟨X, P, hX', hP', ex, ep, hy', ez⟩
    · rw [hA, show (5 : ℂ) = ((5 : ℝ) : ℂ) by norm_num, Complex.div_ofReal_re]
      apply div_pos _ (by norm_num)
      simp only [Complex.add_re, Complex.mul_re, Complex.re_ofNat, Complex.im_ofNat]
      linarith
    · have him : st.A.im = 0 := by
        rw [hA, show (5 : ℂ) = ((5 : ℝ) : ℂ) by norm_num, Complex.div_ofReal_im, ex, ep, ez]
        simp
      have e1 := congrArg Complex.re (ew st.p)
      rw [Complex.mul_re, him, zero_mul, sub_zero, ep, Complex.ofReal_re] at e1
      have := re_one_sub (X := (st.A - P) / st.A) (by rw [← ep]; exact bP.trans hε4)
      by_contra hc
      have := mul_nonpos_of_nonpos_of_nonneg (not_lt.mp hc) this.le
      linarith
  refine ⟨⟨hdom, hbad, hδs, hR⟩, hp0, hp1, hA0, bX.trans hε4, bY.trans hε4, bP.trans hε4, hre, ?_⟩
  have hrot := RJc_rotate hA0 (KGood_of_re hre.le (bX.trans hε4)) (KGood_of_re hre.le (bY.trans hε4)) (KGood_of_re hre.le (bZ.trans hε4)) (KGood_of_re hre.le (bP.trans hε4))
  rw [ew, ew, ew, ew] at hrot
  have hsum : (st.A - st.x) / st.A + (st.A - st.y) / st.A + (st.A - st.z) / st.A + 2 * ((st.A - st.p) / st.A) = 0 := by
    rw [← mul_div_assoc, ← add_div, ← add_div, ← add_div, div_eq_zero_iff]
    left
    linear_combination 5 * hA
  have hser := RJc_series _ _ _ _ ε hε4 bX bY bZ bP hsum _ _ _ _ rfl rfl rfl rfl
  rw [hX, hY, hZ, hR, hrot]
  generalize (st.A - st.x) / st.A = X at *
  generalize (st.A - st.y) / st.A = Y at *
  generalize (st.A - st.z) / st.A = Z at *
  generalize (st.A - st.p) / st.A = P at *
  have hcA := csqrt_ne0 hA0
  have hpoly : jPoly X Y Z = 1 - 3 / 14 * (X * Y + X * Z + Y * Z - 3 * P ^ 2) + (X * Y * Z + 2 * (X * Y + X * Z + Y * Z) * P - 2 * P ^ 3) / 6 +
      9 / 88 * (X * Y + X * Z + Y * Z - 3 * P ^ 2) ^ 2 - 3 / 22 * (2 * X * Y * Z * P + (X * Y + X * Z + Y * Z) * P ^ 2) -
      9 / 52 * (X * Y + X * Z + Y * Z - 3 * P ^ 2) * (X * Y * Z + 2 * (X * Y + X * Z + Y * Z) * P - 2 * P ^ 3) + 3 / 26 * (X * Y * Z * P ^ 2) := by
    have : X = -(Y + Z + 2 * P) := by linear_combination hsum
    rw [this]
    simp only [jPoly]
    ring
  rw [← hpoly] at hser
  have e : 6 * st.s + (st.pow4 : ℂ) / st.A / csqrt st.A * jPoly X Y Z - (6 * st.s + st.pow4 * (RJc (1 - X) (1 - Y) (1 - Z) (1 - P) / (st.A * csqrt st.A))) =
      -((st.pow4 : ℂ) * ((RJc (1 - X) (1 - Y) (1 - Z) (1 - P) - jPoly X Y Z) * (1 / (st.A * csqrt st.A)))) := by
    field_simp
    ring
  rw [e, norm_neg, norm_mul, norm_mul, norm_div, norm_mul, norm_one, Complex.norm_real, Real.norm_of_nonneg hp0.le]
  gcongr
  rw [hε6] at hser
  linarith

theorem J_core {eps : ℝ} (h0 : 0 < eps) (h1 : eps ≤ 1 / 2 ^ 20) {x y z p : ℂ} (h : JDom x y z p) (hδ : (p - x) * (p - y) * (p - z) ≠ 0) :
    ∃ v n, elliprj eps x y z p = .val v ∧
      let st := (jStep ((p - x) * (p - y) * (p - z)))^[n] ⟨x, y, z, p, jA0 x y z p, 1, 0, 0, False⟩
      JInv ((p - x) * (p - y) * (p - z)) x y z p st ∧ 0 < st.pow4 ∧ st.pow4 ≤ 1 ∧ st.A ≠ 0 ∧ ‖(st.A - st.x) / st.A‖ ≤ 1 / 4 ∧ ‖(st.A - st.y) / st.A‖ ≤ 1 / 4 ∧
        ‖(st.A - st.p) / st.A‖ ≤ 1 / 4 ∧ 0 < st.A.re ∧ ‖v - RJc x y z p‖ ≤ st.pow4 * (3072 * eps * (1 / (‖st.A‖ * ‖csqrt st.A‖))) := by
  obtain ⟨t1, t2, t3, t4⟩ := h.slit
  exact J_core' h0 h1 (J_zero h) (Or.inl h) (Slit3.step ⟨t1, t2, t3⟩) hδ (JInv.step hδ ⟨h, not_false, by simp, by simp⟩)

/-- The error of such a run. -/
theorem J_abs {eps : ℝ} (h0 : 0 < eps) {x y z p v : ℂ} (hd : JDom ((x + lmOf x y z) / 4) ((y + lmOf x y z) / 4) ((z + lmOf x y z) / 4) ((p + lmOf x y z) / 4)) {μ : ℝ} (hμ : 0 < μ)
    (m1 : 2 * μ ≤ (csqrt x + csqrt y).re) (m2 : 2 * μ ≤ (csqrt x + csqrt z).re) (m3 : 2 * μ ≤ (csqrt y + csqrt z).re) {n : ℕ}
    (hst : let st := (jStep ((p - x) * (p - y) * (p - z)))^[n] ⟨x, y, z, p, jA0 x y z p, 1, 0, 0, False⟩
      JInv ((p - x) * (p - y) * (p - z)) x y z p st ∧ 0 < st.pow4 ∧ st.pow4 ≤ 1 ∧ st.A ≠ 0 ∧ ‖(st.A - st.x) / st.A‖ ≤ 1 / 4 ∧ ‖(st.A - st.y) / st.A‖ ≤ 1 / 4 ∧
        ‖(st.A - st.p) / st.A‖ ≤ 1 / 4 ∧ 0 < st.A.re ∧ ‖v - RJc x y z p‖ ≤ st.pow4 * (3072 * eps * (1 / (‖st.A‖ * ‖csqrt st.A‖)))) :
    ‖v - RJc x y z p‖ ≤ 4400 * eps / μ ^ 3 := by
  simp only at hst
  set δ := (p - x) * (p - y) * (p - z) with hδd
  set s0 : JState := ⟨x, y, z, p, jA0 x y z p, 1, 0, 0, False⟩ with hs0
  obtain ⟨-, q0, q1, hA0, bX, bY, -, -, hb⟩ := hst
  have hlow : μ ≤ ‖csqrt ((jStep δ)^[n] s0).x‖ ∨ μ ≤ ‖csqrt ((jStep δ)^[n] s0).y‖ := by
    rcases n with _ | n
    · simp only [Function.iterate_zero, id, hs0]
      by_contra hc
      push Not at hc
      rw [Complex.add_re] at m1
      linarith [Complex.re_le_norm (csqrt x), Complex.re_le_norm (csqrt y), hc.1, hc.2]
    · have hinv := iterate_inv (step := jStep δ) (fun s => JDom s.x s.y s.z s.p ∧ μ ≤ (csqrt s.x).re ∧ μ ≤ (csqrt s.y).re ∧ μ ≤ (csqrt s.z).re)
        (fun s hs => ⟨hs.1.step, dup_re hs.1.slit.1 hs.1.slit.2.1 hs.1.slit.2.2.1 hμ hs.2.1 hs.2.2.1 hs.2.2.2⟩) (s := jStep δ s0)
        ⟨hd, dup_re' hμ m1 m2 m3⟩
      rw [Function.iterate_succ_apply]
      exact Or.inl ((hinv n).2.1.trans (Complex.re_le_norm _))
  generalize (jStep δ)^[n] s0 = st at *
  have ew : ∀ w : ℂ, st.A * (1 - (st.A - w) / st.A) = w := fun w => by field_simp; ring
  have hlow' : 1 / (‖st.A‖ * ‖csqrt st.A‖) ≤ 7 / 5 / μ ^ 3 := by
    rcases hlow with hl | hl
    · exact A_lower hμ bX (by rwa [ew])
    · exact A_lower hμ bY (by rwa [ew])
  calc _ ≤ _ := hb
    _ ≤ 1 * (3072 * eps * (7 / 5 / μ ^ 3)) := by gcongr
    _ = 3072 * (7 / 5) * eps / μ ^ 3 := by ring
    _ ≤ _ := by gcongr; norm_num

/-- **C150** `elliprj` at complex arguments, all in the right half plane, or `x` and `p` positive and `y`, `z` conjugate and off the cut, with `p` different from `x`,
`y` and `z`: the value differs from `R_J(x, y, z, p)` by at most `4400 eps / μ³`, where `μ` is at most half the real part of the sum of any two of the roots of
`x`, `y`, `z`. -/
theorem C150_elliprj {eps : ℝ} (h0 : 0 < eps) (h1 : eps ≤ 1 / 2 ^ 20) {x y z p : ℂ}
    (h : (0 < x.re ∧ 0 < y.re ∧ 0 < z.re ∧ 0 < p.re) ∨ ∃ X P : ℝ, 0 < X ∧ 0 < P ∧ x = X ∧ p = P ∧ y ∈ Complex.slitPlane ∧ z = (starRingEnd ℂ) y)
    (hx : p ≠ x) (hy : p ≠ y) (hz : p ≠ z) {μ : ℝ} (hμ : 0 < μ)
    (m1 : 2 * μ ≤ (csqrt x + csqrt y).re) (m2 : 2 * μ ≤ (csqrt x + csqrt z).re) (m3 : 2 * μ ≤ (csqrt y + csqrt z).re) :
    ∃ v, elliprj eps x y z p = .val v ∧ ‖v - RJc x y z p‖ ≤ 4400 * eps / μ ^ 3 := by
  have hδ : (p - x) * (p - y) * (p - z) ≠ 0 := mul_ne_zero (mul_ne_zero (sub_ne_zero.mpr hx) (sub_ne_zero.mpr hy)) (sub_ne_zero.mpr hz)
  obtain ⟨v, n, hv, hst⟩ := J_core h0 h1 (show JDom x y z p from h) hδ
  exact ⟨v, hv, J_abs h0 (show JDom x y z p from h).step hμ m1 m2 m3 hst⟩

/-- **C150** with `x` and `p` positive, `y` and `z` conjugate and off the cut, the relative error is at most `5000 eps`. -/
theorem C150_elliprj_conj {eps : ℝ} (h0 : 0 < eps) (h1 : eps ≤ 1 / 2 ^ 20) {x p : ℝ} {y : ℂ} (hx : 0 < x) (hp : 0 < p) (hy : y ∈ Complex.slitPlane)
    (hpx : p ≠ x) (hpy : (p : ℂ) ≠ y) :
    ∃ v, elliprj eps x y ((starRingEnd ℂ) y) p = .val v ∧ ‖v - RJc x y ((starRingEnd ℂ) y) p‖ ≤ 5000 * eps * ‖RJc x y ((starRingEnd ℂ) y) p‖ := by
  have hc : JConj x y ((starRingEnd ℂ) y) p := ⟨x, p, hx, hp, rfl, rfl, hy, rfl⟩
  have hδ : ((p : ℂ) - x) * (p - y) * (p - (starRingEnd ℂ) y) ≠ 0 := by
    refine mul_ne_zero (mul_ne_zero (sub_ne_zero.mpr (by exact_mod_cast hpx)) (sub_ne_zero.mpr hpy)) (sub_ne_zero.mpr fun e => hpy ?_)
    have := congrArg (starRingEnd ℂ) e
    rwa [Complex.conj_ofReal, Complex.conj_conj] at this
  obtain ⟨v, n, hv, hst⟩ := J_core h0 h1 (Or.inr hc) hδ
  refine ⟨v, hv, ?_⟩
  simp only at hst
  set δ := ((p : ℂ) - x) * (p - y) * (p - (starRingEnd ℂ) y) with hδd
  set s0 : JState := ⟨x, y, (starRingEnd ℂ) y, p, jA0 x y ((starRingEnd ℂ) y) p, 1, 0, 0, False⟩ with hs0
  have hinv := iterate_inv (step := jStep δ) (fun s => JConj s.x s.y s.z s.p ∧ δ * (1 / 4 ^ (3 * s.m)) = (s.p - s.x) * (s.p - s.y) * (s.p - s.z) ∧ 0 ≤ s.pow4 ∧
      ∃ σ : ℝ, 0 ≤ σ ∧ s.s = σ) (fun s hs => by
        obtain ⟨c1, c2, c3, σ, c4, c5⟩ := hs
        have hne : (s.p - s.x) * (s.p - s.y) * (s.p - s.z) ≠ 0 := by
          rw [← c2]
          exact mul_ne_zero hδ (one_div_ne_zero (pow_ne_zero _ (by norm_num)))
        obtain ⟨τ, τ0, hτ⟩ := c1.term hne
        refine ⟨c1.step, ?_, ?_, σ + τ * s.pow4, by positivity, ?_⟩
        · simp only [jStep]
          rw [show 3 * (s.m + 1) = 3 * s.m + 3 by ring, pow_add, ← one_div_mul_one_div, ← mul_assoc, c2]
          ring
        · simp only [jStep]
          positivity
        · simp only [jStep]
          rw [c5, c2, mul_div_right_comm, hτ]
          push_cast
          ring) (s := s0) ⟨hc, by simp [hs0, hδd], by simp [hs0], 0, le_rfl, by simp [hs0]⟩ n
  obtain ⟨⟨-, -, -, hR⟩, q0, q1, hA0, bX, bY, bP, hre, hb⟩ := hst
  obtain ⟨hC, -, -, σ, σ0, hσ⟩ := hinv
  generalize (jStep δ)^[n] s0 = st at *
  have ew : ∀ w : ℂ, st.A * (1 - (st.A - w) / st.A) = w := fun w => by field_simp; ring
  obtain ⟨X, P, hX, hP, ex, ep, hY, ez⟩ := hC
  have hle : ∀ w : ℂ, ‖(st.A - w) / st.A‖ ≤ 1 / 4 → ‖w‖ ≤ 5 / 4 * ‖st.A‖ := fun w hw => by
    have e := congrArg norm (ew w)
    rw [norm_mul] at e
    rw [← e]
    have : ‖1 - (st.A - w) / st.A‖ ≤ 5 / 4 := (norm_sub_le _ _).trans (by rw [norm_one]; linarith)
    nlinarith [norm_nonneg st.A]
  have b1 := hle _ bX
  have b2 := hle _ bY
  have b3 := hle _ bP
  rw [ex, Complex.norm_real, Real.norm_of_nonneg hX.le] at b1
  rw [ep, Complex.norm_real, Real.norm_of_nonneg hP.le] at b3
  obtain ⟨R, hRe, hRl⟩ := RJ_lower_conj hX hP hY b1 b2 b3
  rw [ex, ep, ez, hRe, hσ] at hR
  have hnorm : ‖RJc x y ((starRingEnd ℂ) y) p‖ = 6 * σ + st.pow4 * R := by
    have hA : 0 < ‖st.A‖ := norm_pos_iff.mpr hA0
    have hR0 : 0 ≤ R := le_trans (by positivity) hRl
    rw [hR, show (6 : ℂ) * σ + st.pow4 * R = ((6 * σ + st.pow4 * R : ℝ) : ℂ) by push_cast; ring, Complex.norm_real, Real.norm_of_nonneg (by positivity)]
  rw [hnorm]
  have hAn : ‖csqrt st.A‖ = √‖st.A‖ := by rw [norm_csqrt, ← Real.sqrt_eq_rpow]
  have hA : 0 < ‖st.A‖ := norm_pos_iff.mpr hA0
  rw [hAn] at hb
  have h9 := sqrt_ratio3 hA (ε := 1 / 4) (by norm_num) le_rfl
  have e54 : ‖st.A‖ * (1 + 1 / 4) = 5 / 4 * ‖st.A‖ := by ring
  rw [e54] at h9
  calc _ ≤ _ := hb
    _ ≤ st.pow4 * (3072 * eps * (45 / 32 * R)) := by
      gcongr
      linarith
    _ = 4320 * eps * (st.pow4 * R) := by ring
    _ ≤ 5000 * eps * (6 * σ + st.pow4 * R) := by
      have : 0 ≤ st.pow4 * R := mul_nonneg q0.le (le_trans (by positivity) hRl)
      nlinarith

/-- `y = -1 + i`, in the left half plane, with its conjugate; and three different complex arguments of the right half plane. -/
example : (∃ v, elliprj (1 / 2 ^ 52) (1 : ℝ) (-1 + Complex.I) ((starRingEnd ℂ) (-1 + Complex.I)) (3 : ℝ) = .val v ∧
      ‖v - RJc (1 : ℝ) (-1 + Complex.I) ((starRingEnd ℂ) (-1 + Complex.I)) (3 : ℝ)‖ ≤
        5000 * (1 / 2 ^ 52) * ‖RJc (1 : ℝ) (-1 + Complex.I) ((starRingEnd ℂ) (-1 + Complex.I)) (3 : ℝ)‖) ∧
    ∃ μ : ℝ, 0 < μ ∧ ∃ v, elliprj (1 / 2 ^ 52) (1 + Complex.I) (2 + 3 * Complex.I) (1 / 2 - Complex.I) (2 + Complex.I) = .val v ∧
      ‖v - RJc (1 + Complex.I) (2 + 3 * Complex.I) (1 / 2 - Complex.I) (2 + Complex.I)‖ ≤ 4400 * (1 / 2 ^ 52) / μ ^ 3 := by
  refine ⟨C150_elliprj_conj (by positivity) (by norm_num) one_pos (by norm_num) (Or.inr (by simp)) (by norm_num) fun e => by simpa using congrArg Complex.im e, ?_⟩
  have r1 : (1 + Complex.I) ∈ Complex.slitPlane := Or.inl (by simp)
  have r2 : (2 + 3 * Complex.I) ∈ Complex.slitPlane := Or.inl (by simp)
  have r3 : (1 / 2 - Complex.I) ∈ Complex.slitPlane := Or.inl (by norm_num)
  have q1 := re_sum_pos r1 r2
  have q2 := re_sum_pos r1 r3
  have q3 := re_sum_pos r2 r3
  refine ⟨min (min ((csqrt (1 + Complex.I) + csqrt (2 + 3 * Complex.I)).re / 2) ((csqrt (1 + Complex.I) + csqrt (1 / 2 - Complex.I)).re / 2))
    ((csqrt (2 + 3 * Complex.I) + csqrt (1 / 2 - Complex.I)).re / 2), by simp only [lt_min_iff]; exact ⟨⟨by linarith, by linarith⟩, by linarith⟩, ?_⟩
  refine C150_elliprj (by positivity) (by norm_num) (Or.inl ⟨by simp, by simp, by norm_num, by simp⟩) (fun e => ?_) (fun e => ?_) (fun e => ?_)
    (by simp only [lt_min_iff]; exact ⟨⟨by linarith, by linarith⟩, by linarith⟩) ?_ ?_ ?_
  · simpa using congrArg Complex.re e
  · simpa using congrArg Complex.im e
  · have := congrArg Complex.im e
    norm_num at this
  · linarith [(min_le_left (min ((csqrt (1 + Complex.I) + csqrt (2 + 3 * Complex.I)).re / 2) ((csqrt (1 + Complex.I) + csqrt (1 / 2 - Complex.I)).re / 2))
      ((csqrt (2 + 3 * Complex.I) + csqrt (1 / 2 - Complex.I)).re / 2)).trans (min_le_left _ _)]
  · linarith [(min_le_left (min ((csqrt (1 + Complex.I) + csqrt (2 + 3 * Complex.I)).re / 2) ((csqrt (1 + Complex.I) + csqrt (1 / 2 - Complex.I)).re / 2))
      ((csqrt (2 + 3 * Complex.I) + csqrt (1 / 2 - Complex.I)).re / 2)).trans (min_le_right _ _)]
  · linarith [min_le_right (min ((csqrt (1 + Complex.I) + csqrt (2 + 3 * Complex.I)).re / 2) ((csqrt (1 + Complex.I) + csqrt (1 / 2 - Complex.I)).re / 2))
      ((csqrt (2 + 3 * Complex.I) + csqrt (1 / 2 - Complex.I)).re / 2)]

end Verif.Ellred

import Verif.Carlson.RoundDModel
import Verif.Carlson.RoundCore
import Verif.Carlson.AccuracyDJ

/-! # Rounding in elliprd: the loop -/

namespace Verif.Carlson.Flt

open Verif.Round MeasureTheory Set

variable {p : ℕ} {fl : ℝ → ℝ} {w : ℝ} {k : ℕ}

theorem RD_anti {x y z x' y' z' : ℝ} (h : Args x y z) (h' : Args x' y' z') (hz0 : 0 < z) (hx : x ≤ x') (hy : y ≤ y') (hz : z ≤ z') :
    RD x' y' z' ≤ RD x y z := by
  rw [RD_eq_RJ, RD_eq_RJ, RJ, RJ]
  apply mul_le_mul_of_nonneg_left _ (by norm_num)
  apply setIntegral_mono_on (RJ_integrable h' (hz0.trans_le hz)) (RJ_integrable h hz0) measurableSet_Ioi
  intro t ht
  have ht : 0 < t := ht
  have := h.x0
  have := h.y0
  have p1 : 0 < √(t + x) := Real.sqrt_pos.mpr (by linarith)
  have p2 : 0 < √(t + y) := Real.sqrt_pos.mpr (by linarith)
  have p3 : 0 < √(t + z) := Real.sqrt_pos.mpr (by linarith)
  apply one_div_le_one_div_of_le (by positivity)
  gcongr

theorem RD_pos {x y z : ℝ} (h : Args x y z) (hz : 0 < z) : 0 < RD x y z := by
  have hS : 0 < x + y + z := isNonneg_args h
  have := RJ_lower (M := x + y + z) h hz (by linarith [h.yz]) (by linarith [h.xz]) (by linarith [h.xy]) (by linarith [h.xy])
  rw [RD_eq_RJ]
  refine lt_of_lt_of_le ?_ this
  have := Real.sqrt_pos.mpr hS
  positivity

theorem RD_near_aux (hw : 1 ≤ w) {x y z x' y' z' : ℝ} (h : Args x y z) (h' : Args x' y' z') (hz0 : 0 < z) (hx : x ≤ w ^ (2 * k) * x')
    (hy : y ≤ w ^ (2 * k) * y') (hz : z ≤ w ^ (2 * k) * z') : RD x' y' z' ≤ w ^ (3 * k) * RD x y z := by
  have hk : 0 < w ^ k := pow_pos (by linarith) k
  have h2 : 0 < w ^ (2 * k) := pow_pos (by linarith) _
  have hs : √(w ^ (2 * k)) = w ^ k := by rw [mul_comm 2 k, pow_mul, Real.sqrt_sq hk.le]
  have hargs : Args (w ^ (2 * k) * x') (w ^ (2 * k) * y') (w ^ (2 * k) * z') := by
    refine ⟨mul_nonneg h2.le h'.x0, mul_nonneg h2.le h'.y0, mul_nonneg h2.le h'.z0, ?_, ?_, ?_⟩ <;> rw [← mul_add]
    · exact mul_pos h2 h'.xy
    · exact mul_pos h2 h'.yz
    · exact mul_pos h2 h'.xz
  have := RD_anti h hargs hz0 hx hy hz
  rw [RD_eq_RJ, RJ_scale _ _ _ _ _ h2, ← RD_eq_RJ, hs, ← pow_add, div_le_iff₀ (pow_pos (by linarith) _), show 2 * k + k = 3 * k by ring] at this
  linarith

/-- `R_D` is homogeneous of degree `-3/2` and decreasing. -/
theorem RD_near (hw : 1 ≤ w) {x y z x' y' z' : ℝ} (h : Args x y z) (h' : Args x' y' z') (hz0 : 0 < z) (hz0' : 0 < z') (hx : Near w (2 * k) x x')
    (hy : Near w (2 * k) y y') (hz : Near w (2 * k) z z') : Near w (3 * k) (RD x y z) (RD x' y' z') :=
  ⟨RD_near_aux hw h' h hz0' hx.2 hy.2 hz.2, RD_near_aux hw h h' hz0 hx.1 hy.1 hz.1⟩

/-- `A0` up to 3 roundings. -/
theorem dA0_near (hf : Nearest p fl) (hp : 24 ≤ p) {x y z : ℝ} (hx : 0 ≤ x) (hy : 0 ≤ y) (hz : 0 ≤ z) :
    Near (1 - (2 ^ p)⁻¹)⁻¹ 3 (dA0F fl x y z) ((x + y + 3 * z) / 5) := by
  have hp1 : 1 ≤ p := by omega
  have hw := w_ge hp
  have h0 := add_nonneg hx hy
  have h0' : 0 ≤ 3 * z := by linarith
  have h1 := near_fl hf hp1 h0
  have h1' := fl_nonneg hf hp1 h0
  have g1 := near_fl hf hp1 h0'
  have g1' := fl_nonneg hf hp1 h0'
  have h3 := (near_fl hf hp1 (add_nonneg h1' g1')).trans hw (h1.add g1)
  have h3' := fl_nonneg hf hp1 (add_nonneg h1' g1')
  have h4 := h3.scale (show (0 : ℝ) ≤ 1 / 5 by norm_num)
  have h5 := (near_fl hf hp1 (mul_nonneg h3' (show (0 : ℝ) ≤ 1 / 5 by norm_num))).trans hw h4
  unfold dA0F
  simpa only [mul_one_div] using h5

/-- What holds of the loop variables after `n` steps. -/
structure DInv (p : ℕ) (x y z A0 : ℝ) (n : ℕ) (s : RDState) : Prop where
  ghost : ∃ g G, Inv p x y z G n ⟨s.x, s.y, s.z, g, s.pow4⟩
  zpos : 0 < s.z
  mean : Near (1 - (2 ^ p)⁻¹)⁻¹ (3 + 2 * n) s.A ((s.x + s.y + 3 * s.z) / 5)
  dx : |s.A - s.x - s.pow4 * (A0 - x)| ≤ 82 / 5 * (n * ((1 - (2 ^ p)⁻¹)⁻¹ ^ n * (2 ^ p)⁻¹)) * ((s.x + s.y + 3 * s.z) / 5)
  dy : |s.A - s.y - s.pow4 * (A0 - y)| ≤ 82 / 5 * (n * ((1 - (2 ^ p)⁻¹)⁻¹ ^ n * (2 ^ p)⁻¹)) * ((s.x + s.y + 3 * s.z) / 5)
  s0 : 0 ≤ s.s
  total : Near (1 - (2 ^ p)⁻¹)⁻¹ (10 * n) (3 * s.s + s.pow4 * RD s.x s.y s.z) (RD x y z)

theorem dinv_zero (hf : Nearest p fl) (hp : 24 ≤ p) {x y z : ℝ} (h : Args x y z) (hz : 0 < z) :
    DInv p x y z (dA0F fl x y z) 0 ⟨x, y, z, dA0F fl x y z, 1, 0⟩ where
  ghost := ⟨_, _, inv_zero hf hp h⟩
  zpos := hz
  mean := dA0_near hf hp h.x0 h.y0 h.z0
  dx := by simp
  dy := by simp
  s0 := le_rfl
  total := by simpa using Near.refl _

theorem dinv_succ (hf : Nearest p fl) (hp : 24 ≤ p) {x y z A0 : ℝ} {n : ℕ} (hn : n ≤ 1000) {s : RDState} (h : DInv p x y z A0 n s) :
    DInv p x y z A0 (n + 1) (dStepF fl s) := by
  obtain ⟨g, G, hI⟩ := h.ghost
  have hI' := inv_succ hf hp hn hI
  have hp1 : 1 ≤ p := by omega
  have hw := w_ge hp
  have hu0 : (0 : ℝ) < (2 ^ p)⁻¹ := by positivity
  have hx := hI.args.x0
  have hy := hI.args.y0
  have hz := h.zpos
  simp only at hx hy
  have hargs : Args s.x s.y s.z := hI.args
  have hpw : s.pow4 = (1 / 4) ^ n := hI.pow4
  obtain ⟨hlam, hdup⟩ := hargs.dup
  obtain ⟨l, hl⟩ : ∃ l, l = lmF fl s.x s.y s.z := ⟨_, rfl⟩
  have hln : Near (1 - (2 ^ p)⁻¹)⁻¹ 5 l (lam s.x s.y s.z 0) := hl ▸ lm_near hf hp
  have hl0 : 0 < l := hln.pos hw hlam
  have hM0 : 0 < (s.x + s.y + 3 * s.z) / 5 := by linarith
  have hA0 : 0 < s.A := h.mean.pos hw hM0
  have e : dStepF fl s = ⟨fl (s.x + l) / 4, fl (s.y + l) / 4, fl (s.z + l) / 4, fl (s.A + l) / 4, s.pow4 / 4,
      fl (s.s + fl (fl (s.pow4 / fl (√s.z)) / fl (s.z + l)))⟩ := by
    unfold dStepF
    simp only [fl_div4 hf, ← hl]
  have eI : fStepF fl ⟨s.x, s.y, s.z, g, s.pow4⟩ = ⟨fl (s.x + l) / 4, fl (s.y + l) / 4, fl (s.z + l) / 4, fl (g + l) / 4, s.pow4 / 4⟩ := by
    unfold fStepF
    simp only [fl_div4 hf, ← hl]
  rw [eI] at hI'
  rw [e]
  have hnew : ∀ a : ℝ, 0 ≤ a → Near (1 - (2 ^ p)⁻¹)⁻¹ 1 (fl (a + l) / 4) ((a + l) / 4) ∧ 0 < fl (a + l) / 4 ∧
      Near (1 - (2 ^ p)⁻¹)⁻¹ 6 (fl (a + l)) (a + lam s.x s.y s.z 0) ∧
      Near (1 - (2 ^ p)⁻¹)⁻¹ 6 (fl (a + l) / 4) ((a + lam s.x s.y s.z 0) / 4) := fun a ha => by
    have h1 := near_fl hf hp1 (show 0 ≤ a + l by linarith)
    have h2 := h1.scale (show (0 : ℝ) ≤ 1 / 4 by norm_num)
    have h3' := (h1.trans hw (((Near.refl a).mono hw (show 0 ≤ 5 by omega) ha ha).add hln))
    have h3 := h3'.scale (show (0 : ℝ) ≤ 1 / 4 by norm_num)
    simp only [mul_one_div] at h2 h3
    exact ⟨h2, by have := h1.pos hw (by linarith); positivity, h3', h3⟩
  obtain ⟨x1, x2, -, x3⟩ := hnew s.x hx
  obtain ⟨y1, y2, -, y3⟩ := hnew s.y hy
  obtain ⟨z1, z2, z4, z3⟩ := hnew s.z hz.le
  obtain ⟨a1, a2, -, -⟩ := hnew s.A hA0.le
  -- the mean of the new arguments
  have hM : Near (1 - (2 ^ p)⁻¹)⁻¹ 1 ((fl (s.x + l) / 4 + fl (s.y + l) / 4 + 3 * (fl (s.z + l) / 4)) / 5) (((s.x + s.y + 3 * s.z) / 5 + l) / 4) := by
    have z5 := z1.scale (show (0 : ℝ) ≤ 3 by norm_num)
    have := ((x1.add y1).add z5).scale (show (0 : ℝ) ≤ 1 / 5 by norm_num)
    rw [mul_one_div, mul_one_div, mul_comm _ (3 : ℝ)] at this
    rwa [show ((s.x + l) / 4 + (s.y + l) / 4 + (s.z + l) / 4 * 3) / 5 = ((s.x + s.y + 3 * s.z) / 5 + l) / 4 by ring] at this
  have hdiff : ∀ a d : ℝ, 0 ≤ a → a ≤ s.x + s.y + 3 * s.z →
      |s.A - a - s.pow4 * d| ≤ 82 / 5 * (n * ((1 - (2 ^ p)⁻¹)⁻¹ ^ n * (2 ^ p)⁻¹)) * ((s.x + s.y + 3 * s.z) / 5) →
      |fl (s.A + l) / 4 - fl (a + l) / 4 - s.pow4 / 4 * d| ≤ 82 / 5 * ((n + 1 : ℕ) * ((1 - (2 ^ p)⁻¹)⁻¹ ^ (n + 1) * (2 ^ p)⁻¹)) *
        ((fl (s.x + l) / 4 + fl (s.y + l) / 4 + 3 * (fl (s.z + l) / 4)) / 5) := fun a d ha haS hE => by
    obtain ⟨δ, b1, e1⟩ := hf.factor hp1 (s.A + l)
    obtain ⟨δ', b2, e2⟩ := hf.factor hp1 (a + l)
    rw [e1, e2]
    refine (diff_step hA0.le ha hl0.le b1 b2 hE).trans ?_
    have k1 := w_pow_le hp (show 3 + 2 * n ≤ 10000 by omega)
    have k2 := w_pow_le hp (show 5 ≤ 10000 by omega)
    have k3 := h.mean.1
    have k4 := hln.1
    have k5 := lam_le hx hy hz.le
    have k6 := hM.2
    obtain ⟨M', hM'⟩ : ∃ M', M' = (fl (s.x + l) / 4 + fl (s.y + l) / 4 + 3 * (fl (s.z + l) / 4)) / 5 := ⟨_, rfl⟩
    obtain ⟨M, hMd⟩ : ∃ M, M = (s.x + s.y + 3 * s.z) / 5 := ⟨_, rfl⟩
    have hM0 : 0 < M := by rw [hMd]; exact hM0
    have hM0' : 0 < M' := by rw [hM']; positivity
    rw [← hM'] at k6 ⊢
    rw [← hMd] at k3 k6 ⊢
    have k7 : lam s.x s.y s.z 0 ≤ 5 * M := by rw [hMd]; linarith
    rw [show s.x + s.y + 3 * s.z = 5 * M by rw [hMd]; ring] at haS
    generalize hud : ((2 : ℝ) ^ p)⁻¹ = u at *
    generalize hwd : (1 - u)⁻¹ = w at *
    have hA : s.A ≤ 101 / 100 * M := k3.trans (by gcongr)
    have hlM : l ≤ 101 / 100 * (5 * M) := k4.trans (by gcongr)
    have hMM : M ≤ 4 * (w * M') := by rw [pow_one] at k6; linarith
    have hwn : 1 ≤ w ^ n := one_le_pow₀ hw
    have t1 : u * (s.A + a + 2 * l) / 4 ≤ u * (41 / 10 * M) := by
      rw [mul_div_assoc]; gcongr; linarith
    have hX : 0 ≤ (n : ℝ) * (w ^ n * u) := by positivity
    have t2 : 82 / 5 * (n * (w ^ n * u)) * M / 4 ≤ 82 / 5 * (n * (w ^ n * u)) * (w * M') := by
      rw [mul_div_assoc]; gcongr; linarith
    have t3 : u * (41 / 10 * M) ≤ 82 / 5 * (w ^ (n + 1) * u) * M' := by
      calc u * (41 / 10 * M) ≤ u * (41 / 10 * (4 * (w * M'))) := by gcongr
        _ = 82 / 5 * (1 * w * u) * M' := by ring
        _ ≤ 82 / 5 * (w ^ n * w * u) * M' := by gcongr
        _ = _ := by rw [pow_succ]
    calc _ ≤ 82 / 5 * (n * (w ^ n * u)) * (w * M') + 82 / 5 * (w ^ (n + 1) * u) * M' := by linarith
      _ = _ := by push_cast; rw [pow_succ]; ring
  -- the new term
  have hpw0 : 0 < s.pow4 := by rw [hpw]; positivity
  have hsz : 0 < √s.z := Real.sqrt_pos.mpr hz
  have r1 := near_fl hf hp1 hsz.le
  have r1p := r1.pos hw hsz
  have q1 := ((Near.refl s.pow4).mul hw (r1.inv r1p hsz) hpw0.le (by positivity))
  rw [← div_eq_mul_inv, ← div_eq_mul_inv] at q1
  have q1p : 0 < s.pow4 / fl (√s.z) := by positivity
  have q2 := (near_fl hf hp1 q1p.le).trans hw q1
  have q2p := q2.pos hw (by positivity)
  have hzl : 0 < s.z + lam s.x s.y s.z 0 := by linarith
  have z4p := z4.pos hw hzl
  have q3 := q2.mul hw (z4.inv z4p hzl) (by positivity) (by positivity)
  rw [← div_eq_mul_inv, ← div_eq_mul_inv] at q3
  have q3p : 0 < fl (s.pow4 / fl (√s.z)) / fl (s.z + l) := by positivity
  have q4 := (near_fl hf hp1 q3p.le).trans hw q3
  have q4p := q4.pos hw (by positivity)
  have hT : 0 < s.pow4 / √s.z / (s.z + lam s.x s.y s.z 0) := by positivity
  have q5 := ((Near.refl s.s).mono hw (show 0 ≤ 1 + (0 + 1 + 0 + 1 + 6) by omega) h.s0 h.s0)
  have q6 := (q5.add (q4.mono hw (by omega) q4p.le hT.le))
  have hsum0 : 0 ≤ s.s + fl (fl (s.pow4 / fl (√s.z)) / fl (s.z + l)) := add_nonneg h.s0 q4p.le
  have q7 := (near_fl hf hp1 hsum0).trans hw q6
  have hs0 := fl_nonneg hf hp1 hsum0
  have hargs' : Args (fl (s.x + l) / 4) (fl (s.y + l) / 4) (fl (s.z + l) / 4) := hI'.args
  refine ⟨⟨_, G, hI'⟩, z2, ?_, hdiff s.x _ hx (by linarith) h.dx, hdiff s.y _ hy (by linarith) h.dy, hs0, ?_⟩
  · have m1 := (h.mean.add ((Near.refl l).mono hw (show 0 ≤ 3 + 2 * n by omega) hl0.le hl0.le)).scale (show (0 : ℝ) ≤ 1 / 4 by norm_num)
    rw [mul_one_div, mul_one_div] at m1
    have := (a1.trans hw m1).trans hw hM.symm
    rwa [show 1 + (3 + 2 * n) + 1 = 3 + 2 * (n + 1) by ring] at this
  · have hzd : 0 < (s.z + lam s.x s.y s.z 0) / 4 := by positivity
    have hRn := RD_near (k := 3) hw hargs' hdup z2 hzd x3 y3 z3
    have hR1 := RD_pos hargs' z2
    have hR2 := RD_pos hdup hzd
    have t1 := (hRn.mono hw (show 3 * 3 ≤ 10 by omega) hR1.le hR2.le).scale (show 0 ≤ s.pow4 / 4 by positivity)
    have t2 := (q7.scale (show (0 : ℝ) ≤ 3 by norm_num)).mono hw (show _ ≤ 10 by omega) (by positivity) (by have := h.s0; positivity)
    have t3 := (t2.add t1)
    have hd := RD_dup hargs hz
    have e1 : (s.s + s.pow4 / √s.z / (s.z + lam s.x s.y s.z 0)) * 3 +
        RD ((s.x + lam s.x s.y s.z 0) / 4) ((s.y + lam s.x s.y s.z 0) / 4) ((s.z + lam s.x s.y s.z 0) / 4) * (s.pow4 / 4) =
        3 * s.s + s.pow4 * RD s.x s.y s.z := by
      rw [hd]; field_simp; ring
    rw [e1, mul_comm _ (3 : ℝ), mul_comm (RD _ _ _)] at t3
    have := t3.trans hw h.total
    rwa [show 10 + 10 * n = 10 * (n + 1) by ring] at this

end Verif.Carlson.Flt

import Verif.Carlson.RoundJModel
import Verif.Carlson.RoundCore
import Verif.Carlson.ClosedRC
import Verif.Carlson.AccuracyDJ

/-! # Rounding in elliprj: the loop -/

namespace Verif.Carlson.Flt

open Verif.Round MeasureTheory Set

variable {p : ℕ} {fl : ℝ → ℝ} {w : ℝ} {k : ℕ}

theorem RJ_anti {x y z q x' y' z' q' : ℝ} (h : Args x y z) (h' : Args x' y' z') (hq0 : 0 < q) (hx : x ≤ x') (hy : y ≤ y') (hz : z ≤ z') (hq : q ≤ q') :
    RJ x' y' z' q' ≤ RJ x y z q := by
  rw [RJ, RJ]
  apply mul_le_mul_of_nonneg_left _ (by norm_num)
  apply setIntegral_mono_on (RJ_integrable h' (hq0.trans_le hq)) (RJ_integrable h hq0) measurableSet_Ioi
  intro t ht
  have ht : 0 < t := ht
  have := h.x0
  have := h.y0
  have := h.z0
  have p1 : 0 < √(t + x) := Real.sqrt_pos.mpr (by linarith)
  have p2 : 0 < √(t + y) := Real.sqrt_pos.mpr (by linarith)
  have p3 : 0 < √(t + z) := Real.sqrt_pos.mpr (by linarith)
  apply one_div_le_one_div_of_le (by positivity)
  gcongr

theorem RJ_pos {x y z q : ℝ} (h : Args x y z) (hq : 0 < q) : 0 < RJ x y z q := by
  have hS : 0 < x + y + z := isNonneg_args h
  have := RJ_lower (M := x + y + z + q) h hq (by linarith [h.yz]) (by linarith [h.xz]) (by linarith [h.xy]) (by linarith [h.xy])
  refine lt_of_lt_of_le ?_ this
  have := Real.sqrt_pos.mpr (show 0 < x + y + z + q by linarith)
  positivity

theorem RJ_near_aux (hw : 1 ≤ w) {x y z q x' y' z' q' : ℝ} (h : Args x y z) (h' : Args x' y' z') (hq0 : 0 < q) (hx : x ≤ w ^ (2 * k) * x')
    (hy : y ≤ w ^ (2 * k) * y') (hz : z ≤ w ^ (2 * k) * z') (hq : q ≤ w ^ (2 * k) * q') : RJ x' y' z' q' ≤ w ^ (3 * k) * RJ x y z q := by
  have hk : 0 < w ^ k := pow_pos (by linarith) k
  have h2 : 0 < w ^ (2 * k) := pow_pos (by linarith) _
  have hs : √(w ^ (2 * k)) = w ^ k := by rw [mul_comm 2 k, pow_mul, Real.sqrt_sq hk.le]
  have hargs : Args (w ^ (2 * k) * x') (w ^ (2 * k) * y') (w ^ (2 * k) * z') := by
    refine ⟨mul_nonneg h2.le h'.x0, mul_nonneg h2.le h'.y0, mul_nonneg h2.le h'.z0, ?_, ?_, ?_⟩ <;> rw [← mul_add]
    · exact mul_pos h2 h'.xy
    · exact mul_pos h2 h'.yz
    · exact mul_pos h2 h'.xz
  have := RJ_anti h hargs hq0 hx hy hz hq
  rw [RJ_scale _ _ _ _ _ h2, hs, ← pow_add, div_le_iff₀ (pow_pos (by linarith) _), show 2 * k + k = 3 * k by ring] at this
  linarith

/-- `R_J` is homogeneous of degree `-3/2` and decreasing. -/
theorem RJ_near (hw : 1 ≤ w) {x y z q x' y' z' q' : ℝ} (h : Args x y z) (h' : Args x' y' z') (hq0 : 0 < q) (hq0' : 0 < q') (hx : Near w (2 * k) x x')
    (hy : Near w (2 * k) y y') (hz : Near w (2 * k) z z') (hq : Near w (2 * k) q q') : Near w (3 * k) (RJ x y z q) (RJ x' y' z' q') :=
  ⟨RJ_near_aux hw h' h hq0' hx.2 hy.2 hz.2 hq.2, RJ_near_aux hw h h' hq0 hx.1 hy.1 hz.1 hq.1⟩

theorem RC_near (hw : 1 ≤ w) {y y' : ℝ} (hy : 0 < y) (hy' : 0 < y') (h : Near w (2 * k) y y') : Near w k (RC 1 y) (RC 1 y') := by
  rw [RC_eq_RF _ _ hy.le, RC_eq_RF _ _ hy'.le]
  exact RF_near hw (Args.of_pair zero_le_one hy) (Args.of_pair zero_le_one hy')
    ((Near.refl 1).mono hw (by omega) zero_le_one zero_le_one) h h

theorem RC_pos {y : ℝ} (hy : 0 < y) : 0 < RC 1 y := by
  rw [RC_eq_RF _ _ hy.le]
  exact RF_pos (Args.of_pair zero_le_one hy)

/-- A rounding as a factor. -/
theorem fl_factor (hf : Nearest p fl) (hp : 24 ≤ p) (a : ℝ) : ∃ c, 0 < c ∧ Near (1 - (2 ^ p)⁻¹)⁻¹ 1 c 1 ∧ fl a = a * c := by
  have hu := unit24 hp
  have hu0 : (0 : ℝ) < (2 ^ p)⁻¹ := by positivity
  obtain ⟨δ, hδ, e⟩ := hf.factor (by omega) a
  obtain ⟨l, r⟩ := abs_le.mp hδ
  refine ⟨1 + δ, by linarith, ?_, e⟩
  generalize ((2 : ℝ) ^ p)⁻¹ = u at *
  have h1 : 0 < 1 - u := by linarith
  rw [Near, pow_one]
  constructor
  · rw [mul_one]
    exact (by linarith : 1 + δ ≤ 1 + u).trans (one_add_le_w (by linarith))
  · rw [inv_mul_eq_div, le_div_iff₀ h1]
    linarith

/-- `delta` up to 5 roundings; it has the right sign. -/
theorem delta_near (hf : Nearest p fl) (hp : 24 ≤ p) (x y z q : ℝ) :
    ∃ c, 0 < c ∧ Near (1 - (2 ^ p)⁻¹)⁻¹ 5 c 1 ∧ deltaF fl x y z q = (q - x) * (q - y) * (q - z) * c := by
  have hw := w_ge hp
  obtain ⟨c1, p1, n1, e1⟩ := fl_factor hf hp (q - x)
  obtain ⟨c2, p2, n2, e2⟩ := fl_factor hf hp (q - y)
  obtain ⟨c3, p3, n3, e3⟩ := fl_factor hf hp (q - z)
  obtain ⟨c4, p4, n4, e4⟩ := fl_factor hf hp (fl (q - x) * fl (q - y))
  obtain ⟨c5, p5, n5, e5⟩ := fl_factor hf hp (fl (fl (q - x) * fl (q - y)) * fl (q - z))
  refine ⟨c1 * c2 * c4 * c3 * c5, by positivity, ?_, ?_⟩
  · have m1 := n1.mul hw n2 zero_le_one p2.le
    have m2 := m1.mul hw n4 (by norm_num) p4.le
    have m3 := m2.mul hw n3 (by norm_num) p3.le
    have m4 := m3.mul hw n5 (by norm_num) p5.le
    simpa using m4
  · rw [deltaF, e5, e4, e3, e2, e1]; ring

/-- The quotient `atan(sqrt(em)) / sqrt(em)`, `em` being `e` up to a factor. `1 ≤ κ (1 + e)` keeps a negative `e` away from -1. -/
theorem ratio_near (hf : Nearest p fl) (hp : 24 ≤ p) {e c : ℝ} {j κ : ℕ} (he0 : e ≠ 0) (hκ1 : 1 ≤ κ) (hκ : 1 ≤ κ * (1 + e)) (hc0 : 0 < c)
    (hc : Near (1 - (2 ^ p)⁻¹)⁻¹ (2 * j) c 1) (hsmall : ((2 * (j + 1) * κ : ℕ) : ℝ) * (2 ^ p)⁻¹ ≤ 1 / 100) :
    0 < ratioF fl (e * c) ∧ 0 < RC 1 (1 + e) ∧ Near (1 - (2 ^ p)⁻¹)⁻¹ (2 * (j + 1) * κ + 2) (ratioF fl (e * c)) (RC 1 (1 + e)) := by
  have hw := w_ge hp
  have hp1 : 1 ≤ p := by omega
  have hu := unit24 hp
  have hu0 : (0 : ℝ) < (2 ^ p)⁻¹ := by positivity
  have hκ0 : (0 : ℝ) < κ := by exact_mod_cast hκ1
  have h1e : 0 < 1 + e := by
    by_contra hcon
    have := mul_nonpos_of_nonneg_of_nonpos hκ0.le (not_lt.mp hcon)
    linarith
  have hRC := RC_pos h1e
  -- the square root of the computed number
  have root : ∀ f : ℝ, 0 < f → 0 < fl √(f * c) ∧ Near (1 - (2 ^ p)⁻¹)⁻¹ (2 * (j + 1)) (fl √(f * c) ^ 2) f := fun f hf0 => by
    have h1 : Near (1 - (2 ^ p)⁻¹)⁻¹ (2 * j) (f * c) f := by
      have := hc.scale hf0.le
      rwa [one_mul, mul_comm c f] at this
    have h2 := Near.sqrt hw h1
    have hs := Real.sqrt_pos.mpr (mul_pos hf0 hc0)
    have h3 := (near_fl hf hp1 hs.le).trans hw h2
    have h3p := h3.pos hw (Real.sqrt_pos.mpr hf0)
    refine ⟨h3p, ?_⟩
    have h4 := h3.mul hw h3 (Real.sqrt_nonneg f) h3p.le
    rw [Real.mul_self_sqrt hf0.le, ← sq] at h4
    rwa [show 2 * (j + 1) = 1 + j + (1 + j) by ring]
  -- the quotient, two roundings
  have quot : ∀ t v : ℝ, 0 < t → 0 < v → 0 < fl (fl (v * t) / t) ∧ Near (1 - (2 ^ p)⁻¹)⁻¹ 2 (fl (fl (v * t) / t)) v := fun t v ht hv => by
    have hvt : 0 < v * t := by positivity
    have h1 := near_fl hf hp1 hvt.le
    have h1p := h1.pos hw hvt
    have h2 := h1.scale (show 0 ≤ t⁻¹ by positivity)
    rw [← div_eq_mul_inv, mul_inv_cancel_right₀ ht.ne'] at h2
    have h3 := (near_fl hf hp1 (show 0 ≤ fl (v * t) / t by positivity)).trans hw h2
    exact ⟨h3.pos hw hv, h3⟩
  rcases lt_or_gt_of_ne he0 with hneg | hpos
  · have hf0 : 0 < -e := by linarith
    obtain ⟨t0, tn⟩ := root (-e) hf0
    have ec : √(-(e * c)) = √(-e * c) := by rw [neg_mul]
    have hnot : ¬0 ≤ e * c := not_le.mpr (mul_neg_of_neg_of_pos hneg hc0)
    rw [ratioF, if_neg hnot, ec]
    generalize fl √(-e * c) = t at *
    -- t² is close to -e
    have hJ : ((2 * (j + 1) : ℕ) : ℝ) * (2 ^ p)⁻¹ ≤ ((2 * (j + 1) * κ : ℕ) : ℝ) * (2 ^ p)⁻¹ := by
      refine mul_le_mul_of_nonneg_right ?_ hu0.le
      exact_mod_cast Nat.le_mul_of_pos_right _ hκ1
    have habs := Near.abs_le hu0.le (by linarith) (by linarith) hf0.le tn
    have hle : -e ≤ κ * (1 + e) := by linarith
    have hX : 11 / 10 * (((2 * (j + 1) : ℕ) : ℝ) * (2 ^ p)⁻¹) * -e ≤ 11 / 10 * (((2 * (j + 1) * κ : ℕ) : ℝ) * (2 ^ p)⁻¹) * (1 + e) := by
      calc 11 / 10 * (((2 * (j + 1) : ℕ) : ℝ) * (2 ^ p)⁻¹) * -e ≤ 11 / 10 * (((2 * (j + 1) : ℕ) : ℝ) * (2 ^ p)⁻¹) * (κ * (1 + e)) := by gcongr
        _ = _ := by push_cast; ring
    have hd : |(1 - t ^ 2) - (1 + e)| ≤ 11 / 10 * (((2 * (j + 1) * κ : ℕ) : ℝ) * (2 ^ p)⁻¹) * (1 + e) := by
      rw [show (1 - t ^ 2) - (1 + e) = -(t ^ 2 - -e) by ring, abs_neg]
      exact habs.trans hX
    have hy : 98 / 100 * (1 + e) ≤ 1 - t ^ 2 := by
      have := (abs_le.mp hd).1
      have h3 : 11 / 10 * (((2 * (j + 1) * κ : ℕ) : ℝ) * (2 ^ p)⁻¹) * (1 + e) ≤ 11 / 10 * (1 / 100) * (1 + e) := by gcongr
      linarith
    have hy0 : 0 < 1 - t ^ 2 := by linarith
    have hyn : Near (1 - (2 ^ p)⁻¹)⁻¹ (2 * (2 * (j + 1) * κ)) (1 - t ^ 2) (1 + e) := by
      have hG : 0 ≤ ((2 * (j + 1) * κ : ℕ) : ℝ) * (2 ^ p)⁻¹ := by positivity
      have e2 : ((2 * (2 * (j + 1) * κ) : ℕ) : ℝ) * (2 ^ p)⁻¹ = 2 * (((2 * (j + 1) * κ : ℕ) : ℝ) * (2 ^ p)⁻¹) := by push_cast; ring
      refine Near.of_abs hu0.le (by linarith) hy0.le h1e.le (hd.trans ?_) (hd.trans ?_)
      · rw [e2]; gcongr; norm_num
      · rw [e2]
        calc 11 / 10 * (((2 * (j + 1) * κ : ℕ) : ℝ) * (2 ^ p)⁻¹) * (1 + e) ≤ 11 / 10 * (((2 * (j + 1) * κ : ℕ) : ℝ) * (2 ^ p)⁻¹) * (100 / 98 * (1 - t ^ 2)) := by
              gcongr; linarith
          _ = 11 / 10 * (100 / 98) * (((2 * (j + 1) * κ : ℕ) : ℝ) * (2 ^ p)⁻¹) * (1 - t ^ 2) := by ring
          _ ≤ _ := by gcongr; norm_num
    have hRn := RC_near hw hy0 h1e hyn
    have ht1 : t < 1 := by nlinarith
    have hval : Real.artanh t = RC 1 (1 - t ^ 2) * t := by
      rw [RC_log t0 ht1, Real.artanh_eq_half_log ⟨by linarith, ht1.le⟩]
      field_simp
    rw [hval]
    obtain ⟨g1, g2⟩ := quot t _ t0 (RC_pos hy0)
    refine ⟨g1, hRC, ?_⟩
    have := g2.trans hw hRn
    rwa [add_comm] at this
  · obtain ⟨t0, tn⟩ := root e hpos
    have hpc : 0 ≤ e * c := by positivity
    rw [ratioF, if_pos hpc]
    generalize fl √(e * c) = t at *
    have ht2 : 0 < t ^ 2 := by positivity
    have hval : Real.arctan t = RC 1 (1 + t ^ 2) * t := by
      rw [RC_arctan ht2, Real.sqrt_sq t0.le]
      field_simp
    rw [hval]
    have hyn : Near (1 - (2 ^ p)⁻¹)⁻¹ (2 * (j + 1)) (1 + t ^ 2) (1 + e) :=
      ((Near.refl 1).mono hw (by omega) zero_le_one zero_le_one).add tn
    have hy0 : 0 < 1 + t ^ 2 := by positivity
    have hRn := RC_near hw hy0 h1e hyn
    obtain ⟨g1, g2⟩ := quot t _ t0 (RC_pos hy0)
    refine ⟨g1, hRC, (g2.trans hw hRn).mono hw ?_ g1.le hRC.le⟩
    nlinarith

/-- `A0` up to 5 roundings. -/
theorem jA0_near (hf : Nearest p fl) (hp : 24 ≤ p) {x y z q : ℝ} (hx : 0 ≤ x) (hy : 0 ≤ y) (hz : 0 ≤ z) (hq : 0 ≤ q) :
    Near (1 - (2 ^ p)⁻¹)⁻¹ 5 (jA0F fl x y z q) ((x + y + z + 2 * q) / 5) := by
  have hp1 : 1 ≤ p := by omega
  have hw := w_ge hp
  have add1 : ∀ {a A b : ℝ} {k : ℕ}, 0 ≤ a → 0 ≤ b → Near (1 - (2 ^ p)⁻¹)⁻¹ k a A → Near (1 - (2 ^ p)⁻¹)⁻¹ (k + 1) (fl (a + b)) (A + b) ∧ 0 ≤ fl (a + b) := by
    intro a A b k ha hb h
    have h1 := (near_fl hf hp1 (add_nonneg ha hb)).trans hw (h.add ((Near.refl b).mono hw (Nat.zero_le k) hb hb))
    rw [add_comm 1 k] at h1
    exact ⟨h1, fl_nonneg hf hp1 (add_nonneg ha hb)⟩
  obtain ⟨n1, p1⟩ := add1 hx hy (Near.refl x)
  obtain ⟨n2, p2⟩ := add1 p1 hz n1
  obtain ⟨n3, p3⟩ := add1 p2 hq n2
  obtain ⟨n4, p4⟩ := add1 p3 hq n3
  have h4 := n4.scale (show (0 : ℝ) ≤ 1 / 5 by norm_num)
  have h5 := (near_fl hf hp1 (mul_nonneg p4 (show (0 : ℝ) ≤ 1 / 5 by norm_num))).trans hw h4
  unfold jA0F
  rw [show (x + y + z + 2 * q) / 5 = (x + y + z + q + q) * (1 / 5) by ring, ← mul_one_div (fl _) 5]
  simpa using h5

theorem lam_near (hw : 1 ≤ w) {x y z x' y' z' : ℝ} (hx : Near w (2 * k) x x') (hy : Near w (2 * k) y y') (hz : Near w (2 * k) z z') :
    Near w (2 * k) (lam x y z 0) (lam x' y' z' 0) := by
  unfold lam
  simp only [zero_add]
  have sx := Near.sqrt hw hx
  have sy := Near.sqrt hw hy
  have sz := Near.sqrt hw hz
  have m1 := sx.mul hw sy (Real.sqrt_nonneg _) (Real.sqrt_nonneg _)
  have m2 := sx.mul hw sz (Real.sqrt_nonneg _) (Real.sqrt_nonneg _)
  have m3 := sy.mul hw sz (Real.sqrt_nonneg _) (Real.sqrt_nonneg _)
  rw [two_mul]
  exact (m1.add m2).add m3

theorem dd_pos {a b c q : ℝ} (hq : 0 < q) : 0 < dd a b c q 0 := by
  unfold dd
  simp only [zero_add]
  have := Real.sqrt_pos.mpr hq
  positivity

/-- `dm` up to `3k + 8` roundings. -/
theorem dm_near (hf : Nearest p fl) (hp : 24 ≤ p) {x y z q x' y' z' q' : ℝ} (hq0 : 0 < q') (hx : Near (1 - (2 ^ p)⁻¹)⁻¹ (2 * k) x x')
    (hy : Near (1 - (2 ^ p)⁻¹)⁻¹ (2 * k) y y') (hz : Near (1 - (2 ^ p)⁻¹)⁻¹ (2 * k) z z') (hq : Near (1 - (2 ^ p)⁻¹)⁻¹ (2 * k) q q') :
    Near (1 - (2 ^ p)⁻¹)⁻¹ (3 * k + 8) (dmF fl x y z q) (dd x' y' z' q' 0) := by
  have hp1 : 1 ≤ p := by omega
  have hw := w_ge hp
  have root : ∀ {a A : ℝ}, Near (1 - (2 ^ p)⁻¹)⁻¹ (2 * k) a A → Near (1 - (2 ^ p)⁻¹)⁻¹ (1 + k) (fl √a) (√A) ∧ 0 ≤ fl √a := fun h =>
    ⟨(near_fl hf hp1 (Real.sqrt_nonneg _)).trans hw (Near.sqrt hw h), fl_nonneg hf hp1 (Real.sqrt_nonneg _)⟩
  obtain ⟨s1, p1⟩ := root hx
  obtain ⟨s2, p2⟩ := root hy
  obtain ⟨s3, p3⟩ := root hz
  obtain ⟨s4, p4⟩ := root hq
  have hq0' := Real.sqrt_pos.mpr hq0
  have add1 : ∀ {a A : ℝ}, 0 ≤ a → Near (1 - (2 ^ p)⁻¹)⁻¹ (1 + k) a A → Near (1 - (2 ^ p)⁻¹)⁻¹ (k + 2) (fl (fl √q + a)) (√q' + A) ∧ 0 ≤ fl (fl √q + a) := by
    intro a A ha h
    have h1 := (near_fl hf hp1 (add_nonneg p4 ha)).trans hw (s4.add h)
    rw [show 1 + (1 + k) = k + 2 by ring] at h1
    exact ⟨h1, fl_nonneg hf hp1 (add_nonneg p4 ha)⟩
  obtain ⟨a1, b1⟩ := add1 p1 s1
  obtain ⟨a2, b2⟩ := add1 p2 s2
  obtain ⟨a3, b3⟩ := add1 p3 s3
  have m1 := (near_fl hf hp1 (mul_nonneg b1 b2)).trans hw (a1.mul hw a2 (by positivity) b2)
  have m1p := fl_nonneg hf hp1 (mul_nonneg b1 b2)
  have m2 := (near_fl hf hp1 (mul_nonneg m1p b3)).trans hw (m1.mul hw a3 (by positivity) b3)
  unfold dmF dd
  simp only [zero_add]
  rwa [show 1 + (1 + (k + 2 + (k + 2)) + (k + 2)) = 3 * k + 8 by ring] at m2

/-- `em` up to a factor of `6k + 24` roundings. -/
theorem em_near (hf : Nearest p fl) (hp : 24 ≤ p) {δ Δ c dm D : ℝ} {m : ℕ} (hc0 : 0 < c) (hc : Near (1 - (2 ^ p)⁻¹)⁻¹ 5 c 1) (hδ : δ = Δ * c)
    (hD : 0 < D) (hdm : Near (1 - (2 ^ p)⁻¹)⁻¹ (3 * k + 8) dm D) :
    ∃ c', 0 < c' ∧ Near (1 - (2 ^ p)⁻¹)⁻¹ (2 * (3 * k + 12)) c' 1 ∧ emF fl δ dm m = Δ / 4 ^ (3 * m) / D ^ 2 * c' := by
  have hp1 : 1 ≤ p := by omega
  have hw := w_ge hp
  have hdm0 := hdm.pos hw hD
  obtain ⟨c1, p1, n1, e1⟩ := fl_factor hf hp (δ * (1 / 4 ^ (3 * m)))
  obtain ⟨c2, p2, n2, e2⟩ := fl_factor hf hp (dm * dm)
  obtain ⟨c3, p3, n3, e3⟩ := fl_factor hf hp (fl (δ * (1 / 4 ^ (3 * m))) / fl (dm * dm))
  have hr : Near (1 - (2 ^ p)⁻¹)⁻¹ (3 * k + 8) (dm / D) 1 := by
    have := hdm.scale (show 0 ≤ D⁻¹ by positivity)
    rwa [← div_eq_mul_inv, mul_inv_cancel₀ hD.ne'] at this
  have hrp : 0 < dm / D := by positivity
  have m1 := hr.mul hw hr zero_le_one hrp.le
  have m2 := m1.mul hw n2 (by norm_num) p2.le
  have m3 := m2.inv (by positivity) (by norm_num)
  have m4 := (hc.mul hw n1 zero_le_one p1.le).mul hw n3 (by norm_num) p3.le
  have m5 := m4.mul hw m3 (by norm_num) (by positivity)
  simp only [mul_one, inv_one] at m5
  refine ⟨c * c1 * c3 * (dm / D * (dm / D) * c2)⁻¹, by positivity, ?_, ?_⟩
  · rwa [show 5 + 1 + 1 + (3 * k + 8 + (3 * k + 8) + 1) = 2 * (3 * k + 12) by ring] at m5
  · rw [emF, e3, e1, e2, hδ]
    field_simp

/-- What holds of the loop variables of `elliprj` after `n` steps: the arguments are those of exact arithmetic (`a b c r`, with the sum `σ`) up to `6 n` roundings. -/
structure JInv (p : ℕ) (x y z q A0 : ℝ) (κ n : ℕ) (s : RJState) : Prop where
  ghost : ∃ g G, Inv p x y z G n ⟨s.x, s.y, s.z, g, s.pow4⟩
  m : s.m = n
  good : ¬s.bad
  ppos : 0 < s.p
  mean : Near (1 - (2 ^ p)⁻¹)⁻¹ (5 + 2 * n) s.A ((s.x + s.y + s.z + 2 * s.p) / 5)
  dx : |s.A - s.x - s.pow4 * (A0 - x)| ≤ 82 / 5 * (n * ((1 - (2 ^ p)⁻¹)⁻¹ ^ n * (2 ^ p)⁻¹)) * ((s.x + s.y + s.z + 2 * s.p) / 5)
  dy : |s.A - s.y - s.pow4 * (A0 - y)| ≤ 82 / 5 * (n * ((1 - (2 ^ p)⁻¹)⁻¹ ^ n * (2 ^ p)⁻¹)) * ((s.x + s.y + s.z + 2 * s.p) / 5)
  dz : |s.A - s.z - s.pow4 * (A0 - z)| ≤ 82 / 5 * (n * ((1 - (2 ^ p)⁻¹)⁻¹ ^ n * (2 ^ p)⁻¹)) * ((s.x + s.y + s.z + 2 * s.p) / 5)
  dp : |s.A - s.p - s.pow4 * (A0 - q)| ≤ 82 / 5 * (n * ((1 - (2 ^ p)⁻¹)⁻¹ ^ n * (2 ^ p)⁻¹)) * ((s.x + s.y + s.z + 2 * s.p) / 5)
  s0 : 0 ≤ s.s
  exact : ∃ a b c r σ : ℝ, Args a b c ∧ 0 < r ∧ 0 ≤ σ ∧ Near (1 - (2 ^ p)⁻¹)⁻¹ (6 * n) s.x a ∧ Near (1 - (2 ^ p)⁻¹)⁻¹ (6 * n) s.y b ∧
    Near (1 - (2 ^ p)⁻¹)⁻¹ (6 * n) s.z c ∧ Near (1 - (2 ^ p)⁻¹)⁻¹ (6 * n) s.p r ∧ Near (1 - (2 ^ p)⁻¹)⁻¹ (κ * (18 * n + 26) + 10 * n + 13) s.s σ ∧
    (r - a) * (r - b) * (r - c) = (q - x) * (q - y) * (q - z) / 4 ^ (3 * n) ∧ 1 ≤ κ * (1 + (q - x) * (q - y) * (q - z) / 4 ^ (3 * n) / dd a b c r 0 ^ 2) ∧
    RJ x y z q = 6 * σ + (1 / 4) ^ n * RJ a b c r

theorem jinv_zero (hf : Nearest p fl) (hp : 24 ≤ p) {x y z q : ℝ} {κ : ℕ} (h : Args x y z) (hq : 0 < q)
    (hκ : 1 ≤ κ * (1 + (q - x) * (q - y) * (q - z) / dd x y z q 0 ^ 2)) :
    JInv p x y z q (jA0F fl x y z q) κ 0 ⟨x, y, z, q, jA0F fl x y z q, 1, 0, 0, False⟩ where
  ghost := ⟨_, _, inv_zero hf hp h⟩
  m := rfl
  good := not_false
  ppos := hq
  mean := jA0_near hf hp h.x0 h.y0 h.z0 hq.le
  dx := by simp
  dy := by simp
  dz := by simp
  dp := by simp
  s0 := le_rfl
  exact := ⟨x, y, z, q, 0, h, hq, le_rfl, Near.refl _, Near.refl _, Near.refl _, Near.refl _, by simp [Near], by simp, by simpa using hκ, by simp⟩

theorem dd_dup {a b c r : ℝ} (h : Args a b c) (hr : 0 < r) :
    dd a b c r 0 ^ 2 ≤ 64 * dd ((a + lam a b c 0) / 4) ((b + lam a b c 0) / 4) ((c + lam a b c 0) / 4) ((r + lam a b c 0) / 4) 0 ^ 2 := by
  have hl := h.dup.1
  have hs : ∀ t : ℝ, √t ≤ 2 * √((t + lam a b c 0) / 4) := fun t => by
    have h1 : √(t / 4) ≤ √((t + lam a b c 0) / 4) := Real.sqrt_le_sqrt (by linarith)
    have h2 : √(t / 4) = √t / 2 := by
      rw [Real.sqrt_div' _ (by norm_num), show (4 : ℝ) = 2 ^ 2 by norm_num, Real.sqrt_sq (by norm_num)]
    linarith
  have hb : dd a b c r 0 ≤ 8 * dd ((a + lam a b c 0) / 4) ((b + lam a b c 0) / 4) ((c + lam a b c 0) / 4) ((r + lam a b c 0) / 4) 0 := by
    unfold dd
    simp only [zero_add]
    have h1 := hs a
    have h2 := hs b
    have h3 := hs c
    have h4 := hs r
    calc (√r + √a) * (√r + √b) * (√r + √c) ≤ (2 * √((r + lam a b c 0) / 4) + 2 * √((a + lam a b c 0) / 4)) *
          (2 * √((r + lam a b c 0) / 4) + 2 * √((b + lam a b c 0) / 4)) * (2 * √((r + lam a b c 0) / 4) + 2 * √((c + lam a b c 0) / 4)) := by gcongr
      _ = _ := by ring
  have h0 := (dd_pos (a := a) (b := b) (c := c) hr).le
  calc dd a b c r 0 ^ 2 ≤ (8 * dd ((a + lam a b c 0) / 4) ((b + lam a b c 0) / 4) ((c + lam a b c 0) / 4) ((r + lam a b c 0) / 4) 0) ^ 2 := by gcongr
    _ = _ := by ring

set_option maxHeartbeats 1000000 in
theorem jinv_succ (hf : Nearest p fl) (hp : 24 ≤ p) {x y z q A0 : ℝ} {κ n : ℕ} (hn : n ≤ 1000) (hκ1 : 1 ≤ κ)
    (hne : (q - x) * (q - y) * (q - z) ≠ 0) (hsmall : ((κ * (18 * n + 26) : ℕ) : ℝ) * (2 ^ p)⁻¹ ≤ 1 / 100) {s : RJState} (h : JInv p x y z q A0 κ n s) :
    JInv p x y z q A0 κ (n + 1) (jStepF fl (deltaF fl x y z q) s) := by
  obtain ⟨g, G, hI⟩ := h.ghost
  have hI' := inv_succ hf hp hn hI
  have hp1 : 1 ≤ p := by omega
  have hw := w_ge hp
  have hu0 : (0 : ℝ) < (2 ^ p)⁻¹ := by positivity
  have hx := hI.args.x0
  have hy := hI.args.y0
  have hz := hI.args.z0
  simp only at hx hy hz
  have hr := h.ppos
  have hargs : Args s.x s.y s.z := hI.args
  have hpw : s.pow4 = (1 / 4) ^ n := hI.pow4
  have hpw0 : 0 < s.pow4 := by rw [hpw]; positivity
  have hS := isNonneg_args hargs
  obtain ⟨hlam, hdup⟩ := hargs.dup
  obtain ⟨l, hl⟩ : ∃ l, l = lmF fl s.x s.y s.z := ⟨_, rfl⟩
  have hln : Near (1 - (2 ^ p)⁻¹)⁻¹ 5 l (lam s.x s.y s.z 0) := hl ▸ lm_near hf hp
  have hl0 : 0 < l := hln.pos hw hlam
  have hM0 : 0 < (s.x + s.y + s.z + 2 * s.p) / 5 := by linarith
  have hA0 : 0 < s.A := h.mean.pos hw hM0
  obtain ⟨dm, hdm⟩ : ∃ dm, dm = dmF fl s.x s.y s.z s.p := ⟨_, rfl⟩
  obtain ⟨em, hem⟩ : ∃ em, em = emF fl (deltaF fl x y z q) dm n := ⟨_, rfl⟩
  have e : jStepF fl (deltaF fl x y z q) s = ⟨fl (s.x + l) / 4, fl (s.y + l) / 4, fl (s.z + l) / 4, fl (s.p + l) / 4, fl (s.A + l) / 4, s.pow4 / 4,
      fl (s.s + fl (fl (ratioF fl em * s.pow4) / dm)), n + 1, s.bad ∨ em = 0⟩ := by
    unfold jStepF
    simp only [fl_div4 hf, ← hl, ← hdm, h.m, ← hem]
  have eI : fStepF fl ⟨s.x, s.y, s.z, g, s.pow4⟩ = ⟨fl (s.x + l) / 4, fl (s.y + l) / 4, fl (s.z + l) / 4, fl (g + l) / 4, s.pow4 / 4⟩ := by
    unfold fStepF
    simp only [fl_div4 hf, ← hl]
  rw [eI] at hI'
  rw [e]
  have hnew : ∀ a : ℝ, 0 ≤ a → Near (1 - (2 ^ p)⁻¹)⁻¹ 1 (fl (a + l) / 4) ((a + l) / 4) ∧ 0 < fl (a + l) / 4 := fun a ha => by
    have h1 := near_fl hf hp1 (show 0 ≤ a + l by linarith)
    have h2 := h1.scale (show (0 : ℝ) ≤ 1 / 4 by norm_num)
    simp only [mul_one_div] at h2
    exact ⟨h2, by have := h1.pos hw (by linarith); positivity⟩
  obtain ⟨x1, x2⟩ := hnew s.x hx
  obtain ⟨y1, y2⟩ := hnew s.y hy
  obtain ⟨z1, z2⟩ := hnew s.z hz
  obtain ⟨r1, r2⟩ := hnew s.p hr.le
  obtain ⟨a1, a2⟩ := hnew s.A hA0.le
  -- the mean of the new arguments
  have hM : Near (1 - (2 ^ p)⁻¹)⁻¹ 1 ((fl (s.x + l) / 4 + fl (s.y + l) / 4 + fl (s.z + l) / 4 + 2 * (fl (s.p + l) / 4)) / 5)
      (((s.x + s.y + s.z + 2 * s.p) / 5 + l) / 4) := by
    have r5 := r1.scale (show (0 : ℝ) ≤ 2 by norm_num)
    have := (((x1.add y1).add z1).add r5).scale (show (0 : ℝ) ≤ 1 / 5 by norm_num)
    rw [mul_one_div, mul_one_div, mul_comm _ (2 : ℝ)] at this
    rwa [show ((s.x + l) / 4 + (s.y + l) / 4 + (s.z + l) / 4 + (s.p + l) / 4 * 2) / 5 = ((s.x + s.y + s.z + 2 * s.p) / 5 + l) / 4 by ring] at this
  have hdiff : ∀ a d : ℝ, 0 ≤ a → a ≤ s.x + s.y + s.z + 2 * s.p →
      |s.A - a - s.pow4 * d| ≤ 82 / 5 * (n * ((1 - (2 ^ p)⁻¹)⁻¹ ^ n * (2 ^ p)⁻¹)) * ((s.x + s.y + s.z + 2 * s.p) / 5) →
      |fl (s.A + l) / 4 - fl (a + l) / 4 - s.pow4 / 4 * d| ≤ 82 / 5 * ((n + 1 : ℕ) * ((1 - (2 ^ p)⁻¹)⁻¹ ^ (n + 1) * (2 ^ p)⁻¹)) *
        ((fl (s.x + l) / 4 + fl (s.y + l) / 4 + fl (s.z + l) / 4 + 2 * (fl (s.p + l) / 4)) / 5) := fun a d ha haS hE => by
    obtain ⟨δ, b1, e1⟩ := hf.factor hp1 (s.A + l)
    obtain ⟨δ', b2, e2⟩ := hf.factor hp1 (a + l)
    rw [e1, e2]
    refine (diff_step hA0.le ha hl0.le b1 b2 hE).trans ?_
    have k1 := w_pow_le hp (show 5 + 2 * n ≤ 10000 by omega)
    have k2 := w_pow_le hp (show 5 ≤ 10000 by omega)
    have k3 := h.mean.1
    have k4 := hln.1
    have k5 := lam_le hx hy hz
    have k6 := hM.2
    obtain ⟨M', hM'⟩ : ∃ M', M' = (fl (s.x + l) / 4 + fl (s.y + l) / 4 + fl (s.z + l) / 4 + 2 * (fl (s.p + l) / 4)) / 5 := ⟨_, rfl⟩
    obtain ⟨M, hMd⟩ : ∃ M, M = (s.x + s.y + s.z + 2 * s.p) / 5 := ⟨_, rfl⟩
    have hM0 : 0 < M := by rw [hMd]; exact hM0
    have hM0' : 0 < M' := by rw [hM']; positivity
    rw [← hM'] at k6 ⊢
    rw [← hMd] at k3 k6 ⊢
    have k7 : lam s.x s.y s.z 0 ≤ 5 * M := by rw [hMd]; linarith
    rw [show s.x + s.y + s.z + 2 * s.p = 5 * M by rw [hMd]; ring] at haS
    clear hsmall
    generalize hud : ((2 : ℝ) ^ p)⁻¹ = u at *
    generalize hwd : (1 - u)⁻¹ = w at *
    have hA : s.A ≤ 101 / 100 * M := k3.trans (by gcongr)
    have hlM : l ≤ 101 / 100 * (5 * M) := k4.trans (by gcongr)
    have hMM : M ≤ 4 * (w * M') := by rw [pow_one] at k6; linarith
    have hwn : 1 ≤ w ^ n := one_le_pow₀ hw
    have t1 : u * (s.A + a + 2 * l) / 4 ≤ u * (41 / 10 * M) := by
      rw [mul_div_assoc]; gcongr; linarith
    have hX : 0 ≤ (n : ℝ) * (w ^ n * u) := by positivity
    have t2 : 82 / 5 * (n * (w ^ n * u)) * M / 4 ≤ 82 / 5 * (n * (w ^ n * u)) * (w * M') := by
      rw [mul_div_assoc]; gcongr; linarith
    have t3 : u * (41 / 10 * M) ≤ 82 / 5 * (w ^ (n + 1) * u) * M' := by
      calc u * (41 / 10 * M) ≤ u * (41 / 10 * (4 * (w * M'))) := by gcongr
        _ = 82 / 5 * (1 * w * u) * M' := by ring
        _ ≤ 82 / 5 * (w ^ n * w * u) * M' := by gcongr
        _ = _ := by rw [pow_succ]
    calc _ ≤ 82 / 5 * (n * (w ^ n * u)) * (w * M') + 82 / 5 * (w ^ (n + 1) * u) * M' := by linarith
      _ = _ := by push_cast; rw [pow_succ]; ring
  -- the exact arguments
  obtain ⟨a, b, c, r, σ, hE, hr0, hσ, nx, ny, nz, nr, ns, hδ, hκ, hR⟩ := h.exact
  rw [show 6 * n = 2 * (3 * n) by ring] at nx ny nz nr
  obtain ⟨hlamE, hdupE⟩ := hE.dup
  have hlE := hln.trans hw (lam_near hw nx ny nz)
  have hnewE : ∀ t T : ℝ, 0 ≤ t → 0 ≤ T → Near (1 - (2 ^ p)⁻¹)⁻¹ (2 * (3 * n)) t T →
      Near (1 - (2 ^ p)⁻¹)⁻¹ (6 * (n + 1)) (fl (t + l) / 4) ((T + lam a b c 0) / 4) := fun t T ht hT hn' => by
    have h1 := (near_fl hf hp1 (show 0 ≤ t + l by linarith)).trans hw ((hn'.mono hw (show _ ≤ 5 + 2 * (3 * n) by omega) ht hT).add hlE)
    have h2 := h1.scale (show (0 : ℝ) ≤ 1 / 4 by norm_num)
    simp only [mul_one_div] at h2
    rwa [show 1 + (5 + 2 * (3 * n)) = 6 * (n + 1) by ring] at h2
  have hD := dd_pos (a := a) (b := b) (c := c) hr0
  have hdmn : Near (1 - (2 ^ p)⁻¹)⁻¹ (3 * (3 * n) + 8) dm (dd a b c r 0) := hdm ▸ dm_near hf hp hr0 nx ny nz nr
  have hdm0 := hdmn.pos hw hD
  obtain ⟨c0, hc0, nc0, ec0⟩ := delta_near hf hp x y z q
  obtain ⟨c1, hc1, nc1, ec1⟩ := em_near (m := n) hf hp hc0 nc0 ec0 hD hdmn
  rw [← hem] at ec1
  obtain ⟨ee, hee⟩ : ∃ ee, ee = (q - x) * (q - y) * (q - z) / 4 ^ (3 * n) / dd a b c r 0 ^ 2 := ⟨_, rfl⟩
  rw [← hee] at ec1 hκ
  have hee0 : ee ≠ 0 := by rw [hee]; positivity
  have hκn : 2 * (3 * (3 * n) + 12 + 1) * κ = κ * (18 * n + 26) := by ring
  obtain ⟨g1, g2, g3⟩ := ratio_near hf hp hee0 hκ1 hκ hc1 nc1 (by rw [hκn]; exact hsmall)
  rw [← ec1, hκn] at g3
  rw [← ec1] at g1
  have hem0 : em ≠ 0 := by rw [ec1]; exact mul_ne_zero hee0 hc1.ne'
  -- the new term
  have t1 := g3.scale hpw0.le
  have t2 := (near_fl hf hp1 (show 0 ≤ ratioF fl em * s.pow4 by positivity)).trans hw t1
  have t2p := t2.pos hw (by positivity)
  have t3 := t2.mul hw (hdmn.inv hdm0 hD) (by positivity) (by positivity)
  rw [← div_eq_mul_inv, ← div_eq_mul_inv] at t3
  have t3p : 0 < fl (ratioF fl em * s.pow4) / dm := by positivity
  have t4 := (near_fl hf hp1 t3p.le).trans hw t3
  have hT : 0 < RC 1 (1 + ee) * s.pow4 / dd a b c r 0 := by positivity
  have t4p := t4.pos hw hT
  have t5 := (ns.mono hw (show _ ≤ κ * (18 * n + 26) + 10 * n + 13 by omega) h.s0 hσ).add
    (t4.mono hw (show _ ≤ κ * (18 * n + 26) + 10 * n + 13 by omega) t4p.le hT.le)
  have hsum0 := add_nonneg h.s0 t4p.le
  have t6 := (near_fl hf hp1 hsum0).trans hw t5
  have hs0 := fl_nonneg hf hp1 hsum0
  have hσ' : 0 ≤ σ + RC 1 (1 + ee) * s.pow4 / dd a b c r 0 := add_nonneg hσ hT.le
  refine ⟨⟨_, G, hI'⟩, rfl, ?_, r2, ?_, hdiff s.x _ hx (by linarith) h.dx, hdiff s.y _ hy (by linarith) h.dy, hdiff s.z _ hz (by linarith) h.dz,
    hdiff s.p _ hr.le (by linarith) h.dp, hs0, _, _, _, _, σ + RC 1 (1 + ee) * s.pow4 / dd a b c r 0, hdupE,
    show 0 < (r + lam a b c 0) / 4 by linarith, hσ', hnewE s.x a hx hE.x0 nx, hnewE s.y b hy hE.y0 ny, hnewE s.z c hz hE.z0 nz,
    hnewE s.p r hr.le hr0.le nr, ?_, ?_, ?_, ?_⟩
  · rintro (k | k)
    · exact h.good k
    · exact hem0 k
  · have m1 := (h.mean.add ((Near.refl l).mono hw (show 0 ≤ 5 + 2 * n by omega) hl0.le hl0.le)).scale (show (0 : ℝ) ≤ 1 / 4 by norm_num)
    rw [mul_one_div, mul_one_div] at m1
    have := (a1.trans hw m1).trans hw hM.symm
    rwa [show 1 + (5 + 2 * n) + 1 = 5 + 2 * (n + 1) by ring] at this
  · refine t6.mono hw ?_ hs0 hσ'
    have : κ * (18 * n + 26) ≤ κ * (18 * (n + 1) + 26) := Nat.mul_le_mul_left _ (by omega)
    omega
  · have : (r + lam a b c 0) / 4 - (a + lam a b c 0) / 4 = (r - a) / 4 := by ring
    rw [show ((r + lam a b c 0) / 4 - (a + lam a b c 0) / 4) * ((r + lam a b c 0) / 4 - (b + lam a b c 0) / 4) *
      ((r + lam a b c 0) / 4 - (c + lam a b c 0) / 4) = (r - a) * (r - b) * (r - c) / 64 by ring, hδ, show 3 * (n + 1) = 3 * n + 3 by ring, pow_add,
      div_div]
    norm_num
  · -- `1 + e` does not decrease where `e < 0`
    have hD' := dd_pos (a := (a + lam a b c 0) / 4) (b := (b + lam a b c 0) / 4) (c := (c + lam a b c 0) / 4) (show 0 < (r + lam a b c 0) / 4 by linarith)
    have hdd := dd_dup hE hr0
    have hκ0 : (0 : ℝ) ≤ κ := Nat.cast_nonneg _
    rw [show 3 * (n + 1) = 3 * n + 3 by ring, pow_add]
    obtain ⟨Δ, hΔ⟩ : ∃ Δ, Δ = (q - x) * (q - y) * (q - z) / 4 ^ (3 * n) := ⟨_, rfl⟩
    rw [← hΔ] at hee
    rw [← div_div, ← hΔ]
    have hstep : ∀ D2 : ℝ, 0 < D2 → dd a b c r 0 ^ 2 ≤ 64 * D2 → 1 ≤ (κ : ℝ) * (1 + Δ / 4 ^ 3 / D2) := fun D2 hD2 hle => by
      rcases le_or_gt 0 Δ with hpos | hneg
      · have h1 : 0 ≤ Δ / 4 ^ 3 / D2 := by positivity
        have h2 : (1 : ℝ) ≤ κ := by exact_mod_cast hκ1
        nlinarith
      · refine hκ.trans ?_
        gcongr
        rw [hee, div_le_iff₀ (by positivity), div_mul_eq_mul_div, le_div_iff₀ hD2]
        have := mul_le_mul_of_nonpos_left hle hneg.le
        norm_num
        linarith
    exact hstep _ (by positivity) hdd
  · rw [hR, RJ_dup hE hr0, hδ, ← hee, hpw, pow_succ]
    field_simp
    ring

end Verif.Carlson.Flt

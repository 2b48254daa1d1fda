import Verif.Ellred.RedQuartic
import Verif.Ellred.RedSpec
import Mathlib.Algebra.BigOperators.Group.List.Basic

/-! # `EllipticReduction.Im` is the integral (C37) -/

namespace Verif.Ellred

open MeasureTheory Set Verif.Carlson ComplexConjugate
open QuarticOK (lam W2 Good)

namespace EllRed

variable {E : EllRed}

theorem v_eq_integrand {m : List ℤ} (hm : m.length = E.n) (t : ℝ) : E.v m t = integrand E.a E.h m t := by
  rw [v, integrand, List.mapIdx_eq_ofFn, List.prod_ofFn]
  have hl : (E.a.zip m).length = E.a.length := by rw [List.length_zip, hm]; exact min_self _
  refine Fintype.prod_equiv (finCongr hl) _ _ fun i => ?_
  have hi : (i : ℕ) < m.length := lt_of_lt_of_eq i.isLt (hl.trans hm.symm)
  simp only [List.get_eq_getElem, List.getElem_zip, finCongr_apply, Fin.getElem_fin, Fin.val_cast]
  rw [List.getD_eq_getElem _ _ hi]
  congr 2
  split_ifs <;> simp

/-- The basic integrals, whatever the order of the limits. -/
theorem Ie_all (P : EllRed → Prop) (hP : ∀ E, E.y < E.x → P E → ∀ j, 1 ≤ j → j ≤ E.n → ∀ q : ℤ, -1 ≤ q → q ≤ 1 → E.Ie (q * j) = E.J q j)
    (h : P E) (h' : P E.swap) : ∀ j, 1 ≤ j → j ≤ E.n → ∀ q : ℤ, -1 ≤ q → q ≤ 1 → E.Ie (q * j) = E.J q j := by
  intro j h1 h2 q q1 q2
  rcases lt_trichotomy E.y E.x with hlt | heq | hgt
  · exact hP E hlt h j h1 h2 q q1 q2
  · rw [Ie_zero heq.symm, J_zero heq.symm]
  · have := hP E.swap hgt h' j h1 h2 q q1 q2
    rw [Ie_swap, J_swap] at this
    exact neg_injective this

/-- Three factors whose product has real coefficients and is positive from the smaller limit on; the other factors are real. -/
theorem Im_cubic (h3 : E.h = 3) (h : Ok E) {b c d : ℝ} (hc : CubicOK (min E.x E.y) (-E.av 1) (-E.av 2) (-E.av 3) b c d)
    (hr : ∀ j, 3 < j → j ≤ E.n → ∃ α : ℝ, E.av j = α) {m : List ℤ} (hm : m.length = E.n) :
    E.Im m = ∫ t in E.y..E.x, integrand E.a E.h m t := by
  rw [Im_eq h (Ie_all (fun F => F.h = 3 ∧ Ok F ∧ CubicOK (min F.x F.y) (-F.av 1) (-F.av 2) (-F.av 3) b c d ∧
    ∀ j, 3 < j → j ≤ F.n → ∃ α : ℝ, F.av j = α) ?_ ⟨h3, h, hc, hr⟩ ⟨h3, h.swap, by rw [min_comm] at hc; exact hc, hr⟩) hm]
  · exact intervalIntegral.integral_congr fun t _ => v_eq_integrand hm t
  · rintro F hlt ⟨f1, f2, f3, f4⟩ j h1 h2 q q1 q2
    rw [min_eq_right hlt.le] at f3
    refine Cub.Ie_eq ⟨f1, hlt, f3⟩ f2 (fun i a1 a2 => ?_) h1 h2 q1 q2
    obtain ⟨α, hα⟩ := f4 i a1 a2
    refine ⟨α, hα, ?_⟩
    have := f2.slit' (j := i) (by omega) a2 (t := F.y) left_mem_uIcc
    rw [hα, ← Complex.ofReal_add, Complex.ofReal_mem_slitPlane] at this
    exact this

end EllRed

theorem im_of_conj {z : ℂ} (h : conj z = z) : z.im = 0 := Complex.conj_eq_iff_im.mp h

theorem re_of_conj {z : ℂ} (h : conj z = z) : ((z.re : ℝ) : ℂ) = z := Complex.conj_eq_iff_re.mp h

theorem exists_cubic_pos (b c d x0 : ℝ) : ∃ X, x0 < X ∧ 0 < X ^ 3 + b * X ^ 2 + c * X + d := by
  refine ⟨max (x0 + 1) (1 + |b| + |c| + |d|), lt_max_of_lt_left (by linarith), ?_⟩
  set X := max (x0 + 1) (1 + |b| + |c| + |d|) with hX
  have h1 : 1 + |b| + |c| + |d| ≤ X := le_max_right _ _
  have := abs_nonneg b
  have := abs_nonneg c
  have := abs_nonneg d
  have hX1 : 1 ≤ X := by linarith
  have hX2 : X ≤ X ^ 2 := by nlinarith
  have e1 : -(|b| * X ^ 2) ≤ b * X ^ 2 := by nlinarith [neg_abs_le b, sq_nonneg X]
  have e2 : -(|c| * X ^ 2) ≤ c * X := by
    have : -(|c| * X) ≤ c * X := by nlinarith [neg_abs_le c]
    nlinarith
  have e3 : -(|d| * X ^ 2) ≤ d := by nlinarith [neg_abs_le d]
  have e4 : (1 + |b| + |c| + |d|) * X ^ 2 ≤ X * X ^ 2 := mul_le_mul_of_nonneg_right h1 (sq_nonneg X)
  nlinarith

/-- Three numbers closed under conjugation, off the cut from `y` on. -/
theorem cubicOK_of {y : ℝ} {a1 a2 a3 : ℂ} (hp : ([a1, a2, a3].map conj).Perm [a1, a2, a3])
    (hy : ∀ b ∈ [a1, a2, a3], b + (y : ℂ) ∈ Complex.slitPlane) : ∃ b c d : ℝ, CubicOK y (-a1) (-a2) (-a3) b c d := by
  have s1 : conj (a1 + a2 + a3) = a1 + a2 + a3 := by
    have := hp.sum_eq
    simpa [add_assoc] using this
  have s2 : conj (a1 * a2 * a3) = a1 * a2 * a3 := by
    have := hp.prod_eq
    simpa [mul_assoc] using this
  have s3 : conj (a1 ^ 2 + a2 ^ 2 + a3 ^ 2) = a1 ^ 2 + a2 ^ 2 + a3 ^ 2 := by
    have := (hp.map (· ^ 2)).sum_eq
    simpa [add_assoc] using this
  have s4 : conj (a1 * a2 + a1 * a3 + a2 * a3) = a1 * a2 + a1 * a3 + a2 * a3 := by
    have e : a1 * a2 + a1 * a3 + a2 * a3 = ((a1 + a2 + a3) ^ 2 - (a1 ^ 2 + a2 ^ 2 + a3 ^ 2)) / 2 := by ring
    rw [e, map_div₀, map_sub, map_pow, s1, s3, Complex.conj_ofNat]
  have hv : ∀ z : ℂ, (z - -a1) * (z - -a2) * (z - -a3) = z ^ 3 + ((a1 + a2 + a3).re : ℝ) * z ^ 2 + ((a1 * a2 + a1 * a3 + a2 * a3).re : ℝ) * z +
      ((a1 * a2 * a3).re : ℝ) := by
    intro z
    rw [re_of_conj s1, re_of_conj s2, re_of_conj s4]
    ring
  refine ⟨_, _, _, hv, fun t ht => ?_⟩
  have hne : ∀ t : ℝ, y ≤ t → CubicOK.cubic (a1 + a2 + a3).re (a1 * a2 + a1 * a3 + a2 * a3).re (a1 * a2 * a3).re t ≠ 0 := by
    intro t ht e0
    have := hv t
    have hc : ((CubicOK.cubic (a1 + a2 + a3).re (a1 * a2 + a1 * a3 + a2 * a3).re (a1 * a2 * a3).re t : ℝ) : ℂ) = 0 := by rw [e0]; simp
    rw [CubicOK.cubic] at hc
    push_cast at hc
    rw [hc] at this
    have nz : ∀ b ∈ [a1, a2, a3], (t : ℂ) - -b ≠ 0 := by
      intro b hb e1
      have e2 : b = ((-t : ℝ) : ℂ) := by push_cast; linear_combination e1
      have := hy b hb
      rw [e2, ← Complex.ofReal_add, Complex.ofReal_mem_slitPlane] at this
      linarith
    exact mul_ne_zero (mul_ne_zero (nz a1 (by simp)) (nz a2 (by simp))) (nz a3 (by simp)) this
  by_contra hcon
  have hlt : CubicOK.cubic (a1 + a2 + a3).re (a1 * a2 + a1 * a3 + a2 * a3).re (a1 * a2 * a3).re t < 0 :=
    lt_of_le_of_ne (not_lt.mp hcon) (hne t ht)
  obtain ⟨X, hX, hX'⟩ := exists_cubic_pos (a1 + a2 + a3).re (a1 * a2 + a1 * a3 + a2 * a3).re (a1 * a2 * a3).re t
  obtain ⟨w, hw, e⟩ := intermediate_value_Icc hX.le (CubicOK.cubic_cont (b := (a1 + a2 + a3).re) (c := (a1 * a2 + a1 * a3 + a2 * a3).re)
    (d := (a1 * a2 * a3).re)).continuousOn ⟨hlt.le, hX'.le⟩
  exact hne w (ht.trans hw.1) e

/-- C37: for any complex coefficients, if the basic integrals are right then `Im` is the integral, whatever the exponents. -/
theorem C37_reduction (E : EllRed) (hn : E.h ≤ E.a.length) (hd : E.a.Nodup) (hc : ∀ b ∈ E.a, ∀ t ∈ uIcc E.y E.x, b + (t : ℂ) ∈ Complex.slitPlane)
    (hb : ∀ j, 1 ≤ j → j ≤ E.a.length → ∀ q : ℤ, -1 ≤ q → q ≤ 1 → E.Ie (q * j) =
      ∫ t in E.y..E.x, integrand E.a E.h ((List.range E.a.length).map fun i => if i + 1 = j then q else 0) t)
    {m : List ℤ} (hm : m.length = E.a.length) : E.Im m = ∫ t in E.y..E.x, integrand E.a E.h m t := by
  have h : EllRed.Ok E := ⟨⟨hn, hc⟩, hd⟩
  rw [EllRed.Im_eq h (fun j h1 h2 q q1 q2 => ?_) hm]
  · exact intervalIntegral.integral_congr fun t _ => EllRed.v_eq_integrand hm t
  · rw [hb j h1 h2 q q1 q2, EllRed.J]
    apply intervalIntegral.integral_congr
    intro t ht
    simp only
    have hl : ((List.range E.a.length).map fun i => if i + 1 = j then q else 0).length = E.n := by simp [EllRed.n]
    have hg : ∀ i, 1 ≤ i → i ≤ E.n → EllRed.mget ((List.range E.a.length).map fun i => if i + 1 = j then q else 0) i = if i = j then q else 0 := by
      intro i a1 a2
      rw [EllRed.mget, if_pos (by omega), List.getD_eq_getElem _ _ (by rw [hl]; omega)]
      simp only [List.getElem_map, List.getElem_range]
      rw [show i - 1 + 1 = i by omega]
    rw [← EllRed.v_eq_integrand hl, EllRed.v_single h hl h1 h2 (fun i a1 a2 hij => by rw [hg i a1 a2, if_neg hij]) ht, hg j h1 h2, if_pos rfl]

/-- C37: with `h = 3`: distinct coefficients, off the cut between the limits, the first three closed under conjugation (as the
negated roots of a real cubic are), the others real: `Im` is the integral, whatever the exponents and the order of the limits. -/
theorem C37_cubic (x y : ℝ) (a : List ℂ) (hn : 3 ≤ a.length) (hd : a.Nodup) (hc : ∀ b ∈ a, ∀ t ∈ uIcc y x, b + (t : ℂ) ∈ Complex.slitPlane)
    (h3 : ((a.take 3).map conj).Perm (a.take 3)) (hr : ∀ b ∈ a.drop 3, b.im = 0) {m : List ℤ} (hm : m.length = a.length) :
    (EllRed.mk x y a 3 (Or.inl rfl)).Im m = ∫ t in y..x, integrand a 3 m t := by
  set E := EllRed.mk x y a 3 (Or.inl rfl) with hE
  have h : EllRed.Ok E := ⟨⟨hn, hc⟩, hd⟩
  have ht : a.take 3 = [E.av 1, E.av 2, E.av 3] := by
    match a, hn with
    | a1 :: a2 :: a3 :: l, _ => simp [hE, EllRed.av]
  rw [ht] at h3
  have hmin : min x y ∈ uIcc y x := by rw [uIcc_comm]; exact ⟨le_rfl, min_le_max⟩
  obtain ⟨b, c, d, hC⟩ := cubicOK_of (y := min x y) h3 (fun b hb => by
    rw [← ht] at hb
    exact hc b (List.mem_of_mem_take hb) _ hmin)
  refine EllRed.Im_cubic (E := E) rfl h hC (fun j j1 j2 => ?_) hm
  refine ⟨(E.av j).re, ?_⟩
  have hj : j - 1 < a.length := by have : j ≤ a.length := j2; omega
  have hmem : E.av j ∈ a.drop 3 := by
    rw [EllRed.av, if_pos (by omega), List.getD_eq_getElem _ _ hj, List.mem_drop_iff_getElem]
    exact ⟨j - 4, by omega, by congr 1; omega⟩
  exact (re_of_conj (Complex.conj_eq_iff_im.mpr (hr _ hmem))).symm

/-- Four real roots below `y`. -/
theorem quarticOK_real {y a1 a2 a3 a4 : ℝ} (h1 : 0 < a1 + y) (h2 : 0 < a2 + y) (h3 : 0 < a3 + y) (h4 : 0 < a4 + y) :
    QuarticOK y (-(a1 : ℂ)) (-(a2 : ℂ)) (-(a3 : ℂ)) (-(a4 : ℂ)) (a1 + a2 + a3 + a4) (a1 * a2 + a1 * a3 + a1 * a4 + a2 * a3 + a2 * a4 + a3 * a4)
      (a1 * a2 * a3 + a1 * a2 * a4 + a1 * a3 * a4 + a2 * a3 * a4) (a1 * a2 * a3 * a4) := by
  have hv : ∀ z : ℂ, (z - -(a1 : ℂ)) * (z - -(a2 : ℂ)) * (z - -(a3 : ℂ)) * (z - -(a4 : ℂ)) = z ^ 4 + (a1 + a2 + a3 + a4 : ℝ) * z ^ 3 +
      (a1 * a2 + a1 * a3 + a1 * a4 + a2 * a3 + a2 * a4 + a3 * a4 : ℝ) * z ^ 2 + (a1 * a2 * a3 + a1 * a2 * a4 + a1 * a3 * a4 + a2 * a3 * a4 : ℝ) * z +
      (a1 * a2 * a3 * a4 : ℝ) := by
    intro z
    push_cast
    ring
  refine ⟨hv, fun t ht => ?_, fun ρ σ hρ _ he => ?_⟩
  · have : quartic (a1 + a2 + a3 + a4) (a1 * a2 + a1 * a3 + a1 * a4 + a2 * a3 + a2 * a4 + a3 * a4)
      (a1 * a2 * a3 + a1 * a2 * a4 + a1 * a3 * a4 + a2 * a3 * a4) (a1 * a2 * a3 * a4) t = (a1 + t) * (a2 + t) * (a3 + t) * (a4 + t) := by
      rw [quartic]; ring
    rw [this]
    have e1 : 0 < a1 + t := by linarith
    have e2 : 0 < a2 + t := by linarith
    have e3 : 0 < a3 + t := by linarith
    have e4 : 0 < a4 + t := by linarith
    positivity
  · have h0 := he ρ
    rw [sub_self, zero_mul, zero_mul, zero_mul, ← hv] at h0
    have nz : ∀ a : ℝ, ρ - -(a : ℂ) ≠ 0 := by
      intro a e0
      have := congrArg Complex.im e0
      simp at this
      exact absurd this hρ.ne'
    exact absurd h0.symm (mul_ne_zero (mul_ne_zero (mul_ne_zero (nz _) (nz _)) (nz _)) (nz _))

namespace EllRed

variable {E : EllRed}

/-- The coefficients are real, positive at both limits, and where `R_J` is called its last argument is positive. -/
structure RealQ (E : EllRed) : Prop where
  h4 : E.h = 4
  real : ∀ j, 1 ≤ j → j ≤ E.n → ∃ α : ℝ, E.av j = α ∧ 0 < α + min E.x E.y
  pos : ∀ i, 1 ≤ i → i ≤ 4 → 0 < (E.U2nu i 0).re
  out : ∀ j, 4 < j → j ≤ E.n → 0 < (E.U2nu 1 j).re

theorem RealQ.swap (h : RealQ E) : RealQ E.swap :=
  ⟨h.h4, fun j h1 h2 => by
    obtain ⟨α, e, p⟩ := h.real j h1 h2
    exact ⟨α, e, by rw [min_comm] at p; exact p⟩, fun i h1 h2 => by rw [U2nu_swap]; exact h.pos i h1 h2, fun j h1 h2 => by rw [U2nu_swap]; exact h.out j h1 h2⟩

theorem RealQ.Ie_eq (R : RealQ E) (h : Ok E) (hlt : E.y < E.x) {j : ℕ} (h1 : 1 ≤ j) (h2 : j ≤ E.n) {q : ℤ} (q1 : -1 ≤ q) (q2 : q ≤ 1) :
    E.Ie (q * j) = E.J q j := by
  have h4 := R.h4
  have hle := h.le
  have hre := R.real
  rw [min_eq_right hlt.le] at hre
  obtain ⟨a1, e1, p1⟩ := hre 1 (by omega) (by omega)
  obtain ⟨a2, e2, p2⟩ := hre 2 (by omega) (by omega)
  obtain ⟨a3, e3, p3⟩ := hre 3 (by omega) (by omega)
  obtain ⟨a4, e4, p4⟩ := hre 4 (by omega) (by omega)
  obtain ⟨b, c, d, e, ok⟩ : ∃ b c d e, QuarticOK E.y (-E.av 1) (-E.av 2) (-E.av 3) (-E.av 4) b c d e := by
    rw [e1, e2, e3, e4]
    exact ⟨_, _, _, _, quarticOK_real p1 p2 p3 p4⟩
  have C : Quar E b c d e := ⟨h4, hlt, ok⟩
  obtain ⟨o1, o2, o3, o4, -⟩ := C.ord
  have im : ∀ i, 1 ≤ i → i ≤ E.n → (-E.av i).im = 0 := by
    intro i a1 a2
    obtain ⟨α, e, -⟩ := hre i a1 a2
    rw [e]; simp
  have hx : (E.xmy ^ 2).im = 0 ∧ 0 < (E.xmy ^ 2).re := by
    rw [xmy_eq, ← Complex.ofReal_pow]
    exact ⟨Complex.ofReal_im _, by rw [Complex.ofReal_re]; have := sub_pos.mpr hlt; positivity⟩
  have wpos : ∀ w u : ℂ, E.xmy ^ 2 * w = u → 0 < u.re → 0 < w.re := by
    intro w u e hu
    rw [← e, Complex.mul_re, hx.1, zero_mul, sub_zero] at hu
    exact (mul_pos_iff_of_pos_left hx.2).mp hu
  have T : Quar.Third E := by
    have g : ∀ i j k l, Ord E b c d e i j k l → i ≤ 4 → E.rest [i] = [j, k, l] → Good 1 0 E.y E.x (-E.av i) (-E.av j) (-E.av k) (-E.av l) := by
      intro i j k l o hi hr
      refine o.ok.good_real hlt (im i o.pi (by omega)) (fun t _ => by norm_num) (by simp [lam]) ?_
      exact wpos _ _ (o.U2nu_W2 hlt hr 0 1 0 (by rw [d_to_zero o.pi]; simp [lam]) (by rw [d_to_zero o.pj]; simp [lam])) (R.pos i o.pi hi)
    refine ⟨g _ _ _ _ o1 (by omega) (by simp [rest, idx4 h4]), g _ _ _ _ o2 (by omega) (by simp [rest, idx4 h4]),
      g _ _ _ _ o3 (by omega) (by simp [rest, idx4 h4]), g _ _ _ _ o4 (by omega) (by simp [rest, idx4 h4]), fun nu n1 n2 => ?_⟩
    obtain ⟨α, hα, hy⟩ := hre nu (by omega) n2
    have hd := d_ne h (i := 1) (j := nu) le_rfl (by omega) (by omega) n2 (by omega)
    have d1 : lam α 1 (-E.av 1) = -E.d 1 nu := by rw [d_eq (by omega) (by omega), hα, lam]; push_cast; ring
    have d2 : lam α 1 (-E.av 2) = -E.d 2 nu := by rw [d_eq (by omega) (by omega), hα, lam]; push_cast; ring
    refine ⟨α, hα, hy, o1.ok.good_real hlt (im 1 le_rfl (by omega)) (fun t ht => by linarith [ht.1]) (by rw [d1]; exact neg_ne_zero.mpr hd) ?_⟩
    exact wpos _ _ (o1.U2nu_W2 hlt (by simp [rest, idx4 h4]) nu α 1 d1 d2) (R.out nu n1 n2)
  exact C.Ie_eq h T h1 h2 q1 q2

end EllRed

/-- C37: with `h = 4`: distinct real coefficients that keep every factor positive between the limits: `Im` is the integral, whatever the
exponents and the order of the limits, if the last argument of `R_J` (`U2nu`) is positive where it is used.  (Otherwise the code's `R_J`
would have to be a Cauchy principal value.) -/
theorem C37_quartic (x y : ℝ) (a : List ℝ) (hn : 4 ≤ a.length) (hd : a.Nodup) (hc : ∀ b ∈ a, 0 < b + x ∧ 0 < b + y)
    (hp : ∀ i, 1 ≤ i → i ≤ 4 → 0 < ((EllRed.mk x y (a.map (↑)) 4 (Or.inr rfl)).U2nu i 0).re)
    (hq : ∀ j, 4 < j → j ≤ a.length → 0 < ((EllRed.mk x y (a.map (↑)) 4 (Or.inr rfl)).U2nu 1 j).re) {m : List ℤ} (hm : m.length = a.length) :
    (EllRed.mk x y (a.map (↑)) 4 (Or.inr rfl)).Im m = ∫ t in y..x, integrand (a.map (↑)) 4 m t := by
  set E := EllRed.mk x y (a.map (↑)) 4 (Or.inr rfl) with hE
  have hlen : E.n = a.length := by rw [EllRed.n, hE, List.length_map]
  have hmin : ∀ b ∈ a, 0 < b + min x y := fun b hb => by
    rcases min_choice x y with e | e <;> rw [e]
    exacts [(hc b hb).1, (hc b hb).2]
  have h : EllRed.Ok E := by
    refine ⟨⟨by rw [hlen]; exact hn, fun b hb t ht => ?_⟩, hd.map Complex.ofReal_injective⟩
    obtain ⟨α, hα, rfl⟩ := List.mem_map.mp hb
    rw [← Complex.ofReal_add, Complex.ofReal_mem_slitPlane]
    rw [uIcc_comm] at ht
    have := hmin α hα
    have := ht.1
    change min x y ≤ t at this
    linarith
  have R : EllRed.RealQ E := ⟨rfl, fun j h1 h2 => by
    have hj : j - 1 < a.length := by omega
    refine ⟨a[j - 1], ?_, hmin _ (List.getElem_mem hj)⟩
    rw [EllRed.av, if_pos (by omega), List.getD_eq_getElem _ _ (by simpa [hE] using hj)]
    simp [hE], hp, fun j h1 h2 => hq j h1 (by omega)⟩
  rw [EllRed.Im_eq h (EllRed.Ie_all (fun F => EllRed.RealQ F ∧ EllRed.Ok F) (fun F hlt hF j h1 h2 q q1 q2 => hF.1.Ie_eq hF.2 hlt h1 h2 q1 q2)
    ⟨R, h⟩ ⟨R.swap, h.swap⟩) (hm.trans hlen.symm)]
  exact intervalIntegral.integral_congr fun t _ => EllRed.v_eq_integrand (hm.trans hlen.symm) t

/-- A conjugate pair, a real root and a fourth factor, with the limits exchanged. -/
example : (EllRed.mk 0 1 [1 + Complex.I, 1 - Complex.I, 2, 3] 3 (Or.inl rfl)).Im [2, 0, -1, -3] =
    ∫ t in (1 : ℝ)..0, integrand [1 + Complex.I, 1 - Complex.I, 2, 3] 3 [2, 0, -1, -3] t := by
  refine C37_cubic 0 1 _ (by simp) ?_ ?_ ?_ ?_ (by simp)
  · simp only [List.nodup_cons, List.mem_cons, List.not_mem_nil, not_or, or_false]
    refine ⟨⟨?_, ?_, ?_⟩, ⟨?_, ?_⟩, ?_, not_false, List.nodup_nil⟩ <;> · rw [Complex.ext_iff]; norm_num
  · intro b hb t ht
    have ht0 : 0 ≤ t := by rw [uIcc_of_ge zero_le_one] at ht; exact ht.1
    simp only [List.mem_cons, List.not_mem_nil, or_false] at hb
    rcases hb with rfl | rfl | rfl | rfl <;> left <;> simp <;> linarith
  · simp only [List.take, List.map_cons, List.map_nil, map_add, map_sub, map_one, Complex.conj_I, Complex.conj_ofNat, sub_neg_eq_add]
    rw [← sub_eq_add_neg]
    exact List.Perm.swap _ _ _
  · simp

/-- The last arguments of `R_J` for four square-root factors and a fifth. -/
theorem demo_U2nu : (∀ i, 1 ≤ i → i ≤ 4 → 0 < ((EllRed.mk 240 0 ([289, 121, 49, 16, 1].map ((↑) : ℝ → ℂ)) 4 (Or.inr rfl)).U2nu i 0).re) ∧
    ∀ j, 4 < j → j ≤ 5 → 0 < ((EllRed.mk 240 0 ([289, 121, 49, 16, 1].map ((↑) : ℝ → ℂ)) 4 (Or.inr rfl)).U2nu 1 j).re := by
  have sq : ∀ a b : ℝ, 0 ≤ b → a = b ^ 2 → csqrt (a : ℂ) = b := by
    intro a b hb e
    rw [e, csqrt_ofReal (by positivity), Real.sqrt_sq hb]
  set E := EllRed.mk 240 0 ([289, 121, 49, 16, 1].map ((↑) : ℝ → ℂ)) 4 (Or.inr rfl) with hE
  have a1 : E.av 1 = (289 : ℝ) := by simp [hE, EllRed.av]
  have a2 : E.av 2 = (121 : ℝ) := by simp [hE, EllRed.av]
  have a3 : E.av 3 = (49 : ℝ) := by simp [hE, EllRed.av]
  have a4 : E.av 4 = (16 : ℝ) := by simp [hE, EllRed.av]
  have a5 : E.av 5 = (1 : ℝ) := by simp [hE, EllRed.av]
  have X1 : E.X 1 = (23 : ℝ) := by rw [EllRed.X, if_neg (by omega), a1, ← Complex.ofReal_add]; exact sq _ _ (by norm_num) (by norm_num [hE])
  have X2 : E.X 2 = (19 : ℝ) := by rw [EllRed.X, if_neg (by omega), a2, ← Complex.ofReal_add]; exact sq _ _ (by norm_num) (by norm_num [hE])
  have X3 : E.X 3 = (17 : ℝ) := by rw [EllRed.X, if_neg (by omega), a3, ← Complex.ofReal_add]; exact sq _ _ (by norm_num) (by norm_num [hE])
  have X4 : E.X 4 = (16 : ℝ) := by rw [EllRed.X, if_neg (by omega), a4, ← Complex.ofReal_add]; exact sq _ _ (by norm_num) (by norm_num [hE])
  have Y1 : E.Y 1 = (17 : ℝ) := by rw [EllRed.Y, if_neg (by omega), a1, ← Complex.ofReal_add]; exact sq _ _ (by norm_num) (by norm_num [hE])
  have Y2 : E.Y 2 = (11 : ℝ) := by rw [EllRed.Y, if_neg (by omega), a2, ← Complex.ofReal_add]; exact sq _ _ (by norm_num) (by norm_num [hE])
  have Y3 : E.Y 3 = (7 : ℝ) := by rw [EllRed.Y, if_neg (by omega), a3, ← Complex.ofReal_add]; exact sq _ _ (by norm_num) (by norm_num [hE])
  have Y4 : E.Y 4 = (4 : ℝ) := by rw [EllRed.Y, if_neg (by omega), a4, ← Complex.ofReal_add]; exact sq _ _ (by norm_num) (by norm_num [hE])
  have i4 := EllRed.idx4 (E := E) rfl
  have hx : E.xmy = (240 : ℝ) := by rw [EllRed.xmy_eq]; norm_num [hE]
  have key : ∀ z : ℂ, ∀ r : ℝ, z = r → 0 < r → 0 < z.re := fun z r e h => by rw [e, Complex.ofReal_re]; exact h
  refine ⟨fun i h1 h2 => ?_, fun j h1 h2 => ?_⟩
  · have hi : i = 1 ∨ i = 2 ∨ i = 3 ∨ i = 4 := by omega
    rcases hi with rfl | rfl | rfl | rfl
    · refine key (E.U2nu 1 0) 207658000 ?_ (by norm_num)
      simp [EllRed.U2nu, EllRed.rest, i4, EllRed.U2, X1, X2, X3, X4, Y1, Y2, Y3, Y4, hx, EllRed.d, a1, a2, a3, a4]
      norm_num [EllRed.av]
    · refine key (E.U2nu 2 0) 3546154000 ?_ (by norm_num)
      simp [EllRed.U2nu, EllRed.rest, i4, EllRed.U2, X1, X2, X3, X4, Y1, Y2, Y3, Y4, hx, EllRed.d, a1, a2, a3, a4]
      norm_num [EllRed.av]
    · refine key (E.U2nu 3 0) 2986282000 ?_ (by norm_num)
      simp [EllRed.U2nu, EllRed.rest, i4, EllRed.U2, X1, X2, X3, X4, Y1, Y2, Y3, Y4, hx, EllRed.d, a1, a2, a3, a4]
      norm_num [EllRed.av]
    · refine key (E.U2nu 4 0) 2330506000 ?_ (by norm_num)
      simp [EllRed.U2nu, EllRed.rest, i4, EllRed.U2, X1, X2, X3, X4, Y1, Y2, Y3, Y4, hx, EllRed.d, a1, a2, a3, a4]
      norm_num [EllRed.av]
  · obtain rfl : j = 5 := by omega
    refine key (E.U2nu 1 5) 2409130000 ?_ (by norm_num)
    simp [EllRed.U2nu, EllRed.rest, i4, EllRed.U2, X1, X2, X3, X4, Y1, Y2, Y3, Y4, hx, EllRed.d, a1, a2, a3, a4, a5]
    norm_num [EllRed.av]

/-- Four square-root factors and a fifth, with exponents that use every branch. -/
example : (EllRed.mk 240 0 ([289, 121, 49, 16, 1].map ((↑) : ℝ → ℂ)) 4 (Or.inr rfl)).Im [1, 0, -2, 0, 3] =
    ∫ t in (0 : ℝ)..240, integrand ([289, 121, 49, 16, 1].map ((↑) : ℝ → ℂ)) 4 [1, 0, -2, 0, 3] t := by
  refine C37_quartic 240 0 _ (by simp) (by norm_num) ?_ demo_U2nu.1 (fun j h1 h2 => demo_U2nu.2 j h1 (by simpa using h2)) (by simp)
  intro b hb
  simp only [List.mem_cons, List.not_mem_nil, or_false] at hb
  rcases hb with rfl | rfl | rfl | rfl | rfl <;> norm_num

end Verif.Ellred

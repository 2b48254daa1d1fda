import Verif.Ellred.ComplexSeries
import Verif.Ellred.RedCubic

/-! # `elliprf` and `elliprc` for complex arguments -/

namespace Verif.Ellred

open MeasureTheory Set Filter Topology Verif.Carlson

/-! ### The halves of the arguments -/

theorem csqrt_cone {w : ℂ} (h : 0 < w.re) : |(csqrt w).im| < (csqrt w).re := by
  have h1 := csqrt_sq w
  have h0 := csqrt_re w
  generalize csqrt w = s at *
  have e : s.re * s.re - s.im * s.im = w.re := by rw [← h1, Complex.mul_re]
  have : s.im ^ 2 < s.re ^ 2 := by nlinarith
  rwa [sq_lt_sq, abs_of_nonneg h0] at this

theorem cone_conj {p q : ℂ} (hp : |p.im| < p.re) (hq : |q.im| < q.re) : 0 < (p * (starRingEnd ℂ) q).re := by
  rw [Complex.mul_re, Complex.conj_re, Complex.conj_im]
  have h1 : -(p.im * q.im) ≤ |p.im| * |q.im| := by rw [← abs_mul]; exact neg_le_abs _
  have h2 : |p.im| * |q.im| < p.re * q.re := mul_lt_mul'' hp hq (abs_nonneg _) (abs_nonneg _)
  linarith

/-- The arguments of `x` and `y` differ by less than `π`. -/
def NC (x y : ℂ) : Prop := 0 < (csqrt x * (starRingEnd ℂ) (csqrt y)).re

theorem csqrt_polar {x : ℂ} (hx : x ≠ 0) : csqrt x = (√‖x‖ : ℝ) * Complex.exp ((x.arg / 2 : ℝ) * Complex.I) := by
  rw [csqrt, Complex.cpow_def_of_ne_zero hx, Complex.log, add_mul, Complex.exp_add]
  congr 1
  · rw [show ((Real.log ‖x‖ : ℝ) : ℂ) * (1 / 2) = ((Real.log ‖x‖ / 2 : ℝ) : ℂ) by push_cast; ring, ← Complex.ofReal_exp,
      ← Real.log_sqrt (norm_nonneg x), Real.exp_log (Real.sqrt_pos.mpr (norm_pos_iff.mpr hx))]
  · congr 1; push_cast; ring

theorem NC_of_arg {x y : ℂ} (hx : x ≠ 0) (hy : y ≠ 0) (h : |x.arg - y.arg| < Real.pi) : NC x y := by
  rw [NC, csqrt_polar hx, csqrt_polar hy, map_mul, Complex.conj_ofReal, ← Complex.exp_conj, map_mul, Complex.conj_I, Complex.conj_ofReal]
  have e : ((√‖x‖ : ℝ) : ℂ) * Complex.exp ((x.arg / 2 : ℝ) * Complex.I) * (((√‖y‖ : ℝ) : ℂ) * Complex.exp ((y.arg / 2 : ℝ) * -Complex.I)) =
      ((√‖x‖ * √‖y‖ : ℝ) : ℂ) * Complex.exp (((x.arg - y.arg) / 2 : ℝ) * Complex.I) := by
    rw [show (((x.arg - y.arg) / 2 : ℝ) : ℂ) * Complex.I = (x.arg / 2 : ℝ) * Complex.I + (y.arg / 2 : ℝ) * -Complex.I by push_cast; ring, Complex.exp_add]
    push_cast
    ring
  rw [e, Complex.re_ofReal_mul, Complex.exp_ofReal_mul_I_re]
  have hc : 0 < Real.cos ((x.arg - y.arg) / 2) := by
    obtain ⟨h1, h2⟩ := abs_lt.mp h
    exact Real.cos_pos_of_mem_Ioo ⟨by linarith, by linarith⟩
  have := Real.sqrt_pos.mpr (norm_pos_iff.mpr hx)
  have := Real.sqrt_pos.mpr (norm_pos_iff.mpr hy)
  positivity

section
variable {x y z : ℂ} (hxy : 0 < (csqrt x + csqrt y).re) (hxz : 0 < (csqrt x + csqrt z).re) (hyz : 0 < (csqrt y + csqrt z).re)
include hxy hxz hyz

theorem dup_csqrts : csqrt ((x + lmOf x y z) / 4) = csqrt (csqrt x + csqrt y) * csqrt (csqrt x + csqrt z) / 2 ∧
    csqrt ((y + lmOf x y z) / 4) = csqrt (csqrt x + csqrt y) * csqrt (csqrt y + csqrt z) / 2 ∧
    csqrt ((z + lmOf x y z) / 4) = csqrt (csqrt x + csqrt z) * csqrt (csqrt y + csqrt z) / 2 := by
  rw [dup_factor, dup_factor2, dup_factor3, csqrt_quarter, csqrt_quarter, csqrt_quarter, csqrt_mul_of_re hxy hxz,
    csqrt_mul_of_re hxy hyz, csqrt_mul_of_re hxz hyz]
  exact ⟨rfl, rfl, rfl⟩

theorem dup_slit' : (x + lmOf x y z) / 4 ∈ Complex.slitPlane ∧ (y + lmOf x y z) / 4 ∈ Complex.slitPlane ∧ (z + lmOf x y z) / 4 ∈ Complex.slitPlane := by
  rw [dup_factor, dup_factor2, dup_factor3]
  exact ⟨slit_quarter (slit_mul_of_re hxy hxz), slit_quarter (slit_mul_of_re hxy hyz), slit_quarter (slit_mul_of_re hxz hyz)⟩

/-- After a duplication no two arguments lie on different sides of the cut. -/
theorem dup_NC : NC ((x + lmOf x y z) / 4) ((y + lmOf x y z) / 4) ∧ NC ((x + lmOf x y z) / 4) ((z + lmOf x y z) / 4) ∧
    NC ((y + lmOf x y z) / 4) ((z + lmOf x y z) / 4) := by
  obtain ⟨e1, e2, e3⟩ := dup_csqrts hxy hxz hyz
  simp only [NC]
  rw [e1, e2, e3]
  have c1 := csqrt_cone hxy
  have c2 := csqrt_cone hxz
  have c3 := csqrt_cone hyz
  generalize csqrt (csqrt x + csqrt y) = p at *
  generalize csqrt (csqrt x + csqrt z) = q at *
  generalize csqrt (csqrt y + csqrt z) = r at *
  have key : ∀ a b c : ℂ, |a.im| < a.re → |b.im| < b.re → |c.im| < c.re → 0 < (a * b / 2 * (starRingEnd ℂ) (a * c / 2)).re := by
    intro a b c ha hb hc
    have e : a * b / 2 * (starRingEnd ℂ) (a * c / 2) = ((Complex.normSq a / 4 : ℝ) : ℂ) * (b * (starRingEnd ℂ) c) := by
      rw [map_div₀, map_mul, show (starRingEnd ℂ) 2 = 2 from Complex.conj_ofNat 2]
      push_cast
      rw [Complex.normSq_eq_conj_mul_self]
      ring
    rw [e, Complex.re_ofReal_mul]
    have ha0 : a ≠ 0 := by rintro rfl; simp at ha
    exact mul_pos (div_pos (Complex.normSq_pos.mpr ha0) (by norm_num)) (cone_conj hb hc)
  refine ⟨key p q r c1 c2 c3, ?_, ?_⟩
  · rw [mul_comm p q]; exact key q p r c2 c1 c3
  · rw [mul_comm p r, mul_comm q r]; exact key r p q c3 c1 c2

end

section
variable {x y z : ℂ} (hx : x ∈ Complex.slitPlane) (hy : y ∈ Complex.slitPlane) (hz : z ∈ Complex.slitPlane)
include hx hy hz

/-- The roots keep their distance from the imaginary axis. -/
theorem dup_re {μ : ℝ} (hμ : 0 < μ) (h1 : μ ≤ (csqrt x).re) (h2 : μ ≤ (csqrt y).re) (h3 : μ ≤ (csqrt z).re) :
    μ ≤ (csqrt ((x + lmOf x y z) / 4)).re ∧ μ ≤ (csqrt ((y + lmOf x y z) / 4)).re ∧ μ ≤ (csqrt ((z + lmOf x y z) / 4)).re := by
  obtain ⟨e1, e2, e3⟩ := dup_csqrts (re_sum_pos hx hy) (re_sum_pos hx hz) (re_sum_pos hy hz)
  rw [e1, e2, e3]
  have hh : ∀ w : ℂ, (w / 2).re = w.re / 2 := fun w => by
    rw [show (2 : ℂ) = ((2 : ℝ) : ℂ) by norm_num, Complex.div_ofReal_re]
  rw [hh, hh, hh]
  have k := @re_csqrt_mul
  have a1 : 2 * μ ≤ (csqrt x + csqrt y).re := by rw [Complex.add_re]; linarith
  have a2 : 2 * μ ≤ (csqrt x + csqrt z).re := by rw [Complex.add_re]; linarith
  have a3 : 2 * μ ≤ (csqrt y + csqrt z).re := by rw [Complex.add_re]; linarith
  have hμ2 : 0 < 2 * μ := by linarith
  exact ⟨by linarith [k hμ2 a1 a2], by linarith [k hμ2 a1 a3], by linarith [k hμ2 a2 a3]⟩

end

/-! ### The exit of the loop -/

theorem re_one_sub {X : ℂ} (h : ‖X‖ ≤ 1 / 4) : 0 < (1 - X).re := by
  have := (Complex.abs_re_le_norm X).trans h
  rw [Complex.sub_re, Complex.one_re]
  linarith [(abs_le.mp this).2]

/-- Which root of `A(1 - X)` is the principal one. -/
theorem root_sign (A X : ℂ) : csqrt (A * (1 - X)) = csqrt A * csqrt (1 - X) ∨ csqrt (A * (1 - X)) = -(csqrt A * csqrt (1 - X)) := by
  apply sq_eq_sq_iff_eq_or_eq_neg.mp
  rw [mul_pow, sq, sq, sq, csqrt_sq, csqrt_sq, csqrt_sq]

theorem sign_eq {A X Y : ℂ} (hX : ‖X‖ ≤ 1 / 4) (hY : ‖Y‖ ≤ 1 / 4) (h : NC (A * (1 - X)) (A * (1 - Y)))
    {σ τ : ℝ} (hσ : σ = 1 ∨ σ = -1) (hτ : τ = 1 ∨ τ = -1) (e1 : csqrt (A * (1 - X)) = σ * (csqrt A * csqrt (1 - X)))
    (e2 : csqrt (A * (1 - Y)) = τ * (csqrt A * csqrt (1 - Y))) : σ = τ := by
  rw [NC, e1, e2] at h
  have e : (σ : ℂ) * (csqrt A * csqrt (1 - X)) * (starRingEnd ℂ) ((τ : ℂ) * (csqrt A * csqrt (1 - Y))) =
      ((σ * τ * Complex.normSq (csqrt A) : ℝ) : ℂ) * (csqrt (1 - X) * (starRingEnd ℂ) (csqrt (1 - Y))) := by
    rw [map_mul, map_mul, Complex.conj_ofReal]
    push_cast
    rw [Complex.normSq_eq_conj_mul_self]
    ring
  rw [e, Complex.re_ofReal_mul] at h
  have hc := cone_conj (csqrt_cone (re_one_sub hX)) (csqrt_cone (re_one_sub hY))
  have hn := Complex.normSq_nonneg (csqrt A)
  rcases hσ with rfl | rfl <;> rcases hτ with rfl | rfl
  · rfl
  · exfalso; nlinarith
  · exfalso; nlinarith
  · rfl

theorem KGood_exit {A X Y Z : ℂ} {c : ℝ} (hc : 0 < c) (hX : ‖X‖ ≤ 1 / 4) (hY : ‖Y‖ ≤ 1 / 4) (hZ : ‖Z‖ ≤ 1 / 4) (hs : X + Y + c * Z = 0)
    (sx : A * (1 - X) ∈ Complex.slitPlane) (sy : A * (1 - Y) ∈ Complex.slitPlane) (sz : A * (1 - Z) ∈ Complex.slitPlane)
    (h : (NC (A * (1 - X)) (A * (1 - Y)) ∧ NC (A * (1 - X)) (A * (1 - Z)) ∧ NC (A * (1 - Y)) (A * (1 - Z))) ∨
      0 ≤ (A * (1 - X)).re ∨ 0 ≤ (A * (1 - Y)).re ∨ 0 ≤ (A * (1 - Z)).re) :
    KGood A (1 - X) ∧ KGood A (1 - Y) ∧ KGood A (1 - Z) := by
  suffices hm : A.re < 0 → 0 < (A * (1 - X)).im * A.im ∧ 0 < (A * (1 - Y)).im * A.im ∧ 0 < (A * (1 - Z)).im * A.im from
    ⟨⟨re_one_sub hX, fun hA => (hm hA).1⟩, ⟨re_one_sub hY, fun hA => (hm hA).2.1⟩, ⟨re_one_sub hZ, fun hA => (hm hA).2.2⟩⟩
  intro hA
  have hsum : (A * (1 - X)).im + (A * (1 - Y)).im + c * (A * (1 - Z)).im = (2 + c) * A.im := by
    have e : A * (1 - X) + A * (1 - Y) + c * (A * (1 - Z)) = ((2 + c : ℝ) : ℂ) * A := by push_cast; linear_combination -A * hs
    have := congrArg Complex.im e
    rwa [Complex.add_im, Complex.add_im, Complex.im_ofReal_mul, Complex.im_ofReal_mul] at this
  rcases h with ⟨n1, n2, n3⟩ | h
  · have hsg : ∀ W : ℂ, ∃ σ : ℝ, (σ = 1 ∨ σ = -1) ∧ csqrt (A * (1 - W)) = σ * (csqrt A * csqrt (1 - W)) := by
      intro W
      rcases root_sign A W with h | h
      · exact ⟨1, Or.inl rfl, by rw [h]; push_cast; ring⟩
      · exact ⟨-1, Or.inr rfl, by rw [h]; push_cast; ring⟩
    obtain ⟨σ, hσ, e1⟩ := hsg X
    obtain ⟨τ, hτ, e2⟩ := hsg Y
    obtain ⟨ρ, hρ, e3⟩ := hsg Z
    obtain rfl := sign_eq hX hY n1 hσ hτ e1 e2
    obtain rfl := sign_eq hX hZ n2 hσ hρ e1 e3
    have hA2 : (csqrt A).re * (csqrt A).re - (csqrt A).im * (csqrt A).im = A.re := by
      have := congrArg Complex.re (csqrt_sq A); rwa [Complex.mul_re] at this
    have hAi : 2 * (csqrt A).re * (csqrt A).im = A.im := by
      have := congrArg Complex.im (csqrt_sq A); rw [Complex.mul_im] at this; linarith
    have hAr := csqrt_re A
    have key : ∀ W : ℂ, ‖W‖ ≤ 1 / 4 → A * (1 - W) ∈ Complex.slitPlane → csqrt (A * (1 - W)) = σ * (csqrt A * csqrt (1 - W)) →
        0 < (A * (1 - W)).im * (σ * (csqrt A).im) := by
      intro W hW sW eW
      have hre := csqrt_re_pos sW
      have him : (A * (1 - W)).im = 2 * (csqrt (A * (1 - W))).re * (csqrt (A * (1 - W))).im := by
        conv_lhs => rw [← csqrt_sq (A * (1 - W)), Complex.mul_im]
        ring
      have hci : (csqrt (A * (1 - W))).im = σ * ((csqrt A).re * (csqrt (1 - W)).im + (csqrt A).im * (csqrt (1 - W)).re) := by
        rw [eW, Complex.im_ofReal_mul, Complex.mul_im]
      have hcone := csqrt_cone (re_one_sub hW)
      rw [him]
      generalize (csqrt (A * (1 - W))).re = r at *
      rw [hci]
      generalize (csqrt (1 - W)) = q at *
      generalize csqrt A = s at *
      have hσ2 : σ * σ = 1 := by rcases hσ with rfl | rfl <;> norm_num
      have hi : s.re ^ 2 < s.im ^ 2 := by nlinarith
      have hi' : s.re < |s.im| := by rw [sq_lt_sq, abs_of_nonneg hAr] at hi; exact hi
      have hpos : 0 < s.im * (s.re * q.im + s.im * q.re) := by
        have h1 : -(|s.im| * (s.re * |q.im|)) ≤ s.im * (s.re * q.im) := by
          have : |s.im * (s.re * q.im)| = |s.im| * (s.re * |q.im|) := by rw [abs_mul, abs_mul, abs_of_nonneg hAr]
          rw [← this]; exact neg_abs_le _
        have h2 : |s.im| * (s.re * |q.im|) < |s.im| * (|s.im| * q.re) := by
          apply mul_lt_mul_of_pos_left _ (lt_of_le_of_lt hAr hi')
          exact mul_lt_mul'' hi' hcone hAr (abs_nonneg _)
        have h3 : |s.im| * (|s.im| * q.re) = s.im * (s.im * q.re) := by rw [← mul_assoc, abs_mul_abs_self, mul_assoc]
        linarith
      have e : 2 * r * (σ * (s.re * q.im + s.im * q.re)) * (σ * s.im) = (σ * σ) * (2 * r * (s.im * (s.re * q.im + s.im * q.re))) := by ring
      rw [e, hσ2, one_mul]
      positivity
    have kx := key X hX sx e1
    have ky := key Y hY sy e2
    have kz := key Z hZ sz e3
    have ksum : 0 < A.im * (σ * (csqrt A).im) := by
      have : 0 < ((A * (1 - X)).im + (A * (1 - Y)).im + c * (A * (1 - Z)).im) * (σ * (csqrt A).im) := by
        have := mul_pos hc kz
        linarith
      rw [hsum, mul_assoc] at this
      exact (mul_pos_iff_of_pos_left (by linarith)).mp this
    generalize σ * (csqrt A).im = τ at *
    have fin : ∀ w : ℝ, 0 < w * τ → 0 < w * A.im := by
      intro w hw
      rcases lt_trichotomy τ 0 with h | h | h
      · have h1 : A.im < 0 := by by_contra hc; nlinarith
        have h2 : w < 0 := by by_contra hc; nlinarith
        exact mul_pos_of_neg_of_neg h2 h1
      · rw [h, mul_zero] at hw; exact absurd hw (lt_irrefl _)
      · have h1 : 0 < A.im := by by_contra hc; nlinarith
        have h2 : 0 < w := by by_contra hc; nlinarith
        exact mul_pos h2 h1
    exact ⟨fin _ kx, fin _ ky, fin _ kz⟩
  · have hre : |A.re| ≤ ‖A‖ / 4 := by
      have key : ∀ W : ℂ, ‖W‖ ≤ 1 / 4 → 0 ≤ (A * (1 - W)).re → |A.re| ≤ ‖A‖ / 4 := by
        intro W hW hp
        have e : (A * (1 - W)).re = A.re - (A * W).re := by rw [mul_sub, mul_one, Complex.sub_re]
        have hb : |(A * W).re| ≤ ‖A‖ / 4 := by
          refine (Complex.abs_re_le_norm _).trans ?_
          rw [norm_mul]
          nlinarith [norm_nonneg A]
        rw [abs_of_neg hA]
        linarith [(abs_le.mp hb).1]
      rcases h with h | h | h
      · exact key X hX h
      · exact key Y hY h
      · exact key Z hZ h
    have hN : 0 < ‖A‖ := norm_pos_iff.mpr (by rintro rfl; simp at hA)
    have him : ‖A‖ / 4 < |A.im| := by
      have := Complex.sq_norm A
      rw [Complex.normSq_apply] at this
      have h2 : A.re * A.re ≤ (‖A‖ / 4) ^ 2 := by
        rw [← abs_mul_abs_self]; nlinarith [abs_nonneg A.re]
      rw [← abs_of_pos (show 0 < ‖A‖ / 4 by positivity), ← sq_lt_sq]
      nlinarith
    have key : ∀ W : ℂ, ‖W‖ ≤ 1 / 4 → 0 < (A * (1 - W)).im * A.im := by
      intro W hW
      have e : (A * (1 - W)).im = A.im - (A * W).im := by rw [mul_sub, mul_one, Complex.sub_im]
      have hb : |(A * W).im| ≤ ‖A‖ / 4 := by
        refine (Complex.abs_im_le_norm _).trans ?_
        rw [norm_mul]
        nlinarith [norm_nonneg A]
      rw [e, sub_mul]
      have h1 : (A * W).im * A.im ≤ |(A * W).im| * |A.im| := by rw [← abs_mul]; exact le_abs_self _
      have h2 : A.im * A.im = |A.im| * |A.im| := (abs_mul_abs_self _).symm
      nlinarith [abs_nonneg A.im]
    exact ⟨key X hX, key Y hY, key Z hZ⟩

/-! ### The loop -/

/-- The three variables of a state. -/
def Slit3 (s : FState) : Prop := s.x ∈ Complex.slitPlane ∧ s.y ∈ Complex.slitPlane ∧ s.z ∈ Complex.slitPlane

/-- Any two of the three roots have a sum in the right half-plane: at most one of the variables is zero, the others are off the cut. -/
def Sum3 (s : FState) : Prop :=
  0 < (csqrt s.x + csqrt s.y).re ∧ 0 < (csqrt s.x + csqrt s.z).re ∧ 0 < (csqrt s.y + csqrt s.z).re

theorem Slit3.sum3 {s : FState} (h : Slit3 s) : Sum3 s := ⟨re_sum_pos h.1 h.2.1, re_sum_pos h.1 h.2.2, re_sum_pos h.2.1 h.2.2⟩

theorem Sum3.step {s : FState} (h : Sum3 s) : Slit3 (fStep s) := dup_slit' h.1 h.2.1 h.2.2

theorem Slit3.step {s : FState} (h : Slit3 s) : Slit3 (fStep s) := dup_slit h.1 h.2.1 h.2.2

/-- The loop of `elliprf` stops for arguments off the cut. -/
theorem rf_stops {x y z A₀ : ℂ} (h : Slit3 (fStep ⟨x, y, z, A₀, 1⟩)) (Q : ℝ) :
    ∃ n, (fStep^[n] ⟨x, y, z, A₀, 1⟩).pow4 * Q < ‖(fStep^[n] ⟨x, y, z, A₀, 1⟩).A‖ := by
  set s1 := fStep ⟨x, y, z, A₀, 1⟩ with hs1
  obtain ⟨μ, hμ, m1, m2, m3⟩ := min3 (csqrt_re_pos h.1) (csqrt_re_pos h.2.1) (csqrt_re_pos h.2.2)
  have hinv := iterate_inv (step := fStep) (fun s => Slit3 s ∧ μ ≤ (csqrt s.x).re ∧ μ ≤ (csqrt s.y).re ∧ μ ≤ (csqrt s.z).re)
    (fun s hs => ⟨hs.1.step, dup_re hs.1.1 hs.1.2.1 hs.1.2.2 hμ hs.2.1 hs.2.2.1 hs.2.2.2⟩) (s := s1) ⟨h, m1, m2, m3⟩
  have hlow : ∀ n, μ * μ ≤ ‖(fStep^[n] s1).x‖ := by
    intro n
    obtain ⟨-, h1, -⟩ := hinv n
    rw [← csqrt_sq (fStep^[n] s1).x, norm_mul]
    have : μ ≤ ‖csqrt (fStep^[n] s1).x‖ := h1.trans ((le_abs_self _).trans (Complex.abs_re_le_norm _))
    exact mul_le_mul this this hμ.le (norm_nonneg _)
  have hp : ∀ n, (fStep^[n] s1).pow4 = 1 / 4 ^ (n + 1) ∧ (fStep^[n] s1).A - (fStep^[n] s1).x = (A₀ - x) * ((1 / 4 ^ (n + 1) : ℝ) : ℂ) := by
    intro n
    induction n with
    | zero =>
      refine ⟨by simp [hs1, fStep], ?_⟩
      simp only [Function.iterate_zero, id, hs1, fStep]
      push_cast
      ring
    | succ n ih =>
      rw [Function.iterate_succ_apply']
      simp only [fStep]
      refine ⟨by rw [ih.1, pow_succ]; ring, ?_⟩
      have e : ((fStep^[n] s1).A + lmOf (fStep^[n] s1).x (fStep^[n] s1).y (fStep^[n] s1).z) / 4 -
        ((fStep^[n] s1).x + lmOf (fStep^[n] s1).x (fStep^[n] s1).y (fStep^[n] s1).z) / 4 = ((fStep^[n] s1).A - (fStep^[n] s1).x) / 4 := by ring
      rw [e, ih.2, pow_succ (4 : ℝ) (n + 1)]
      push_cast
      ring
  have ht : Tendsto (fun n : ℕ => (1 / 4 : ℝ) ^ n * (Q + ‖A₀ - x‖)) atTop (nhds (0 * (Q + ‖A₀ - x‖))) :=
    (tendsto_pow_atTop_nhds_zero_of_lt_one (by norm_num) (by norm_num)).mul_const _
  rw [zero_mul] at ht
  obtain ⟨n, hn⟩ := ((tendsto_add_atTop_iff_nat 1).mpr ht |>.eventually_lt_const (mul_pos hμ hμ)).exists
  refine ⟨n + 1, ?_⟩
  rw [Function.iterate_succ_apply, ← hs1, (hp n).1]
  have h1 := hlow n
  have h2 : ‖(fStep^[n] s1).x‖ ≤ ‖(fStep^[n] s1).A‖ + ‖A₀ - x‖ * (1 / 4 ^ (n + 1)) := by
    have e : (fStep^[n] s1).x = (fStep^[n] s1).A - ((fStep^[n] s1).A - (fStep^[n] s1).x) := by ring
    rw [e]
    refine (norm_sub_le _ _).trans ?_
    rw [(hp n).2, norm_mul, Complex.norm_real, Real.norm_of_nonneg (by positivity)]
  rw [one_div_pow] at hn
  linarith

theorem f_diff (x y z A₀ : ℂ) (n : ℕ) : (fStep^[n] ⟨x, y, z, A₀, 1⟩).A - (fStep^[n] ⟨x, y, z, A₀, 1⟩).x =
    (A₀ - x) * ((fStep^[n] ⟨x, y, z, A₀, 1⟩).pow4 : ℝ) := by
  induction n with
  | zero => simp
  | succ n ih =>
    rw [Function.iterate_succ_apply']
    generalize fStep^[n] ⟨x, y, z, A₀, 1⟩ = st at *
    simp only [fStep]
    push_cast
    linear_combination ih / 4

/-- What the loop of `elliprf` leaves: the integral is that of the reduced variables, which are within the tolerance. -/
theorem rf_exit {eps : ℝ} (h0 : 0 < eps) (h1 : eps ≤ 1) {x y z : ℂ} (hf : Sum3 ⟨x, y, z, fA0 x y z, 1⟩)
    (hR : RFc (fStep ⟨x, y, z, fA0 x y z, 1⟩).x (fStep ⟨x, y, z, fA0 x y z, 1⟩).y (fStep ⟨x, y, z, fA0 x y z, 1⟩).z = RFc x y z)
    (h00 : hQ eps 3 (fA0 x y z) x y z ≤ ‖fA0 x y z‖ →
      (x ∈ Complex.slitPlane ∧ y ∈ Complex.slitPlane ∧ z ∈ Complex.slitPlane) ∧ ((NC x y ∧ NC x z ∧ NC y z) ∨ 0 ≤ x.re ∨ 0 ≤ y.re ∨ 0 ≤ z.re)) :
    ∃ (st : FState) (ε : ℝ) (X Y Z : ℂ),
      loopWhile (fun s : FState => s.pow4 * hQ eps 3 (fA0 x y z) x y z > ‖s.A‖) fStep ⟨x, y, z, fA0 x y z, 1⟩ = some st ∧ st.A ≠ 0 ∧
      0 < ε ∧ ε ≤ 1 / 4 ∧ ε ^ 6 = 3 * EPS eps ∧ (fA0 x y z - x) * (st.pow4 / st.A) = X ∧ (fA0 x y z - y) * (st.pow4 / st.A) = Y ∧
      X + Y + Z = 0 ∧ ‖X‖ ≤ ε ∧ ‖Y‖ ≤ ε ∧ ‖Z‖ ≤ ε ∧ RFc x y z = RFc (1 - X) (1 - Y) (1 - Z) / csqrt st.A := by
  have hE : 0 < EPS eps := by unfold EPS; positivity
  have hE1 : EPS eps ≤ 1 / 1000000 := by unfold EPS; linarith
  obtain ⟨ε, hε0, hε4, hε6, hκ⟩ := tolerance (b := EPS eps * 3) (by positivity) (by linarith)
  obtain ⟨n, hn⟩ := rf_stops hf.step (hQ eps 3 (fA0 x y z) x y z)
  obtain ⟨k, hk, hexit, _⟩ := loopWhile_spec (cond := fun s : FState => s.pow4 * hQ eps 3 (fA0 x y z) x y z > ‖s.A‖)
    (step := fStep) (s := ⟨x, y, z, fA0 x y z, 1⟩) ⟨n, not_lt.mpr hn.le⟩
  obtain ⟨hA, hp4, hX, hY, hZ⟩ := C34_reduced_rf x y z k
  have hgood : Slit3 (fStep^[k] ⟨x, y, z, fA0 x y z, 1⟩) ∧
      RFc (fStep^[k] ⟨x, y, z, fA0 x y z, 1⟩).x (fStep^[k] ⟨x, y, z, fA0 x y z, 1⟩).y (fStep^[k] ⟨x, y, z, fA0 x y z, 1⟩).z = RFc x y z ∧
      ((NC (fStep^[k] ⟨x, y, z, fA0 x y z, 1⟩).x (fStep^[k] ⟨x, y, z, fA0 x y z, 1⟩).y ∧
        NC (fStep^[k] ⟨x, y, z, fA0 x y z, 1⟩).x (fStep^[k] ⟨x, y, z, fA0 x y z, 1⟩).z ∧
        NC (fStep^[k] ⟨x, y, z, fA0 x y z, 1⟩).y (fStep^[k] ⟨x, y, z, fA0 x y z, 1⟩).z) ∨ 0 ≤ (fStep^[k] ⟨x, y, z, fA0 x y z, 1⟩).x.re ∨
        0 ≤ (fStep^[k] ⟨x, y, z, fA0 x y z, 1⟩).y.re ∨ 0 ≤ (fStep^[k] ⟨x, y, z, fA0 x y z, 1⟩).z.re) := by
    rcases k with _ | k
    · simp only [Function.iterate_zero, id, one_mul, gt_iff_lt, not_lt] at hexit ⊢
      obtain ⟨hs, hd⟩ := h00 hexit
      exact ⟨hs, trivial, hd⟩
    · have hinv := iterate_inv (step := fStep) (fun s => Slit3 s ∧ RFc s.x s.y s.z = RFc x y z)
        (fun s hs => ⟨hs.1.step, (RFc_dup hs.1.1 hs.1.2.1 hs.1.2.2).trans hs.2⟩) (s := fStep ⟨x, y, z, fA0 x y z, 1⟩) ⟨hf.step, hR⟩
      rw [Function.iterate_succ_apply]
      refine ⟨(hinv k).1, (hinv k).2, ?_⟩
      rcases k with _ | k
      · exact Or.inl (dup_NC hf.1 hf.2.1 hf.2.2)
      · rw [Function.iterate_succ_apply']
        exact Or.inl (dup_NC (hinv k).1.sum3.1 (hinv k).1.sum3.2.1 (hinv k).1.sum3.2.2)
  have hdx := f_diff x y z (fA0 x y z) k
  have hp0 : 0 < (fStep^[k] ⟨x, y, z, fA0 x y z, 1⟩).pow4 := by rw [hp4]; positivity
  refine ⟨fStep^[k] ⟨x, y, z, fA0 x y z, 1⟩, ε, ((fStep^[k] ⟨x, y, z, fA0 x y z, 1⟩).A - (fStep^[k] ⟨x, y, z, fA0 x y z, 1⟩).x) / (fStep^[k] ⟨x, y, z, fA0 x y z, 1⟩).A,
    ((fStep^[k] ⟨x, y, z, fA0 x y z, 1⟩).A - (fStep^[k] ⟨x, y, z, fA0 x y z, 1⟩).y) / (fStep^[k] ⟨x, y, z, fA0 x y z, 1⟩).A,
    ((fStep^[k] ⟨x, y, z, fA0 x y z, 1⟩).A - (fStep^[k] ⟨x, y, z, fA0 x y z, 1⟩).z) / (fStep^[k] ⟨x, y, z, fA0 x y z, 1⟩).A, hk, ?_⟩
  clear hk hn
  generalize fStep^[k] ⟨x, y, z, fA0 x y z, 1⟩ = st at *
  obtain ⟨⟨s1, s2, s3⟩, hRF, hside⟩ := hgood
  rw [not_lt, hQ, hκ] at hexit
  have hM : ∀ {d : ℂ}, ‖d‖ ≤ max (max ‖fA0 x y z - x‖ ‖fA0 x y z - y‖) ‖fA0 x y z - z‖ → ‖d‖ * st.pow4 ≤ ε * ‖st.A‖ := by
    intro d hd
    have : st.pow4 * (1 / ε * ‖d‖) ≤ ‖st.A‖ := le_trans (by gcongr) hexit
    have e : st.pow4 * (1 / ε * ‖d‖) = ‖d‖ * st.pow4 / ε := by ring
    rw [e, div_le_iff₀ hε0] at this
    linarith
  have m1 := hM (le_trans (le_max_left _ _) (le_max_left _ _) : ‖fA0 x y z - x‖ ≤ _)
  have m2 := hM (le_trans (le_max_right _ _) (le_max_left _ _) : ‖fA0 x y z - y‖ ≤ _)
  have m3 := hM (le_max_right _ _ : ‖fA0 x y z - z‖ ≤ _)
  have hsum0 : (fA0 x y z - x) + (fA0 x y z - y) + (fA0 x y z - z) = 0 := by simp only [fA0]; ring
  have hA0 : st.A ≠ 0 := by
    intro hA0
    rw [hA0, norm_zero, mul_zero] at m1
    have hd0 : fA0 x y z - x = 0 := by
      rw [← norm_le_zero_iff]
      by_contra hc
      have := mul_pos (not_le.mp hc) hp0
      linarith
    rw [hA0, hd0, zero_mul, zero_sub, neg_eq_zero] at hdx
    exact Complex.slitPlane_ne_zero s1 hdx
  have red : ∀ {d w : ℂ}, d * (st.pow4 / st.A) = (st.A - w) / st.A → ‖d‖ * st.pow4 ≤ ε * ‖st.A‖ → ‖(st.A - w) / st.A‖ ≤ ε := by
    intro d w hd hm
    rw [← hd, norm_mul, norm_div, Complex.norm_real, Real.norm_of_nonneg hp0.le, ← mul_div_assoc, div_le_iff₀ (norm_pos_iff.mpr hA0)]
    exact hm
  have hZ' : (fA0 x y z - z) * (st.pow4 / st.A) = (st.A - st.z) / st.A := by
    rw [← hZ]
    linear_combination (st.pow4 / st.A : ℂ) * hsum0
  have bX := red hX m1
  have bY := red hY m2
  have bZ := red hZ' m3
  have hs0 : (st.A - st.x) / st.A + (st.A - st.y) / st.A + (st.A - st.z) / st.A = 0 := by
    rw [← add_div, ← add_div, div_eq_zero_iff]
    left
    linear_combination 3 * hA
  refine ⟨hA0, hε0, hε4, by rw [hε6]; ring, hX, hY, hs0, bX, bY, bZ, ?_⟩
  have ew : ∀ w : ℂ, st.A * (1 - (st.A - w) / st.A) = w := fun w => by field_simp; ring
  obtain ⟨g1, g2, g3⟩ := KGood_exit (c := 1) one_pos (bX.trans hε4) (bY.trans hε4) (bZ.trans hε4) (by rw [Complex.ofReal_one, one_mul]; exact hs0) (A := st.A) (by rwa [ew]) (by rwa [ew]) (by rwa [ew])
    (by rw [ew, ew, ew]; exact hside)
  rw [← RFc_rotate hA0 g1 g2 g3, ew, ew, ew, hRF]

/-- The series of elliprf.h:29-34 in its elementary symmetric functions is near 1. -/
theorem series_lower {X Y Z : ℂ} {ε : ℝ} (hε : ε ≤ 1 / 4) (hX : ‖X‖ ≤ ε) (hY : ‖Y‖ ≤ ε) (hZ : ‖Z‖ ≤ ε) (hs : X + Y + Z = 0) :
    49 / 50 ≤ ‖RFc (1 - X) (1 - Y) (1 - Z)‖ := by
  have hε0 : 0 ≤ ε := le_trans (norm_nonneg _) hX
  have main := RFc_series X Y Z ε hε hX hY hZ hs
  set E2 := X * Y + X * Z + Y * Z with hE2
  set E3 := X * Y * Z with hE3
  have b2 : ‖E2‖ ≤ 3 / 32 := by
    have : E2 = -(1 / 2) * (X ^ 2 + Y ^ 2 + Z ^ 2) := by
      have : Z = -(X + Y) := by linear_combination hs
      rw [hE2, this]; ring
    rw [this, norm_mul]
    have h3 : ‖X ^ 2 + Y ^ 2 + Z ^ 2‖ ≤ 3 * (1 / 4) ^ 2 := by
      calc _ ≤ ‖X ^ 2‖ + ‖Y ^ 2‖ + ‖Z ^ 2‖ := norm_add₃_le
        _ ≤ (1 / 4) ^ 2 + (1 / 4) ^ 2 + (1 / 4) ^ 2 := by
          rw [norm_pow, norm_pow, norm_pow]
          have := hX.trans hε
          have := hY.trans hε
          have := hZ.trans hε
          gcongr
        _ = _ := by ring
    rw [show ‖(-(1 / 2) : ℂ)‖ = 1 / 2 by norm_num]
    linarith
  have b3 : ‖E3‖ ≤ 1 / 64 := by
    rw [hE3, norm_mul, norm_mul]
    have := hX.trans hε
    have := hY.trans hε
    have := hZ.trans hε
    calc _ ≤ 1 / 4 * (1 / 4) * (1 / 4 : ℝ) := by gcongr
      _ = _ := by norm_num
  have bp : ‖(1 - E2 / 10 + E2 ^ 2 / 24 + E3 / 14 - E2 * E3 * (3 / 44)) - 1‖ ≤ 3 / 320 + 1 / 2000 + 1 / 800 + 1 / 5000 := by
    have e : (1 - E2 / 10 + E2 ^ 2 / 24 + E3 / 14 - E2 * E3 * (3 / 44)) - 1 = -(E2 / 10) + E2 ^ 2 / 24 + E3 / 14 + -(E2 * E3 * (3 / 44)) := by ring
    rw [e]
    refine (norm_add_le _ _).trans (add_le_add ((norm_add_le _ _).trans (add_le_add ((norm_add_le _ _).trans (add_le_add ?_ ?_)) ?_)) ?_)
    · rw [norm_neg, norm_div, show ‖(10 : ℂ)‖ = 10 by norm_num]; linarith
    · rw [norm_div, norm_pow, show ‖(24 : ℂ)‖ = 24 by norm_num]; nlinarith [norm_nonneg E2]
    · rw [norm_div, show ‖(14 : ℂ)‖ = 14 by norm_num]; linarith
    · rw [norm_neg, norm_mul, norm_mul, show ‖(3 / 44 : ℂ)‖ = 3 / 44 by norm_num]
      have : ‖E2‖ * ‖E3‖ ≤ 3 / 32 * (1 / 64) := by gcongr
      linarith
  have h6 : 8 / 13 * ε ^ 6 ≤ 1 / 5000 := by
    have : ε ^ 6 ≤ (1 / 4) ^ 6 := by gcongr
    linarith
  set P := 1 - E2 / 10 + E2 ^ 2 / 24 + E3 / 14 - E2 * E3 * (3 / 44)
  have h1 : ‖(1 : ℂ)‖ ≤ ‖RFc (1 - X) (1 - Y) (1 - Z)‖ + ‖RFc (1 - X) (1 - Y) (1 - Z) - P‖ + ‖P - 1‖ := by
    have e : (1 : ℂ) = RFc (1 - X) (1 - Y) (1 - Z) - (RFc (1 - X) (1 - Y) (1 - Z) - P) - (P - 1) := by ring
    conv_lhs => rw [e]
    exact (norm_sub_le _ _).trans (add_le_add_left (norm_sub_le _ _) _)
  rw [norm_one] at h1
  linarith

/-- From the error of a polynomial to the relative error of the result. -/
theorem rel_error {X Y Z P A : ℂ} {ε E R : ℝ} (hE : 0 ≤ E) (hε : ε ≤ 1 / 4) (hX : ‖X‖ ≤ ε) (hY : ‖Y‖ ≤ ε) (hZ : ‖Z‖ ≤ ε) (hs : X + Y + Z = 0)
    (hR : R = 2 * E) (hP : ‖RFc (1 - X) (1 - Y) (1 - Z) - P‖ ≤ 49 / 25 * E) :
    ‖P / csqrt A - RFc (1 - X) (1 - Y) (1 - Z) / csqrt A‖ ≤ R * ‖RFc (1 - X) (1 - Y) (1 - Z) / csqrt A‖ := by
  rw [← sub_div, norm_div, norm_div, ← mul_div_assoc, hR]
  apply div_le_div_of_nonneg_right _ (norm_nonneg _)
  rw [norm_sub_rev]
  nlinarith [series_lower hε hX hY hZ hs]

theorem rfCore_complex {eps : ℝ} (h0 : 0 < eps) (h1 : eps ≤ 1) {x y z : ℂ} (hf : Sum3 ⟨x, y, z, fA0 x y z, 1⟩)
    (hR : RFc (fStep ⟨x, y, z, fA0 x y z, 1⟩).x (fStep ⟨x, y, z, fA0 x y z, 1⟩).y (fStep ⟨x, y, z, fA0 x y z, 1⟩).z = RFc x y z)
    (h00 : hQ eps 3 (fA0 x y z) x y z ≤ ‖fA0 x y z‖ →
      (x ∈ Complex.slitPlane ∧ y ∈ Complex.slitPlane ∧ z ∈ Complex.slitPlane) ∧ ((NC x y ∧ NC x z ∧ NC y z) ∨ 0 ≤ x.re ∨ 0 ≤ y.re ∨ 0 ≤ z.re)) :
    ∃ v, elliprfCore eps x y z = .val v ∧ ‖v - RFc x y z‖ ≤ 2 * EPS eps * ‖RFc x y z‖ := by
  have hE : 0 < EPS eps := by unfold EPS; positivity
  obtain ⟨st, ε, X, Y, Z, hl, hA, hε0, hε4, hε6, eX, eY, hs, bX, bY, bZ, hRF⟩ := rf_exit h0 h1 hf hR h00
  simp only [elliprfCore]
  rw [hl]
  refine ⟨_, rfl, ?_⟩
  rw [hRF, eX, eY]
  apply rel_error hE.le hε4 bX bY bZ hs rfl
  have := RFc_series X Y Z ε hε4 bX bY bZ hs
  have e : fPoly X Y = 1 - (X * Y + X * Z + Y * Z) / 10 + (X * Y + X * Z + Y * Z) ^ 2 / 24 + X * Y * Z / 14 -
        (X * Y + X * Z + Y * Z) * (X * Y * Z) * (3 / 44) := by
    have : Z = -(X + Y) := by linear_combination hs
    rw [this]
    simp only [fPoly]
    ring
  rw [e]
  rw [hε6] at this
  linarith

theorem RCc_eq_RFc (x y : ℂ) : RCc x y = RFc x y y := by
  simp only [RCc, RFc]
  congr 1
  apply integral_congr_ae
  filter_upwards with t
  rw [mul_assoc, csqrt_sq]

/-- `elliprc` runs the loop of `elliprf(x, y, y)`. -/
theorem rc_loop (eps : ℝ) (x y : ℂ) :
    loopWhile (fun s : FState => s.pow4 * hQ eps 3 (fA0 x y y) x y y > ‖s.A‖) fStep ⟨x, y, y, fA0 x y y, 1⟩ =
      (loopWhile (fun s : CState => s.pow4 * cQ eps x y > ‖s.A‖) cStep ⟨x, y, cA0 x y, 1⟩).map fun s => ⟨s.x, s.y, s.y, s.A, s.pow4⟩ := by
  have hA : fA0 x y y = cA0 x y := rfl
  have hq : hQ eps 3 (fA0 x y y) x y y = cQ eps x y := by
    rw [hQ, cQ, hA, mul_comm (EPS eps) 3]
    congr 1
    have e : cA0 x y - y = -((cA0 x y - x) / 2) := by simp only [cA0]; ring
    have en : ‖cA0 x y - y‖ = ‖cA0 x y - x‖ / 2 := by rw [e, norm_neg, norm_div]; norm_num
    have := norm_nonneg (cA0 x y - x)
    rw [max_eq_left (a := ‖cA0 x y - x‖) (by linarith), max_eq_left (by linarith)]
  refine loopWhile_map (cond := fun s : CState => s.pow4 * cQ eps x y > ‖s.A‖) (fun s : CState => (⟨s.x, s.y, s.y, s.A, s.pow4⟩ : FState)) ?_ ?_ ⟨x, y, cA0 x y, 1⟩
  · intro s
    have : lmOf s.x s.y s.y = 2 * csqrt s.x * csqrt s.y + s.y := by
      simp only [lmOf]
      linear_combination csqrt_sq s.y
    simp only [fStep, cStep, this]
  · intro s
    rw [hq]

theorem rcCore_complex {eps : ℝ} (h0 : 0 < eps) (h1 : eps ≤ 1) {x y : ℂ} (hf : Sum3 ⟨x, y, y, fA0 x y y, 1⟩)
    (hR : RFc (fStep ⟨x, y, y, fA0 x y y, 1⟩).x (fStep ⟨x, y, y, fA0 x y y, 1⟩).y (fStep ⟨x, y, y, fA0 x y y, 1⟩).z = RFc x y y)
    (h00 : hQ eps 3 (fA0 x y y) x y y ≤ ‖fA0 x y y‖ →
      (x ∈ Complex.slitPlane ∧ y ∈ Complex.slitPlane ∧ y ∈ Complex.slitPlane) ∧ ((NC x y ∧ NC x y ∧ NC y y) ∨ 0 ≤ x.re ∨ 0 ≤ y.re ∨ 0 ≤ y.re)) :
    ∃ v, elliprcCore eps x y = .val v ∧ ‖v - RCc x y‖ ≤ 2 * EPS eps * ‖RCc x y‖ := by
  have hE : 0 < EPS eps := by unfold EPS; positivity
  obtain ⟨st, ε, X, Y, Z, hl, hA, hε0, hε4, hε6, eX, eY, hs, bX, bY, bZ, hRF⟩ := rf_exit h0 h1 hf hR h00
  rw [rc_loop] at hl
  obtain ⟨c, hc, hcs⟩ := Option.map_eq_some_iff.mp hl
  simp only [elliprcCore]
  rw [hc]
  refine ⟨_, rfl, ?_⟩
  subst hcs
  rw [RCc_eq_RFc, hRF]
  apply rel_error hE.le hε4 bX bY bZ hs rfl
  have main := RFc_series X Y Z ε hε4 bX bY bZ hs
  have eY' : (y - cA0 x y) * c.pow4 / c.A = -Y := by
    rw [← eY, show fA0 x y y = cA0 x y from rfl]
    ring
  have eXY : X = -2 * Y := by
    rw [← eX, ← eY]
    simp only [fA0]
    ring
  have eZ : Z = Y := by linear_combination hs - eXY
  rw [eY']
  subst eZ
  have bY2 : ‖Z‖ ≤ ε / 2 := by
    rw [eXY, norm_mul] at bX
    norm_num at bX
    linarith
  have e : cPoly (-Z) = (1 - (X * Z + X * Z + Z * Z) / 10 + (X * Z + X * Z + Z * Z) ^ 2 / 24 + X * Z * Z / 14 -
        (X * Z + X * Z + Z * Z) * (X * Z * Z) * (3 / 44)) + Z ^ 6 * (159 / 208 - 9 / 8 * Z) := by
    rw [eXY]
    simp only [cPoly]
    ring
  rw [e, ← sub_sub]
  have b6 : ‖Z ^ 6 * (159 / 208 - 9 / 8 * Z)‖ ≤ 1 / 60 * ε ^ 6 := by
    rw [norm_mul, norm_pow]
    have h1 : ‖(159 / 208 : ℂ) - 9 / 8 * Z‖ ≤ 1 := by
      refine (norm_sub_le _ _).trans ?_
      rw [norm_mul, show ‖(9 / 8 : ℂ)‖ = 9 / 8 by norm_num, show ‖(159 / 208 : ℂ)‖ = 159 / 208 by norm_num]
      linarith
    calc _ ≤ (ε / 2) ^ 6 * 1 := by gcongr
      _ ≤ _ := by nlinarith [pow_pos hε0 6]
  refine (norm_sub_le _ _).trans ((add_le_add main b6).trans ?_)
  rw [hε6]
  linarith

end Verif.Ellred

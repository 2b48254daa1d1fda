import Verif.Ellred.ComplexCut

/-! # Termination off the cut, and examples for C145 -/

namespace Verif.Ellred

open Verif.Carlson

theorem sum3_of {x y z : ℂ} (hx : x = 0 ∨ x ∈ Complex.slitPlane) (hy : y = 0 ∨ y ∈ Complex.slitPlane) (hz : z = 0 ∨ z ∈ Complex.slitPlane)
    (xy : x ≠ 0 ∨ y ≠ 0) (xz : x ≠ 0 ∨ z ≠ 0) (yz : y ≠ 0 ∨ z ≠ 0) : Sum3 ⟨x, y, z, fA0 x y z, 1⟩ := by
  have key : ∀ {a b : ℂ}, (a = 0 ∨ a ∈ Complex.slitPlane) → (b = 0 ∨ b ∈ Complex.slitPlane) → (a ≠ 0 ∨ b ≠ 0) → 0 < (csqrt a + csqrt b).re := by
    intro a b ha hb hab
    have hzero : csqrt 0 = 0 := csqrt_eq_zero.mpr rfl
    rcases ha with rfl | ha <;> rcases hb with rfl | hb
    · simp at hab
    · rw [hzero, zero_add]; exact csqrt_re_pos hb
    · rw [hzero, add_zero]; exact csqrt_re_pos ha
    · exact re_sum_pos ha hb
  exact ⟨key hx hy xy, key hx hz xz, key hy hz yz⟩

/-- C35, `elliprc`: it returns a number for all complex arguments off the negative real axis, the first of which may be zero. -/
theorem C35_elliprc_complex (eps : ℝ) {x y : ℂ} (hx : x = 0 ∨ x ∈ Complex.slitPlane) (hy : y ∈ Complex.slitPlane) :
    ∃ v, elliprc eps x y = .val v := by
  have hy0 : y ≠ 0 := Complex.slitPlane_ne_zero hy
  rw [elliprc, if_neg hy0]
  split_ifs with h0 h1
  · exact ⟨_, rfl⟩
  · rcases Complex.mem_slitPlane_iff.mp hy with hh | hh
    · exact absurd hh (not_lt.mpr h1.2.le)
    · exact absurd h1.1 hh
  · rcases Complex.mem_slitPlane_iff.mp hy with hh | hh
    · linarith [‹y.im = 0 ∧ y.re < 0›.2]
    · exact absurd ‹y.im = 0 ∧ y.re < 0›.1 hh
  · obtain ⟨n, hn⟩ := rf_stops (sum3_of hx (Or.inr hy) (Or.inr hy) (Or.inr hy0) (Or.inr hy0) (Or.inr hy0)).step (hQ eps 3 (fA0 x y y) x y y)
    obtain ⟨k, hk, _, _⟩ := loopWhile_spec (cond := fun s : FState => s.pow4 * hQ eps 3 (fA0 x y y) x y y > ‖s.A‖)
      (step := fStep) (s := ⟨x, y, y, fA0 x y y, 1⟩) ⟨n, not_lt.mpr hn.le⟩
    rw [rc_loop] at hk
    obtain ⟨c, hc, -⟩ := Option.map_eq_some_iff.mp hk
    rw [elliprcCore, hc]
    exact ⟨_, rfl⟩

/-- C35, `elliprf`: it returns a number for all complex arguments off the negative real axis, at most one of which is zero. -/
theorem C35_elliprf_complex (eps : ℝ) {x y z : ℂ} (hx : x = 0 ∨ x ∈ Complex.slitPlane) (hy : y = 0 ∨ y ∈ Complex.slitPlane)
    (hz : z = 0 ∨ z ∈ Complex.slitPlane) (xy : x ≠ 0 ∨ y ≠ 0) (xz : x ≠ 0 ∨ z ≠ 0) (yz : y ≠ 0 ∨ z ≠ 0) :
    ∃ v, elliprf eps x y z = .val v := by
  rw [elliprf]
  split_ifs with e1 e2 e3
  · subst e1
    exact C35_elliprc_complex eps hx (hy.resolve_left (by simpa using yz))
  · subst e2
    exact C35_elliprc_complex eps hy (hx.resolve_left (by simpa using xz))
  · subst e3
    exact C35_elliprc_complex eps hz (hx.resolve_left (by simpa using xy))
  · obtain ⟨n, hn⟩ := rf_stops (sum3_of hx hy hz xy xz yz).step (hQ eps 3 (fA0 x y z) x y z)
    obtain ⟨k, hk, _, _⟩ := loopWhile_spec (cond := fun s : FState => s.pow4 * hQ eps 3 (fA0 x y z) x y z > ‖s.A‖)
      (step := fStep) (s := ⟨x, y, z, fA0 x y z, 1⟩) ⟨n, not_lt.mpr hn.le⟩
    simp only [elliprfCore]
    rw [hk]
    exact ⟨_, rfl⟩

/-! ### Examples -/

/-- Two arguments in the left half plane, on different sides of the cut, and a zero. -/
example : ∃ v, elliprf (1 / 2 ^ 52) (-1 + Complex.I) (-1 - Complex.I) 0 = .val v ∧
    ‖v - RFc (-1 + Complex.I) (-1 - Complex.I) 0‖ ≤ 2 * EPS (1 / 2 ^ 52) * ‖RFc (-1 + Complex.I) (-1 - Complex.I) 0‖ := by
  have n1 : (-1 + Complex.I : ℂ) ≠ 0 := fun h => by simpa using congrArg Complex.im h
  have n2 : (-1 - Complex.I : ℂ) ≠ 0 := fun h => by simpa using congrArg Complex.im h
  exact C145_elliprf (by norm_num) (by norm_num) ⟨Or.inr (by rw [Complex.mem_slitPlane_iff]; simp), Or.inr (by rw [Complex.mem_slitPlane_iff]; simp), Or.inl rfl,
    Or.inl n1, Or.inl n1, Or.inl n2, Or.inr (Or.inr (Or.inr (by simp)))⟩

/-- All arguments in the second quadrant. -/
example : CArgs (-1 + Complex.I) (-2 + Complex.I) (-3 + Complex.I) := by
  have s : ∀ a : ℝ, (a : ℂ) + Complex.I ∈ Complex.slitPlane := fun a => by rw [Complex.mem_slitPlane_iff]; simp
  have g : ∀ a : ℝ, (a : ℂ) + Complex.I ≠ 0 := fun a => Complex.slitPlane_ne_zero (s a)
  have hp : ∀ a : ℝ, 0 < ((a : ℂ) + Complex.I).arg ∧ ((a : ℂ) + Complex.I).arg < Real.pi := fun a => by
    have h1 : 0 ≤ ((a : ℂ) + Complex.I).arg := Complex.arg_nonneg_iff.mpr (by simp)
    have h2 : ((a : ℂ) + Complex.I).arg ≠ 0 := fun h => by
      have := Complex.arg_eq_zero_iff.mp h
      simp at this
    have h3 : ((a : ℂ) + Complex.I).arg ≠ Real.pi := (Complex.mem_slitPlane_iff_arg.mp (s a)).1
    exact ⟨lt_of_le_of_ne h1 h2.symm, lt_of_le_of_ne (Complex.arg_le_pi _) h3⟩
  have d : ∀ a b : ℝ, |((a : ℂ) + Complex.I).arg - ((b : ℂ) + Complex.I).arg| < Real.pi := fun a b => by
    rw [abs_lt]
    constructor <;> linarith [(hp a).1, (hp a).2, (hp b).1, (hp b).2]
  have c1 : (-1 : ℂ) = ((-1 : ℝ) : ℂ) := by push_cast; rfl
  have c2 : (-2 : ℂ) = ((-2 : ℝ) : ℂ) := by push_cast; rfl
  have c3 : (-3 : ℂ) = ((-3 : ℝ) : ℂ) := by push_cast; rfl
  rw [c1, c2, c3]
  exact ⟨Or.inr (s _), Or.inr (s _), Or.inr (s _), Or.inl (g _), Or.inl (g _), Or.inl (g _), Or.inl ⟨d _ _, d _ _, d _ _⟩⟩

/-- The termination statement also covers arguments on both sides of the cut. -/
example : ∃ v, elliprf (1 / 2 ^ 52) (-1 + Complex.I) (-1 - Complex.I) (-2 + Complex.I) = .val v := by
  have n1 : (-1 + Complex.I : ℂ) ≠ 0 := fun h => by simpa using congrArg Complex.im h
  have n2 : (-1 - Complex.I : ℂ) ≠ 0 := fun h => by simpa using congrArg Complex.im h
  exact C35_elliprf_complex _ (Or.inr (by rw [Complex.mem_slitPlane_iff]; simp)) (Or.inr (by rw [Complex.mem_slitPlane_iff]; simp))
    (Or.inr (by rw [Complex.mem_slitPlane_iff]; simp)) (Or.inl n1) (Or.inl n1) (Or.inl n2)

end Verif.Ellred

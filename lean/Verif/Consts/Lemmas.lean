import Verif.Consts.Model
import Verif.Units.Props

/-! Helper lemmas for constants. -/

namespace Verif.Consts

open Verif

/-- `u` is a well-formed unit of value `x` and integer exponents `ex`. -/
structure RepU (u : Units.Unit) (x : ℝ) (ex : String → ℤ) : Prop where
  wf : u.WF
  val : u.value = x
  exp : ∀ k, u.exp k = ex k

variable {u w : Units.Unit} {x y : ℝ} {a b : String → ℤ} {σ : SetOrder}

theorem RepU.onGrid (h : RepU u x a) : u.OnGrid 1 := fun k => ⟨a k, by rw [h.exp]; simp⟩

theorem RepU.mul (h : RepU u x a) (h' : RepU w y b) : RepU (u.mul σ w) (x * y) (fun k => a k + b k) :=
  ⟨Units.wf_mul _ _ _, by rw [← h.val, ← h'.val]; rfl, fun k => by
    rw [(Units.C02_grid_closed σ 1 (by norm_num) (by norm_num) u w h.onGrid h'.onGrid).2 k, h.exp, h'.exp]
    push_cast; rfl⟩

theorem RepU.mulReal (h : RepU u x a) (r : ℝ) : RepU (u.mulReal r) (x * r) a :=
  ⟨Units.wf_mk _ _, by rw [← h.val]; rfl, fun k => by
    rw [((Units.C02_real_scaling u h.wf r).1).2 k, h.exp]⟩

theorem RepU.div (h : RepU u x a) (h' : RepU w y b) (hy : y ≠ 0) :
    ∃ z, u.div σ w = .ok z ∧ RepU z (x / y) (fun k => a k - b k) := by
  obtain ⟨z, hz, -, hv, hx⟩ := (Units.C02_div_mul_cancel σ σ 1 (by norm_num) (by norm_num) u w h.wf h'.wf
    h.onGrid h'.onGrid).2 (by rw [h'.val]; exact hy)
  refine ⟨z, hz, ?_, by rw [hv, h.val, h'.val], fun k => by rw [hx, h.exp, h'.exp]; push_cast; rfl⟩
  have : ∃ t, w.pow (-1) = .ok t := by
    have := Units.pow_eq_of_int (u := w) (by rw [h'.val]; exact hy) (-1)
    exact ⟨_, by simpa using this⟩
  obtain ⟨t, ht⟩ := this
  unfold Units.Unit.div at hz
  rw [ht] at hz
  cases hz
  exact Units.wf_mul _ _ _

theorem RepU.divReal (h : RepU u x a) (r : ℝ) (hr : r ≠ 0) :
    ∃ z, u.divReal r = .ok z ∧ RepU z (x / r) a := by
  obtain ⟨z, hz, hv, hx⟩ := (Units.C02_real_scaling u h.wf r).2.1 hr
  refine ⟨z, hz, ?_, by rw [hv, h.val], fun k => by rw [hx, h.exp]⟩
  unfold Units.Unit.divReal at hz
  cases hp : Units.pyPow r (-1) with
  | error e => rw [hp] at hz; cases hz
  | ok t => rw [hp] at hz; cases hz; exact Units.wf_mk _ _

theorem RepU.rdivReal (h : RepU u x a) (r : ℝ) (hx : x ≠ 0) :
    ∃ z, u.rdivReal r = .ok z ∧ RepU z (r / x) (fun k => -a k) := by
  have hu : u.value ≠ 0 := by rw [h.val]; exact hx
  obtain ⟨z, hz, hv, hx⟩ := (Units.C02_real_scaling u h.wf r).2.2.2.1 hu
  refine ⟨z, hz, ?_, by rw [hv, h.val], fun k => by rw [hx, h.exp]; push_cast; rfl⟩
  unfold Units.Unit.rdivReal at hz
  rw [Units.inv_eq hu] at hz
  cases hz; exact Units.wf_mk _ _

theorem RepU.pow (h : RepU u x a) (hx : x ≠ 0) (n : ℕ) :
    ∃ z, u.pow (n : ℚ) = .ok z ∧ RepU z (x ^ n) (fun k => a k * n) := by
  have hu : u.value ≠ 0 := by rw [h.val]; exact hx
  refine ⟨_, by simpa using Units.pow_eq_of_int hu (n : ℤ), Units.wf_dpow _ _ _, ?_, fun k => ?_⟩
  · simp [h.val]
  · have := Units.dget_dpow_int (Units.wf_iff.mp h.wf) (n : ℤ) k
    have e := h.exp k
    unfold Units.Unit.exp at e ⊢
    push_cast at this ⊢
    rw [this, e]

theorem RepU.basic (h : RepU u x a) (r : ℝ) : RepU (basic r u) (x * r) a := by
  have h' := h.mulReal r
  refine ⟨Units.wf_mk _ _, h'.val, fun k => ?_⟩
  have := Units.dget_mkDims_self (Units.wf_iff.mp h'.wf) k
  exact this.trans (h'.exp k)

theorem RepU.constant (h : RepU u x a) : RepU (constant u) x a := by
  refine ⟨Units.wf_mk _ _, h.val, fun k => ?_⟩
  have := Units.dget_mkDims_self (Units.wf_iff.mp h.wf) k
  exact this.trans (h.exp k)

theorem rep_base (d : String) : RepU (baseUnit d) 1 (fun k => if k = d then 1 else 0) := by
  refine ⟨Units.wf_mk _ _, rfl, fun k => ?_⟩
  change Units.dget (Units.mkDims [(d, 1)]) k = _
  rw [Units.dget_mkDims (by simp [Units.keys])]
  by_cases h : k = d
  · subst h
    rw [show Units.dget [(k, (1 : ℚ))] k = 1 by simp [Units.dget]]
    rw [Units.limDen_of_le (by simp [Units.maxDen])]; simp
  · rw [Units.dget_of_not_mem (by simpa [Units.keys] using h)]; simp [h]

theorem rep_one : RepU Units.Unit.one 1 (fun _ => 0) :=
  ⟨Units.wf_one, rfl, fun k => by rw [Units.exp_one]; simp⟩

end Verif.Consts

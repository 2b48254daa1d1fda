import Verif.Units.Spec
import Verif.Units.Lemmas
import Mathlib.Tactic.NormNum

/-! # Property theorems C01-C05 (units) -/

namespace Verif.Units

theorem wf_iff {u : Unit} : u.WF ↔ Normal u.dims := by
  constructor
  · rintro ⟨h1, h2⟩; exact ⟨h1, fun kv h => (h2 kv h).1, fun kv h => (h2 kv h).2⟩
  · rintro ⟨h1, h2, h3⟩; exact ⟨h1, fun kv h => ⟨h2 kv h, h3 kv h⟩⟩

theorem wf_mk (items : List (Dim × ℚ)) (v : ℝ) : (⟨mkDims items, v⟩ : Unit).WF :=
  wf_iff.mpr (mkDims_normal items)

theorem wf_mul (σ : SetOrder) (u v : Unit) : (u.mul σ v).WF := wf_mk _ _

theorem wf_dpow (d : Dict) (p : ℚ) (v : ℝ) : (⟨dpow d p, v⟩ : Unit).WF := wf_mk _ _
theorem wf_dinv (d : Dict) (v : ℝ) : (⟨dinv d, v⟩ : Unit).WF := wf_mk _ _
theorem wf_one : Unit.one.WF := wf_mk _ _
theorem normal_dpow (d : Dict) (p : ℚ) : Normal (dpow d p) := mkDims_normal _
theorem exp_one (k : Dim) : Unit.one.exp k = 0 := by
  simp [Unit.exp, Unit.one, Unit.mk', mkDims, dictOf, dget]

/-- `==` on well-formed units is equality of value and of all exponents. -/
theorem eq_iff {u v : Unit} (hu : u.WF) (hv : v.WF) :
    u.eq v = true ↔ u.value = v.value ∧ ∀ k, u.exp k = v.exp k := by
  unfold Unit.eq
  rw [Bool.and_eq_true, decide_eq_true_iff, dictEq_iff (wf_iff.mp hu) (wf_iff.mp hv)]
  rfl

theorem pow_ok {u w : Unit} {p : ℚ} (h : u.pow p = .ok w) :
    w.dims = dpow u.dims p ∧ w.value = u.value ^ (p : ℝ) := by
  unfold Unit.pow pyPow at h
  split at h
  · cases h
  · split at h
    · cases h
    · cases h; exact ⟨rfl, rfl⟩

theorem pow_eq_of_pos {u : Unit} (h : 0 < u.value) (p : ℚ) :
    u.pow p = .ok ⟨dpow u.dims p, u.value ^ (p : ℝ)⟩ := by
  unfold Unit.pow pyPow
  rw [if_neg (by rintro ⟨h', _⟩; exact h.ne' h'), if_neg (by rintro ⟨h', _⟩; exact absurd h (not_lt.mpr h'.le))]
  rfl

theorem pow_eq_of_int {u : Unit} (h : u.value ≠ 0) (n : ℤ) :
    u.pow n = .ok ⟨dpow u.dims n, u.value ^ n⟩ := by
  unfold Unit.pow pyPow
  rw [if_neg (by rintro ⟨h', _⟩; exact h h'), if_neg (by rintro ⟨_, h'⟩; simp at h')]
  have : u.value ^ (((n : ℚ) : ℝ)) = u.value ^ n := by
    rw [show (((n : ℚ) : ℝ)) = (n : ℝ) by push_cast; rfl, Real.rpow_intCast]
  rw [← this]; rfl

theorem inv_eq {u : Unit} (h : u.value ≠ 0) : u.inv = .ok ⟨dinv u.dims, 1 / u.value⟩ := by
  simp [Unit.inv, h]

/-! ## C01 normal form -/

/-- **C01.** Whatever expression builds a unit, in whatever set order: at most one exponent per
dimension, no zero exponent, every denominator at most 10⁶. -/
theorem C01_normal_form (e : UExpr) (u : Unit) (h : e.eval = .ok u) :
    (u.dims.map Prod.fst).Nodup ∧ ∀ kv ∈ u.dims, kv.2 ≠ 0 ∧ kv.2.den ≤ 1000000 := by
  change u.WF
  have hb : ∀ {α β : Type} {x : Except Err α} {f : α → Except Err β} {y : β},
      (x >>= f) = .ok y → ∃ a, x = .ok a ∧ f a = .ok y := by
    intro α β x f y h
    cases x with
    | error e => cases h
    | ok a => exact ⟨a, rfl, h⟩
  have hpow : ∀ {a b : Unit} {p : ℚ}, a.pow p = .ok b → b.WF := by
    intro a b p h
    have := (pow_ok h).1
    rw [wf_iff, this]; exact mkDims_normal _
  have hinv : ∀ {a b : Unit}, a.inv = .ok b → b.WF := by
    intro a b h
    unfold Unit.inv at h
    split at h
    · cases h
    · cases h; exact wf_mk _ _
  cases e with
  | lit items v => cases h; exact wf_mk _ _
  | mul σ a b =>
    obtain ⟨a', _, h⟩ := hb h
    obtain ⟨b', _, h⟩ := hb h
    cases h; exact wf_mk _ _
  | mulReal a x =>
    obtain ⟨a', _, h⟩ := hb h
    cases h; exact wf_mk _ _
  | inv a =>
    obtain ⟨a', _, h⟩ := hb h
    exact hinv h
  | pow a p =>
    obtain ⟨a', _, h⟩ := hb h
    exact hpow h
  | div σ a b =>
    obtain ⟨a', _, h⟩ := hb h
    obtain ⟨b', _, h⟩ := hb h
    obtain ⟨w, _, h⟩ := hb h
    cases h; exact wf_mk _ _
  | rdivReal a x =>
    obtain ⟨a', _, h⟩ := hb h
    obtain ⟨w, _, h⟩ := hb h
    cases h; exact wf_mk _ _
  | divReal a x =>
    obtain ⟨a', _, h⟩ := hb h
    obtain ⟨w, _, h⟩ := hb h
    cases h; exact wf_mk _ _

/-- Non-vacuity: `Unit({'L': 1, 'T': 0, 'M': 1/2}, value=3)` evaluates. -/
example : (UExpr.mul SetOrder.rev (.lit [("L", 1), ("T", 0), ("M", 1/2)] 3) (.lit [("T", -1)] 2)).eval
    = .ok ((Unit.mk' [("L", 1), ("T", 0), ("M", 1/2)] 3).mul SetOrder.rev (Unit.mk' [("T", -1)] 2)) := rfl

/-- **C01 (companion).** The constructor keeps an exponent unchanged when its denominator is at most
10⁶, i.e. normalisation only rounds exponents that do not fit. -/
theorem C01_constructor_exponent (items : List (Dim × ℚ)) (v : ℝ) (hnd : (items.map Prod.fst).Nodup)
    (k : Dim) (x : ℚ) (hk : (k, x) ∈ items) (hx : x.den ≤ 1000000) :
    (Unit.mk' items v).exp k = x := by
  unfold Unit.exp Unit.mk'
  rw [dget_mkDims hnd, dget_of_mem hnd hk, limDen_of_le hx]

example : ((Unit.mk' [("L", 1), ("T", -2)] 1).exp "T") = -2 :=
  C01_constructor_exponent [("L", 1), ("T", -2)] 1 (by decide) "T" (-2) (by simp) (by norm_num)

/-! ## C02 multiplication -/

/-- **C02a.** The exponent of a product is the sum of the exponents (when representable), and values
multiply. -/
theorem C02_mul_exponents (σ : SetOrder) (u v : Unit) :
    (u.mul σ v).value = u.value * v.value ∧
    ∀ k, (u.exp k + v.exp k).den ≤ 1000000 → (u.mul σ v).exp k = u.exp k + v.exp k := by
  refine ⟨rfl, fun k hk => ?_⟩
  unfold Unit.exp at *
  rw [show (u.mul σ v).dims = dmul σ u.dims v.dims from rfl, dget_dmul, limDen_of_le hk]

example : ((1 : ℚ) / 2 + 1 / 3).den ≤ 1000000 := by decide +kernel

/-- **C02b.** Multiplication is commutative, whatever set orders Python picks. -/
theorem C02_mul_comm (σ σ' : SetOrder) (u v : Unit) : (u.mul σ v).eq (v.mul σ' u) = true := by
  refine (eq_iff (wf_mul _ _ _) (wf_mul _ _ _)).mpr ?_
  refine ⟨mul_comm _ _, fun k => ?_⟩
  unfold Unit.exp Unit.mul
  simp only [dget_dmul, add_comm]

/-- **C02c.** `u * ~u` is the dimensionless unit of value 1; `~u` raises `ZeroDivisionError` exactly
when `u.value == 0`. -/
theorem C02_mul_inv (σ : SetOrder) (u : Unit) (hu : u.WF) :
    (u.value = 0 → u.inv = .error .zeroDivision) ∧
    (u.value ≠ 0 → ∃ w, u.inv = .ok w ∧ (u.mul σ w).eq Unit.one = true) := by
  refine ⟨fun h => by simp [Unit.inv, h], fun h => ⟨_, inv_eq h, ?_⟩⟩
  refine (eq_iff (wf_mul _ _ _) wf_one).mpr ?_
  refine ⟨by simp [Unit.mul, Unit.one, Unit.mk', h], fun k => ?_⟩
  rw [exp_one]
  unfold Unit.exp Unit.mul
  simp only [dget_dmul, dget_dinv (wf_iff.mp hu)]
  simp

example : (Unit.mk' [("L", 1/2), ("T", -2)] 1000).WF ∧ (Unit.mk' [("L", 1/2), ("T", -2)] 1000).value ≠ 0 :=
  ⟨wf_mk _ _, by norm_num [Unit.mk']⟩

theorem den_le_of_grid {N : ℕ} (h0 : 0 < N) (hN : N ≤ 1000000) {x : ℚ} (h : ∃ z : ℤ, x * N = z) :
    x.den ≤ 1000000 := by
  obtain ⟨z, hz⟩ := h
  have hx : x = (z : ℚ) / (N : ℚ) := by
    rw [← hz, mul_div_assoc, div_self (by exact_mod_cast h0.ne'), mul_one]
  rw [hx]
  exact den_div_le z N 1000000 (by norm_num) hN

theorem grid_add {N : ℕ} {x y : ℚ} (hx : ∃ z : ℤ, x * N = z) (hy : ∃ z : ℤ, y * N = z) :
    ∃ z : ℤ, (x + y) * N = z := by
  obtain ⟨a, ha⟩ := hx; obtain ⟨b, hb⟩ := hy
  exact ⟨a + b, by push_cast; rw [add_mul, ha, hb]⟩

theorem grid_mul_int {N : ℕ} {x : ℚ} (hx : ∃ z : ℤ, x * N = z) (n : ℤ) :
    ∃ z : ℤ, (x * n) * N = z := by
  obtain ⟨a, ha⟩ := hx
  exact ⟨a * n, by push_cast; rw [← ha]; ring⟩

/-- **C02d.** Units whose exponents are multiples of `1/N`, `N ≤ 10⁶`, are closed under
multiplication, and their exponents add exactly. -/
theorem C02_grid_closed (σ : SetOrder) (N : ℕ) (h0 : 0 < N) (hN : N ≤ 1000000) (u v : Unit)
    (hu : u.OnGrid N) (hv : v.OnGrid N) :
    (u.mul σ v).OnGrid N ∧ ∀ k, (u.mul σ v).exp k = u.exp k + v.exp k := by
  have h : ∀ k, (u.mul σ v).exp k = u.exp k + v.exp k := fun k =>
    (C02_mul_exponents σ u v).2 k (den_le_of_grid h0 hN (grid_add (hu k) (hv k)))
  exact ⟨fun k => by rw [h k]; exact grid_add (hu k) (hv k), h⟩

/-- **C02e.** Multiplication is associative on units with exponents in `(1/N)ℤ`, `N ≤ 10⁶`. -/
theorem C02_mul_assoc (σ₁ σ₂ σ₃ σ₄ : SetOrder) (N : ℕ) (h0 : 0 < N) (hN : N ≤ 1000000) (u v w : Unit)
    (hu : u.OnGrid N) (hv : v.OnGrid N) (hw : w.OnGrid N) :
    ((u.mul σ₁ v).mul σ₂ w).eq (u.mul σ₃ (v.mul σ₄ w)) = true := by
  refine (eq_iff (wf_mul _ _ _) (wf_mul _ _ _)).mpr ?_
  refine ⟨mul_assoc _ _ _, fun k => ?_⟩
  obtain ⟨g1, e1⟩ := C02_grid_closed σ₁ N h0 hN u v hu hv
  obtain ⟨g2, e2⟩ := C02_grid_closed σ₄ N h0 hN v w hv hw
  rw [(C02_grid_closed σ₂ N h0 hN _ w g1 hw).2 k, (C02_grid_closed σ₃ N h0 hN u _ hu g2).2 k, e1, e2]
  ring

theorem onGrid_mk' (N : ℕ) (items : List (Dim × ℚ)) (v : ℝ) (hnd : (items.map Prod.fst).Nodup)
    (h : ∀ kv ∈ items, kv.2.den ≤ 1000000 ∧ ∃ z : ℤ, kv.2 * N = z) : (Unit.mk' items v).OnGrid N := by
  intro k
  unfold Unit.exp Unit.mk'
  rw [dget_mkDims hnd]
  by_cases hk : k ∈ keys items
  · obtain ⟨⟨k', x⟩, hm, rfl⟩ := List.mem_map.mp hk
    rw [dget_of_mem hnd hm, limDen_of_le (h _ hm).1]
    exact (h _ hm).2
  · rw [dget_of_not_mem hk]; exact ⟨0, by simp⟩

/-- `5 m^(1/2) s^(-3/2)` and `2 m^(1/2) s`, for the concrete cases below. -/
noncomputable def exU : Unit := Unit.mk' [("L", 1/2), ("T", -3/2)] 5
noncomputable def exV : Unit := Unit.mk' [("L", 1/2), ("T", 1)] 2

theorem exU_wf : exU.WF := wf_mk _ _
theorem exV_wf : exV.WF := wf_mk _ _

theorem exU_grid : exU.OnGrid 2 :=
  onGrid_mk' 2 _ _ (by decide) (by
    intro kv h
    simp only [List.mem_cons, List.not_mem_nil, or_false] at h
    rcases h with rfl | rfl
    · exact ⟨by decide +kernel, 1, by norm_num⟩
    · exact ⟨by decide +kernel, -3, by norm_num⟩)

theorem exV_grid : exV.OnGrid 2 :=
  onGrid_mk' 2 _ _ (by decide) (by
    intro kv h
    simp only [List.mem_cons, List.not_mem_nil, or_false] at h
    rcases h with rfl | rfl
    · exact ⟨by decide +kernel, 1, by norm_num⟩
    · exact ⟨by decide +kernel, 2, by norm_num⟩)

/-- `C02_grid_closed`, `C02_mul_assoc` on them. -/
example := C02_grid_closed SetOrder.rev 2 (by norm_num) (by norm_num) exU exV exU_grid exV_grid
example (σ : SetOrder) := C02_mul_assoc σ SetOrder.rev σ σ 2 (by norm_num) (by norm_num) exU exV exU exU_grid exV_grid exU_grid

/-- Non-vacuity of the grid hypotheses: `m^(1/2) s^(-3/2)`. -/
example : (Unit.mk' [("L", 1/2), ("T", -3/2)] 5).OnGrid 2 :=
  onGrid_mk' 2 _ _ (by decide) (by
    intro kv h
    simp only [List.mem_cons, List.not_mem_nil, or_false] at h
    rcases h with rfl | rfl
    · exact ⟨by decide +kernel, 1, by norm_num⟩
    · exact ⟨by decide +kernel, -3, by norm_num⟩)

/-- **C02f.** `(u / v) * v == u` on the same grid; `/` raises exactly when `v.value == 0`. -/
theorem C02_div_mul_cancel (σ σ' : SetOrder) (N : ℕ) (h0 : 0 < N) (hN : N ≤ 1000000) (u v : Unit)
    (hu : u.WF) (hv : v.WF) (gu : u.OnGrid N) (gv : v.OnGrid N) :
    (v.value = 0 → u.div σ v = .error .zeroDivision) ∧
    (v.value ≠ 0 → ∃ w, u.div σ v = .ok w ∧ (w.mul σ' v).eq u = true ∧
      w.value = u.value / v.value ∧ ∀ k, w.exp k = u.exp k - v.exp k) := by
  constructor
  · intro h
    unfold Unit.div Unit.pow pyPow
    rw [if_pos ⟨h, by norm_num⟩]; rfl
  · intro h
    have hp := pow_eq_of_int h (-1)
    have hp' : v.pow (-1) = .ok ⟨dpow v.dims (-1 : ℤ), v.value ^ (-1 : ℤ)⟩ := by
      rw [← hp]; norm_num
    have hx : ∀ k, (⟨dpow v.dims (-1 : ℤ), v.value ^ (-1 : ℤ)⟩ : Unit).exp k = -v.exp k := by
      intro k
      change dget (dpow v.dims (-1 : ℤ)) k = _
      rw [dget_dpow_int (wf_iff.mp hv)]
      simp [Unit.exp]
    have gw : (⟨dpow v.dims (-1 : ℤ), v.value ^ (-1 : ℤ)⟩ : Unit).OnGrid N := by
      intro k
      rw [hx]
      obtain ⟨z, hz⟩ := gv k
      exact ⟨-z, by push_cast; rw [← hz]; ring⟩
    refine ⟨u.mul σ ⟨dpow v.dims (-1 : ℤ), v.value ^ (-1 : ℤ)⟩, by unfold Unit.div; rw [hp']; rfl, ?_, ?_, ?_⟩
    · refine (eq_iff (wf_mul _ _ _) hu).mpr ?_
      obtain ⟨g1, e1⟩ := C02_grid_closed σ N h0 hN u _ gu gw
      refine ⟨?_, fun k => ?_⟩
      · simp only [Unit.mul, zpow_neg, zpow_one]
        field_simp
      · rw [(C02_grid_closed σ' N h0 hN _ v g1 gv).2 k, e1, hx]; ring
    · simp only [Unit.mul, zpow_neg, zpow_one]; rfl
    · intro k
      rw [(C02_grid_closed σ N h0 hN u _ gu gw).2 k, hx]; ring

/-- `C02_div_mul_cancel`: the same units. -/
example := C02_div_mul_cancel SetOrder.rev SetOrder.rev 2 (by norm_num) (by norm_num) exU exV exU_wf exV_wf exU_grid exV_grid

/-- **C02g.** The dimensionless unit is neutral. -/
theorem C02_one_mul (σ : SetOrder) (u : Unit) (hu : u.WF) : (Unit.one.mul σ u).eq u = true := by
  refine (eq_iff (wf_mul _ _ _) hu).mpr ?_
  refine ⟨by simp [Unit.mul, Unit.one, Unit.mk'], fun k => ?_⟩
  unfold Unit.exp Unit.mul Unit.one Unit.mk'
  simp only [dget_dmul]
  have : dget (mkDims []) k = 0 := by simp [mkDims, dictOf, dget]
  rw [this, zero_add, limDen_of_le (dget_den_le (wf_iff.mp hu) k)]

/-- `C02_one_mul` on `exU`. -/
example := C02_one_mul SetOrder.rev exU exU_wf

/-- **C02i.** Multiplying by a number, dividing by a number and dividing a number by a unit change
exponents and values exactly as expected; division by zero raises. -/
theorem C02_real_scaling (u : Unit) (hu : u.WF) (x : ℝ) :
    ((u.mulReal x).value = u.value * x ∧ ∀ k, (u.mulReal x).exp k = u.exp k) ∧
    (x ≠ 0 → ∃ w, u.divReal x = .ok w ∧ w.value = u.value / x ∧ ∀ k, w.exp k = u.exp k) ∧
    (x = 0 → u.divReal x = .error .zeroDivision) ∧
    (u.value ≠ 0 → ∃ w, u.rdivReal x = .ok w ∧ w.value = x / u.value ∧ ∀ k, w.exp k = -u.exp k) ∧
    (u.value = 0 → u.rdivReal x = .error .zeroDivision) := by
  have hN := wf_iff.mp hu
  refine ⟨⟨rfl, fun k => dget_mkDims_self hN k⟩, fun hx => ?_, fun hx => ?_, fun h => ?_, fun h => ?_⟩
  · have hp : pyPow x (-1) = .ok x⁻¹ := by
      unfold pyPow
      rw [if_neg (by rintro ⟨h', _⟩; exact hx h'), if_neg (by rintro ⟨_, h'⟩; revert h'; decide +kernel)]
      rw [show (((-1 : ℚ)) : ℝ) = ((-1 : ℤ) : ℝ) by push_cast; rfl, Real.rpow_intCast]
      simp
    exact ⟨u.mulReal x⁻¹, by unfold Unit.divReal; rw [hp]; rfl, rfl, fun k => dget_mkDims_self hN k⟩
  · unfold Unit.divReal pyPow
    rw [if_pos ⟨hx, by norm_num⟩]; rfl
  · refine ⟨_, by unfold Unit.rdivReal; rw [inv_eq h]; rfl, ?_, fun k => ?_⟩
    · change 1 / u.value * x = x / u.value
      ring
    · change dget (mkDims (dinv u.dims)) k = _
      rw [dget_mkDims_self (show Normal (dinv u.dims) from mkDims_normal _), dget_dinv hN]; rfl
  · unfold Unit.rdivReal Unit.inv
    rw [if_pos h]; rfl

/-- `C02_real_scaling`: `exU * 3`, `exU / 3`, `3 / exU`. -/
example := C02_real_scaling exU exU_wf 3

/-- **C02h (negation).** Without the grid restriction associativity is false of the code: exponents
1/1000, 1/1000, -1/1001 are all representable, yet the two products differ. -/
theorem C02_mul_assoc_fails : ¬ ∀ (σ : SetOrder) (u v w : Unit), u.WF → v.WF → w.WF →
    ((u.mul σ v).mul σ w).eq (u.mul σ (v.mul σ w)) = true := by
  intro h
  have := h SetOrder.id (Unit.mk' [("L", 1/1000)]) (Unit.mk' [("L", 1/1000)]) (Unit.mk' [("L", -1/1001)])
    (wf_mk _ _) (wf_mk _ _) (wf_mk _ _)
  rw [eq_iff (wf_mul _ _ _) (wf_mul _ _ _)] at this
  have := this.2 "L"
  unfold Unit.exp Unit.mul Unit.mk' at this
  simp only [dget_dmul] at this
  rw [dget_mkDims (by decide), dget_mkDims (by decide)] at this
  revert this
  decide +kernel

/-! ## C03 powers -/

/-- **C03a.** `u**1 == u`, `u**0 == 1`, `u**-1 == ~u`. -/
theorem C03_pow_small (u : Unit) (hu : u.WF) (hv : u.value ≠ 0) :
    (∃ w, u.pow 1 = .ok w ∧ w.eq u = true) ∧
    (∃ w, u.pow 0 = .ok w ∧ w.eq Unit.one = true) ∧
    (∃ w w', u.pow (-1) = .ok w ∧ u.inv = .ok w' ∧ w.eq w' = true) := by
  refine ⟨⟨_, by simpa using pow_eq_of_int hv 1, ?_⟩, ⟨_, by simpa using pow_eq_of_int hv 0, ?_⟩,
    ⟨_, _, by simpa using pow_eq_of_int hv (-1), inv_eq hv, ?_⟩⟩
  · refine (eq_iff (wf_dpow _ _ _) hu).mpr ?_
    refine ⟨rfl, fun k => ?_⟩
    have := dget_dpow_int (wf_iff.mp hu) 1 k
    simpa [Unit.exp] using this
  · refine (eq_iff (wf_dpow _ _ _) wf_one).mpr ?_
    refine ⟨rfl, fun k => ?_⟩
    have := dget_dpow_int (wf_iff.mp hu) 0 k
    rw [exp_one]
    simpa [Unit.exp] using this
  · refine (eq_iff (wf_dpow _ _ _) (wf_dinv _ _)).mpr ?_
    refine ⟨by simp, fun k => ?_⟩
    have := dget_dpow_int (wf_iff.mp hu) (-1) k
    simpa [Unit.exp, dget_dinv (wf_iff.mp hu)] using this

/-- `C03_pow_small`: a unit of value 5. -/
example := C03_pow_small exU exU_wf (by norm_num [exU, Unit.mk'])

/-- **C03b.** `u**m * u**n == u**(m+n)` and `(u**m)**n == u**(m*n)` for integer powers. -/
theorem C03_pow_int (σ : SetOrder) (u : Unit) (hu : u.WF) (hv : u.value ≠ 0) (m n : ℤ) :
    ∃ um un umn umul unn, u.pow m = .ok um ∧ u.pow n = .ok un ∧ u.pow ((m + n : ℤ) : ℚ) = .ok umn ∧
      u.pow ((m * n : ℤ) : ℚ) = .ok umul ∧ um.pow n = .ok unn ∧
      (um.mul σ un).eq umn = true ∧ unn.eq umul = true := by
  have hN := wf_iff.mp hu
  refine ⟨_, _, _, _, _, pow_eq_of_int hv m, pow_eq_of_int hv n, pow_eq_of_int hv _, pow_eq_of_int hv _,
    pow_eq_of_int (zpow_ne_zero _ hv) n, ?_, ?_⟩
  · refine (eq_iff (wf_mul _ _ _) (wf_dpow _ _ _)).mpr ?_
    refine ⟨(zpow_add₀ hv m n).symm, fun k => ?_⟩
    unfold Unit.exp Unit.mul
    simp only [dget_dmul, dget_dpow_int hN]
    rw [show dget u.dims k * m + dget u.dims k * n = dget u.dims k * ((m + n : ℤ) : ℚ) by push_cast; ring,
      limDen_of_le (le_trans (den_mul_int_le _ _) (dget_den_le hN k))]
  · refine (eq_iff (wf_dpow _ _ _) (wf_dpow _ _ _)).mpr ?_
    refine ⟨(zpow_mul _ _ _).symm, fun k => ?_⟩
    unfold Unit.exp
    simp only []
    rw [dget_dpow_int hN, dget_dpow_int (normal_dpow _ _), dget_dpow_int hN]
    push_cast; ring

/-- `C03_pow_int`: the powers 3 and -2 of it. -/
example := C03_pow_int SetOrder.rev exU exU_wf (by norm_num [exU, Unit.mk']) 3 (-2)

/-- **C03c.** `(u*v)**n == u**n * v**n` for integer `n` and exponents on a common grid. -/
theorem C03_mul_pow (σ σ' : SetOrder) (N : ℕ) (h0 : 0 < N) (hN : N ≤ 1000000) (u v : Unit) (hu : u.WF)
    (hv : v.WF) (gu : u.OnGrid N) (gv : v.OnGrid N) (hu0 : u.value ≠ 0) (hv0 : v.value ≠ 0) (n : ℤ) :
    ∃ a b c, (u.mul σ v).pow n = .ok a ∧ u.pow n = .ok b ∧ v.pow n = .ok c ∧
      a.eq (b.mul σ' c) = true := by
  refine ⟨_, _, _, pow_eq_of_int (mul_ne_zero hu0 hv0) n, pow_eq_of_int hu0 n, pow_eq_of_int hv0 n, ?_⟩
  refine (eq_iff (wf_dpow _ _ _) (wf_mul _ _ _)).mpr ?_
  refine ⟨mul_zpow _ _ _, fun k => ?_⟩
  have e := (C02_grid_closed σ N h0 hN u v gu gv).2 k
  unfold Unit.exp at e ⊢
  have hb := grid_add (grid_mul_int (gu k) n) (grid_mul_int (gv k) n)
  unfold Unit.exp at hb
  change dget (dpow (u.mul σ v).dims n) k = dget (dmul σ' (dpow u.dims n) (dpow v.dims n)) k
  rw [dget_dpow_int (wf_iff.mp (wf_mul _ _ _)), e, dget_dmul, dget_dpow_int (wf_iff.mp hu),
    dget_dpow_int (wf_iff.mp hv), limDen_of_le (den_le_of_grid h0 hN hb)]
  ring

/-- `C03_mul_pow`: the cube of a product. -/
example := C03_mul_pow SetOrder.rev SetOrder.rev 2 (by norm_num) (by norm_num) exU exV exU_wf exV_wf exU_grid exV_grid
  (by norm_num [exU, Unit.mk']) (by norm_num [exV, Unit.mk']) 3

/-- **C03d.** Rational powers compose: `(u**p)**q == u**(p*q)` when `u.value > 0` and no exponent of
`u**p` was rounded; in particular `(u**p)**(1/p) == u`. -/
theorem C03_pow_rat (u : Unit) (hu : u.WF) (hv : 0 < u.value) (p q : ℚ)
    (hp : ∀ k, (u.exp k * p).den ≤ 1000000) :
    ∃ up upq upq', u.pow p = .ok up ∧ up.pow q = .ok upq ∧ u.pow (p * q) = .ok upq' ∧
      upq.eq upq' = true ∧ (p * q = 1 → upq.eq u = true) := by
  have h1 : 0 < u.value ^ (p : ℝ) := Real.rpow_pos_of_pos hv _
  have hx : ∀ k, dget (dpow (dpow u.dims p) q) k = dget (dpow u.dims (p * q)) k := by
    intro k
    have := hp k
    unfold Unit.exp at this
    rw [dget_dpow (normal_dpow _ _), dget_dpow (wf_iff.mp hu), limDen_of_le this,
      dget_dpow (wf_iff.mp hu), mul_assoc]
  have hval : (u.value ^ (p : ℝ)) ^ (q : ℝ) = u.value ^ ((p * q : ℚ) : ℝ) := by
    push_cast; rw [Real.rpow_mul hv.le]
  refine ⟨_, _, _, pow_eq_of_pos hv p, pow_eq_of_pos h1 q, pow_eq_of_pos hv _, ?_, ?_⟩
  · refine (eq_iff (wf_dpow _ _ _) (wf_dpow _ _ _)).mpr ?_
    exact ⟨hval, hx⟩
  · intro hpq
    refine (eq_iff (wf_dpow _ _ _) hu).mpr ?_
    refine ⟨by simp only []; rw [hval, hpq]; simp, fun k => ?_⟩
    unfold Unit.exp
    simp only []
    rw [hx, hpq]
    have := dget_dpow_int (wf_iff.mp hu) 1 k
    simpa using this

example : (∀ k, ((Unit.mk' [("L", 2)] 9).exp k * (1/2)).den ≤ 1000000) ∧ 0 < (Unit.mk' [("L", 2)] 9).value := by
  refine ⟨fun k => ?_, by norm_num [Unit.mk']⟩
  unfold Unit.exp Unit.mk'
  rw [dget_mkDims (by decide)]
  by_cases h : k = "L"
  · subst h
    rw [show dget [("L", (2 : ℚ))] "L" = 2 by decide +kernel, limDen_of_le (by simp [maxDen])]
    norm_num
  · rw [dget_of_not_mem (by simpa [keys] using h)]; simp

/-! ## C04 conversion -/

/-- **C04a.** `u.to(v)` raises `TypeError` iff the exponent of some dimension differs. -/
theorem C04_to_typeError_iff (u v : Unit) (hu : u.WF) (hv : v.WF) :
    u.to v = .error .typeError ↔ ∃ k, u.exp k ≠ v.exp k := by
  have hd := dictEq_iff (wf_iff.mp hu) (wf_iff.mp hv)
  unfold Unit.to Unit.exp
  constructor
  · intro h
    by_contra hne
    push Not at hne
    rw [hd.mpr hne] at h
    simp only [Bool.not_true, Bool.false_eq_true, ↓reduceIte] at h
    split at h <;> cases h
  · rintro ⟨k, hk⟩
    have : dictEq u.dims v.dims = false := by
      by_contra h
      exact hk (hd.mp (by simpa using h) k)
    simp [this]

/-- `C04_to_typeError_iff`: two units of different dimensions. -/
example := C04_to_typeError_iff exU exV exU_wf exV_wf

/-- **C04b.** Otherwise (non-zero target) the factor is what turns the target value into the source
value: `f * v.value == u.value`. -/
theorem C04_to_ok (u v : Unit) (hu : u.WF) (hv : v.WF) (h : ∀ k, u.exp k = v.exp k) (h0 : v.value ≠ 0) :
    ∃ f, u.to v = .ok f ∧ f * v.value = u.value := by
  have hd := (dictEq_iff (wf_iff.mp hu) (wf_iff.mp hv)).mpr h
  exact ⟨u.value / v.value, by simp [Unit.to, hd, h0], by field_simp⟩

/-- `C04_to_ok`: `exU` in units of `7 m^(1/2) s^(-3/2)`. -/
example := C04_to_ok exU (Unit.mk' [("L", 1/2), ("T", -3/2)] 7) exU_wf (wf_mk _ _) (fun _ => rfl) (by norm_num [Unit.mk'])

/-- **C04c.** Conversions compose and invert. -/
theorem C04_to_compose (u v w : Unit) (hu : u.WF) (hv : v.WF) (hw : w.WF) (fuv fvw : ℝ)
    (h1 : u.to v = .ok fuv) (h2 : v.to w = .ok fvw) (hu0 : u.value ≠ 0) :
    u.to w = .ok (fuv * fvw) ∧ v.to u = .ok fuv⁻¹ ∧ u.to u = .ok 1 := by
  have key : ∀ {a b : Unit} {f : ℝ}, a.to b = .ok f → dictEq a.dims b.dims = true ∧ b.value ≠ 0 ∧
      f = a.value / b.value := by
    intro a b f h
    unfold Unit.to at h
    split at h
    · cases h
    · split at h
      · cases h
      · rename_i h1 h2
        cases h; exact ⟨by simpa using h1, h2, rfl⟩
  obtain ⟨d1, n1, rfl⟩ := key h1
  obtain ⟨d2, n2, rfl⟩ := key h2
  rw [dictEq_iff (wf_iff.mp hu) (wf_iff.mp hv)] at d1
  rw [dictEq_iff (wf_iff.mp hv) (wf_iff.mp hw)] at d2
  have e1 := (dictEq_iff (wf_iff.mp hu) (wf_iff.mp hw)).mpr (fun k => (d1 k).trans (d2 k))
  have e2 := (dictEq_iff (wf_iff.mp hv) (wf_iff.mp hu)).mpr (fun k => (d1 k).symm)
  have e3 := (dictEq_iff (wf_iff.mp hu) (wf_iff.mp hu)).mpr (fun k => rfl)
  refine ⟨?_, ?_, ?_⟩
  · simp [Unit.to, e1, n2]; field_simp
  · simp [Unit.to, e2, hu0]
  · simp [Unit.to, e3, hu0]

/-- Non-vacuity: kilometre to metre is 1000, and metre to second is a `TypeError`. -/
example : (Unit.mk' [("L", 1)] 1000).to (Unit.mk' [("L", 1)] 1) = .ok 1000 ∧
    (Unit.mk' [("L", 1)] 1000).to (Unit.mk' [("T", 1)] 1) = .error .typeError := by
  have h1 : dictEq (mkDims [("L", 1)]) (mkDims [("L", 1)]) = true := by decide +kernel
  have h2 : dictEq (mkDims [("L", 1)]) (mkDims [("T", 1)]) = false := by decide +kernel
  constructor
  · simp [Unit.to, Unit.mk', h1]
  · simp [Unit.to, Unit.mk', h2]

/-! ## C05 equality and hashing -/

/-- **C05a.** `==` holds iff values are equal and all exponents are equal — hence it does not depend
on insertion order. -/
theorem C05_eq_iff (u v : Unit) (hu : u.WF) (hv : v.WF) :
    u.eq v = true ↔ u.value = v.value ∧ ∀ k, u.exp k = v.exp k := eq_iff hu hv

/-- `C05_eq_iff`: two units of different dimensions. -/
example := C05_eq_iff exU exV exU_wf exV_wf

/-- **C05b.** Building a unit from the same items in any order gives equal units. -/
theorem C05_order_irrelevant (items items' : List (Dim × ℚ)) (v : ℝ) (hnd : (items.map Prod.fst).Nodup)
    (hp : items.Perm items') : (Unit.mk' items v).eq (Unit.mk' items' v) = true := by
  refine (eq_iff (wf_mk _ _) (wf_mk _ _)).mpr ?_
  refine ⟨rfl, fun k => ?_⟩
  have hnd' : (keys items').Nodup := (hp.map Prod.fst).nodup_iff.mp hnd
  change dget (mkDims items) k = dget (mkDims items') k
  rw [dget_mkDims hnd, dget_mkDims hnd']
  congr 1
  by_cases hk : k ∈ keys items
  · obtain ⟨⟨k', x⟩, hm, rfl⟩ := List.mem_map.mp hk
    rw [dget_of_mem hnd hm, dget_of_mem hnd' (hp.subset hm)]
  · rw [dget_of_not_mem hk, dget_of_not_mem (fun h => hk ((hp.map Prod.fst).symm.subset h))]

/-- **C05c.** `==` is an equivalence relation. -/
theorem C05_eq_equivalence :
    (∀ u : Unit, u.WF → u.eq u = true) ∧
    (∀ u v : Unit, u.WF → v.WF → u.eq v = true → v.eq u = true) ∧
    (∀ u v w : Unit, u.WF → v.WF → w.WF → u.eq v = true → v.eq w = true → u.eq w = true) := by
  refine ⟨fun u hu => (eq_iff hu hu).mpr ⟨rfl, fun _ => rfl⟩, fun u v hu hv h => ?_,
    fun u v w hu hv hw h1 h2 => ?_⟩
  · obtain ⟨a, b⟩ := (eq_iff hu hv).mp h
    exact (eq_iff hv hu).mpr ⟨a.symm, fun k => (b k).symm⟩
  · obtain ⟨a, b⟩ := (eq_iff hu hv).mp h1
    obtain ⟨c, d⟩ := (eq_iff hv hw).mp h2
    exact (eq_iff hu hw).mpr ⟨a.trans c, fun k => (b k).trans (d k)⟩

theorem sortedItems_perm {a b : Dict} (h : a.Perm b) : sortedItems a = sortedItems b := by
  unfold sortedItems
  congr 1
  have hp : (List.insertionSort (fun a b : Dim ×ₗ ℚ => a ≤ b) (a.map toLex)).Perm
      (List.insertionSort (fun a b : Dim ×ₗ ℚ => a ≤ b) (b.map toLex)) :=
    (List.perm_insertionSort _ _).trans ((h.map toLex).trans (List.perm_insertionSort _ _).symm)
  exact hp.eq_of_pairwise (fun a b _ _ h1 h2 => le_antisymm h1 h2)
    (List.pairwise_insertionSort _ _) (List.pairwise_insertionSort _ _)

/-- **C05d.** Equal units hash equally, for every float rounding and every tuple hash. -/
theorem C05_eq_hash {F : Type} (fl : ℝ → F) (h : List (Dim × ℚ) → ℤ) (h2 : F × ℤ → ℤ) (u v : Unit)
    (hu : u.WF) (hv : v.WF) (he : u.eq v = true) : u.hash fl h h2 = v.hash fl h h2 := by
  unfold Unit.eq at he
  rw [Bool.and_eq_true, decide_eq_true_iff,
    dictEq_iff_of_nodup (wf_iff.mp hu).nodup (wf_iff.mp hv).nodup] at he
  unfold Unit.hash dhash
  rw [he.1, sortedItems_perm he.2]

/-- Non-vacuity: the same unit assembled in two orders. -/
example : (Unit.mk' [("L", 1), ("T", -1)] 2).eq (Unit.mk' [("T", -1), ("L", 1)] 2) = true :=
  C05_order_irrelevant _ _ 2 (by decide) (List.Perm.swap _ _ _)

/-- **C05e.** A unit never equals a bare dimension. -/
theorem C05_unit_ne_dimension (u : Unit) : u.eqBase u.dims = false := rfl

/-! ## C65 `!=` -/

/-- **C65 (negation).** `u != v` is not the negation of `u == v`: kilometre and metre are neither
equal nor unequal. -/
theorem C65_ne_not_negation : ¬ ∀ u v : Unit, u.WF → v.WF → u.ne v = !u.eq v := by
  intro h
  have := h (Unit.mk' [("L", 1)] 1000) (Unit.mk' [("L", 1)] 1) (wf_mk _ _) (wf_mk _ _)
  have h1 : dictEq (mkDims [("L", 1)]) (mkDims [("L", 1)]) = true := by decide +kernel
  simp [Unit.ne, Unit.eq, Unit.mk', h1] at this

/-- **C65 (partial).** `u != v` does imply `not (u == v)`, and it is the negation of `==` when the two
values are equal. -/
theorem C65_ne_partial (u v : Unit) : (u.ne v = true → u.eq v = false) ∧
    (u.value = v.value → u.ne v = !u.eq v) := by
  constructor
  · intro h; simp only [Unit.ne, Bool.not_eq_true'] at h; simp [Unit.eq, h]
  · intro h; simp [Unit.ne, Unit.eq, h]

end Verif.Units

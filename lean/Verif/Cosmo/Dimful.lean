import Verif.Cosmo.DimfulModel
import Verif.Consts.Lemmas
import Mathlib.Tactic.FieldSimp

/-! # C115: dimensionful cosmology -/

namespace Verif.Cosmo.Dimful

open Verif Verif.Consts

/-! ### Specification -/

/-- The value in SI units. -/
def GQ.si : GQ → ℝ
  | .unit u => u.value
  | .quant v u => v * u.value

/-- The number. -/
def Num.val : Num → ℝ
  | .py x => x
  | .tensor x => x

/-- `g` is `x` in SI units, with dimensions `L^l M^m T^t` and `H^h` (the pseudo-dimension of the Hubble parameter). -/
structure Is (g : GQ) (x : ℝ) (l m t : ℤ) (h : ℤ := 0) : Prop where
  wf : g.getUnit.WF
  si : g.si = x
  len : g.getUnit.exp "L" = l
  mass : g.getUnit.exp "M" = m
  time : g.getUnit.exp "T" = t
  hub : g.getUnit.exp "H" = h
  other : ∀ k, k ≠ "L" → k ≠ "M" → k ≠ "T" → k ≠ "H" → g.getUnit.exp k = 0

/-! ### Lemmas -/

/-- The exponents as a function. -/
def ex (l m t h : ℤ) (k : String) : ℤ :=
  if k = "L" then l else if k = "M" then m else if k = "T" then t else if k = "H" then h else 0

structure RepQ (g : GQ) (x : ℝ) (a : String → ℤ) : Prop where
  wf : g.getUnit.WF
  si : g.si = x
  exp : ∀ k, g.getUnit.exp k = a k

theorem repQ_iff {g : GQ} {x : ℝ} {l m t h : ℤ} : Is g x l m t h ↔ RepQ g x (ex l m t h) := by
  constructor
  · intro H
    refine ⟨H.wf, H.si, fun k => ?_⟩
    unfold ex
    split_ifs with h1 h2 h3 h4
    · rw [h1, H.len]
    · rw [h2, H.mass]
    · rw [h3, H.time]
    · rw [h4, H.hub]
    · rw [H.other k h1 h2 h3 h4]; simp
  · intro H
    refine ⟨H.wf, H.si, ?_, ?_, ?_, ?_, fun k h1 h2 h3 h4 => ?_⟩ <;> rw [H.exp] <;> simp [ex]
    simp [h1, h2, h3, h4]

variable {u w : Unit} {x y : ℝ} {a b : String → ℤ} {σ : SetOrder} {g g' : GQ}

theorem RepQ.congr (h : RepQ g x a) (hx : x = y) (hab : ∀ k, a k = b k) : RepQ g y b :=
  ⟨h.wf, h.si.trans hx, fun k => (h.exp k).trans (by rw [hab])⟩

theorem repQ_unit : RepQ (.unit u) x a ↔ RepU u x a :=
  ⟨fun h => ⟨h.wf, h.si, h.exp⟩, fun h => ⟨h.wf, h.val, h.exp⟩⟩

theorem repQ_quant {v : ℝ} : RepQ (.quant v u) x a ↔ RepU u u.value a ∧ v * u.value = x :=
  ⟨fun h => ⟨⟨h.wf, rfl, h.exp⟩, h.si⟩, fun h => ⟨h.1.wf, h.2, h.1.exp⟩⟩

theorem RepU.zpow (h : RepU u x a) (hx : x ≠ 0) (n : ℤ) :
    ∃ z, u.pow (n : ℚ) = .ok z ∧ RepU z (x ^ n) (fun k => a k * n) := by
  have hu : u.value ≠ 0 := by rw [h.val]; exact hx
  refine ⟨_, Units.pow_eq_of_int hu n, Units.wf_dpow _ _ _, by simp [h.val], fun k => ?_⟩
  have := Units.dget_dpow_int (Units.wf_iff.mp h.wf) n k
  have e := h.exp k
  unfold Units.Unit.exp at e ⊢
  push_cast
  rw [this, e]

theorem RepQ.mulNum (h : RepQ g x a) (d : Num) : RepQ (g.mulNum σ d) (x * d.val) a := by
  cases g with
  | unit u =>
    rw [repQ_unit] at h
    cases d with
    | py y => exact repQ_unit.mpr (h.mulReal y)
    | tensor y => exact repQ_quant.mpr ⟨⟨h.wf, rfl, h.exp⟩, by rw [h.val, mul_comm]; rfl⟩
  | quant v u =>
    obtain ⟨h1, h2⟩ := repQ_quant.mp h
    have h3 := RepU.mul (σ := σ) h1 rep_one
    have h4 : ∀ z : ℝ, RepQ (.quant (v * z) (u.mul σ Units.Unit.one)) (x * z) a := fun z => by
      refine ⟨h3.wf, ?_, fun k => by rw [show (GQ.quant (v * z) (u.mul σ Units.Unit.one)).getUnit = u.mul σ Units.Unit.one from rfl, h3.exp]; simp⟩
      simp only [GQ.si]
      rw [h3.val, ← h2]; ring
    cases d <;> exact h4 _

theorem RepQ.unitMul (hw : RepU w y b) (h : RepQ g x a) : RepQ (unitMul σ w g) (y * x) (fun k => b k + a k) := by
  cases g with
  | unit u => exact repQ_unit.mpr (hw.mul (repQ_unit.mp h))
  | quant v u =>
    obtain ⟨h1, h2⟩ := repQ_quant.mp h
    have h3 := h1.mul (σ := σ) hw
    refine ⟨h3.wf, ?_, fun k => by rw [show (Dimful.unitMul σ w (.quant v u)).getUnit = u.mul σ w from rfl, h3.exp, add_comm]⟩
    simp only [Dimful.unitMul, GQ.si]
    rw [h3.val, ← h2]; ring

theorem RepQ.pow (h : RepQ g x a) (hx : x ≠ 0) (n : ℤ) :
    ∃ z, g.pow (n : ℚ) = .ok z ∧ RepQ z (x ^ n) (fun k => a k * n) := by
  cases g with
  | unit u =>
    obtain ⟨z, hz, h'⟩ := RepU.zpow (repQ_unit.mp h) hx n
    exact ⟨.unit z, by simp [GQ.pow, hz, bind, Except.bind, pure, Except.pure], repQ_unit.mpr h'⟩
  | quant v u =>
    obtain ⟨h1, h2⟩ := repQ_quant.mp h
    have hu : u.value ≠ 0 := by rintro h0; rw [h0, mul_zero] at h2; exact hx h2.symm
    obtain ⟨z, hz, h'⟩ := RepU.zpow h1 hu n
    refine ⟨.quant (v ^ (((n : ℚ)) : ℝ)) z, by simp [GQ.pow, hz, bind, Except.bind, pure, Except.pure], h'.wf, ?_, h'.exp⟩
    simp only [GQ.si]
    rw [h'.val, ← h2, mul_zpow]
    simp

theorem RepQ.unitDiv (hw : RepU w y b) (h : RepQ g x a) (hx : x ≠ 0) :
    ∃ z, unitDiv σ w g = .ok z ∧ RepQ z (y / x) (fun k => b k - a k) := by
  obtain ⟨z, hz, h'⟩ := RepQ.pow h hx (-1)
  have hz' : g.pow (-1) = .ok z := by simpa using hz
  refine ⟨_, by simp [Dimful.unitDiv, hz', bind, Except.bind, pure, Except.pure]; rfl, (RepQ.unitMul hw h').congr ?_ fun k => ?_⟩
  · rw [zpow_neg_one]; rfl
  · ring

theorem RepQ.divUnit (hw : RepU w y b) (h : RepQ g x a) (hy : y ≠ 0) :
    ∃ z, g.divUnit σ w = .ok z ∧ RepQ z (x / y) (fun k => a k - b k) := by
  cases g with
  | unit u =>
    obtain ⟨z, hz, h'⟩ := (repQ_unit.mp h).div (σ := σ) hw hy
    exact ⟨.unit z, by simp [GQ.divUnit, hz, bind, Except.bind, pure, Except.pure], repQ_unit.mpr h'⟩
  | quant v u =>
    obtain ⟨h1, h2⟩ := repQ_quant.mp h
    have hw0 : w.value ≠ 0 := by rw [hw.val]; exact hy
    have hi : RepU ⟨Units.dinv w.dims, 1 / w.value⟩ (1 / y) (fun k => - b k) :=
      ⟨Units.wf_dinv _ _, by rw [← hw.val], fun k => by
        have := Units.dget_dinv (Units.wf_iff.mp hw.wf) k
        have e := hw.exp k
        unfold Units.Unit.exp at e ⊢
        rw [this, e]; push_cast; rfl⟩
    have h3 := h1.mul (σ := σ) hi
    refine ⟨.quant v (u.mul σ _), by simp only [GQ.divUnit, Units.inv_eq hw0, bind, Except.bind, pure, Except.pure], h3.wf, ?_, fun k => ?_⟩
    · simp only [GQ.si]
      rw [h3.val, ← h2]; ring
    · exact (h3.exp k).trans (by push_cast; ring)

theorem RepQ.rdiv (h : RepQ g x a) (hx : x ≠ 0) (r : ℝ) :
    ∃ z, g.rdiv σ r = .ok z ∧ RepQ z (r / x) (fun k => - a k) := by
  cases g with
  | unit u =>
    obtain ⟨z, hz, h'⟩ := (repQ_unit.mp h).rdivReal r hx
    exact ⟨.unit z, by simp [GQ.rdiv, hz, bind, Except.bind, pure, Except.pure], repQ_unit.mpr h'⟩
  | quant v u =>
    obtain ⟨h1, h2⟩ := repQ_quant.mp h
    have hu : u.value ≠ 0 := by rintro h0; rw [h0, mul_zero] at h2; exact hx h2.symm
    have hv : v ≠ 0 := by rintro h0; rw [h0, zero_mul] at h2; exact hx h2.symm
    obtain ⟨z, hz, h'⟩ := rep_one.div (σ := σ) h1 hu
    refine ⟨.quant (r / v) z, by simp [GQ.rdiv, hz, bind, Except.bind, pure, Except.pure], h'.wf, ?_, fun k => ?_⟩
    · simp only [GQ.si]
      rw [h'.val, ← h2]; field_simp
    · exact (h'.exp k).trans (by simp)

theorem RepU.to {v : Unit} (h : RepU u x a) (hv : RepU v y b) (hy : y ≠ 0) (hab : ∀ k, a k = b k) : u.to v = .ok (x / y) := by
  obtain ⟨f, hf, he⟩ := Units.C04_to_ok u v h.wf hv.wf (fun k => by rw [h.exp, hv.exp, hab]) (by rw [hv.val]; exact hy)
  rw [hf, ← h.val, ← he, hv.val]
  congr 1
  field_simp

theorem RepQ.to_value (h : RepQ g x a) (hw : RepU w y b) (hy : y ≠ 0) (hab : ∀ k, a k = b k) :
    ∃ z, g.to w = .ok z ∧ valueOf z = x / y := by
  cases g with
  | unit u =>
    have := RepU.to (repQ_unit.mp h) hw hy hab
    exact ⟨.inl (x / y), by simp [GQ.to, this, bind, Except.bind, pure, Except.pure], rfl⟩
  | quant v u =>
    obtain ⟨h1, h2⟩ := repQ_quant.mp h
    simp only [GQ.to]
    split_ifs with he
    · refine ⟨_, rfl, ?_⟩
      have e := ((Units.C05_eq_iff u w h1.wf hw.wf).mp he).1
      simp only [valueOf]
      rw [← h2, e, hw.val]
      field_simp
    · have := RepU.to h1 hw hy hab
      refine ⟨.inr (v * (u.value / y), w), by simp [this, bind, Except.bind, pure, Except.pure], ?_⟩
      simp only [valueOf]
      rw [← h2]; ring

/-! ### The units and constants -/

theorem rep_arcsec : ∃ u, arcsec = .ok u ∧ RepU u (Real.pi / 648000) (fun _ => 0) := by
  obtain ⟨u, hu, h⟩ := (rep_one.mulReal (Real.pi / 180)).divReal 60 (by norm_num)
  obtain ⟨v, hv, h'⟩ := h.divReal 60 (by norm_num)
  refine ⟨v, by simp [arcsec, hu, hv, bind, Except.bind], ⟨h'.wf, ?_, h'.exp⟩⟩
  rw [h'.val]; ring

theorem rep_steradian : ∃ u, steradian = .ok u ∧ RepU u 1 (fun _ => 0) := by
  obtain ⟨u, hu, h⟩ := rep_one.pow one_ne_zero 2
  exact ⟨u, by simpa [steradian] using hu, h.wf, by rw [h.val]; norm_num, fun k => by rw [h.exp]; simp⟩

/-- The parsec in metres. -/
noncomputable def parsec : ℝ := 149597870700 * 648000 / Real.pi

theorem parsec_pos : 0 < parsec := by unfold parsec; positivity

theorem rep_L : RepU (baseUnit "L") 1 (ex 1 0 0 0) := by
  have h := rep_base "L"
  refine ⟨h.wf, h.val, fun k => (h.exp k).trans ?_⟩
  unfold ex; split_ifs <;> simp

theorem rep_T : RepU (baseUnit "T") 1 (ex 0 0 1 0) := by
  have h := rep_base "T"
  refine ⟨h.wf, h.val, fun k => (h.exp k).trans ?_⟩
  unfold ex; split_ifs <;> simp_all

theorem rep_M : RepU (baseUnit "M") 1 (ex 0 1 0 0) := by
  have h := rep_base "M"
  refine ⟨h.wf, h.val, fun k => (h.exp k).trans ?_⟩
  unfold ex; split_ifs <;> simp_all

theorem RepU.congr (h : RepU u x a) (hx : x = y) (hab : ∀ k, a k = b k) : RepU u y b :=
  ⟨h.wf, h.val.trans hx, fun k => (h.exp k).trans (by rw [hab])⟩

theorem rep_pc (σ : SetOrder) : ∃ u, pc σ = .ok u ∧ RepU u parsec (ex 1 0 0 0) := by
  obtain ⟨s, hs, h⟩ := rep_arcsec
  obtain ⟨u, hu, h'⟩ := (rep_L.mulReal 149597870700).div (σ := σ) h (by positivity)
  refine ⟨u, by simp [pc, hs, hu, bind, Except.bind], RepU.congr h' ?_ fun k => by simp⟩
  unfold parsec
  field_simp

theorem rep_Mpc (σ : SetOrder) : ∃ u, Mpc σ = .ok u ∧ RepU u (10 ^ 6 * parsec) (ex 1 0 0 0) := by
  obtain ⟨s, hs, h⟩ := rep_pc σ
  exact ⟨_, by simp only [Mpc, hs, bind, Except.bind, pure, Except.pure], RepU.congr (h.mulReal (10 ^ 6)) (by ring) fun k => rfl⟩

/-- km/s/Mpc in SI units. -/
noncomputable def kmsMpcSI : ℝ := 10 ^ 3 / (10 ^ 6 * parsec)

theorem kmsMpcSI_pos : 0 < kmsMpcSI := div_pos (by norm_num) (mul_pos (by norm_num) parsec_pos)

theorem ex_sub (l m t h l' m' t' h' : ℤ) (k : String) : ex l m t h k - ex l' m' t' h' k = ex (l - l') (m - m') (t - t') (h - h') k := by
  unfold ex; split_ifs <;> simp

theorem ex_add (l m t h l' m' t' h' : ℤ) (k : String) : ex l m t h k + ex l' m' t' h' k = ex (l + l') (m + m') (t + t') (h + h') k := by
  unfold ex; split_ifs <;> simp

theorem ex_mul (l m t h n : ℤ) (k : String) : ex l m t h k * n = ex (l * n) (m * n) (t * n) (h * n) k := by
  unfold ex; split_ifs <;> simp

theorem ex_neg (l m t h : ℤ) (k : String) : - ex l m t h k = ex (-l) (-m) (-t) (-h) k := by
  unfold ex; split_ifs <;> simp

theorem rep_kms (σ : SetOrder) : ∃ u, kmsMpc σ = .ok u ∧ RepU u kmsMpcSI (ex 0 0 (-1) 0) := by
  obtain ⟨s, hs, h⟩ := rep_Mpc σ
  obtain ⟨v, hv, h2⟩ := (rep_L.mulReal (10 ^ 3)).div (σ := σ) rep_T one_ne_zero
  obtain ⟨u, hu, h3⟩ := h2.div (σ := σ) h (mul_pos (by norm_num) parsec_pos).ne'
  refine ⟨u, by simp [kmsMpc, km, hs, hv, hu, bind, Except.bind], RepU.congr h3 ?_ fun k => ?_⟩
  · unfold kmsMpcSI; ring
  · rw [ex_sub, ex_sub]; norm_num

theorem rep_c (σ : SetOrder) (c : Vals) : ∃ u, c_ σ c = .ok u ∧ RepU u c.c (ex 1 0 (-1) 0) := by
  obtain ⟨v, hv, h⟩ := rep_L.div (σ := σ) rep_T one_ne_zero
  exact ⟨_, by simp only [c_, hv, bind, Except.bind, pure, Except.pure], RepU.congr (h.basic c.c) (by ring) fun k => by rw [ex_sub]; norm_num⟩

theorem rep_G (σ : SetOrder) (c : Vals) : ∃ u, G_ σ c = .ok u ∧ RepU u c.G (ex 3 (-1) (-2) 0) := by
  obtain ⟨t2, ht, h1⟩ := rep_T.pow one_ne_zero 2
  obtain ⟨n, hn, h2⟩ := (rep_M.mul (σ := σ) rep_L).div (σ := σ) h1 (by norm_num)
  obtain ⟨l2, hl, h3⟩ := rep_L.pow one_ne_zero 2
  obtain ⟨m2, hm, h4⟩ := rep_M.pow one_ne_zero 2
  obtain ⟨u, hu, h5⟩ := (h2.mul (σ := σ) h3).div (σ := σ) h4 (by norm_num)
  have hn' : newton σ = .ok n := by
    have ht' : (baseUnit "T").pow 2 = .ok t2 := by simpa using ht
    simp only [newton, ht', bind, Except.bind]
    exact hn
  have hl' : (baseUnit "L").pow 2 = .ok l2 := by simpa using hl
  have hm' : (baseUnit "M").pow 2 = .ok m2 := by simpa using hm
  refine ⟨basic c.G u, by simp [G_, hn', hl', hm', hu, bind, Except.bind, pure, Except.pure], RepU.congr (h5.basic c.G) (by ring) fun k => ?_⟩
  have e2 : ((2 : ℕ) : ℤ) = 2 := rfl
  simp only [e2, ex_mul, ex_add, ex_sub]
  norm_num

/-! ### The claims -/

section
variable (σ : SetOrder) (c : Vals) (H0 : GQ) (h : ℝ)

/-- **C115** for `H0` a unit or a quantity of dimension 1/time, in whatever unit, with SI value `h ≠ 0`: the Hubble time is `1/h`, a time. -/
theorem C115_hubble_time (hH : Is H0 h 0 0 (-1)) (h0 : h ≠ 0) : ∃ r, hubbleTime σ H0 = .ok r ∧ Is r (1 / h) 0 0 1 := by
  obtain ⟨z, hz, hr⟩ := RepQ.rdiv (σ := σ) (repQ_iff.mp hH) h0 1
  exact ⟨z, hz, repQ_iff.mpr (hr.congr rfl fun k => by rw [ex_neg]; norm_num)⟩

/-- **C115** the Hubble distance is `c/h`, a length. -/
theorem C115_hubble_distance (hH : Is H0 h 0 0 (-1)) (h0 : h ≠ 0) : ∃ r, hubbleDistance σ c H0 = .ok r ∧ Is r (c.c / h) 1 0 0 := by
  obtain ⟨w, hw, hc⟩ := rep_c σ c
  obtain ⟨z, hz, hr⟩ := RepQ.unitDiv (σ := σ) hc (repQ_iff.mp hH) h0
  exact ⟨z, by simp [hubbleDistance, hw, hz, bind, Except.bind], repQ_iff.mpr (hr.congr rfl fun k => by rw [ex_sub]; norm_num)⟩

/-- **C115** the Hubble volume is `(c/h)^3`, a volume. -/
theorem C115_hubble_volume (hc0 : c.c ≠ 0) (hH : Is H0 h 0 0 (-1)) (h0 : h ≠ 0) : ∃ r, hubbleVolume σ c H0 = .ok r ∧ Is r ((c.c / h) ^ 3) 3 0 0 := by
  obtain ⟨w, hw, hc⟩ := C115_hubble_distance σ c H0 h hH h0
  obtain ⟨z, hz, hr⟩ := RepQ.pow (repQ_iff.mp hc) (div_ne_zero hc0 h0) 3
  have hz' : w.pow 3 = .ok z := by simpa using hz
  exact ⟨z, by simp [hubbleVolume, hw, hz', bind, Except.bind], repQ_iff.mpr (hr.congr (by norm_cast) fun k => by rw [ex_mul]; norm_num)⟩

/-- **C115** the critical density today is `3 h^2 / (8 π G)`, a density. -/
theorem C115_critical_density0 (hG : c.G ≠ 0) (hH : Is H0 h 0 0 (-1)) (h0 : h ≠ 0) :
    ∃ r, criticalDensity0 σ c H0 = .ok r ∧ Is r (3 * h ^ 2 / (8 * Real.pi * c.G)) (-3) 1 0 := by
  obtain ⟨w, hw, hc⟩ := rep_G σ c
  obtain ⟨k, hk, hc2⟩ := (hc.mulReal (8 * Real.pi)).rdivReal 3 (by have := Real.pi_ne_zero; simp [hG, this])
  obtain ⟨z, hz, hr⟩ := RepQ.pow (repQ_iff.mp hH) h0 2
  have hz' : H0.pow 2 = .ok z := by simpa using hz
  refine ⟨unitMul σ k z, by simp [criticalDensity0, criticalConst, hw, hk, hz', bind, Except.bind, pure, Except.pure],
    repQ_iff.mpr ((RepQ.unitMul hc2 hr).congr ?_ fun k => ?_)⟩
  · rw [show (2 : ℤ) = ((2 : ℕ) : ℤ) from rfl, zpow_natCast]; ring
  · rw [ex_neg, ex_mul, ex_add]; norm_num

/-- **C115** `H(z)` is `h E(z)`, of the dimension of `H0`. -/
theorem C115_H (hH : Is H0 h 0 0 (-1)) (E : Num) : Is (H σ H0 E) (h * E.val) 0 0 (-1) :=
  repQ_iff.mpr ((repQ_iff.mp hH).mulNum E)

/-- **C115** the critical density at `z` is `3 H(z)^2 / (8 π G)`, where `E(z)^2` is `e2func(z)`. -/
theorem C115_critical_density (hG : c.G ≠ 0) (hH : Is H0 h 0 0 (-1)) (h0 : h ≠ 0) (E E2 : Num) (hE : E2.val = E.val ^ 2) :
    ∃ r, criticalDensity σ c H0 E2 = .ok r ∧ Is r (3 * (H σ H0 E).si ^ 2 / (8 * Real.pi * c.G)) (-3) 1 0 := by
  obtain ⟨z, hz, hr⟩ := C115_critical_density0 σ c H0 h hG hH h0
  refine ⟨z.mulNum σ E2, by simp [criticalDensity, hz, bind, Except.bind, pure, Except.pure], repQ_iff.mpr (((repQ_iff.mp hr).mulNum E2).congr ?_ fun k => rfl)⟩
  rw [(C115_H σ H0 h hH E).si, hE]; ring

/-- What a method should return, in SI units and dimensions of length and time, if its dimensionless counterpart is `d`. -/
noncomputable def Method.expected (cl h d : ℝ) : Method → ℝ × ℤ × ℤ
  | .lookbackTime => (d / h, 0, 1)
  | .age => (d / h, 0, 1)
  | .differentialComovingVolume => (d * (cl / h) ^ 3, 3, 0)
  | .comovingVolume => (d * (cl / h) ^ 3, 3, 0)
  | .lookbackDistance => (d * cl / h, 1, 0)
  | .comovingDistance => (d * cl / h, 1, 0)
  | .comovingDistanceZ1Z2 => (d * cl / h, 1, 0)
  | .comovingTransverseDistance => (d * cl / h, 1, 0)
  | .comovingTransverseDistanceZ1Z2 => (d * cl / h, 1, 0)
  | .angularDiameterDistance => (d * cl / h, 1, 0)
  | .angularDiameterDistanceZ1Z2 => (d * cl / h, 1, 0)
  | .luminosityDistance => (d * cl / h, 1, 0)

/-- **C115** every time, distance and volume is its dimensionless counterpart times the Hubble time, distance or volume, with the right dimension,
whatever the unit of `H0` and whether or not `H0` and the redshift are tensors. -/
theorem C115_methods (hc0 : c.c ≠ 0) (hH : Is H0 h 0 0 (-1)) (h0 : h ≠ 0) (d : Num) (m : Method) :
    ∃ r, m.run σ c H0 d = .ok r ∧ Is r (m.expected c.c h d.val).1 (m.expected c.c h d.val).2.1 0 (m.expected c.c h d.val).2.2 := by
  obtain ⟨t, ht, rt⟩ := C115_hubble_time σ H0 h hH h0
  obtain ⟨l, hl, rl⟩ := C115_hubble_distance σ c H0 h hH h0
  obtain ⟨v, hv, rv⟩ := C115_hubble_volume σ c H0 h hc0 hH h0
  obtain ⟨s, hs, rs⟩ := rep_steradian
  obtain ⟨w, hw, rw'⟩ := RepQ.divUnit (σ := σ) rs (repQ_iff.mp rv) one_ne_zero
  have rt' : Is (t.mulNum σ d) (d.val / h) 0 0 1 := repQ_iff.mpr (((repQ_iff.mp rt).mulNum d).congr (by ring) fun k => rfl)
  have rl' : Is (l.mulNum σ d) (d.val * c.c / h) 1 0 0 := repQ_iff.mpr (((repQ_iff.mp rl).mulNum d).congr (by ring) fun k => rfl)
  have rv' : Is (v.mulNum σ d) (d.val * (c.c / h) ^ 3) 3 0 0 := repQ_iff.mpr (((repQ_iff.mp rv).mulNum d).congr (by ring) fun k => rfl)
  have rw'' : Is (w.mulNum σ d) (d.val * (c.c / h) ^ 3) 3 0 0 := repQ_iff.mpr ((rw'.mulNum d).congr (by ring) fun k => by simp)
  cases m
  case lookbackTime | age => exact ⟨t.mulNum σ d, by simp [Method.run, ht, bind, Except.bind, pure, Except.pure], rt'⟩
  case differentialComovingVolume => exact ⟨w.mulNum σ d, by simp [Method.run, hv, hs, hw, bind, Except.bind, pure, Except.pure], rw''⟩
  case comovingVolume => exact ⟨v.mulNum σ d, by simp [Method.run, hv, bind, Except.bind, pure, Except.pure], rv'⟩
  all_goals exact ⟨l.mulNum σ d, by simp [Method.run, hl, bind, Except.bind, pure, Except.pure], rl'⟩

/-- **C115** the Hubble distance in units of 10 pc is the number `(c/h) / (10 pc)`, where the parsec is `AU / arcsec` = 149597870700 · 648000/π metres. -/
theorem C115_in_10pc (hH : Is H0 h 0 0 (-1)) (h0 : h ≠ 0) :
    hubbleDistanceIn10pc σ c H0 = .ok ((c.c / h) / (10 * (149597870700 * 648000 / Real.pi))) := by
  obtain ⟨l, hl, rl⟩ := C115_hubble_distance σ c H0 h hH h0
  obtain ⟨p, hp, rp⟩ := rep_pc σ
  obtain ⟨z, hz, hv⟩ := RepQ.to_value (repQ_iff.mp rl) (rp.mulReal 10) (mul_ne_zero parsec_pos.ne' (by norm_num)) fun k => rfl
  simp only [hubbleDistanceIn10pc, hl, hp, hz, bind, Except.bind, pure, Except.pure, hv]
  rw [mul_comm parsec]; rfl

/-- **C115** if `H0` does not have the dimension 1/time, this raises `TypeError`. -/
theorem C115_in_10pc_raises (hH : ∃ l m t e, Is H0 h l m t e ∧ (l, m, t, e) ≠ (0, 0, -1, 0)) (h0 : h ≠ 0) :
    hubbleDistanceIn10pc σ c H0 = .error .typeError := by
  obtain ⟨l, m, t, e, hI, hne⟩ := hH
  obtain ⟨w, hw, hc⟩ := rep_c σ c
  obtain ⟨z, hz, hr⟩ := RepQ.unitDiv (σ := σ) hc (repQ_iff.mp hI) h0
  obtain ⟨p, hp, rp⟩ := rep_pc σ
  have rp' := rp.mulReal 10
  have hd : hubbleDistance σ c H0 = .ok z := by simp [hubbleDistance, hw, hz, bind, Except.bind]
  have hdim : ¬ ∀ k, z.getUnit.exp k = (p.mulReal 10).exp k := by
    intro hall
    apply hne
    have hL := hall "L"; have hM := hall "M"; have hT := hall "T"; have hHH := hall "H"
    rw [hr.exp, rp'.exp] at hL hM hT hHH
    simp only [ex] at hL hM hT hHH
    norm_cast at hL hM hT hHH
    simp at hL hM hT hHH
    simp [hL, hM, hHH]
    omega
  have hto : z.to (p.mulReal 10) = .error .typeError := by
    cases z with
    | unit u =>
      have := (Units.C04_to_typeError_iff u (p.mulReal 10) hr.wf rp'.wf).mpr (by simpa [GQ.getUnit, not_forall] using hdim)
      simp [GQ.to, this, bind, Except.bind]
    | quant v u =>
      have := (Units.C04_to_typeError_iff u (p.mulReal 10) hr.wf rp'.wf).mpr (by simpa [GQ.getUnit, not_forall] using hdim)
      simp only [GQ.to]
      split_ifs with he
      · exact absurd ((Units.C05_eq_iff u _ hr.wf rp'.wf).mp he).2 hdim
      · simp [this, bind, Except.bind]
  simp [hubbleDistanceIn10pc, hd, hp, hto, bind, Except.bind]

end

theorem rep_Hunit : RepU Hunit 1 (ex 0 0 0 1) := by
  have h := rep_base "H"
  refine ⟨h.wf, h.val, fun k => (h.exp k).trans ?_⟩
  unfold ex; split_ifs <;> simp_all

/-- `x / W` where `W` has positive value `y`, exponent of `H` equal to that of `x`, and no other dimension. -/
theorem div_H (σ : SetOrder) (x : GQ) (hx : x.getUnit.WF) (W : Unit) (hW : W.WF) (y : ℝ) (hy : 0 < y) (hv : W.value = y) (hH : W.exp "H" = x.getUnit.exp "H")
    (hO : ∀ k, k ≠ "H" → W.exp k = 0) :
    ∃ r, GQ.div σ x (.unit W) = .ok r ∧ r.si = x.si / y ∧ r.getUnit.exp "H" = 0 ∧ ∀ k, k ≠ "H" → r.getUnit.exp k = x.getUnit.exp k := by
  have hW0 : W.value ≠ 0 := by rw [hv]; exact hy.ne'
  have hneg : ∀ k, Units.dget (Units.dpow W.dims (-1)) k = - W.exp k := fun k => by
    have := Units.dget_dpow_int (Units.wf_iff.mp hW) (-1) k
    rw [show ((-1 : ℤ) : ℚ) = -1 by norm_num] at this
    rw [this]; unfold Units.Unit.exp; ring
  have hinv : ∀ k, Units.dget (Units.dinv W.dims) k = - W.exp k := fun k => Units.dget_dinv (Units.wf_iff.mp hW) k
  have hden : ∀ k, (x.getUnit.exp k).den ≤ Units.maxDen := fun k => Units.dget_den_le (Units.wf_iff.mp hx) k
  have hpow : W.pow (-1) = .ok ⟨Units.dpow W.dims (-1), W.value⁻¹⟩ := by
    have := Units.pow_eq_of_int hW0 (-1)
    rw [show ((-1 : ℤ) : ℚ) = -1 by norm_num] at this
    rw [this, zpow_neg_one]
  have key : ∀ (d : Units.Dict), (∀ k, Units.dget d k = - W.exp k) → ∀ u : Unit, u = x.getUnit →
      Units.dget (Units.dmul σ u.dims d) "H" = 0 ∧ ∀ k, k ≠ "H" → Units.dget (Units.dmul σ u.dims d) k = x.getUnit.exp k := by
    rintro d hd u rfl
    refine ⟨?_, fun k hk => ?_⟩
    · rw [Units.dget_dmul, hd, hH]
      unfold Units.Unit.exp
      rw [add_neg_cancel, Units.limDen_zero]
    · rw [Units.dget_dmul, hd, hO k hk, neg_zero, add_zero]
      exact Units.limDen_of_le (hden k)
  cases x with
  | unit u =>
    obtain ⟨k1, k2⟩ := key _ hneg u rfl
    refine ⟨.unit (u.mul σ ⟨Units.dpow W.dims (-1), W.value⁻¹⟩), ?_, ?_, k1, k2⟩
    · simp [GQ.div, unitDiv, GQ.pow, hpow, unitMul, bind, Except.bind, pure, Except.pure]
    · simp only [GQ.si, Units.Unit.mul, hv]; ring
  | quant v u =>
    obtain ⟨k1, k2⟩ := key _ hinv u rfl
    refine ⟨.quant v (u.mul σ ⟨Units.dinv W.dims, 1 / W.value⟩), ?_, ?_, k1, k2⟩
    · simp only [GQ.div, GQ.divUnit, Units.inv_eq hW0, bind, Except.bind, pure, Except.pure]
    · simp only [GQ.si, Units.Unit.mul, hv]; ring

/-- **C115** with `H0` a bare unit, `eval_hunit` replaces the pseudo-dimension `H` (to any rational power) by the value of `H0` in km/s/Mpc, and
keeps the other dimensions. Missing: `H0` a quantity (see `C115_eval_hunit_quantity`). -/
theorem C115_eval_hunit_partial (σ : SetOrder) (h : ℝ) (u : Unit) (hH : Is (.unit u) h 0 0 (-1)) (h0 : 0 < h) (x : GQ) (hx : x.getUnit.WF) :
    ∃ r, evalHunit σ (.unit u) x = .ok r ∧ r.si = x.si * (h / (10 ^ 3 / (10 ^ 6 * parsec))) ^ ((x.getUnit.exp "H" : ℚ) : ℝ) ∧
      r.getUnit.exp "H" = 0 ∧ ∀ k, k ≠ "H" → r.getUnit.exp k = x.getUnit.exp k := by
  obtain ⟨w, hw, rw'⟩ := rep_kms σ
  have hy : 0 < h / kmsMpcSI := div_pos h0 kmsMpcSI_pos
  have hto := RepU.to (repQ_unit.mp (repQ_iff.mp hH)) rw' kmsMpcSI_pos.ne' fun k => rfl
  obtain ⟨z, hz, rz⟩ := rep_Hunit.divReal (h / kmsMpcSI) hy.ne'
  have hzv : 0 < z.value := by rw [rz.val]; positivity
  have hp := Units.pow_eq_of_pos hzv (x.getUnit.exp "H")
  have hdget : ∀ k, Units.dget (Units.dpow z.dims (x.getUnit.exp "H")) k = if k = "H" then x.getUnit.exp "H" else 0 := fun k => by
    rw [Units.dget_dpow (Units.wf_iff.mp rz.wf)]
    have e := rz.exp k
    unfold Units.Unit.exp at e
    rw [e]
    unfold ex
    by_cases hk : k = "H"
    · subst hk
      simp only [if_true]
      norm_num
      exact Units.limDen_of_le (Units.dget_den_le (Units.wf_iff.mp hx) _)
    · rw [if_neg hk]; split_ifs <;> simp
  obtain ⟨r, hr, h1, h2, h3⟩ := div_H σ x hx ⟨Units.dpow z.dims (x.getUnit.exp "H"), z.value ^ ((x.getUnit.exp "H" : ℚ) : ℝ)⟩ (Units.wf_dpow _ _ _) _
    (Real.rpow_pos_of_pos hzv _) rfl (by rw [Units.Unit.exp, hdget]; simp) (fun k hk => by rw [Units.Unit.exp, hdget, if_neg hk])
  refine ⟨r, ?_, ?_, h2, h3⟩
  · have hp' : z.pow (Units.dget x.getUnit.dims "H") = .ok ⟨Units.dpow z.dims (x.getUnit.exp "H"), z.value ^ ((x.getUnit.exp "H" : ℚ) : ℝ)⟩ := hp
    simp only [evalHunit, GQ.to, hw, hto, hz, GQ.pow, hp', bind, Except.bind, pure, Except.pure]
    exact hr
  · rw [h1, rz.val, one_div, Real.inv_rpow hy.le, div_inv_eq_mul]
    rfl

theorem to_inr {v : ℝ} {u w : Unit} {x y : ℝ} {a b : String → ℤ} (h : RepQ (.quant v u) x a) (hw : RepU w y b) (hy : y ≠ 0) (hab : ∀ k, a k = b k) :
    ∃ v' u', (GQ.quant v u).to w = .ok (.inr (v', u')) ∧ RepQ (.quant v' u') x a := by
  obtain ⟨h1, h2⟩ := repQ_quant.mp h
  simp only [GQ.to]
  split_ifs with he
  · exact ⟨v, u, rfl, h⟩
  · have := RepU.to h1 hw hy hab
    refine ⟨v * (u.value / y), w, by simp [this, bind, Except.bind, pure, Except.pure], hw.wf, ?_, fun k => (hw.exp k).trans (by rw [hab])⟩
    simp only [GQ.si, hw.val]
    rw [← h2]; field_simp

theorem RepQ.div {g g' : GQ} {x y : ℝ} {a b : String → ℤ} {σ : SetOrder} (h : RepQ g x a) (h' : RepQ g' y b) (hy : y ≠ 0) :
    ∃ z, GQ.div σ g g' = .ok z ∧ RepQ z (x / y) (fun k => a k - b k) := by
  cases g with
  | unit u => exact RepQ.unitDiv (repQ_unit.mp h) h' hy
  | quant v u =>
    cases g' with
    | unit w => exact RepQ.divUnit (repQ_unit.mp h') h hy
    | quant v' w =>
      obtain ⟨h1, h2⟩ := repQ_quant.mp h
      obtain ⟨h3, h4⟩ := repQ_quant.mp h'
      have hw : w.value ≠ 0 := by rintro h0; rw [h0, mul_zero] at h4; exact hy h4.symm
      have hv : v' ≠ 0 := by rintro h0; rw [h0, zero_mul] at h4; exact hy h4.symm
      obtain ⟨z, hz, rz⟩ := h1.div (σ := σ) h3 hw
      refine ⟨.quant (v / v') z, by simp only [GQ.div, hz, bind, Except.bind, pure, Except.pure], rz.wf, ?_, rz.exp⟩
      simp only [GQ.si]
      rw [rz.val, ← h2, ← h4]; field_simp

/-- **C115** with `H0` a quantity, the result of `eval_hunit` has a spurious dimension: time to the power minus the exponent of `H`. (Integer exponents.) -/
theorem C115_eval_hunit_quantity (σ : SetOrder) (h v : ℝ) (u : Unit) (hH : Is (.quant v u) h 0 0 (-1)) (h0 : h ≠ 0) (x : GQ) (y : ℝ) (l m t e : ℤ)
    (hx : Is x y l m t e) : ∃ r, evalHunit σ (.quant v u) x = .ok r ∧ Is r (y * h ^ e) l m (t - e) 0 := by
  obtain ⟨w, hw, rw'⟩ := rep_kms σ
  obtain ⟨v', u', hto, r1⟩ := to_inr (repQ_iff.mp hH) rw' kmsMpcSI_pos.ne' fun k => rfl
  obtain ⟨z, hz, r2⟩ := RepQ.unitDiv (σ := σ) rep_Hunit r1 h0
  obtain ⟨p, hp, r3⟩ := RepQ.pow r2 (div_ne_zero one_ne_zero h0) e
  obtain ⟨r, hr, r4⟩ := RepQ.div (σ := σ) (repQ_iff.mp hx) r3 (zpow_ne_zero _ (div_ne_zero one_ne_zero h0))
  have he : Units.dget x.getUnit.dims "H" = (e : ℚ) := hx.hub
  refine ⟨r, ?_, repQ_iff.mpr (r4.congr ?_ fun k => ?_)⟩
  · simp only [evalHunit, hw, hto, hz, he, hp, hr, bind, Except.bind]
  · rw [one_div, inv_zpow, div_inv_eq_mul]
  · rw [ex_sub, ex_mul, ex_sub]; norm_num

/-- The default `H0`, 100 km/s/Mpc, meets the hypotheses, as a unit and as a quantity in km/s/Mpc. -/
theorem H100_is (σ : SetOrder) : ∃ u, H100 σ = .ok u ∧ Is (.unit u) (100 * kmsMpcSI) 0 0 (-1) := by
  obtain ⟨s, hs, h⟩ := rep_Mpc σ
  obtain ⟨v, hv, h2⟩ := ((rep_L.mulReal (10 ^ 3)).mulReal 100).div (σ := σ) rep_T one_ne_zero
  obtain ⟨u, hu, h3⟩ := h2.div (σ := σ) h (mul_pos (by norm_num) parsec_pos).ne'
  refine ⟨u, by simp [H100, km, hs, hv, hu, bind, Except.bind], repQ_iff.mpr (repQ_unit.mpr (RepU.congr h3 ?_ fun k => ?_))⟩
  · unfold kmsMpcSI; ring
  · rw [ex_sub, ex_sub]; norm_num

/-- The constants of CODATA 2018, for the concrete cases below. -/
noncomputable def vals2018 : Vals :=
  ⟨299792458, 6.62607015e-34, 1.380649e-23, 6.02214076e23, 1.602176634e-19, 101325, 9.80665,
    7.2973525693e-3, 6.67430e-11, 1.67262192369e-27, 1.67492749804e-27, 9.1093837015e-31, 1.66053906660e-27⟩

theorem h100_ne : 100 * kmsMpcSI ≠ 0 := (mul_pos (by norm_num) kmsMpcSI_pos).ne'

/-- The theorems about `H0` applied to the default `H0 = H100` of the module: `C115_hubble_time`, `C115_hubble_distance`,
`C115_hubble_volume`, `C115_critical_density0`, `C115_H`, `C115_critical_density`, `C115_methods`, `C115_in_10pc`. -/
example (σ : SetOrder) (d : Num) (m : Method) : ∃ u, H100 σ = .ok u ∧
    (∃ r, hubbleTime σ (.unit u) = .ok r ∧ Is r (1 / (100 * kmsMpcSI)) 0 0 1) ∧
    (∃ r, hubbleDistance σ vals2018 (.unit u) = .ok r ∧ Is r (299792458 / (100 * kmsMpcSI)) 1 0 0) ∧
    (∃ r, hubbleVolume σ vals2018 (.unit u) = .ok r ∧ Is r ((299792458 / (100 * kmsMpcSI)) ^ 3) 3 0 0) ∧
    (∃ r, criticalDensity0 σ vals2018 (.unit u) = .ok r ∧
      Is r (3 * (100 * kmsMpcSI) ^ 2 / (8 * Real.pi * 6.67430e-11)) (-3) 1 0) ∧
    Is (H σ (.unit u) (.py 2)) (100 * kmsMpcSI * 2) 0 0 (-1) ∧
    (∃ r, criticalDensity σ vals2018 (.unit u) (.tensor 4) = .ok r ∧
      Is r (3 * (H σ (.unit u) (.py 2)).si ^ 2 / (8 * Real.pi * 6.67430e-11)) (-3) 1 0) ∧
    (∃ r, m.run σ vals2018 (.unit u) d = .ok r) ∧
    hubbleDistanceIn10pc σ vals2018 (.unit u) =
      .ok ((299792458 / (100 * kmsMpcSI)) / (10 * (149597870700 * 648000 / Real.pi))) := by
  obtain ⟨u, hu, hH⟩ := H100_is σ
  exact ⟨u, hu, C115_hubble_time _ _ _ hH h100_ne, C115_hubble_distance _ vals2018 _ _ hH h100_ne,
    C115_hubble_volume _ vals2018 _ _ (by norm_num [vals2018]) hH h100_ne,
    C115_critical_density0 _ vals2018 _ _ (by norm_num [vals2018]) hH h100_ne, C115_H _ _ _ hH _,
    C115_critical_density _ vals2018 _ _ (by norm_num [vals2018]) hH h100_ne (.py 2) (.tensor 4) (by norm_num [Num.val]),
    (C115_methods _ vals2018 _ _ (by norm_num [vals2018]) hH h100_ne d m).imp fun _ h => h.1,
    C115_in_10pc _ vals2018 _ _ hH h100_ne⟩

/-- `C115_in_10pc_raises`: `H0` given as a length, 70 Mpc. -/
example (σ : SetOrder) : ∃ u, Mpc σ = .ok u ∧ hubbleDistanceIn10pc σ vals2018 (.quant 70 u) = .error .typeError := by
  obtain ⟨u, hu, r⟩ := rep_Mpc σ
  have hi : Is (.quant 70 u) (70 * u.value) 1 0 0 := repQ_iff.mpr (repQ_quant.mpr ⟨⟨r.wf, rfl, r.exp⟩, rfl⟩)
  refine ⟨u, hu, C115_in_10pc_raises _ vals2018 _ _ ⟨1, 0, 0, 0, hi, by decide⟩ ?_⟩
  rw [r.val]
  exact (mul_pos (by norm_num) (mul_pos (by norm_num) parsec_pos)).ne'

example (σ : SetOrder) : ∃ w, kmsMpc σ = .ok w ∧ Is (.quant 70 w) (70 * kmsMpcSI) 0 0 (-1) := by
  obtain ⟨w, hw, r⟩ := rep_kms σ
  exact ⟨w, hw, repQ_iff.mpr (repQ_quant.mpr ⟨⟨r.wf, rfl, r.exp⟩, by rw [r.val]⟩)⟩

/-- `1 Mpc / h` in the default cosmology is 1 Mpc; with `H0 = Quantity(70 km/s/Mpc)` it comes out as a length times a time. -/
theorem C115_eval_hunit_example (σ : SetOrder) : ∃ u k x, H100 σ = .ok u ∧ kmsMpc σ = .ok k ∧ (do (← Mpc σ).div σ (← h100)) = .ok x ∧
    (∃ r, evalHunit σ (.unit u) (.unit x) = .ok r ∧ r.si = 10 ^ 6 * parsec ∧ r.getUnit.exp "L" = 1 ∧ r.getUnit.exp "T" = 0) ∧
    (∃ r, evalHunit σ (.quant 70 k) (.unit x) = .ok r ∧ r.getUnit.exp "L" = 1 ∧ r.getUnit.exp "T" = 1) := by
  obtain ⟨u, hu, ru⟩ := H100_is σ
  obtain ⟨k, hk, rk⟩ := rep_kms σ
  obtain ⟨M, hM, rM⟩ := rep_Mpc σ
  obtain ⟨hh, hhh, rh⟩ := rep_Hunit.divReal 100 (by norm_num)
  obtain ⟨x, hx, rx⟩ := rM.div (σ := σ) rh (by norm_num)
  have rx' : Is (.unit x) (10 ^ 6 * parsec * 100) 1 0 0 (-1) :=
    repQ_iff.mpr ((repQ_unit.mpr rx).congr (by ring) fun k => by rw [ex_sub]; norm_num)
  refine ⟨u, k, x, hu, hk, by simp [hM, h100, hhh, hx, bind, Except.bind], ?_, ?_⟩
  · obtain ⟨r, hr, h1, -, h3⟩ := C115_eval_hunit_partial σ _ u ru (mul_pos (by norm_num) kmsMpcSI_pos) (.unit x) rx'.wf
    refine ⟨r, hr, ?_, by rw [h3 _ (by decide), rx'.len]; norm_num, by rw [h3 _ (by decide), rx'.time]; norm_num⟩
    rw [h1, rx'.hub, rx'.si]
    have : 100 * kmsMpcSI / (10 ^ 3 / (10 ^ 6 * parsec)) = 100 := mul_div_cancel_right₀ _ kmsMpcSI_pos.ne'
    rw [this]
    norm_num [Real.rpow_neg_one]
    ring
  · obtain ⟨r, hr, h1⟩ := C115_eval_hunit_quantity σ (70 * kmsMpcSI) 70 k
      (repQ_iff.mpr (repQ_quant.mpr ⟨⟨rk.wf, rfl, rk.exp⟩, by rw [rk.val]⟩)) (mul_pos (by norm_num) kmsMpcSI_pos).ne' (.unit x) _ _ _ _ _ rx'
    exact ⟨r, hr, by rw [h1.len]; norm_num, by rw [h1.time]; norm_num⟩

end Verif.Cosmo.Dimful

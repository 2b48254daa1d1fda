import Verif.Quant.FloatModel
import Verif.Units.NumProps
import Verif.Quant.Props

/-! # C157: quantities in floating point -/

namespace Verif.Quant

open Verif.Units (NUnit SetOrder dictEq Plat Num Within)
open Verif.Round

variable {ι : Type} {p : ℕ} {fl : ℝ → ℝ}

/-! ### Roundings -/

theorem of_within (hp : 1 ≤ p) (hp' : p ≤ 53) {K : ℕ} {t : ℝ} (h : Within K t) : NearOne p K t := by
  have h1 : (1 : ℝ) - (2 ^ p)⁻¹ ≤ 1 - (2 ^ 53)⁻¹ := by
    have : ((2 : ℝ) ^ 53)⁻¹ ≤ (2 ^ p)⁻¹ := inv_anti₀ (by positivity) (pow_le_pow_right₀ (by norm_num) hp')
    linarith
  have h2 := pow_le_pow_left₀ (unit_pos hp).le h1 K
  exact ⟨h2.trans h.1, (mul_le_mul_of_nonneg_left h2 h.pos.le).trans h.2⟩

/-! ### Conversion -/

variable (P : Plat)

theorem dictEq_self {u : NUnit} (hu : u.toUnit.WF) : dictEq u.dims u.dims = true :=
  (Units.dictEq_iff (Units.wf_iff.mp hu) (Units.wf_iff.mp hu)).mpr fun _ => rfl

theorem eq_self {u : NUnit} (hu : u.toUnit.WF) : u.eq u = true := by
  simp [NUnit.eq, dictEq_self hu]

/-- **C157** converting to its own unit (or an equal one) returns the quantity itself. -/
theorem C157_same_unit (q : FQ ι) (u : NUnit) (h : q.unit.eq u = true) : q.to P fl u = .ok q := by
  simp [FQ.to, h]

/-- **C157** a conversion fails exactly if the dimensions differ or the unit has the value 0 (and the other has not). -/
theorem C157_to_raises (q : FQ ι) (u : NUnit) (hq : q.unit.toUnit.WF) (hu : u.toUnit.WF) :
    (q.to P fl u = .error .typeError ↔ ∃ k, q.unit.toUnit.exp k ≠ u.toUnit.exp k) ∧
    (q.to P fl u = .error .zeroDivision ↔
      (∀ k, q.unit.toUnit.exp k = u.toUnit.exp k) ∧ u.value.val = 0 ∧ q.unit.value.val ≠ 0) := by
  have hd : dictEq q.unit.dims u.dims = true ↔ ∀ k, q.unit.toUnit.exp k = u.toUnit.exp k :=
    Units.dictEq_iff (Units.wf_iff.mp hq) (Units.wf_iff.mp hu)
  obtain ⟨t1, t2, -⟩ := Units.C154_to_partial P q.unit u hq hu
  by_cases he : q.unit.eq u = true
  · rw [C157_same_unit P q u he]
    simp only [NUnit.eq, Bool.and_eq_true, decide_eq_true_eq] at he
    refine ⟨⟨(fun h => by cases h), fun ⟨k, hk⟩ => absurd (hd.mp he.2 k) hk⟩, ⟨(fun h => by cases h), fun ⟨_, h0, h1⟩ => ?_⟩⟩
    exact absurd (he.1.trans h0) h1
  · have e : ∀ err, q.to P fl u = .error err ↔ q.unit.to P u = .error err := fun err => by
      unfold FQ.to
      rw [if_neg he]
      cases h : q.unit.to P u <;> simp [bind, Except.bind, pure, Except.pure]
    rw [e, e, t1, t2]
    refine ⟨Iff.rfl, ⟨fun ⟨h1, h2⟩ => ⟨h1, h2, fun h3 => he ?_⟩, fun ⟨h1, h2, _⟩ => ⟨h1, h2⟩⟩⟩
    simp [NUnit.eq, h2, h3, hd.mpr h1]

/-- What a conversion computes: multiplication by one factor, the ratio of the units up to rounding. -/
theorem to_factor (h : Nearest p fl) (hp : 1 ≤ p) (hp' : p ≤ 53) (q : FQ ι) (u : NUnit) (hq : q.unit.toUnit.WF) (hu : u.toUnit.WF)
    (hdim : ∀ k, q.unit.toUnit.exp k = u.toUnit.exp k) (h0 : u.value.val ≠ 0) :
    ∃ r, q.to P fl u = .ok r ∧ r.unit.toUnit.WF ∧ r.unit.value.val = u.value.val ∧ (∀ k, r.unit.toUnit.exp k = u.toUnit.exp k) ∧
      (r = q ∨ ∃ f t, NearOne p 5 t ∧ (q.unit.value.IsRat → u.value.IsRat → NearOne p 2 t) ∧
        f = q.unit.value.val / u.value.val * t ∧ ∀ i, r.value i = fl (q.value i * f)) := by
  by_cases he : q.unit.eq u = true
  · refine ⟨q, C157_same_unit P q u he, hq, ?_, hdim, .inl rfl⟩
    simp only [NUnit.eq, Bool.and_eq_true, decide_eq_true_eq] at he
    exact he.1
  · obtain ⟨-, -, t3⟩ := Units.C154_to_partial P q.unit u hq hu
    obtain ⟨f, t, e1, w, e2, e3⟩ := t3 hdim h0
    obtain ⟨t, w4, w1, e2⟩ : ∃ t, Within 4 t ∧ (q.unit.value.IsRat → u.value.IsRat → Within 1 t) ∧
        f = q.unit.value.val / u.value.val * t := by
      by_cases hr : q.unit.value.IsRat ∧ u.value.IsRat
      · obtain ⟨t', w', et'⟩ := Units.fl_within P (q.unit.value.val / u.value.val)
        exact ⟨t', w'.mono (by norm_num), fun _ _ => w', (e3 hr.1 hr.2).trans et'⟩
      · exact ⟨t, w, fun a b => absurd ⟨a, b⟩ hr, e2⟩
    obtain ⟨s, hs, es⟩ := near_fl h hp f
    refine ⟨⟨fun i => fl (q.value i * fl f), u⟩, ?_, hu, rfl, fun _ => rfl, .inr ⟨fl f, t * s, ?_, ?_, ?_, fun _ => rfl⟩⟩
    · simp [FQ.to, he, e1, bind, Except.bind, pure, Except.pure]
    · exact (of_within hp hp' w4).mul hp hs
    · exact fun r1 r2 => (of_within hp hp' (w1 r1 r2)).mul hp hs
    · rw [es, e2]; ring

/-- **C157** (partial: up to rounding).  A conversion keeps the measured value up to six roundings to the precision of the tensor,
three if the values of the units are integers or fractions. -/
theorem C157_convert_partial (h : Nearest p fl) (hp : 1 ≤ p) (hp' : p ≤ 53) (q : FQ ι) (u : NUnit) (hq : q.unit.toUnit.WF)
    (hu : u.toUnit.WF) (hdim : ∀ k, q.unit.toUnit.exp k = u.toUnit.exp k) (h0 : u.value.val ≠ 0) :
    ∃ r, q.to P fl u = .ok r ∧ r.unit.value.val = u.value.val ∧ (∀ k, r.unit.toUnit.exp k = u.toUnit.exp k) ∧
      ∀ i, ∃ t, NearOne p 6 t ∧ (q.unit.value.IsRat → u.value.IsRat → NearOne p 3 t) ∧ r.si i = q.si i * t := by
  obtain ⟨r, e, -, e1, e2, hr⟩ := to_factor P h hp hp' q u hq hu hdim h0
  refine ⟨r, e, e1, e2, fun i => ?_⟩
  rcases hr with rfl | ⟨f, t, n5, n2, ef, ev⟩
  · exact ⟨1, NearOne.one.mono hp (by norm_num), fun _ _ => NearOne.one.mono hp (by norm_num), by ring⟩
  · obtain ⟨s, hs, es⟩ := near_fl h hp (q.value i * f)
    refine ⟨t * s, n5.mul hp hs, fun a b => (n2 a b).mul hp hs, ?_⟩
    rw [FQ.si, FQ.si, ev, es, e1, ef]
    field_simp

/-- **C157** conversions keep the order, zeros and signs: with positive units, converted values are ordered as the original ones
(weakly: different values may become equal), and are zero or positive only where the original ones are. -/
theorem C157_order (h : Nearest p fl) (hp : 2 ≤ p) (hp' : p ≤ 53) (q : FQ ι) (u : NUnit) (hq : q.unit.toUnit.WF)
    (hu : u.toUnit.WF) (hdim : ∀ k, q.unit.toUnit.exp k = u.toUnit.exp k) (hqp : 0 < q.unit.value.val) (hup : 0 < u.value.val) :
    ∃ r, q.to P fl u = .ok r ∧ (∀ i j, q.value i ≤ q.value j → r.value i ≤ r.value j) ∧
      (∀ i, r.value i = 0 ↔ q.value i = 0) ∧ ∀ i, 0 < r.value i ↔ 0 < q.value i := by
  have hp1 : 1 ≤ p := by omega
  obtain ⟨r, e, -, e1, e2, hr⟩ := to_factor P h hp1 hp' q u hq hu hdim hup.ne'
  refine ⟨r, e, ?_⟩
  rcases hr with rfl | ⟨f, t, n5, -, ef, ev⟩
  · exact ⟨fun _ _ h => h, fun _ => Iff.rfl, fun _ => Iff.rfl⟩
  · have hf : 0 < f := ef ▸ mul_pos (div_pos hqp hup) (n5.pos hp1)
    refine ⟨fun i j hij => ?_, fun i => ?_, fun i => ?_⟩
    · rw [ev, ev]
      exact nearest_mono h (mul_le_mul_of_nonneg_right hij hf.le)
    · obtain ⟨s, hs, es⟩ := near_fl h hp1 (q.value i * f)
      rw [ev, es]
      simp [hf.ne', (hs.pos hp1).ne']
    · obtain ⟨s, hs, es⟩ := near_fl h hp1 (q.value i * f)
      rw [ev, es, mul_pos_iff_of_pos_right (hs.pos hp1), mul_pos_iff_of_pos_right hf]

/-- **C157** (partial: up to rounding).  There and back: twelve roundings. -/
theorem C157_roundtrip_partial (h : Nearest p fl) (hp : 1 ≤ p) (hp' : p ≤ 53) (q : FQ ι) (u : NUnit) (hq : q.unit.toUnit.WF)
    (hu : u.toUnit.WF) (hdim : ∀ k, q.unit.toUnit.exp k = u.toUnit.exp k) (h0 : u.value.val ≠ 0) (hq0 : q.unit.value.val ≠ 0) :
    ∃ r r', q.to P fl u = .ok r ∧ r.to P fl q.unit = .ok r' ∧ ∀ i, ∃ t, NearOne p 12 t ∧ r'.value i = q.value i * t := by
  obtain ⟨r, e, hw, e1, e2, -⟩ := to_factor P h hp hp' q u hq hu hdim h0
  obtain ⟨r1, e', -, -, hr⟩ := C157_convert_partial P h hp hp' q u hq hu hdim h0
  obtain rfl : r = r1 := by simpa using e.symm.trans e'
  obtain ⟨r', e3, e4, -, hr'⟩ := C157_convert_partial P h hp hp' r q.unit hw hq (fun k => (e2 k).trans (hdim k).symm) hq0
  refine ⟨r, r', e, e3, fun i => ?_⟩
  obtain ⟨t, ht, -, et⟩ := hr i
  obtain ⟨s, hs, -, es⟩ := hr' i
  refine ⟨t * s, ht.mul hp hs, ?_⟩
  rw [et, FQ.si, FQ.si, e4] at es
  apply mul_right_cancel₀ hq0
  rw [es]; ring

/-! ### Comparison -/

/-- Comparing quantities of different dimensions raises `UnitError`, whatever the numbers. -/
theorem C157_compare_raises (R : ℝ → ℝ → Prop) (a b : FQ ι) (ha : a.unit.toUnit.WF) (hb : b.unit.toUnit.WF)
    (h : ∃ k, b.unit.toUnit.exp k ≠ a.unit.toUnit.exp k) : a.compare P fl R b = .error .unitError := by
  have h1 : dictEq b.unit.dims a.unit.dims = false := by
    rw [Bool.eq_false_iff]
    intro hd
    obtain ⟨k, hk⟩ := h
    exact hk ((Units.dictEq_iff (Units.wf_iff.mp hb) (Units.wf_iff.mp ha)).mp hd k)
  simp [FQ.compare, FQ.require, h1, dictEq_self ha, C157_same_unit P a a.unit (eq_self ha), liftErr, bind, Except.bind]

theorem compare_eq (R : ℝ → ℝ → Prop) (a b : FQ ι) (ha : a.unit.toUnit.WF) (hb : b.unit.toUnit.WF)
    (hdim : ∀ k, b.unit.toUnit.exp k = a.unit.toUnit.exp k) (r : FQ ι) (hr : b.to P fl a.unit = .ok r) :
    a.compare P fl R b = .ok fun i => R (a.value i) (r.value i) := by
  have h1 : dictEq b.unit.dims a.unit.dims = true := (Units.dictEq_iff (Units.wf_iff.mp hb) (Units.wf_iff.mp ha)).mpr hdim
  simp [FQ.compare, FQ.require, h1, dictEq_self ha, C157_same_unit P a a.unit (eq_self ha), hr, liftErr, bind, Except.bind,
    pure, Except.pure]

/-- **C157** (partial: up to rounding).  With positive units `<`, `<=`, `==`, ... compare the measured value of the first with that of
the second changed by at most six roundings (three if the values of the units are integers or fractions).  `R` is any
relation that does not change if both sides are multiplied by a positive number. -/
theorem C157_compare_partial (h : Nearest p fl) (hp : 1 ≤ p) (hp' : p ≤ 53) (R : ℝ → ℝ → Prop)
    (hR : ∀ c x y, 0 < c → (R (x * c) (y * c) ↔ R x y)) (a b : FQ ι) (ha : a.unit.toUnit.WF) (hb : b.unit.toUnit.WF)
    (hdim : ∀ k, b.unit.toUnit.exp k = a.unit.toUnit.exp k) (hap : 0 < a.unit.value.val) :
    ∃ r, a.compare P fl R b = .ok r ∧ ∀ i, ∃ t, NearOne p 6 t ∧ (b.unit.value.IsRat → a.unit.value.IsRat → NearOne p 3 t) ∧
      (r i ↔ R (a.si i) (b.si i * t)) := by
  obtain ⟨b', e, e1, -, hb'⟩ := C157_convert_partial P h hp hp' b a.unit hb ha hdim hap.ne'
  refine ⟨_, compare_eq P R a b ha hb hdim b' e, fun i => ?_⟩
  obtain ⟨t, ht, ht', et⟩ := hb' i
  refine ⟨t, ht, ht', ?_⟩
  rw [← et, FQ.si, FQ.si, e1, hR _ _ _ hap]

/-- **C157** for a fixed order of the operands exactly one of `a < b`, `a == b`, `a > b` holds at every index. -/
theorem C157_trichotomy (h : Nearest p fl) (hp : 1 ≤ p) (hp' : p ≤ 53) (a b : FQ ι) (ha : a.unit.toUnit.WF) (hb : b.unit.toUnit.WF)
    (hdim : ∀ k, b.unit.toUnit.exp k = a.unit.toUnit.exp k) (ha0 : a.unit.value.val ≠ 0) :
    ∃ lt eq gt, a.compare P fl (· < ·) b = .ok lt ∧ a.compare P fl (· = ·) b = .ok eq ∧ a.compare P fl (· > ·) b = .ok gt ∧
      ∀ i, (lt i ∨ eq i ∨ gt i) ∧ ¬ (lt i ∧ eq i) ∧ ¬ (lt i ∧ gt i) ∧ ¬ (eq i ∧ gt i) := by
  obtain ⟨r, e, -⟩ := C157_convert_partial P h hp hp' b a.unit hb ha hdim ha0
  refine ⟨_, _, _, compare_eq P _ a b ha hb hdim r e, compare_eq P _ a b ha hb hdim r e, compare_eq P _ a b ha hb hdim r e, fun i => ?_⟩
  refine ⟨lt_trichotomy _ _, fun h => ?_, fun h => ?_, fun h => ?_⟩
  · exact absurd h.2 h.1.ne
  · exact absurd h.2 h.1.asymm
  · exact absurd h.1 (ne_of_gt h.2)

/-- **C157** (partial: equal units).  In one unit comparisons are exact, so the order of the operands does not matter. -/
theorem C157_compare_swap_partial (R : ℝ → ℝ → Prop) (a b : FQ ι) (ha : a.unit.toUnit.WF) (hb : b.unit.toUnit.WF)
    (he : a.unit.eq b.unit = true) (he' : b.unit.eq a.unit = true) :
    a.compare P fl R b = .ok (fun i => R (a.value i) (b.value i)) ∧
      b.compare P fl (fun x y => R y x) a = a.compare P fl R b := by
  have hd : ∀ k, b.unit.toUnit.exp k = a.unit.toUnit.exp k := by
    simp only [NUnit.eq, Bool.and_eq_true] at he'
    exact (Units.dictEq_iff (Units.wf_iff.mp hb) (Units.wf_iff.mp ha)).mp he'.2
  have h1 := compare_eq P (fl := fl) R a b ha hb hd b (C157_same_unit P b a.unit he')
  refine ⟨h1, ?_⟩
  rw [h1, compare_eq P (fl := fl) (fun x y => R y x) b a hb ha (fun k => (hd k).symm) a (C157_same_unit P a b.unit he)]

/-! ### Addition -/

/-- The ratio of two units of the same dimensions, as `unit / unit2` computes it. -/
theorem ratio_spec (σ : SetOrder) (u v : NUnit) (hv : v.toUnit.WF) (hdim : ∀ k, u.toUnit.exp k = v.toUnit.exp k)
    (hup : 0 < u.value.val) (hvp : 0 < v.value.val) :
    ∃ w t, u.div P σ v = .ok w ∧ w.dims = [] ∧ Within 7 t ∧ w.value.val = u.value.val / v.value.val * t := by
  obtain ⟨w0, e0, hw0, -, ed⟩ := div_spec σ (u := u.toUnit) (v := v.toUnit) hup hv hvp
  have hnil : w0.dims = [] := (dims_nil_iff hw0).mpr fun k => by rw [ed, hdim, sub_self, limDen_zero]
  obtain ⟨c, t, hc, ht, et⟩ := Units.pow_within P v.value (-1) (fun h => hvp.ne' h.1)
  obtain ⟨r, hr, er⟩ := Units.mul_within P u.value c
  have h1 := Units.pow_eq_of_pos (u := v.toUnit) hvp (-1)
  refine ⟨u.mul P σ ⟨Units.dpow v.dims ((-1 : ℤ) : ℚ), c⟩, t * r, ?_, ?_, ht.mul hr, ?_⟩
  · simp [NUnit.div, NUnit.pow, hc, bind, Except.bind, pure, Except.pure]
  · simp only [Units.Unit.div, h1, bind, Except.bind, pure, Except.pure, Except.ok.injEq] at e0
    rw [← e0] at hnil
    simpa [NUnit.mul, Units.Unit.mul, NUnit.toUnit] using hnil
  · simp only [NUnit.mul, er, et, zpow_neg_one, div_eq_mul_inv]; ring

/-- What an addition or subtraction computes when the dimensions are the same: `a + c b` with `c` the ratio of the units, ten times
rounded. -/
theorem add_spec (h : Nearest p fl) (hp : 1 ≤ p) (hp' : p ≤ 53) (σ : SetOrder) (s : ℝ) (a b : FQ ι) (hb : b.unit.toUnit.WF)
    (hdim : ∀ k, a.unit.toUnit.exp k = b.unit.toUnit.exp k) (hap : 0 < a.unit.value.val) (hbp : 0 < b.unit.value.val) :
    ∃ c t, NearOne p 10 t ∧ c = b.unit.value.val / a.unit.value.val * t ∧
      ∀ r, FQ.Add P fl σ s a b r ↔
        ∃ v : ι → ℝ, (∀ i, AddKernel fl (s * c) (a.value i) (b.value i) (v i)) ∧ r = .ok ⟨v, a.unit⟩ := by
  obtain ⟨w, t, e, hd, ht, et⟩ := ratio_spec P σ a.unit b.unit hb hdim hap hbp
  have hq : 0 < a.unit.value.val / b.unit.value.val := div_pos hap hbp
  obtain ⟨t1, ht1, et1⟩ := Units.toFloat_within P w.value
  have hne : w.value.toFloat P ≠ 0 := by
    rw [et1, et]; exact mul_ne_zero (mul_ne_zero hq.ne' ht.pos.ne') ht1.pos.ne'
  by_cases hone : w.value.val = 1
  · obtain ⟨x, hx, ex⟩ := near_fl h hp 1
    refine ⟨fl 1, t⁻¹ * x, ((of_within hp hp' ht.inv).mul hp hx).mono hp (by norm_num), ?_, fun r => ?_⟩
    · rw [ex]
      rw [et] at hone
      have h1 : b.unit.value.val / a.unit.value.val = t := by
        rw [← inv_div, eq_inv_of_mul_eq_one_left hone, inv_inv]
      rw [h1, ← mul_assoc, mul_inv_cancel₀ ht.pos.ne']
    · simp [FQ.Add, e, hd, hone, hne]
  · obtain ⟨t2, ht2, et2⟩ := Units.fl_within P (1 / w.value.toFloat P)
    obtain ⟨x, hx, ex⟩ := near_fl h hp (P.fl (1 / w.value.toFloat P))
    refine ⟨fl (P.fl (1 / w.value.toFloat P)), ((t * t1)⁻¹ * t2) * x, ((of_within hp hp' ((ht.mul ht1).inv.mul ht2)).mul hp hx).mono hp (by norm_num), ?_,
      fun r => ?_⟩
    rotate_left
    · simp [FQ.Add, e, hd, hone, hne]
    · rw [ex, et2, et1, et]
      field_simp

/-- **C157** (partial: up to rounding).  `a + b` (`s = 1`) and `a - b` (`s = -1`), with positive units of the same dimensions, return
whatever torch computes with the unit of `a`; the measured value is the sum of that of `a` and that of `b` changed by
eleven roundings, rounded once. -/
theorem C157_add_partial (h : Nearest p fl) (hp : 1 ≤ p) (hp' : p ≤ 53) (σ : SetOrder) (s : ℝ) (a b : FQ ι) (hb : b.unit.toUnit.WF)
    (hdim : ∀ k, a.unit.toUnit.exp k = b.unit.toUnit.exp k) (hap : 0 < a.unit.value.val) (hbp : 0 < b.unit.value.val) :
    (∃ r, FQ.Add P fl σ s a b r) ∧ ∀ r, FQ.Add P fl σ s a b r → ∃ v, r = .ok ⟨v, a.unit⟩ ∧
      ∀ i, ∃ t x, NearOne p 11 t ∧ NearOne p 1 x ∧
        (⟨v, a.unit⟩ : FQ ι).si i = (a.si i + s * (b.si i * t)) * x := by
  obtain ⟨c, t, ht, ec, hadd⟩ := add_spec P h hp hp' σ s a b hb hdim hap hbp
  refine ⟨⟨_, (hadd _).mpr ⟨fun i => fl (a.value i + s * c * b.value i), fun i => .inr rfl, rfl⟩⟩, fun r hr => ?_⟩
  obtain ⟨v, hv, rfl⟩ := (hadd r).mp hr
  refine ⟨v, rfl, fun i => ?_⟩
  rcases hv i with e | e
  · obtain ⟨x, hx, ex⟩ := near_fl h hp (s * c * b.value i)
    obtain ⟨y, hy, ey⟩ := near_fl h hp (a.value i + fl (s * c * b.value i))
    refine ⟨t * x, y, ht.mul hp hx, hy, ?_⟩
    simp only [FQ.si, e]
    rw [ey, ex, ec]
    field_simp
  · obtain ⟨y, hy, ey⟩ := near_fl h hp (a.value i + s * c * b.value i)
    refine ⟨t, y, ht.mono hp (by norm_num), hy, ?_⟩
    simp only [FQ.si, e]
    rw [ey, ec]
    field_simp

/-- Adding quantities of different dimensions raises `UnitError`: stated for `unit / unit2` that is not dimensionless. -/
theorem C157_add_raises (σ : SetOrder) (s : ℝ) (a b : FQ ι) (hb : b.unit.toUnit.WF) (hap : 0 < a.unit.value.val)
    (hbp : 0 < b.unit.value.val) (h : ∃ k, Units.limDen (a.unit.toUnit.exp k - b.unit.toUnit.exp k) ≠ 0) (r : Except Err (FQ ι)) :
    FQ.Add P fl σ s a b r ↔ r = .error .unitError := by
  obtain ⟨w0, e0, hw0, -, ed⟩ := div_spec σ (u := a.unit.toUnit) (v := b.unit.toUnit) hap hb hbp
  obtain ⟨c, t, hc, ht, et⟩ := Units.pow_within P b.unit.value (-1) (fun h => hbp.ne' h.1)
  have h1 := Units.pow_eq_of_pos (u := b.unit.toUnit) hbp (-1)
  have e : a.unit.div P σ b.unit = .ok (a.unit.mul P σ ⟨Units.dpow b.unit.dims ((-1 : ℤ) : ℚ), c⟩) := by
    simp [NUnit.div, NUnit.pow, hc, bind, Except.bind, pure, Except.pure]
  have hd : (a.unit.mul P σ ⟨Units.dpow b.unit.dims ((-1 : ℤ) : ℚ), c⟩).dims = w0.dims := by
    simp only [Units.Unit.div, h1, bind, Except.bind, pure, Except.pure, Except.ok.injEq] at e0
    rw [← e0]
    simp [NUnit.mul, Units.Unit.mul, NUnit.toUnit]
  have hn : w0.dims ≠ [] := fun hz => by
    obtain ⟨k, hk⟩ := h
    exact hk (by rw [← ed]; exact (dims_nil_iff hw0).mp hz k)
  simp only [FQ.Add, e, hd]
  rw [if_pos hn]

/-! ### The laws fail -/

/-- Forty-nine metres as one unit, `49*m`. -/
noncomputable def u49 : NUnit := Units.exM.mulNum P (.int 49)

theorem wf_m : Units.exM.toUnit.WF := Units.wf_mk _ _
theorem wf_49 : (u49 P).toUnit.WF := Units.wf_mk _ _

theorem dim_49 (k) : (u49 P).toUnit.exp k = Units.exM.toUnit.exp k := Units.dget_mkDims_self (Units.mkDims_normal _) k

theorem to_m (x : ℝ) (h : Nearest 53 fl) : (⟨fun _ => x, u49 P⟩ : FQ ι).to P fl Units.exM = .ok ⟨fun _ => fl (x * 49), Units.exM⟩ := by
  have h2 : dictEq (u49 P).dims Units.exM.dims = true :=
    (Units.dictEq_iff (Units.wf_iff.mp (wf_49 P)) (Units.wf_iff.mp wf_m)).mpr (dim_49 P)
  have hv : Units.exM.value = .frac 1 := rfl
  have hw : (u49 P).value = .frac 49 := by simp [u49, NUnit.mulNum, hv, Num.mul]
  have h49 : fl 49 = 49 := h.self ⟨49, 0, by norm_num, by norm_num⟩
  have hne : ¬ (u49 P).eq Units.exM = true := by simp [NUnit.eq, hv, hw, Num.val]
  simp [FQ.to, hne, NUnit.to, h2, hv, hw, Num.div, Num.val, Num.toFloat, Units.fl_nat_49, bind, Except.bind, pure, Except.pure, h49]

theorem to_49 (x : ℝ) (h : Nearest 53 fl) : (⟨fun _ => x, Units.exM⟩ : FQ ι).to P fl (u49 P) =
    .ok ⟨fun _ => fl (x * P.fl (1 / 49)), u49 P⟩ := by
  have h2 : dictEq Units.exM.dims (u49 P).dims = true :=
    (Units.dictEq_iff (Units.wf_iff.mp wf_m) (Units.wf_iff.mp (wf_49 P))).mpr fun k => (dim_49 P k).symm
  have hv : Units.exM.value = .frac 1 := rfl
  have hw : (u49 P).value = .frac 49 := by simp [u49, NUnit.mulNum, hv, Num.mul]
  have hf : fl (P.fl (1 / 49)) = P.fl (1 / 49) := h.self (P.near.mem _)
  have hne : ¬ Units.exM.eq (u49 P) = true := by simp [NUnit.eq, hv, hw, Num.val]
  rw [one_div] at hf
  simp [FQ.to, hne, NUnit.to, h2, hv, hw, Num.div, Num.val, Num.toFloat, bind, Except.bind, pure, Except.pure, hf]

theorem lt_one (h : Nearest 53 fl) : fl (49 * P.fl (1 / 49)) = 1 - (2 ^ 53)⁻¹ := by
  have hy : IsFl 53 (1 - (2 ^ 53)⁻¹ : ℝ) := ⟨2 ^ 53 - 1, -53, by norm_num, by push_cast; rw [zpow_neg]; norm_num⟩
  rw [Units.fl_49 P]
  refine h.eq_of_close hy ?_
  rw [abs_of_pos (by norm_num), abs_of_pos (by norm_num)]
  norm_num

/-- In double precision, on every platform, with `a = 49` metres and `b = 1` of the unit `49*m`: `a == b` but not `b == a`, and `b > a`
but not `a < b`. -/
theorem C157_symmetry_fails (h : Nearest 53 fl) :
    let a : FQ ι := ⟨fun _ => 49, Units.exM⟩
    let b : FQ ι := ⟨fun _ => 1, u49 P⟩
    (∀ i, a.si i = b.si i) ∧ a.compare P fl (· = ·) b = .ok (fun _ => True) ∧ b.compare P fl (· = ·) a = .ok (fun _ => False) ∧
      b.compare P fl (· > ·) a = .ok (fun _ => True) ∧ a.compare P fl (· < ·) b = .ok (fun _ => False) := by
  intro a b
  have hv : Units.exM.value = .frac 1 := rfl
  have hw : (u49 P).value = .frac 49 := by simp [u49, NUnit.mulNum, hv, Num.mul]
  have h49 : fl 49 = 49 := h.self ⟨49, 0, by norm_num, by norm_num⟩
  have c1 := fun R => compare_eq P (fl := fl) R a b wf_m (wf_49 P) (dim_49 P) _ (to_m P 1 h)
  have c2 := fun R => compare_eq P (fl := fl) R b a (wf_49 P) wf_m (fun k => (dim_49 P k).symm) _ (to_49 P 49 h)
  have l := lt_one P h
  simp only [l] at c2
  refine ⟨fun i => by simp [a, b, FQ.si, hv, hw, Num.val], ?_, ?_, ?_, ?_⟩
  · rw [c1]; simp [a, h49]
  · rw [c2]
    refine congrArg Except.ok (funext fun i => ?_)
    simp only [b, eq_iff_iff, iff_false]
    norm_num
  · rw [c2]; simp [b]
  · rw [c1]; simp [a, h49]

/-- There and back is not the identity: 49 m converted to the unit `49*m` and back is `49 (1 - 2 ^ (-53))` rounded, less than 49 m. -/
theorem C157_roundtrip_fails (h : Nearest 53 fl) : ∃ r r' : FQ ι, (⟨fun _ => 49, Units.exM⟩ : FQ ι).to P fl (u49 P) = .ok r ∧
    r.to P fl Units.exM = .ok r' ∧ ∀ i, r'.value i < 49 := by
  have l := lt_one P h
  refine ⟨_, _, to_49 P 49 h, by rw [l]; exact to_m P _ h, fun i => ?_⟩
  have := h.eq_of_half (x := (1 - (2 ^ 53)⁻¹) * 49) (49 * 2 ^ 47 - 1) (-47) (by norm_num) (by norm_num) (by
    rw [zpow_neg, abs_of_pos] <;> norm_num)
  simp only []
  rw [this, zpow_neg]
  norm_num

theorem alpha_49 : P.fl (1 / P.fl (1 / 49)) = 49 + (2 ^ 47)⁻¹ := by
  have e : P.fl (1 / 49) = (1 - 23 / 2 ^ 58) / 49 := by rw [eq_div_iff (by norm_num), mul_comm, Units.fl_49 P]
  have := P.near.eq_of_half (x := 1 / P.fl (1 / 49)) (49 * 2 ^ 47 + 1) (-47) (by norm_num) (by norm_num) (by
    rw [e, zpow_neg, abs_of_neg] <;> norm_num)
  rw [this, zpow_neg]
  norm_num

/-- In double precision, on every platform: `0 m + 1 (49*m)` is `49 + 2 ^ (-47)` metres, whichever way torch adds, though `1 (49*m)` is
`49 m`; and `1 (49*m) + 0 m` is `1 (49*m)`: the sum depends on the order, and adding zero is not the identity. -/
theorem C157_add_fails (h : Nearest 53 fl) (σ : SetOrder) :
    let a : FQ ι := ⟨fun _ => 0, Units.exM⟩
    let b : FQ ι := ⟨fun _ => 1, u49 P⟩
    (∀ r, FQ.Add P fl σ 1 a b r ↔ r = .ok ⟨fun _ => 49 + (2 ^ 47)⁻¹, Units.exM⟩) ∧ b.to P fl Units.exM = .ok ⟨fun _ => 49, Units.exM⟩ ∧
      ∀ r, FQ.Add P fl σ 1 b a r ↔ r = .ok b := by
  intro a b
  have hv : Units.exM.value = .frac 1 := rfl
  have hw : (u49 P).value = .frac 49 := by simp [u49, NUnit.mulNum, hv, Num.mul]
  have h49 : fl 49 = 49 := h.self ⟨49, 0, by norm_num, by norm_num⟩
  have h0 : fl 0 = 0 := h.self ⟨0, 0, by norm_num, by norm_num⟩
  have h1 : fl 1 = 1 := h.self ⟨1, 0, by norm_num, by norm_num⟩
  have hα : fl (49 + (2 ^ 47)⁻¹) = 49 + (2 ^ 47)⁻¹ := alpha_49 P ▸ h.self (P.near.mem _)
  have r1 : ∃ w, Units.exM.div P σ (u49 P) = .ok w ∧ w.dims = [] ∧ w.value = .frac (1 / 49) := by
    obtain ⟨w, t, e, hd, -⟩ := ratio_spec P σ Units.exM (u49 P) (wf_49 P) (fun k => (dim_49 P k).symm) (by simp [hv, Num.val])
      (by simp [hw, Num.val])
    refine ⟨w, e, hd, ?_⟩
    simp [NUnit.div, NUnit.pow, Num.pow, hw, Num.val, bind, Except.bind, pure, Except.pure] at e
    rw [← e]
    simp [NUnit.mul, hv, Num.mul]
  have r2 : ∃ w, (u49 P).div P σ Units.exM = .ok w ∧ w.dims = [] ∧ w.value = .frac 49 := by
    obtain ⟨w, t, e, hd, -⟩ := ratio_spec P σ (u49 P) Units.exM wf_m (dim_49 P) (by simp [hw, Num.val]) (by simp [hv, Num.val])
    refine ⟨w, e, hd, ?_⟩
    simp [NUnit.div, NUnit.pow, Num.pow, hv, Num.val, bind, Except.bind, pure, Except.pure] at e
    rw [← e]
    simp [NUnit.mul, hw, Num.mul]
  refine ⟨fun r => ?_, ?_, fun r => ?_⟩
  · obtain ⟨w, e, hd, hval⟩ := r1
    have hα' := alpha_49 P
    have hfl : P.fl (1 / 49) ≠ 0 := by
      intro hz
      have := Units.fl_49 P
      rw [hz] at this
      norm_num at this
    rw [one_div] at hα' hfl
    rw [one_div] at hα'
    simp only [FQ.Add, a, b, e, hd, hval]
    simp [Num.val, Num.toFloat, hα', hα, hfl, AddKernel, funext_iff]
    exact ⟨fun ⟨v, hv, e⟩ => by rw [e, funext hv], fun e => ⟨_, fun _ => rfl, e⟩⟩
  · have := to_m P (ι := ι) (fl := fl) 1 h
    simpa [h49] using this
  · obtain ⟨w, e, hd, hval⟩ := r2
    simp only [FQ.Add, a, b, e, hd, hval]
    simp [Num.val, Num.toFloat, Units.fl_nat_49, AddKernel, h0, h1]
    exact ⟨fun ⟨v, hv, e⟩ => by rw [e, funext hv], fun e => ⟨_, fun _ => rfl, e⟩⟩

/-! ### The hypotheses are met -/

/-- Single precision tensors, in metres and in units of 49 metres, on the correctly rounded platform of `Verif.Units`: the hypotheses
of `C157_add_partial` (and of the theorems above, which need part of them) hold, and the sum is within its bounds. -/
example : ∃ v, (⟨fun n : ℕ => 49, u49 Units.platRnd⟩ : FQ ℕ).compare Units.platRnd (rnd 24) (· < ·) ⟨fun n => n, Units.exM⟩ = .ok v :=
  (C157_compare_partial Units.platRnd (nearest_rnd (by norm_num)) (by norm_num) (by norm_num) (· < ·)
    (fun c x y hc => mul_lt_mul_iff_left₀ hc) ⟨fun n : ℕ => 49, u49 Units.platRnd⟩ ⟨fun n => n, Units.exM⟩ (wf_49 _) wf_m
    (fun k => (dim_49 _ k).symm) (by simp [u49, NUnit.mulNum, Units.exM, NUnit.mk', Num.mul, Num.val])).imp fun _ h => h.1

example : ∃ r, FQ.Add Units.platRnd (rnd 24) SetOrder.id (-1) ⟨fun n : ℕ => n, Units.exM⟩ ⟨fun n => 1 / 3, u49 Units.platRnd⟩ r :=
  (C157_add_partial Units.platRnd (nearest_rnd (by norm_num)) (by norm_num) (by norm_num) SetOrder.id (-1)
    ⟨fun n : ℕ => n, Units.exM⟩ ⟨fun n => 1 / 3, u49 Units.platRnd⟩ (wf_49 _) (fun k => (dim_49 _ k).symm)
    (by simp [Units.exM, NUnit.mk', Num.val]) (by simp [u49, NUnit.mulNum, Units.exM, NUnit.mk', Num.mul, Num.val])).1

example : NearOne 24 1 (1 + (2 ^ 24)⁻¹) := by constructor <;> norm_num

example : ¬ NearOne 24 1 (1 + (2 ^ 22)⁻¹) := fun h => absurd h.2 (by norm_num)

end Verif.Quant

import Verif.Units.LatexModel
import Verif.Units.Props
import Mathlib.Algebra.BigOperators.Group.Finset.Basic
import Mathlib.Tactic.Linarith
import Mathlib.Tactic.FieldSimp
import Mathlib.Tactic.Positivity

/-! # C121: the LaTeX form of a unit -/

namespace Verif.Units.Latex
open Verif.Units

/-! ## Specification -/

/-- A proper table of base units: every dimension at most once, with a unit of exactly this dimension and positive value. -/
structure Latexifier.Proper (L : Latexifier) : Prop where
  nodup : (L.base.map Prod.fst).Nodup
  wf : ∀ b ∈ L.base, b.2.unit.WF
  dim : ∀ b ∈ L.base, ∀ k, b.2.unit.exp k = if k = b.1 then 1 else 0
  pos : ∀ b ∈ L.base, 0 < b.2.unit.value

/-- The value of the base unit of a dimension (1 where there is none). -/
noncomputable def Latexifier.scale (L : Latexifier) (d : Dim) : ℝ := ((L.base.lookup d).map fun b => b.unit.value).getD 1

/-- The product of powers of base units a unit is expressed in: `∏ base[d]^p`, with `p` the exponent of the dimension `d` in `u`. -/
noncomputable def Latexifier.measure (L : Latexifier) (u : Unit) : ℝ := (L.base.map fun b => b.2.unit.value ^ (u.exp b.1 : ℝ)).prod

/-- The number a written power stands for. -/
def PowerText.value : PowerText → ℚ
  | .int n => n
  | .frac neg a b => (if neg then -1 else 1) * (a / b)
  | .slash a b => a / b

/-- The power a factor stands for. -/
def Factor.value (f : Factor) : ℚ := (f.power.map PowerText.value).getD 1

/-! ## Units -/

theorem get_eq (L : Latexifier) {d : Dim} {b : Named} (h : L.base.lookup d = some b) : L.get d = .ok b := by
  simp [Latexifier.get, h]

theorem mem_of_lookup {α : Type} {l : List (Dim × α)} {d : Dim} {b : α} (h : l.lookup d = some b) : (d, b) ∈ l := by
  induction l with
  | nil => simp at h
  | cons x xs ih =>
    obtain ⟨a, c⟩ := x
    rw [List.lookup_cons] at h
    by_cases e : d = a
    · subst e
      simp only [beq_self_eq_true] at h
      simp only [Option.some.injEq] at h
      subst h
      simp
    · have : (d == a) = false := by simpa using e
      rw [this] at h
      exact List.mem_cons_of_mem _ (ih h)

theorem lookup_some_of_mem {α : Type} {l : List (Dim × α)} {d : Dim} (h : d ∈ l.map Prod.fst) : ∃ b, l.lookup d = some b := by
  induction l with
  | nil => simp at h
  | cons x xs ih =>
    obtain ⟨a, c⟩ := x
    rw [List.lookup_cons]
    by_cases e : d = a
    · exact ⟨c, by simp [e]⟩
    · have : (d == a) = false := by simpa using e
      rw [this]
      refine ih ?_
      simpa [e] using h

theorem lookup_none_of_not_mem {α : Type} {l : List (Dim × α)} {d : Dim} (h : d ∉ l.map Prod.fst) : l.lookup d = none := by
  cases e : l.lookup d with
  | none => rfl
  | some b => exact absurd (List.mem_map_of_mem (f := Prod.fst) (mem_of_lookup e)) h

/-- The accumulated product, for the rest of the dimensions. -/
theorem fold_base (L : Latexifier) (hL : L.Proper) (σ : SetOrder) : ∀ (l : Dict) (acc : Unit), acc.WF → 0 < acc.value →
    (∀ dp ∈ l, dp.1 ∈ L.base.map Prod.fst ∧ dp.2.den ≤ 1000000) → (keys l).Nodup → (∀ dp ∈ l, acc.exp dp.1 = 0) →
    ∃ w, l.foldlM (L.baseStep σ) acc = .ok w ∧ w.WF ∧ 0 < w.value ∧
      w.value = acc.value * (l.map fun dp => L.scale dp.1 ^ (dp.2 : ℝ)).prod ∧
      ∀ k, w.exp k = acc.exp k + dget l k := by
  intro l
  induction l with
  | nil =>
    intro acc hw hp _ _ _
    exact ⟨acc, rfl, hw, hp, by simp, by simp [dget]⟩
  | cons x xs ih =>
    obtain ⟨d, p⟩ := x
    intro acc hw hp hmem hnd hz
    obtain ⟨hd, hden⟩ := hmem (d, p) (by simp)
    obtain ⟨b, hb⟩ := lookup_some_of_mem hd
    have hbm := mem_of_lookup hb
    have hbp := hL.pos _ hbm
    have hbd := hL.dim _ hbm
    have hbw := hL.wf _ hbm
    have hstep : L.baseStep σ acc (d, p) = .ok (acc.mul σ ⟨dpow b.unit.dims p, b.unit.value ^ (p : ℝ)⟩) := by
      unfold Latexifier.baseStep
      rw [get_eq L hb]
      have hp := pow_eq_of_pos hbp p
      simp only at hp
      simp only [bind, Except.bind, hp, lift]
      rfl
    set a' := acc.mul σ ⟨dpow b.unit.dims p, b.unit.value ^ (p : ℝ)⟩ with ha'
    have hpe : ∀ k, dget (dpow b.unit.dims p) k = if k = d then p else 0 := by
      intro k
      rw [dget_dpow (wf_iff.mp hbw)]
      have := hbd k
      unfold Unit.exp at this
      rw [this]
      split
      · rw [one_mul, limDen_of_le hden]
      · simp
    have hde : ∀ k, a'.exp k = acc.exp k + if k = d then p else 0 := by
      intro k
      rw [ha']
      unfold Unit.mul Unit.exp
      rw [dget_dmul, hpe]
      split
      · rename_i hk
        have h0 := hz (d, p) (by simp)
        unfold Unit.exp at h0
        rw [hk, h0, zero_add, limDen_of_le hden]
      · rw [add_zero, limDen_of_le (dget_den_le (wf_iff.mp hw) k)]
    have hnd' : d ∉ keys xs ∧ (keys xs).Nodup := by simpa [keys] using hnd
    obtain ⟨w, h1, h2, h3, h4, h5⟩ := ih a' (wf_mul _ _ _) (mul_pos hp (Real.rpow_pos_of_pos hbp _))
      (fun dp h => hmem dp (by simp [h])) hnd'.2 (by
        intro dp h
        rw [hde, hz dp (by simp [h]), if_neg, add_zero]
        rintro rfl
        exact hnd'.1 (List.mem_map_of_mem h))
    refine ⟨w, ?_, h2, h3, ?_, ?_⟩
    · rw [List.foldlM_cons, hstep]
      exact h1
    · rw [h4, ha']
      have : L.scale d = b.unit.value := by simp [Latexifier.scale, hb]
      simp only [Unit.mul, List.map_cons, List.prod_cons, this]
      ring
    · intro k
      rw [h5, hde]
      have : dget ((d, p) :: xs) k = (if k = d then p else 0) + dget xs k := by
        unfold dget
        rw [List.lookup_cons]
        by_cases e : k = d
        · subst e
          rw [(lookup_eq_none_iff' xs k).mpr hnd'.1]
          simp
        · have : (k == d) = false := by simpa using e
          simp [this, e]
      rw [this]
      ring

theorem lookup_of_mem {l : List (Dim × Named)} (hn : (l.map Prod.fst).Nodup) {b : Dim × Named} (h : b ∈ l) : l.lookup b.1 = some b.2 := by
  induction l with
  | nil => cases h
  | cons x xs ih =>
    obtain ⟨h1, h2⟩ := List.nodup_cons.mp (by simpa using hn : (x.1 :: xs.map Prod.fst).Nodup)
    rw [List.lookup_cons]
    rcases List.mem_cons.mp h with rfl | h
    · simp
    · have : (b.1 == x.1) = false := by
        simp only [beq_eq_false_iff_ne, ne_eq]
        intro e
        exact h1 (e ▸ List.mem_map_of_mem h)
      rw [this]
      exact ih h2 h

/-- The product over the dimensions of the unit is the product over the base units. -/
theorem prod_eq_measure (L : Latexifier) (hL : L.Proper) (u : Unit) (hu : u.WF) (h : ∀ k, u.exp k ≠ 0 → k ∈ L.base.map Prod.fst) :
    (u.dims.map fun dp => L.scale dp.1 ^ (dp.2 : ℝ)).prod = L.measure u := by
  have hn := wf_iff.mp hu
  have e1 : (u.dims.map fun dp => L.scale dp.1 ^ (dp.2 : ℝ)) = (keys u.dims).map fun d => L.scale d ^ (u.exp d : ℝ) := by
    unfold keys
    rw [List.map_map]
    refine List.map_congr_left fun dp hdp => ?_
    simp only [Function.comp_apply, Unit.exp]
    rw [dget_of_mem hn.nodup (k := dp.1) (v := dp.2) hdp]
  have e2 : (L.base.map fun b => b.2.unit.value ^ (u.exp b.1 : ℝ)) = (L.base.map Prod.fst).map fun d => L.scale d ^ (u.exp d : ℝ) := by
    rw [List.map_map]
    refine List.map_congr_left fun b hb => ?_
    simp [Latexifier.scale, lookup_of_mem hL.nodup hb]
  unfold Latexifier.measure
  rw [e1, e2, ← List.prod_toFinset _ hn.nodup, ← List.prod_toFinset _ hL.nodup]
  refine Finset.prod_subset ?_ ?_
  · intro d hd
    rw [List.mem_toFinset] at hd ⊢
    obtain ⟨dp, hdp, rfl⟩ := List.mem_map.mp hd
    refine h dp.1 ?_
    unfold Unit.exp
    rw [dget_of_mem hn.nodup (k := dp.1) (v := dp.2) hdp]
    exact hn.nonzero dp hdp
  · intro d _ hd
    rw [List.mem_toFinset] at hd
    have : u.exp d = 0 := dget_of_not_mem hd
    simp [this]

/-- **C121**: `to_base(u)` is the value of `u` in units of `base_from(u)`, which has the dimension of `u`: in exact arithmetic, `to_base(u) * ∏ base[d]^p == u`. -/
theorem C121_to_base (L : Latexifier) (hL : L.Proper) (σ : SetOrder) (u : Unit) (hu : u.WF)
    (h : ∀ k, u.exp k ≠ 0 → k ∈ L.base.map Prod.fst) :
    ∃ b x, L.baseFrom σ u = .ok b ∧ L.toBase σ u = .ok x ∧ (∀ k, b.exp k = u.exp k) ∧
      b.value = L.measure u ∧ 0 < L.measure u ∧ x * L.measure u = u.value := by
  have hn := wf_iff.mp hu
  obtain ⟨w, h1, h2, h3, h4, h5⟩ := fold_base L hL σ u.dims Unit.one wf_one (by simp [Unit.one, Unit.mk'])
    (fun dp hdp => ⟨h dp.1 (by
      unfold Unit.exp
      rw [dget_of_mem hn.nodup (k := dp.1) (v := dp.2) hdp]
      exact hn.nonzero dp hdp), hn.den_le dp hdp⟩) hn.nodup (fun dp _ => exp_one _)
  have hv : w.value = L.measure u := by
    rw [h4, prod_eq_measure L hL u hu h]
    simp [Unit.one, Unit.mk']
  have he : ∀ k, w.exp k = u.exp k := fun k => by rw [h5, exp_one, zero_add]; rfl
  obtain ⟨f, hf1, hf2⟩ := C04_to_ok u w hu h2 (fun k => (he k).symm) h3.ne'
  refine ⟨w, f, h1, ?_, he, hv, hv ▸ h3, by rw [← hv]; exact hf2⟩
  unfold Latexifier.toBase Latexifier.baseFrom
  rw [h1]
  simp only [bind, Except.bind, hf1, lift]

/-- **C121**: a dimension without a base unit is a `KeyError` of the whole call. -/
theorem C121_key_error (L : Latexifier) (σ : SetOrder) (toFloat : ℝ → PyFloat) (u : Unit) (hu : u.WF) {k : Dim} (hk : u.exp k ≠ 0)
    (h : k ∉ L.base.map Prod.fst) : L.call σ toFloat u = .error .key := by
  have hm : (k, dget u.dims k) ∈ u.dims := mem_of_dget_ne (wf_iff.mp hu).nodup hk
  have hfu : ∀ l : Dict, (k, dget u.dims k) ∈ l → l.mapM L.formatUnit = .error .key := by
    intro l
    induction l with
    | nil => intro h; cases h
    | cons x xs ih =>
      intro hx
      rw [List.mapM_cons]
      have hone : L.formatUnit x = .error .key ∨ ∃ y, L.formatUnit x = .ok y := by
        unfold Latexifier.formatUnit Latexifier.get
        cases L.base.lookup x.1 with
        | none => exact Or.inl rfl
        | some b => exact Or.inr ⟨_, rfl⟩
      rcases hone with h1 | ⟨y, h1⟩
      · rw [h1]; rfl
      · rcases List.mem_cons.mp hx with rfl | hx
        · unfold Latexifier.formatUnit Latexifier.get at h1
          rw [lookup_none_of_not_mem h] at h1
          cases h1
        · rw [h1, ih hx]; rfl
  unfold Latexifier.call Latexifier.formatUnits
  rw [hfu _ hm]
  rfl

/-- **C121**: a written power stands for the power. -/
theorem C121_power (L : Latexifier) (p : ℚ) : (L.formatPower p).value = p := by
  unfold Latexifier.formatPower
  split
  · rename_i h
    exact Rat.coe_int_num_of_den_eq_one h
  · split
    · by_cases hp : p < 0
      · simp only [hp, decide_true, PowerText.value, if_true]
        rw [Nat.cast_natAbs, abs_of_neg (Rat.num_neg.mpr hp)]
        push_cast
        rw [neg_div, Rat.num_div_den]
        ring
      · simp only [hp, decide_false, PowerText.value, Bool.false_eq_true, if_false]
        rw [Nat.cast_natAbs, abs_of_nonneg (Rat.num_nonneg.mpr (not_lt.mp hp)), one_mul, Rat.num_div_den]
    · exact Rat.num_div_den p

/-- An entry of the formatted units names the base unit of the dimension and stands for the power. -/
def Matches (L : Latexifier) (dp : Dim × ℚ) (f : Dim × Factor) : Prop :=
  f.1 = dp.1 ∧ (L.base.lookup dp.1).map Named.name = some f.2.name ∧ f.2.value = dp.2

theorem formatUnits_ok (L : Latexifier) (l : Dict) (h : ∀ dp ∈ l, dp.1 ∈ L.base.map Prod.fst) :
    ∃ fu, l.mapM L.formatUnit = .ok fu ∧ List.Forall₂ (Matches L) l fu := by
  induction l with
  | nil => exact ⟨[], rfl, .nil⟩
  | cons x xs ih =>
    obtain ⟨fu, h1, h2⟩ := ih fun dp hdp => h dp (by simp [hdp])
    obtain ⟨b, hb⟩ := lookup_some_of_mem (h x (by simp))
    refine ⟨(x.1, ⟨b.name, if x.2 = 1 ∧ ¬ L.keepUnitPower then none else some (L.formatPower x.2)⟩) :: fu, ?_, ?_⟩
    · rw [List.mapM_cons]
      have : L.formatUnit x = .ok (x.1, ⟨b.name, if x.2 = 1 ∧ ¬ L.keepUnitPower then none else some (L.formatPower x.2)⟩) := by
        unfold Latexifier.formatUnit
        rw [get_eq L hb]; rfl
      rw [this, h1]; rfl
    · refine .cons ⟨rfl, by simp [hb], ?_⟩ h2
      unfold Factor.value
      by_cases hx : x.2 = 1 ∧ ¬ L.keepUnitPower
      · simp only [if_pos hx, Option.map_none, Option.getD_none]
        exact hx.1.symm
      · simp only [if_neg hx, Option.map_some, Option.getD_some]
        exact C121_power L x.2

/-! ## Numbers -/

theorem rhe_near (c : ℚ) : |(roundHalfEven c : ℚ) - c| ≤ 1 / 2 := by
  have h1 := Int.floor_le c
  have h2 := Int.lt_floor_add_one c
  unfold roundHalfEven
  simp only
  split_ifs <;> rw [abs_le] <;> push_cast <;> constructor <;> linarith

theorem rhe_le {c : ℚ} {b : ℤ} (h : c ≤ b) : roundHalfEven c ≤ b := by
  have h1 : ⌊c⌋ ≤ b := by exact_mod_cast (Int.floor_le c).trans h
  unfold roundHalfEven
  simp only
  have key : ¬ (c - ⌊c⌋ < 1 / 2) → ⌊c⌋ + 1 ≤ b := by
    intro h3
    by_contra h4
    have : b = ⌊c⌋ := by omega
    rw [this] at h
    linarith
  split_ifs with h3
  · exact h1
  · exact key h3
  · exact h1
  · exact key h3

theorem le_rhe {c : ℚ} {b : ℤ} (h : (b : ℚ) ≤ c) : b ≤ roundHalfEven c := by
  have h1 : b ≤ ⌊c⌋ := Int.le_floor.mpr h
  unfold roundHalfEven
  simp only
  split_ifs <;> omega

theorem adjusted_spec {x : ℚ} (hx : x ≠ 0) : (10 : ℚ) ^ adjusted x ≤ |x| ∧ |x| < (10 : ℚ) ^ (adjusted x + 1) := by
  have hp : 0 < |x| := abs_pos.mpr hx
  have a := Int.zpow_log_le_self (b := 10) (by norm_num) hp
  have b := Int.lt_zpow_succ_log_self (b := 10) (by norm_num) |x|
  rw [Nat.cast_ofNat] at a b
  exact ⟨a, b⟩

theorem adjusted_eq {x : ℚ} {e : ℤ} (h1 : (10 : ℚ) ^ e ≤ |x|) (h2 : |x| < (10 : ℚ) ^ (e + 1)) : adjusted x = e := by
  have hx : x ≠ 0 := by
    rintro rfl
    have : (0 : ℚ) < 10 ^ e := by positivity
    rw [abs_zero] at h1
    linarith
  obtain ⟨h3, h4⟩ := adjusted_spec hx
  have a := (zpow_lt_zpow_iff_right₀ (by norm_num : (1 : ℚ) < 10)).mp (h1.trans_lt h4)
  have b := (zpow_lt_zpow_iff_right₀ (by norm_num : (1 : ℚ) < 10)).mp (h3.trans_lt h2)
  omega

/-- Rounding a number in `[1, 10]` to `n + 1` digits. -/
theorem roundSig_mant (n : ℕ) {y : ℚ} (h1 : 1 ≤ |y|) (h2 : |y| ≤ 10) :
    |roundSig (n + 1) y - y| ≤ 1 / 2 * (10 : ℚ) ^ (-n : ℤ) ∧ 1 ≤ |roundSig (n + 1) y| ∧ |roundSig (n + 1) y| ≤ 10 := by
  have hy : y ≠ 0 := by
    rintro rfl
    norm_num at h1
  -- the scale, and the digits of 1 and 10
  obtain ⟨s, hs, hs0, ha, hb, hsle⟩ : ∃ s : ℚ, roundSig (n + 1) y = roundHalfEven (y / s) * s ∧ 0 < s ∧
      ((∃ k : ℤ, k * s = 1 ∧ 0 < k) ∨ ((∃ k : ℤ, k * s = 10 ∧ 0 < k) ∧ |y| = 10)) ∧ (∃ k : ℤ, k * s = 10 ∧ 0 < k) ∧
      (s = (10 : ℚ) ^ (-n : ℤ) ∨ |y| = 10) := by
    refine ⟨(10 : ℚ) ^ (adjusted y - ((n + 1 : ℕ) - 1 : ℤ)), by simp [roundSig, hy], by positivity, ?_⟩
    rcases h2.lt_or_eq with h2 | h2
    · have he : adjusted y = 0 := adjusted_eq (by simpa using h1) (by simpa using h2)
      rw [he]
      have e1 : (10 : ℚ) ^ ((0 : ℤ) - ((n + 1 : ℕ) - 1 : ℤ)) = (10 : ℚ) ^ (-n : ℤ) := by congr 1; push_cast; ring
      rw [e1, zpow_neg, zpow_natCast]
      refine ⟨Or.inl ⟨10 ^ n, by push_cast; field_simp, by positivity⟩, ⟨10 ^ (n + 1), by push_cast; field_simp; ring, by positivity⟩, Or.inl rfl⟩
    · have he : adjusted y = 1 := adjusted_eq (by rw [h2]; norm_num) (by rw [h2]; norm_num)
      rw [he]
      have e1 : (10 : ℚ) ^ ((1 : ℤ) - ((n + 1 : ℕ) - 1 : ℤ)) = 10 * ((10 : ℚ) ^ n)⁻¹ := by
        rw [show (1 : ℤ) - ((n + 1 : ℕ) - 1 : ℤ) = 1 + -(n : ℤ) by push_cast; ring, zpow_add₀ (by norm_num), zpow_one, zpow_neg, zpow_natCast]
      rw [e1]
      exact ⟨Or.inr ⟨⟨10 ^ n, by push_cast; field_simp, by positivity⟩, h2⟩, ⟨10 ^ n, by push_cast; field_simp, by positivity⟩, Or.inr h2⟩
  rw [hs]
  have hnear : |(roundHalfEven (y / s) : ℚ) * s - y| ≤ 1 / 2 * s := by
    have : (roundHalfEven (y / s) : ℚ) * s - y = ((roundHalfEven (y / s) : ℚ) - y / s) * s := by field_simp
    rw [this, abs_mul, abs_of_pos hs0]
    exact mul_le_mul_of_nonneg_right (rhe_near _) hs0.le
  -- integers bound the rounding
  have hup : ∀ k : ℤ, y ≤ k * s → (roundHalfEven (y / s) : ℚ) * s ≤ k * s := fun k h =>
    mul_le_mul_of_nonneg_right (by exact_mod_cast rhe_le ((div_le_iff₀ hs0).mpr h)) hs0.le
  have hlo : ∀ k : ℤ, k * s ≤ y → k * s ≤ (roundHalfEven (y / s) : ℚ) * s := fun k h =>
    mul_le_mul_of_nonneg_right (by exact_mod_cast le_rhe ((le_div_iff₀ hs0).mpr h)) hs0.le
  obtain ⟨kb, hkb, -⟩ := hb
  have hexact : |y| = 10 → (roundHalfEven (y / s) : ℚ) * s = y := by
    intro h
    rcases eq_or_eq_neg_of_abs_eq h with h | h
    · exact le_antisymm ((hup kb (by rw [hkb, h])).trans_eq (hkb.trans h.symm)) ((hkb.trans h.symm).symm.le.trans (hlo kb (by rw [hkb, h])))
    · have e : ((-kb : ℤ) : ℚ) * s = y := by push_cast; linarith
      exact le_antisymm ((hup (-kb) e.symm.le).trans_eq e) (e.symm.le.trans (hlo (-kb) e.le))
  refine ⟨?_, ?_, ?_⟩
  · rcases hsle with h | h
    · rw [← h]; exact hnear
    · rw [hexact h, sub_self, abs_zero]; positivity
  · rcases ha with ⟨k, hk, -⟩ | ⟨-, h⟩
    · rcases le_abs.mp h1 with h | h
      · exact le_abs.mpr (Or.inl (hk.symm.le.trans (hlo k (by rw [hk]; exact h))))
      · have e : ((-k : ℤ) : ℚ) * s = -1 := by push_cast; linarith
        have := hup (-k) (by rw [e]; linarith)
        exact le_abs.mpr (Or.inr (by linarith))
    · rw [hexact h]; exact h1
  · have e : ((-kb : ℤ) : ℚ) * s = -10 := by push_cast; linarith
    obtain ⟨h3, h4⟩ := abs_le.mp h2
    rw [abs_le]
    exact ⟨e.symm.le.trans (hlo (-kb) (by rw [e]; exact h3)), (hup kb (by rw [hkb]; exact h4)).trans hkb.le⟩

/-- **C121, partial**: the printed number: to within half a unit of the last of `prec` digits (and `10^-27`), with mantissa in `[1, 10]` and the decimal exponent of the number.

Missing for the full property: see `C121_not_injective`, `C121_mantissa_ten`. -/
theorem C121_value_partial (n : ℕ) {x : ℚ} (hx : x ≠ 0) :
    ∃ m e, formatValue (.fin x) (n + 1) = .ok (m, e) ∧ (10 : ℚ) ^ e ≤ |x| ∧ |x| < (10 : ℚ) ^ (e + 1) ∧ 1 ≤ |m| ∧ |m| ≤ 10 ∧
      |m * (10 : ℚ) ^ e - x| ≤ (1 / 2 * (10 : ℚ) ^ (-n : ℤ) + 1 / 2 * (10 : ℚ) ^ (-27 : ℤ)) * (10 : ℚ) ^ e := by
  obtain ⟨h1, h2⟩ := adjusted_spec hx
  set e := adjusted x with he
  have he0 : (0 : ℚ) < 10 ^ e := by positivity
  set y := x * (10 : ℚ) ^ (-e) with hy
  have hyx : x = y * (10 : ℚ) ^ e := by rw [hy, zpow_neg]; field_simp
  have hya : |x| = |y| * (10 : ℚ) ^ e := by rw [hyx, abs_mul, abs_of_pos he0]
  have hy1 : 1 ≤ |y| := by
    rw [hya] at h1
    exact le_of_mul_le_mul_right (by linarith) he0
  have hy2 : |y| ≤ 10 := by
    rw [hya, zpow_add₀ (by norm_num), zpow_one, mul_comm ((10 : ℚ) ^ e)] at h2
    exact (lt_of_mul_lt_mul_right h2 he0.le).le
  obtain ⟨a1, a2, a3⟩ := roundSig_mant 27 hy1 hy2
  obtain ⟨b1, b2, b3⟩ := roundSig_mant n a2 a3
  refine ⟨roundSig (n + 1) (roundSig 28 y), e, by simp only [formatValue, hx, if_false, ← he, ← hy], h1, h2, b2, b3, ?_⟩
  have : roundSig (n + 1) (roundSig 28 y) * (10 : ℚ) ^ e - x = (roundSig (n + 1) (roundSig 28 y) - y) * (10 : ℚ) ^ e := by
    rw [hyx]; ring
  rw [this, abs_mul, abs_of_pos he0]
  refine mul_le_mul_of_nonneg_right ?_ he0.le
  have := abs_sub_le (roundSig (n + 1) (roundSig 28 y)) (roundSig 28 y) y
  have a1' : |roundSig 28 y - y| ≤ 1 / 2 * (10 : ℚ) ^ (-27 : ℤ) := by exact_mod_cast a1
  linarith [b1]

/-- Zero is written `0`; infinities and NaN are a `TypeError`. -/
theorem C121_special (prec : ℕ) : formatValue (.fin 0) prec = .ok (0, 0) ∧ formatValue .inf prec = .error (.unit .typeError) ∧
    formatValue .nan prec = .error (.unit .typeError) := ⟨rfl, rfl, rfl⟩

/-- **C121 is false of the code**: different doubles are printed as the same number, `1` and `1 + 2^-52` as `1`. -/
theorem C121_not_injective : formatValue (.fin 1) = .ok (1, 0) ∧ formatValue (.fin (1 + 1 / 2 ^ 52)) = .ok (1, 0) := by
  constructor
  · have : (roundSig 16 (roundSig 28 ((1 : ℚ) * (10 : ℚ) ^ (-adjusted 1))), adjusted 1) = (1, 0) := by decide +kernel
    simp only [formatValue, one_ne_zero, if_false, this]
  · have : (roundSig 16 (roundSig 28 ((1 + 1 / 2 ^ 52 : ℚ) * (10 : ℚ) ^ (-adjusted (1 + 1 / 2 ^ 52)))), adjusted (1 + 1 / 2 ^ 52)) = (1, 0) := by decide +kernel
    have h0 : ¬ (1 + 1 / 2 ^ 52 : ℚ) = 0 := by norm_num
    simp only [formatValue, h0, if_false, this]

/-- **C121 is false of the code**: the mantissa need not be below 10: the double closest to `1e-6` is printed as `1E+1 \times 10^{-7}`. -/
theorem C121_mantissa_ten : ∃ x : ℚ, formatValue (.fin x) = .ok (10, -7) ∧
    ∀ m : ℤ, |x - 1 / 10 ^ 6| ≤ |(m : ℚ) / 2 ^ 72 - 1 / 10 ^ 6| := by
  refine ⟨4722366482869645 / 4722366482869645213696, ?_, ?_⟩
  · have : (roundSig 16 (roundSig 28 ((4722366482869645 / 4722366482869645213696 : ℚ) * (10 : ℚ) ^ (-adjusted (4722366482869645 / 4722366482869645213696)))), adjusted (4722366482869645 / 4722366482869645213696)) = (10, -7) := by decide +kernel
    have h0 : ¬ (4722366482869645 / 4722366482869645213696 : ℚ) = 0 := by norm_num
    simp only [formatValue, h0, if_false, this]
  · intro m
    have e : (4722366482869645213696 : ℚ) = 2 ^ 72 := by norm_num
    have hlhs : |(4722366482869645 / 4722366482869645213696 : ℚ) - 1 / 10 ^ 6| = 213696 / 10 ^ 6 / 2 ^ 72 := by
      rw [abs_of_nonpos (by norm_num)]
      norm_num
    rw [hlhs]
    rcases le_or_gt m 4722366482869645 with h | h
    · have : (m : ℚ) ≤ 4722366482869645 := by exact_mod_cast h
      rw [abs_of_nonpos]
      · rw [div_le_iff₀ (by positivity)]
        have : (-((m : ℚ) / 2 ^ 72 - 1 / 10 ^ 6)) * 2 ^ 72 = 2 ^ 72 / 10 ^ 6 - m := by field_simp; ring
        rw [this]
        norm_num
        linarith
      · rw [sub_nonpos, div_le_iff₀ (by positivity)]
        norm_num
        linarith
    · have : (4722366482869646 : ℚ) ≤ m := by exact_mod_cast h
      rw [abs_of_nonneg]
      · rw [div_le_iff₀ (by positivity)]
        have : ((m : ℚ) / 2 ^ 72 - 1 / 10 ^ 6) * 2 ^ 72 = m - 2 ^ 72 / 10 ^ 6 := by field_simp
        rw [this]
        norm_num
        linarith
      · rw [sub_nonneg, le_div_iff₀ (by positivity)]
        norm_num
        linarith

/-! ## The whole text -/

theorem forall₂_lookup {L : Latexifier} : ∀ {l : Dict} {fu : List (Dim × Factor)}, List.Forall₂ (Matches L) l fu → ∀ d,
    (l.lookup d = none ∧ fu.lookup d = none) ∨ ∃ p f, l.lookup d = some p ∧ fu.lookup d = some f ∧ Matches L (d, p) (d, f)
  | _, _, .nil, d => Or.inl ⟨rfl, rfl⟩
  | (a, p) :: l, (a', f) :: fu, .cons h t, d => by
    obtain ⟨h1, h2, h3⟩ := h
    simp only at h1
    subst h1
    rw [List.lookup_cons, List.lookup_cons]
    by_cases e : d = a'
    · subst e
      simp only [beq_self_eq_true]
      exact Or.inr ⟨p, f, rfl, rfl, rfl, h2, h3⟩
    · have : (d == a') = false := by simpa using e
      rw [this]
      exact forall₂_lookup t d

/-- The conversion of the exact quotient to a double: relative error at most `2^-53` (no overflow or underflow). -/
def ToDouble (toFloat : ℝ → PyFloat) : Prop := ∀ y : ℝ, ∃ x : ℚ, toFloat y = .fin x ∧ |(x : ℝ) - y| ≤ |y| / 2 ^ 53

/-- **C121, partial**: the text stands for the unit to a relative `6.2e-16`: mantissa times power of ten times the product of the printed base units, and the printed symbols are exactly those of the dimensions of `u`, in the order of the table, with their powers. The argument `prec` has no influence.

Missing for the full property: reading the number back need not give the value (`C121_not_injective`), and the mantissa may be 10 (`C121_mantissa_ten`). -/
theorem C121_denotes_partial (L : Latexifier) (hL : L.Proper) (σ : SetOrder) {toFloat : ℝ → PyFloat} (hf : ToDouble toFloat) (u : Unit) (hu : u.WF)
    (h : ∀ k, u.exp k ≠ 0 → k ∈ L.base.map Prod.fst) (prec : ℕ) :
    ∃ t, L.call σ toFloat u prec = .ok t ∧
      |(t.mant : ℝ) * (10 : ℝ) ^ t.exp * L.measure u - u.value| ≤ 62 / 10 ^ 17 * |u.value| ∧
      List.Forall₂ (fun (b : Dim × Named) f => f.name = b.2.name ∧ f.value = u.exp b.1) (L.base.filter fun b => u.exp b.1 ≠ 0) t.factors := by
  have hn := wf_iff.mp hu
  obtain ⟨b, q, -, hq, -, -, hm, hqm⟩ := C121_to_base L hL σ u hu h
  obtain ⟨fu, hfu, hmat⟩ := formatUnits_ok L u.dims fun dp hdp => h dp.1 (by
    unfold Unit.exp
    rw [dget_of_mem hn.nodup (k := dp.1) (v := dp.2) hdp]
    exact hn.nonzero dp hdp)
  obtain ⟨x, hx, hxe⟩ := hf q
  obtain ⟨m, e, hme, herr⟩ : ∃ m e, formatValue (.fin x) = .ok (m, e) ∧ |(m : ℝ) * (10 : ℝ) ^ e - x| ≤ 501 / 10 ^ 18 * |(x : ℝ)| := by
    by_cases hx0 : x = 0
    · exact ⟨0, 0, by simp [formatValue, hx0], by simp [hx0]⟩
    · obtain ⟨m, e, h1, h2, -, -, -, h3⟩ := C121_value_partial 15 hx0
      refine ⟨m, e, h1, ?_⟩
      have h4 : |m * (10 : ℚ) ^ e - x| ≤ 501 / 10 ^ 18 * |x| := by
        refine h3.trans ?_
        have he0 : (0 : ℚ) < 10 ^ e := by positivity
        have hc : (1 / 2 * (10 : ℚ) ^ (-(15 : ℕ) : ℤ) + 1 / 2 * (10 : ℚ) ^ (-27 : ℤ)) ≤ 501 / 10 ^ 18 := by norm_num
        exact (mul_le_mul_of_nonneg_right hc he0.le).trans (mul_le_mul_of_nonneg_left h2 (by norm_num))
      have := (Rat.cast_le (K := ℝ)).mpr h4
      push_cast at this
      exact this
  refine ⟨⟨m, e, L.base.filterMap fun b => fu.lookup b.1⟩, ?_, ?_, ?_⟩
  · unfold Latexifier.call Latexifier.formatUnits
    rw [hfu, hq]
    simp only [bind, Except.bind, hx, hme]
    rfl
  · simp only
    have e1 : (m : ℝ) * (10 : ℝ) ^ e * L.measure u - u.value = ((m : ℝ) * (10 : ℝ) ^ e - q) * L.measure u := by rw [← hqm]; ring
    have e2 : |u.value| = |q| * L.measure u := by rw [← hqm, abs_mul, abs_of_pos hm]
    rw [e1, e2, abs_mul, abs_of_pos hm, ← mul_assoc]
    refine mul_le_mul_of_nonneg_right ?_ hm.le
    have h1 := abs_sub_le ((m : ℝ) * (10 : ℝ) ^ e) x q
    have h2 : |(x : ℝ)| ≤ |q| + |q| / 2 ^ 53 := by
      have := abs_sub_abs_le_abs_sub (x : ℝ) q
      linarith
    have h3 : |q| / 2 ^ 53 ≤ 1111 / 10 ^ 19 * |q| := by
      rw [div_eq_mul_inv, mul_comm]
      exact mul_le_mul_of_nonneg_right (by norm_num) (abs_nonneg q)
    have := abs_nonneg q
    linarith
  · simp only
    have hb : ∀ l : List (Dim × Named), (∀ b ∈ l, L.base.lookup b.1 = some b.2) →
        List.Forall₂ (fun (b : Dim × Named) f => f.name = b.2.name ∧ f.value = u.exp b.1) (l.filter fun b => u.exp b.1 ≠ 0) (l.filterMap fun b => fu.lookup b.1) := by
      intro l
      induction l with
      | nil => intro _; exact .nil
      | cons a l ih =>
        intro hl
        have ih' := ih fun b hb => hl b (by simp [hb])
        rcases forall₂_lookup hmat a.1 with ⟨h1, h2⟩ | ⟨p, f, h1, h2, -, h3, h4⟩
        · have h0 : u.exp a.1 = 0 := by simp [Unit.exp, dget, h1]
          rw [List.filterMap_cons_none (f := fun b : Dim × Named => fu.lookup b.1) h2, List.filter_cons_of_neg (by simp [h0])]
          exact ih'
        · have h0 : u.exp a.1 = p := by simp [Unit.exp, dget, h1]
          have hp : p ≠ 0 := hn.nonzero (a.1, p) (mem_of_lookup h1)
          rw [List.filterMap_cons_some (f := fun b : Dim × Named => fu.lookup b.1) h2, List.filter_cons_of_pos (by simp [h0, hp])]
          refine .cons ⟨?_, h4.trans h0.symm⟩ ih'
          rw [hl a (by simp)] at h3
          simpa using h3.symm
    exact hb L.base fun b hb => lookup_of_mem hL.nodup hb

/-- **C121 is false of the code**: the argument `prec` of the call is ignored. -/
theorem C121_prec_ignored (L : Latexifier) (σ : SetOrder) (toFloat : ℝ → PyFloat) (u : Unit) (p q : ℕ) :
    L.call σ toFloat u p = L.call σ toFloat u q := rfl

/-! ## Non-vacuity -/

/-- A table of base units: centimetre, gram and second (in terms of m, kg, s). -/
noncomputable def cgs : Latexifier := ⟨[("L", ⟨⟨[("L", 1)], 1 / 100⟩, some "cm"⟩), ("M", ⟨⟨[("M", 1)], 1 / 1000⟩, some "g"⟩), ("T", ⟨⟨[("T", 1)], 1⟩, some "s"⟩)], true, false⟩

theorem cgs_proper : cgs.Proper := by
  refine ⟨by simp [cgs], ?_, ?_, ?_⟩
  · intro b hb
    simp only [cgs, List.mem_cons, List.not_mem_nil, or_false] at hb
    rcases hb with rfl | rfl | rfl <;> exact ⟨by simp, by simp⟩
  · intro b hb k
    simp only [cgs, List.mem_cons, List.not_mem_nil, or_false] at hb
    rcases hb with rfl | rfl | rfl <;> simp only [Unit.exp, dget, List.lookup_cons, List.lookup_nil] <;> split <;> simp_all
  · intro b hb
    simp only [cgs, List.mem_cons, List.not_mem_nil, or_false] at hb
    rcases hb with rfl | rfl | rfl <;> norm_num

/-- The joule `kg m^2 s^-2` in these units. -/
example {toFloat : ℝ → PyFloat} (hf : ToDouble toFloat) : ∃ t, cgs.call SetOrder.id toFloat ⟨[("M", 1), ("L", 2), ("T", -2)], 1⟩ = .ok t := by
  obtain ⟨t, ht, -⟩ := C121_denotes_partial cgs cgs_proper SetOrder.id hf ⟨[("M", 1), ("L", 2), ("T", -2)], 1⟩
    ⟨by simp, by simp⟩ (by
      intro k hk
      by_contra hc
      simp only [cgs, List.map_cons, List.map_nil, List.mem_cons, List.not_mem_nil, or_false, not_or] at hc
      apply hk
      have h1 : (k == "L") = false := by simpa using hc.1
      have h2 : (k == "M") = false := by simpa using hc.2.1
      have h3 : (k == "T") = false := by simpa using hc.2.2
      simp [Unit.exp, dget, List.lookup_cons, h1, h2, h3]) 16
  exact ⟨t, ht⟩

open Classical in
/-- A conversion as required exists. -/
theorem toDouble_exists : ∃ toFloat : ℝ → PyFloat, ToDouble toFloat := by
  have key : ∀ y : ℝ, ∃ x : ℚ, |(x : ℝ) - y| ≤ |y| / 2 ^ 53 := by
    intro y
    by_cases hy : y = 0
    · exact ⟨0, by simp [hy]⟩
    · have hp : 0 < |y| / 2 ^ 53 := div_pos (abs_pos.mpr hy) (by positivity)
      obtain ⟨x, h1, h2⟩ := exists_rat_btwn (show y < y + |y| / 2 ^ 53 by linarith)
      exact ⟨x, by rw [abs_le]; constructor <;> linarith⟩
  choose g hg using key
  exact ⟨fun y => .fin (g y), fun y => ⟨g y, rfl, hg y⟩⟩

/-- `C121_value_partial`: -1/3 with three digits. -/
example := C121_value_partial 2 (x := -1 / 3) (by norm_num)

end Verif.Units.Latex

import Verif.Names.SIModel
import Mathlib.Data.Nat.Bitwise
import Mathlib.Data.List.Nodup

/-! # Property theorem C67: names in `phytorch.units.si` -/

namespace Verif.Names

open Verif

/-- Distinctness check with a bit set (fast in the kernel). -/
def maskDistinct : List ℕ → ℕ → Bool
  | [], _ => true
  | x :: xs, m => Nat.beq (Nat.land m (2 ^ x)) 0 && maskDistinct xs (Nat.lor m (2 ^ x))

theorem maskDistinct_sound : ∀ (l : List ℕ) (m : ℕ), maskDistinct l m = true →
    l.Nodup ∧ ∀ x ∈ l, m.testBit x = false := by
  intro l
  induction l with
  | nil => intro m _; simp
  | cons x xs ih =>
    intro m h
    simp only [maskDistinct, Bool.and_eq_true] at h
    obtain ⟨h1, h2⟩ := h
    obtain ⟨h3, h4⟩ := ih _ h2
    have hb : ∀ y, (Nat.lor m (2 ^ x)).testBit y = (m.testBit y || (2 ^ x).testBit y) :=
      fun y => Nat.testBit_or m (2 ^ x) y
    have hx : m.testBit x = false := by
      have e : Nat.land m (2 ^ x) = 0 := Nat.eq_of_beq_eq_true h1
      have : (m &&& 2 ^ x).testBit x = false := by
        rw [show m &&& 2 ^ x = Nat.land m (2 ^ x) from rfl, e]; simp
      simpa [Nat.testBit_and, Nat.testBit_two_pow_self] using this
    refine ⟨List.nodup_cons.mpr ⟨fun hm => ?_, h3⟩, ?_⟩
    · have := h4 x hm
      rw [hb] at this
      simp [Nat.testBit_two_pow_self] at this
    · intro y hy
      rcases List.mem_cons.mp hy with rfl | hy
      · exact hx
      · have := h4 y hy
        rw [hb] at this
        simp only [Bool.or_eq_false_iff] at this
        exact this.1

/-- A numeric code of a string (any function would do: distinct codes imply distinct strings). -/
def code (P : ℕ) (s : String) : ℕ := (s.toList.foldl (fun n c => n * 2097152 + c.toNat) 1) % P

/-- The names with more than one definition. -/
def doubled : List String := ["A", "kg", "kilogram"]

def siRest : List (String × Tag) := siItems.filter (fun x => x.1 ∉ doubled)

set_option maxRecDepth 100000 in
theorem siRest_mask : maskDistinct (siRest.map (fun x => code 79693 x.1)) 0 = true := by decide +kernel

set_option maxRecDepth 100000 in
theorem siDoubled_items : siItems.filter (fun x => x.1 ∈ doubled) =
    [("kilogram", .pref 3 .gram), ("kg", .pref 3 .gram), ("A", .additional 7),
     ("kilogram", .base 2), ("kg", .base 2), ("A", .base 3)] := by decide +kernel

theorem siRest_nodup : (siRest.map Prod.fst).Nodup := by
  have h := (maskDistinct_sound _ _ siRest_mask).1
  have e : siRest.map (fun x => code 79693 x.1) = (siRest.map Prod.fst).map (code 79693) := by
    simp [Function.comp_def]
  rw [e] at h
  exact h.of_map

theorem get?_filter_ne {V} (p : String → Bool) (l : PyDict String V) (k : String) (h : p k = true) :
    PyDict.get? (l.filter (fun x => p x.1)) k = PyDict.get? l k := by
  induction l with
  | nil => rfl
  | cons x l ih =>
    obtain ⟨a, b⟩ := x
    simp only [List.filter_cons]
    by_cases ha : p a = true
    · simp only [ha, ↓reduceIte, PyDict.get?, ih]
    · have : a ≠ k := by rintro rfl; exact ha h
      simp [ha, PyDict.get?, this, ih]

/-- **C67.** In `phytorch.units.si` every registered name keeps the meaning it was given, except that
`A` (registered for both ångström and ampere) means the ampere, and `kg`/`kilogram` mean the base
kilogram rather than 10³ gram (which C06d shows equal). -/
theorem C67_si_names (n : String) (t : Tag) :
    siNS.get? n = some t ↔
      ((n, t) ∈ siItems ∧ n ∉ ["A", "kg", "kilogram"]) ∨ (n = "A" ∧ t = .base 3) ∨
      ((n = "kg" ∨ n = "kilogram") ∧ t = .base 2) := by
  have hu : siNS.get? n = PyDict.get? siItems.reverse n := by
    unfold siNS
    rw [PyDict.get?_update]
    simp [PyDict.lastVal, PyDict.get?]
  rw [hu]
  by_cases hd : n ∈ doubled
  · have e1 : PyDict.get? siItems.reverse n =
        PyDict.get? (siItems.filter (fun x => x.1 ∈ doubled)).reverse n := by
      rw [← List.filter_reverse]
      exact (get?_filter_ne (fun s => decide (s ∈ doubled)) siItems.reverse n (by simpa using hd)).symm
    rw [e1, siDoubled_items]
    have hd' : n ∈ ["A", "kg", "kilogram"] := hd
    simp only [List.mem_cons, List.not_mem_nil, or_false] at hd'
    rcases hd' with rfl | rfl | rfl
    · simp [PyDict.get?, eq_comm]
    · simp [PyDict.get?, eq_comm]
    · simp [PyDict.get?, eq_comm]
  · have e1 : PyDict.get? siItems.reverse n = PyDict.get? siRest.reverse n := by
      unfold siRest
      rw [← List.filter_reverse]
      exact (get?_filter_ne (fun s => decide (s ∉ doubled)) siItems.reverse n (by simpa using hd)).symm
    have hnd : PyDict.keys siRest.reverse |>.Nodup := by
      unfold PyDict.keys
      rw [List.map_reverse, List.nodup_reverse]
      exact siRest_nodup
    have hmem : (n, t) ∈ siRest ↔ (n, t) ∈ siItems := by
      unfold siRest; simp [List.mem_filter, hd]
    have hd' : n ∉ ["A", "kg", "kilogram"] := hd
    have hd'' := hd'
    simp only [List.mem_cons, List.not_mem_nil, or_false, not_or] at hd''
    rw [e1]
    constructor
    · intro h
      exact Or.inl ⟨hmem.mp (by simpa using PyDict.mem_of_get? h), hd'⟩
    · rintro (⟨h, -⟩ | ⟨rfl, -⟩ | ⟨rfl | rfl, -⟩)
      · exact PyDict.get?_of_mem hnd (by simpa using hmem.mpr h)
      · exact absurd rfl hd''.1
      · exact absurd rfl hd''.2.1
      · exact absurd rfl hd''.2.2

set_option maxRecDepth 100000 in
/-- Non-vacuity: `km` is 10³ metre, `mPa` is 10⁻³ pascal, `MeV` is 10⁶ electronvolt. -/
example : ("km", Tag.pref 3 (.base 0)) ∈ siItems ∧ ("mPa", Tag.pref (-3) (.coherent 2)) ∈ siItems ∧
    ("MeV", Tag.pref 6 (.additional 8)) ∈ siItems := by decide +kernel

end Verif.Names

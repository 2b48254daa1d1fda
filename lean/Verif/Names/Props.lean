import Verif.Names.Model
import Verif.Units.Props

/-! # Property theorems C06, C07 (names and prefixes) -/

namespace Verif.Names

open Verif Verif.Units

theorem collapse_go_str (l : List String) : collapse.go (l.map .str) = l := by
  induction l with
  | nil => rfl
  | cons a l ih => simp [collapse.go, collapse, ih]

/-! ## C07 -/

/-- **C07a.** Normalising the output again changes nothing (for any idempotent `lower`, as
`str.lower` is). -/
theorem C07_idempotent (lower : String → String) (hl : ∀ s, lower (lower s) = lower s) (it : Item)
    (o : List String × List String) (h : namesAndAbbrevs lower it = .ok o) :
    namesAndAbbrevs lower (asItem o) = .ok o := by
  have hlow : ∀ x ∈ o.1, lower x = x := by
    unfold namesAndAbbrevs at h
    split at h
    · split at h
      · cases h
      · cases h; intro x hx; simp only [List.mem_singleton] at hx; subst hx; exact hl _
    · cases h
    · cases h
      intro x hx; obtain ⟨y, _, rfl⟩ := List.mem_map.mp hx; exact hl _
    · cases h
      intro x hx; obtain ⟨y, _, rfl⟩ := List.mem_map.mp hx; exact hl _
  simp only [asItem, namesAndAbbrevs, collapse, collapse_go_str]
  rw [List.map_congr_left (g := id) hlow]
  simp

example : namesAndAbbrevs String.toLower (.tup [.seq [.str "Meter", .str "metre"], .str "m"])
    = .ok (["meter", "metre"], ["m"]) := by decide +kernel

/-- **C07b.** A plain non-empty string: itself lower-cased as the only name, its first character as
the only abbreviation; the empty string raises. -/
theorem C07_plain_string (lower : String → String) (c : Char) (cs : List Char) :
    namesAndAbbrevs lower (.str (String.ofList (c :: cs))) =
      .ok ([lower (String.ofList (c :: cs))], [String.singleton c]) ∧
    namesAndAbbrevs lower (.str "") = .error .indexError := by
  constructor <;> simp [namesAndAbbrevs]

/-- **C07c.** A one-element tuple is used both as names and as abbreviations; abbreviations keep their
case; extra elements beyond two are ignored; every string nested anywhere in the first (second)
element appears among the names (abbreviations) in order. -/
theorem C07_tuple (lower : String → String) (x y : Nest) (rest : List Nest) :
    namesAndAbbrevs lower (.tup [x]) = namesAndAbbrevs lower (.tup [x, x]) ∧
    namesAndAbbrevs lower (.tup (x :: y :: rest)) = .ok ((collapse x).map lower, collapse y) ∧
    namesAndAbbrevs lower (.tup []) = .error .indexError := ⟨rfl, rfl, rfl⟩

/-! ## C06 -/

/-- **C06a.** The prefix table: 24 rows, powers of ten pairwise distinct, all names pairwise distinct,
all abbreviations pairwise distinct, every row has a name and an abbreviation, and the rows are
exactly the SI prefixes. (Complete finite table, evaluated in the kernel.) -/
theorem C06_prefix_table :
    prefixMap.map (fun p => (p.names, p.abbrevs, p.expon)) =
      [(["quecto"], ["q"], -30), (["ronto"], ["r"], -27), (["yocto"], ["y"], -24), (["zepto"], ["z"], -21),
       (["atto"], ["a"], -18), (["femto"], ["f"], -15), (["pico"], ["p"], -12), (["nano"], ["n"], -9),
       (["micro"], ["u", "μ"], -6), (["milli"], ["m"], -3), (["centi"], ["c"], -2), (["deci"], ["d"], -1),
       (["deca"], ["da"], 1), (["hecto"], ["h"], 2), (["kilo"], ["k"], 3), (["mega"], ["M"], 6),
       (["giga"], ["G"], 9), (["tera"], ["T"], 12), (["peta"], ["P"], 15), (["exa"], ["E"], 18),
       (["zetta"], ["Z"], 21), (["yotta"], ["Y"], 24), (["ronna"], ["R"], 27), (["quetta"], ["Q"], 30)] ∧
    (prefixMap.map Prefix.expon).Nodup ∧ (prefixMap.flatMap Prefix.names).Nodup ∧
    (prefixMap.flatMap Prefix.abbrevs).Nodup := by
  refine ⟨?_, ?_, ?_, ?_⟩ <;> decide +kernel

/-- A prefixed unit is `10^e` times the unit, with the same dimensions. -/
theorem prefixed_spec (p : Prefix) (u : NUnit) (hu : u.unit.WF) :
    (prefixed p u).unit.value = 10 ^ p.expon * u.unit.value ∧
    ∀ k, (prefixed p u).unit.exp k = u.unit.exp k := by
  have := (C02_real_scaling u.unit hu ((10 : ℝ) ^ p.expon)).1
  exact ⟨by rw [mul_comm]; exact this.1, this.2⟩

theorem mem_prefixPairs {rows ps except_ n w} : (n, w) ∈ prefixPairs rows ps except_ ↔
    ∃ r ∈ rows, r.unit.name ∉ except_ ∧ ∃ p ∈ ps,
      ((∃ a ∈ p.names, ∃ b ∈ r.names, n = a ++ b) ∨ (∃ a ∈ p.abbrevs, ∃ b ∈ r.abbrevs, n = a ++ b)) ∧
      w = prefixed p r.unit := by
  simp only [prefixPairs, List.mem_flatMap, List.mem_filter, decide_eq_true_eq, List.mem_map,
    prefixedNames, List.mem_append, Prod.mk.injEq]
  constructor
  · rintro ⟨r, ⟨hr, he⟩, p, hp, n', hn, rfl, rfl⟩
    refine ⟨r, hr, he, p, hp, ?_, rfl⟩
    rcases hn with ⟨a, ha, b, hb, rfl⟩ | ⟨a, ha, b, hb, rfl⟩
    · exact Or.inl ⟨a, ha, b, hb, rfl⟩
    · exact Or.inr ⟨a, ha, b, hb, rfl⟩
  · rintro ⟨r, hr, he, p, hp, hn, rfl⟩
    refine ⟨r, ⟨hr, he⟩, p, hp, n, ?_, rfl, rfl⟩
    rcases hn with ⟨a, ha, b, hb, rfl⟩ | ⟨a, ha, b, hb, rfl⟩
    · exact Or.inl ⟨a, ha, b, hb, rfl⟩
    · exact Or.inr ⟨a, ha, b, hb, rfl⟩

theorem get?_update_nil_some {K V} [DecidableEq K] (l : List (K × V)) (k : K) (v : V)
    (h : (PyDict.update [] l).get? k = some v) : (k, v) ∈ l := by
  rw [PyDict.get?_update] at h
  simp only [PyDict.get?, Option.or_none] at h
  have := PyDict.mem_of_get? h
  simpa using this

theorem get?_update_nil_ne_none {K V} [DecidableEq K] (l : List (K × V)) (k : K) (v : V)
    (h : (k, v) ∈ l) : ∃ w, (PyDict.update [] l).get? k = some w ∧ (k, w) ∈ l := by
  cases hg : (PyDict.update [] l).get? k with
  | some w => exact ⟨w, rfl, get?_update_nil_some l k w hg⟩
  | none =>
    rw [PyDict.get?_update] at hg
    simp only [PyDict.get?, Option.or_none, PyDict.lastVal] at hg
    rw [PyDict.get?_eq_none_iff] at hg
    exact absurd (by simpa [PyDict.keys] using ⟨v, h⟩) hg

/-- **C06b.** For every unit map, prefix table and exception list: every name produced is
prefix+name or prefix-abbreviation+abbreviation of a unit that is not excepted, and is bound to
`10^e` times that unit with the same dimensions. -/
theorem C06_prefixed_sound (rows : List Row) (ps : List Prefix) (except_ : List String)
    (hwf : ∀ r ∈ rows, r.unit.unit.WF) (n : String) (w : NUnit)
    (h : (prefixManyToMany rows ps except_).get? n = some w) :
    ∃ r ∈ rows, r.unit.name ∉ except_ ∧ ∃ p ∈ ps,
      ((∃ a ∈ p.names, ∃ b ∈ r.names, n = a ++ b) ∨ (∃ a ∈ p.abbrevs, ∃ b ∈ r.abbrevs, n = a ++ b)) ∧
      w.unit.value = 10 ^ p.expon * r.unit.unit.value ∧ (∀ k, w.unit.exp k = r.unit.unit.exp k) := by
  obtain ⟨r, hr, he, p, hp, hn, rfl⟩ := mem_prefixPairs.mp (get?_update_nil_some _ _ _ h)
  exact ⟨r, hr, he, p, hp, hn, prefixed_spec p r.unit (hwf r hr)⟩

/-- **C06c.** Conversely every such combination is bound, and to the right unit unless another
combination spells the same name. -/
theorem C06_prefixed_complete (rows : List Row) (ps : List Prefix) (except_ : List String)
    (r : Row) (hr : r ∈ rows) (hwf : r.unit.unit.WF) (he : r.unit.name ∉ except_) (p : Prefix) (hp : p ∈ ps) (n : String)
    (hn : (∃ a ∈ p.names, ∃ b ∈ r.names, n = a ++ b) ∨ (∃ a ∈ p.abbrevs, ∃ b ∈ r.abbrevs, n = a ++ b))
    (huniq : ∀ r' ∈ rows, r'.unit.name ∉ except_ → ∀ p' ∈ ps, 
      ((∃ a ∈ p'.names, ∃ b ∈ r'.names, n = a ++ b) ∨ (∃ a ∈ p'.abbrevs, ∃ b ∈ r'.abbrevs, n = a ++ b)) →
      r' = r ∧ p' = p) :
    ∃ w, (prefixManyToMany rows ps except_).get? n = some w ∧
      w.name = (p.abbrevs.head?.getD "") ++ r.unit.name ∧
      w.unit.value = 10 ^ p.expon * r.unit.unit.value ∧ (∀ k, w.unit.exp k = r.unit.unit.exp k) := by
  obtain ⟨w, hw, hm⟩ := get?_update_nil_ne_none (prefixPairs rows ps except_) n (prefixed p r.unit)
    (mem_prefixPairs.mpr ⟨r, hr, he, p, hp, hn, rfl⟩)
  obtain ⟨r', hr', he', p', hp', hn', rfl⟩ := mem_prefixPairs.mp hm
  obtain ⟨rfl, rfl⟩ := huniq r' hr' he' p' hp' hn'
  exact ⟨_, hw, rfl, prefixed_spec p' r'.unit hwf⟩

/-- The row of `prefixed.py` 10: gram = kilogram / 1000. -/
noncomputable def gramRow (kg : NUnit) : Row := ⟨["gram"], ["g"], ⟨"g", kg.unit.mulReal (1 / 1000)⟩⟩

/-- **C06d.** The kilogram rebuilt from the gram with the shipped prefix table equals the base
kilogram it was defined from — under the name `kg` and under the name `kilogram`. -/
theorem C06_kilogram (kg : NUnit) (hkg : kg.unit.WF) :
    (∃ w, (prefixManyToMany [gramRow kg] prefixMap ["kg"]).get? "kg" = some w ∧ w.unit.eq kg.unit = true) ∧
    (∃ w, (prefixManyToMany [gramRow kg] prefixMap ["kg"]).get? "kilogram" = some w ∧ w.unit.eq kg.unit = true) := by
  have hg := (C02_real_scaling kg.unit hkg (1 / 1000)).1
  have hgw : (gramRow kg).unit.unit.WF := wf_mk _ _
  have key : ∀ n : String, n = "kg" ∨ n = "kilogram" →
      ∃ w, (prefixManyToMany [gramRow kg] prefixMap ["kg"]).get? n = some w ∧ w.unit.eq kg.unit = true := by
    intro n hn
    have hp : (⟨["kilo"], ["k"], 3⟩ : Prefix) ∈ prefixMap := by decide +kernel
    have hfin : ∀ p' ∈ prefixMap, ∀ n ∈ ["kg", "kilogram"], (∃ a ∈ p'.names, ∃ b ∈ ["gram"], n = a ++ b) ∨
        (∃ a ∈ p'.abbrevs, ∃ b ∈ ["g"], n = a ++ b) → p' = ⟨["kilo"], ["k"], 3⟩ := by
      decide +kernel
    have hn' : n ∈ ["kg", "kilogram"] := by simpa using hn
    obtain ⟨w, hw, -, hv, hx⟩ := C06_prefixed_complete [gramRow kg] prefixMap ["kg"] (gramRow kg) (by simp) hgw
      (by simp [gramRow]) ⟨["kilo"], ["k"], 3⟩ hp n
      (by
        rcases hn with rfl | rfl
        · exact Or.inr ⟨"k", by simp, "g", by simp [gramRow], by decide +kernel⟩
        · exact Or.inl ⟨"kilo", by simp, "gram", by simp [gramRow], by decide +kernel⟩)
      (by
        intro r' hr' _ p' hp' h
        simp only [List.mem_singleton] at hr'
        subst hr'
        exact ⟨rfl, hfin p' hp' n hn' h⟩)
    refine ⟨w, hw, ?_⟩
    obtain ⟨r', hr', he', p', hp', _, rfl⟩ := mem_prefixPairs.mp (get?_update_nil_some _ _ _ hw)
    refine (eq_iff (wf_mk _ _) hkg).mpr ⟨?_, fun k => ?_⟩
    · have e1 := hg.1
      refine hv.trans ?_
      change (10 : ℝ) ^ (3 : ℤ) * (kg.unit.mulReal (1 / 1000)).value = _
      rw [e1]; norm_num
      ring
    · exact (hx k).trans (hg.2 k)
  exact ⟨key _ (Or.inl rfl), key _ (Or.inr rfl)⟩

example : (⟨"kg", Units.Unit.mk' [("M", 1)]⟩ : NUnit).unit.WF := wf_mk _ _

end Verif.Names

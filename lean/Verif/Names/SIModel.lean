import Verif.Names.Model

/-! # The namespace of `phytorch.units.si` (`units/si.py`, `units/_si/*.py`): which name means what -/

namespace Verif.Names

open Verif

/-- What a name of `phytorch.units.si` denotes. -/
inductive Tag
  /-- row `i` of `_si/_base_unit_map.py` 6-16 -/
  | base (i : ℕ)
  /-- row `i` of `_si/_coherent_unit_map.py` 7-17 -/
  | coherent (i : ℕ)
  /-- the gram of `_si/prefixed.py` 10 -/
  | gram
  /-- row `i` of `_si/additional.py` 13-21 -/
  | additional (i : ℕ)
  /-- `10^e` times another unit -/
  | pref (e : ℤ) (t : Tag)
  deriving DecidableEq, Repr

/-- names + abbreviations of an item (`collapse_names` registers both, _utils.py 37-41). -/
def outOf (it : Item) : List String × List String :=
  match namesAndAbbrevs String.toLower it with
  | .ok o => o
  | .error _ => ([], [])

/-- `_si/_base_unit_map.py` 10-13 (five rows). -/
def baseItems : List Item :=
  [.tup [.seq [.str "meter", .str "metre"], .str "m"], .str "second", .tup [.str "kilogram", .str "kg"],
   .str "Ampere", .str "Kelvin"]

/-- `_si/_coherent_unit_map.py` 7-17. -/
def coherentItems : List Item :=
  [.tup [.str "Hertz", .str "Hz"], .str "Newton", .tup [.str "Pascal", .str "Pa"], .str "Joule",
   .str "Watt", .str "Coulomb", .str "Volt", .str "Farad", .tup [.str "Ohm", .str "Ω"],
   .tup [.str "Siemens", .seq [.str "S", .str "℧"]], .tup [.str "Weber", .str "Wb"], .str "Tesla",
   .str "Henry",
   .tup [.seq [.str "Celsius", .str "degree_Celsius"], .seq [.str "deg_C", .str "°C"]],
   .tup [.str "Bequerel", .str "Bq"], .tup [.str "Gray", .str "Gy"], .tup [.str "Sievert", .str "Sv"]]

/-- `_si/additional.py` 11, 13-20; the electronvolt is the last row. (The order of rows is immaterial
here because their names are pairwise distinct, which the theorem checks.) `ångström`'s lower-casing
is the identity. -/
def additionalItems : List Item :=
  [.tup [.str "minute", .str "min"], .str "hour", .str "day",
   .tup [.str "astronomical_unit", .seq [.str "au", .str "AU"]], .tup [.str "hectare", .str "ha"],
   .tup [.seq [.str "litre", .str "liter"], .seq [.str "L", .str "l"]],
   .tup [.seq [.str "ton", .str "tonne"], .str "t"],
   .tup [.seq [.str "angstrom", .str "ångström"], .seq [.str "A", .str "Å"]],
   .tup [.str "electronvolt", .str "eV"]]

/-- All rows of a map with their tags. -/
def tagged (items : List Item) (tag : ℕ → Tag) : List ((List String × List String) × Tag) :=
  (items.map outOf).zipIdx.map (fun (o, i) => (o, tag i))

/-- Names registered directly for a list of rows. -/
def direct (rows : List ((List String × List String) × Tag)) : List (String × Tag) :=
  rows.flatMap (fun (o, t) => (o.1 ++ o.2).map (fun n => (n, t)))

/-- Names registered by `_prefix_many_to_many` for a list of rows (_prefixes.py 29-38). -/
def prefixedRows (rows : List ((List String × List String) × Tag)) : List (String × Tag) :=
  rows.flatMap (fun (o, t) => prefixMap.flatMap (fun p =>
    ((p.names.flatMap (fun a => o.1.map (fun b => a ++ b))) ++
     (p.abbrevs.flatMap (fun a => o.2.map (fun b => a ++ b)))).map (fun n => (n, Tag.pref p.expon t))))

def gramRows : List ((List String × List String) × Tag) := [(outOf (.str "gram"), .gram)]

/-- `_si/prefixed.py` 10-14: the gram, then every prefix on gram, coherent and base units except
`kg` (ChainMap iterates its last map first). None of the prefixed names exists already, so
`ignore_if_exists` plays no role. -/
def prefixedNS : List (String × Tag) :=
  direct gramRows ++ prefixedRows (gramRows ++ tagged coherentItems .coherent ++
    (tagged baseItems .base).filter (fun r => r.2 ≠ .base 2))

/-- `_si/additional.py` 13-21. -/
def additionalNS : List (String × Tag) :=
  direct (tagged additionalItems .additional) ++
    prefixedRows ((tagged additionalItems .additional).filter (fun r => r.2 = .additional 8))

/-- `_si/coherent.py`. -/
def coherentNS : List (String × Tag) := direct (tagged coherentItems .coherent)

/-- `_si/base.py`. -/
def baseNS : List (String × Tag) := direct (tagged baseItems .base)

/-- `units/si.py` 3-6: star imports in the order prefixed, additional, coherent, base; a later import
overwrites an earlier one. -/
def siItems : List (String × Tag) := prefixedNS ++ additionalNS ++ coherentNS ++ baseNS

/-- The resulting namespace. -/
def siNS : PyDict String Tag := PyDict.update [] siItems

end Verif.Names

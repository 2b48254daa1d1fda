import Verif.Common.PyDict
import Verif.Units.Model

/-! # Model of `phytorch/units/_utils.py` (names) and `phytorch/units/_prefixes.py` -/

namespace Verif.Names

open Verif Verif.Units

/-- A string or an arbitrarily nested iterable of strings. -/
inductive Nest
  | str (s : String)
  | seq (l : List Nest)

/-- `more_itertools.collapse`: flatten nested iterables, strings are leaves (used at _utils.py 25). -/
def collapse : Nest → List String
  | .str s => [s]
  | .seq l => go l
where
  go : List Nest → List String
    | [] => []
    | x :: xs => collapse x ++ go xs

/-- The `_informat` argument: a string, or a tuple of nested iterables (_utils.py 16). -/
inductive Item
  | str (s : String)
  | tup (l : List Nest)

/-- `IndexError`. -/
inductive Err | indexError
  deriving DecidableEq, Repr

/-- `names_and_abbrevs` (_utils.py 20-26). `lower` is `str.lower`. -/
def namesAndAbbrevs (lower : String → String) : Item → Except Err (List String × List String)
  | .str s =>                                            -- item = (item, item[0])
    match s.toList with
    | [] => .error .indexError
    | c :: _ => .ok ([lower s], [String.singleton c])
  | .tup [] => .error .indexError                        -- item[0] of an empty tuple
  | .tup [x] => .ok ((collapse x).map lower, collapse x) -- len(item) == 1: item = 2*item
  | .tup (x :: y :: _) => .ok ((collapse x).map lower, collapse y)

/-- An `_outformat` value used again as an `_informat`. -/
def asItem (o : List String × List String) : Item :=
  .tup [.seq (o.1.map .str), .seq (o.2.map .str)]

/-- The raw prefix names of `_prefix_map` (_prefixes.py 15-19). -/
def prefixItems : List Item :=
  [.str "quecto", .str "ronto", .str "yocto", .str "zepto", .str "atto", .str "femto", .str "pico",
   .str "nano", .tup [.str "micro", .seq [.str "u", .str "μ"]], .str "milli", .str "centi", .str "deci",
   .tup [.str "deca", .str "da"], .str "hecto", .str "kilo", .str "Mega", .str "Giga", .str "Tera",
   .str "Peta", .str "Exa", .str "Zetta", .str "Yotta", .str "Ronna", .str "Quetta"]

/-- `(*range(1, 4), *range(6, 31, 3))` (_prefixes.py 14). -/
def eseq : List ℤ := (List.range 3).map (fun i => (i : ℤ) + 1) ++ (List.range 9).map (fun i => 6 + 3 * (i : ℤ))

/-- `chain(map(operator.neg, reversed(eseq)), eseq)` (_prefixes.py 20). -/
def prefixExps : List ℤ := eseq.reverse.map (fun e => -e) ++ eseq

/-- One row of `_prefix_map`: names, abbreviations, power of ten. -/
structure Prefix where
  names : List String
  abbrevs : List String
  expon : ℤ
  deriving DecidableEq, Repr

/-- `_prefix_map` (_prefixes.py 12-22), with ASCII `str.lower`. (`zip` stops at the shorter one.) -/
def prefixMap : List Prefix :=
  (prefixItems.zip prefixExps).filterMap (fun (it, e) =>
    match namesAndAbbrevs String.toLower it with
    | .ok (n, a) => some ⟨n, a, e⟩
    | .error _ => none)

/-- A named unit: `Unit.name` is used for the `except_` test and to name the prefixed unit. -/
structure NUnit where
  name : String
  unit : Units.Unit

/-- One row of a unit map `(names, abbrevs) -> unit`. -/
structure Row where
  names : List String
  abbrevs : List String
  unit : NUnit

/-- `(Fraction(10)**expon * unit).set_name(first(prefix_abbrevs) + unit.name)` (_prefixes.py 26,
36). `Fraction * Unit` reaches `Unit.__rmul__`, i.e. `Unit.__mul__` with a real. `first` of an empty
sequence would raise; every prefix row has an abbreviation. -/
noncomputable def prefixed (p : Prefix) (u : NUnit) : NUnit :=
  ⟨(p.abbrevs.head?.getD "") ++ u.name, u.unit.mulReal ((10 : ℝ) ^ p.expon)⟩

/-- `map(''.join, chain(*starmap(product, zip((prefixes, prefix_abbrevs), (names, abbrevs)))))`
(_prefixes.py 37). -/
def prefixedNames (p : Prefix) (r : Row) : List String :=
  (p.names.flatMap (fun a => r.names.map (fun b => a ++ b))) ++
  (p.abbrevs.flatMap (fun a => r.abbrevs.map (fun b => a ++ b)))

/-- The items produced by the comprehension of `_prefix_many_to_many`, in order. -/
noncomputable def prefixPairs (rows : List Row) (ps : List Prefix) (except_ : List String) :
    List (String × NUnit) :=
  (rows.filter (fun r => r.unit.name ∉ except_)).flatMap (fun r =>
    ps.flatMap (fun p => (prefixedNames p r).map (fun n => (n, prefixed p r.unit))))

/-- `_prefix_many_to_many` (_prefixes.py 29-38): the dict comprehension (a later item with the same
name wins). -/
noncomputable def prefixManyToMany (rows : List Row) (ps : List Prefix) (except_ : List String) :
    PyDict String NUnit :=
  PyDict.update [] (prefixPairs rows ps except_)

/-- `unique_everseen(chain(names, abbrevs))` and the comprehension of `collapse_names`
(_utils.py 37-41). -/
def collapseNames (rows : List Row) : PyDict String NUnit :=
  PyDict.update [] (rows.flatMap (fun r => ((r.names ++ r.abbrevs).map (fun n => (n, r.unit)))))

end Verif.Names

import Verif.Gen.Unified

/-!
# Model: texts of values

`B` is `field_generators/basic.rs`, `R` is `field_generators/registry.rs`, `D` is `field_generators/mod.rs`, and `G` is
`parallel_generation.rs`, all in `rudof_generate/src`.

Numbers in floating point are opaque. Decimals, which are made from them, and texts from lists of words are left out.
-/

namespace Gen

/-! ## Numbers as texts -/

/-- `i64::from_str`: an optional sign and digits, in range. -/
def parseI64 (s : Str) : Option Int :=
  let num (neg : Bool) (ds : Str) : Option Int :=
    if ds ≠ [] ∧ ds.all Char.isDigit then
      let v : Int := if neg then -(Nat.ofDigitChars 10 ds 0 : Nat) else (Nat.ofDigitChars 10 ds 0 : Nat)
      if -2 ^ 63 ≤ v ∧ v < 2 ^ 63 then some v else none
    else none
  match s with
  | '-' :: ds => num true ds
  | '+' :: ds => num false ds
  | ds => num false ds

/-- `to_string` of an integer. -/
def intText (i : Int) : Str := if i < 0 then '-' :: digits i.natAbs else digits i.natAbs

/-- `{:0w}` for a number that is not negative. -/
def padNat (w : Nat) (n : Nat) : Str := List.replicate (w - (digits n).length) '0' ++ digits n

/-- `{:0w}`: the sign counts. -/
def pad (w : Nat) (i : Int) : Str := if i < 0 then '-' :: padNat (w - 1) i.natAbs else padNat w i.natAbs

/-- `i64 as i32`. -/
def wrap32 (i : Int) : Int := (i + 2 ^ 31) % 2 ^ 32 - 2 ^ 31

/-! ## Parameters -/

/-- A number in JSON. -/
inductive Num (F : Type) where
  | int (i : Int)
  | float (f : F)

/-- The parameters that the generators look at; `min_length`, `max_length`, `values` and `fixed_value` are put in (G 672-697)
and no generator looks at them. Values of other types are as if absent. -/
structure Params (F : Type) where
  min : Option (Num F) := none
  max : Option (Num F) := none
  startYear : Option (Num F) := none
  endYear : Option (Num F) := none
  pattern : Option Str := none

/-- Numbers in floating point: parsing, and what is added to bounds that are exclusive. -/
structure Floats (F : Type) where
  parse : Str → Option F
  up : F → F
  down : F → F

/-- `as_i64`. -/
def Num.asI64 {F : Type} : Num F → Option Int
  | .int i => some i
  | .float _ => none

/-- `as_u64`. -/
def Num.asU64 {F : Type} : Num F → Option Int
  | .int i => if 0 ≤ i then some i else none
  | .float _ => none

/-- A bound (G 641-671): an integer with something added, or else a floating number; `none` is a panic of the addition, with
checks of overflow. -/
def bound {F : Type} (P : Floats F) (add : Int) (f : F → F) (v : Str) : Option (Option (Num F)) :=
  match parseI64 v with
  | some i => if -2 ^ 63 ≤ i + add ∧ i + add < 2 ^ 63 then some (some (.int (i + add))) else none
  | none => some ((P.parse v).map fun x => .float (f x))

/-- A constraint (G 640-702). -/
def paramStep {F : Type} (P : Floats F) (ps : Params F) : UConstraint → Option (Params F)
  | .minInclusive (.lit v _) => (bound P 0 id v).map fun b => { ps with min := b.or ps.min }
  | .maxInclusive (.lit v _) => (bound P 0 id v).map fun b => { ps with max := b.or ps.max }
  | .minExclusive (.lit v _) => (bound P 1 P.up v).map fun b => { ps with min := b.or ps.min }
  | .maxExclusive (.lit v _) => (bound P (-1) P.down v).map fun b => { ps with max := b.or ps.max }
  | .pattern p => some { ps with pattern := some p }
  | _ => some ps

/-- `constraints_to_parameters` (G 636-705). -/
def toParams {F : Type} (P : Floats F) (cs : List UConstraint) : Option (Params F) := cs.foldlM (paramStep P) {}

/-! ## Generators -/

/-- What is drawn, at a place. -/
structure Rnd where
  range : List Nat → Int → Int → Int
  flip : List Nat → Bool

/-- Ranges are what they say. -/
def Rnd.Lawful (rnd : Rnd) : Prop := ∀ p lo hi, lo ≤ hi → lo ≤ rnd.range p lo hi ∧ rnd.range p lo hi ≤ hi

/-- `gen_range(lo..=hi)`; `none` is a panic. -/
def Rnd.draw (rnd : Rnd) (place : List Nat) (lo hi : Int) : Option Int := if lo ≤ hi then some (rnd.range place lo hi) else none

section
variable {F : Type} (rnd : Rnd) (place : List Nat) (ps : Params F)

/-- `IntegerGenerator` (B 50-61). -/
def integerText : Option Str :=
  let lo := wrap32 ((ps.min.bind Num.asI64).getD (-1000))
  let hi := wrap32 ((ps.max.bind Num.asI64).getD 10000)
  (rnd.draw (0 :: place) lo hi).map intText

/-- `BooleanGenerator` (B 105-117); the probability makes no difference for what can be drawn. -/
def booleanText : Str := if rnd.flip place then "true".toList else "false".toList

/-- The date of `DateGenerator` and `DateTimeGenerator` (B 131-152, 166-184). -/
def dateText : Option Str :=
  let lo := wrap32 ((ps.startYear.bind Num.asU64).getD 1950)
  let hi := wrap32 ((ps.endYear.bind Num.asU64).getD 2024)
  (rnd.draw (0 :: place) lo hi).map fun y =>
    pad 4 y ++ '-' :: pad 2 (rnd.range (1 :: place) 1 12) ++ '-' :: pad 2 (rnd.range (2 :: place) 1 28)

/-- `DateTimeGenerator` (B 166-192). -/
def dateTimeText : Option Str :=
  (dateText rnd place ps).map fun d =>
    d ++ 'T' :: pad 2 (rnd.range (3 :: place) 0 23) ++ ':' :: pad 2 (rnd.range (4 :: place) 0 59) ++
      ':' :: pad 2 (rnd.range (5 :: place) 0 59) ++ ['Z']

end

/-! ## The registry and the manager -/

/-- An XSD datatype. -/
def xsd (n : String) : Str := "http://www.w3.org/2001/XMLSchema#".toList ++ n.toList

/-- `register_default_generators` (R 73-88): names and datatypes, in order. -/
def defaultGenerators : List (Str × Str) :=
  [("string".toList, xsd "string"), ("integer".toList, xsd "integer"), ("decimal".toList, xsd "decimal"),
    ("boolean".toList, xsd "boolean"), ("date".toList, xsd "date"), ("datetime".toList, xsd "dateTime"),
    ("uri".toList, xsd "anyURI"), ("pattern".toList, xsd "string")]

/-- `get_default_generator` (R 54-60): the last that was registered for the datatype (R 28-37). -/
def defaultFor (dt : Str) : Option Str := (defaultGenerators.reverse.find? fun e => e.2 = dt).map (·.1)

/-- `get_generator` (R 46-51). -/
def known (name : Str) : Bool := defaultGenerators.any fun e => e.1 = name

/-- `PropertyConfig` and `DatatypeConfig` (`config.rs`): a generator and parameters. -/
structure Chosen (F : Type) where
  generator : Str
  params : Params F

/-- Parameters that are put in afterwards (D 83-86, 96-99). -/
def Params.over {F : Type} (ps qs : Params F) : Params F :=
  ⟨qs.min.or ps.min, qs.max.or ps.max, qs.startYear.or ps.startYear, qs.endYear.or ps.endYear, qs.pattern.or ps.pattern⟩

/-- `generate_field` (D 77-107), with `run` for the generators; `none` is an error or a panic. -/
def generateField {F : Type} (run : Str → Params F → Option Str) (props types : Str → Option (Chosen F)) (property dt : Str)
    (ps : Params F) : Option Str :=
  match props property with
  | some c => if known c.generator then run c.generator (ps.over c.params) else none
  | none => match types dt with
    | some c => if known c.generator then run c.generator (ps.over c.params) else none
    | none => match defaultFor dt with
      | some g => run g ps
      | none => none

/-- The generators by name; those for texts, decimals and URIs are a parameter. -/
def runBasic {F : Type} (rnd : Rnd) (place : List Nat) (other : Str → Params F → Option Str) (name : Str) (ps : Params F) :
    Option Str :=
  if name = "integer".toList then integerText rnd place ps
  else if name = "boolean".toList then some (booleanText rnd place)
  else if name = "date".toList then dateText rnd place ps
  else if name = "datetime".toList then dateTimeText rnd place ps
  else other name ps

/-- The text of a value for a property with constraints (G 361-374). -/
def fieldText {F : Type} (P : Floats F) (run : Str → Params F → Option Str) (props types : Str → Option (Chosen F))
    (property dt : Str) (cs : List UConstraint) : Option Str :=
  (toParams P cs).bind (generateField run props types property dt)

end Gen

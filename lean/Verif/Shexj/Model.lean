import Verif.Shexc.Printer
import Verif.Shexc.Schema

/-!
# Model: schemas written to JSON and read from it (ShExJ)

The serde implementations in shex_ast/src/ast, on values of JSON rather than on their text: the text of a value is
made and read by the serde_json crate. Of that crate three things are kept: objects keep the order and the repetitions
of their fields, texts nested more than 127 times are refused, and a string with an escaped character cannot be
borrowed. Errors and panics of the reader are both `none`. Derived readers of structures also take arrays instead of
objects: this is left out, as no writer makes them.
-/

namespace Shexj

open Shexc
open Shexc.Pp (showInt showDec)

/-- Values of JSON (the serde_json crate). Integers and other numbers, these by their text, are kept apart. -/
inductive Json where
  | null
  | bool (b : Bool)
  | int (n : Int)
  | float (text : Str)
  | str (s : Str)
  | arr (js : List Json)
  | obj (fs : List (String × Json))

/-- The fields of an object in the order in which they are written. -/
abbrev Fields := List (String × Json)

mutual
/-- How deeply arrays and objects are nested. -/
def Json.depth : Json → Nat
  | .arr js => depths js + 1
  | .obj fs => depthf fs + 1
  | _ => 0
/-- The deepest of some values. -/
def depths : List Json → Nat
  | [] => 0
  | j :: js => max j.depth (depths js)
/-- The deepest of the values of some fields. -/
def depthf : List (String × Json) → Nat
  | [] => 0
  | (_, j) :: fs => max j.depth (depthf fs)
end

/-- The bound on nesting of the serde_json crate (128 levels, the last of which cannot be entered). -/
def maxDepth : Nat := 127

/-- What is taken from outside: the texts that are IRIs (oxiri), language tags with their normal form (oxilangtag and
rudof_rdf/src/rdf_core/term/literal/lang.rs:31-48), the texts of decimals (rust_decimal) and of doubles, these with the
text that the number read is displayed as, and numbers of facets as values of JSON
(rudof_rdf/src/rdf_core/term/literal/numeric_literal.rs:455-524). -/
structure Ext where
  iri : Str → Bool
  lang : Str → Option Str
  dec : Str → Option (Int × Nat)
  dbl : Str → Option Str
  numW : Num → Json
  numR : Json → Option Num

/-! ## Fields -/

/-- A string constant as a value. -/
def Json.lit (s : String) : Json := .str s.toList

/-- A field that is left out when there is nothing to write (`skip_serializing_if`). -/
def field (k : String) : Option Json → Fields
  | none => []
  | some j => [(k, j)]

/-- The values given to a key. -/
def vals (k : String) (fs : Fields) : List Json := (fs.filter fun f => f.1 == k).map (·.2)

/-- The value of a field that may be missing; `none` when the field is repeated (`duplicate_field`). -/
def one (k : String) (fs : Fields) : Option (Option Json) :=
  match vals k fs with
  | [] => some none
  | [j] => some (some j)
  | _ => none

/-- A field that must be there (`missing_field`). -/
def req {α : Type} (k : String) (fs : Fields) (f : Json → Option α) : Option α := do
  let o ← one k fs
  let j ← o
  f j

/-- A field of type `Option` in a derived reader: missing and `null` are `None`. -/
def optf {α : Type} (k : String) (fs : Fields) (f : Json → Option α) : Option (Option α) := do
  match ← one k fs with
  | none => some none
  | some .null => some none
  | some j => (f j).map some

/-- A field in a reader written by hand: it may be missing but not be `null`. -/
def may {α : Type} (k : String) (fs : Fields) (f : Json → Option α) : Option (Option α) := do
  match ← one k fs with
  | none => some none
  | some j => (f j).map some

/-- All fields are among those that the reader knows (`unknown_field`). -/
def known (ks : List String) (fs : Fields) : Bool := fs.all fun f => ks.contains f.1

/-- `String`. -/
def readStr : Json → Option Str
  | .str s => some s
  | _ => none

/-- `bool`. -/
def readBool : Json → Option Bool
  | .bool b => some b
  | _ => none

/-- `i32`. -/
def readI32 : Json → Option Int
  | .int n => if -2 ^ 31 ≤ n ∧ n < 2 ^ 31 then some n else none
  | _ => none

/-- `usize` on 64 bits. -/
def readUsize : Json → Option Nat
  | .int n => if 0 ≤ n ∧ n < 2 ^ 64 then some n.toNat else none
  | _ => none

/-- The elements of a `Vec`, all of which must be read. -/
def readAll {α : Type} (f : Json → Option α) : List Json → Option (List α)
  | [] => some []
  | j :: js => do
    let a ← f j
    let as ← readAll f js
    return a :: as

/-- `Vec`. -/
def readVec {α : Type} (f : Json → Option α) : Json → Option (List α)
  | .arr js => readAll f js
  | _ => none

/-- `Vec` and `Option` of a writer. -/
def writeVec {α : Type} (f : α → Json) (as : List α) : Json := .arr (as.map f)

/-! ## Names and labels -/

/-- `Display` of `IriRef` and `From<IriRef> for String` (prefixmap/src/iri/iri_ref.rs:130-146). -/
def refText : IriRef → Str
  | .iri s => s
  | .prefixed p l => p ++ ':' :: l

/-- `Serialize` of `IriRef` (prefixmap/src/iri/iri_ref.rs:12-13). -/
def writeRef (r : IriRef) : Json := .str (refText r)

/-- `FromStr` of `IriRef` (prefixmap/src/iri/iri_ref.rs:107-113). -/
def iriRef (X : Ext) (s : Str) : Option IriRef := if X.iri s then some (.iri s) else none

/-- `Deserialize` of `IriRef` (prefixmap/src/iri/visitor.rs:15-34): an IRI, otherwise a name split at its first
colon. -/
def readRef (X : Ext) : Json → Option IriRef
  | .str s =>
    if X.iri s then some (.iri s)
    else if s.contains ':' then some (.prefixed (s.takeWhile (· ≠ ':')) ((s.dropWhile (· ≠ ':')).drop 1))
    else none
  | _ => none

/-- A text that is written without escapes, so that it can be borrowed from the text of the JSON value. -/
def plain (s : Str) : Bool := s.all fun c => c ≠ '"' && c ≠ '\\' && decide (32 ≤ c.toNat)

/-- What `.*` matches: the rest of the line. -/
def line (s : Str) : Str := s.takeWhile (· ≠ '\n')

/-- What stands before the last `>`. -/
def beforeLast (s : Str) : Option Str :=
  if s.contains '>' then some ((s.reverse.dropWhile (· ≠ '>')).drop 1).reverse else none

/-- The capture of the regular expression `<(.*)>` (shape_expr_label.rs:76-77). -/
def angle : Str → Option Str
  | [] => none
  | c :: s =>
    if c = '<' then
      match beforeLast (line s) with
      | some r => some r
      | none => angle s
    else angle s

/-- The capture of the regular expression `_:(.*)` (shape_expr_label.rs:83-84). -/
def blank : Str → Option Str
  | [] => none
  | c :: s => if c = '_' ∧ s.head? = some ':' then some (line (s.drop 1)) else blank s

/-- `TryFrom<&str> for ShapeExprLabel` (shape_expr_label.rs:72-98). -/
def labelOf (X : Ext) (s : Str) : Option Label :=
  match angle s with
  | some i => (iriRef X i).map .iri
  | none =>
    match blank s with
    | some b => some (.bnode b)
    | none => (iriRef X s).map .iri

/-- `Display` of `ShapeExprLabel` (shape_expr_label.rs:100-109). -/
def labelText : Label → Str
  | .iri r => refText r
  | .bnode b => '_' :: ':' :: b
  | .start => "START".toList

/-- `Serialize` of `ShapeExprLabel` (shape_expr_label.rs:16-17, 111-115). -/
def writeLabel (l : Label) : Json := .str (labelText l)

/-- `Deserialize` of `ShapeExprLabel` (shape_expr_label.rs:16-17), from a borrowed string. -/
def readLabel (X : Ext) : Json → Option Label
  | .str s => if plain s then labelOf X s else none
  | _ => none

/-- `Display` and `Serialize` of `TripleExprLabel` (triple_expr_label.rs:10-11, 46-60). -/
def writeTLabel : TLabel → Json
  | .iri r => .str (refText r)
  | .bnode b => .str ('_' :: ':' :: b)

/-- `TryFrom<&str> for TripleExprLabel` (triple_expr_label.rs:36-43). -/
def tlabelOf (X : Ext) (s : Str) : Option TLabel := (iriRef X s).map .iri

/-- `Deserialize` of `TripleExprLabel` (triple_expr_label.rs:10-11), from a borrowed string. -/
def readTLabel (X : Ext) : Json → Option TLabel
  | .str s => if plain s then tlabelOf X s else none
  | _ => none

/-- `Serialize` of `SemAct` (sem_act.rs:5-11). -/
def writeAct (a : SemAct) : Json := .obj ([("name", writeRef a.name)] ++ field "code" (a.code.map .str))

/-- `Deserialize` of `SemAct` (sem_act.rs:5-11). -/
def readAct (X : Ext) : Json → Option SemAct
  | .obj fs => do
    let name ← req "name" fs (readRef X)
    let code ← optf "code" fs readStr
    return ⟨name, code⟩
  | _ => none

/-! ## Literals and values -/

/-- The datatypes that have literals of their own (shex_ast/src/ast/mod.rs:57-73). -/
def booleanIri : String := "http://www.w3.org/2001/XMLSchema#boolean"
def integerIri : String := "http://www.w3.org/2001/XMLSchema#integer"
def doubleIri : String := "http://www.w3.org/2001/XMLSchema#double"
def decimalIri : String := "http://www.w3.org/2001/XMLSchema#decimal"

/-- `Display` of `NumericLiteral` (numeric_literal.rs:612-632). -/
def numText : Num → Str
  | .int n => showInt n
  | .dec m s => showDec m s
  | .other t => t

/-- `get_type_str` (object_value.rs:165-183). Of the numbers that are neither integers nor decimals only doubles are
kept. -/
def numType : Num → String
  | .int _ => integerIri
  | .dec _ _ => decimalIri
  | .other _ => doubleIri

/-- `Serialize` of `ObjectValue` (object_value.rs:111-163), without dates and literals found to be wrong. -/
def writeObj : ObjVal → Json
  | .lit (.bool b) => .obj [("type", .lit booleanIri), ("value", .lit (if b then "true" else "false"))]
  | .lit (.num n) => .obj [("type", .lit (numType n)), ("value", .str (numText n))]
  | .iri r => .str (refText r)
  | .lit (.str s) => .obj [("value", .str s)]
  | .lit (.lang s t) => .obj [("language", .str t), ("value", .str s)]
  | .lit (.typed s dt) => .obj [("type", writeRef dt), ("value", .str s)]

/-- `isize::from_str` on 64 bits: digits after a sign that may be left out. -/
def digitsOf (s : Str) : Option Nat := if s ≠ [] ∧ s.all Char.isDigit then some (Nat.ofDigitChars 10 s 0) else none

/-- The signed number that a text stands for. -/
def signedOf : Str → Option Int
  | '-' :: r => (digitsOf r).map fun n => Int.neg (Int.ofNat n)
  | '+' :: r => (digitsOf r).map Int.ofNat
  | r => (digitsOf r).map Int.ofNat

/-- The bounds of `isize`. -/
def inIsize (n : Int) : Option Int := if -2 ^ 63 ≤ n ∧ n < 2 ^ 63 then some n else none

def isizeOf (s : Str) : Option Int := (signedOf s).bind inIsize

/-- The literal of one of the four datatypes that have literals of their own (object_value.rs:302-334,
value_set_value.rs:686-728); `none` inside when the datatype is another one. -/
def native (X : Ext) (type s : Str) : Option (Option Lit) :=
  if type = booleanIri.toList then
    if s = "false".toList then some (some (.bool false))
    else if s = "true".toList then some (some (.bool true))
    else none
  else if type = decimalIri.toList then (X.dec s).map fun d => some (.num (.dec d.1 d.2))
  else if type = doubleIri.toList then (X.dbl s).map fun t => some (.num (.other t))
  else if type = integerIri.toList then (isizeOf s).map fun n => some (.num (.int n))
  else some none

/-- The literal given by a type, a value and a language tag (object_value.rs:301-370, value_set_value.rs:686-775). -/
def literalOf (X : Ext) (type value language tag : Option Str) : Option Lit :=
  match type with
  | some t => do
    let dt ← if t = booleanIri.toList ∨ t = decimalIri.toList ∨ t = doubleIri.toList ∨ t = integerIri.toList then
        some (.iri t)
      else iriRef X t
    let v ← value
    match ← native X t v with
    | some l => some l
    | none =>
      match tag with
      | some g => (X.lang g).map fun g => .lang v g
      | none => some (.typed v dt)
  | none => do
    let v ← value
    match language with
    | some g => (X.lang g).map fun g => .lang v g
    | none => some (.str v)

/-- `Deserialize` of `ObjectValue` (object_value.rs:212-394). -/
def readObj (X : Ext) : Json → Option ObjVal
  | .str s => (iriRef X s).map .iri
  | .obj fs =>
    if known ["type", "value", "language", "languageTag"] fs then do
      let type ← may "type" fs readStr
      let value ← may "value" fs readStr
      let language ← may "language" fs readStr
      let tag ← may "languageTag" fs readStr
      (literalOf X type value language tag).map .lit
    else none
  | _ => none

/-- `Serialize` of `Annotation` (annotation.rs:60-71). -/
def writeAnnot (a : Annot) : Json :=
  .obj [("type", .lit "Annotation"), ("predicate", writeRef a.pred), ("object", writeObj a.obj)]

/-- The check of the type of an object (annotation.rs:138-147, node_constraint.rs:423-432). -/
def readType (t : String) (j : Json) : Option Unit := do
  let s ← readStr j
  if s = t.toList then some () else none

/-- `Deserialize` of `Annotation` (annotation.rs:73-170). -/
def readAnnot (X : Ext) : Json → Option Annot
  | .obj fs =>
    if known ["type", "predicate", "object"] fs then do
      let _ ← may "type" fs (readType "Annotation")
      let pred ← req "predicate" fs (readRef X)
      let obj ← req "object" fs (readObj X)
      return ⟨pred, obj⟩
    else none
  | _ => none

/-- `Serialize` of `IriRefOrWildcard` and `StringOrWildcard` (iri_ref_or_wildcard.rs:22-36,
string_or_wildcard.rs:26-40). -/
def writeStem {α : Type} (f : α → Str) : Option α → Json
  | some a => .str (f a)
  | none => .obj [("type", .lit "Wildcard")]

/-- `Serialize` of `LangOrWildcard` (lang_or_wildcard.rs:39-54). -/
def writeLangStem : Option Str → Json
  | some t => .str t
  | none => .str []

/-- `Serialize` of the exclusions (iri_exclusion.rs:13-28, literal_exclusion.rs:12-27, language_exclusion.rs:13-28). -/
def writeExcl {α : Type} (t : String) (f : α → Str) : Excl α → Json
  | .exact a => .str (f a)
  | .stem a => .obj [("type", .lit t), ("stem", .str (f a))]

/-- A field of type `Option<Vec<..>>` that is written even when it is `None`. -/
def writeOptVec {α : Type} (f : α → Json) : Option (List α) → Json
  | none => .null
  | some as => writeVec f as

/-- `Serialize` of `ValueSetValue` (value_set_value.rs:203-260). -/
def writeValue : Value → Json
  | .obj o => writeObj o
  | .lang t => .obj [("type", .lit "Language"), ("languageTag", .str t)]
  | .iriStem r => .obj [("type", .lit "IriStem"), ("stem", writeRef r)]
  | .iriStemRange s es =>
    .obj [("type", .lit "IriStemRange"), ("stem", writeStem refText s),
      ("exclusions", writeOptVec (writeExcl "IriStem" refText) es)]
  | .langStem s => .obj [("type", .lit "LanguageStem"), ("stem", writeLangStem s)]
  | .langStemRange s es =>
    .obj [("type", .lit "LanguageStemRange"), ("stem", writeLangStem s),
      ("exclusions", writeOptVec (writeExcl "LanguageStem" id) es)]
  | .litStem s => .obj [("type", .lit "LiteralStem"), ("stem", .str s)]
  | .litStemRange s es =>
    .obj [("type", .lit "LiteralStemRange"), ("stem", writeStem id s),
      ("exclusions", writeOptVec (writeExcl "LiteralStem" id) es)]

/-- `Stem` (value_set_value.rs:262-266) and its reader (value_set_value.rs:352-433): `none` is the wildcard. -/
def readStem : Json → Option (Option Str)
  | .str s => some (some s)
  | .obj fs =>
    if known ["type"] fs then (req "type" fs (readType "Wildcard")).map fun _ => none
    else none
  | _ => none

/-- `Exclusion` (exclusion.rs:12-17), without the variants that its reader does not make. -/
inductive RawExcl where
  | untyped (s : Str)
  | iriStem (r : IriRef)
  | litStem (s : Str)
  | langStem (t : Str)

/-- `StemValue` (exclusion.rs:256-262): the first of its variants that can be read. A language is never read, as every
string is a literal. -/
def readStemValue (X : Ext) (j : Json) : Option (IriRef ⊕ Str) :=
  match readRef X j with
  | some r => some (.inl r)
  | none => (readStr j).map .inr

/-- `Deserialize` of `Exclusion` (exclusion.rs:108-245). -/
def readExcl (X : Ext) : Json → Option RawExcl
  | .str s => some (.untyped s)
  | .obj fs =>
    if known ["type", "stem"] fs then do
      let t ← req "type" fs readStr
      let v ← req "stem" fs (readStemValue X)
      if t = "LiteralStem".toList then
        match v with
        | .inr s => some (.litStem s)
        | .inl _ => none
      else if t = "LanguageStem".toList then
        match v with
        | .inr s => (X.lang s).map .langStem
        | .inl _ => none
      else if t = "IriStem".toList then
        match v with
        | .inl r => some (.iriStem r)
        | .inr _ => none
      else none
    else none
  | _ => none

/-- `parse_literal_exclusions` (exclusion.rs:35-45) for one exclusion. -/
def litExcl : RawExcl → Option (Excl Str)
  | .litStem s => some (.stem s)
  | .untyped s => some (.exact s)
  | _ => none

/-- `parse_iri_exclusions` (exclusion.rs:47-60) for one exclusion. -/
def iriExcl (X : Ext) : RawExcl → Option (Excl IriRef)
  | .iriStem r => some (.stem r)
  | .untyped s => (iriRef X s).map .exact
  | _ => none

/-- `parse_language_exclusions` (exclusion.rs:62-77) for one exclusion. -/
def langExcl (X : Ext) : RawExcl → Option (Excl Str)
  | .langStem t => some (.stem t)
  | .untyped s => (X.lang s).map .exact
  | _ => none

/-- `Stem::as_iri_or_wildcard` (value_set_value.rs:325-336). -/
def iriOrWild (X : Ext) : Option Str → Option (Option IriRef)
  | some s => (iriRef X s).map some
  | none => some none

/-- `Stem::as_lang_or_wildcard` (value_set_value.rs:338-349). -/
def langOrWild (X : Ext) : Option Str → Option (Option Str)
  | some s => if s = [] then some none else (X.lang s).map some
  | none => some none

/-- The value given by the fields that were read (value_set_value.rs:584-780). -/
def valueOf (X : Ext) (type value : Option Str) (stem : Option (Option Str)) (language tag : Option Str)
    (excls : Option (List RawExcl)) : Option Value :=
  match type with
  | some t =>
    if t = "LiteralStemRange".toList then do
      let s ← stem
      let es ← excls
      let es ← es.mapM litExcl
      return .litStemRange s (some es)
    else if t = "LanguageStemRange".toList then do
      let s ← stem
      let es ← excls
      let es ← es.mapM (langExcl X)
      let s ← langOrWild X s
      return .langStemRange s (some es)
    else if t = "IriStemRange".toList then do
      let s ← stem
      let es ← excls
      let es ← es.mapM (iriExcl X)
      let s ← iriOrWild X s
      return .iriStemRange s (some es)
    else if t = "LiteralStem".toList then do
      let s ← stem
      let s ← s
      return .litStem s
    else if t = "LanguageStem".toList then do
      let s ← stem
      let s ← s
      if s = [] then return .langStem none
      else do
        let t ← X.lang s
        return .langStem (some t)
    else if t = "Language".toList then do
      let g ← tag
      let g ← X.lang g
      return .lang g
    else if t = "IriStem".toList then do
      let s ← stem
      let s ← s
      let r ← iriRef X s
      return .iriStem r
    else (literalOf X type value language tag).map fun l => .obj (.lit l)
  | none => (literalOf X type value language tag).map fun l => .obj (.lit l)

/-- `Deserialize` of `ValueSetValue` (value_set_value.rs:460-784). Every field is read, whatever the type is. -/
def readValue (X : Ext) : Json → Option Value
  | .str s => (iriRef X s).map fun r => .obj (.iri r)
  | .obj fs =>
    if known ["type", "value", "stem", "language", "languageTag", "exclusions"] fs then do
      let type ← may "type" fs readStr
      let value ← may "value" fs readStr
      let stem ← may "stem" fs readStem
      let language ← may "language" fs readStr
      let tag ← may "languageTag" fs readStr
      let excls ← may "exclusions" fs (readVec (readExcl X))
      valueOf X type value stem language tag excls
    else none
  | _ => none

/-! ## Node constraints -/

/-- `Display` of `NodeKind` in lower case (node_kind.rs:14-23, node_constraint.rs:190). -/
def kindText : Kind → String
  | .iri => "iri"
  | .bnode => "bnode"
  | .nonLiteral => "nonliteral"
  | .literal => "literal"

/-- The reader of `nodeKind` (node_constraint.rs:334-348). -/
def readKind (j : Json) : Option Kind := do
  let s ← readStr j
  if s = "iri".toList then some .iri
  else if s = "bnode".toList then some .bnode
  else if s = "literal".toList then some .literal
  else if s = "nonliteral".toList then some .nonLiteral
  else none

/-- The fields of a facet (node_constraint.rs:205-232). -/
def facetFields (X : Ext) : Facet → Fields
  | .length n => [("length", .int n)]
  | .minLength n => [("minlength", .int n)]
  | .maxLength n => [("maxlength", .int n)]
  | .pattern s fl => [("pattern", .str s)] ++ field "flags" (fl.map .str)
  | .fractionDigits n => [("fractiondigits", .int n)]
  | .totalDigits n => [("totaldigits", .int n)]
  | .maxExc n => [("maxexclusive", X.numW n)]
  | .maxInc n => [("maxinclusive", X.numW n)]
  | .minInc n => [("mininclusive", X.numW n)]
  | .minExc n => [("minexclusive", X.numW n)]

/-- The fields of a node constraint (node_constraint.rs:172-236). -/
def ncFields (X : Ext) (c : NC) : Fields :=
  field "nodeKind" (c.kind.map fun k => .lit (kindText k)) ++ field "datatype" (c.datatype.map writeRef) ++
    field "values" (c.values.map (writeVec writeValue)) ++ (c.facets.getD []).flatMap (facetFields X)

/-- The fields that a node constraint may have (node_constraint.rs:489-505). -/
def ncKeys : List String :=
  ["type", "nodeKind", "datatype", "values", "pattern", "flags", "length", "minlength", "maxlength", "mininclusive",
    "maxinclusive", "minexclusive", "maxexclusive", "totaldigits", "fractiondigits"]

/-- A facet that was read, if any, as a list. -/
def facetOf {α : Type} (f : α → Facet) (o : Option α) : List Facet := o.toList.map f

/-- `Deserialize` of `NodeConstraint` (node_constraint.rs:238-508) from the fields without the type. -/
def readNC (X : Ext) (fs : Fields) : Option NC :=
  if known ncKeys fs then do
    let kind ← may "nodeKind" fs readKind
    let datatype ← may "datatype" fs (readRef X)
    let values ← may "values" fs (readVec (readValue X))
    let pattern ← may "pattern" fs readStr
    let flags ← may "flags" fs readStr
    let length ← may "length" fs readUsize
    let minlength ← may "minlength" fs readUsize
    let maxlength ← may "maxlength" fs readUsize
    let mininc ← may "mininclusive" fs X.numR
    let maxinc ← may "maxinclusive" fs X.numR
    let minexc ← may "minexclusive" fs X.numR
    let maxexc ← may "maxexclusive" fs X.numR
    let total ← may "totaldigits" fs readUsize
    let fraction ← may "fractiondigits" fs readUsize
    let facets := facetOf (fun p => .pattern p flags) pattern ++ facetOf .length length ++
      facetOf .minLength minlength ++ facetOf .maxLength maxlength ++ facetOf .minInc mininc ++
      facetOf .maxInc maxinc ++ facetOf .minExc minexc ++ facetOf .maxExc maxexc ++
      facetOf .totalDigits total ++ facetOf .fractionDigits fraction
    return { kind := kind, datatype := datatype, values := values, facets := if facets = [] then none else some facets }
  else none

/-! ## Shape and triple expressions -/

/-- The type of a tagged object (`#[serde(tag = "type")]`), which comes first. -/
def tagged (t : String) (fs : Fields) : Json := .obj (("type", .lit t) :: fs)

mutual
/-- `ShapeExpr` through `serialize_string_or_struct` (shape_expr.rs:36-60, 71-81) with `Shape` in line
(shape.rs:8-27). -/
def writeSE (X : Ext) : SE → Json
  | .or es => tagged "ShapeOr" [("shapeExprs", .arr (writeSEs X es))]
  | .and es => tagged "ShapeAnd" [("shapeExprs", .arr (writeSEs X es))]
  | .not e => tagged "ShapeNot" [("shapeExpr", writeSE X e)]
  | .nc c => tagged "NodeConstraint" (ncFields X c)
  | .shape closed extra expr acts anns ext =>
    tagged "Shape" (field "closed" (closed.map .bool) ++ field "extra" (extra.map (writeVec writeRef)) ++
      field "expression" (writeTEO X expr) ++ field "semActs" (acts.map (writeVec writeAct)) ++
      field "annotations" (anns.map (writeVec writeAnnot)) ++ field "extends" (ext.map (writeVec writeLabel)))
  | .external => tagged "ShapeExternal" []
  | .ref l => writeLabel l
/-- `Vec<ShapeExprWrapper>`. -/
def writeSEs (X : Ext) : List SE → List Json
  | [] => []
  | e :: es => writeSE X e :: writeSEs X es
/-- `serialize_opt_box_string_or_struct` (serde_string_or_struct.rs:179-213) of a field that is left out when there is
no expression. -/
def writeSEO (X : Ext) : Option SE → Option Json
  | none => none
  | some e => some (writeSE X e)
/-- `TripleExpr` through `serialize_string_or_struct` (triple_expr.rs:13-86, 532-542). -/
def writeTE (X : Ext) : TE → Json
  | .each id es mn mx acts anns =>
    tagged "EachOf" (field "id" (id.map writeTLabel) ++ [("expressions", .arr (writeTEs X es))] ++
      field "min" (mn.map .int) ++ field "max" (mx.map .int) ++ field "semActs" (acts.map (writeVec writeAct)) ++
      field "annotations" (anns.map (writeVec writeAnnot)))
  | .one id es mn mx acts anns =>
    tagged "OneOf" (field "id" (id.map writeTLabel) ++ [("expressions", .arr (writeTEs X es))] ++
      field "min" (mn.map .int) ++ field "max" (mx.map .int) ++ field "semActs" (acts.map (writeVec writeAct)) ++
      field "annotations" (anns.map (writeVec writeAnnot)))
  | .tc id neg inv pred ve mn mx acts anns =>
    tagged "TripleConstraint" (field "id" (id.map writeTLabel) ++ field "negated" (neg.map .bool) ++
      field "inverse" (inv.map .bool) ++ [("predicate", writeRef pred)] ++ field "valueExpr" (writeSEO X ve) ++
      field "min" (mn.map .int) ++ field "max" (mx.map .int) ++ field "semActs" (acts.map (writeVec writeAct)) ++
      field "annotations" (anns.map (writeVec writeAnnot)))
  | .ref l => writeTLabel l
/-- `Vec<TripleExprWrapper>`. -/
def writeTEs (X : Ext) : List TE → List Json
  | [] => []
  | e :: es => writeTE X e :: writeTEs X es
/-- `Option<TripleExprWrapper>`. -/
def writeTEO (X : Ext) : Option TE → Option Json
  | none => none
  | some e => some (writeTE X e)
end

/-- The fields of a tagged object without those that hold its type. -/
def untag (fs : Fields) : Fields := fs.filter fun f => f.1 != "type"

/-- `i32` and the lists that triple expressions share. -/
def readActs (X : Ext) (fs : Fields) : Option (Option (List SemAct)) := optf "semActs" fs (readVec (readAct X))

/-- The annotations of shapes and triple expressions. -/
def readAnns (X : Ext) (fs : Fields) : Option (Option (List Annot)) := optf "annotations" fs (readVec (readAnnot X))

mutual
/-- `ShapeExpr` through `deserialize_string_or_struct` (serde_string_or_struct.rs:21-62, shape_expr.rs:36-69). The
number bounds the nesting of objects. -/
def readSE (X : Ext) : Nat → Json → Option SE
  | _, .str s => (labelOf X s).map .ref
  | n + 1, .obj fs => do
    let t ← req "type" fs readStr
    let fs := untag fs
    if t = "ShapeOr".toList then do
      let es ← req "shapeExprs" fs (readVec (readSE X n))
      return .or es
    else if t = "ShapeAnd".toList then do
      let es ← req "shapeExprs" fs (readVec (readSE X n))
      return .and es
    else if t = "ShapeNot".toList then do
      let e ← req "shapeExpr" fs (readSE X n)
      return .not e
    else if t = "NodeConstraint".toList then (readNC X fs).map .nc
    else if t = "Shape".toList then do
      let closed ← optf "closed" fs readBool
      let extra ← optf "extra" fs (readVec (readRef X))
      let expr ← optf "expression" fs (readTE X n)
      let acts ← readActs X fs
      let anns ← readAnns X fs
      let ext ← optf "extends" fs (readVec (readLabel X))
      return .shape closed extra expr acts anns ext
    else if t = "ShapeExternal".toList then some .external
    else none
  | _, _ => none
/-- `TripleExpr` through `deserialize_string_or_struct` (serde_string_or_struct.rs:21-62, triple_expr.rs:13-86,
523-530). -/
def readTE (X : Ext) : Nat → Json → Option TE
  | _, .str s => (tlabelOf X s).map .ref
  | n + 1, .obj fs => do
    let t ← req "type" fs readStr
    let fs := untag fs
    if t = "EachOf".toList then do
      let id ← optf "id" fs (readTLabel X)
      let es ← req "expressions" fs (readVec (readTE X n))
      let mn ← optf "min" fs readI32
      let mx ← optf "max" fs readI32
      let acts ← readActs X fs
      let anns ← readAnns X fs
      return .each id es mn mx acts anns
    else if t = "OneOf".toList then do
      let id ← optf "id" fs (readTLabel X)
      let es ← req "expressions" fs (readVec (readTE X n))
      let mn ← optf "min" fs readI32
      let mx ← optf "max" fs readI32
      let acts ← readActs X fs
      let anns ← readAnns X fs
      return .one id es mn mx acts anns
    else if t = "TripleConstraint".toList then do
      let id ← optf "id" fs (readTLabel X)
      let neg ← optf "negated" fs readBool
      let inv ← optf "inverse" fs readBool
      let pred ← req "predicate" fs (readRef X)
      let value ← optf "valueExpr" fs (readSE X n)
      let mn ← optf "min" fs readI32
      let mx ← optf "max" fs readI32
      let acts ← readActs X fs
      let anns ← readAnns X fs
      return .tc id neg inv pred value mn mx acts anns
    else none
  | _, _ => none
end

/-! ## Schemas -/

/-- `IriOrStr` (iri_or_str.rs:11-16). -/
inductive Import where
  | str (s : Str)
  | ref (r : IriRef)

/-- `ShapeDecl` (shape_decl.rs:10-27). -/
structure SDecl where
  type : Str
  id : Label
  abs : Bool
  expr : SE

/-- `Schema` (schema.rs:14-47). -/
structure Sch where
  context : Str
  type : Str
  imports : Option (List Import)
  start : Option SE
  startActs : Option (List SemAct)
  shapes : Option (List SDecl)
  prefixmap : Option Prefix.PrefixMap
  base : Option Str
  source : Str

/-- `From<IriOrStr> for String` (iri_or_str.rs:63-71). -/
def importText : Import → Str
  | .str s => s
  | .ref r => refText r

/-- `Serialize` of `IriOrStr` (iri_or_str.rs:11-12). -/
def writeImport (i : Import) : Json := .str (importText i)

/-- `From<String> for IriOrStr` (iri_or_str.rs:72-77). -/
def readImport (j : Json) : Option Import := (readStr j).map .str

/-- `Serialize` of `ShapeDecl` (shape_decl.rs:10-27). -/
def writeDecl (X : Ext) (d : SDecl) : Json :=
  .obj [("type", .str d.type), ("id", writeLabel d.id), ("abstract", .bool d.abs), ("shapeExpr", writeSE X d.expr)]

/-- `Deserialize` of `ShapeDecl` (shape_decl.rs:10-31). -/
def readDecl (X : Ext) (n : Nat) : Json → Option SDecl
  | .obj fs => do
    let type ← req "type" fs readStr
    let id ← req "id" fs (readLabel X)
    let abs ← may "abstract" fs readBool
    let expr ← req "shapeExpr" fs (readSE X n)
    return ⟨type, id, abs.getD false, expr⟩
  | _ => none

/-- `Serialize` of `PrefixMap` (prefixmap/src/prefix_map.rs:54-62); a key of the object is a string. -/
def writePM (m : Prefix.PrefixMap) : Json := .obj (m.serialize.map fun e => (String.ofList e.1, .str e.2))

/-- `Deserialize` of `IriS` (rudof_iri/src/iri/visitor.rs:16-34): also the empty text. -/
def readIriS (X : Ext) : Json → Option Str
  | .str s => if s = [] ∨ X.iri s = true then some s else none
  | _ => none

/-- The entries of a prefix map (prefix_map.rs:75-79). -/
def readEntries (X : Ext) : Fields → Option (List (Str × Str))
  | [] => some []
  | (k, j) :: fs => do
    let i ← readIriS X j
    let es ← readEntries X fs
    return (k.toList, i) :: es

/-- `Deserialize` of `PrefixMap` (prefix_map.rs:64-88). -/
def readPM (X : Ext) : Json → Option Prefix.PrefixMap
  | .obj fs => (readEntries X fs).map Prefix.PrefixMap.deserialize
  | _ => none

/-- `Serialize` of `Schema` (schema.rs:14-47). -/
def writeSch (X : Ext) (s : Sch) : Json :=
  .obj ([("@context", .str s.context), ("type", .str s.type)] ++ field "imports" (s.imports.map (writeVec writeImport)) ++
    field "start" (writeSEO X s.start) ++ field "startActs" (s.startActs.map (writeVec writeAct)) ++
    field "shapes" (s.shapes.map (writeVec (writeDecl X))) ++ field "prefixmap" (s.prefixmap.map writePM) ++
    field "base" (s.base.map .str))

/-- `Deserialize` of `Schema` (schema.rs:14-47) with a bound on the nesting of objects; the source, which is skipped,
is `IriS::default()`. -/
def readSchAt (X : Ext) (n : Nat) : Json → Option Sch
  | .obj fs => do
    let context ← req "@context" fs readStr
    let type ← req "type" fs readStr
    let imports ← optf "imports" fs (readVec readImport)
    let start ← optf "start" fs (readSE X n)
    let startActs ← optf "startActs" fs (readVec (readAct X))
    let shapes ← optf "shapes" fs (readVec (readDecl X n))
    let prefixmap ← optf "prefixmap" fs (readPM X)
    let base ← optf "base" fs (readIriS X)
    return ⟨context, type, imports, start, startActs, shapes, prefixmap, base, []⟩
  | _ => none

/-- `Schema::from_reader` (schema.rs:197-206): `serde_json::from_str`, which refuses what is nested too deeply. -/
def readSch (X : Ext) (j : Json) : Option Sch := if j.depth ≤ maxDepth then readSchAt X j.depth j else none

end Shexj

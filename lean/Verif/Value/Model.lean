import Verif.Lit.Model

/-!
# Model: value sets and node constraints

Sources: `shex_ast/src/ir/value_set_value.rs` (V), `shex_ast/src/ir/{value_set,object_value,exclusion}.rs`,
`shex_ast/src/ast/cond_kind.rs` (K), `shex_ast/src/ir/ast2ir.rs` (A), `rbe/src/match_cond.rs`,
`rudof_rdf/src/rdf_core/term/triple.rs` (T), `shex_ast/src/node.rs`.

Messages of errors are left out: a check is a `Bool`. Regular expressions belong to another crate and
are a parameter.
-/

namespace Value
open Lit

/-- `IriOrBlankNode`, the subject of a triple term. -/
inductive Subj
  | iri (s : Str)
  | bnode (s : Str)
  deriving DecidableEq, Repr

/-- `Object` (T): an RDF term. -/
inductive Obj (D : Type)
  | iri (s : Str)
  | bnode (s : Str)
  | lit (l : Literal D)
  | triple (s : Subj) (p : Str) (o : Obj D)

/-! ## Value sets -/

/-- `IriExclusion`, `LiteralExclusion`, `LanguageExclusion` (`exclusion.rs` 10-13, 25-28, 40-43): a
value or a stem. -/
inductive Excl
  | value (s : Str)
  | stem (s : Str)
  deriving DecidableEq, Repr

/-- `IriOrWildcard`, `StringOrWildcard`, `LangOrWildcard` (V 47-67). -/
inductive Stem
  | is (s : Str)
  | wildcard
  deriving DecidableEq, Repr

/-- `ValueSetValue` (V 12-39), with `ObjectValue` (`object_value.rs` 7-11). -/
inductive Member (D : Type)
  | iriStem (stem : Str)
  | iriStemRange (stem : Stem) (exclusions : Option (List Excl))
  | literalStem (stem : Str)
  | literalStemRange (stem : Stem) (exclusions : Option (List Excl))
  | language (tag : Str)
  | languageStem (stem : Stem)
  | languageStemRange (stem : Stem) (exclusions : Option (List Excl))
  | iri (s : Str)
  | literal (l : Literal D)

/-- `str.split('-')`. -/
def splitDash : Str → List Str
  | [] => [[]]
  | c :: cs =>
    if c = '-' then [] :: splitDash cs
    else
      match splitDash cs with
      | [] => [[c]]
      | p :: ps => (c :: p) :: ps

/-- `eq_ignore_ascii_case`. -/
def eqIgnoreCase (a b : Str) : Bool := decide (a.map Char.toLower = b.map Char.toLower)

/-- `lang_stem_matches` (V 84-94). -/
def langStemMatches (stem tag : Str) : Bool :=
  if (splitDash stem).length > (splitDash tag).length then false
  else ((splitDash stem).zip (splitDash tag)).all fun (s, t) => eqIgnoreCase s t

section
variable {D : Type} (X : Ext D)

/-- `Object::lang` (T 291-296). -/
def Obj.lang : Obj D → Option Str
  | .lit (.str _ (some g)) => some g
  | _ => none

/-- Whether an exclusion holds of a term. `text` is what exclusions of the kind look at, if the term has
it. -/
def Excl.hits (startsWith : Str → Str → Bool) (text : Option Str) : Excl → Bool
  | .value s => (match text with
    | some t => decide (t = s)
    | none => false)
  | .stem s => (match text with
    | some t => startsWith s t
    | none => false)

/-- The loop over exclusions (V 115-132, 158-176, 203-220): `false` as soon as one holds. -/
def passes (startsWith : Str → Str → Bool) (text : Option Str) : List Excl → Bool
  | [] => true
  | e :: es => if e.hits startsWith text then false else passes startsWith text es

/-- `IRI` of a term. -/
def Obj.iriText : Obj D → Option Str
  | .iri s => some s
  | _ => none

/-- Lexical form of a term that is a literal. -/
def Obj.litText : Obj D → Option Str
  | .lit l => some (l.lexicalForm X)
  | _ => none

/-- The test of the stem of a range (V 104-110, 144-153, 190-198). -/
def Stem.fits (startsWith : Str → Str → Bool) (text : Option Str) : Stem → Bool
  | .is s => (match text with
    | some t => startsWith s t
    | none => false)
  | .wildcard => true

/-- A stem range (V 103-135, 143-180, 189-223): first the stem, then the exclusions if any. -/
def stemRange (startsWith : Str → Str → Bool) (text : Option Str) (stem : Stem)
    (exclusions : Option (List Excl)) : Bool :=
  if !stem.fits startsWith text then false
  else
    match exclusions with
    | some es => passes startsWith text es
    | none => true

/-- `s.starts_with(stem)`, stem first. -/
def startsWith (stem s : Str) : Bool := stem.isPrefixOf s

/-- `ValueSetValue::match_value` (V 97-226), `ObjectValue::match_value` (`object_value.rs` 14-25). -/
def Member.matches : Member D → Obj D → Bool
  | .iriStem stem, o => (match o with
    | .iri s => startsWith stem s
    | _ => false)
  | .iriStemRange stem excl, o => stemRange startsWith o.iriText stem excl
  | .literalStem stem, o => (match o with
    | .lit l => startsWith stem (l.lexicalForm X)
    | _ => false)
  | .literalStemRange stem excl, o => stemRange startsWith (o.litText X) stem excl
  | .language tag, o => (match o.lang with
    | some g => decide (tag = g)
    | none => false)
  | .languageStem stem, o => (match o.lang with
    | some g => (match stem with
      | .is s => langStemMatches s g
      | .wildcard => true)
    | none => false)
  | .languageStemRange stem excl, o => stemRange langStemMatches o.lang stem excl
  | .iri s, o => (match o with
    | .iri t => decide (t = s)
    | _ => false)
  | .literal l, o => (match o with
    | .lit l' => l'.matchLit X l
    | _ => false)

/-- `ValueSet::check_value` (`value_set.rs` 19-21). -/
def checkValue (vs : List (Member D)) (o : Obj D) : Bool := vs.any fun m => m.matches X o

/-! ## Conditions -/

/-- `NodeKind` (`ast/node_kind.rs` 7-12). -/
inductive NodeKind
  | iri | bnode | nonLiteral | literal
  deriving DecidableEq, Repr

/-- `StringFacet` and `NumericFacet` (`ast/xs_facet.rs` 67-77, 147-154). -/
inductive Facet
  | length (n : Nat) | minLength (n : Nat) | maxLength (n : Nat)
  | pattern (regex : Str) (flags : Option Str)
  | minInclusive (v : Num) | minExclusive (v : Num) | maxInclusive (v : Num) | maxExclusive (v : Num)
  | totalDigits (n : Nat) | fractionDigits (n : Nat)

/-- `CondKind` (K 18-48), without semantic actions, which are in the model of shapes. -/
inductive Kind (D : Type)
  | any
  | nodeKind (k : NodeKind)
  | datatype (d : Dt)
  | facet (f : Facet)
  | valueSet (vs : List (Member D))

/-- Bytes of a text in UTF-8. -/
def byteLen (s : Str) : Nat := (s.map Char.utf8Size).sum

/-- Length of the text of a subject, in bytes. -/
def Subj.length : Subj → Nat
  | .iri s | .bnode s => byteLen s

/-- `Object::length` (T 250-262). -/
def Obj.length : Obj D → Nat
  | .iri s | .bnode s => byteLen s
  | .lit l => byteLen (l.lexicalForm X)
  | .triple s p o => s.length + byteLen p + o.length

/-- `Node::as_checked_object` (`node.rs` 51-62). -/
def Obj.checked : Obj D → Option (Obj D)
  | .lit l => (l.intoChecked X).map .lit
  | o => some o

/-- `Object::numeric_value` (T 268-273). -/
def Obj.numericValue : Obj D → Option Num
  | .lit (.num n) => some n
  | _ => none

/-- `check_node_node_kind` (K 224-236). -/
def checkNodeKind : NodeKind → Obj D → Bool
  | .iri, .iri _ => true
  | .bnode, .bnode _ => true
  | .literal, .lit _ => true
  | .nonLiteral, .bnode _ => true
  | .nonLiteral, .iri _ => true
  | _, _ => false

/-- `check_literal_datatype` (K 255-291). -/
def checkLitDt (l : Literal D) (expected : Dt) : Bool :=
  match l.intoChecked X with
  | none => false
  | some (.wrong _ _ _) => false
  | some l' =>
    match l'.datatype with
    | .prefixed _ _ => false
    | d => decide (d = expected)

/-- `check_node_datatype` (K 238-253). -/
def checkDt (o : Obj D) (expected : Dt) : Bool :=
  match o.checked X with
  | some (.lit l) => checkLitDt X l expected
  | _ => false

/-- `check_pattern` (K 191-222). `re` builds a regular expression, `none` if it is wrong. -/
def checkPattern (re : Str → Option (Str → Bool)) (o : Obj D) (regex : Str) (flags : Option Str) : Bool :=
  let text := match o with
    | .lit l => some (l.lexicalForm X)
    | .bnode b => some b
    | .iri s => some s
    | .triple _ _ _ => none
  match text with
  | none => false
  | some t =>
    let effective := match flags with
      | some f => if f = [] then regex else ['(', '?'] ++ f ++ [')'] ++ regex
      | none => regex
    match re effective with
    | some r => r t
    | none => false

/-- The number of a node: `as_checked_object` then `numeric_value` (K 309-318 and the like). -/
def Obj.number (o : Obj D) : Option Num := (o.checked X).bind Obj.numericValue

/-- The checks of facets (K 293-484). -/
def checkFacet (re : Str → Option (Str → Bool)) (o : Obj D) : Facet → Bool
  | .length n => decide (o.length X = n)
  | .minLength n => decide (o.length X ≥ n)
  | .maxLength n => decide (o.length X ≤ n)
  | .pattern r f => checkPattern X re o r f
  | .minInclusive v => (match o.number X with
    | some a => !a.lessThan X v
    | none => false)
  | .minExclusive v => (match o.number X with
    | some a => !a.lessThanOrEq X v
    | none => false)
  | .maxInclusive v => (match o.number X with
    | some a => a.lessThanOrEq X v
    | none => false)
  | .maxExclusive v => (match o.number X with
    | some a => a.lessThan X v
    | none => false)
  | .totalDigits n => (match o.number X with
    | some a => (match a.totalDigits with
      | some t => decide (t ≤ n)
      | none => false)
    | none => false)
  | .fractionDigits n => (match o.number X with
    | some a => (match a.fractionDigits with
      | some t => decide (t ≤ n)
      | none => false)
    | none => false)

/-- `CondKind::eval` (K 51-131). -/
def Kind.eval (re : Str → Option (Str → Bool)) (o : Obj D) : Kind D → Bool
  | .any => true
  | .nodeKind k => checkNodeKind k o
  | .datatype d => checkDt X o d
  | .facet f => checkFacet X re o f
  | .valueSet vs => checkValue X vs o

/-- `MatchCond` (`match_cond.rs` 41-52), without references, which node constraints do not make. A
single condition without kind is `none`. -/
inductive Cond (D : Type)
  | single (k : Option (Kind D))
  | and (cs : List (Cond D))

mutual
/-- `MatchCond::matches` (`match_cond.rs` 78-88), `SingleCond::matches` (191-196). -/
def Cond.matches (re : Str → Option (Str → Bool)) (o : Obj D) : Cond D → Bool
  | .single (some k) => k.eval X re o
  | .single none => true
  | .and cs => Cond.allMatch re o cs

/-- The fold over the conditions of a conjunction. -/
def Cond.allMatch (re : Str → Option (Str → Bool)) (o : Obj D) : List (Cond D) → Bool
  | [] => true
  | c :: cs => if c.matches re o then Cond.allMatch re o cs else false
end

/-- `ast::NodeConstraint`, with values and datatype resolved. -/
structure NodeConstraint (D : Type) where
  nodeKind : Option NodeKind
  datatype : Option Dt
  facets : Option (List Facet)
  values : Option (List (Member D))

/-- `options2match_cond` (A 967-977). -/
def options2cond (os : List (Option (Cond D))) : Cond D :=
  match os.filterMap id with
  | [] => .single none
  | [c] => c
  | cs => .and cs

/-- `node_constraint2match_cond` (A 888-906), `xs_facets2match_cond` (A 918-924). -/
def NodeConstraint.compile (c : NodeConstraint D) : Cond D :=
  options2cond [
    c.nodeKind.map fun k => .single (some (.nodeKind k)),
    c.datatype.map fun d => .single (some (.datatype d)),
    c.facets.map fun fs => .and (fs.map fun f => .single (some (.facet f))),
    c.values.map fun vs => .single (some (.valueSet vs))]

end
end Value

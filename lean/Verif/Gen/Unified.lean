import Verif.Gen.Model

/-!
# Model: schemas for generation, and the measure of conformance

`U` is `converters/shex_to_unified.rs`, `S` is `converters/shacl_to_unified.rs`, `M` is `unified_constraints.rs`,
`L` is `lib.rs`, `K` is `conformance_metrics.rs`, all in `rudof_generate/src`.

IRIs and labels are their texts. Regular expressions and numbers in floating point are parameters.
-/

namespace Gen

/-- `NodeKind` (M 44-52). -/
inductive UKind where
  | iri | blank | literal | blankOrIri | blankOrLiteral | iriOrLiteral
deriving DecidableEq

/-- `Value` (M 54-59). -/
inductive UValue where
  | iri (s : Str)
  | lit (lex : Str) (dt : Option Str)
  | blank (s : Str)
deriving DecidableEq

/-- `UnifiedConstraint` (M 28-42). -/
inductive UConstraint where
  | datatype (dt : Str)
  | shape (ref : Str)
  | kind (k : UKind)
  | pattern (p : Str)
  | minInclusive (v : UValue)
  | maxInclusive (v : UValue)
  | minExclusive (v : UValue)
  | maxExclusive (v : UValue)
  | minLength (n : Nat)
  | maxLength (n : Nat)
  | oneIn (vs : List UValue)
  | hasValue (v : UValue)
deriving DecidableEq

/-- `UnifiedPropertyConstraint` (M 20-26). -/
structure UProp where
  iri : Str
  constraints : List UConstraint
  min : Option Nat
  max : Option Nat
deriving DecidableEq

/-- `UnifiedShape` (M 12-18); classes and `closed`, which is never set, are left out. -/
structure UShape where
  id : Str
  props : List UProp

/-- `n as u32`. -/
def asU32 (n : Nat) : Nat := n % 2 ^ 32

/-- `n as u32` of a signed number. -/
def intAsU32 (i : Int) : Nat := (i % 2 ^ 32).toNat

/-- `TranslationMetrics` (K 12-16): the constraints of the schema and those that are represented. -/
structure Tally where
  original : Nat
  represented : Nat
deriving DecidableEq

/-- Both numbers are added to. -/
def Tally.add (a b : Tally) : Tally := ⟨a.original + b.original, a.represented + b.represented⟩

/-! ## From ShEx -/

/-- The node kinds of ShEx. -/
inductive XKind where
  | iri | bnode | literal | nonLiteral
deriving DecidableEq

/-- `XsFacet` (`shex_ast/src/ast/xs_facet.rs`), numbers as their texts. -/
inductive XFacet where
  | pattern (re : Str) (flags : Option Str)
  | minLength (n : Nat)
  | maxLength (n : Nat)
  | length (n : Nat)
  | minInclusive (v : Str)
  | maxInclusive (v : Str)
  | minExclusive (v : Str)
  | maxExclusive (v : Str)
  | totalDigits (n : Nat)
  | fractionDigits (n : Nat)

/-- `NodeConstraint` (`shex_ast/src/ast/node_constraint.rs`); values of a value set are terms or other things. -/
structure XNode (V : Type) where
  datatype : Option Str
  kind : Option XKind
  values : Option (List V)
  facets : List XFacet

/-- The value expressions that are told apart (U 118-131). -/
inductive XValue (V : Type) where
  | ref (label : Str)
  | node (nc : XNode V)
  | other

/-- Triple expressions. -/
inductive XExpr (V : Type) where
  | eachOf (es : List (XExpr V))
  | oneOf (es : List (XExpr V))
  | tc (pred : Str) (value : Option (XValue V)) (min max : Option Int)
  | ref (label : Str)

/-- `convert_cardinality` (U 238-248). -/
def convertCard (min max : Option Int) : Option Nat × Option Nat :=
  (match min with
    | none => some 1
    | some m => if 0 ≤ m then some m.toNat else some 0,
   max.bind fun m => if 0 ≤ m then some m.toNat else none)

/-- The node kinds (U 164-169). -/
def convertKind : XKind → UKind
  | .iri => .iri
  | .bnode => .blank
  | .literal => .literal
  | .nonLiteral => .blankOrIri

/-- `try_convert_xs_facet` (U 191-236): the constraint that is pushed, if the result is true. -/
def convertFacet : XFacet → Option UConstraint
  | .pattern re _ => some (.pattern re)
  | .minLength n => some (.minLength (asU32 n))
  | .maxLength n => some (.maxLength (asU32 n))
  | .length _ => none
  | .minInclusive v => some (.minInclusive (.lit v none))
  | .maxInclusive v => some (.maxInclusive (.lit v none))
  | .minExclusive v => some (.minExclusive (.lit v none))
  | .maxExclusive v => some (.maxExclusive (.lit v none))
  | .totalDigits _ => none
  | .fractionDigits _ => none

/-- `convert_node_constraint` (U 147-189). -/
def convertNode {V : Type} (nc : XNode V) : List UConstraint × Tally :=
  (nc.datatype.toList.map .datatype ++ nc.kind.toList.map (fun k => .kind (convertKind k)) ++
      nc.facets.filterMap convertFacet,
   ⟨nc.datatype.toList.length + nc.kind.toList.length + (nc.values.map List.length).getD 0 + nc.facets.length,
    nc.datatype.toList.length + nc.kind.toList.length + (nc.facets.filterMap convertFacet).length⟩)

/-- The constraints of a value expression (U 117-132). -/
def convertValue {V : Type} : Option (XValue V) → List UConstraint × Tally
  | none => ([], ⟨0, 0⟩)
  | some (.ref l) => ([.shape l], ⟨1, 1⟩)
  | some (.node nc) => convertNode nc
  | some .other => ([], ⟨1, 0⟩)

/-- A triple constraint (U 97-140). -/
def convertTC {V : Type} (pred : Str) (value : Option (XValue V)) (min max : Option Int) : UProp × Tally :=
  let card := convertCard min max
  let bounds := min.toList.length + max.toList.length
  let c := convertValue value
  (⟨pred, c.1, card.1, card.2⟩, Tally.add ⟨bounds, bounds⟩ c.2)

mutual
/-- `extract_properties` (U 85-145): what is added to the list and to the numbers. -/
def convertExpr {V : Type} : XExpr V → List UProp × Tally
  | .eachOf es => convertExprs es
  | .oneOf es => convertExprs es
  | .tc p v min max => let r := convertTC p v min max; ([r.1], r.2)
  | .ref _ => ([], ⟨0, 0⟩)
/-- The loop over the expressions (U 92-96). -/
def convertExprs {V : Type} : List (XExpr V) → List UProp × Tally
  | [] => ([], ⟨0, 0⟩)
  | e :: es =>
    let a := convertExpr e
    let b := convertExprs es
    (a.1 ++ b.1, a.2.add b.2)
end

/-! ## From SHACL -/

/-- Values in components of SHACL: IRIs and literals. -/
inductive SValue where
  | iri (s : Str)
  | lit (lex dt : Str)
deriving DecidableEq

/-- `ASTComponent` (`shacl/src/ast/component.rs`) as far as told apart. -/
inductive SComp where
  | minCount (n : Int)
  | maxCount (n : Int)
  | datatype (dt : Str)
  | kind (k : UKind)
  | pattern (re : Str) (flags : Option Str)
  | minLength (n : Int)
  | maxLength (n : Int)
  | minInclusive (lex dt : Str)
  | maxInclusive (lex dt : Str)
  | minExclusive (lex dt : Str)
  | maxExclusive (lex dt : Str)
  | hasValue (v : SValue)
  | oneIn (vs : List SValue)
  | node (ref : Str)
  | other

/-- `convert_value_to_unified_value` (S 245-252). -/
def SValue.unified : SValue → UValue
  | .iri s => .iri s
  | .lit lex dt => .lit lex (some dt)

/-- `convert_component` (S 166-238): the constraint that is pushed, if the result is true. -/
def convertComp : SComp → Option UConstraint
  | .datatype dt => some (.datatype dt)
  | .kind k => some (.kind k)
  | .pattern re _ => some (.pattern re)
  | .minLength n => some (.minLength (intAsU32 n))
  | .maxLength n => some (.maxLength (intAsU32 n))
  | .minInclusive l d => some (.minInclusive (.lit l (some d)))
  | .maxInclusive l d => some (.maxInclusive (.lit l (some d)))
  | .minExclusive l d => some (.minExclusive (.lit l (some d)))
  | .maxExclusive l d => some (.maxExclusive (.lit l (some d)))
  | .hasValue v => some (.hasValue v.unified)
  | .oneIn vs => some (.oneIn (vs.map SValue.unified))
  | .node r => some (.shape r)
  | .minCount _ => none
  | .maxCount _ => none
  | .other => none

/-- The step of `extract_cardinality` (S 152-160). -/
def cardStep (a : Option Nat × Option Nat) : SComp → Option Nat × Option Nat
  | .minCount n => if 0 ≤ n then (some (intAsU32 n), a.2) else a
  | .maxCount n => if 0 ≤ n then (a.1, some (intAsU32 n)) else a
  | _ => a

/-- `extract_cardinality` (S 147-164): the last ones that are not negative. -/
def extractCard (cs : List SComp) : Option Nat × Option Nat := cs.foldl cardStep (none, none)

/-- `convert_property_shape` (S 106-145). -/
def convertPropShape (path : Str) (cs : List SComp) : UProp × Tally :=
  let card := extractCard cs
  let out := cs.filterMap convertComp
  (⟨path, if out = [] then [.datatype xsdString] else out, card.1, card.2⟩,
   ⟨cs.length, card.1.toList.length + card.2.toList.length + out.length⟩)

/-! ## To what the generator takes -/

/-- `c as i32`. -/
def asI32 (n : Nat) : Int := if n < 2 ^ 31 then n else (n : Int) - 2 ^ 32

/-- `find_map` for datatypes (L 209-212). -/
def UConstraint.datatype? : UConstraint → Option Str
  | .datatype dt => some dt
  | _ => none

/-- `find_map` for references (L 215-218). -/
def UConstraint.shape? : UConstraint → Option Str
  | .shape r => some r
  | _ => none

/-- A property (L 195-228). -/
def UProp.info (p : UProp) : PropInfo UConstraint :=
  ⟨p.iri, p.constraints.findSome? UConstraint.datatype?, p.constraints.findSome? UConstraint.shape?,
    p.min.map asI32, p.max.map asI32, p.constraints⟩

/-- `convert_unified_to_shape_infos` (L 182-262); the name of the shape is one that can be parsed. -/
def UShape.info (s : UShape) : ShapeInfo UConstraint :=
  ⟨s.id, s.props.flatMap fun p => (p.constraints.filterMap UConstraint.shape?).map fun r =>
      ⟨r, p.iri, p.min.map asI32, p.max.map asI32⟩,
    s.props.map UProp.info⟩

/-! ## The measure of conformance -/

/-- RDF terms. -/
inductive UTerm where
  | iri (s : Str)
  | blank (s : Str)
  | lit (lex dt : Str)
deriving DecidableEq

/-- A triple of the graph. -/
structure UTriple where
  subj : UTerm
  pred : Str
  obj : UTerm
deriving DecidableEq

/-- Numbers in floating point and regular expressions. -/
structure Outside (F : Type) where
  parse : Str → Option F
  le : F → F → Bool
  lt : F → F → Bool
  isMatch : Str → Str → Option Bool

section
variable {F : Type} (O : Outside F)

/-- `term_as_f64` (K 202-207). -/
def termNumber : UTerm → Option F
  | .lit lex _ => O.parse lex
  | _ => none

/-- `value_as_f64` (K 209-214). -/
def valueNumber : UValue → Option F
  | .lit lex _ => O.parse lex
  | _ => none

/-- `compare_numeric` (K 187-200). -/
def compareNumeric (o : UTerm) (b : UValue) (cmp : F → F → Bool) : Bool :=
  match termNumber O o, valueNumber O b with
  | some x, some y => cmp x y
  | _, _ => false

/-- `value_matches_term` (K 216-233). -/
def valueMatches : UValue → UTerm → Bool
  | .iri a, .iri b => a == b
  | .blank a, .blank b => a == b
  | .lit lex dt, .lit lex' dt' => lex' == lex && (match dt with | some d => dt' == d | none => true)
  | _, _ => false

/-- The node kinds (K 157-164). -/
def kindHolds : UKind → UTerm → Bool
  | .iri, .iri _ => true
  | .blank, .blank _ => true
  | .literal, .lit _ _ => true
  | .blankOrIri, .iri _ => true
  | .blankOrIri, .blank _ => true
  | .blankOrLiteral, .blank _ => true
  | .blankOrLiteral, .lit _ _ => true
  | .iriOrLiteral, .iri _ => true
  | .iriOrLiteral, .lit _ _ => true
  | _, _ => false

/-- `evaluate_constraint` (K 137-185). -/
def evalConstraint (types : UTerm → Option Str) (c : UConstraint) (o : UTerm) : Bool :=
  match c with
  | .datatype dt => match o with
    | .lit _ d => d == dt
    | _ => false
  | .shape r => match o with
    | .lit _ _ => false
    | o => types o == some r
  | .kind k => kindHolds k o
  | .pattern p => match o with
    | .lit lex _ => (O.isMatch p lex).getD false
    | _ => false
  | .minInclusive b => compareNumeric O o b fun v b => O.le b v
  | .maxInclusive b => compareNumeric O o b fun v b => O.le v b
  | .minExclusive b => compareNumeric O o b fun v b => O.lt b v
  | .maxExclusive b => compareNumeric O o b fun v b => O.lt v b
  | .minLength n => match o with
    | .lit lex _ => n ≤ lex.length
    | _ => false
  | .maxLength n => match o with
    | .lit lex _ => lex.length ≤ n
    | _ => false
  | .oneIn vs => vs.any fun v => valueMatches v o
  | .hasValue v => valueMatches v o

/-- `subject_type` (K 44-53): the last type of a subject that is an IRI, in the order of the triples. -/
def subjectType (ts : List UTriple) (s : UTerm) : Option Str :=
  ts.foldl (fun a t => if t.pred = rdfType ∧ t.subj = s then match t.obj with
    | .iri c => some c
    | _ => a else a) none

/-- `outgoing_counts` (K 49-52). -/
def outgoingCount (ts : List UTriple) (s : UTerm) (p : Str) : Nat :=
  (ts.filter fun t => t.pred ≠ rdfType ∧ t.subj = s ∧ t.pred = p).length

/-- `validate_non_type_triple` (K 100-135); `model` is the map of shapes. -/
def validTriple (model : Str → Option UShape) (ts : List UTriple) (t : UTriple) : Bool :=
  match (subjectType ts t.subj).bind model with
  | none => false
  | some shape => match shape.props.find? fun p => p.iri = t.pred with
    | none => false
    | some p =>
      (match p.max with | some m => decide (outgoingCount ts t.subj t.pred ≤ m) | none => true) &&
      p.constraints.all fun c => evalConstraint O (subjectType ts) c t.obj

/-- Whether a triple counts as valid (K 57-69). -/
def countsValid (model : Str → Option UShape) (ts : List UTriple) (t : UTriple) : Bool :=
  if t.pred = rdfType then match t.obj with
    | .iri c => (model c).isSome
    | _ => false
  else validTriple O model ts t

/-- `from_graph_and_model` (K 29-97): all triples and valid triples. The graph is a set in the order of iteration. -/
def validTriples (model : Str → Option UShape) (ts : List UTriple) : Nat := (ts.filter (countsValid O model ts)).length

/-- The numbers of constraints (K 78-81). -/
def reported (t : Tally) : Tally := ⟨t.original, Nat.min t.represented t.original⟩

end

end Gen

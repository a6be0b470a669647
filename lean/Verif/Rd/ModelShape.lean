import Verif.Rd.Model

/-!
# Model: the reader of SHACL shapes from graphs

Files are in `shacl/src/rdf` unless they begin with `rudof_rdf`; `CO`, `PR`, `UT`, `PM` as in `Rd/Model.lean`.

The literals of the graph are converted by outside code, which is a parameter (`Ext`). Messages, names, descriptions
and orders of shapes are not modelled (reading them neither fails nor moves the focus), nor are the prefixes and
messages of SPARQL constraints and the prefix map of the schema. Sets of IRIs and of objects that are made from sets of
terms are traversed in the order of the terms (the theorems speak of all orders).
-/

namespace Rd

/-- Conversions of literals: to concrete literals (`try_into`, may fail), to integers (`to_integer`), to Booleans
(`to_bool`), to texts (`lexical_form`); of texts to language tags (`Lang::new`, may fail); which concrete literals are
`BooleanLiteral(true)`. -/
structure Ext (L C : Type) where
  conc : L → Option C
  int : L → Option Int
  bool : L → Option Bool
  text : L → String
  tag : String → Option String
  isTrue : C → Bool

/-- `Object` and `Value` (without triple terms). -/
inductive Ob (C : Type) where
  | iri (i : Iri)
  | bnode (s : String)
  | lit (c : C)
deriving DecidableEq

/-- `NodeKind` (`types/node_kind.rs`). -/
inductive Kind where
  | iri | lit | bnode | bnodeOrIri | bnodeOrLit | iriOrLit
deriving DecidableEq

/-- `ASTComponent` (`ast/component.rs`); of SPARQL constraints the query and whether it is deactivated. -/
inductive Comp (C : Type) where
  | cls (o : Ob C)
  | nodeKind (k : Kind)
  | datatype (i : Iri)
  | minCount (n : Int)
  | maxCount (n : Int)
  | minInclusive (c : C)
  | minExclusive (c : C)
  | maxInclusive (c : C)
  | maxExclusive (c : C)
  | minLength (n : Int)
  | maxLength (n : Int)
  | pattern (p : String) (flags : Option String)
  | languageIn (l : List String)
  | uniqueLang (b : Bool)
  | equals (i : Iri)
  | disjoint (i : Iri)
  | lessThan (i : Iri)
  | lessThanOrEquals (i : Iri)
  | not (o : Ob C)
  | and (l : List (Ob C))
  | or (l : List (Ob C))
  | xone (l : List (Ob C))
  | node (o : Ob C)
  | qualified (o : Ob C) (min max : Option Int) (disjoint : Option Bool) (siblings : List (Ob C))
  | closed (b : Bool) (ignored : List Iri)
  | hasValue (o : Ob C)
  | isIn (l : List (Ob C))
  | sparql (select : String) (deactivated : Option Bool)
  | deactivated (b : Bool)
deriving DecidableEq

section
variable {L C A B : Type}

/-- `term_as_object`, `try_into::<Object>`. -/
def Ext.obj (E : Ext L C) : Tm L → Option (Ob C)
  | .iri i => some (.iri i)
  | .bnode b => some (.bnode b)
  | .lit l => (E.conc l).map .lit

/-- `term_to_iri` (UT 208-217). -/
def toIri : Tm L → Option Iri
  | .iri i => some i
  | _ => none

/-- `term_to_int` (UT 99-111). -/
def Ext.toInt (E : Ext L C) : Tm L → Option Int
  | .lit l => E.int l
  | _ => none

/-- `term_to_bool` (UT 173-185). -/
def Ext.toBool (E : Ext L C) : Tm L → Option Bool
  | .lit l => E.bool l
  | _ => none

/-- `term_to_string` (UT 279-288). -/
def Ext.toText (E : Ext L C) : Tm L → Option String
  | .lit l => some (E.text l)
  | _ => none

/-- `term_to_literal` and `try_into::<ConcreteLiteral>` (PR, `LiteralsPropertyParser`). -/
def Ext.toConc (E : Ext L C) : Tm L → Option C
  | .lit l => E.conc l
  | _ => none

/-- `term_to_value` (`parsers/utils.rs` 31-53). -/
def Ext.toValue (E : Ext L C) : Tm L → Option (Ob C)
  | .iri i => some (.iri i)
  | .bnode _ => none
  | .lit l => (E.conc l).map .lit

/-- `term_to_node_kind` (`parsers/value_type/node_kind.rs` 21-36). -/
def toKind : Tm L → Option Kind
  | .iri (.v .IRI) => some .iri
  | .iri (.v .Literal) => some .lit
  | .iri (.v .BlankNode) => some .bnode
  | .iri (.v .BlankNodeOrIRI) => some .bnodeOrIri
  | .iri (.v .BlankNodeOrLiteral) => some .bnodeOrLit
  | .iri (.v .IRIOrLiteral) => some .iriOrLit
  | _ => none

variable [DecidableEq L] (g : Gr L) (E : Ext L C)

/-- All values of a property converted, with an error if one cannot be: `IntegersPropertyParser`,
`StringsPropertyParser`, `IrisPropertyParser`, `ObjectsPropertyParser`, `LiteralsPropertyParser` (PR 170-425). -/
def allOf (p : Voc) (f : Tm L → Option B) : Pr L (List B) := do
  let vs ← values g (.v p)
  each (fun v => lift (f v)) vs

/-- The values of a property that can be converted: `BoolsPropertyParser` (PR 206-245) and `flat_map` over results. -/
def someOf (p : Voc) (f : Tm L → Option B) : Pr L (List B) := do
  let vs ← values g (.v p)
  ret (vs.filterMap f)

/-- `SingleIntegerPropertyParser`, `SingleBoolPropertyParser`, `SingleIriPropertyParser`, `SingleStringPropertyParser`
(PR 427-600). -/
def oneOf (p : Voc) (f : Tm L → Option B) : Pr L B := do
  let v ← single g (.v p)
  lift (f v)

/-- `MapPropertyValuesParser` (CO 600-649): the focus is put back, unless there is an error. -/
def mapProp (p : Voc) (q : Pr L B) : Pr L (List B) := do
  let t ← getFocus
  let vs ← values g (.v p)
  let bs ← each (fun v => do setFocus v; q) vs
  setFocus t
  ret bs

/-- `pattern` (`parsers/string_based/pattern.rs`). -/
def patternP : Pr L (List (Comp C)) := do
  let flags ← optional (oneOf g .flags E.toText)
  let ps ← allOf g .pattern E.toText
  match ps with
  | [] => ret []
  | [p] => ret [.pattern p flags]
  | _ => fail

/-- `term_as_lang` (`rudof_rdf/src/rdf_core/rdf.rs` 311-325) under `flat_map` (`parsers/string_based/language_in.rs`
16-19). -/
def langs : List (Tm L) → Pr L (List String)
  | [] => ret []
  | .bnode _ :: l => langs l
  | .iri _ :: _ => panic
  | .lit x :: l =>
    match E.tag (E.text x) with
    | some t => do
      let ts ← langs l
      ret (t :: ts)
    | none => panic

/-- `and`, `or`, `xone` (`parsers/logical`): the values of lists as nodes (`terms_as_nodes`). -/
def nodeList (k : List (Ob C) → Comp C) : Pr L (Comp C) := do
  let ts ← listP g
  let os ← each (fun t => lift (E.obj t)) ts
  ret (k os)

/-- `objects_for` (`rudof_rdf/src/rdf_core/neighs_rdf.rs` 412-425). -/
def objsFor (t : Tm L) (p : Voc) : Pr L (List (Tm L)) := fun s =>
  if t.isLit then (.err, s) else (.ok (g.ord s.reads (g.objs t (.v p))), { s with reads := s.reads + 1 })

/-- `subjects_for` (`rudof_rdf/src/rdf_core/neighs_rdf.rs` 440-452). -/
def Gr.subs (p : Voc) (o : Tm L) : List (Tm L) :=
  ((g.ts.filter fun t => decide (t.2.1 = .v p ∧ t.2.2 = o)).map fun t => t.1).dedup

/-- `objects_for_shacl_path` for `sh:property/sh:qualifiedValueShape` (`rudof_rdf/src/rdf_core/neighs_rdf.rs`
339-351). -/
def cousins (t : Tm L) : Pr L (List (Tm L)) := do
  let ps ← objsFor g t .property
  let os ← each (fun p => objsFor g p .qualifiedValueShape) ps
  ret os.flatten

/-- `QualifiedValueShapeSiblings` (`parsers/shape_based/qualified_value_shape.rs` 31-68). -/
def siblings : Pr L (List (Ob C)) := do
  let t ← getFocus
  let ds ← objsFor g t .qualifiedValueShapesDisjoint
  match ds with
  | [] => ret []
  | d :: _ => do
    let d ← lift (E.obj d)
    match d with
    | .lit c =>
      if E.isTrue c then do
        let qs ← objsFor g t .qualifiedValueShape
        if qs = [] then ret [] else do
          let ss ← each (fun s => cousins g s) (g.subs .property t)
          each (fun s => lift (E.obj s)) (ss.flatten.filter fun s => decide (s ∉ qs))
      else ret []
    | _ => ret []

/-- `qualified_value_shape` (`parsers/shape_based/qualified_value_shape.rs` 70-132). -/
def qualifiedP : Pr L (List (Comp C)) := do
  let qs ← allOf g .qualifiedValueShape E.obj
  let d ← optional (oneOf g .qualifiedValueShapesDisjoint E.toBool)
  let mn ← optional (oneOf g .qualifiedMinCount E.toInt)
  let mx ← optional (oneOf g .qualifiedMaxCount E.toInt)
  let ss ← siblings g E
  ret (qs.map fun q => .qualified q mn mx d ss)

/-- `SingleValuePropertyAsListParser` (PR 142-168): the focus stays where the list ends. -/
def oneList (p : Voc) : Pr L (List (Tm L)) := do
  let v ← single g (.v p)
  setFocus v
  listP g

/-- `closed`, `ignored_properties` (`parsers/other/closed.rs`). -/
def closedP : Pr L (List (Comp C)) := do
  let c ← optional (oneOf g .closed E.toBool)
  let l ← optional (oneList g .ignoredProperties)
  let is ← match l with
    | none => ret []
    | some vs => each (fun v => lift (toIri v)) vs
  match c with
  | none => ret []
  | some b => ret [.closed b is]

/-- `BasicSparqlConstraintParser` (`parsers/sparql/basic.rs` 14-66). -/
def sparqlP : Pr L (List (Comp C)) := do
  let t ← getFocus
  let vs ← values g (.v .sparql)
  let cs ← each (fun v => do
    setFocus v
    let s ← oneOf g .select E.toText
    let d ← optional (oneOf g .deactivated E.toBool)
    ret (Comp.sparql s d)) vs
  setFocus t
  ret cs

/-- What kind of component. -/
inductive Key where
  | cls | nodeKind | datatype | minCount | maxCount | minInclusive | minExclusive | maxInclusive | maxExclusive
  | minLength | maxLength | pattern | languageIn | uniqueLang | equals | disjoint | lessThan | lessThanOrEquals
  | not | and | or | xone | node | qualified | closed | hasValue | isIn | sparql | deactivated
deriving DecidableEq

/-- The parser of each kind of component (the files of `parsers/value_type`, `parsers/cardinality`,
`parsers/value_range`, `parsers/string_based`, `parsers/property_pair`, `parsers/logical`, `parsers/shape_based`,
`parsers/other`, `parsers/sparql`, `parsers/non_shape/deactivated.rs`). -/
def compP : Key → Pr L (List (Comp C))
  | .cls => do let l ← allOf g .cls E.obj; ret (l.map .cls)
  | .nodeKind => do let l ← someOf g .nodeKind toKind; ret (l.map .nodeKind)
  | .datatype => do let l ← allOf g .datatype toIri; ret (l.map .datatype)
  | .minCount => do let l ← allOf g .minCount E.toInt; ret (l.map .minCount)
  | .maxCount => do let l ← allOf g .maxCount E.toInt; ret (l.map .maxCount)
  | .minInclusive => do let l ← allOf g .minInclusive E.toConc; ret (l.map .minInclusive)
  | .minExclusive => do let l ← allOf g .minExclusive E.toConc; ret (l.map .minExclusive)
  | .maxInclusive => do let l ← allOf g .maxInclusive E.toConc; ret (l.map .maxInclusive)
  | .maxExclusive => do let l ← allOf g .maxExclusive E.toConc; ret (l.map .maxExclusive)
  | .minLength => do let l ← allOf g .minLength E.toInt; ret (l.map .minLength)
  | .maxLength => do let l ← allOf g .maxLength E.toInt; ret (l.map .maxLength)
  | .pattern => patternP g E
  | .languageIn => mapProp g .languageIn (do let ts ← listP g; let l ← langs E ts; ret (.languageIn l))
  | .uniqueLang => do let l ← someOf g .uniqueLang E.toBool; ret (l.map .uniqueLang)
  | .equals => do let l ← allOf g .equals toIri; ret (l.map .equals)
  | .disjoint => do let l ← allOf g .disjoint toIri; ret (l.map .disjoint)
  | .lessThan => do let l ← allOf g .lessThan toIri; ret (l.map .lessThan)
  | .lessThanOrEquals => do let l ← allOf g .lessThanOrEquals toIri; ret (l.map .lessThanOrEquals)
  | .not => mapProp g .not (do let t ← getFocus; let o ← lift (E.obj t); ret (.not o))
  | .and => mapProp g .and (nodeList g E .and)
  | .or => mapProp g .or (nodeList g E .or)
  | .xone => mapProp g .xone (nodeList g E .xone)
  | .node => mapProp g .node (do let t ← getFocus; let o ← lift (E.obj t); ret (.node o))
  | .qualified => qualifiedP g E
  | .closed => closedP g E
  | .hasValue => mapProp g .hasValue (do let t ← getFocus; let o ← lift (E.toValue t); ret (.hasValue o))
  | .isIn => mapProp g .isIn (do let ts ← listP g; ret (.isIn (ts.filterMap E.toValue)))
  | .sparql => sparqlP g E
  | .deactivated => do let l ← someOf g .deactivated E.toBool; ret (l.map .deactivated)

/-- `CombineMany` (CO 455-481). -/
def combine (p : B → Pr L (List A)) : List B → Pr L (List A)
  | [] => ret []
  | b :: bs => do
    let x ← p b
    let xs ← combine p bs
    ret (x ++ xs)

/-- The order of the components (`parsers/components.rs` 11-63). -/
def keys : List Key :=
  [.cls, .nodeKind, .datatype, .minCount, .maxCount, .minInclusive, .minExclusive, .maxInclusive, .maxExclusive,
    .minLength, .maxLength, .pattern, .languageIn, .uniqueLang, .equals, .disjoint, .lessThan, .lessThanOrEquals,
    .not, .and, .or, .xone, .node, .qualified, .closed, .hasValue, .isIn, .sparql, .deactivated]

/-- `components` (`parsers/components.rs` 11-63). -/
def components : Pr L (List (Comp C)) := combine (compP g E) keys

/-! ## Shapes -/

/-- `Severity` (`types/severity.rs`). -/
inductive Sev where
  | violation | warning | info | debug | trace
  | generic (i : Iri)
deriving DecidableEq

/-- `severity` (`parsers/non_shape/severity.rs`). -/
def toSev : Iri → Sev
  | .v .Violation => .violation
  | .v .Warning => .warning
  | .v .Info => .info
  | .v .Debug => .debug
  | .v .Trace => .trace
  | i => .generic i

/-- `Target` (`types/target.rs`) as far as it is read. -/
inductive Tgt (C : Type) where
  | cls (i : Iri)
  | node (o : Ob C)
  | implicit (o : Ob C)
  | subjectsOf (i : Iri)
  | objectsOf (i : Iri)
deriving DecidableEq

/-- `targets_implicit_class` (`parsers/targets/implicit_class.rs`). -/
def implicitP : Pr L (List (Tgt C)) := do
  let t ← getFocus
  let l := (g.subs .type (.iri (.v .rdfsClass))).filter fun s =>
    (decide (s ∈ g.subs .type (.iri (.v .PropertyShape))) || decide (s ∈ g.subs .type (.iri (.v .NodeShape)))) &&
      decide (s = t)
  let os ← each (fun s => lift (E.obj s)) l
  ret (os.map .implicit)

/-- `targets` (`parsers/targets/*.rs`). -/
def targets : Pr L (List (Tgt C)) := do
  let a ← allOf g .targetClass toIri
  let b ← allOf g .targetNode E.obj
  let c ← implicitP g E
  let d ← allOf g .targetSubjectsOf toIri
  let e ← allOf g .targetObjectsOf toIri
  ret (a.map .cls ++ b.map .node ++ c ++ d.map .subjectsOf ++ e.map .objectsOf)

/-- `reifier_shape` (`parsers/shape_based/reifier_shape.rs`). -/
def reifierP : Pr L (Option (Bool × List (Ob C))) := do
  let vs ← values g (.v .reifierShape)
  let r ← optional (oneOf g .reificationRequired E.toBool)
  if vs = [] then ret none else ret (some (r.getD false, vs.filterMap E.obj))

/-- `ASTNodeShape` (`ast/node_shape.rs`) without messages. -/
structure NodeShape (C : Type) where
  id : Ob C
  severity : Option Sev
  targets : List (Tgt C)
  props : List (Ob C)
  comps : List (Comp C)

/-- `ASTPropertyShape` (`ast/property_shape.rs`) without messages, names, orders, descriptions. -/
structure PropShape (C : Type) extends NodeShape C where
  path : Shacl.Path Iri
  reifier : Option (Bool × List (Ob C))

/-- `ASTShape` (`ast/shape.rs`). -/
inductive Shape (C : Type) where
  | node (s : NodeShape C)
  | prop (s : PropShape C)

/-- `node_shape` (`parsers/shape_type/node_shape.rs`). -/
def nodeShapeP : Pr L (NodeShape C) := do
  notP (nonEmpty g (.v .path))
  let t ← getFocus
  let id ← lift (E.obj t)
  let sev ← optional (oneOf g .severity toIri)
  let ts ← targets g E
  let ps ← allOf g .property E.obj
  let cs ← components g E
  ret ⟨id, sev.map toSev, ts, ps, cs⟩

/-- `property_shape` (`parsers/shape_type/property_shape.rs`, `parsers/shape_type/path.rs`), with at most `n` nested
calls for the path. -/
def propShapeP (n : Nat) : Pr L (PropShape C) := do
  let t ← getFocus
  let id ← lift (E.obj t)
  let v ← single g (.v .path)
  let p ← pathP g n v
  setFocus t
  let sev ← optional (oneOf g .severity toIri)
  let r ← reifierP g E
  let ts ← targets g E
  let ps ← allOf g .property E.obj
  let cs ← components g E
  ret ⟨⟨id, sev.map toSev, ts, ps, cs⟩, p, r⟩

/-- `shape` (`parser.rs` 202-206). -/
def shapeP (n : Nat) : Pr L (Shape C) :=
  orElse (do let s ← nodeShapeP g E; ret (.node s)) (do let s ← propShapeP g E n; ret (.prop s))

/-! ## Schemas -/

/-- `objects_with_predicate` (`parser.rs` 181-193). -/
def Gr.range (p : Voc) : List (Tm L) :=
  ((g.ts.filter fun t => decide (t.2.1 = .v p) && !t.2.2.isLit).map fun t => t.2.2).dedup

/-- `get_triples` with any object (`parser.rs` 141-154). -/
def Gr.domain (p : Voc) : List (Tm L) := ((g.ts.filter fun t => decide (t.2.1 = .v p)).map fun t => t.1).dedup

/-- A set that comes in some order. -/
def shuffle (l : List (Tm L)) : Pr L (List (Tm L)) := fun s =>
  (.ok (g.ord s.reads l), { s with reads := s.reads + 1 })

/-- `get_triples_list` (`parser.rs` 156-179). -/
def listMembers (p : Voc) : Pr L (List (Tm L)) := do
  let os ← shuffle g (g.range p)
  let ms ← each (fun o => do
    setFocus o
    let vs ← listP g
    each (fun v => if v.isLit then fail else ret v) vs) os
  ret ms.flatten

/-- `shapes_candidates` (`parser.rs` 54-139). -/
def candidates : Pr L (List (Tm L)) := do
  let a ← listMembers g .and
  let o ← listMembers g .or
  let x ← listMembers g .xone
  shuffle g (g.subs .type (.iri (.v .NodeShape)) ++ g.subs .type (.iri (.v .PropertyShape)) ++
    g.subs .type (.iri (.v .Shape)) ++ g.domain .targetClass ++ g.domain .targetSubjectsOf ++
    g.domain .targetObjectsOf ++ g.domain .targetNode ++ a ++ o ++ g.range .not ++ g.range .property ++
    g.range .qualifiedValueShape ++ g.range .node ++ x ++ g.range .reifierShape).dedup

/-- The loop of `parse` (`parser.rs` 34-40) over the pending nodes, the next first. -/
def parseAll (n : Nat) : List (Tm L) → List (Tm L × Shape C) → Pr L (List (Tm L × Shape C))
  | [], done => ret done
  | t :: l, done =>
    if t ∈ done.map Prod.fst then parseAll n l done else do
      setFocus t
      let s ← shapeP g E n
      parseAll n l (done ++ [(t, s)])

/-- `ShaclParser::parse` (`parser.rs` 28-44); pending nodes are taken from the end (`parsers/state.rs`). -/
def parse (n : Nat) : Pr L (List (Tm L × Shape C)) := do
  let l ← candidates g
  parseAll g E n l.reverse []

end

end Rd

import Verif.Rd.ModelShape

/-!
# Model: the writer of SHACL shapes to graphs

`WC` is `shacl/src/ir/component.rs`, `WN` `shacl/src/ir/node_shape.rs`, `WP` `shacl/src/ir/property_shape.rs`, `WT`
`shacl/src/types/target.rs`, `WS` `shacl/src/ir/schema.rs`.

The writer works on the compiled schema, which refers to shapes by numbers. The compiler gives each name its number and
keeps components, targets, severity, property shapes and path as they are, so that the names behind the numbers are those of
the shapes as read (`Rd/ModelShape.lean`), from which the model starts. Names, descriptions, orders, groups and messages
are not modelled, nor are the prefixes, the four wrong kinds of targets (which the reader never makes) and the field
`deactivated` of property shapes (which the reader never sets). The result is the list of the triples, `none` for a panic.
-/

namespace Rd

/-- How literals are written: integers, Booleans, texts, and concrete literals as such (`Into<RDF::Literal>`); the
lexical form of concrete literals; and the names of new blank nodes, by the positions of shape and component. -/
structure Out (L C : Type) where
  int : Int → L
  bool : Bool → L
  text : String → L
  lit : C → L
  lex : C → String
  fresh : Nat → Nat → String

section
variable {L C : Type} (O : Out L C)

/-- An object as a term (`rudof_rdf/src/rdf_core/term/triple.rs` 383-392). -/
def Ob.term : Ob C → Tm L
  | .iri i => .iri i
  | .bnode b => .bnode b
  | .lit c => .lit (O.lit c)

/-- `register_literal` (WC 460-468): the lexical form as a plain text. -/
def plainLit (c : C) : Tm L := .lit (O.text (O.lex c))

/-- A value in `sh:hasValue` and `sh:in` (WC 252-265): blank nodes are `unreachable!()`. -/
def valueW : Ob C → Option (Tm L)
  | .iri i => some (.iri i)
  | .lit c => some (plainLit O c)
  | .bnode _ => none

/-- `IRComponent::register` (WC 160-345) but for SPARQL: the properties and values written for a component. -/
def compW : Comp C → Option (List (Voc × Tm L))
  | .cls o => some [(.cls, o.term O)]
  | .datatype i => some [(.datatype, .iri i)]
  | .nodeKind .iri => some [(.datatype, .iri (.v .IRI))]
  | .nodeKind _ => none
  | .minCount n => some [(.minCount, .lit (O.int n))]
  | .maxCount n => some [(.maxCount, .lit (O.int n))]
  | .minExclusive c => some [(.minExclusive, plainLit O c)]
  | .maxExclusive c => some [(.maxExclusive, plainLit O c)]
  | .minInclusive c => some [(.minInclusive, plainLit O c)]
  | .maxInclusive c => some [(.maxInclusive, plainLit O c)]
  | .minLength n => some [(.minLength, .lit (O.int n))]
  | .maxLength n => some [(.maxLength, .lit (O.int n))]
  | .pattern p f => some ((f.toList.map fun f => (.flags, .lit (O.text f))) ++ [(.pattern, .lit (O.text p))])
  | .uniqueLang b => some [(.uniqueLang, .lit (O.bool b))]
  | .languageIn l => some (l.map fun t => (.languageIn, .lit (O.text t)))
  | .equals i => some [(.equals, .iri i)]
  | .disjoint i => some [(.disjoint, .iri i)]
  | .lessThan i => some [(.lessThan, .iri i)]
  | .lessThanOrEquals i => some [(.lessThanOrEquals, .iri i)]
  | .or l => some (l.map fun o => (.or, o.term O))
  | .and l => some (l.map fun o => (.and, o.term O))
  | .not o => some [(.not, o.term O)]
  | .xone l => some (l.map fun o => (.xone, o.term O))
  | .node o => some [(.node, o.term O)]
  | .hasValue v => (valueW O v).map fun t => [(.hasValue, t)]
  | .isIn l => (l.mapM (valueW O)).map fun ts => ts.map fun t => (.isIn, t)
  | .qualified o mn mx d _ => some ((mn.toList.map fun n => (.qualifiedMinCount, .lit (O.int n))) ++
      (mx.toList.map fun n => (.qualifiedMaxCount, .lit (O.int n))) ++
      (d.toList.map fun b => (.qualifiedValueShapesDisjoint, .lit (O.bool b))) ++ [(.qualifiedValueShape, o.term O)])
  | .closed b l => some ((.closed, .lit (O.bool b)) :: l.map fun i => (.ignoredProperties, .iri i))
  | .deactivated b => some [(.deactivated, .lit (O.bool b))]
  | .sparql _ _ => some []

/-- `IRComponent::register` for SPARQL (WC 306-344): a new blank node holds the constraint. -/
def sparqlW (t : Tm L) (b : String) : Comp C → List (Tm L × Iri × Tm L)
  | .sparql q d => (.bnode b, .v .select, .lit (O.text q)) ::
      (d.toList.map fun d => (.bnode b, .v .deactivated, .lit (O.bool d))) ++ [(t, .v .sparql, .bnode b)]
  | _ => []

/-- `Target::register` (WT 26-42). -/
def targetW : Tgt C → Voc × Tm L
  | .node o => (.targetNode, o.term O)
  | .cls i => (.targetClass, .iri i)
  | .subjectsOf i => (.targetSubjectsOf, .iri i)
  | .objectsOf i => (.targetObjectsOf, .iri i)
  | .implicit _ => (.type, .iri (.v .rdfsClass))

/-- `From<Severity> for IriS` (`shacl/src/types/severity.rs` 28-39). -/
def Sev.iri : Sev → Iri
  | .trace => .v .Trace
  | .debug => .v .Debug
  | .info => .v .Info
  | .warning => .v .Warning
  | .violation => .v .Violation
  | .generic i => i

/-- All components, numbered from `j`, of the shape with the number `k`. -/
def compsW (t : Tm L) (k : Nat) : Nat → List (Comp C) → Option (List (Tm L × Iri × Tm L))
  | _, [] => some []
  | j, c :: cs => do
    let a ← compW O c
    let b ← compsW t k (j + 1) cs
    some (a.map (fun x => (t, .v x.1, x.2)) ++ sparqlW O t (O.fresh k j) c ++ b)

/-- What both kinds of shapes write of targets and severity (WN 218-221, 237-241; WP 267-270, 280-284). -/
def restW (s : NodeShape C) : List (Voc × Tm L) :=
  s.targets.map (targetW O) ++ s.severity.toList.map fun v => (.severity, .iri v.iri)

/-- `IRNodeShape::register` (WN 188-244), `IRPropertyShape::register` (WP 207-287): a literal as name is `todo!()`
(triple.rs 440), a path that is not a predicate `unimplemented!()`. -/
def shapeW (k : Nat) : Shape C → Option (List (Tm L × Iri × Tm L))
  | .node s => do
    let t := s.id.term O
    if t.isLit then none else do
      let cs ← compsW O t k 0 s.comps
      some ((t, .v .type, .iri (.v .NodeShape)) :: cs ++ (restW O s).map (fun x => (t, .v x.1, x.2)) ++
        s.props.map fun o => (t, .v .property, o.term O))
  | .prop s => do
    let t := s.id.term O
    if t.isLit then none else
      match s.path with
      | .pred i => do
        let cs ← compsW O t k 0 s.comps
        some ((t, .v .type, .iri (.v .PropertyShape)) :: (t, .v .path, .iri i) :: cs ++
          (restW O s.toNodeShape).map fun x => (t, .v x.1, x.2))
      | _ => none

/-- `IRSchema::build_graph` (WS 296-313), the shapes numbered from `k`. -/
def writeW : Nat → List (Shape C) → Option (List (Tm L × Iri × Tm L))
  | _, [] => some []
  | k, s :: ss => do
    let a ← shapeW O k s
    let b ← writeW (k + 1) ss
    some (a ++ b)

end

end Rd

/-!
# Drawings of RDF graphs

Model of `rudof_rdf/src/rdf_core/visualizer/visual_rdf_graph.rs` (`graph.rs` below),
`visual_rdf_node.rs` (`node.rs` below), `visual_rdf_edge.rs` and `utils/usage_count.rs`.

Simplified: errors have no message; hash maps and sets are lists in the order of insertion, and the
order in which they are iterated is a parameter; the text of the style is a parameter. A literal that
was converted to an `Object` and back is not changed by doing that again (the code converts the
object of a triple term once for each level of nesting).
-/

namespace Visual

/-- What the code takes from elsewhere. -/
structure Cfg (I B L : Type) where
  /-- `predicate.as_str() == RdfVocab::RDF_REIFIES`. -/
  reifies : I → Bool
  /-- `qualify_iri`. -/
  qual : I → String
  /-- `as_str` of an IRI. -/
  iriStr : I → String
  /-- `to_string` of an IRI of the graph, which has angle brackets. -/
  iriShow : I → String
  /-- `to_string` of a blank node. -/
  showB : B → String
  /-- The literal as `Object` (`term_as_object`, rudof_rdf/src/rdf_core/rdf.rs:277-282) and back,
  `none` if it is refused. -/
  conv : L → Option L
  /-- `to_string` of a converted literal. -/
  showL : L → String

/-- Subjects. -/
inductive Sub (I B : Type) where
  | iri (i : I)
  | bnode (b : B)
deriving DecidableEq

/-- Terms, and objects (`Object`). -/
inductive Tm (I B L : Type) where
  | iri (i : I)
  | bnode (b : B)
  | lit (l : L)
  | triple (s : Sub I B) (p : I) (o : Tm I B L)
deriving DecidableEq

/-- `VisualRDFNode` (node.rs:13-28). -/
inductive VNode where
  | reifies
  | iri (label url : String)
  | bnode (label : String)
  | lit (value : String)
  | pred (label url : String)
  | nonAsserted (s p o : VNode)
  | asserted (s p o : VNode)
deriving DecidableEq

/-- `VisualRDFEdge` (visual_rdf_edge.rs). -/
inductive Edge where
  | iri (label url : String)
  | reifies
deriving DecidableEq

/-- `UsageCount` (usage_count.rs). -/
structure Usage where
  pred : Nat := 0
  predT : Nat := 0
  sub : Nat := 0
  subT : Nat := 0
  obj : Nat := 0
  objT : Nat := 0
deriving DecidableEq

/-- `in_triple` (usage_count.rs). -/
def Usage.inTriple (u : Usage) : Bool := decide (0 < u.predT) || decide (0 < u.subT) || decide (0 < u.objT)

/-- `VisualRDFGraph` (graph.rs:22-33). -/
structure G where
  counter : Nat := 0
  nodes : List (VNode × Nat) := []
  usage : List (VNode × Usage) := []
  edges : List (Nat × Edge × Nat) := []

/-- `usage_count.entry(node).or_default()` and an increment (graph.rs:173-231). -/
def bumpIn (n : VNode) (f : Usage → Usage) : List (VNode × Usage) → List (VNode × Usage)
  | [] => [(n, f {})]
  | (m, u) :: us => if m = n then (m, f u) :: us else (m, u) :: bumpIn n f us

/-- The same in a graph. -/
def bump (g : G) (n : VNode) (f : Usage → Usage) : G := { g with usage := bumpIn n f g.usage }

/-- `get_or_create_node` (graph.rs:240-246). -/
def getOrCreate (g : G) (n : VNode) : Nat × G :=
  match g.nodes.lookup n with
  | some id => (id, g)
  | none => (g.counter, { g with nodes := g.nodes ++ [(n, g.counter)], counter := g.counter + 1 })

variable {I B L : Type} [DecidableEq I] [DecidableEq B] [DecidableEq L]

/-- `term_as_object`, and the term made again from the object (node.rs:187-188, 219-223). -/
def toObj (C : Cfg I B L) : Tm I B L → Option (Tm I B L)
  | .iri i => some (.iri i)
  | .bnode b => some (.bnode b)
  | .lit l => (C.conv l).map .lit
  | .triple s p o => (toObj C o).map (.triple s p)

/-- `VisualRDFNode::from_subject` (node.rs:63-71), for what subjects can be. -/
def subNode (C : Cfg I B L) : Sub I B → VNode
  | .iri i => .iri (C.qual i) (C.iriStr i)
  | .bnode b => .bnode (C.showB b)

/-- `VisualRDFNode::from_predicate` (node.rs:41-52). -/
def predNode (C : Cfg I B L) (p : I) : VNode :=
  if C.reifies p then .reifies else .pred (C.qual p) (C.iriShow p)

/-- `VisualRDFEdge::from_iri` (visual_rdf_edge.rs). -/
def edgeOf (C : Cfg I B L) (p : I) : Edge :=
  if C.reifies p then .reifies else .iri (C.qual p) (C.iriStr p)

/-- `object_to_visual_node` (node.rs:201-228) and `create_triple_term` (graph.rs:127-166). -/
def objNode (C : Cfg I B L) (ts : List (Sub I B × I × Tm I B L)) : Tm I B L → G → VNode × G
  | .iri i, g => (.iri (C.qual i) (C.iriStr i), g)
  | .bnode b, g => (.bnode (C.showB b), g)
  | .lit l, g => (.lit (C.showL l), g)
  | .triple s p o, g =>
    let sn := subNode C s
    let g := bump g sn fun u => { u with subT := u.subT + 1 }
    let g := (getOrCreate g sn).2
    let pn := predNode C p
    let g := bump g pn fun u => { u with predT := u.predT + 1 }
    let g := (getOrCreate g pn).2
    let r := objNode C ts o g
    let g := bump r.2 r.1 fun u => { u with objT := u.objT + 1 }
    let g := (getOrCreate g r.1).2
    (if (s, p, o) ∈ ts then .asserted sn pn r.1 else .nonAsserted sn pn r.1, g)

/-- `create_triple` (graph.rs:97-117) for a triple whose object is converted. -/
def addTriple (C : Cfg I B L) (ts : List (Sub I B × I × Tm I B L)) (g : G) (s : Sub I B) (p : I)
    (o : Tm I B L) : G :=
  let sn := subNode C s
  let g := bump g sn fun u => { u with sub := u.sub + 1 }
  let si := getOrCreate g sn
  let g := bump si.2 (predNode C p) fun u => { u with pred := u.pred + 1 }
  let r := objNode C ts o g
  let g := bump r.2 r.1 fun u => { u with obj := u.obj + 1 }
  let oi := getOrCreate g r.1
  let e := (si.1, edgeOf C p, oi.1)
  { oi.2 with edges := if e ∈ oi.2.edges then oi.2.edges else oi.2.edges ++ [e] }

/-- `create_triple` (graph.rs:97-117). -/
def createTriple (C : Cfg I B L) (ts : List (Sub I B × I × Tm I B L)) (g : G)
    (t : Sub I B × I × Tm I B L) : Option G :=
  match toObj C t.2.2 with
  | none => none
  | some o => some (addTriple C ts g t.1 t.2.1 o)

/-- The loop of `from_rdf` (graph.rs:76-79). -/
def addAll (C : Cfg I B L) (ts : List (Sub I B × I × Tm I B L)) :
    List (Sub I B × I × Tm I B L) → G → Option G
  | [], g => some g
  | t :: rest, g => match createTriple C ts g t with
    | none => none
    | some g => addAll C ts rest g

/-- `from_rdf` (graph.rs:62-81). -/
def fromRdf (C : Cfg I B L) (ts : List (Sub I B × I × Tm I B L)) : Option G := addAll C ts ts {}

/-! ## The text -/

/-- `show_node` (graph.rs:310-319). -/
def showNode (g : G) (n : VNode) : Bool :=
  match n with
  | .pred _ _ | .reifies => match g.usage.lookup n with
    | some u => u.inTriple
    | none => false
  | _ => true

/-- `VisualRDFNode::as_plantuml` (node.rs:125-165). -/
def nodeText (id : Nat) (shown : Bool) : VNode → String
  | .iri label url => "rectangle \"[[" ++ url ++ " " ++ label ++ "]]\" <<uri>> as " ++ toString id
  | .bnode _ => "rectangle \" \" <<bnode>> as " ++ toString id
  | .lit value => "rectangle \"" ++ value ++ "\" <<literal>> as " ++ toString id
  | .nonAsserted _ _ _ => "cloud \" \" <<non_asserted>> as " ++ toString id ++ "\n"
  | .asserted _ _ _ => "rectangle \" \" <<asserted>> as " ++ toString id ++ "\n"
  | .pred label url =>
    if shown then "rectangle \"[[" ++ url ++ " " ++ label ++ "]]\" <<uri>> as " ++ toString id else ""
  | .reifies => if shown then "rectangle \"reifies\" <<reifies>> as " ++ toString id else ""

/-- `as_plantuml_link` (visual_rdf_edge.rs), with the IRI of `rdf:reifies`. -/
def linkText : Edge → String
  | .iri label url => "[[" ++ url ++ " " ++ label ++ "]]"
  | .reifies => "[[http://www.w3.org/1999/02/22-rdf-syntax-ns#reifies reifies]]"

/-- What the drawing takes from the configuration: the style, and the style and the text of the
arrows from a triple term to its parts. -/
structure Look where
  style : String
  sub : String × String
  pred : String × String
  obj : String × String

/-- `triple_term_as_plantuml` (graph.rs:393-427). -/
def arrows (k : Look) (g : G) (id : Nat) (s p o : VNode) : Option (List String) :=
  match g.nodes.lookup s, g.nodes.lookup p, g.nodes.lookup o with
  | some si, some pi, some oi => some
    [toString id ++ "-->" ++ toString si ++ " " ++ k.sub.1 ++ " : " ++ k.sub.2 ++ " \n",
      toString id ++ "-->" ++ toString pi ++ " " ++ k.pred.1 ++ " : " ++ k.pred.2 ++ "\n",
      toString id ++ "-->" ++ toString oi ++ " " ++ k.obj.1 ++ " : " ++ k.obj.2 ++ "\n"]
  | _, _, _ => none

/-- The arrows of a node (graph.rs:285-294). -/
def arrowsOf (k : Look) (g : G) (e : VNode × Nat) : Option (List String) :=
  match e.1 with
  | .nonAsserted s p o => arrows k g e.2 s p o
  | .asserted s p o => arrows k g e.2 s p o
  | _ => some []

/-- The loop over the nodes for their arrows (graph.rs:284-295). -/
def allArrows (k : Look) (g : G) : List (VNode × Nat) → Option (List String)
  | [] => some []
  | e :: es => match arrowsOf k g e with
    | none => none
    | some a => match allArrows k g es with
      | none => none
      | some b => some (a ++ b)

/-- `as_plantuml` (graph.rs:268-299): what is written, one piece for each `writeln!`; `ns` and `es`
are the nodes and the edges in the order of iteration. -/
def plantuml (k : Look) (g : G) (ns : List (VNode × Nat)) (es : List (Nat × Edge × Nat)) :
    Option (List String) :=
  match allArrows k g ns with
  | none => none
  | some as => some (["@startuml\n", k.style] ++
      (ns.map fun e => nodeText e.2 (showNode g e.1) e.1 ++ "\n") ++
      (es.map fun e => toString e.1 ++ " --> " ++ toString e.2.2 ++ " : " ++ linkText e.2.1 ++ "\n") ++
      as ++ ["@enduml\n"])

end Visual

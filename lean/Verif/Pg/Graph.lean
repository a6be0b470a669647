import Verif.Pg.Types

/-!
# Model: property graphs, edge conformance and type maps

Paths are relative to `pgschema/src`.
-/

namespace Pg

/-- `Node` (node.rs:4-9). -/
structure Node where
  id : Nat
  labels : LabelSet
  properties : Record

/-- The loop over the properties of the other node (node.rs:55-59). Simplified: inserting the values of a key one at a
time is one union, and a key without values is skipped, since nothing is inserted for it. -/
def mergeProperties (r other : Record) : Record :=
  other.entries.foldl (fun (m : Record) e => if e.2 = ∅ then m else Record.insertValues m e.1 e.2) r

/-- `Node::merge` (node.rs:50-60). -/
def Node.merge (n other : Node) : Node :=
  { n with labels := n.labels ∪ other.labels, properties := mergeProperties n.properties other.properties }

/-- `Edge` (edge.rs:5-12). -/
structure Edge where
  id : Nat
  source : Nat
  target : Nat
  labels : LabelSet
  properties : Record

/-- `PropertyGraph` (pg.rs:10-17). -/
structure Graph where
  nodes : HMap Nat Node
  edges : HMap Nat Edge
  nodeNames : HMap String Nat
  edgeNames : HMap String Nat
  nodeCounter : Nat
  edgeCounter : Nat

/-- `PropertyGraph::new` (pg.rs:27-36). -/
def Graph.new : Graph := ⟨∅, ∅, ∅, ∅, 0, 0⟩

/-- `PropertyGraph::add_node` (pg.rs:162-168). -/
def Graph.addNode (G : Graph) (name : String) (labels : LabelSet) (r : Record) : Graph :=
  { G with
    nodeCounter := G.nodeCounter + 1
    nodeNames := G.nodeNames.insert name G.nodeCounter
    nodes := G.nodes.insert G.nodeCounter ⟨G.nodeCounter, labels, r⟩ }

/-- `PropertyGraph::add_edge` (pg.rs:177-199): the graph afterwards and whether the call succeeded. The counter and the
name are changed before the ends are looked up. -/
def Graph.addEdge (G : Graph) (name : Option String) (source : String) (labels : LabelSet) (r : Record)
    (target : String) : Graph × Bool :=
  let G' := { G with
    edgeCounter := G.edgeCounter + 1
    edgeNames := G.edgeNames.insert (name.getD "") G.edgeCounter }
  match G.nodeNames.lookup source with
  | none => (G', false)
  | some s =>
    match G.nodeNames.lookup target with
    | none => (G', false)
    | some t => ({ G' with edges := G.edges.insert G.edgeCounter ⟨G.edgeCounter, s, t, labels, r⟩ }, true)

/-- `PropertyGraph::get_node_by_label` (pg.rs:121-128). -/
def Graph.nodeByName (G : Graph) (name : String) : Option Node :=
  match G.nodeNames.lookup name with
  | none => none
  | some id => G.nodes.lookup id

/-- `PropertyGraph::get_edge_by_label` (pg.rs:142-149). -/
def Graph.edgeByName (G : Graph) (name : String) : Option Edge :=
  match G.edgeNames.lookup name with
  | none => none
  | some id => G.edges.lookup id

/-- `PropertyGraph::get_node_edge_by_label` (pg.rs:130-140). -/
def Graph.nodeOrEdge (G : Graph) (name : String) : Option (Node ⊕ Edge) :=
  match G.nodeByName name with
  | some n => some (.inl n)
  | none =>
    match G.edgeByName name with
    | some e => some (.inr e)
    | none => none

/-- One iteration of the loop over the names of nodes in `PropertyGraph::merge` (pg.rs:56-77); `none` is the panic of
`other.nodes[other_id]`. -/
def Graph.mergeNode (other : Graph) (st : Graph × HMap Nat Nat) (name : String) (oid : Nat) :
    Option (Graph × HMap Nat Nat) :=
  match other.nodes.lookup oid with
  | none => none
  | some onode =>
    match st.1.nodeNames.lookup name with
    | some eid =>
      let nodes := match st.1.nodes.lookup eid with
        | some n => st.1.nodes.insert eid (n.merge onode)
        | none => st.1.nodes
      some ({ st.1 with nodes := nodes }, st.2.insert oid eid)
    | none =>
      let nid := st.1.nodeCounter
      some ({ st.1 with
        nodeCounter := nid + 1
        nodeNames := st.1.nodeNames.insert name nid
        nodes := st.1.nodes.insert nid { onode with id := nid } }, st.2.insert oid nid)

/-- The loop over the names of nodes (pg.rs:56-77). -/
def Graph.mergeNodes (other : Graph) : List (Sigma fun _ : String => Nat) → Graph × HMap Nat Nat →
    Option (Graph × HMap Nat Nat)
  | [], st => some st
  | ⟨name, oid⟩ :: rest, st =>
    match Graph.mergeNode other st name oid with
    | none => none
    | some st' => Graph.mergeNodes other rest st'

/-- One iteration of the loop over the edges (pg.rs:80-110); `none` is a failed `expect`. -/
def Graph.mergeEdge (other : Graph) (ids : HMap Nat Nat) (G : Graph) (oid : Nat) (e : Edge) : Option Graph :=
  match ids.lookup e.source, ids.lookup e.target with
  | some s, some t =>
    let nid := G.edgeCounter
    some { G with
      edgeCounter := nid + 1
      edges := G.edges.insert nid ⟨nid, s, t, e.labels, e.properties⟩
      edgeNames := other.edgeNames.entries.foldl
        (fun (m : HMap String Nat) n => if n.2 = oid then m.insert n.1 nid else m) G.edgeNames }
  | _, _ => none

/-- The loop over the edges (pg.rs:80-110). -/
def Graph.mergeEdges (other : Graph) (ids : HMap Nat Nat) : List (Sigma fun _ : Nat => Edge) → Graph → Option Graph
  | [], G => some G
  | ⟨oid, e⟩ :: rest, G =>
    match Graph.mergeEdge other ids G oid e with
    | none => none
    | some G' => Graph.mergeEdges other ids rest G'

/-- `PropertyGraph::merge` (pg.rs:51-111); `none` is a panic. -/
def Graph.merge (G other : Graph) : Option Graph :=
  match Graph.mergeNodes other other.nodeNames.entries (G, ∅) with
  | none => none
  | some (G', ids) => Graph.mergeEdges other ids other.edges.entries G'

/-- `EdgeSemantics` (edge_type.rs:33-37). -/
structure EdgeSemantics where
  source : BaseType
  edge : BaseType
  target : BaseType

/-- `EdgeType::semantics` (edge_type.rs:19-24). -/
def EdgeType.semantics (S : Schema) (n : Nat) (t : EdgeType) : Option (Except Err EdgeSemantics) :=
  match t.source.semantics S n with
  | none => none
  | some (.error e) => some (.error e)
  | some (.ok a) =>
    match t.edge.semantics S n with
    | none => none
    | some (.error e) => some (.error e)
    | some (.ok b) =>
      match t.target.semantics S n with
      | none => none
      | some (.error e) => some (.error e)
      | some (.ok c) => some (.ok ⟨a, b, c⟩)

/-- The step of the fold in `EdgeSemantics::conforms_edge` (edge_type.rs:63-80). -/
def Verdict.join : Verdict → Verdict → Verdict
  | .ok a, .ok b => .ok (a ++ b)
  | .ok _, .error e => .error e
  | .error a, .error b => .error (a ++ b)
  | .error a, .ok _ => .error a

/-- `EdgeSemantics::conforms_edge` (edge_type.rs:40-81). -/
def EdgeSemantics.conformsEdge (X : Ext) (t : EdgeSemantics) (e : Edge) (G : Graph) : Verdict :=
  match G.nodes.lookup e.source with
  | none => .error [.missingNodeId e.source]
  | some s =>
    match G.nodes.lookup e.target with
    | none => .error [.missingNodeId e.target]
    | some d =>
      [t.source.conforms X s.labels s.properties, t.edge.conforms X e.labels e.properties,
        t.target.conforms X d.labels d.properties].foldl Verdict.join (.ok [])

/-- `PropertyGraphSchema::conforms_node` (pgs.rs:136-151); `none` is unbounded recursion in the semantics. -/
def Schema.conformsNode (X : Ext) (S : Schema) (fuel : Nat) (name : String) (n : Node) : Option Verdict :=
  match S.nodeNames.lookup name with
  | none => some (.error [.missingLabel name])
  | some id =>
    match S.nodeTypes.lookup id with
    | none => some (.error [.missingType name])
    | some spec =>
      match spec.semantics S fuel with
      | none => none
      | some (.error e) => some (.error [e])
      | some (.ok t) => some (t.conforms X n.labels n.properties)

/-- `PropertyGraphSchema::conforms_edge` (pgs.rs:153-173). -/
def Schema.conformsEdge (X : Ext) (S : Schema) (fuel : Nat) (name : String) (e : Edge) (G : Graph) :
    Option Verdict :=
  match S.edgeNames.lookup name with
  | none => some (.error [.missingLabel name])
  | some id =>
    match S.edgeTypes.lookup id with
    | none => some (.error [.missingType name])
    | some spec =>
      match spec.semantics S fuel with
      | none => none
      | some (.error e) => some (.error [e])
      | some (.ok t) => some (t.conformsEdge X e G)

/-- `Association` (type_map.rs:171-176). -/
structure Assoc where
  nodeId : String
  typeName : String
  shouldConform : Bool
  deriving DecidableEq, Repr

/-- `ResultAssociation` (result_association.rs:6-12). -/
structure ResultAssoc where
  nodeId : String
  typeName : String
  conforms : Bool
  details : Verdict

/-- `ValidationResult` (validation_result.rs:7-11). -/
structure Result where
  isValid : Bool
  assocs : List ResultAssoc

/-- `ValidationResult::add_association` (validation_result.rs:27-34). -/
def Result.add (r : Result) (a : ResultAssoc) : Result :=
  { isValid := if a.conforms then r.isValid else false, assocs := r.assocs ++ [a] }

/-- The verdict on one association (type_map.rs:52-63): `none` is unbounded recursion, an inner `none` is the error
for a name that is neither a node nor an edge. -/
def verdictOf (X : Ext) (S : Schema) (G : Graph) (fuel : Nat) (a : Assoc) : Option (Option Verdict) :=
  match G.nodeOrEdge a.nodeId with
  | none => some none
  | some (.inl n) => (S.conformsNode X fuel a.typeName n).map some
  | some (.inr e) => (S.conformsEdge X fuel a.typeName e G).map some

/-- The loop of `TypeMap::validate` (type_map.rs:49-73). -/
def validateLoop (X : Ext) (S : Schema) (G : Graph) (fuel : Nat) : List Assoc → Result → Option (Option Result)
  | [], r => some (some r)
  | a :: rest, r =>
    match verdictOf X S G fuel a with
    | none => none
    | some none => some none
    | some (some v) => validateLoop X S G fuel rest (r.add ⟨a.nodeId, a.typeName, v.isRight, v⟩)

/-- `TypeMap::validate` (type_map.rs:49-73). -/
def validate (X : Ext) (S : Schema) (G : Graph) (fuel : Nat) (m : List Assoc) : Option (Option Result) :=
  validateLoop X S G fuel m ⟨true, []⟩

/-- `FailedAssociation` (type_map.rs:112-123), with its status reduced to what was expected. -/
structure Failed where
  nodeId : String
  typeName : String
  expected : Bool
  deriving DecidableEq, Repr

/-- `TypeMap::find_association` (type_map.rs:29-33). -/
def findAssoc (m : List Assoc) (node type : String) : Option Assoc :=
  m.find? fun a => decide (a.nodeId = node) && decide (a.typeName = type)

/-- `TypeMap::compare_with_result` (type_map.rs:75-109); `none` is the missing association error. -/
def compareWithResult (m : List Assoc) : List ResultAssoc → List Failed → Option (List Failed)
  | [], acc => some acc
  | r :: rest, acc =>
    match findAssoc m r.nodeId r.typeName with
    | none => none
    | some a =>
      match a.shouldConform, r.details with
      | true, .ok _ => compareWithResult m rest acc
      | true, .error _ => compareWithResult m rest (acc ++ [⟨r.nodeId, r.typeName, true⟩])
      | false, .ok _ => compareWithResult m rest (acc ++ [⟨r.nodeId, r.typeName, false⟩])
      | false, .error _ => compareWithResult m rest acc

end Pg

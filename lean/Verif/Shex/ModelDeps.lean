import Verif.Shex.ModelShape

/-!
# Model: the dependency graph and negative cycles

shex_ast/src/ir/dependency_graph.rs, `ShapeExpr::add_edges` and `Shape::add_edges`. Shape
expressions are reduced to what the construction reads: the operands, the references, and a number
that stands for all the rest of the contents, which matters because `visited` compares shape
expressions by value. `petgraph::algo::tarjan_scc` is not modelled: its result is an argument.
-/

namespace Shex

/-- `ShapeExpr` (shex_ast/src/ir/shape_expr.rs:15-35) as seen by `add_edges`. A shape has the
references of its constraints `Ref(r)` in the order of the components, the references inside
constraints `And(..)`, its parents, and the rest. -/
inductive Skel where
  | or (exprs : List Nat)
  | and (exprs : List Nat)
  | not (expr : Nat)
  | shape (refs conj «extends» : List Nat) (rest : Nat)
  | ref (idx : Nat)
  | other (rest : Nat)
  deriving DecidableEq, Repr

/-- `SchemaIR::shapes` in the order of its hash map. -/
abbrev DepSchema := List (Nat × Skel)

/-- An edge added to the graph: source, target, and whether it is negative (`PosNeg`,
dependency_graph.rs:83-88). -/
abbrev DepEdge := Nat × Nat × Bool

/-- The loops over operands of `add_edges` (shape_expr.rs:221-260): an operand whose contents were
not visited is pushed and traversed. Returns the edges added, in order, and `visited`. -/
def addOver (sch : DepSchema) (go : Skel → List Skel → List DepEdge × List Skel) :
    List Nat → List Skel → List DepEdge × List Skel
  | [], vis => ([], vis)
  | e :: es, vis =>
    match Rbe.alookup e sch with
    | none => addOver sch go es vis
    | some se =>
      if se ∈ vis then addOver sch go es vis
      else
        let r := go se (vis ++ [se])
        let r' := addOver sch go es r.2
        (r.1 ++ r'.1, r'.2)

/-- `ShapeExpr::add_edges` (shape_expr.rs:212-270) with `Shape::add_edges` (shape.rs:124-132). The
first numeric argument bounds the depth; every nested call pushes contents not visited before. -/
def addEdges (sch : DepSchema) (source : Nat) : Nat → Bool → Skel → List Skel →
    List DepEdge × List Skel
  | 0, _, _, vis => ([], vis)
  | n + 1, neg, se, vis =>
    match se with
    | .or es => addOver sch (addEdges sch source n neg) es vis
    | .and es => addOver sch (addEdges sch source n neg) es vis
    | .not e => addOver sch (addEdges sch source n (!neg)) [e] vis
    | .shape refs _ _ _ => (refs.map fun r => (source, r, neg), vis)
    | .ref i => ([(source, i, neg)], vis)
    | .other _ => ([], vis)

/-- The edges added for one shape by `build_dependency_graph` (schema_ir.rs:566-574). -/
def edgesFrom (sch : DepSchema) (x : Nat × Skel) : List DepEdge :=
  (addEdges sch x.1 (sch.length + 1) false x.2 []).1

/-- `DependencyGraph::graph`: a `GraphMap` holds one weight for each pair of nodes. -/
abbrev DepGraph := List ((Nat × Nat) × Bool)

/-- `DependencyGraph::add_edge` (dependency_graph.rs:18-20): the weight of an existing edge is
replaced. -/
def DepGraph.addEdge (g : DepGraph) (e : DepEdge) : DepGraph :=
  Rbe.upsert (e.1, e.2.1) e.2.2 (fun _ => e.2.2) g

/-- `build_dependency_graph` (schema_ir.rs:566-574). -/
def buildDeps (sch : DepSchema) : DepGraph :=
  (sch.flatMap (edgesFrom sch)).foldl DepGraph.addEdge []

/-- The edges between nodes, whatever their weight. -/
def DepGraph.succ (g : DepGraph) (a b : Nat) : Prop := ∃ w, ((a, b), w) ∈ g

/-- `DependencyGraph::neg_cycles` (dependency_graph.rs:22-46), given the strongly connected
components: in every component, for each node its first negative edge inside the component. -/
def negCycles (g : DepGraph) (scc : List (List Nat)) : List (List (Nat × Nat × List Nat)) :=
  (scc.map fun comp => comp.filterMap fun a =>
    (g.find? fun e => decide (e.1.1 = a ∧ e.1.2 ∈ comp) && e.2).map fun e =>
      (a, e.1.2, comp)).filter fun c => !c.isEmpty

/-- `DependencyGraph::has_neg_cycle` (dependency_graph.rs:48-51). -/
def hasNegCycle (g : DepGraph) (scc : List (List Nat)) : Bool := !(negCycles g scc).isEmpty

/-- What `add_edges` sees of a shape expression; `rest` numbers the contents. -/
def ShapeExpr.skel {N P : Type} (rest : ShapeExpr N P → Nat) (refsOf : Shape N P → List Nat) :
    ShapeExpr N P → Skel
  | .or es => .or es
  | .and es => .and es
  | .not e => .not e
  | .shape s => .shape (s.valueRefs.map Prod.snd) (refsOf s) s.extends (rest (.shape s))
  | .ref i => .ref i
  | se => .other (rest se)

end Shex

import Verif.Rbe.ModelTable
import Verif.Shex.ModelEngine

/-!
# Model: shape expressions, neighbourhoods and dependencies

shex_ast/src/ir/{shape_expr,shape,schema_ir,inheritance_graph}.rs and
shex_validation/src/engine.rs. Nodes and IRIs are arbitrary types with decidable equality.
Annotations, shape-level semantic actions (never run by the engine), sources and labels are left out.
-/

namespace Shex

/-- `struct Pred` (shex_ast/src/pred.rs:7-11). -/
structure Pred (P : Type) where
  iri : P
  direct : Bool
  deriving DecidableEq, Repr

/-- `SemanticActionContext`: the subject and, for a triple, predicate and value
(shex_ast/src/ir/semantic_action_context.rs). The registry is part of the conditions. -/
abbrev Ctx (N P : Type) := N × Option (Pred P × N)

/-- `type Expr = RbeTable<Pred, Node, ShapeLabelIdx, SemanticActionContext, CondKind>`. -/
abbrev TExpr (N P : Type) := Rbe.Table (Pred P) N (Ctx N P) Nat

/-- A value expression: `MatchCond<Pred, Node, ShapeLabelIdx, ..>`. -/
abbrev VCond (N P : Type) := Rbe.Cond (Pred P) N (Ctx N P) Nat

/-- A triple of the neighbourhood with its context. -/
abbrev Neigh (N P : Type) := Pred P × N × Ctx N P

/-- `struct Shape` (shex_ast/src/ir/shape.rs:15-24). -/
structure Shape (N P : Type) where
  closed : Bool
  extra : List (Pred P)
  expr : TExpr N P
  preds : List (Pred P)
  «extends» : List Nat

/-- `enum ShapeExpr` (shex_ast/src/ir/shape_expr.rs:15-35); operands are indices. -/
inductive ShapeExpr (N P : Type) where
  | or (exprs : List Nat)
  | and (exprs : List Nat)
  | not (expr : Nat)
  | nodeConstraint (cond : VCond N P)
  | shape (s : Shape N P)
  | external
  | ref (idx : Nat)
  | empty

/-- The fields of `SchemaIR` read by the engine (shex_ast/src/ir/schema_ir.rs:30-50). -/
structure Schema (N P : Type) where
  shapes : List (Nat × ShapeExpr N P)
  abstr : List Nat

/-- A data graph: its triples, and the terms that may be subjects (`term_as_subject`). -/
structure Graph (N P : Type) where
  triples : List (N × P × N)
  isSubject : N → Bool

/-- Everything `check_node_shape_expr` reads besides its arguments. -/
structure Env (N P : Type) where
  schema : Schema N P
  graph : Graph N P
  /-- The IRI of `Pred::default()` (shex_ast/src/pred.rs:7), used by `references_visited`. -/
  defaultIri : P
  /-- `external_resolvers().dispatch(..)` is `Conformant` (engine.rs:570-602). -/
  external : N → Nat → Bool
  /-- Order of the entries of `Bag::from_iter` (see `Rbe/ModelTable.lean`). -/
  enum : List Nat → List (Nat × Nat)
  /-- Order of the hash maps and sets of arcs in `neighs`. -/
  shuffle : List (Pred P × N) → List (Pred P × N)

section Basic
variable {N P : Type}

/-- `SchemaIR::find_shape_idx` (schema_ir.rs:433-435). -/
def Schema.find (s : Schema N P) (i : Nat) : Option (ShapeExpr N P) := Rbe.alookup i s.shapes

/-- `SchemaIR::is_abstract` (schema_ir.rs:118-120). -/
def Schema.isAbstract (s : Schema N P) (i : Nat) : Bool := decide (i ∈ s.abstr)

/-- The edges of `build_inheritance_graph` (schema_ir.rs:577-590): from a shape to its parents. -/
def Schema.extendsEdges (s : Schema N P) : List (Nat × Nat) :=
  s.shapes.flatMap fun x =>
    match x.2 with
    | .shape sh => sh.extends.map fun e => (x.1, e)
    | _ => []

/-- `petgraph::visit::Dfs` driven to exhaustion: the nodes in the order of discovery. The first
argument bounds the number of pops. -/
def dfs (succ : Nat → List Nat) : Nat → List Nat → List Nat → List Nat
  | 0, _, seen => seen
  | _ + 1, [], seen => seen
  | n + 1, x :: stack, seen =>
    if x ∈ seen then dfs succ n stack seen
    else dfs succ n ((succ x).reverse ++ stack) (seen ++ [x])

/-- Bound on the pops of a depth-first search from one node: one for each edge and one for the
start, and one to notice the empty stack. -/
def dfsFuel (edges : List (Nat × Nat)) : Nat := edges.length + 2

/-- `InheritanceGraph::descendants` (shex_ast/src/ir/inheritance_graph.rs:37-48). -/
def Schema.descendants (s : Schema N P) (i : Nat) : List Nat :=
  let edges := s.extendsEdges
  (dfs (fun x => (edges.filter fun e => decide (e.2 = x)).map Prod.fst) (dfsFuel edges) [i] []).filter
    fun x => decide (x ≠ i)

/-- `InheritanceGraph::parents` (inheritance_graph.rs:50-61). -/
def Schema.parents (s : Schema N P) (i : Nat) : List Nat :=
  let edges := s.extendsEdges
  (dfs (fun x => (edges.filter fun e => decide (e.1 = x)).map Prod.snd) (dfsFuel edges) [i] []).filter
    fun x => decide (x ≠ i)

/-- `RbeTable::components` (rbe/src/rbe_table.rs:283-288, 337-358) without the number; the `unwrap`
of a missing entry is skipped, which never happens in tables built with `add_component`. -/
def components (t : TExpr N P) : List (Pred P × VCond N P) :=
  (List.range t.counter).filterMap fun c =>
    match t.getKey c, t.getCondition c with
    | some k, some cond => some (k, cond)
    | _, _ => none

/-- `Shape::get_value_expr_references` (shape.rs:134-146), the map flattened to pairs. -/
def Shape.valueRefs (s : Shape N P) : List (Pred P × Nat) :=
  (components s.expr).filterMap fun x =>
    match x.2 with
    | .ref r => some (x.1, r)
    | _ => none

/-- `ShapeExpr::direct_references` (shape_expr.rs:42-53). -/
def ShapeExpr.directRefs : ShapeExpr N P → List Nat
  | .or es => es
  | .and es => es
  | .not e => [e]
  | .ref i => [i]
  | _ => []

/-- The loops over operands in `references_visited` (shape_expr.rs:92-131, 139-145;
shape.rs:78-87): every operand not seen before is resolved and traversed by `go`. -/
def refsOver (sch : Schema N P)
    (go : ShapeExpr N P → List Nat → List (Pred P × Nat) × List Nat) :
    List Nat → List Nat → List (Pred P × Nat) × List Nat
  | [], vis => ([], vis)
  | e :: es, vis =>
    if e ∈ vis then refsOver sch go es vis
    else
      let r := match sch.find e with
        | none => ([], e :: vis)
        | some se => go se (e :: vis)
      let r' := refsOver sch go es r.2
      (r.1 ++ r'.1, r'.2)

/-- `ShapeExpr::references_visited` and `Shape::references_visited` (shape_expr.rs:85-151,
shape.rs:71-90), maps flattened to lists of pairs; the first argument bounds the depth. -/
def refsVisited (sch : Schema N P) (dflt : Pred P) :
    Nat → ShapeExpr N P → List Nat → List (Pred P × Nat) × List Nat
  | 0, _, vis => ([], vis)
  | n + 1, se, vis =>
    match se with
    | .or es => refsOver sch (refsVisited sch dflt n) es vis
    | .and es => refsOver sch (refsVisited sch dflt n) es vis
    | .not e => refsOver sch (refsVisited sch dflt n) [e] vis
    | .shape s =>
      let r := refsOver sch (refsVisited sch dflt n) s.extends vis
      (s.valueRefs ++ r.1, r.2)
    | .ref i =>
      let r := refsOver sch (refsVisited sch dflt n) [i] vis
      ((dflt, i) :: r.1, r.2)
    | .nodeConstraint _ => ([], vis)
    | .external => ([], vis)
    | .empty => ([], vis)

/-- `Pred::default()`: the default IRI and the default `bool`. -/
def Env.defaultPred (E : Env N P) : Pred P := ⟨E.defaultIri, false⟩

/-- `ShapeExpr::references` (shape_expr.rs:79-83). Each step inside goes to a shape not seen before,
so the number of shapes bounds the depth. -/
def Env.references (E : Env N P) (se : ShapeExpr N P) : List (Pred P × Nat) :=
  (refsVisited E.schema E.defaultPred (E.schema.shapes.length + 1) se []).1

end Basic

section Check
variable {N P : Type} [DecidableEq N] [DecidableEq P]

/-- The arcs of `neighs` (engine.rs:1612-1660) in the order of the triples, one for each distinct
pair; the traversal of blank nodes, IRIs and literals (`cnv_object`, `get_rdf_node`) is the identity. -/
def Graph.arcs (g : Graph N P) (node : N) (preds : List (Pred P)) : List (Pred P × N) :=
  let outgoing := if g.isSubject node then
      g.triples.filterMap fun t =>
        if t.1 = node ∧ (⟨t.2.1, true⟩ : Pred P) ∈ preds then some (⟨t.2.1, true⟩, t.2.2) else none
    else []
  let incoming := g.triples.filterMap fun t =>
    if t.2.2 = node ∧ (⟨t.2.1, false⟩ : Pred P) ∈ preds then some (⟨t.2.1, false⟩, t.1) else none
  (outgoing ++ incoming).dedup

/-- The remainder of `neighs` (engine.rs:1635-1638; rudof_rdf/src/rdf_core/neighs_rdf.rs:203-222). -/
def Graph.remainder (g : Graph N P) (node : N) (preds : List (Pred P)) : List P :=
  if g.isSubject node then
    (g.triples.filter fun t => decide (t.1 = node ∧ (⟨t.2.1, true⟩ : Pred P) ∉ preds)).map (·.2.1)
  else []

/-- The values of `neighs` in hash order. -/
def Env.neighs (E : Env N P) (node : N) (preds : List (Pred P)) : List (Pred P × N) :=
  E.shuffle (E.graph.arcs node preds)

/-- `Engine::dep` (engine.rs:230-276). -/
def Env.dep (E : Env N P) (x : N × Nat) : Option (List (N × Nat)) :=
  match E.schema.find x.2 with
  | none => none
  | some se =>
    let refs := E.references se
    some (se.directRefs.map (fun i => (x.1, i)) ++
      (E.neighs x.1 (refs.map Prod.fst)).flatMap fun a =>
        (refs.filter fun r => decide (r.1 = a.1)).map fun r => (a.2, r.2))

/-- All pending pairs of a success item are in the typing (engine.rs:1934-1952). -/
def pendingOk (T : N × Nat → Bool) (p : Rbe.Pending (Pred P) N Nat) : Bool :=
  List.all p fun e => e.2.all fun f => T (e.1, f.1)

/-- The loop of `check_expr_neigh` over the results (engine.rs:1916-2006). -/
def scan (T : N × Nat → Bool) : List (Option (Rbe.Pending (Pred P) N Nat)) → Bool
  | [] => false
  | none :: _ => false
  | some p :: rest => if pendingOk T p then true else scan T rest

/-- `check_expr_neigh` (engine.rs:1867-2013). -/
def checkExprNeigh (enum : List Nat → List (Nat × Nat)) (t : TExpr N P) (vs : List (Neigh N P))
    (T : N × Nat → Bool) : Bool :=
  scan T (t.items enum vs)

/-- `SemanticActionContext::triple` attached to each arc (engine.rs:650-658). -/
def withCtx (node : N) (arcs : List (Pred P × N)) : List (Neigh N P) :=
  arcs.map fun a => (a.1, a.2, (node, some a))

mutual
/-- `cond_has_ref` (engine.rs:2086-2092). -/
def condHasRef : VCond N P → Bool
  | .ref _ => true
  | .and vs => condsHaveRef vs
  | .single _ => false
/-- `vs.iter().any(cond_has_ref)` (engine.rs:2089). -/
def condsHaveRef : List (VCond N P) → Bool
  | [] => false
  | c :: cs => condHasRef c || condsHaveRef cs
end

/-- `matches_any_leaf` (engine.rs:2098-2108). -/
def matchesAnyLeaf (t : TExpr N P) (x : Neigh N P) : Bool :=
  (components t).any fun c =>
    decide (c.1 = x.1) && (condHasRef c.2 || (c.2.matches x.2.1 x.2.2).isSome)

/-- `candidate_preds` with the EXTRA predicates appended (engine.rs:642-647). -/
def addPreds (preds extra : List (Pred P)) : List (Pred P) :=
  extra.foldl (fun acc p => if p ∈ acc then acc else acc ++ [p]) preds

/-- `check_node_shape` (engine.rs:627-681). -/
def Env.checkShape (E : Env N P) (node : N) (s : Shape N P) (T : N × Nat → Bool) : Bool :=
  let candidatePreds := addPreds s.preds s.extra
  let values := (withCtx node (E.neighs node candidatePreds)).filter fun x =>
    if x.1 ∉ s.extra then true else matchesAnyLeaf s.expr x
  if s.closed && !(E.graph.remainder node candidatePreds).isEmpty then false
  else checkExprNeigh E.enum s.expr values T

/-- What `check_node_shape_extends` answers for a shape with parents; see `Shex/ModelExtends.lean`. -/
abbrev Ext (N P : Type) := N → Nat → Shape N P → (N × Nat → Bool) → Bool

/-- `check_node_shape_expr` (engine.rs:463-605) and `check_node_ref` (engine.rs:607-625). -/
def Env.checkExpr (E : Env N P) (ext : Ext N P) (node : N) (i : Nat) (se : ShapeExpr N P)
    (T : N × Nat → Bool) : Bool :=
  match se with
  | .and es => es.all fun e => T (node, e)
  | .or es => es.any fun e => T (node, e)
  | .not e => !(T (node, e))
  | .nodeConstraint c => (c.matches node (node, none)).isSome
  | .shape s => if s.extends.isEmpty then E.checkShape node s T else ext node i s T
  | .external => E.external node i
  | .ref e => T (node, e)
  | .empty => true

/-- The engine of a schema and a graph. -/
def Env.sys (E : Env N P) (ext : Ext N P) (order : Nat → List (N × Nat) → List (N × Nat)) :
    Sys (N × Nat) where
  dep := E.dep
  desc := fun x => (E.schema.descendants x.2).map fun d => (x.1, d)
  abstr := fun x => E.schema.isAbstract x.2
  check := fun x T => (E.schema.find x.2).map fun se => E.checkExpr ext x.1 x.2 se T
  order := order

end Check

end Shex

import Verif.Shacl.Engine
import Mathlib.Data.List.Sort

/-!
# Model: the dependency graph of SHACL shapes and its levels

`DG` is `shacl/src/ir/dg/mod.rs`, `SC` is `shacl/src/ir/schema.rs`, `CO` is `shacl/src/ir/component.rs`, `NS` is
`shacl/src/ir/node_shape.rs` (`property_shape.rs` 291-312 is the same).
-/

namespace Shacl

/-- The graph (`petgraph::GraphMap`): nodes in order of insertion, and at most one edge for a pair, with its
polarity (`true` is positive). -/
structure Dg where
  nodes : List Nat
  edges : List (Nat × Nat × Bool)
deriving DecidableEq

/-- Adding a node does nothing if it is there. -/
def addNode (l : List Nat) (n : Nat) : List Nat := if n ∈ l then l else l ++ [n]

/-- `DependencyGraph::add_edge` (DG 49-51): the polarity of an edge that is there is overwritten. -/
def Dg.addEdge (g : Dg) (i j : Nat) (pol : Bool) : Dg :=
  ⟨addNode (addNode g.nodes i) j,
   if (i, j) ∈ g.edges.map fun e => (e.1, e.2.1) then
     g.edges.map fun e => if (e.1, e.2.1) = (i, j) then (i, j, pol) else e
   else g.edges ++ [(i, j, pol)]⟩

/-- A reference of a shape as seen by `add_edges`: the shape referred to, whether polarity changes, and whether
`add_edges` asks for the shape and goes on with it. -/
structure Arc where
  target : Nat
  flips : Bool
  follows : Bool
deriving DecidableEq

/-- `IRComponent::add_edges` (CO 341-433), the references of a component: siblings are left out. -/
def Comp.arcs {Q : Type} : Comp Q → List Arc
  | .prim _ => []
  | .and l => l.map fun j => ⟨j, false, true⟩
  | .or l => l.map fun j => ⟨j, false, true⟩
  | .not j => [⟨j, true, true⟩]
  | .xone l => l.map fun j => ⟨j, false, true⟩
  | .node j => [⟨j, false, true⟩]
  | .qual j _ _ _ => [⟨j, false, false⟩]

/-- `add_edges` of a shape (NS 248-269): the references of its components, then its property shapes. -/
def Shape.arcs {P Q : Type} (sh : Shape P Q) : List Arc :=
  sh.comps.flatMap Comp.arcs ++ sh.props.map fun j => ⟨j, false, true⟩

section
variable {P Q : Type} (S : Nat → Option (Shape P Q))

/-- The loop over references: add an edge, and go on with a shape that has not been met. -/
def arcsLoop (next : Nat → Bool → Dg × List Nat → Option (Dg × List Nat)) (i : Nat) (pol : Bool) :
    List Arc → Dg × List Nat → Option (Dg × List Nat)
  | [], st => some st
  | a :: as, (g, seen) =>
    if a.follows && (S a.target).isNone then arcsLoop next i pol as (g, seen)
    else
      let g' := g.addEdge i a.target (pol != a.flips)
      if a.follows && !(a.target ∈ seen) then
        (next a.target (pol != a.flips) (g', a.target :: seen)).bind fun st => arcsLoop next i pol as st
      else arcsLoop next i pol as (g', seen)

/-- `add_edges` (NS 248-269) with a bound on the depth of calls; `none` if it does not suffice. -/
def addEdges : Nat → Nat → Bool → Dg × List Nat → Option (Dg × List Nat)
  | 0, _, _, _ => none
  | n + 1, i, pol, st =>
    match S i with
    | none => some st
    | some sh => arcsLoop S (addEdges n) i pol sh.arcs st

/-- The loop of `build_dependency_graph` over all shapes (SC 268-272). -/
def buildLoop (n : Nat) : List Nat → Dg × List Nat → Option (Dg × List Nat)
  | [], st => some st
  | i :: is, st => (addEdges S n i true st).bind fun st => buildLoop n is st

/-- `build_dependency_graph` (SC 256-275): `idxs` are the indices of the shapes in order. -/
def buildDg (n : Nat) (idxs : List Nat) : Option Dg := (buildLoop S n idxs (⟨[], []⟩, [])).map Prod.fst

end

/-- The targets of the edges from a node (`edges_directed(node, Outgoing)`). -/
def Dg.out (g : Dg) (n : Nat) : List Nat := (g.edges.filter fun e => e.1 == n).map fun e => e.2.1

/-- `dependents_of` (DG 100-106). -/
def Dg.dependents (g : Dg) (d : Nat) : List Nat :=
  g.nodes.flatMap fun n => ((g.out n).filter fun m => m == d).map fun _ => n

/-- The innermost loop of `topological_levels` (DG 120-126), over all dependents of a level; `none` if a count would
go below zero. -/
def countDown : List Nat → (Nat → Nat) × List Nat → Option ((Nat → Nat) × List Nat)
  | [], st => some st
  | n :: ns, (cnt, next) =>
    if cnt n = 0 then none
    else
      let cnt' := fun m => if m = n then cnt n - 1 else cnt m
      countDown ns (cnt', if cnt' n = 0 then next ++ [n] else next)

/-- The loop of `topological_levels` (DG 116-130) with a bound on iterations. -/
def levelLoop (g : Dg) : Nat → (Nat → Nat) → List Nat → Option (List (List Nat))
  | 0, _, _ => none
  | f + 1, cnt, current =>
    if current.isEmpty then some []
    else
      (countDown (current.flatMap g.dependents) (cnt, [])).bind fun st =>
        (levelLoop g f st.1 (st.2.insertionSort (· ≤ ·))).map fun ls => current :: ls

/-- `topological_levels` (DG 81-133). -/
def Dg.levels (g : Dg) : Option (List (List Nat)) :=
  levelLoop g (g.nodes.length + 1) (fun n => (g.out n).length)
    ((g.nodes.filter fun n => (g.out n).length == 0).insertionSort (· ≤ ·))

/-- `shapes_with_targets_by_level` (SC 128-172) for the shapes with given indices; `tg` says which have targets. -/
def targetLevels (levels : List (List Nat)) (idxs : List Nat) (tg : Nat → Bool) : List (List Nat) :=
  let level0 := ((idxs.filter fun i => !(levels.flatten.contains i) && tg i).insertionSort (· ≤ ·)) ++
    (levels.headD []).filter tg
  (level0 :: (levels.drop 1).map fun l => l.filter tg).filter fun l => !l.isEmpty

end Shacl

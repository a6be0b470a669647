import Verif.Shacl.Dg
import Mathlib.Logic.Relation

/-!
# Specification: chains of references
-/

namespace Shacl

/-- There is an edge. -/
def Dg.Edge (g : Dg) (i j : Nat) : Prop := ∃ b, (i, j, b) ∈ g.edges

/-- A chain of `k` edges that starts at `n`. -/
inductive Chain (R : Nat → Nat → Prop) : Nat → Nat → Prop
  | nil (n : Nat) : Chain R n 0
  | cons {n m k : Nat} : R n m → Chain R m k → Chain R n (k + 1)

/-- The node can reach a cycle. -/
def ReachesCycle (R : Nat → Nat → Prop) (n : Nat) : Prop :=
  ∃ m, Relation.ReflTransGen R n m ∧ Relation.TransGen R m m

/-- What the graph structure guarantees: no repetitions, and the ends of edges are nodes. -/
structure Dg.WF (g : Dg) : Prop where
  nodes : g.nodes.Nodup
  pairs : (g.edges.map fun e => (e.1, e.2.1)).Nodup
  ends : ∀ e ∈ g.edges, e.1 ∈ g.nodes ∧ e.2.1 ∈ g.nodes

end Shacl

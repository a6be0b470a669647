import Verif.Shacl.Engine
import Mathlib.Algebra.BigOperators.Group.Multiset.Basic

/-!
# Specification: what validation should report

The results of a shape for a focus node as a multiset, by the defining equations of the SHACL
recommendation; no cache, no order of evaluation.
-/

namespace Shacl

variable {T O P Q : Type} [DecidableEq T] [DecidableEq O] [DecidableEq P] [DecidableEq Q]

/-- Results per shape and focus node. -/
abbrev Verdict (T O P Q : Type) := Nat → T → Multiset (Res O P Q)

/-- The value nodes among `vs` that are at fault, one result each. -/
def faults (W : World T O P Q) (i : Nat) (k : Kind Q) (x : T) (vs : List T) (bad : T → Prop) [DecidablePred bad] :
    Multiset (Res O P Q) :=
  ((vs : Multiset T).filter bad).map fun y => ⟨W.obj x, k, some (W.obj y), none, i⟩

/-- The number of value nodes of a qualified shape. -/
def qualified (V : Verdict T O P Q) (j : Nat) (sib : List Nat) (vs : List T) : Nat :=
  ((vs : Multiset T).filter fun y => V j y = 0 ∧ ∀ s ∈ sib, V s y ≠ 0).card

/-- The results of a component for a focus node and its value nodes. -/
def compRes (W : World T O P Q) (V : Verdict T O P Q) (i : Nat) (x : T) (vs : List T) : Comp Q → Multiset (Res O P Q)
  | .prim q => ((W.prim q i x vs).getD [] : List (Res O P Q))
  | .and l => faults W i .and x vs fun y => ∃ j ∈ l, V j y ≠ 0
  | .or l => faults W i .or x vs fun y => ∀ j ∈ l, V j y ≠ 0
  | .not j => faults W i .not x vs fun y => V j y = 0
  | .xone l => faults W i .xone x vs fun y => l.countP (fun j => V j y = 0) ≠ 1
  | .node j => faults W i .node x vs fun y => V j y ≠ 0
  | .qual j mn mx sib =>
    (if ∃ m ∈ mn, (qualified V j sib vs : Int) < m then {⟨W.obj x, .qmin, none, none, i⟩} else 0) +
    (if ∃ m ∈ mx, m < (qualified V j sib vs : Int) then {⟨W.obj x, .qmax, none, none, i⟩} else 0)

/-- The results of a shape for a focus node. -/
def shapeRes (W : World T O P Q) (V : Verdict T O P Q) (i : Nat) (sh : Shape P Q) (x : T) : Multiset (Res O P Q) :=
  if sh.deactivated then 0
  else match W.vals sh x with
    | none => 0
    | some vs => (sh.comps.map (compRes W V i x vs)).sum + (sh.props.map fun j => (vs.map (V j)).sum).sum

/-- `V` gives every shape its results. -/
def Meaning (W : World T O P Q) (V : Verdict T O P Q) : Prop :=
  ∀ i sh, W.shape i = some sh → ∀ x, V i x = shapeRes W V i sh x

/-- The shapes that a component refers to. -/
def Comp.refs : Comp Q → List Nat
  | .prim _ => []
  | .and l => l
  | .or l => l
  | .not j => [j]
  | .xone l => l
  | .node j => [j]
  | .qual j _ _ sib => j :: sib

/-- The shapes that a shape refers to. -/
def Shape.refs (sh : Shape P Q) : List Nat := sh.comps.flatMap Comp.refs ++ sh.props

/-- The assumptions on shapes and data: referred shapes exist and references go down in `rank` (they are not
recursive), constraints can be evaluated and report about their focus node, sets are traversed in some order. -/
structure Ranked (W : World T O P Q) (rank : Nat → Nat) : Prop where
  ord : ∀ l, (W.ord l).Perm l
  refs : ∀ i sh, W.shape i = some sh → ∀ j ∈ sh.refs, (W.shape j).isSome ∧ rank j < rank i
  prims : ∀ i sh, W.shape i = some sh → ∀ q, .prim q ∈ sh.comps → ∀ x vs,
    ∃ r, W.prim q i x vs = some r ∧ ∀ a ∈ r, a.focus = W.obj x

/-- The assumptions that make the cache harmless: different terms have different objects, and property shapes
have no property shapes of their own. -/
structure Cacheable (W : World T O P Q) : Prop where
  inj : Function.Injective W.obj
  flat : ∀ i sh, W.shape i = some sh → sh.path ≠ none → sh.props = []

end Shacl

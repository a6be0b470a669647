import Verif.Part.Model
import Verif.Rbe.SpecTable

/-!
# Specification: partitions of a neighbourhood
-/

namespace Part

/-- `Drains step s outs`: run to exhaustion from `s`, the machine stops and has yielded exactly
`outs`, in this order. -/
inductive Drains {S T : Type} (step : S → Option (Option T × S)) : S → List T → Prop
  | stop {s} (h : step s = none) : Drains step s []
  | turn {s s' out outs} (h : step s = some (out, s')) (hd : Drains step s' outs) :
      Drains step s (out.toList ++ outs)

/-- The states visited from `s` until `f` gives `none`. -/
inductive Orbit {S : Type} (f : S → Option S) : S → List S → Prop
  | last {s} (h : f s = none) : Orbit f s [s]
  | next {s s' l} (h : f s = some s') (ho : Orbit f s' l) : Orbit f s (s :: l)

/-- The elements of `items` that the assignment `g` (one group number per item) sends to `b`. -/
def group {T : Type} (items : List T) (g : List Nat) (b : Nat) : List T :=
  ((items.zip g).filter fun x => x.2 == b).map Prod.fst

/-- `g` assigns every item a group below `k`. -/
def Assigns {T : Type} (k : Nat) (items : List T) (g : List Nat) : Prop :=
  g.length = items.length ∧ ∀ d ∈ g, d < k

/-- `g` assigns every item one of the groups it is eligible for. -/
def AssignsEligible {T : Type} (elig : T → List Nat) (items : List T) (g : List Nat) : Prop :=
  List.Forall₂ (fun x d => d ∈ elig x) items g

/-- A partition realises an assignment: it has one part per group, holding the items sent there in
some order. -/
def Realises {T : Type} (k : Nat) (items : List T) (g : List Nat) (p : List (List T)) : Prop :=
  p.length = k ∧ ∀ b < k, (p.getD b []).Perm (group items g b)

/-- Bucket `b` has an expression with a component for the predicate of the triple. -/
def BucketTakes {K V C R : Type} [DecidableEq K] (buckets : List (List (Rbe.Table K V C R)))
    (x : K × V × C) (b : Nat) : Prop :=
  ∃ bucket, buckets[b]? = some bucket ∧ ∃ t ∈ bucket, ∃ c, t.getKey c = some x.1

/-- Every expression of every bucket can be matched by the triples sent to the bucket, taken in
some order. -/
def AllBucketsMatch {K V C R : Type} [DecidableEq K] [DecidableEq V] [DecidableEq R]
    (buckets : List (List (Rbe.Table K V C R)))
    (its : List (K × V × C)) (g : List Nat) : Prop :=
  ∀ (b : Nat) (bucket : List (Rbe.Table K V C R)), buckets[b]? = some bucket → ∀ t ∈ bucket,
    ∃ enum, Rbe.Enumerates enum ∧ ∃ vs, vs.Perm (group its g b) ∧ ∃ p, some p ∈ t.items enum vs

end Part

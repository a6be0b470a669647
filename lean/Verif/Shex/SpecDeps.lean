import Verif.Shex.ModelDeps
import Mathlib.Logic.Relation

/-!
# Specification: dependencies through negation
-/

namespace Shex

/-- One step from a shape expression into an operand; the flag says whether an odd number of
negations has been crossed. -/
inductive SkelStep (sch : DepSchema) : Bool × Skel → Bool × Skel → Prop
  | or {q es e c} (he : e ∈ es) (hc : Rbe.alookup e sch = some c) : SkelStep sch (q, .or es) (q, c)
  | and {q es e c} (he : e ∈ es) (hc : Rbe.alookup e sch = some c) : SkelStep sch (q, .and es) (q, c)
  | not {q e c} (hc : Rbe.alookup e sch = some c) : SkelStep sch (q, .not e) (!q, c)

/-- The shape expression itself refers to `r`: it is a reference, or a shape with a constraint whose
value is a plain reference. -/
def Skel.Refers (r : Nat) : Skel → Prop
  | .ref i => r = i
  | .shape refs _ _ _ => r ∈ refs
  | _ => False

/-- The expression of shape `i` contains a reference to `r`; it is under an odd number of negations
when `neg`. -/
def Refers (sch : DepSchema) (i : Nat) (neg : Bool) (r : Nat) : Prop :=
  ∃ c0 c, Rbe.alookup i sch = some c0 ∧
    Relation.ReflTransGen (SkelStep sch) (false, c0) (neg, c) ∧ c.Refers r

/-- A shape depends on itself through a negated reference. -/
def NegRefCycle (sch : DepSchema) : Prop :=
  ∃ i r, Refers sch i true r ∧
    Relation.ReflTransGen (fun a b => ∃ neg, Refers sch a neg b) r i

/-- No shape contains both a negated and a non-negated reference to the same shape. -/
def OnePolarity (sch : DepSchema) : Prop :=
  ∀ i r, ¬ (Refers sch i false r ∧ Refers sch i true r)

/-- The contract of `tarjan_scc`: the members of a component reach each other, and every node with an
edge is in a component with all the nodes it is mutually connected to. -/
structure IsScc (g : DepGraph) (scc : List (List Nat)) : Prop where
  linked : ∀ comp ∈ scc, ∀ a ∈ comp, ∀ b ∈ comp, Relation.ReflTransGen g.succ a b
  whole : ∀ a b, g.succ a b → ∃ comp ∈ scc, a ∈ comp ∧
    ∀ c, Relation.ReflTransGen g.succ a c → Relation.ReflTransGen g.succ c a → c ∈ comp

end Shex

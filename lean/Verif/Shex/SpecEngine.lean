import Verif.Shex.ModelEngine

/-!
# Specification: the (stratified) greatest typing
-/

namespace Shex
open Classical in
/-- What the definition of `x` says when `T` is taken as the set of pairs that conform: `x` is
defined, and either its own expression holds (unless it is abstract) or a descendant conforms. -/
def Holds {α : Type} (S : Sys α) (T : α → Prop) (x : α) : Prop :=
  S.dep x ≠ none ∧
  ((S.abstr x = false ∧ S.check x (fun y => decide (T y)) = some true) ∨ ∃ d ∈ S.desc x, T d)

/-- The greatest typing closed under the definitions: the union of all the sets of pairs that
support themselves. -/
def Greatest {α : Type} (S : Sys α) (x : α) : Prop :=
  ∃ X : α → Prop, X x ∧ ∀ y, X y → Holds S X y

/-- `W` is the stratified greatest typing for the ranking `ρ`: at each rank the union of all
the sets that support themselves, where pairs of other ranks are read from `W`. -/
def Stratified {α : Type} (S : Sys α) (ρ : α → Nat) (W : α → Prop) : Prop :=
  ∀ x, W x ↔ ∃ X : α → Prop, X x ∧
    ∀ y, X y → ρ y = ρ x ∧ Holds S (fun z => (ρ z = ρ x ∧ X z) ∨ (ρ z ≠ ρ x ∧ W z)) y

/-- The ranking `ρ` respects the references: a pair refers only to pairs of the same rank or below;
its verdict depends on nothing but its references, grows with the conformance of references of the
same rank, and may depend in any way (negation) on references of lower rank. -/
structure Ranked {α : Type} (S : Sys α) (ρ : α → Nat) : Prop where
  dep : ∀ x ds, S.dep x = some ds → ∀ y ∈ ds, ρ y ≤ ρ x
  desc : ∀ x, ∀ y ∈ S.desc x, ρ y ≤ ρ x
  mono : ∀ x ds, S.dep x = some ds → ∀ T T' : α → Bool,
    (∀ y ∈ ds, ρ y < ρ x → T y = T' y) → (∀ y ∈ ds, ρ y = ρ x → T y = true → T' y = true) →
    S.check x T = some true → S.check x T' = some true

/-- No negation: the verdict of a pair depends on nothing but its references and grows with them. -/
def Monotone {α : Type} (S : Sys α) : Prop :=
  ∀ x ds, S.dep x = some ds → ∀ T T' : α → Bool, (∀ y ∈ ds, T y = true → T' y = true) →
    S.check x T = some true → S.check x T' = some true

/-- The order is one of a hash set: the same elements. -/
def SameElements {α : Type} (S : Sys α) : Prop := ∀ n l y, y ∈ S.order n l ↔ y ∈ l

/-- `U` holds every pair reachable from its members. -/
def Closed {α : Type} (S : Sys α) (U : List α) : Prop :=
  ∀ x ∈ U, (∀ ds, S.dep x = some ds → ∀ y ∈ ds, y ∈ U) ∧ ∀ y ∈ S.desc x, y ∈ U

/-- Nothing in `U` makes the engine return an error: every shape exists, the graph answers, and an
abstract shape has descendants. -/
def Defined {α : Type} (S : Sys α) (U : List α) : Prop :=
  ∀ x ∈ U, S.dep x ≠ none ∧ (∀ T, S.check x T ≠ none) ∧ (S.abstr x = true → S.desc x ≠ [])

/-- The inheritance hierarchy is acyclic: it has a height, at most `h` in `U`. -/
def Acyclic {α : Type} (S : Sys α) (U : List α) (h : Nat) : Prop :=
  ∃ height : α → Nat, (∀ x ∈ U, height x ≤ h) ∧ ∀ x ∈ U, ∀ y ∈ S.desc x, height y < height x

end Shex

import Verif.Rbe.Spec

/-!
# Specification: what the derivative algorithm accepts, for every expression

`Lang` is the declared language. `Accepted` departs from it in three places, which are the
defects of the code on degenerate expressions:

* an empty choice (or a choice, `+` or bounded group made of empty choices only) inside a
  sequence is skipped;
* a group `{0,0}` also accepts one symbol that its body does not accept;
* a group with min > max accepts what its body accepts (`{1,0}`), or the empty bag if the body
  does (the others).
-/

namespace Rbe

mutual
/-- Made of empty choices only. -/
def Hollow {A : Type} : Expr A → Prop
  | .or vs => HollowAll vs
  | .plus v => Hollow v
  | .repeat v c => c.min ≠ 0 ∧ Hollow v
  | _ => False
/-- `Hollow` for all elements. -/
def HollowAll {A : Type} : List (Expr A) → Prop
  | [] => True
  | v :: vs => Hollow v ∧ HollowAll vs
end

/-- Bounds without any number between them. -/
def Card.Crossed (c : Card) : Prop := ∃ m, c.max = .intMax m ∧ m < c.min

/-- What a group accepts, from what its body accepts. -/
def GroupAccepts {A : Type} (P : Multiset A → Prop) (c : Card) (s : Multiset A) : Prop :=
  (c = ⟨0, .intMax 0⟩ ∧ (s = 0 ∨ ∃ x, s = {x} ∧ ¬ P {x})) ∨
  (c = ⟨1, .intMax 0⟩ ∧ P s) ∨
  (c ≠ ⟨1, .intMax 0⟩ ∧ c.Crossed ∧ s = 0 ∧ P 0) ∨
  (c ≠ ⟨0, .intMax 0⟩ ∧ ¬ c.Crossed ∧ ∃ k, c.Holds k ∧ SumOf P k s)

mutual
/-- The bags accepted for an expression. -/
def Accepted {A : Type} : Expr A → Multiset A → Prop
  | .fail, _ => False
  | .empty, s => s = 0
  | .symbol v c, s => ∃ n, c.Holds n ∧ s = Multiset.replicate n v
  | .and vs, s => AcceptedAll vs s
  | .or vs, s => AcceptedSome vs s
  | .star v, s => ∃ k, SumOf (fun t => Accepted v t) k s
  | .plus v, s => ∃ k, 1 ≤ k ∧ SumOf (fun t => Accepted v t) k s
  | .repeat v c, s => GroupAccepts (fun t => Accepted v t) c s
/-- The bag splits into one part per expression; a hollow one may be skipped. -/
def AcceptedAll {A : Type} : List (Expr A) → Multiset A → Prop
  | [], s => s = 0
  | v :: vs, s => ∃ t u, s = t + u ∧ (Accepted v t ∨ (Hollow v ∧ t = 0)) ∧ AcceptedAll vs u
/-- One of the expressions accepts. -/
def AcceptedSome {A : Type} : List (Expr A) → Multiset A → Prop
  | [], _ => False
  | v :: vs, s => Accepted v s ∨ AcceptedSome vs s
end

end Rbe

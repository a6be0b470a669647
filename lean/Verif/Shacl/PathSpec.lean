import Verif.Shacl.Path
import Mathlib.Logic.Relation

/-!
# Specification: the relations property paths stand for
-/

namespace Shacl
open Relation

section
variable {T P : Type} (g : Graph T P)

mutual
/-- The nodes related by a path: union, composition, converse and closures of relations. -/
def Rel : Path P → T → T → Prop
  | .pred p, x, y => (x, p, y) ∈ g.triples
  | .alt l, x, y => RelAlt l x y
  | .seq l, x, y => RelSeq l x y
  | .inv q, x, y => Rel q y x
  | .star q, x, y => ReflTransGen (Rel q) x y
  | .plus q, x, y => TransGen (Rel q) x y
  | .opt q, x, y => y = x ∨ Rel q x y
/-- Union of relations. -/
def RelAlt : List (Path P) → T → T → Prop
  | [], _, _ => False
  | q :: l, x, y => Rel q x y ∨ RelAlt l x y
/-- Composition of relations. -/
def RelSeq : List (Path P) → T → T → Prop
  | [], x, y => y = x
  | q :: l, x, y => ∃ z, Rel q x z ∧ RelSeq l z y
end

/-- Converses are taken of predicates only. -/
def isPred : Path P → Prop
  | .pred _ => True
  | _ => False

mutual
/-- Following the path from a node asks for the objects of a term that cannot be a subject, or for the
converse of something other than a predicate. -/
def Fails : Path P → T → Prop
  | .pred _, x => g.subj x = false
  | .alt l, x => FailsAlt l x
  | .seq l, x => FailsSeq l x
  | .inv q, _ => ¬ isPred q
  | .star q, x => ∃ y, ReflTransGen (Rel g q) x y ∧ Fails q y
  | .plus q, x => ∃ y, ReflTransGen (Rel g q) x y ∧ Fails q y
  | .opt q, x => Fails q x
/-- An alternative fails. -/
def FailsAlt : List (Path P) → T → Prop
  | [], _ => False
  | q :: l, x => Fails q x ∨ FailsAlt l x
/-- A step of a sequence fails. -/
def FailsSeq : List (Path P) → T → Prop
  | [], _ => False
  | q :: l, x => Fails q x ∨ ∃ z, Rel g q x z ∧ FailsSeq l z
end

end
end Shacl

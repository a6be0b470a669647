import Verif.Rbe.Model
import Mathlib.Data.Multiset.Replicate
import Mathlib.Data.Multiset.Filter
import Mathlib.Algebra.Order.Group.Multiset
import Mathlib.Algebra.BigOperators.Group.List.Basic
import Mathlib.Algebra.Order.BigOperators.Group.Multiset

/-!
# Specification: the language of a regular bag expression

This file does not mention any matching algorithm. A bag is a `Multiset`.
The meaning follows the ShEx / regular bag expression literature
(docs/src/internals/feasibility-model.md, section 2).
-/

namespace Rbe

/-- `n` occurrences satisfy the cardinality `c`: `min ≤ n ≤ max`. -/
def Card.Holds (c : Card) (n : Nat) : Prop :=
  c.min ≤ n ∧ ∀ m, c.max = .intMax m → n ≤ m

/-- `s` is the sum of exactly `k` bags, each satisfying `P`. -/
def SumOf {A : Type} (P : Multiset A → Prop) (k : Nat) (s : Multiset A) : Prop :=
  ∃ l : List (Multiset A), l.length = k ∧ (∀ t ∈ l, P t) ∧ l.sum = s

mutual
/-- `Lang e s`: the bag `s` belongs to the language of `e`. -/
def Lang {A : Type} : Expr A → Multiset A → Prop
  | .fail, _ => False
  | .empty, s => s = 0
  | .symbol v c, s => ∃ n, c.Holds n ∧ s = Multiset.replicate n v
  | .and vs, s => LangAll vs s
  | .or vs, s => LangSome vs s
  | .star v, s => ∃ k, SumOf (fun t => Lang v t) k s
  | .plus v, s => ∃ k, 1 ≤ k ∧ SumOf (fun t => Lang v t) k s
  | .repeat v c, s => ∃ k, c.Holds k ∧ SumOf (fun t => Lang v t) k s
/-- The bag splits into one part per expression. -/
def LangAll {A : Type} : List (Expr A) → Multiset A → Prop
  | [], s => s = 0
  | v :: vs, s => ∃ t u, s = t + u ∧ Lang v t ∧ LangAll vs u
/-- The bag is in the language of one of the expressions. -/
def LangSome {A : Type} : List (Expr A) → Multiset A → Prop
  | [], _ => False
  | v :: vs, s => Lang v s ∨ LangSome vs s
end

/-- The multiset denoted by the entries of a bag. -/
def bagOf {A : Type} (bag : List (A × Nat)) : Multiset A :=
  (bag.map fun p => Multiset.replicate p.2 p.1).sum

/-- The entries yielded by a real `Bag`: every entry has a positive count and no symbol
has two entries (a hash bag stores one counter per element). -/
def ValidBag {A : Type} (bag : List (A × Nat)) : Prop :=
  (∀ p ∈ bag, 0 < p.2) ∧ (bag.map Prod.fst).Nodup

mutual
/-- Every repeated group has `min ≤ max` and `max ≠ 0`, and no choice is empty. -/
def WF {A : Type} : Expr A → Prop
  | .fail => True
  | .empty => True
  | .symbol _ _ => True
  | .and vs => WFList vs
  | .or vs => vs ≠ [] ∧ WFList vs
  | .star v => WF v
  | .plus v => WF v
  | .repeat v c => c.Holds c.min ∧ c.max ≠ .intMax 0 ∧ WF v
/-- `WF` for all elements. -/
def WFList {A : Type} : List (Expr A) → Prop
  | [] => True
  | v :: vs => WF v ∧ WFList vs
end

mutual
/-- Every repeated group has `min ≤ max` and no choice is empty. -/
def Sane {A : Type} : Expr A → Prop
  | .fail => True
  | .empty => True
  | .symbol _ _ => True
  | .and vs => SaneList vs
  | .or vs => vs ≠ [] ∧ SaneList vs
  | .star v => Sane v
  | .plus v => Sane v
  | .repeat v c => c.Holds c.min ∧ Sane v
/-- `Sane` for all elements. -/
def SaneList {A : Type} : List (Expr A) → Prop
  | [] => True
  | v :: vs => Sane v ∧ SaneList vs
end

mutual
/-- Well-formed, no empty sequence, and every repeated group requires at least one repetition
or has a nullable body. -/
def OpenOK {A : Type} : Expr A → Prop
  | .fail => True
  | .empty => True
  | .symbol _ _ => True
  | .and vs => vs ≠ [] ∧ OpenOKList vs
  | .or vs => vs ≠ [] ∧ OpenOKList vs
  | .star v => OpenOK v
  | .plus v => OpenOK v
  | .repeat v c => c.Holds c.min ∧ c.max ≠ .intMax 0 ∧ (1 ≤ c.min ∨ Lang v 0) ∧ OpenOK v
/-- `OpenOK` for all elements. -/
def OpenOKList {A : Type} : List (Expr A) → Prop
  | [] => True
  | v :: vs => OpenOK v ∧ OpenOKList vs
end

mutual
/-- `Fail` does not occur in the expression. -/
def NoFail {A : Type} : Expr A → Prop
  | .fail => False
  | .empty => True
  | .symbol _ _ => True
  | .and vs => NoFailList vs
  | .or vs => NoFailList vs
  | .star v => NoFail v
  | .plus v => NoFail v
  | .repeat v _ => NoFail v
/-- `NoFail` for all elements. -/
def NoFailList {A : Type} : List (Expr A) → Prop
  | [] => True
  | v :: vs => NoFail v ∧ NoFailList vs
end

/-- The values a caller can obtain from the public constructors of `RbeStruct`
(rbe/src/rbe_struct.rs:128-215, 291-316). -/
inductive Built {A : Type} [DecidableEq A] : Struct A → Prop
  | empty : Built Struct.empty
  | symbol (x : A) (min : Nat) (max : Mx) : Built (Struct.symbol x min max)
  | or (l : List (Struct A)) (h : ∀ s ∈ l, Built s) : Built (Struct.or l)
  | and (l : List (Struct A)) (h : ∀ s ∈ l, Built s) : Built (Struct.and l)
  | opt (s : Struct A) (h : Built s) : Built s.opt
  | plus (s : Struct A) (h : Built s) : Built s.plus
  | star (s : Struct A) (h : Built s) : Built s.star
  | repeat (s : Struct A) (min : Nat) (max : Mx) (h : Built s) : Built (s.repeat min max)
  | ofExpr (e : Expr A) : Built (Struct.ofExpr e)

mutual
/-- Number of occurrences of a symbol among the leaves of an expression. -/
def occ {A : Type} [DecidableEq A] (a : A) : Expr A → Nat
  | .fail => 0
  | .empty => 0
  | .symbol v _ => if v = a then 1 else 0
  | .and vs => occList a vs
  | .or vs => occList a vs
  | .star v => occ a v
  | .plus v => occ a v
  | .repeat v _ => occ a v
/-- Sum of `occ` over a list. -/
def occList {A : Type} [DecidableEq A] (a : A) : List (Expr A) → Nat
  | [] => 0
  | v :: vs => occ a v + occList a vs
end

/-- No symbol occurs twice in the expression. -/
def SingleOcc {A : Type} [DecidableEq A] (e : Expr A) : Prop := ∀ a, occ a e ≤ 1

mutual
/-- No `m..n` repeated group anywhere. -/
def RepeatFree {A : Type} : Expr A → Prop
  | .fail => True
  | .empty => True
  | .symbol _ _ => True
  | .and vs => RepeatFreeList vs
  | .or vs => RepeatFreeList vs
  | .star v => RepeatFree v
  | .plus v => RepeatFree v
  | .repeat _ _ => False
/-- `RepeatFree` for all elements. -/
def RepeatFreeList {A : Type} : List (Expr A) → Prop
  | [] => True
  | v :: vs => RepeatFree v ∧ RepeatFreeList vs
end

mutual
/-- No repeated group is nested inside `Star`, `Plus` or another repeated group. -/
def RepeatFlat {A : Type} : Expr A → Prop
  | .fail => True
  | .empty => True
  | .symbol _ _ => True
  | .and vs => RepeatFlatList vs
  | .or vs => RepeatFlatList vs
  | .star v => RepeatFree v
  | .plus v => RepeatFree v
  | .repeat v _ => RepeatFree v
/-- `RepeatFlat` for all elements. -/
def RepeatFlatList {A : Type} : List (Expr A) → Prop
  | [] => True
  | v :: vs => RepeatFlat v ∧ RepeatFlatList vs
end

end Rbe

import Verif.Rbe.Spec
import Verif.Rbe.ModelDiag

/-!
# Specification: declared cardinalities and conditioned membership
-/

namespace Rbe

/-- `Declares e a c`: somewhere in `e` the symbol `a` is written with cardinality `c`. -/
inductive Declares {A : Type} : Expr A → A → Card → Prop
  | symbol (a : A) (c : Card) : Declares (.symbol a c) a c
  | and {vs v a c} (hv : v ∈ vs) (h : Declares v a c) : Declares (.and vs) a c
  | or {vs v a c} (hv : v ∈ vs) (h : Declares v a c) : Declares (.or vs) a c
  | star {v a c} (h : Declares v a c) : Declares (.star v) a c
  | plus {v a c} (h : Declares v a c) : Declares (.plus v) a c
  | repeat {v d a c} (h : Declares v a c) : Declares (.repeat v d) a c

mutual
/-- A (possibly nested) conjunction of symbols. -/
def Conj {A : Type} : Expr A → Prop
  | .empty => True
  | .symbol _ _ => True
  | .and vs => ConjList vs
  | _ => False
/-- `Conj` for all elements. -/
def ConjList {A : Type} : List (Expr A) → Prop
  | [] => True
  | v :: vs => Conj v ∧ ConjList vs
end

/-- The violations a diagnosis names. -/
def Diag.Names {A : Type} (d : Diag A) (a : A) (c : Card) (n : Nat) : Prop :=
  d = .card a c n ∨ ∃ fs, d = .multi fs ∧ (a, c, n) ∈ fs

/-- The pair of a key and a value can be counted as the conditioned symbol `a`. -/
def Fits {K Q W : Type} (sat : Q → W → Bool) (x : K × W) (a : K × Q) : Prop :=
  a.1 = x.1 ∧ sat a.2 x.2 = true

/-- The sequence of keys and values belongs to the conditioned expression: the values can be
read as conditioned symbols whose bag is in the language. -/
def LangC {K Q W : Type} (sat : Q → W → Bool) (e : Expr (K × Q)) (l : List (K × W)) : Prop :=
  ∃ as : List (K × Q), List.Forall₂ (Fits sat) l as ∧ Lang e (as : Multiset (K × Q))

mutual
/-- Neither `Star` nor `Plus` occurs. -/
def LoopFree {A : Type} : Expr A → Prop
  | .fail => True
  | .empty => True
  | .symbol _ _ => True
  | .and vs => LoopFreeList vs
  | .or vs => LoopFreeList vs
  | .star _ => False
  | .plus _ => False
  | .repeat v _ => LoopFree v
/-- `LoopFree` for all elements. -/
def LoopFreeList {A : Type} : List (Expr A) → Prop
  | [] => True
  | v :: vs => LoopFree v ∧ LoopFreeList vs
end

mutual
/-- The reading that the conditioned matcher gives to loops: `v*` is nothing or two copies of `v`, and `v+` is one copy
or three copies of `v`. -/
def unloop {A : Type} : Expr A → Expr A
  | .fail => .fail
  | .empty => .empty
  | .symbol v c => .symbol v c
  | .and vs => .and (unloopList vs)
  | .or vs => .or (unloopList vs)
  | .star v => .or [.empty, .and [unloop v, unloop v]]
  | .plus v => .or [unloop v, .and [unloop v, unloop v, unloop v]]
  | .repeat v c => .repeat (unloop v) c
/-- `unloop` of all elements. -/
def unloopList {A : Type} : List (Expr A) → List (Expr A)
  | [] => []
  | v :: vs => unloop v :: unloopList vs
end

end Rbe

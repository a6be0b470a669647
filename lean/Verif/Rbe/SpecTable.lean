import Verif.Rbe.ModelTable
import Verif.Rbe.Spec

/-!
# Specification of table matching
-/

namespace Rbe

/-- `v` depends on reference `r` in a pending map. -/
def Pending.Dep {K V R : Type} (p : Pending K V R) (v : V) (r : R) : Prop :=
  ∃ rs ks, (v, rs) ∈ p ∧ (r, ks) ∈ rs

/-- `k` is a key of the dependency of `v` on `r`. -/
def Pending.Key {K V R : Type} (p : Pending K V R) (v : V) (r : R) (k : K) : Prop :=
  ∃ rs ks, (v, rs) ∈ p ∧ (r, ks) ∈ rs ∧ k ∈ ks

mutual
/-- The value satisfies the condition: references are postponed, payloads decide, conjunctions
need all parts. -/
def Cond.Sat {K V C R : Type} (v : V) (c : C) : Cond K V C R → Prop
  | .single none => True
  | .single (some kind) => kind v c ≠ none
  | .ref _ => True
  | .and cs => Cond.SatAll v c cs
/-- All conditions are satisfied. -/
def Cond.SatAll {K V C R : Type} (v : V) (c : C) : List (Cond K V C R) → Prop
  | [] => True
  | d :: ds => Cond.Sat v c d ∧ Cond.SatAll v c ds
end

mutual
/-- The condition, applied to `v`, leaves it pending that `w` conforms to `r`. -/
def Cond.Deps {K V C R : Type} (v : V) (c : C) (w : V) (r : R) : Cond K V C R → Prop
  | .single none => False
  | .single (some kind) => ∃ p, kind v c = some p ∧ p.Dep w r
  | .ref r' => w = v ∧ r = r'
  | .and cs => Cond.DepsAny v c w r cs
/-- Some condition leaves it pending. -/
def Cond.DepsAny {K V C R : Type} (v : V) (c : C) (w : V) (r : R) : List (Cond K V C R) → Prop
  | [] => False
  | d :: ds => Cond.Deps v c w r d ∨ Cond.DepsAny v c w r ds
end

mutual
/-- The payload of the condition itself attaches key `k` to the pending pair `w @ r`. -/
def Cond.DepKeys {K V C R : Type} (v : V) (c : C) (w : V) (r : R) (k : K) : Cond K V C R → Prop
  | .single none => False
  | .single (some kind) => ∃ p, kind v c = some p ∧ p.Key w r k
  | .ref _ => False
  | .and cs => Cond.DepKeysAny v c w r k cs
/-- Some condition attaches the key. -/
def Cond.DepKeysAny {K V C R : Type} (v : V) (c : C) (w : V) (r : R) (k : K) :
    List (Cond K V C R) → Prop
  | [] => False
  | d :: ds => Cond.DepKeys v c w r k d ∨ Cond.DepKeysAny v c w r k ds
end

/-- Tables a caller can obtain through the public interface. -/
inductive Table.Made {K V C R : Type} [DecidableEq K] : Table K V C R → Prop
  | new : Made Table.new
  | add (t : Table K V C R) (k : K) (cond : Cond K V C R) (h : Made t) : Made (t.addComponent k cond)
  | withRbe (t : Table K V C R) (s : Struct Nat) (hs : Built s) (h : Made t) : Made (t.withRbe s)

/-- Component `c` may take the triple `x`: it is registered for its key and its condition is
satisfied. -/
def Table.Takes {K V C R : Type} (t : Table K V C R) (x : K × V × C) (c : Nat) : Prop :=
  t.getKey c = some x.1 ∧ ∃ cond, t.getCondition c = some cond ∧ cond.Sat x.2.1 x.2.2

/-- The components `cs` are a valid assignment for `values`: each triple goes to a component that
takes it, and the bag of components is in the language of the expression. -/
def Table.Assignment {K V C R : Type} (t : Table K V C R) (values : List (K × V × C))
    (cs : List Nat) : Prop :=
  List.Forall₂ t.Takes values cs ∧ Lang t.rbe.rbe (cs : Multiset Nat)

/-- The pending reference `w @ r` is produced by some triple of the assignment. -/
def Table.Requires {K V C R : Type} (t : Table K V C R) (values : List (K × V × C))
    (cs : List Nat) (w : V) (r : R) : Prop :=
  ∃ x c, (x, c) ∈ values.zip cs ∧ ∃ cond, t.getCondition c = some cond ∧
    cond.Deps x.2.1 x.2.2 w r

/-- Key `k` is attached to the pending pair `w @ r` by some triple of the assignment: either it is
the key of the triple or the payload attached it. -/
def Table.RequiresKey {K V C R : Type} (t : Table K V C R) (values : List (K × V × C))
    (cs : List Nat) (w : V) (r : R) (k : K) : Prop :=
  ∃ x c, (x, c) ∈ values.zip cs ∧ ∃ cond, t.getCondition c = some cond ∧
    ((cond.Deps x.2.1 x.2.2 w r ∧ k = x.1) ∨ cond.DepKeys x.2.1 x.2.2 w r k)

/-- No component can take the triple, and the code notices it before building combinations: either
no component is registered for its key, or several are and none takes it. -/
def Table.Unplaceable {K V C R : Type} (t : Table K V C R) (x : K × V × C) : Prop :=
  (∀ c, t.getKey c ≠ some x.1) ∨
    ((∃ c d, c ≠ d ∧ t.getKey c = some x.1 ∧ t.getKey d = some x.1) ∧ ∀ c, ¬ t.Takes x c)

/-- The pending references of `p` are exactly those produced by the assignment `cs`. -/
def Table.Collects {K V C R : Type} (t : Table K V C R) (values : List (K × V × C))
    (cs : List Nat) (p : Pending K V R) : Prop :=
  (∀ w r, p.Dep w r ↔ t.Requires values cs w r) ∧
    ∀ w r k, p.Key w r k ↔ t.RequiresKey values cs w r k

/-- `enum` lists the entries of a hash bag, in some order. -/
def Enumerates (enum : List Nat → List (Nat × Nat)) : Prop :=
  ∀ l, ValidBag (enum l) ∧ bagOf (enum l) = (l : Multiset Nat)

mutual
/-- Every repeated group has `min ≤ max`. -/
def MinMax {A : Type} : Expr A → Prop
  | .fail => True
  | .empty => True
  | .symbol _ _ => True
  | .and vs => MinMaxList vs
  | .or vs => MinMaxList vs
  | .star v => MinMax v
  | .plus v => MinMax v
  | .repeat v c => c.Holds c.min ∧ MinMax v
/-- `MinMax` for all elements. -/
def MinMaxList {A : Type} : List (Expr A) → Prop
  | [] => True
  | v :: vs => MinMax v ∧ MinMaxList vs
end

end Rbe

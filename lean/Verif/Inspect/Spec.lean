import Verif.Inspect.Model
import Mathlib.Data.List.Forall2

/-!
# What information about a node should show

Walks in a graph, and the trees of all walks of up to a number of steps.
-/

namespace Inspect

variable {T P : Type}

/-- The graph has the triple and the predicate is one of those asked for. -/
def Follows (D : Data T P) (allowed : P → Prop) (s : T) (p : P) (o : T) : Prop :=
  (s, p, o) ∈ D.triples ∧ allowed p

/-- The other way round, whatever the predicate. -/
def Reaches (D : Data T P) (o : T) (p : P) (s : T) : Prop := (s, p, o) ∈ D.triples

/-- The predicates asked for: all when there is no list. -/
def Asked (D : Data T P) (ps : List String) (p : P) : Prop :=
  ps = [] ∨ ∃ t ∈ ps, D.predicate t = some p

/-- The line of an outgoing arc. -/
def outLine (D : Data T P) (p : P) (o : T) (l : String) : Prop :=
  ∃ t, D.showT o = some t ∧ l = "─ " ++ D.showP p ++ " ─► " ++ t

/-- The line of an incoming arc. -/
def inLine (D : Data T P) (p : P) (s : T) (l : String) : Prop :=
  ∃ t, D.showT s = some t ∧ l = "─ " ++ D.showP p ++ " ── " ++ t

/-- Trees that show every arc once, those with smaller predicates first, and below each arc the
same for the node it leads to, down to a depth. -/
def Shown (D : Data T P) (line : P → T → String → Prop) (E : T → P → T → Prop) :
    Nat → T → List Tree → Prop
  | 0, _, ts => ts = []
  | n + 1, s, ts => ∃ L : List (P × T), L.Nodup ∧ (∀ p o, (p, o) ∈ L ↔ E s p o) ∧
      L.Pairwise (fun a b => D.le a.1 b.1 = true) ∧
      List.Forall₂ (fun e t => ∃ l kids, line e.1 e.2 l ∧ t = Tree.node l kids ∧
        Shown D line E n e.2 kids) L ts

/-- A walk from a node: predicates and nodes one after the other. -/
inductive Walk (E : T → P → T → Prop) : T → List (P × T) → Prop
  | nil (s : T) : Walk E s []
  | cons (s : T) (p : P) (o : T) (w : List (P × T)) : E s p o → Walk E o w → Walk E s ((p, o) :: w)

/-- The lines met on the way from the roots into trees. -/
inductive Branch : List Tree → List String → Prop
  | nil (ts : List Tree) : Branch ts []
  | cons (ts : List Tree) (l : String) (kids : List Tree) (ls : List String) :
      Tree.node l kids ∈ ts → Branch kids ls → Branch ts (l :: ls)

/-- The order is total, sets are iterated somehow, and subjects of triples are subjects. -/
structure Sane (D : Data T P) : Prop where
  total : ∀ p q, D.le p q = true ∨ D.le q p = true
  trans : ∀ p q r, D.le p q = true → D.le q r = true → D.le p r = true
  hash : ∀ l, (D.hash l).Perm l
  subject : ∀ t ∈ D.triples, D.isNode t.1 = true

end Inspect

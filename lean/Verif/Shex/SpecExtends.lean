import Verif.Shex.ModelExtends
import Verif.Shex.SpecShape
import Verif.Part.Spec

/-!
# Specification: shapes that extend others
-/

namespace Shex
open Rbe

/-- One alternative for each parent. -/
def Choice {A : Type} (parents : List (List A)) (choice : List A) : Prop :=
  List.Forall₂ (fun alts a => a ∈ alts) parents choice

section
variable {N P : Type}

/-- The schema has no empty disjunction. -/
def NoEmptyOr (sch : Schema N P) : Prop := ∀ i es, sch.At i (.or es) → es ≠ []

/-- The shape brings buckets of triples: it is a shape, or refers to one through references and
Boolean operators. -/
inductive Bucketed (sch : Schema N P) : Nat → Prop
  | shape {i s} (h : sch.At i (.shape s)) : Bucketed sch i
  | ref {i j} (h : sch.At i (.ref j)) (hb : Bucketed sch j) : Bucketed sch i
  | or {i es e} (h : sch.At i (.or es)) (he : e ∈ es) (hb : Bucketed sch e) : Bucketed sch i
  | and {i es e} (h : sch.At i (.and es)) (he : e ∈ es) (hb : Bucketed sch e) : Bucketed sch i

/-- The rank falls along references, operands and parents. -/
structure Grounded (sch : Schema N P) (rank : Nat → Nat) : Prop where
  ref : ∀ i j, sch.At i (.ref j) → rank j < rank i
  or : ∀ i es, sch.At i (.or es) → ∀ e ∈ es, rank e < rank i
  and : ∀ i es, sch.At i (.and es) → ∀ e ∈ es, rank e < rank i
  shape : ∀ i s, sch.At i (.shape s) → ∀ e ∈ s.extends, rank e < rank i

mutual
/-- `B` is a set of buckets obtained by one choice of branch for every disjunction met: a shape brings
itself and what its parents bring, a conjunction what its first bucketed conjunct brings, everything
else nothing. -/
inductive Buckets (sch : Schema N P) : Nat → (Nat → Prop) → Prop
  | shape {i s B} (h : sch.At i (.shape s)) (hs : BucketsAll sch s.extends B) :
      Buckets sch i (fun b => b = i ∨ B b)
  | ref {i j B} (h : sch.At i (.ref j)) (hb : Buckets sch j B) : Buckets sch i B
  | or {i es e B} (h : sch.At i (.or es)) (he : e ∈ es) (hb : Buckets sch e B) : Buckets sch i B
  | and {i es pre e post B} (h : sch.At i (.and es)) (hes : es = pre ++ e :: post)
      (hpre : ∀ x ∈ pre, ¬ Bucketed sch x) (he : Bucketed sch e) (hb : Buckets sch e B) :
      Buckets sch i B
  | andNone {i es} (h : sch.At i (.and es)) (hes : ∀ x ∈ es, ¬ Bucketed sch x) :
      Buckets sch i (fun _ => False)
  | nodeConstraint {i c} (h : sch.At i (.nodeConstraint c)) : Buckets sch i (fun _ => False)
  | not {i e} (h : sch.At i (.not e)) : Buckets sch i (fun _ => False)
  | external {i} (h : sch.At i .external) : Buckets sch i (fun _ => False)
  | empty {i} (h : sch.At i .empty) : Buckets sch i (fun _ => False)
  | absent {i} (h : ∀ se, ¬ sch.At i se) : Buckets sch i (fun _ => False)
/-- What several parents bring together, one choice for each. -/
inductive BucketsAll (sch : Schema N P) : List Nat → (Nat → Prop) → Prop
  | nil : BucketsAll sch [] (fun _ => False)
  | cons {e es B B'} (h : Buckets sch e B) (hs : BucketsAll sch es B') :
      BucketsAll sch (e :: es) (fun b => B b ∨ B' b)
end

end

section
variable {N P : Type} [DecidableEq P]

/-- The triple expression takes the triples `vs` under the typing `T`: they can be assigned to its
constraints, and the references so required are in `T`; or (the deviation described with C12) it
accepts the empty neighbourhood and none of the triples has a place. -/
def Accepts (t : TExpr N P) (vs : List (Neigh N P)) (T : N × Nat → Prop) : Prop :=
  (∃ cs, t.Assignment vs cs ∧ ∀ w r, t.Requires vs cs w r → T (w, r)) ∨
    ((∀ x ∈ vs, t.Unplaceable x) ∧ Lang t.rbe.rbe 0)

/-- Some expression of the bucket has a constraint for the predicate of the triple. -/
def Mentioned (ts : List (TExpr N P)) (x : Neigh N P) : Prop := ∃ t ∈ ts, ∃ c, t.getKey c = some x.1

/-- The triples can be shared out among the buckets: triples no bucket mentions are dropped, each
other goes to one bucket that mentions it, every bucket takes its share, and every constraint takes
the shares of the buckets in its scope. -/
def Shared (buckets : List (Option Nat × List (TExpr N P)))
    (splits : List (List Nat × List (TExpr N P))) (values : List (Neigh N P))
    (T : N × Nat → Prop) : Prop :=
  ∃ (share : Option Nat → List (Neigh N P)) (dropped : List (Neigh N P)),
    values.Perm ((buckets.flatMap fun b => share b.1) ++ dropped) ∧
    (∀ x ∈ dropped, ∀ b ∈ buckets, ¬ Mentioned b.2 x) ∧
    (∀ l, l ∉ buckets.map Prod.fst → share l = []) ∧
    (∀ b ∈ buckets, (∀ x ∈ share b.1, Mentioned b.2 x) ∧ ∀ t ∈ b.2, Accepts t (share b.1) T) ∧
    ∀ c ∈ splits, ∀ t ∈ c.2, Accepts t (c.1.flatMap fun b => share (some b)) T

/-- The conditions under which table matching is exact (C12). -/
structure Plain (t : TExpr N P) : Prop where
  made : t.Made
  wf : WF t.rbe.rbe
  flat : SingleOcc t.rbe.rbe → RepeatFlat t.rbe.rbe

variable [DecidableEq N]

/-- The orders of the hash maps lose nothing and the bound lets the iterator end. -/
structure Search.Fair (S : Search N P) : Prop where
  buckets : ∀ l, (S.bucketOrder l).Perm l
  classes : ∀ l, (S.classOrder l).Perm l
  turns : ∀ tables values, Part.drain Part.CIter.step (S.turns tables values)
    (Part.classPartitions S.classOrder tables values) ≠ none

mutual
/-- The conjuncts of an extended conjunction that are read triple by triple: shapes without parents,
node constraints, references and conjunctions. -/
inductive FlatExpr (sch : Schema N P) : Nat → Prop
  | shape {i s} (h : sch.At i (.shape s)) (he : s.extends = []) : FlatExpr sch i
  | nodeConstraint {i c} (h : sch.At i (.nodeConstraint c)) : FlatExpr sch i
  | ref {i j} (h : sch.At i (.ref j)) (hj : FlatExpr sch j) : FlatExpr sch i
  | and {i es} (h : sch.At i (.and es)) (hs : FlatAll sch es) : FlatExpr sch i
/-- All are flat. -/
inductive FlatAll (sch : Schema N P) : List Nat → Prop
  | nil : FlatAll sch []
  | cons {e es} (h : FlatExpr sch e) (hs : FlatAll sch es) : FlatAll sch (e :: es)
end

mutual
/-- The triple expressions of a flat expression, none when the node fails one of its node
constraints. -/
inductive Parts (sch : Schema N P) (node : N) : Nat → List (TExpr N P) → Prop
  | shape {i s} (h : sch.At i (.shape s)) (he : s.extends = []) : Parts sch node i [s.expr]
  | nodeConstraint {i c} (h : sch.At i (.nodeConstraint c)) (hc : c.Sat node (node, none)) :
      Parts sch node i []
  | ref {i j ts} (h : sch.At i (.ref j)) (hj : Parts sch node j ts) : Parts sch node i ts
  | and {i es ts} (h : sch.At i (.and es)) (hs : PartsAll sch node es ts) : Parts sch node i ts
/-- Those of several expressions, in order. -/
inductive PartsAll (sch : Schema N P) (node : N) : List Nat → List (TExpr N P) → Prop
  | nil : PartsAll sch node [] []
  | cons {e es ts ts'} (h : Parts sch node e ts) (hs : PartsAll sch node es ts') :
      PartsAll sch node (e :: es) (ts ++ ts')
end

/-- The shape at `b` is a bucket of the selection, or is the shape itself (`none`). -/
def InSelection (sch : Schema N P) (s : Shape N P) (σ : Alt) (l : Option Nat) (b : Shape N P) : Prop :=
  (l = none ∧ b = s) ∨ ∃ i ∈ σ.buckets, l = some i ∧ sch.At i (.shape b)

/-- The arc is subject to the selection: its predicate is mentioned by the shape, one of the buckets or
EXTRA, and in the last case its value may match a constraint of the selection. -/
def SelectionBound (E : Env N P) (s : Shape N P) (σ : Alt) (node : N) (p : Pred P) (v : N) : Prop :=
  E.graph.Arc node p v ∧
    ((∃ l b, InSelection E.schema s σ l b ∧ p ∈ b.preds) ∨ p ∈ s.extra) ∧
    (p ∈ s.extra → ∃ l b, InSelection E.schema s σ l b ∧ b.MayMatch node p v)

/-- A selection holds: a closed shape mentions every outgoing predicate, the triple expressions of every
constraint exist for the node, and the bound arcs can be shared out among the shape and the buckets of
the selection so that each constraint takes the shares of its scope. -/
def SelectionSat (E : Env N P) (T : N × Nat → Prop) (node : N) (s : Shape N P) (σ : Alt) : Prop :=
  (s.closed = true → ∀ p v, E.graph.Arc node ⟨p, true⟩ v →
    (∃ l b, InSelection E.schema s σ l b ∧ ⟨p, true⟩ ∈ b.preds) ∨ ⟨p, true⟩ ∈ s.extra) ∧
  ∃ (buckets : List (Option Nat × List (TExpr N P))) (vs : List (Neigh N P))
    (splits : List (List Nat × List (TExpr N P))),
    (buckets.map Prod.fst).Nodup ∧
    (∀ l ts, (l, ts) ∈ buckets ↔ ∃ b, InSelection E.schema s σ l b ∧ ts = [b.expr]) ∧
    vs.Nodup ∧ (∀ x : Neigh N P, x ∈ vs ↔
      x.2.2 = (node, some (x.1, x.2.1)) ∧ SelectionBound E s σ node x.1 x.2.1) ∧
    List.Forall₂ (fun c sp => sp.1 = c.2 ∧ Parts E.schema node c.1 sp.2) σ.constraints splits ∧
    Shared buckets splits vs T

/-- Every extended parent is a shape, directly. -/
def ShapeParents (sch : Schema N P) : Prop :=
  ∀ i s, sch.At i (.shape s) → ∀ e ∈ s.extends, ∃ s', sch.At e (.shape s')

/-- Shape `i` and its ancestors, as a selection. -/
def Lineage (sch : Schema N P) (i : Nat) (σ : Alt) : Prop :=
  σ.constraints = [] ∧ σ.buckets.Nodup ∧ ∀ d, d ∈ σ.buckets ↔ Extends sch i d

/-- The predicates of a shape include those of its constraints. -/
def CoversKeys (s : Shape N P) : Prop := ∀ c p, s.expr.getKey c = some p → p ∈ s.preds

/-- No two shapes of the selection have constraints for the same predicate. -/
def DisjointPreds (sch : Schema N P) (s : Shape N P) (σ : Alt) : Prop :=
  ∀ l l' b b', InSelection sch s σ l b → InSelection sch s σ l' b' → l ≠ l' →
    ∀ c c' p, b.expr.getKey c = some p → b'.expr.getKey c' ≠ some p

/-- A hierarchy of shapes: parents are shapes and no shape is its own ancestor, the predicates of a
shape include those of its constraints, and no two shapes of a line of ancestors have constraints for
the same predicate. -/
structure Hierarchy (sch : Schema N P) : Prop where
  parents : ShapeParents sch
  acyclic : ∃ rank : Nat → Nat, ∀ i s, sch.At i (.shape s) → ∀ e ∈ s.extends, rank e < rank i
  covers : ∀ i s, sch.At i (.shape s) → CoversKeys s
  disjoint : ∀ i s σ, sch.At i (.shape s) → Lineage sch i σ → DisjointPreds sch s σ

/-- The meaning of a shape expression in a hierarchy: a shape with parents shares the neighbourhood
with its ancestors. -/
def InheritSat (E : Env N P) (T : N × Nat → Prop) (node : N) (i : Nat) (se : ShapeExpr N P) : Prop :=
  (∃ s σ, se = .shape s ∧ s.extends ≠ [] ∧ Lineage E.schema i σ ∧ SelectionSat E T node s σ) ∨
    ((∀ s, se = .shape s → s.extends = []) ∧ ExprSat E T node i se)

/-- A pair is justified: the shape exists, and either it is not abstract and its expression holds, or
one of the other shapes that extend it conforms. -/
def Justified (E : Env N P) (T : N × Nat → Prop) (y : N × Nat) : Prop :=
  ∃ se, E.schema.At y.2 se ∧
    ((y.2 ∉ E.schema.abstr ∧ InheritSat E T y.1 y.2 se) ∨
      ∃ d, d ≠ y.2 ∧ Extends E.schema d y.2 ∧ T (y.1, d))

/-- The greatest typing of a schema with a hierarchy of shapes. -/
def GreatestInheritTyping (E : Env N P) (x : N × Nat) : Prop :=
  ∃ X : N × Nat → Prop, X x ∧ ∀ y, X y → Justified E X y

/-- The typing of a schema with a hierarchy of shapes and stratified negation. -/
def StratifiedInheritTyping (E : Env N P) (rank : Nat → Nat) (W : N × Nat → Prop) : Prop :=
  ∀ x, W x ↔ ∃ X : N × Nat → Prop, X x ∧ ∀ y, X y → rank y.2 = rank x.2 ∧
    Justified E (fun z => (rank z.2 = rank x.2 ∧ X z) ∨ (rank z.2 ≠ rank x.2 ∧ W z)) y

end

end Shex

import Verif.Shex.SpecExtends

/-!
# Specification: what one choice of branches asks for

Beside its buckets (`Buckets`), a choice brings constraints: expressions the node has to meet besides
taking its triples, each restricted to the triples of some buckets.
-/

namespace Shex
open Rbe

section
variable {N P : Type}

/-- Following references from `i` ends at `k`. -/
inductive Target (sch : Schema N P) : Nat → Nat → Prop
  | stop {i} (h : ∀ j, ¬ sch.At i (.ref j)) : Target sch i i
  | follow {i j k} (h : sch.At i (.ref j)) (hk : Target sch j k) : Target sch i k

mutual
/-- One choice of branch for every disjunction met brings the buckets `B` and the constraints `K`, and
`R k b` says that constraint `k` restricts the triples of bucket `b`. The conjuncts beside the first
bucketed one become constraints that restrict the buckets it brings; without a bucketed conjunct all
become constraints that restrict none. -/
inductive Picks (sch : Schema N P) : Nat → (Nat → Prop) → (Nat → Prop) → (Nat → Nat → Prop) → Prop
  | shape {i s B K R} (h : sch.At i (.shape s)) (hs : PicksAll sch s.extends B K R) :
      Picks sch i (fun b => b = i ∨ B b) K R
  | ref {i j B K R} (h : sch.At i (.ref j)) (hb : Picks sch j B K R) : Picks sch i B K R
  | or {i es e B K R} (h : sch.At i (.or es)) (he : e ∈ es) (hb : Picks sch e B K R) : Picks sch i B K R
  | and {i es pre e post B K R} (h : sch.At i (.and es)) (hes : es = pre ++ e :: post)
      (hpre : ∀ x ∈ pre, ¬ Bucketed sch x) (he : Bucketed sch e) (hb : Picks sch e B K R) :
      Picks sch i B (fun k => K k ∨ ∃ x ∈ pre ++ post, Target sch x k)
        (fun k b => R k b ∨ (B b ∧ ∃ x ∈ pre ++ post, Target sch x k))
  | andNone {i es} (h : sch.At i (.and es)) (hes : ∀ x ∈ es, ¬ Bucketed sch x) :
      Picks sch i (fun _ => False) (fun k => ∃ x ∈ es, Target sch x k) (fun _ _ => False)
  | nodeConstraint {i c} (h : sch.At i (.nodeConstraint c)) :
      Picks sch i (fun _ => False) (fun k => k = i) (fun _ _ => False)
  | not {i e} (h : sch.At i (.not e)) : Picks sch i (fun _ => False) (fun k => k = i) (fun _ _ => False)
  | external {i} (h : sch.At i .external) :
      Picks sch i (fun _ => False) (fun k => k = i) (fun _ _ => False)
  | empty {i} (h : sch.At i .empty) : Picks sch i (fun _ => False) (fun _ => False) (fun _ _ => False)
  | absent {i} (h : ∀ se, ¬ sch.At i se) :
      Picks sch i (fun _ => False) (fun _ => False) (fun _ _ => False)
/-- What several parents bring together, one choice for each. -/
inductive PicksAll (sch : Schema N P) :
    List Nat → (Nat → Prop) → (Nat → Prop) → (Nat → Nat → Prop) → Prop
  | nil : PicksAll sch [] (fun _ => False) (fun _ => False) (fun _ _ => False)
  | cons {e es B K R B' K' R'} (h : Picks sch e B K R) (hs : PicksAll sch es B' K' R') :
      PicksAll sch (e :: es) (fun b => B b ∨ B' b) (fun k => K k ∨ K' k) (fun k b => R k b ∨ R' k b)
end

/-- The alternative lists exactly the buckets `B` and the constraints `K`, each once, and the scopes of
the constraints are `R`. -/
structure Carries (a : Alt) (B K : Nat → Prop) (R : Nat → Nat → Prop) : Prop where
  once : a.buckets.Nodup ∧ (a.constraints.map Prod.fst).Nodup
  buckets : ∀ b, b ∈ a.buckets ↔ B b
  constraints : ∀ k, k ∈ a.constraints.map Prod.fst ↔ K k
  scopes : ∀ k b, (∃ scope, (k, scope) ∈ a.constraints ∧ b ∈ scope) ↔ R k b

/-- The conjuncts of a parent: those of a conjunction, or the shape itself. -/
def Conjuncts (sch : Schema N P) (i : Nat) (ses : List (ShapeExpr N P)) : Prop :=
  ∃ k, Target sch i k ∧ ((∃ s, sch.At k (.shape s) ∧ ses = [.shape s]) ∨
    ∃ es, sch.At k (.and es) ∧ ses = es.filterMap sch.find)

/-- The expression is a shape. -/
def IsShape (se : ShapeExpr N P) : Prop := ∃ s, se = .shape s

/-- The conjuncts of a parent in three: the conditions of its node constraints, its first shape, and
the others in order. -/
def Divided (ses : List (ShapeExpr N P)) (conds : List (VCond N P)) (main : Option (Shape N P))
    (rest : List (ShapeExpr N P)) : Prop :=
  conds = ses.filterMap (fun se => match se with | .nodeConstraint c => some c | _ => none) ∧
    ((main = none ∧ (∀ se ∈ ses, ¬ IsShape se) ∧
        rest = ses.filter fun se => match se with | .nodeConstraint _ => false | _ => true) ∨
      ∃ pre m post, ses = pre ++ .shape m :: post ∧ (∀ se ∈ pre, ¬ IsShape se) ∧ main = some m ∧
        rest = (pre ++ post).filter fun se => match se with | .nodeConstraint _ => false | _ => true)

/-- The main shape of parent `i` extends `j`. -/
def MainExtends (sch : Schema N P) (i j : Nat) : Prop :=
  ∃ ses conds m rest, Conjuncts sch i ses ∧ Divided ses conds (some m) rest ∧ j ∈ m.extends

/-- `a` is a parent of the shape, or extended by the main shape of one, and so on. -/
def MainAncestor (sch : Schema N P) (s : Shape N P) (a : Nat) : Prop :=
  ∃ e ∈ s.extends, Relation.ReflTransGen (MainExtends sch) e a

/-- The shape `m` is the main shape of `a`. -/
def MainShapeOf (sch : Schema N P) (a : Nat) (m : Shape N P) : Prop :=
  ∃ ses conds rest, Conjuncts sch a ses ∧ Divided ses conds (some m) rest

/-- The shape `b` is the shape itself (`none`), or the main shape of an ancestor. -/
def InLine (sch : Schema N P) (s : Shape N P) (l : Option Nat) (b : Shape N P) : Prop :=
  (l = none ∧ b = s) ∨ ∃ a, l = some a ∧ MainAncestor sch s a ∧ MainShapeOf sch a b

/-- The shape `m` is at `i`, or below it through references and Boolean operators. -/
inductive Within (sch : Schema N P) : Nat → Shape N P → Prop
  | shape {i s} (h : sch.At i (.shape s)) : Within sch i s
  | ref {i j m} (h : sch.At i (.ref j)) (hj : Within sch j m) : Within sch i m
  | not {i j m} (h : sch.At i (.not j)) (hj : Within sch j m) : Within sch i m
  | or {i es e m} (h : sch.At i (.or es)) (he : e ∈ es) (hj : Within sch e m) : Within sch i m
  | and {i es e m} (h : sch.At i (.and es)) (he : e ∈ es) (hj : Within sch e m) : Within sch i m

/-- The predicate is read from the graph for shape `i`: the shape mentions it, or a shape within one of
those it extends through shapes does. -/
def ReadFor (sch : Schema N P) (i : Nat) (s : Shape N P) (p : Pred P) : Prop :=
  p ∈ s.preds ∨ p ∈ s.extra ∨ ∃ e m, Extends sch i e ∧ Within sch e m ∧ p ∈ m.preds

mutual
/-- The triple expressions read off a conjunct beside the main shape; the node meets the node constraints
on the way. Conjuncts that are not shapes, node constraints or references are not looked at. -/
inductive Collected (sch : Schema N P) (node : N) : ShapeExpr N P → List (TExpr N P) → Prop
  | shape (s) : Collected sch node (.shape s) [s.expr]
  | nodeConstraint (c) (h : c.Sat node (node, none)) : Collected sch node (.nodeConstraint c) []
  | ref {j ses conds main rest ts} (h : Conjuncts sch j ses) (hd : Divided ses conds main rest)
      (hn : ∀ c ∈ conds, c.Sat node (node, none)) (hr : CollectedAll sch node rest ts) :
      Collected sch node (.ref j) (main.toList.map Shape.expr ++ ts)
  | refNone {j} (h : ∀ ses, ¬ Conjuncts sch j ses) : Collected sch node (.ref j) []
  | other {se} (h : ¬ IsShape se) (h' : ∀ c, se ≠ .nodeConstraint c) (h'' : ∀ j, se ≠ .ref j) :
      Collected sch node se []
/-- Those of several conjuncts, in order. -/
inductive CollectedAll (sch : Schema N P) (node : N) : List (ShapeExpr N P) → List (TExpr N P) → Prop
  | nil : CollectedAll sch node [] []
  | cons {se ses ts ts'} (h : Collected sch node se ts) (hs : CollectedAll sch node ses ts') :
      CollectedAll sch node (se :: ses) (ts ++ ts')
end

/-- The rank falls along references, operands and parents, and through negations. -/
structure Layered (sch : Schema N P) (rank : Nat → Nat) : Prop where
  grounded : Grounded sch rank
  not : ∀ i e, sch.At i (.not e) → rank e < rank i

end

section
variable {N P : Type} [DecidableEq P]

/-- `V` says which shapes the node meets as a whole, under the typing `T`: references, conjunctions,
disjunctions and negations are read through `V`, a shape without parents takes all its triples, and
`parents` says whether the node meets a shape with parents. A shape that does not exist asks for
nothing. -/
def Whole (E : Env N P) (T : N × Nat → Prop) (node : N) (parents : Nat → Shape N P → Prop)
    (V : Nat → Prop) : Prop :=
  ∀ i, V i ↔ ∀ se, E.schema.At i se →
    match se with
    | .and es => ∀ e ∈ es, V e
    | .or es => ∃ e ∈ es, V e
    | .not e => ¬ V e
    | .ref e => V e
    | .nodeConstraint c => c.Sat node (node, none)
    | .shape s => (s.extends = [] → ShapeSat E.graph T node s) ∧ (s.extends ≠ [] → parents i s)
    | .external => E.external node i = true
    | .empty => True

variable [DecidableEq N]

/-- The arc is one the sharing must account for: it may match a constraint of the line, or its
predicate is not EXTRA and its value matches no constraint of the schema. -/
def Counts (sch : Schema N P) (s : Shape N P) (node : N) (p : Pred P) (v : N) : Prop :=
  (∃ l b, InLine sch s l b ∧ b.MayMatch node p v) ∨
    (p ∉ s.extra ∧ ∀ k m cond, sch.At k (.shape m) → HasConstraint m.expr p cond →
      ¬ cond.Sat v (node, some (p, v)))

/-- What is asked for the conjuncts of the ancestor `a`: the node meets its node constraints, and the
expressions of its other conjuncts take the share of `a` and of what its main shape extends. -/
def AncestorMeets (sch : Schema N P) (node : N) (splits : List (List Nat × List (TExpr N P)))
    (a : Nat) : Prop :=
  ∃ ses conds main rest, Conjuncts sch a ses ∧ Divided ses conds main rest ∧
    (∀ c ∈ conds, c.Sat node (node, none)) ∧
    ∃ ts scope, CollectedAll sch node rest ts ∧ scope.Nodup ∧
      (∀ d, d ∈ scope ↔ d = a ∨ ∃ m, main = some m ∧ MainAncestor sch m d) ∧
      (ts ≠ [] → (scope, ts) ∈ splits)

/-- A shape whose parents are shapes and conjunctions: a closed shape has only predicates that are
read, and the arcs can be shared out among the shape and the main shapes of its ancestors so that the
other conjuncts of each ancestor hold. -/
def LineMeets (E : Env N P) (T : N × Nat → Prop) (node : N) (i : Nat) (s : Shape N P) : Prop :=
  (s.closed = true → ∀ p v, E.graph.Arc node ⟨p, true⟩ v → ReadFor E.schema i s ⟨p, true⟩) ∧
  ∃ (buckets : List (Option Nat × List (TExpr N P))) (vs : List (Neigh N P))
    (splits : List (List Nat × List (TExpr N P))),
    (buckets.map Prod.fst).Nodup ∧
    (∀ l ts, (l, ts) ∈ buckets ↔ ∃ b, InLine E.schema s l b ∧ ts = [b.expr]) ∧
    vs.Nodup ∧
    (∀ x ∈ vs, x.2.2 = (node, some (x.1, x.2.1)) ∧ E.graph.Arc node x.1 x.2.1 ∧
      ReadFor E.schema i s x.1) ∧
    (∀ p v, E.graph.Arc node p v → ReadFor E.schema i s p → Counts E.schema s node p v →
      (p, v, (node, some (p, v))) ∈ vs) ∧
    (∀ a, MainAncestor E.schema s a → AncestorMeets E.schema node splits a) ∧
    Shared buckets splits vs T

open Classical in
/-- A selection holds: its constraints that are read triple by triple take their shares, and the node
meets the others as a whole. -/
def SelectionMeets (E : Env N P) (T : N × Nat → Prop) (node : N) (s : Shape N P) (σ : Alt)
    (V : Nat → Prop) : Prop :=
  (∀ c ∈ σ.constraints, ¬ FlatExpr E.schema c.1 → V c.1) ∧
    SelectionSat E T node s
      { σ with constraints := σ.constraints.filter fun c => FlatExpr E.schema c.1 }

end

end Shex

import Verif.Shex.ModelShape
import Verif.Shex.SpecEngine
import Verif.Rbe.SpecTable
import Mathlib.Logic.Relation

/-!
# Specification: references, negation and the meaning of shapes
-/

namespace Shex
open Rbe

variable {N P : Type}

mutual
/-- The reference `r` occurs in the condition. -/
def RefIn (r : Nat) : VCond N P → Prop
  | .single _ => False
  | .ref r' => r = r'
  | .and cs => RefInSome r cs
/-- The reference occurs in one of the conditions. -/
def RefInSome (r : Nat) : List (VCond N P) → Prop
  | [] => False
  | c :: cs => RefIn r c ∨ RefInSome r cs
end

mutual
/-- The payloads of the condition leave no reference pending: the case of every condition made by
the compiler (shex_ast/src/ast/cond_kind.rs:49-141 only answers `Pending::empty()`). -/
def Settled : VCond N P → Prop
  | .single none => True
  | .single (some kind) => ∀ v c p, kind v c = some p → p = Pending.empty
  | .ref _ => True
  | .and cs => SettledAll cs
/-- `Settled` for all. -/
def SettledAll : List (VCond N P) → Prop
  | [] => True
  | c :: cs => Settled c ∧ SettledAll cs
end

/-- Component of the triple expression: predicate and value expression. -/
def HasConstraint (t : TExpr N P) (p : Pred P) (cond : VCond N P) : Prop :=
  ∃ c, t.getKey c = some p ∧ t.getCondition c = some cond

/-- `s` is the shape expression stored at `i`. -/
def Schema.At (sch : Schema N P) (i : Nat) (se : ShapeExpr N P) : Prop := sch.find i = some se

/-- Shape `i` refers to `j` without negation: as operand of AND or OR, as reference, as value of a
triple constraint, as parent, or as child. -/
inductive Uses (sch : Schema N P) : Nat → Nat → Prop
  | or {i es e} (h : sch.At i (.or es)) (he : e ∈ es) : Uses sch i e
  | and {i es e} (h : sch.At i (.and es)) (he : e ∈ es) : Uses sch i e
  | ref {i e} (h : sch.At i (.ref e)) : Uses sch i e
  | value {i s p cond r} (h : sch.At i (.shape s)) (hc : HasConstraint s.expr p cond)
      (hr : RefIn r cond) : Uses sch i r
  | parent {i s e} (h : sch.At i (.shape s)) (he : e ∈ s.extends) : Uses sch i e
  | child {i s e} (h : sch.At e (.shape s)) (he : i ∈ s.extends) : Uses sch i e

/-- Shape `i` is the negation of `j`. -/
def Negates (sch : Schema N P) (i j : Nat) : Prop := sch.At i (.not j)

/-- `i` depends on `j`, directly or not. -/
def DependsOn (sch : Schema N P) : Nat → Nat → Prop :=
  Relation.ReflTransGen fun i j => Uses sch i j ∨ Negates sch i j

/-- No shape depends on itself through a negation. -/
def NoNegCycle (sch : Schema N P) : Prop := ∀ i j, Negates sch i j → ¬ DependsOn sch j i

/-- The schema has no negation at all. -/
def Positive (sch : Schema N P) : Prop := ∀ i j, ¬ Negates sch i j

/-- Tables are made through their interface, payloads are settled, and a value expression with a
reference is the reference itself. -/
structure PlainRefs (sch : Schema N P) [DecidableEq P] : Prop where
  made : ∀ i s, sch.At i (.shape s) → s.expr.Made
  settled : ∀ i s, sch.At i (.shape s) → ∀ p cond, HasConstraint s.expr p cond → Settled cond
  plain : ∀ i s, sch.At i (.shape s) → ∀ p cond, HasConstraint s.expr p cond →
    ∀ r, RefIn r cond → cond = .ref r

/-- The order of hash maps does not change the elements. -/
def Env.Shuffles [DecidableEq N] [DecidableEq P] (E : Env N P) : Prop := ∀ l, (E.shuffle l).Perm l

/-! ## The meaning of a shape without parents -/

/-- There is an arc `p` (outgoing, or incoming when inverse) between `node` and `v`. -/
def Graph.Arc (g : Graph N P) (node : N) (p : Pred P) (v : N) : Prop :=
  (p.direct = true ∧ g.isSubject node = true ∧ (node, p.iri, v) ∈ g.triples) ∨
    (p.direct = false ∧ (v, p.iri, node) ∈ g.triples)

/-- The shape mentions the predicate. -/
def Shape.Mentions (s : Shape N P) (p : Pred P) : Prop := p ∈ s.preds ∨ p ∈ s.extra

/-- The value matches some constraint for the predicate; a constraint with a reference is taken to
match. -/
def Shape.MayMatch (s : Shape N P) (node : N) (p : Pred P) (v : N) : Prop :=
  ∃ cond, HasConstraint s.expr p cond ∧ ((∃ r, RefIn r cond) ∨ cond.Sat v (node, some (p, v)))

/-- The arc is subject to the triple expression: its predicate is mentioned and, if it is an EXTRA
predicate, the value may match a constraint. -/
def Shape.Bound (s : Shape N P) (g : Graph N P) (node : N) (p : Pred P) (v : N) : Prop :=
  g.Arc node p v ∧ s.Mentions p ∧ (p ∈ s.extra → s.MayMatch node p v)

/-- `vs` lists the bound arcs, each once. -/
def Lists (s : Shape N P) (g : Graph N P) (node : N) (vs : List (Neigh N P)) : Prop :=
  vs.Nodup ∧ ∀ x : Neigh N P, x ∈ vs ↔
    x.2.2 = (node, some (x.1, x.2.1)) ∧ s.Bound g node x.1 x.2.1

/-- The node conforms to the shape under the typing `T`: a closed shape mentions every outgoing
predicate, and the bound arcs can be assigned to the constraints so that the triple expression
accepts the bag of constraints used and all references so required are in `T`. -/
def ShapeSat (g : Graph N P) (T : N × Nat → Prop) (node : N) (s : Shape N P) : Prop :=
  (s.closed = true → ∀ p v, g.Arc node ⟨p, true⟩ v → s.Mentions ⟨p, true⟩) ∧
    ∃ vs cs, Lists s g node vs ∧ s.expr.Assignment vs cs ∧
      ∀ w r, s.expr.Requires vs cs w r → T (w, r)

/-- The meaning of a shape expression without parents. -/
def ExprSat (E : Env N P) (T : N × Nat → Prop) (node : N) (i : Nat) : ShapeExpr N P → Prop
  | .and es => ∀ e ∈ es, T (node, e)
  | .or es => ∃ e ∈ es, T (node, e)
  | .not e => ¬ T (node, e)
  | .nodeConstraint c => c.Sat node (node, none)
  | .shape s => ShapeSat E.graph T node s
  | .external => E.external node i = true
  | .ref e => T (node, e)
  | .empty => True

/-- The greatest typing of a schema: the union of all typings in which every pair is justified by its
shape expression. -/
def GreatestTyping (E : Env N P) (x : N × Nat) : Prop :=
  ∃ X : N × Nat → Prop, X x ∧ ∀ y, X y → ∃ se, E.schema.At y.2 se ∧ ExprSat E X y.1 y.2 se

/-- No shape extends another and none is abstract. -/
structure NoInheritance (sch : Schema N P) : Prop where
  noExtends : ∀ i s, sch.At i (.shape s) → s.extends = []
  noAbstract : sch.abstr = []

/-- The triple expression meets the conditions under which table matching is exact (C12). The last
two keep out the deviation described with C12: an expression that accepts the empty neighbourhood
has exactly one constraint for each of its predicates. -/
structure Shape.Exact [DecidableEq P] (s : Shape N P) : Prop where
  made : s.expr.Made
  wf : WF s.expr.rbe.rbe
  flat : SingleOcc s.expr.rbe.rbe → RepeatFlat s.expr.rbe.rbe
  one : Lang s.expr.rbe.rbe 0 → ∀ p c d,
    s.expr.getKey c = some p → s.expr.getKey d = some p → c = d
  some : Lang s.expr.rbe.rbe 0 → ∀ p ∈ s.preds, ∃ c, s.expr.getKey c = some p

/-- All shapes of the schema are `Exact`. -/
def Regular [DecidableEq P] (sch : Schema N P) : Prop := ∀ i s, sch.At i (.shape s) → s.Exact

/-- The ranking never grows along references and falls at negations. -/
structure Respects (sch : Schema N P) (rank : Nat → Nat) : Prop where
  uses : ∀ i j, Uses sch i j → rank j ≤ rank i
  negates : ∀ i j, Negates sch i j → rank j < rank i

/-- The typing of a schema with stratified negation: at each rank the union of all typings in which
every pair is justified by its shape expression, pairs of other ranks being read from `W`. -/
def StratifiedTyping (E : Env N P) (rank : Nat → Nat) (W : N × Nat → Prop) : Prop :=
  ∀ x, W x ↔ ∃ X : N × Nat → Prop, X x ∧ ∀ y, X y → rank y.2 = rank x.2 ∧
    ∃ se, E.schema.At y.2 se ∧
      ExprSat E (fun z => (rank z.2 = rank x.2 ∧ X z) ∨ (rank z.2 ≠ rank x.2 ∧ W z)) y.1 y.2 se

/-- A shape with parents asks the typing only about its dependencies, and never negatively. -/
def ExtRespects [DecidableEq N] [DecidableEq P] (E : Env N P) (ext : Ext N P) : Prop :=
  ∀ i s, E.schema.At i (.shape s) → s.extends ≠ [] → ∀ node ds, E.dep (node, i) = some ds →
    ∀ T T' : N × Nat → Bool, (∀ y ∈ ds, T y = true → T' y = true) →
      ext node i s T = true → ext node i s T' = true

/-! ## Boolean combinations -/

/-- Boolean combinations of shapes. -/
inductive Formula where
  | leaf (i : Nat)
  | and (fs : List Formula)
  | or (fs : List Formula)
  | not (f : Formula)

mutual
/-- Truth of the combination, given the truth of its leaves. -/
def Formula.Truth (L : Nat → Prop) : Formula → Prop
  | .leaf i => L i
  | .and fs => Formula.TruthAll L fs
  | .or fs => Formula.TruthSome L fs
  | .not f => ¬ Formula.Truth L f
/-- All are true. -/
def Formula.TruthAll (L : Nat → Prop) : List Formula → Prop
  | [] => True
  | f :: fs => Formula.Truth L f ∧ Formula.TruthAll L fs
/-- Some is true. -/
def Formula.TruthSome (L : Nat → Prop) : List Formula → Prop
  | [] => False
  | f :: fs => Formula.Truth L f ∨ Formula.TruthSome L fs
end

mutual
/-- The shape expression stored at an index is the combination; references are followed. -/
inductive Writes (sch : Schema N P) : Nat → Formula → Prop
  | leaf (i) : Writes sch i (.leaf i)
  | ref {i j f} (h : sch.At i (.ref j)) (hf : Writes sch j f) : Writes sch i f
  | and {i es fs} (h : sch.At i (.and es)) (hf : WritesAll sch es fs) : Writes sch i (.and fs)
  | or {i es fs} (h : sch.At i (.or es)) (hf : WritesAll sch es fs) : Writes sch i (.or fs)
  | not {i j f} (h : sch.At i (.not j)) (hf : Writes sch j f) : Writes sch i (.not f)
/-- The operands, one by one. -/
inductive WritesAll (sch : Schema N P) : List Nat → List Formula → Prop
  | nil : WritesAll sch [] []
  | cons {e es f fs} (h : Writes sch e f) (hs : WritesAll sch es fs) :
      WritesAll sch (e :: es) (f :: fs)
end

/-! ## Inheritance -/

/-- `d` extends `i`, directly or through others. -/
def Extends (sch : Schema N P) : Nat → Nat → Prop :=
  Relation.TransGen fun d i => ∃ s, (d, ShapeExpr.shape s) ∈ sch.shapes ∧ i ∈ s.extends

end Shex

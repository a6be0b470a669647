import Verif.Cache.Model
import Verif.Rbe.Spec

/-!
# What should come back from a precompiled schema

A compiled schema is looked at through its leaves: the IRIs, upper bounds, booleans, labels,
references to datatypes, decimals and date-times in it, wherever they stand. A leaf can be
*readable* (reading it does not fail) or *kept* (it is read as itself). These notions do not
mention bytes.
-/

namespace Cache

open Rbe (Mx Card Struct)

/-- A part of a compiled schema that reading may change or refuse. -/
inductive Leaf where
  /-- An IRI. -/
  | iri (s : String)
  /-- The greatest number of repetitions of something. -/
  | max (m : Mx)
  /-- A boolean literal. -/
  | bool (b : Bool)
  /-- The label of a shape. -/
  | label (l : Label)
  /-- The datatype of a literal. -/
  | ref (r : Ref)
  /-- A decimal. -/
  | decimal (s : String)
  /-- A date-time. -/
  | dateTime (s : String)
  /-- Whether the node constraint of the schema is at hand. -/
  | source (b : Bool)
  /-- A regular bag expression with its symbols and its flag. -/
  | struct (s : Struct Nat)
  /-- Whether the keys of a map, or the elements of a set, differ from one another. -/
  | distinct (b : Bool)

/-- Reading the leaf does not fail: the IRI is empty or a valid one, the upper bound is not zero
and is a signed 64-bit number (or all 64 bits are set), there is no boolean, the datatype is a
valid IRI or has a colon in it, the decimal and the date-time are ones. -/
def Leaf.readable (X : Ext) : Leaf → Prop
  | .iri s => s = "" ∨ X.iriOk s = true
  | .max .unbounded => True
  | .max (.intMax n) => n % 2 ^ 64 ≠ 0 ∧ (n % 2 ^ 64 < 2 ^ 63 ∨ n % 2 ^ 64 = 2 ^ 64 - 1)
  | .bool _ => False
  | .label _ => True
  | .ref (.iri s) => X.iriOk s = true ∨ ':' ∈ s.toList
  | .ref (.prefixed _ _) => True
  | .decimal s => (X.decimal s).isSome
  | .dateTime s => (X.dateTime s).isSome
  | .source _ => True
  | .struct _ => True
  | .distinct _ => True

/-- The leaf is read as itself, but for a blank node before whose label comes `_:` and for the
source of a node constraint: besides being readable, an IRI that is a label is a valid one other
than `Start`, the text of a blank node is not an IRI, neither is that of a prefixed datatype, and
the expression was made by the constructors of its type. -/
def Leaf.kept (X : Ext) : Leaf → Prop
  | .iri s => s = "" ∨ X.iriOk s = true
  | .max .unbounded => True
  | .max (.intMax n) => 0 < n ∧ n < 2 ^ 63
  | .bool _ => False
  | .label (.iri s) => s ≠ "Start" ∧ X.iriOk s = true
  | .label (.bnode m) => X.iriOk ("_:" ++ m) = false
  | .label .start => True
  | .ref (.iri s) => X.iriOk s = true
  | .ref (.prefixed p l) => X.iriOk (p ++ ":" ++ l) = false ∧ ':' ∉ p.toList
  | .decimal s => X.decimal s = some s
  | .dateTime s => X.dateTime s = some s
  | .source _ => True
  | .struct s => Rbe.Built s
  | .distinct b => b = true

section
variable (P : Leaf → Prop)

/-- Every element. -/
def inAll {α : Type} (p : α → Prop) (l : List α) : Prop := ∀ a ∈ l, p a

/-- The value, if there is one. -/
def inOpt {α : Type} (p : α → Prop) (o : Option α) : Prop := ∀ a, o = some a → p a

/-- Every key and every value, and the keys differ. -/
def inMap {α β : Type} [DecidableEq α] (p : α → Prop) (q : β → Prop) (l : List (α × β)) : Prop :=
  (∀ e ∈ l, p e.1 ∧ q e.2) ∧ P (.distinct (decide (l.map Prod.fst).Nodup))

/-- The leaves of a number. -/
def inNum : Num → Prop
  | .decimal s => P (.decimal s)
  | _ => True

/-- The leaves of a literal. -/
def inLit : Lit → Prop
  | .string _ _ => True
  | .datatype _ dt => P (.ref dt)
  | .numeric n => inNum P n
  | .dateTime s => P (.dateTime s)
  | .boolean b => P (.bool b)
  | .wrong _ dt _ => P (.ref dt)

/-- The leaves of an object value. -/
def inObj : Obj → Prop
  | .iri s => P (.iri s)
  | .literal l => inLit P l

/-- The leaves of an exclusion of IRIs. -/
def inIriExcl : IriExcl → Prop
  | .iri s => P (.iri s)
  | .stem s => P (.iri s)

/-- The leaves of the stem of a range of IRIs. -/
def inIriOrWild : OrWild → Prop
  | .text s => P (.iri s)
  | .wildcard _ => True

/-- The leaves of an element of a value set. -/
def inValue : Value → Prop
  | .iriStem s => P (.iri s)
  | .iriStemRange s e => inIriOrWild P s ∧ inOpt (inAll (inIriExcl P)) e
  | .literalStem _ => True
  | .literalStemRange _ _ => True
  | .language _ => True
  | .languageStem _ => True
  | .languageStemRange _ _ => True
  | .object o => inObj P o

/-- The leaves of a prefix map. -/
def inPrefixMap (pm : List (String × String)) : Prop := inMap P (fun _ => True) (fun s => P (.iri s)) pm

/-- The leaves of a primitive condition. -/
def inKind : Kind → Prop
  | .datatype i _ => P (.iri i)
  | .pattern _ _ b => inOpt (fun s => P (.iri s)) b
  | .minInclusive n => inNum P n
  | .minExclusive n => inNum P n
  | .maxInclusive n => inNum P n
  | .maxExclusive n => inNum P n
  | .valueSet vs pm => inAll (inValue P) vs ∧ inPrefixMap P pm
  | .semAct n _ => P (.iri n)
  | _ => True

mutual
/-- The leaves of a condition. -/
def inCond : Cond → Prop
  | .single _ k => inOpt (inKind P) k
  | .ref _ => True
  | .and cs => inConds cs
/-- The leaves of several conditions. -/
def inConds : List Cond → Prop
  | [] => True
  | c :: cs => inCond c ∧ inConds cs
end

mutual
/-- The upper bounds in a regular bag expression. -/
def inExpr : Rbe.Expr Nat → Prop
  | .fail => True
  | .empty => True
  | .symbol _ c => P (.max c.max)
  | .and vs => inExprs vs
  | .or vs => inExprs vs
  | .star v => inExpr v
  | .plus v => inExpr v
  | .repeat v c => inExpr v ∧ P (.max c.max)
/-- The upper bounds in several. -/
def inExprs : List (Rbe.Expr Nat) → Prop
  | [] => True
  | v :: vs => inExpr v ∧ inExprs vs
end

/-- The leaves of an expression with its symbols and flag. -/
def inStruct (s : Struct Nat) : Prop := inExpr P s.rbe ∧ P (.struct s)

/-- The leaves of a predicate. -/
def inPred (p : Pred) : Prop := P (.iri p.iri)

/-- The leaves of the table of a shape. -/
def inTable (t : Table) : Prop :=
  inStruct P t.rbe ∧
  inMap P (inPred P) (fun cs : List Nat => P (.distinct (decide cs.Nodup))) t.keyComponents ∧
  inMap P (fun _ => True) (inCond P) t.componentCond ∧
  inMap P (fun _ => True) (inPred P) t.componentKey

/-- The leaves of a semantic action. -/
def inAct (a : Act) : Prop := P (.iri a.name)

/-- The leaves of an annotation. -/
def inAnn (a : Ann) : Prop := P (.iri a.predicate) ∧ inObj P a.object

/-- The leaves of a shape. -/
def inShape (s : Shape) : Prop :=
  inAll (inPred P) s.extra ∧ inTable P s.expr ∧ inAll (inAct P) s.semActs ∧
  inAll (inAnn P) s.annotations ∧ inAll (inPred P) s.preds

/-- The leaves of a shape expression. -/
def inSExpr : SExpr → Prop
  | .nodeConstraint b c _ => P (.source b) ∧ inCond P c
  | .shape s => inShape P s
  | _ => True

/-- The leaves of a shape expression with its label. -/
def inInfo (i : Info) : Prop := inOpt (fun l => P (.label l)) i.label ∧ inSExpr P i.expr

/-- The leaves of a compiled schema. -/
def inSchema (s : Schema) : Prop :=
  inMap P (fun l => P (.label l)) (fun _ => True) s.labels ∧
  inMap P (fun _ => True) (fun l => P (.label l)) s.idxLabels ∧
  inMap P (fun _ => True) (inInfo P) s.shapes ∧
  inMap P (fun i => P (.iri i)) (fun _ => True) s.sourcesMap ∧
  inMap P (fun _ => True) (fun i => P (.iri i)) s.sources ∧
  inPrefixMap P s.prefixmap ∧
  inAll (fun i => P (.iri i)) s.imported ∧
  P (.distinct (decide s.abstracts.Nodup)) ∧
  inOpt (fun i => P (.iri i)) s.base ∧
  inAll (inAct P) s.startActs

end

/-- The label as it is found after reading: a blank node has `_:` before its label. -/
def Label.again : Label → Label
  | .iri s => .iri s
  | .bnode m => .bnode ("_:" ++ m)
  | .start => .start

/-- The shape expression without the node constraint it was compiled from. -/
def SExpr.again : SExpr → SExpr
  | .nodeConstraint _ c d => .nodeConstraint false c d
  | e => e

/-- A shape expression with its label, after reading. -/
def Info.again (i : Info) : Info := ⟨i.label.map Label.again, i.expr.again, i.source⟩

/-- A compiled schema after reading, with the registry of the reader. -/
def Schema.again (s : Schema) (registry : Nat) : Schema :=
  { s with
    labels := s.labels.map fun e => (e.1.again, e.2)
    idxLabels := s.idxLabels.map fun e => (e.1, e.2.again)
    shapes := s.shapes.map fun e => (e.1, e.2.again)
    registry := registry }

/-- Nothing in a compiled schema is a blank node or the source of a node constraint. -/
def Leaf.plain : Leaf → Prop
  | .label (.bnode _) => False
  | .source b => b = false
  | _ => True

/-- The index of the shape with a label (`find_shape_label_idx` and the like look the label up in
`labels_idx_map`). -/
def Schema.find (s : Schema) (l : Label) : Option Nat := s.labels.lookup l

end Cache

import Mathlib.Data.List.Forall2
import Verif.Rd.Spec
import Verif.Rd.ModelShape

/-!
# Specification: what a shapes graph says about a node
-/

namespace Rd

section
variable {L C : Type} (g : Gr L) (E : Ext L C)

/-- A term as an object. -/
inductive Ext.Means : Tm L → Ob C → Prop
  | iri {i} : Ext.Means (.iri i) (.iri i)
  | bnode {b} : Ext.Means (.bnode b) (.bnode b)
  | lit {l c} : E.conc l = some c → Ext.Means (.lit l) (.lit c)

/-- A term as a value: not a blank node. -/
def Ext.IsValue (x : Tm L) (o : Ob C) : Prop := E.Means x o ∧ ∀ b, x ≠ .bnode b

/-- A literal that is an integer, a Boolean, a text, a concrete literal. -/
def Ext.IsInt (x : Tm L) (n : Int) : Prop := ∃ l, x = .lit l ∧ E.int l = some n
def Ext.IsBool (x : Tm L) (b : Bool) : Prop := ∃ l, x = .lit l ∧ E.bool l = some b
def Ext.IsText (x : Tm L) (s : String) : Prop := ∃ l, x = .lit l ∧ E.text l = s
def Ext.IsConc (x : Tm L) (c : C) : Prop := ∃ l, x = .lit l ∧ E.conc l = some c

/-- The node kinds. -/
def kinds : List (Voc × Kind) :=
  [(.IRI, .iri), (.Literal, .lit), (.BlankNode, .bnode), (.BlankNodeOrIRI, .bnodeOrIri),
    (.BlankNodeOrLiteral, .bnodeOrLit), (.IRIOrLiteral, .iriOrLit)]

/-- The value of which something holds, if there is one. -/
def Opt {A : Type} (P : A → Prop) : Option A → Prop
  | some a => P a
  | none => ∀ a, ¬ P a

/-- The values of the items that are values. -/
inductive Ext.Values : List (Tm L) → List (Ob C) → Prop
  | nil : Ext.Values [] []
  | keep {x xs o os} : E.IsValue x o → Ext.Values xs os → Ext.Values (x :: xs) (o :: os)
  | skip {x xs os} : (∀ o, ¬ E.IsValue x o) → Ext.Values xs os → Ext.Values (x :: xs) os

/-- The language tags of the items that are literals; blank nodes are passed over. -/
inductive Ext.Tags : List (Tm L) → List String → Prop
  | nil : Ext.Tags [] []
  | tag {l xs t ts} : E.tag (E.text l) = some t → Ext.Tags xs ts → Ext.Tags (.lit l :: xs) (t :: ts)
  | skip {b xs ts} : Ext.Tags xs ts → Ext.Tags (.bnode b :: xs) ts

/-- The node says that its qualified value shapes are disjoint. -/
def Disjoint (t : Tm L) : Prop := ∃ x c, g.Has t .qualifiedValueShapesDisjoint x ∧ E.IsConc x c ∧ E.isTrue c = true

/-- The qualified value shapes of the other properties of a parent of the node. -/
def Cousin (t x : Tm L) : Prop :=
  ∃ s p, g.Has s .property t ∧ g.Has s .property p ∧ g.Has p .qualifiedValueShape x ∧ ¬ g.Has t .qualifiedValueShape x

/-- The sibling shapes. -/
def Sibling (t : Tm L) (o : Ob C) : Prop :=
  Disjoint g E t ∧ (∃ q, g.Has t .qualifiedValueShape q) ∧ ∃ x, Cousin g t x ∧ E.Means x o

/-- The node says so. -/
inductive Declared (t : Tm L) : Comp C → Prop
  | cls {x o} : g.Has t .cls x → E.Means x o → Declared t (.cls o)
  | nodeKind {v k} : g.Has t .nodeKind (.iri (.v v)) → (v, k) ∈ kinds → Declared t (.nodeKind k)
  | datatype {i} : g.Has t .datatype (.iri i) → Declared t (.datatype i)
  | minCount {x n} : g.Has t .minCount x → E.IsInt x n → Declared t (.minCount n)
  | maxCount {x n} : g.Has t .maxCount x → E.IsInt x n → Declared t (.maxCount n)
  | minInclusive {x c} : g.Has t .minInclusive x → E.IsConc x c → Declared t (.minInclusive c)
  | minExclusive {x c} : g.Has t .minExclusive x → E.IsConc x c → Declared t (.minExclusive c)
  | maxInclusive {x c} : g.Has t .maxInclusive x → E.IsConc x c → Declared t (.maxInclusive c)
  | maxExclusive {x c} : g.Has t .maxExclusive x → E.IsConc x c → Declared t (.maxExclusive c)
  | minLength {x n} : g.Has t .minLength x → E.IsInt x n → Declared t (.minLength n)
  | maxLength {x n} : g.Has t .maxLength x → E.IsInt x n → Declared t (.maxLength n)
  | pattern {x s f} : g.Has t .pattern x → E.IsText x s → Opt (fun f => ∃ x, g.Has t .flags x ∧ E.IsText x f) f →
    Declared t (.pattern s f)
  | languageIn {v xs ts} : g.Has t .languageIn v → g.IsList v xs → E.Tags xs ts → Declared t (.languageIn ts)
  | uniqueLang {x b} : g.Has t .uniqueLang x → E.IsBool x b → Declared t (.uniqueLang b)
  | equals {i} : g.Has t .equals (.iri i) → Declared t (.equals i)
  | disjoint {i} : g.Has t .disjoint (.iri i) → Declared t (.disjoint i)
  | lessThan {i} : g.Has t .lessThan (.iri i) → Declared t (.lessThan i)
  | lessThanOrEquals {i} : g.Has t .lessThanOrEquals (.iri i) → Declared t (.lessThanOrEquals i)
  | not {x o} : g.Has t .not x → E.Means x o → Declared t (.not o)
  | and {v xs os} : g.Has t .and v → g.IsList v xs → List.Forall₂ E.Means xs os → Declared t (.and os)
  | or {v xs os} : g.Has t .or v → g.IsList v xs → List.Forall₂ E.Means xs os → Declared t (.or os)
  | xone {v xs os} : g.Has t .xone v → g.IsList v xs → List.Forall₂ E.Means xs os → Declared t (.xone os)
  | node {x o} : g.Has t .node x → E.Means x o → Declared t (.node o)
  | qualified {x o mn mx d ss} : g.Has t .qualifiedValueShape x → E.Means x o →
    Opt (fun n => ∃ x, g.Has t .qualifiedMinCount x ∧ E.IsInt x n) mn →
    Opt (fun n => ∃ x, g.Has t .qualifiedMaxCount x ∧ E.IsInt x n) mx →
    Opt (fun b => ∃ x, g.Has t .qualifiedValueShapesDisjoint x ∧ E.IsBool x b) d →
    (∀ s, s ∈ ss ↔ Sibling g E t s) → Declared t (.qualified o mn mx d ss)
  | closed {x b v is} : g.Has t .closed x → E.IsBool x b → g.Has t .ignoredProperties v →
    g.IsList v (is.map .iri) → Declared t (.closed b is)
  | justClosed {x b} : g.Has t .closed x → E.IsBool x b → g.Lacks t .ignoredProperties → Declared t (.closed b [])
  | hasValue {x o} : g.Has t .hasValue x → E.IsValue x o → Declared t (.hasValue o)
  | isIn {v xs os} : g.Has t .isIn v → g.IsList v xs → E.Values xs os → Declared t (.isIn os)
  | sparql {v x s d} : g.Has t .sparql v → g.Has v .select x → E.IsText x s →
    Opt (fun b => ∃ x, g.Has v .deactivated x ∧ E.IsBool x b) d → Declared t (.sparql s d)
  | deactivated {x b} : g.Has t .deactivated x → E.IsBool x b → Declared t (.deactivated b)

/-- What the node says about constraints of this kind is not well-formed. -/
inductive Malformed (t : Tm L) : Key → Prop
  | cls {x} : g.Has t .cls x → (∀ o, ¬ E.Means x o) → Malformed t .cls
  | datatype {x} : g.Has t .datatype x → (∀ i, x ≠ .iri i) → Malformed t .datatype
  | minCount {x} : g.Has t .minCount x → (∀ n, ¬ E.IsInt x n) → Malformed t .minCount
  | maxCount {x} : g.Has t .maxCount x → (∀ n, ¬ E.IsInt x n) → Malformed t .maxCount
  | minInclusive {x} : g.Has t .minInclusive x → (∀ n, ¬ E.IsConc x n) → Malformed t .minInclusive
  | minExclusive {x} : g.Has t .minExclusive x → (∀ n, ¬ E.IsConc x n) → Malformed t .minExclusive
  | maxInclusive {x} : g.Has t .maxInclusive x → (∀ n, ¬ E.IsConc x n) → Malformed t .maxInclusive
  | maxExclusive {x} : g.Has t .maxExclusive x → (∀ n, ¬ E.IsConc x n) → Malformed t .maxExclusive
  | minLength {x} : g.Has t .minLength x → (∀ n, ¬ E.IsInt x n) → Malformed t .minLength
  | maxLength {x} : g.Has t .maxLength x → (∀ n, ¬ E.IsInt x n) → Malformed t .maxLength
  | pattern {x} : g.Has t .pattern x → (∀ s, ¬ E.IsText x s) → Malformed t .pattern
  | patterns {x y} : g.Has t .pattern x → g.Has t .pattern y → x ≠ y → Malformed t .pattern
  | languageIn {v} : g.Has t .languageIn v → (∀ xs, ¬ g.IsList v xs) → Malformed t .languageIn
  | equals {x} : g.Has t .equals x → (∀ i, x ≠ .iri i) → Malformed t .equals
  | disjoint {x} : g.Has t .disjoint x → (∀ i, x ≠ .iri i) → Malformed t .disjoint
  | lessThan {x} : g.Has t .lessThan x → (∀ i, x ≠ .iri i) → Malformed t .lessThan
  | lessThanOrEquals {x} : g.Has t .lessThanOrEquals x → (∀ i, x ≠ .iri i) → Malformed t .lessThanOrEquals
  | not {x} : g.Has t .not x → (∀ o, ¬ E.Means x o) → Malformed t .not
  | and {v} : g.Has t .and v → (∀ xs os, g.IsList v xs → ¬ List.Forall₂ E.Means xs os) → Malformed t .and
  | or {v} : g.Has t .or v → (∀ xs os, g.IsList v xs → ¬ List.Forall₂ E.Means xs os) → Malformed t .or
  | xone {v} : g.Has t .xone v → (∀ xs os, g.IsList v xs → ¬ List.Forall₂ E.Means xs os) → Malformed t .xone
  | node {x} : g.Has t .node x → (∀ o, ¬ E.Means x o) → Malformed t .node
  | qualified {x} : g.Has t .qualifiedValueShape x → (∀ o, ¬ E.Means x o) → Malformed t .qualified
  | qualifiedDisjoint {x} : g.Has t .qualifiedValueShapesDisjoint x → (∀ o, ¬ E.Means x o) → Malformed t .qualified
  | property {q s l} : Disjoint g E t → g.Has t .qualifiedValueShape q → g.Has s .property t →
    g.Has s .property (.lit l) → Malformed t .qualified
  | cousin {q x} : Disjoint g E t → g.Has t .qualifiedValueShape q → Cousin g t x → (∀ o, ¬ E.Means x o) →
    Malformed t .qualified
  | ignored {v xs x} : g.Has t .ignoredProperties v → g.IsList v xs → x ∈ xs → (∀ i, x ≠ .iri i) → Malformed t .closed
  | hasValue {x} : g.Has t .hasValue x → (∀ o, ¬ E.IsValue x o) → Malformed t .hasValue
  | isIn {v} : g.Has t .isIn v → (∀ xs, ¬ g.IsList v xs) → Malformed t .isIn
  | sparql {v} : g.Has t .sparql v → (∀ x s, g.Has v .select x → ¬ E.IsText x s) → Malformed t .sparql

/-- A member of a list of languages that is an IRI or not a language tag. -/
def BadTag (t : Tm L) : Prop :=
  ∃ v xs x, g.Has t .languageIn v ∧ g.IsList v xs ∧ x ∈ xs ∧
    ((∃ i, x = .iri i) ∨ ∃ l, x = .lit l ∧ E.tag (E.text l) = none)

/-- The properties that have one value at most. -/
def singles : List Voc :=
  [.first, .rest, .flags, .closed, .ignoredProperties, .qualifiedMinCount, .qualifiedMaxCount,
    .qualifiedValueShapesDisjoint, .select, .deactivated, .severity, .path, .reificationRequired]

/-- Subjects are IRIs and blank nodes, and what should have one value has one. -/
structure Gr.Neat : Prop where
  rdf : ∀ x ∈ g.ts, x.1.isLit = false
  one : ∀ t, ∀ k ∈ singles, ∀ o o', g.Has t k o → g.Has t k o' → o = o'

end

variable {C : Type}

/-- What kind of component. -/
def Comp.key : Comp C → Key
  | .cls _ => .cls
  | .nodeKind _ => .nodeKind
  | .datatype _ => .datatype
  | .minCount _ => .minCount
  | .maxCount _ => .maxCount
  | .minInclusive _ => .minInclusive
  | .minExclusive _ => .minExclusive
  | .maxInclusive _ => .maxInclusive
  | .maxExclusive _ => .maxExclusive
  | .minLength _ => .minLength
  | .maxLength _ => .maxLength
  | .pattern .. => .pattern
  | .languageIn _ => .languageIn
  | .uniqueLang _ => .uniqueLang
  | .equals _ => .equals
  | .disjoint _ => .disjoint
  | .lessThan _ => .lessThan
  | .lessThanOrEquals _ => .lessThanOrEquals
  | .not _ => .not
  | .and _ => .and
  | .or _ => .or
  | .xone _ => .xone
  | .node _ => .node
  | .qualified .. => .qualified
  | .closed .. => .closed
  | .hasValue _ => .hasValue
  | .isIn _ => .isIn
  | .sparql .. => .sparql
  | .deactivated _ => .deactivated

/-- The same component, up to the order and repetition of siblings. -/
inductive Comp.Same : Comp C → Comp C → Prop
  | refl {c} : Comp.Same c c
  | qualified {o mn mx d ss ss'} : (∀ s, s ∈ ss ↔ s ∈ ss') → Comp.Same (.qualified o mn mx d ss) (.qualified o mn mx d ss')

/-- A list of components has exactly those of which something holds. -/
def Covers (cs : List (Comp C)) (D : Comp C → Prop) : Prop :=
  (∀ c ∈ cs, D c) ∧ ∀ c, D c → ∃ c' ∈ cs, c'.Same c

end Rd

namespace Rd

section
variable {L C : Type} (g : Gr L) (E : Ext L C)

/-- The severities that have a name. -/
def sevs : List (Voc × Sev) :=
  [(.Violation, .violation), (.Warning, .warning), (.Info, .info), (.Debug, .debug), (.Trace, .trace)]

/-- The severity that an IRI stands for. -/
def IsSev (i : Iri) (s : Sev) : Prop :=
  (∃ v, i = .v v ∧ (v, s) ∈ sevs) ∨ (s = .generic i ∧ ∀ v s', i = .v v → (v, s') ∉ sevs)

/-- The node has this target. -/
inductive TargetOf (t : Tm L) : Tgt C → Prop
  | cls {i} : g.Has t .targetClass (.iri i) → TargetOf t (.cls i)
  | node {x o} : g.Has t .targetNode x → E.Means x o → TargetOf t (.node o)
  | implicit {v o} : g.Has t .type (.iri (.v .rdfsClass)) → v ∈ [Voc.NodeShape, .PropertyShape] →
    g.Has t .type (.iri (.v v)) → E.Means t o → TargetOf t (.implicit o)
  | subjectsOf {i} : g.Has t .targetSubjectsOf (.iri i) → TargetOf t (.subjectsOf i)
  | objectsOf {i} : g.Has t .targetObjectsOf (.iri i) → TargetOf t (.objectsOf i)

/-- All that the node says is well-formed. -/
structure WellFormed (t : Tm L) : Prop where
  comps : ∀ k, ¬ Malformed g E t k
  iris : ∀ p ∈ [Voc.targetClass, .targetSubjectsOf, .targetObjectsOf], ∀ x, g.Has t p x → ∃ i, x = .iri i
  objs : ∀ p ∈ [Voc.targetNode, .property], ∀ x, g.Has t p x → ∃ o, E.Means x o

/-- The shape has what the node says, and nothing else. -/
structure IsShape (t : Tm L) (s : NodeShape C) : Prop where
  id : E.Means t s.id
  severity : Opt (fun v => ∃ i, g.Has t .severity (.iri i) ∧ IsSev i v) s.severity
  targets : ∀ x, x ∈ s.targets ↔ TargetOf g E t x
  props : ∀ o, o ∈ s.props ↔ ∃ x, g.Has t .property x ∧ E.Means x o
  comps : Covers s.comps (Declared g E t)

/-- The reifier shapes of a property shape. -/
def IsReifier (t : Tm L) : Option (Bool × List (Ob C)) → Prop
  | none => g.Lacks t .reifierShape
  | some (b, os) => (∃ x, g.Has t .reifierShape x) ∧ (∀ o, o ∈ os ↔ ∃ x, g.Has t .reifierShape x ∧ E.Means x o) ∧
    (b = true ↔ ∃ x, g.Has t .reificationRequired x ∧ E.IsBool x true)

/-- The nodes that are read as shapes. -/
inductive Candidate : Tm L → Prop
  | type {t v} : v ∈ [Voc.NodeShape, .PropertyShape, .Shape] → g.Has t .type (.iri (.v v)) → Candidate t
  | target {t p x} : p ∈ [Voc.targetClass, .targetNode, .targetSubjectsOf, .targetObjectsOf] → g.Has t p x → Candidate t
  | value {s p t} : p ∈ [Voc.not, .property, .qualifiedValueShape, .node, .reifierShape] → g.Has s p t →
    t.isLit = false → Candidate t
  | member {s p v xs t} : p ∈ [Voc.and, .or, .xone] → g.Has s p v → g.IsList v xs → t ∈ xs → Candidate t

/-- A value of the property is no list, or one with a literal in it. -/
def BadList (p : Voc) : Prop :=
  ∃ s v, g.Has s p v ∧ v.isLit = false ∧ ∀ xs, g.IsList v xs → ∃ x ∈ xs, x.isLit = true

/-- The node is a shape that can be read: all is well-formed, the path too if there is one, and no properties are
ignored. -/
structure Good (t : Tm L) : Prop where
  plain : g.Lacks t .ignoredProperties
  well : WellFormed g E t
  tags : ¬ BadTag g E t
  path : ∀ v, g.Has t .path v → ∃ q, g.IsPath v q

/-- The shape is what the node says: a node shape if it has no path, and otherwise a property shape with its path and
its reifier shapes. -/
def Says (t : Tm L) : Shape C → Prop
  | .node s => g.Lacks t .path ∧ IsShape g E t s
  | .prop s => (∃ v, g.Has t .path v ∧ g.IsPath v s.path) ∧ IsShape g E t s.toNodeShape ∧ IsReifier g E t s.reifier

end

end Rd

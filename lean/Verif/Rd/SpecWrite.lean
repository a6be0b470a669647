import Verif.Rd.SpecShape
import Verif.Rd.ModelWrite

/-!
# Specification: shapes that are alike, and shapes that can be written and read back
-/

namespace Rd

section
variable {L C : Type}

/-- What both kinds of shapes have. -/
def Shape.base : Shape C → NodeShape C
  | .node s => s
  | .prop s => s.toNodeShape

/-- Literals are read as they were written. -/
structure Inverse (E : Ext L C) (O : Out L C) : Prop where
  int : ∀ n, E.int (O.int n) = some n
  bool : ∀ b, E.bool (O.bool b) = some b
  text : ∀ s, E.text (O.text s) = s
  lit : ∀ c, E.conc (O.lit c) = some c
  truth : ∀ b, ∃ c, E.conc (O.bool b) = some c ∧ E.isTrue c = b

/-- The literal is a plain text: nothing is lost when only its lexical form is written. -/
def IsPlain (E : Ext L C) (O : Out L C) (c : C) : Prop := E.conc (O.text (O.lex c)) = some c

/-- The components that are written so that they can be read back. -/
inductive Kept (E : Ext L C) (O : Out L C) : Comp C → Prop
  | cls {o} : Kept E O (.cls o)
  | datatype {i} : Kept E O (.datatype i)
  | minCount {n} : Kept E O (.minCount n)
  | maxCount {n} : Kept E O (.maxCount n)
  | minExclusive {c} : IsPlain E O c → Kept E O (.minExclusive c)
  | maxExclusive {c} : IsPlain E O c → Kept E O (.maxExclusive c)
  | minInclusive {c} : IsPlain E O c → Kept E O (.minInclusive c)
  | maxInclusive {c} : IsPlain E O c → Kept E O (.maxInclusive c)
  | minLength {n} : Kept E O (.minLength n)
  | maxLength {n} : Kept E O (.maxLength n)
  | pattern {p f} : Kept E O (.pattern p f)
  | uniqueLang {b} : Kept E O (.uniqueLang b)
  | equals {i} : Kept E O (.equals i)
  | disjoint {i} : Kept E O (.disjoint i)
  | lessThan {i} : Kept E O (.lessThan i)
  | lessThanOrEquals {i} : Kept E O (.lessThanOrEquals i)
  | not {o} : Kept E O (.not o)
  | node {o} : Kept E O (.node o)
  | qualified {o mn mx d} : d ≠ some true → Kept E O (.qualified o mn mx d [])
  | closed {b} : Kept E O (.closed b [])
  | hasIri {i} : Kept E O (.hasValue (.iri i))
  | hasLit {c} : IsPlain E O c → Kept E O (.hasValue (.lit c))
  | deactivated {b} : Kept E O (.deactivated b)

/-- The component refers to this shape. -/
inductive Refers (o : Ob C) : Comp C → Prop
  | not : Refers o (.not o)
  | node : Refers o (.node o)
  | qualified {mn mx d ss} : Refers o (.qualified o mn mx d ss)

/-- A schema that can be written and read back: all components are kept ones, what a node can say only once is said
once, references are to shapes of the schema, and property shapes have a predicate as path and neither property shapes
nor reifier shapes of their own. -/
structure Simple (E : Ext L C) (O : Out L C) (S : List (Shape C)) : Prop where
  ids : (S.map fun x => x.base.id).Nodup
  named : ∀ x ∈ S, ∀ c, x.base.id ≠ .lit c
  kept : ∀ x ∈ S, ∀ c ∈ x.base.comps, Kept E O c
  once : ∀ x ∈ S, ∀ c ∈ x.base.comps, ∀ c' ∈ x.base.comps, c.key = c'.key →
    c.key ∈ [Key.pattern, .closed, .qualified, .deactivated] → c = c'
  refs : ∀ x ∈ S, ∀ c ∈ x.base.comps, ∀ o, Refers o c → ∃ y ∈ S, y.base.id = o
  props : ∀ x ∈ S, ∀ o ∈ x.base.props, ∃ y ∈ S, y.base.id = o
  implicit : ∀ x ∈ S, ∀ o, .implicit o ∈ x.base.targets → o = x.base.id
  severity : ∀ x ∈ S, ∀ v i, x.base.severity = some v → v = .generic i → IsSev i v
  prop : ∀ s, .prop s ∈ S → (∃ i, s.path = .pred i) ∧ s.props = [] ∧ s.reifier = none

/-- The same shape, up to the order and repetition of targets, property shapes and components. -/
structure Alike (x y : NodeShape C) : Prop where
  id : x.id = y.id
  severity : x.severity = y.severity
  targets : ∀ t, t ∈ x.targets ↔ t ∈ y.targets
  props : ∀ o, o ∈ x.props ↔ o ∈ y.props
  comps : ∀ c, c ∈ x.comps ↔ c ∈ y.comps

/-- The same, for both kinds. -/
inductive Shape.Alike : Shape C → Shape C → Prop
  | node {x y} : Rd.Alike x y → Shape.Alike (.node x) (.node y)
  | prop {x y} : Rd.Alike x.toNodeShape y.toNodeShape → x.path = y.path → x.reifier = y.reifier →
    Shape.Alike (.prop x) (.prop y)

end

end Rd

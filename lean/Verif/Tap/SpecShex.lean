import Verif.Tap.ModelShex
import Mathlib.Data.List.SplitOn

/-!
# Specification: what the ShEx schema of a DCTAP table should accept

The values of a statement are described by what they are, not by the shape expression which is built for
them: nodes are of any type, with their IRI, the datatype of a literal, the kind of node they are and the
shapes they conform to.
-/

namespace Tap

/-- What is known about nodes. -/
structure World (N : Type) where
  iri : N → Option Str
  datatype : N → Option Str
  kind : N → Basic
  conforms : Str → N → Prop

namespace ValueExpr

variable {N : Type} (w : World N) (n : N)

mutual
/-- What a shape expression accepts, by the ShEx specification. -/
def Accepts : ValueExpr → Prop
  | .nodeConstraint d vs => (∀ x ∈ d, w.datatype n = some x) ∧ ∀ xs ∈ vs, ∃ x ∈ xs, w.iri n = some x
  | .ref l => w.conforms l n
  | .and es => AcceptsAll es
  | .or es => AcceptsSome es

def AcceptsAll : List ValueExpr → Prop
  | [] => True
  | e :: es => e.Accepts ∧ AcceptsAll es

def AcceptsSome : List ValueExpr → Prop
  | [] => False
  | e :: es => e.Accepts ∨ AcceptsSome es
end

end ValueExpr

namespace TripleConstraint

/-- The values a triple constraint accepts: all of them without a shape expression. -/
def AcceptsValue {N : Type} (w : World N) (t : TripleConstraint) (n : N) : Prop :=
  ∀ e ∈ t.valueExpr, e.Accepts w n

/-- The numbers of values a triple constraint allows: from one to one when nothing is said, and without a
greatest when the greatest is -1. -/
def AllowsCount (t : TripleConstraint) (k : Nat) : Prop :=
  t.min.getD 1 ≤ k ∧ (t.max.getD 1 = -1 ∨ (k : Int) ≤ t.max.getD 1)

end TripleConstraint

namespace Spec

/-! ## Names -/

/-- A name after a namespace or base: with a slash between when it ends neither in `/` nor in `#`. -/
def joined (base s : Str) : Str :=
  if base.getLast? = some '/' ∨ base.getLast? = some '#' then base ++ s else base ++ '/' :: s

/-- The name `p:l` in a namespace of the prefix map. -/
def InNamespace (cfg : ShexConfig) (valid : Str → Bool) (p l iri : Str) : Prop :=
  ∃ ns, cfg.prefixmap.find p = some ns ∧
    ((l = [] ∧ iri = ns) ∨ (l ≠ [] ∧ iri = joined ns l ∧ valid iri = true))

/-- The name after the base. -/
def AtBase (cfg : ShexConfig) (valid : Str → Bool) (s iri : Str) : Prop :=
  ∃ base, cfg.baseIri = some base ∧ iri = joined base s ∧ valid iri = true

/-- What a text stands for: the part before the last colon is an alias; without a colon, or with nothing
before it and nothing to be found under the empty alias, the base comes first. -/
def Names (cfg : ShexConfig) (valid : Str → Bool) (s iri : Str) : Prop :=
  (':' ∉ s ∧ AtBase cfg valid s iri) ∨
  ∃ p l, s = p ++ ':' :: l ∧ ':' ∉ l ∧
    (InNamespace cfg valid p l iri ∨
      (p = [] ∧ (¬ ∃ j, InNamespace cfg valid [] l j) ∧ AtBase cfg valid l iri))

/-! ## Statements -/

/-- The words of a cell with shapes, without the delimiter. -/
def shapeNames (T : Text) (cfg : ShexConfig) (st : Statement) : List Str :=
  match st.shape with
  | none => []
  | some r => ((r.str.splitOnP T.ws).filter fun w => w ≠ []).filter fun w => w ≠ [cfg.valueShapeDelimiter]

/-- A value of a pick list. -/
def Choice (cfg : ShexConfig) (valid : Str → Bool) : Val → Str → Prop
  | .str s, i => Names cfg valid s i
  | .iri j, i => i = j

/-- Is the datatype of the node one of those of the statement, if it has any? -/
def DatatypeOk {N : Type} (cfg : ShexConfig) (valid : Str → Bool) (w : World N) (st : Statement) (n : N) : Prop :=
  st.datatypes = [] ∨ ∃ d ∈ st.datatypes, ∃ i, Names cfg valid d.str i ∧ w.datatype n = some i

/-- Is the node one of the pick list, if there is one? -/
def ChoiceOk {N : Type} (cfg : ShexConfig) (valid : Str → Bool) (w : World N) (st : Statement) (n : N) : Prop :=
  ∀ vs, st.constraint = some (.picklist vs) → ∃ v ∈ vs, ∃ i, Choice cfg valid v i ∧ w.iri n = some i

/-- Does the node conform to one of the shapes, if there are any? -/
def ShapesOk {N : Type} (T : Text) (cfg : ShexConfig) (valid : Str → Bool) (w : World N) (st : Statement)
    (n : N) : Prop :=
  shapeNames T cfg st = [] ∨ ∃ s ∈ shapeNames T cfg st, ∃ i, Names cfg valid s i ∧ w.conforms i n

/-- Is the node of one of the kinds of the statement, if it has any? -/
def KindOk {N : Type} (w : World N) (st : Statement) (n : N) : Prop :=
  match st.nodetype with
  | none => True
  | some (.basic b) => w.kind n = b
  | some (.or bs) => w.kind n ∈ bs

/-- The values which a statement describes. -/
def ValueOk {N : Type} (T : Text) (cfg : ShexConfig) (valid : Str → Bool) (w : World N) (st : Statement)
    (n : N) : Prop :=
  KindOk w st n ∧ DatatypeOk cfg valid w st n ∧ ChoiceOk cfg valid w st n ∧ ShapesOk T cfg valid w st n

/-- Everything a statement mentions stands for something, and its constraint, if any, is a pick list. -/
def StatementOk (T : Text) (cfg : ShexConfig) (valid : Str → Bool) (st : Statement) : Prop :=
  (∃ i, Names cfg valid st.property.str i) ∧
  (∀ d ∈ st.datatypes, ∃ i, Names cfg valid d.str i) ∧
  (∀ c, st.constraint = some c → ∃ vs, c = .picklist vs ∧ ∀ v ∈ vs, ∃ i, Choice cfg valid v i) ∧
  (∀ s ∈ shapeNames T cfg st, ∃ i, Names cfg valid s i)

/-- Everything a shape mentions stands for something. -/
def ShapeOk (T : Text) (cfg : ShexConfig) (valid : Str → Bool) (s : Shape) : Prop :=
  (∃ i, s.id = some i ∧ ∃ j, Names cfg valid i.str j) ∧
  (∀ e ∈ s.extends_, ∃ i, Names cfg valid e.str i) ∧
  (∀ st ∈ s.statements, StatementOk T cfg valid st)

end Spec

end Tap

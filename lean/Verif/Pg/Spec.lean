import Verif.Pg.Graph

/-!
# Specification: what PG-Schema cardinalities, conditions, value types and record types mean

Nothing here runs the code: cardinalities are intervals, conditions are propositions about a value, types are
propositions about sets of values, and record types are conditions on the keys of a record.
-/

namespace Pg

/-- The least count of a cardinality. -/
def Card.lower : Card → Nat
  | .zeroOrOne | .zeroOrMore => 0
  | .one | .oneOrMore => 1
  | .range n _ => n

/-- The greatest count of a cardinality, if there is one. -/
def Card.upper : Card → Option Nat
  | .zeroOrOne | .one => some 1
  | .zeroOrMore | .oneOrMore => none
  | .range _ .unbounded => none
  | .range _ (.bounded n) => some n

/-- A count lies within a cardinality. -/
def Within (c : Card) (n : Nat) : Prop := c.lower ≤ n ∧ ∀ u, c.upper = some u → n ≤ u

/-- Two values that the comparisons order, with the relation that orders them. -/
def Ordered (R : Int → Int → Prop) : Value → Value → Prop
  | .integer a, .integer b => R a b
  | .date a, .date b => R a b
  | _, _ => False

/-- Two values of the same ordered kind. -/
def Comparable : Value → Value → Prop := Ordered fun _ _ => True

/-- The reading of a condition as a proposition about a value. -/
def Meets (X : Ext) : BExpr → Value → Prop
  | .tt, _ => True
  | .ff, _ => False
  | .and a b, v => Meets X a v ∧ Meets X b v
  | .or a b, v => Meets X a v ∨ Meets X b v
  | .not a, v => ¬ Meets X a v
  | .equals w, v => v = w
  | .greaterThan w, v => Ordered (· > ·) v w
  | .lessThan w, v => Ordered (· < ·) v w
  | .greaterThanOrEqual w, v => Ordered (· ≥ ·) v w
  | .lessThanOrEqual w, v => Ordered (· ≤ ·) v w
  | .regex p, v => ∃ s, v = .string s ∧ X.regex p s = some true

/-- Every part of a condition can be asked of a value: comparisons get values of one ordered kind and patterns get
strings and compile. -/
def Applicable (X : Ext) : BExpr → Value → Prop
  | .tt, _ | .ff, _ | .equals _, _ => True
  | .and a b, v | .or a b, v => Applicable X a v ∧ Applicable X b v
  | .not a, v => Applicable X a v
  | .greaterThan w, v | .lessThan w, v | .greaterThanOrEqual w, v | .lessThanOrEqual w, v => Comparable v w
  | .regex p, v => ∃ s, v = .string s ∧ X.regex p s ≠ none

/-- A condition holds of a value and every part of it could be asked. -/
def Holds (X : Ext) (e : BExpr) (v : Value) : Prop := Applicable X e v ∧ Meets X e v

/-- The sets of values of a value type. -/
def Accepts (X : Ext) : ValueType → Finset Value → Prop
  | .any, _ => True
  | .stringType c, vs => Within c vs.card ∧ ∀ v ∈ vs, ∃ s, v = .string s
  | .integerType c, vs => Within c vs.card ∧ ∀ v ∈ vs, ∃ i, v = .integer i
  | .dateType c, vs => Within c vs.card ∧ ∀ v ∈ vs, ∃ d, v = .date d
  | .boolType c, vs => Within c vs.card ∧ ∀ v ∈ vs, ∃ b, v = .bool b
  | .intersection a b, vs => Accepts X a vs ∧ Accepts X b vs
  | .union a b, vs => Accepts X a vs ∨ Accepts X b vs
  | .cond e, vs => ∀ v ∈ vs, Holds X e v

/-- A record belongs to a record type: every declared key is present with values of its type, and a closed type has no
other keys. -/
def Belongs (X : Ext) (t : RecordType) (r : Record) : Prop :=
  (∀ k T, t.map.lookup k = some T → ∃ vs, r.lookup k = some vs ∧ Accepts X T vs) ∧
    (t.isOpen = false → ∀ k vs, r.lookup k = some vs → ∃ T, t.map.lookup k = some T)

/-- The sets of values of a type written in a schema. -/
def AcceptsSpec (X : Ext) : TypeSpec → Finset Value → Prop
  | .value t, vs => Accepts X t vs
  | .conj a b, vs => AcceptsSpec X a vs ∧ AcceptsSpec X b vs
  | .disj a b, vs => AcceptsSpec X a vs ∨ AcceptsSpec X b vs
  | .cond t e, vs => Accepts X t vs ∧ ∀ v ∈ vs, Holds X e v

/-- The properties written in a schema allow a record to have exactly the keys `K`, with values of the right types:
`,` asks for both sides, `||` for one of them, an optional property may be left out. -/
def Choice (X : Ext) (r : Record) : PropValue → Finset String → Prop
  | .property k t, K => K = {k} ∧ ∃ vs, r.lookup k = some vs ∧ AcceptsSpec X t vs
  | .optionalProperty k t, K => (K = {k} ∧ ∃ vs, r.lookup k = some vs ∧ AcceptsSpec X t vs) ∨ K = ∅
  | .eachOf a b, K => ∃ K1 K2, K = K1 ∪ K2 ∧ Choice X r a K1 ∧ Choice X r b K2
  | .oneOf a b, K => Choice X r a K ∨ Choice X r b K
  | .empty, K => K = ∅

/-- The keys of a record. -/
def keysOf (r : Record) : Finset String := r.keys.toFinset

/-- The empty property list does not occur. -/
def NoEmpty : PropValue → Prop
  | .eachOf a b | .oneOf a b => NoEmpty a ∧ NoEmpty b
  | .empty => False
  | _ => True

/-- A node (or edge) with labels `L`, and properties allowing the keys `K` in the record `r`, is described by a
specification: a label gives that label, `&` gives the labels and properties of both sides, `|` those of one side, a
reference those of the named type, and properties in braces are added. -/
inductive Describes (X : Ext) (S : Schema) (r : Record) : Spec → LabelSet → Finset String → Prop
  | label (l : String) : Describes X S r (.label l) {l} ∅
  | ref {name : String} {id : Nat} {s : Spec} {L : LabelSet} {K : Finset String} :
    S.nodeNames.lookup name = some id → S.nodeTypes.lookup id = some s → Describes X S r s L K →
      Describes X S r (.ref name) L K
  | and {a b : Spec} {L1 L2 : LabelSet} {K1 K2 : Finset String} :
    Describes X S r a L1 K1 → Describes X S r b L2 K2 → Describes X S r (.and a b) (L1 ∪ L2) (K1 ∪ K2)
  | left {a b : Spec} {L : LabelSet} {K : Finset String} : Describes X S r a L K → Describes X S r (.or a b) L K
  | right {a b : Spec} {L : LabelSet} {K : Finset String} : Describes X S r b L K → Describes X S r (.or a b) L K
  | content {s : Spec} {p : PropValue} {L : LabelSet} {K1 K2 : Finset String} :
    Describes X S r s L K1 → Choice X r p K2 → Describes X S r (.content s (.closed p)) L (K1 ∪ K2)

/-- The specifications that the parser builds, with a label (pgs_builder.rs:76-121): labels, references, `&`, `|`
and closed properties. -/
inductive Labelled : Spec → Prop
  | label (l : String) : Labelled (.label l)
  | ref (n : String) : Labelled (.ref n)
  | and {a b : Spec} : Labelled a → Labelled b → Labelled (.and a b)
  | or {a b : Spec} : Labelled a → Labelled b → Labelled (.or a b)
  | content {s : Spec} {p : PropValue} : Labelled s → NoEmpty p → Labelled (.content s (.closed p))

/-- The labels of a specification, whatever the properties. -/
inductive LabelsOf (S : Schema) : Spec → LabelSet → Prop
  | label (l : String) : LabelsOf S (.label l) {l}
  | ref {name : String} {id : Nat} {s : Spec} {L : LabelSet} :
    S.nodeNames.lookup name = some id → S.nodeTypes.lookup id = some s → LabelsOf S s L → LabelsOf S (.ref name) L
  | and {a b : Spec} {L1 L2 : LabelSet} : LabelsOf S a L1 → LabelsOf S b L2 → LabelsOf S (.and a b) (L1 ∪ L2)
  | left {a b : Spec} {L : LabelSet} : LabelsOf S a L → LabelsOf S (.or a b) L
  | right {a b : Spec} {L : LabelSet} : LabelsOf S b L → LabelsOf S (.or a b) L
  | content {s : Spec} {p : PropSpec} {L : LabelSet} : LabelsOf S s L → LabelsOf S (.content s p) L

/-- The properties of a specification, whatever the labels. -/
inductive KeysOf (X : Ext) (S : Schema) (r : Record) : Spec → Finset String → Prop
  | label (l : String) : KeysOf X S r (.label l) ∅
  | ref {name : String} {id : Nat} {s : Spec} {K : Finset String} :
    S.nodeNames.lookup name = some id → S.nodeTypes.lookup id = some s → KeysOf X S r s K → KeysOf X S r (.ref name) K
  | and {a b : Spec} {K1 K2 : Finset String} :
    KeysOf X S r a K1 → KeysOf X S r b K2 → KeysOf X S r (.and a b) (K1 ∪ K2)
  | left {a b : Spec} {K : Finset String} : KeysOf X S r a K → KeysOf X S r (.or a b) K
  | right {a b : Spec} {K : Finset String} : KeysOf X S r b K → KeysOf X S r (.or a b) K
  | content {s : Spec} {p : PropValue} {K1 K2 : Finset String} :
    KeysOf X S r s K1 → Choice X r p K2 → KeysOf X S r (.content s (.closed p)) (K1 ∪ K2)

/-- Every reference below a specification leads to a type of the schema, and following references ends. -/
inductive Resolves (S : Schema) : Spec → Prop
  | empty : Resolves S .empty
  | label (l : String) : Resolves S (.label l)
  | ref {name : String} {id : Nat} {s : Spec} :
    S.nodeNames.lookup name = some id → S.nodeTypes.lookup id = some s → Resolves S s → Resolves S (.ref name)
  | optional {s : Spec} : Resolves S s → Resolves S (.optional s)
  | and {a b : Spec} : Resolves S a → Resolves S b → Resolves S (.and a b)
  | or {a b : Spec} : Resolves S a → Resolves S b → Resolves S (.or a b)
  | opened {s : Spec} : Resolves S s → Resolves S (.opened s)
  | content {s : Spec} {p : PropSpec} : Resolves S s → Resolves S (.content s p)

/-- `|` does not occur between labels. -/
def NoOr : Spec → Prop
  | .or _ _ => False
  | .and a b => NoOr a ∧ NoOr b
  | .optional s | .opened s | .content s _ => NoOr s
  | _ => True

/-- Every type of a schema is built by the parser with a label. -/
def LabelledSchema (S : Schema) : Prop := ∀ id s, S.nodeTypes.lookup id = some s → Labelled s

/-- A verdict is positive. -/
def Positively (v : Verdict) : Prop := ∃ es, v = .ok es

end Pg

import Verif.Shacl.Prim
import Verif.Lit.Spec

/-!
# Specification: SHACL constraints that do not refer to shapes

Section numbers are those of the SHACL recommendation.
-/

namespace Shacl
open Lit

section
variable {D : Type} (E : Env D)

open Classical in
/-- The results for the value nodes that violate a constraint: one for each, with the value node. -/
noncomputable def violations (vs : List Term) (Bad : Term → Prop) : List (Hit D) :=
  (vs.filter fun v => decide (Bad v)).map fun v => ⟨E.obj v, none⟩

/-- The number a literal denotes, by the rules of XML Schema for integers, and by the libraries for other numbers. -/
def Denotes (X : Ext D) (r : RdfLiteral) (q : ℚ) : Prop :=
  r.lang = none ∧
    ((∃ k minus n, r.dt = some (.int k) ∧ IntLex r.lex minus n ∧ XsdRange k n ∧ q = n) ∨
      (∃ d, r.dt = some .decimal ∧ 'e' ∉ r.lex ∧ 'E' ∉ r.lex ∧ X.parseDec r.lex = some d ∧ q = d.val) ∨
      (∃ b d, r.dt = some .double ∧ X.parseF64 r.lex = some b ∧ X.decOfF64 b = some d ∧ q = d.val) ∨
      ∃ b d, r.dt = some .float ∧ X.parseF32 r.lex = some b ∧ X.decOfF32 b = some d ∧ q = d.val)

/-- Literals of the datatypes for numbers. -/
def Numeric (r : RdfLiteral) : Prop :=
  r.lang = none ∧ ((∃ k, r.dt = some (.int k)) ∨ r.dt = some .decimal ∨ r.dt = some .double ∨ r.dt = some .float)

/-- Literals of the primitive datatypes for numbers and of `xsd:integer`. -/
def Kept (r : RdfLiteral) : Prop :=
  r.dt = some (.int .integer) ∨ r.dt = some .decimal ∨ r.dt = some .double ∨ r.dt = some .float

/-- Literals that are read as XML Schema says: integers of less than 96 bits (not of type `xsd:nonNegativeInteger`, and
without `-0` where no sign is expected), and floats that are finite and can be converted to a decimal. -/
def Readable (X : Ext D) (r : RdfLiteral) : Prop :=
  (∀ k, r.dt = some (.int k) → k ≠ .nonNegativeInteger ∧
    ∀ minus n, IntLex r.lex minus n → n.natAbs < 2 ^ 96 ∧ (minus = true → ¬ Unsigned k)) ∧
  (∀ b, r.dt = some .double → X.parseF64 r.lex = some b → plusInf r.lex = false ∧ X.decOfF64 b ≠ none) ∧
  (∀ b, r.dt = some .float → X.parseF32 r.lex = some b → plusInf r.lex = false ∧ X.decOfF32 b ≠ none)

/-- Terms that are not changed by the conversion to an object and back: not literals of the integer datatypes other than
`xsd:integer`, nor booleans nor times; and language tags are in normal form. -/
def Stable : Term → Prop
  | .lit r => r.WF ∧ (∀ k, r.dt = some (.int k) → k = .integer) ∧ r.dt ≠ some .boolean ∧ r.dt ≠ some .dateTime ∧
      ∀ g, r.lang = some g → E.norm g = some g
  | _ => True

/-- 4.1.3: node kinds. -/
def OfKind : NodeKind → Term → Prop
  | .iri, v => ∃ s, v = .iri s
  | .lit, v => ∃ r, v = .lit r
  | .bnode, v => ∃ s, v = .bnode s
  | .bnodeOrIri, v => (∃ s, v = .bnode s) ∨ ∃ s, v = .iri s
  | .bnodeOrLit, v => (∃ s, v = .bnode s) ∨ ∃ r, v = .lit r
  | .iriOrLit, v => (∃ s, v = .iri s) ∨ ∃ r, v = .lit r

/-- 4.1.2: a literal of a datatype, whose text is in its lexical space if it is one of the datatypes known. -/
def OfDatatype (X : Ext D) (d : Dt) (v : Term) : Prop :=
  ∃ r, v = .lit r ∧ RdfLiteral.datatype r = d ∧
    (∀ k, d = .int k → ∃ minus n, IntLex r.lex minus n ∧ XsdRange k n) ∧
    (d = .boolean → r.lex ∈ [['t', 'r', 'u', 'e'], ['f', 'a', 'l', 's', 'e'], ['1'], ['0']]) ∧
    (d = .decimal → 'e' ∉ r.lex ∧ 'E' ∉ r.lex ∧ X.parseDec r.lex ≠ none) ∧
    (d = .double → X.parseF64 r.lex ≠ none) ∧
    (d = .float → X.parseF32 r.lex ≠ none) ∧
    (d = .dateTime → X.parseDT r.lex ≠ none)

/-- 4.4: the text of a value node, for IRIs and literals. -/
def textOf : Term → Option Str
  | .iri s => some s
  | .lit r => some r.lex
  | .bnode _ => none

/-- RFC 4647, basic filtering: equal, or a prefix before a hyphen, without regard to case. -/
def BasicFilter (range tag : Str) : Prop :=
  ∃ rest : Str, tag.map Char.toLower = range.map Char.toLower ++ rest ∧ (rest = [] ∨ ∃ rest', rest = '-' :: rest')

/-- The language tag of a value node. -/
def tagOf : Term → Option Str
  | .lit r => r.lang
  | _ => none

end

end Shacl

import Verif.Value.Model
import Verif.Lit.Spec

/-!
# Specification: value sets and node constraints
-/

namespace Value
open Lit

/-- A text in lower case. -/
def low (s : Str) : Str := s.map Char.toLower

/-- A language tag begins with another: it is the same, or goes on after a dash. -/
def LangBegins (stem tag : Str) : Prop := low tag = low stem ∨ ∃ r, low tag = low stem ++ '-' :: r

/-- What an exclusion excludes. -/
def Excluded (begins : Str → Str → Prop) (t : Str) : Excl → Prop
  | .value s => t = s
  | .stem s => begins s t

/-- A text is in a range: it has the stem, and no exclusion excludes it. -/
def InRange (begins : Str → Str → Prop) (stem : Stem) (exclusions : List Excl) (t : Str) : Prop :=
  (∀ s, stem = .is s → begins s t) ∧ ∀ e ∈ exclusions, ¬ Excluded begins t e

/-- ShEx: the terms a member of a value set stands for. Ranges of IRIs have IRIs, ranges of literals
have literals, and ranges of languages have literals with language. -/
def Accepts {D : Type} (X : Ext D) : Member D → Obj D → Prop
  | .iriStem st, o => ∃ t, o = .iri (st ++ t)
  | .iriStemRange st ex, o => ∃ s, o = .iri s ∧ InRange (· <+: ·) st (ex.getD []) s
  | .literalStem st, o => ∃ l t, o = .lit l ∧ l.lexicalForm X = st ++ t
  | .literalStemRange st ex, o => ∃ l, o = .lit l ∧ InRange (· <+: ·) st (ex.getD []) (l.lexicalForm X)
  | .language g, o => ∃ t, o = .lit (.str t (some g))
  | .languageStem st, o => ∃ t g, o = .lit (.str t (some g)) ∧ InRange LangBegins st [] g
  | .languageStemRange st ex, o => ∃ t g, o = .lit (.str t (some g)) ∧ InRange LangBegins st (ex.getD []) g
  | .iri s, o => o = .iri s
  | .literal l, o => ∃ l', o = .lit l' ∧ l'.matchLit X l = true

/-- A wildcard range is only asked about terms of its own kind. -/
def OwnKind {D : Type} : Member D → Obj D → Prop
  | .iriStemRange .wildcard _, o => ∃ s, o = .iri s
  | .literalStemRange .wildcard _, o => ∃ l, o = .lit l
  | .languageStemRange .wildcard _, o => ∃ t g, o = .lit (.str t (some g))
  | _, _ => True

/-- ShEx: the terms of a node kind. -/
def HasKind {D : Type} (k : NodeKind) (o : Obj D) : Prop :=
  match k with
  | .iri => ∃ s, o = .iri s
  | .bnode => ∃ s, o = .bnode s
  | .literal => ∃ l, o = .lit l
  | .nonLiteral => (∃ s, o = .iri s) ∨ ∃ s, o = .bnode s

/-- The text is right for the datatype. -/
def RightText {D : Type} (X : Ext D) (lex : Str) : Dt → Prop
  | .int k => ∃ n, parseInt k lex = some n
  | .decimal => 'e' ∉ lex ∧ 'E' ∉ lex ∧ ∃ d, X.parseDec lex = some d
  | .double => plusInf lex = false ∧ ∃ b, X.parseF64 lex = some b
  | .float => plusInf lex = false ∧ ∃ b, X.parseF32 lex = some b
  | .boolean => lex ∈ [['t', 'r', 'u', 'e'], ['f', 'a', 'l', 's', 'e'], ['1'], ['0']]
  | .dateTime => ∃ d, X.parseDT lex = some d
  | .prefixed _ _ => False
  | _ => True

/-- ShEx: the literals of a datatype, with a text that is right for it. -/
def HasDatatype {D : Type} (X : Ext D) (d : Dt) : Literal D → Prop
  | .str _ none => d = .string
  | .str _ (some _) => d = .langString
  | .typed lex dt => dt = d ∧ RightText X lex dt
  | .num (.int k _) => d = .int k
  | .num (.decimal _) => d = .decimal
  | .num (.double _) => d = .double
  | .num (.float _) => d = .float
  | .bool _ => d = .boolean
  | .datetime _ => d = .dateTime
  | .wrong _ _ _ => False

/-- The text of a term. -/
def Obj.text {D : Type} (X : Ext D) : Obj D → Str
  | .iri s | .bnode s => s
  | .lit l => l.lexicalForm X
  | .triple s p o => (match s with | .iri s | .bnode s => s) ++ p ++ o.text X

/-- A regular expression behind inline flags. Absent or empty flags leave it as it is. -/
def withFlags (flags : Option Str) (regex : Str) : Str :=
  (match flags.getD [] with
    | [] => []
    | fs => "(?".toList ++ fs ++ ")".toList) ++ regex

end Value

import Verif.Mcp.Asking

/-!
# Specification: words of a text, kinds of queries, blocks of code
-/

namespace Mcp.Asking

open Prefix (Str)

/-- A text that is empty or ends with white space. -/
def EndsBlank (L : Lib) (a : Str) : Prop := ∀ c, a.getLast? = some c → L.ws c = true

/-- A text that is empty or begins with white space. -/
def BeginsBlank (L : Lib) (b : Str) : Prop := ∀ c, b.head? = some c → L.ws c = true

/-- In the text `a ++ w ++ b`, the part `w` is a word. -/
def IsWord (L : Lib) (a w b : Str) : Prop := w ≠ [] ∧ (∀ c ∈ w, L.ws c = false) ∧ EndsBlank L a ∧ BeginsBlank L b

/-- The keyword of a kind, in upper case. -/
def Kind.name : Kind → Str
  | .select => "SELECT".toList
  | .construct => "CONSTRUCT".toList
  | .ask => "ASK".toList
  | .describe => "DESCRIBE".toList

/-- The word is a keyword of a kind in letters of either case. -/
def Names (L : Lib) (w : Str) (k : Kind) : Prop := toUpper L w = k.name

/-- No word of the text is a keyword. -/
def NoKeyword (L : Lib) (s : Str) : Prop := ∀ a w b, s = a ++ w ++ b → IsWord L a w b → ∀ k, ¬Names L w k

/-- The first word of the text that is a keyword is one of the kind `k`. -/
def FirstWord (L : Lib) (s : Str) (k : Kind) : Prop :=
  ∃ a w b, s = a ++ w ++ b ∧ IsWord L a w b ∧ Names L w k ∧ NoKeyword L a

/-- What may stand before the form of a query (SPARQL 1.1, 19.8, rules 4 to 6, and 19.4 for comments). -/
inductive Prologue : Str → Prop where
  | nil : Prologue []
  | space {s} (c : Char) : c ∈ [' ', '\n', '\t', '\r'] → Prologue s → Prologue (c :: s)
  | comment {s} (t : Str) : '\n' ∉ t → Prologue s → Prologue ('#' :: t ++ '\n' :: s)
  | base {s} (i : Str) : (∀ c ∈ i, c ∉ ['<', '>', ' ', '\n']) → Prologue s → Prologue ("BASE <".toList ++ i ++ '>' :: s)
  | pref {s} (n i : Str) : (∀ c ∈ n, c.isAlphanum) → (∀ c ∈ i, c ∉ ['<', '>', ' ', '\n']) → Prologue s →
    Prologue ("PREFIX ".toList ++ n ++ ": <".toList ++ i ++ '>' :: s)

/-- A text is a query of a kind: after the prologue is the keyword in letters of either case, and no letter follows. -/
def Query (q : Str) (k : Kind) : Prop :=
  ∃ p w r, q = p ++ w ++ r ∧ Prologue p ∧ w.map Char.toUpper = k.name ∧ ∀ c, r.head? = some c → c.isAlphanum = false

/-- What is true of Unicode: upper case of ASCII, and white space of its printable characters, the blank and the end of a line. -/
structure Ascii (L : Lib) : Prop where
  upper : ∀ c : Char, c.toNat < 128 → L.upper c = [c.toUpper]
  graphic : ∀ c : Char, 33 ≤ c.toNat → c.toNat < 127 → L.ws c = false
  blank : L.ws ' ' = true
  newline : L.ws '\n' = true

/-- The query that is meant by a request, if it has exactly one source. -/
inductive Source (L : Lib) (sample : Str → Option Str) (r : Request) : Str → Prop where
  | query {q} : r.query = some q → r.natural = none → Source L sample r q
  | natural {n s} : r.query = none → r.natural = some n → sample n = some s → Source L sample r (clean L s)

/-- The names of a format. -/
def Format.aliases : Format → List String
  | .internal => ["internal", "asciitable"]
  | .turtle => ["turtle"]
  | .nTriples => ["ntriples"]
  | .jsonLd => ["json-ld", "jsonld"]
  | .json => ["json"]
  | .rdfXml => ["rdf-xml", "rdfxml"]
  | .csv => ["csv"]
  | .markdown => ["markdown"]
  | .triG => ["trig"]
  | .n3 => ["n3"]
  | .nQuads => ["nquads"]

/-- The format that a request names, if it names one. -/
def Asked (r : Request) (f : Option Format) : Prop :=
  r.format = none ∧ f = none ∨ ∃ s g, r.format = some s ∧ parseFormat s = some g ∧ f = some g

/-- A kind and a format that the tool takes. -/
def Permitted (k : Option Kind) (f : Option Format) : Prop :=
  k ≠ some .describe ∧ (k = some .select → f = none ∨ f = some .internal)

/-- The three calls succeed, with this state and text. -/
def Runs {σ : Type} (E : Engine σ) (q : Str) (f : Option Format) (st : σ) (st' : σ) (out : Str) : Prop :=
  ∃ s, E.load q st = (s, true) ∧ E.run s = (st', true) ∧ E.write f st' = some out

/-- Lines, each with its end. -/
def unlines (ls : List Str) : Str := ls.flatMap (· ++ ['\n'])

end Mcp.Asking

import Verif.Shacl.SparqlText
import Verif.Shacl.PathSpec

/-!
# Specification: terms and paths in SPARQL texts

From the grammar of SPARQL 1.1 (19.8), without prefixed names, code points, long strings and white space in paths; and what
SHACL (5.3) says of the solutions of a SPARQL-based constraint.
-/

namespace Shacl
open Lit

/-- The characters of an `IRIREF`. -/
def IriChar (c : Char) : Prop := c ∉ ['<', '>', '"', '{', '}', '|', '^', '`', '\\'] ∧ 32 < c.toNat

/-- `ECHAR`: the character after the backslash, and what it stands for. -/
def echar (c : Char) : Option Char :=
  if c = 't' then some '\t' else if c = 'b' then some (Char.ofNat 8) else if c = 'n' then some '\n'
  else if c = 'r' then some '\r' else if c = 'f' then some (Char.ofNat 12)
  else if c = '\\' ∨ c = '"' ∨ c = '\'' then some c else none

/-- The inside of a string between double quotes, and the text it stands for. -/
inductive StringText : Str → Str → Prop where
  | nil : StringText [] []
  | plain {c s v} : c ∉ ['"', '\\', '\n', '\r'] → StringText s v → StringText (c :: s) (c :: v)
  | escaped {c d s v} : echar c = some d → StringText s v → StringText ('\\' :: c :: s) (d :: v)

/-- The characters of language tags. -/
def TagChar (c : Char) : Prop := c.isAlphanum = true ∨ c = '-'

/-- A text begins with a term; the rest is left. A tag is as long as it can be. -/
inductive ReadsTerm : Str → WTerm → Str → Prop where
  | iri {i rest} : (∀ c ∈ i, IriChar c) → ReadsTerm ('<' :: i ++ '>' :: rest) (.iri i) rest
  | lang {s v t rest} : StringText s v → t ≠ [] → (∀ c ∈ t, TagChar c) → (∀ c, rest.head? = some c → ¬ TagChar c) →
      ReadsTerm ('"' :: s ++ '"' :: '@' :: t ++ rest) (.lit v (.lang t)) rest
  | typed {s v d rest} : StringText s v → (∀ c ∈ d, IriChar c) →
      ReadsTerm ('"' :: s ++ '"' :: '^' :: '^' :: '<' :: d ++ '>' :: rest) (.lit v (.type d)) rest

/-- Terms whose IRIs and tags have no characters that cannot be written. -/
def WTerm.Fine : WTerm → Prop
  | .iri i => ∀ c ∈ i, IriChar c
  | .lit _ (.lang t) => t ≠ [] ∧ ∀ c ∈ t, TagChar c
  | .lit _ (.type d) => ∀ c ∈ d, IriChar c

/-- An IRI up to its bracket. -/
def readIri : Str → Option (Str × Str)
  | [] => none
  | '>' :: s => some ([], s)
  | c :: s => (readIri s).map fun r => (c :: r.1, r.2)

mutual
/-- `PathAlternative`, with at most so many calls. -/
def readAlt : Nat → Str → Option (Path Str × Str)
  | 0, _ => none
  | n + 1, s => match readSeq n s with
    | some (p, '|' :: s) => (readAlt n s).map fun r => (.alt [p, r.1], r.2)
    | r => r
/-- `PathSequence`. -/
def readSeq : Nat → Str → Option (Path Str × Str)
  | 0, _ => none
  | n + 1, s => match readElt n s with
    | some (p, '/' :: s) => (readSeq n s).map fun r => (.seq [p, r.1], r.2)
    | r => r
/-- `PathEltOrInverse`. -/
def readElt : Nat → Str → Option (Path Str × Str)
  | 0, _ => none
  | n + 1, '^' :: s => (readMod n s).map fun r => (.inv r.1, r.2)
  | n + 1, s => readMod n s
/-- `PathElt`. -/
def readMod : Nat → Str → Option (Path Str × Str)
  | 0, _ => none
  | n + 1, s => match readPrim n s with
    | some (p, '*' :: s) => some (.star p, s)
    | some (p, '+' :: s) => some (.plus p, s)
    | some (p, '?' :: s) => some (.opt p, s)
    | r => r
/-- `PathPrimary`. -/
def readPrim : Nat → Str → Option (Path Str × Str)
  | 0, _ => none
  | _ + 1, '<' :: s => (readIri s).map fun r => (.pred r.1, r.2)
  | n + 1, '(' :: s => match readAlt n s with
    | some (p, ')' :: s) => some (p, s)
    | _ => none
  | _ + 1, _ => none
end

mutual
/-- Paths without empty lists, with IRIs that can be written. -/
def PathFine : Path Str → Prop
  | .pred p => ∀ c ∈ p, IriChar c
  | .alt l => l ≠ [] ∧ PathsFine l
  | .seq l => l ≠ [] ∧ PathsFine l
  | .inv q | .star q | .plus q | .opt q => PathFine q
/-- All of them. -/
def PathsFine : List (Path Str) → Prop
  | [] => True
  | q :: l => PathFine q ∧ PathsFine l
end

end Shacl

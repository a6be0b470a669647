import Verif.Mcp.Mapping
import Verif.Mcp.AskingSpec

/-!
# Specification: nodes and the shape maps that are meant
-/

namespace Mcp.Mapping

open Prefix (Str)
open Mcp.Asking (Lib)

/-- White space is neither at the begin nor at the end. -/
def Trimmed (L : Lib) (s : Str) : Prop := (∀ c, s.head? = some c → L.ws c = false) ∧ ∀ c, s.getLast? = some c → L.ws c = false

/-- White space only. -/
def Blank (L : Lib) (s : Str) : Prop := ∀ c ∈ s, L.ws c = true

/-- An absolute IRI with an authority, without its brackets: letters, a colon and two slashes, and a rest of characters that may stand in
IRIs. -/
def Absolute (L : Lib) (i : Str) : Prop :=
  ∃ scheme rest, i = scheme ++ "://".toList ++ rest ∧ scheme ≠ [] ∧ (∀ c ∈ scheme, c.isAlpha) ∧
    ∀ c ∈ rest, L.ws c = false ∧ c ∉ ['<', '>', '"', '{', '}', '|', '^', '`', '\\']

/-- How a term is written in a shape map: an IRI in brackets; any other text as it is. -/
inductive Term (L : Lib) : Str → Str → Prop where
  | bare {i} : Absolute L i → Term L i ('<' :: i ++ ['>'])
  | bracketed {i} : Absolute L i → Term L ('<' :: i ++ ['>']) ('<' :: i ++ ['>'])
  | other {t} : Trimmed L t → (¬∃ a b, t = a ++ "://".toList ++ b) → Term L t t

end Mcp.Mapping

import Verif.Mcp.State

/-!
# Specification: what a save of the state may leave
-/

namespace Mcp.State

/-- At a moment, a file has the text it had before, or the new one. -/
def OldOrNew (old : Option (List Char)) (new : List Char) (c : Option (List Char)) : Prop := c = old ∨ c = some new

/-- The whole of a text in pieces. -/
def whole (pieces : List (List Char)) : List Char := pieces.foldr (· ++ ·) []

end Mcp.State

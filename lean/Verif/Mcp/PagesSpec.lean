import Verif.Mcp.Pages

/-!
# Specification: numerals, and clients that follow cursors
-/

namespace Mcp.Pages

/-- A sequence of digits and its value. -/
inductive Decimal : List Char → Nat → Prop where
  | nil : Decimal [] 0
  | snoc {l n} (k : Nat) : k < 10 → Decimal l n → Decimal (l ++ [Char.ofNat (48 + k)]) (10 * n + k)

/-- A numeral: digits, perhaps after a plus sign. -/
def Numeral (l : List Char) (n : Nat) : Prop := ∃ d, (l = d ∨ l = '+' :: d) ∧ d ≠ [] ∧ Decimal d n

/-- The pages that a client gets who asks with a cursor, and then with each cursor it is given, until there is none. -/
inductive Follow {A : Type} (items : List A) : Option (List Char) → List (List A) → Prop where
  | last {c p} : list items (some c) = some (p, none) → Follow items c [p]
  | next {c p c' ps} : list items (some c) = some (p, some c') → Follow items (some c') ps → Follow items c (p :: ps)

/-- The lines of a text. -/
def lines : List Char → List (List Char)
  | [] => [[]]
  | c :: l =>
    if c = '\n' then [] :: lines l
    else
      match lines l with
      | [] => [[c]]
      | x :: xs => (c :: x) :: xs

/-- A line that ends a block of code that was begun with three backticks (CommonMark 0.31, 4.5). -/
def Closes (l : List Char) : Bool :=
  let s := l.dropWhile (· = ' ')
  let t := s.dropWhile (· = '`')
  decide (l.length - s.length ≤ 3) && decide (3 ≤ s.length - t.length) && t.all fun c => c = ' ' || c = '\t'

/-- What Markdown shows as the block of code that a text begins with: the lines up to the first that closes. -/
def shown (l : List Char) : List (List Char) := ((lines l).drop 1).takeWhile fun x => !Closes x

end Mcp.Pages

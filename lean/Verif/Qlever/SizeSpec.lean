import Verif.Qlever.Size

/-!
# Specification: sizes
-/

namespace Qlever.Size

/-- Units and how many bytes they are. -/
def units : List (String × Nat) :=
  [("", 1), ("k", 2 ^ 10), ("K", 2 ^ 10), ("Ki", 2 ^ 10), ("KiB", 2 ^ 10), ("KB", 10 ^ 3),
    ("m", 2 ^ 20), ("M", 2 ^ 20), ("Mi", 2 ^ 20), ("MiB", 2 ^ 20), ("MB", 10 ^ 6),
    ("g", 2 ^ 30), ("G", 2 ^ 30), ("Gi", 2 ^ 30), ("GiB", 2 ^ 30), ("GB", 10 ^ 9),
    ("t", 2 ^ 40), ("T", 2 ^ 40), ("Ti", 2 ^ 40), ("TiB", 2 ^ 40), ("TB", 10 ^ 12)]

/-- A product of a number and a unit that has an `f64`: it is up to 2⁵³, or one of a number up to 2⁵³ and a power of two. -/
def Exact (n mult : Nat) : Prop := n * mult ≤ 2 ^ 53 ∨ n ≤ 2 ^ 53 ∧ ∃ k, mult = 2 ^ k ∧ k ≤ 40

/-- What is assumed of the standard library: letters, digits and points are no blanks; numerals up to 2⁵³ are read as they are; texts
with other characters than those of numerals, `inf`, `infinity` and `nan` are no numbers; products are exact when they have an `f64`. -/
structure Lib.Std (L : Lib) : Prop where
  ws : ∀ c, c.isAlphanum = true ∨ c = '.' → L.ws c = false
  parse_nat : ∀ n, n ≤ 2 ^ 53 → L.parse (Nat.toDigits 10 n) = some (.fin n)
  parse_other : ∀ s, (∃ c ∈ s, c ∉ "0123456789.+-einfatyEINFATY".toList) → L.parse s = none
  mul_exact : ∀ n mult, Exact n mult → L.mul n mult = .fin ((n * mult : Nat) : Rat)

/-- Nothing but blanks. -/
def Blank (L : Lib) (s : Str) : Prop := ∀ c ∈ s, L.ws c = true

end Qlever.Size

import Verif.Lit.Model
import Mathlib.Data.Rat.Defs
import Mathlib.Algebra.Order.Field.Rat
import Mathlib.Algebra.Field.Rat
import Mathlib.Order.Bounds.Defs

/-!
# Specification: literals
-/

namespace Lit

/-- The number a decimal stands for. -/
def Dec.val (d : Dec) : ℚ := d.m / 10 ^ d.s

/-- The number a numeric literal is converted to, if it is converted. -/
def Num.val {D : Type} (X : Ext D) (a : Num) : Option ℚ := (a.toDec X).map Dec.val

/-- XSD: `totalDigits` is the least `k > 0` such that the number is `i / 10 ^ n` with `|i| < 10 ^ k`
and `n ≤ k`. -/
def IsTotalDigits (x : ℚ) (k : Nat) : Prop :=
  IsLeast {k : Nat | 0 < k ∧ ∃ (i : Int) (n : Nat), x = i / 10 ^ n ∧ i.natAbs < 10 ^ k ∧ n ≤ k} k

/-- XSD: `fractionDigits` is the least `n` such that the number is `i / 10 ^ n`. -/
def IsFractionDigits (x : ℚ) (n : Nat) : Prop :=
  IsLeast {n : Nat | ∃ i : Int, x = i / 10 ^ n} n

/-- The number written by decimal digits. -/
def value : Str → Nat
  | [] => 0
  | c :: cs => (c.toNat - 48) * 10 ^ cs.length + value cs

/-- XSD: an integer is written as an optional sign and digits. -/
def IntLex (s : Str) (minus : Bool) (n : Int) : Prop :=
  ∃ ds : Str, ds ≠ [] ∧ (∀ c ∈ ds, c.isDigit = true) ∧
    ((minus = false ∧ (s = ds ∨ s = '+' :: ds) ∧ n = value ds) ∨
      (minus = true ∧ s = '-' :: ds ∧ n = -(value ds : Int)))

/-- XSD: the values of the integer datatypes. -/
def XsdRange : IntKind → Int → Prop
  | .integer, _ => True
  | .long, n => -2 ^ 63 ≤ n ∧ n < 2 ^ 63
  | .short, n => -2 ^ 15 ≤ n ∧ n < 2 ^ 15
  | .byte, n => -2 ^ 7 ≤ n ∧ n < 2 ^ 7
  | .unsignedLong, n => 0 ≤ n ∧ n < 2 ^ 64
  | .unsignedInt, n => 0 ≤ n ∧ n < 2 ^ 32
  | .unsignedShort, n => 0 ≤ n ∧ n < 2 ^ 16
  | .unsignedByte, n => 0 ≤ n ∧ n < 2 ^ 8
  | .nonNegativeInteger, n => 0 ≤ n
  | .positiveInteger, n => 0 < n
  | .negativeInteger, n => n < 0
  | .nonPositiveInteger, n => n ≤ 0

/-- The values the code has room for. -/
def Fits : IntKind → Int → Prop
  | .nonNegativeInteger, n | .positiveInteger, n => n < 2 ^ 128
  | _, n => -2 ^ 127 ≤ n ∧ n < 2 ^ 127

/-- Datatypes read with a machine type without sign. -/
def Unsigned : IntKind → Prop
  | .unsignedLong | .unsignedInt | .unsignedShort | .unsignedByte | .positiveInteger => True
  | _ => False

/-- An RDF literal as RDF libraries give it: plain text has no datatype, and datatypes are IRIs. -/
def RdfLiteral.WF (r : RdfLiteral) : Prop :=
  (r.dt ≠ some .string ∧ r.dt ≠ some .langString ∧ ∀ p l, r.dt ≠ some (.prefixed p l)) ∧
    (r.lang ≠ none → r.dt = none)

end Lit

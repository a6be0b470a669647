import Verif.Gen.Fields

/-!
# Model: texts for patterns

`P` is `rudof_generate/src/field_generators/pattern.rs`.
-/

namespace Gen

/-- `contains`. -/
def has (sub p : Str) : Bool := p.tails.any fun t => sub.isPrefixOf t

/-- A number without its plus sign. -/
def noPlus : Str → Str
  | '+' :: ds => ds
  | ds => ds

/-- `parse::<usize>`. -/
def parseUsize (s : Str) : Option Nat :=
  let ds := noPlus s
  if ds ≠ [] ∧ ds.all Char.isDigit ∧ Nat.ofDigitChars 10 ds 0 < 2 ^ 64 then some (Nat.ofDigitChars 10 ds 0) else none

section
variable (rnd : Rnd)

/-- `gen_range` for numbers that are not negative. -/
def nat (place : List Nat) (lo hi : Nat) : Nat := (rnd.range place lo hi).toNat

/-- A character of a list. -/
def pick (place : List Nat) (l : Str) : Char := l.getD (nat rnd place 0 (l.length - 1)) ' '

/-- The digits. -/
def digitChars : Str := "0123456789".toList
/-- The capital letters. -/
def upperChars : Str := "ABCDEFGHIJKLMNOPQRSTUVWXYZ".toList
/-- The small letters. -/
def lowerChars : Str := "abcdefghijklmnopqrstuvwxyz".toList
/-- Letters and digits (P 194, 348). -/
def alnumChars : Str := lowerChars ++ upperChars ++ digitChars
/-- What a dot stands for (P 227). -/
def dotChars : Str := alnumChars ++ "!@#$%^&*()".toList

/-- A character for `{n}`, `+` and `*` (P 260-270). -/
def kin (place : List Nat) (last : Char) : Char :=
  if last.isDigit then pick rnd place digitChars
  else if last.isUpper then pick rnd place upperChars
  else if last.isLower then pick rnd place lowerChars
  else last

/-- The last character again, `k` times. -/
def again (place : List Nat) (acc : Str) (k : Nat) : Str :=
  match acc.getLast? with
  | none => []
  | some c => (List.range k).map fun j => kin rnd (j :: place) c

/-- What is pushed for an escape (P 188-207). -/
def escape (place : List Nat) (d : Char) : Char :=
  if d = 'd' then pick rnd place digitChars
  else if d = 'w' then pick rnd place alnumChars
  else if d = 's' then ' '
  else d

/-- `generate_from_char_class` (P 346-370). -/
def fromClass (place : List Nat) (cls : Str) : Option Char :=
  if has "a-z".toList cls ∧ has "A-Z".toList cls ∧ has "0-9".toList cls then some (pick rnd place alnumChars)
  else if has "a-z".toList cls then some (pick rnd place lowerChars)
  else if has "A-Z".toList cls then some (pick rnd place upperChars)
  else if has "0-9".toList cls then some (pick rnd place digitChars)
  else cls.head?

/-- The number of a quantifier (P 240-253); `none` is a panic. -/
def quantCount (place : List Nat) (q : Str) : Option Nat :=
  match parseUsize q with
  | some n => some n
  | none =>
    let a := q.takeWhile (· ≠ ',')
    let b := (q.dropWhile (· ≠ ',')).tail
    if ',' ∈ q ∧ ',' ∉ b then
      let min := (parseUsize a).getD 1
      if min + 2 < 2 ^ 64 then
        let max := (parseUsize b).getD (min + 2)
        if min ≤ max then some (nat rnd place min max) else none
      else none
    else some 1

/-- `generate_simple_pattern` (P 181-343) from a place in the pattern on; `none` is a panic. -/
def simple (place : List Nat) : Str → Str → Option Str
  | [], acc => some acc
  | c :: rest, acc =>
    if c = '\\' then match rest with
      | [] => some (acc ++ ['\\'])
      | d :: rest' => simple place rest' (acc ++ [escape rnd (rest'.length :: place) d])
    else if c = '[' then
      if ']' ∈ rest then
        simple place (rest.dropWhile (· ≠ ']')).tail
          (acc ++ (fromClass rnd (rest.length :: place) (rest.takeWhile (· ≠ ']'))).toList)
      else simple place rest (acc ++ ['['])
    else if c = '.' then simple place rest (acc ++ [pick rnd (rest.length :: place) dotChars])
    else if c = '{' then
      if '}' ∈ rest then
        match quantCount rnd (rest.length :: place) (rest.takeWhile (· ≠ '}')) with
        | none => none
        | some n => simple place (rest.dropWhile (· ≠ '}')).tail (acc ++ again rnd (rest.length :: place) acc (n - 1))
      else simple place rest (acc ++ ['{'])
    else if c = '+' ∨ c = '*' then
      simple place rest (acc ++ again rnd (rest.length :: place) acc (nat rnd (rest.length :: place) 0 2))
    else if c = '?' then simple place rest (if rnd.flip (rest.length :: place) then acc.dropLast else acc)
    else if c = '|' ∨ c = '^' ∨ c = '$' ∨ c = '(' ∨ c = ')' then simple place rest acc
    else simple place rest (acc ++ [c])
termination_by p => p.length
decreasing_by
  all_goals simp only [List.length_cons, List.length_tail]
  all_goals first
    | omega
    | exact Nat.lt_succ_of_le (Nat.le_trans (Nat.sub_le _ _) (List.dropWhile_suffix _).length_le)

/-- Numbers with leading zeros. -/
def padded (place : List Nat) (w lo hi : Nat) : Str := padNat w (nat rnd place lo hi)

/-- Numbers without them. -/
def plainNum (place : List Nat) (lo hi : Nat) : Str := digits (nat rnd place lo hi)

/-- Characters of a list. -/
def picks (place : List Nat) (l : Str) (k : Nat) : Str := (List.range k).map fun j => pick rnd (j :: place) l

/-- One of some texts. -/
def oneOf (place : List Nat) (l : List Str) : Str := l.getD (nat rnd place 0 (l.length - 1)) []

/-- `{:06X}`. -/
def hex6 (n : Nat) : Str :=
  let ds := (Nat.toDigits 16 n).map Char.toUpper
  List.replicate (6 - ds.length) '0' ++ ds

/-- The patterns that are looked for (P 38-163), in their order; the third in the code cannot be reached. -/
def special (place : List Nat) (p : Str) : Option Str :=
  if has "\\+1-\\d{3}-\\d{3}-\\d{4}".toList p ∨ has "\\+1\\-\\d{3}\\-\\d{3}\\-\\d{4}".toList p then
    some ('+' :: '1' :: '-' :: padded rnd (0 :: place) 3 100 998 ++ '-' :: padded rnd (1 :: place) 3 100 998 ++
      '-' :: padded rnd (2 :: place) 4 1000 9998)
  else if has "\\d{3}-\\d{3}-\\d{4}".toList p ∨ has "\\d{3}\\-\\d{3}\\-\\d{4}".toList p then
    some (padded rnd (0 :: place) 3 100 998 ++ '-' :: padded rnd (1 :: place) 3 100 998 ++
      '-' :: padded rnd (2 :: place) 4 1000 9998)
  else if has "@".toList p then
    some (oneOf rnd (0 :: place) (["user", "admin", "test", "demo", "john.doe", "jane.smith"].map String.toList) ++
      plainNum rnd (1 :: place) 1 99 ++
      '@' :: oneOf rnd (2 :: place) (["example.com", "test.org", "sample.edu", "demo.net"].map String.toList))
  else if has "[A-Z]{2,3}\\d{4,6}".toList p then
    some (picks rnd (0 :: place) upperChars (nat rnd (1 :: place) 2 3) ++
      picks rnd (2 :: place) digitChars (nat rnd (3 :: place) 4 6))
  else if has "\\d{4}-\\d{2}-\\d{2}".toList p then
    some (padded rnd (0 :: place) 4 1980 2024 ++ '-' :: padded rnd (1 :: place) 2 1 12 ++
      '-' :: padded rnd (2 :: place) 2 1 28)
  else if has "\\d{1,3}\\.\\d{1,3}\\.\\d{1,3}\\.\\d{1,3}".toList p then
    some (plainNum rnd (0 :: place) 1 254 ++ '.' :: plainNum rnd (1 :: place) 0 254 ++ '.' ::
      plainNum rnd (2 :: place) 0 254 ++ '.' :: plainNum rnd (3 :: place) 1 254)
  else if has "https?://".toList p then
    some (oneOf rnd (0 :: place) (["http", "https"].map String.toList) ++ "://".toList ++
      oneOf rnd (1 :: place) (["example.com", "test.org", "sample.net"].map String.toList) ++
      oneOf rnd (2 :: place) (["", "/page", "/api/v1", "/data", "/users"].map String.toList))
  else if has "#[0-9A-Fa-f]{6}".toList p ∨ has "#[0-9A-F]{6}".toList p then
    some ('#' :: hex6 (nat rnd (0 :: place) 0 0xFFFFFF))
  else if has "[A-Z]{3}\\d{3}".toList p then
    some (picks rnd (0 :: place) upperChars 3 ++ picks rnd (1 :: place) digitChars 3)
  else if has "\\d{3}-\\d{2}-\\d{4}".toList p then
    some (padded rnd (0 :: place) 3 100 998 ++ '-' :: padded rnd (1 :: place) 2 10 98 ++
      '-' :: padded rnd (2 :: place) 4 1000 9998)
  else none

/-- The rest of `generate_from_pattern` without anchors (P 171-177). -/
def generic (place : List Nat) (p : Str) : Option Str :=
  (simple rnd place p []).map fun s =>
    if s = [] then "PATTERN_MATCH_".toList ++ plainNum rnd place 1000 9998 else s

/-- `generate_from_pattern` (P 32-178); `none` is a panic. -/
def fromPattern (place : List Nat) (p : Str) : Option Str :=
  match special rnd place p with
  | some s => some s
  | none =>
    if p.head? = some '^' ∧ p.getLast? = some '$' then fromPattern place p.tail.dropLast
    else generic rnd place p
termination_by p.length
decreasing_by
  rename_i h
  cases p with
  | nil => simp at h
  | cons c p => simp; omega

end

end Gen

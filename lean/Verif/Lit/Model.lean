import Mathlib.Data.Nat.Digits.Defs

/-!
# Model: literals

Sources: `rudof_rdf/src/rdf_core/term/literal/numeric_literal.rs` (N),
`rudof_rdf/src/rdf_core/term/literal/literal.rs` (L), `rbe/src/max.rs`, `rbe/src/min.rs`.

Floats are their bits. What belongs to other crates (parsing and printing of floats, decimals and
date-times, conversion of floats to decimals) is a parameter, `Ext`.
-/

namespace Lit

/-- Texts. -/
abbrev Str := List Char

/-! ## Decimals -/

/-- `rust_decimal::Decimal`: `m / 10 ^ s`. The limits on `m` and `s` and the sign of zero are
dropped. -/
structure Dec where
  m : Int
  s : Nat
  deriving DecidableEq, Repr

/-- `Decimal` equality, which is by value (contract of the crate). -/
def Dec.eq (a b : Dec) : Bool := decide (a.m * 10 ^ b.s = b.m * 10 ^ a.s)

/-- `Decimal` order, which is by value (contract of the crate). -/
def Dec.lt (a b : Dec) : Bool := decide (a.m * 10 ^ b.s < b.m * 10 ^ a.s)

/-- `Decimal::normalize`: strips trailing zeros of the fraction; zero has scale zero. -/
def Dec.normGo (m : Int) : Nat → Dec
  | 0 => ⟨m, 0⟩
  | s + 1 => if m % 10 = 0 then Dec.normGo (m / 10) s else ⟨m, s + 1⟩

/-- `Decimal::normalize`. -/
def Dec.normalize (d : Dec) : Dec := if d.m = 0 then ⟨0, 0⟩ else Dec.normGo d.m d.s

/-- Decimal digits of a natural number, as printed by `Display`. -/
def natDigits (n : Nat) : List Nat := if n = 0 then [0] else (Nat.digits 10 n).reverse

/-- `n.to_string()` for an unsigned integer. -/
def natText (n : Nat) : Str := (natDigits n).map Nat.digitChar

/-- `n.to_string()` for a signed integer. -/
def intText (n : Int) : Str := if n < 0 then '-' :: natText n.natAbs else natText n.natAbs

/-- `d.to_string()`: digits padded to the scale, with a point before the last `s`. -/
def Dec.text (d : Dec) : Str :=
  let ds := natText d.m.natAbs
  let padded := List.replicate (d.s + 1 - ds.length) '0' ++ ds
  let whole := padded.take (padded.length - d.s)
  let frac := padded.drop (padded.length - d.s)
  (if d.m < 0 then ['-'] else []) ++ whole ++ (if d.s = 0 then [] else '.' :: frac)

/-! ## Numeric literals -/

/-- The integer variants of `NumericLiteral` (N 19-35). -/
inductive IntKind
  | integer | byte | short | nonNegativeInteger | unsignedLong | unsignedInt | unsignedShort
  | unsignedByte | positiveInteger | negativeInteger | nonPositiveInteger | long
  deriving DecidableEq, Repr

/-- `NumericLiteral` (N 19-35). Floats are their bits. -/
inductive Num
  | int (k : IntKind) (n : Int)
  | decimal (d : Dec)
  | double (bits : Nat)
  | float (bits : Nat)
  deriving DecidableEq, Repr

/-- Functions of other crates. `D` is `oxsdatatypes::DateTime`. -/
structure Ext (D : Type) where
  /-- `Decimal::from_f64` -/
  decOfF64 : Nat → Option Dec
  /-- `Decimal::from_f32` -/
  decOfF32 : Nat → Option Dec
  /-- `f64::to_string` -/
  showF64 : Nat → Str
  /-- `f32::to_string` -/
  showF32 : Nat → Str
  /-- `str::parse::<f64>` -/
  parseF64 : Str → Option Nat
  /-- `str::parse::<f32>` -/
  parseF32 : Str → Option Nat
  /-- `str::parse::<Decimal>` -/
  parseDec : Str → Option Dec
  /-- `DateTime::from_str` -/
  parseDT : Str → Option D
  /-- `DateTime` equality -/
  eqDT : D → D → Bool
  /-- `DateTime` comparison -/
  cmpDT : D → D → Option Ordering
  /-- `DateTime::to_string` -/
  showDT : D → Str

/-- `Decimal::from_i128` and the like: integers of less than 96 bits. -/
def decOfInt (n : Int) : Option Dec := if n.natAbs < 2 ^ 96 then some ⟨n, 0⟩ else none

section
variable {D : Type} (X : Ext D)

/-- `NumericLiteral::to_decimal` (N 216-234). -/
def Num.toDec : Num → Option Dec
  | .int _ n => decOfInt n
  | .decimal d => some d
  | .double b => X.decOfF64 b
  | .float b => X.decOfF32 b

/-- The fall-back of `PartialEq for NumericLiteral` (N 384-408): same variant and same value. -/
def Num.same : Num → Num → Bool
  | .double a, .double b => a == b
  | .float a, .float b => a == b
  | .int k a, .int k' b => k == k' && a == b
  | .decimal a, .decimal b => a.eq b
  | _, _ => false

/-- `PartialEq for NumericLiteral` (N 376-409). -/
def Num.eq (a b : Num) : Bool :=
  match a.toDec X, b.toDec X with
  | some d1, some d2 => d1.eq d2
  | _, _ => a.same b

/-- What a numeric literal feeds to the hasher: one value per call of `hash`. `Hash for Decimal`
hashes the normalised parts, so a decimal is fed normalised. -/
inductive Fed
  | dec (d : Dec)
  | bits64 (b : Nat)
  | bits32 (b : Nat)
  | variant (k : IntKind)
  | int (n : Int)
  deriving DecidableEq, Repr

/-- `Hash for NumericLiteral` (N 412-453). -/
def Num.fed (a : Num) : List Fed :=
  match a.toDec X with
  | some d => [.dec d.normalize.normalize]
  | none =>
    match a with
    | .double b => [.bits64 b]
    | .float b => [.bits32 b]
    | .int k n => [.variant k, .int n]
    | .decimal d => [.dec d.normalize]

/-- `<` on `Option<Decimal>`: `None` is below every value. -/
def optLt : Option Dec → Option Dec → Bool
  | none, some _ => true
  | some a, some b => a.lt b
  | _, none => false

/-- `<=` on `Option<Decimal>`. -/
def optLe : Option Dec → Option Dec → Bool
  | none, _ => true
  | some a, some b => !b.lt a
  | some _, none => false

/-- `NumericLiteral::less_than` (N 250-257). -/
def Num.lessThan : Num → Num → Bool
  | .int .integer a, .int .integer b => decide (a < b)
  | a, b => optLt (a.toDec X) (b.toDec X)

/-- `NumericLiteral::less_than_or_eq` (N 260-265). -/
def Num.lessThanOrEq : Num → Num → Bool
  | .int .integer a, .int .integer b => decide (a ≤ b)
  | a, b => optLe (a.toDec X) (b.toDec X)

/-- `Decimal::cmp`. -/
def Dec.cmp (a b : Dec) : Ordering := if a.lt b then .lt else if a.eq b then .eq else .gt

/-- `PartialOrd for NumericLiteral` (N 639-647). -/
def Num.partialCmp (a b : Num) : Option Ordering := do
  let d1 ← a.toDec X
  let d2 ← b.toDec X
  some (d1.cmp d2)

/-- `NumericLiteral::total_digits` (N 271-332). The cases for the least machine integers, whose
absolute value overflows, give the same number. -/
def Num.totalDigits : Num → Option Nat
  | .int _ n => some (natText n.natAbs).length
  | .decimal d => some (d.normalize.text.filter Char.isDigit).length
  | .double _ | .float _ => none

/-- `NumericLiteral::fraction_digits` (N 338-361). -/
def Num.fractionDigits : Num → Option Nat
  | .int _ _ => some 0
  | .decimal d =>
    let s := d.normalize.text
    some (match s.findIdx? (· == '.') with
      | some pos => s.length - pos - 1
      | none => 0)
  | .double _ | .float _ => none

/-- `Display for NumericLiteral` (N 616-636), `lexical_form` (N 242-244). -/
def Num.text : Num → Str
  | .int _ n => intText n
  | .decimal d => d.text
  | .double b => X.showF64 b
  | .float b => X.showF32 b

end

/-! ## Reading integers -/

/-- The value of a text of digits, `none` if something is not a digit. -/
def digitsVal (s : Str) : Option Nat :=
  if s.all Char.isDigit then some (s.foldl (fun a c => 10 * a + (c.toNat - 48)) 0) else none

/-- The value when it is within the machine type. -/
def ranged (lo hi n : Int) : Option Int := if lo ≤ n ∧ n ≤ hi then some n else none

/-- `str::parse` for a machine integer: a sign and digits; a minus only for signed types. -/
def rustParse (signed : Bool) (lo hi : Int) : Str → Option Int
  | [] => none
  | c :: cs =>
    if (c = '+' ∨ c = '-') ∧ cs = [] then none
    else if c = '+' then (digitsVal cs).bind fun n => ranged lo hi n
    else if c = '-' ∧ signed = true then (digitsVal cs).bind fun n => ranged lo hi (-(n : Int))
    else (digitsVal (c :: cs)).bind fun n => ranged lo hi n

/-- `parse::<i128>()` -/
def parseI128 : Str → Option Int := rustParse true (-2 ^ 127) (2 ^ 127 - 1)
/-- `parse::<u128>()` -/
def parseU128 : Str → Option Int := rustParse false 0 (2 ^ 128 - 1)

/-- `s.strip_prefix(c)` for a character. -/
def stripChar (c : Char) : Str → Option Str
  | [] => none
  | d :: ds => if d = c then some ds else none

/-- `ConcreteLiteral::parse_non_negative_integer` (L 769-783). -/
def parseNonNegative (s : Str) : Option Int :=
  let normalized := (stripChar '+' s).getD s
  match stripChar '-' normalized with
  | some rest => (parseU128 rest).bind fun v => if v = 0 then some 0 else none
  | none => parseU128 normalized

/-- The parser of each integer datatype (L 698-897), together with the check its constructor makes
(N 88-126). -/
def parseInt : IntKind → Str → Option Int
  | .integer, s => parseI128 s
  | .long, s => rustParse true (-2 ^ 63) (2 ^ 63 - 1) s
  | .short, s => rustParse true (-2 ^ 15) (2 ^ 15 - 1) s
  | .byte, s => rustParse true (-2 ^ 7) (2 ^ 7 - 1) s
  | .unsignedLong, s => rustParse false 0 (2 ^ 64 - 1) s
  | .unsignedInt, s => rustParse false 0 (2 ^ 32 - 1) s
  | .unsignedShort, s => rustParse false 0 (2 ^ 16 - 1) s
  | .unsignedByte, s => rustParse false 0 (2 ^ 8 - 1) s
  | .nonNegativeInteger, s => parseNonNegative s
  | .negativeInteger, s => (parseI128 s).bind fun v => if v < 0 then some v else none
  | .nonPositiveInteger, s => (parseI128 s).bind fun v => if v ≤ 0 then some v else none
  | .positiveInteger, s => (parseU128 s).bind fun v => if v > 0 then some v else none

/-- `ConcreteLiteral::parse_bool` (L 674-680). -/
def parseBool (s : Str) : Option Bool :=
  if s = ['t', 'r', 'u', 'e'] ∨ s = ['1'] then some true
  else if s = ['f', 'a', 'l', 's', 'e'] ∨ s = ['0'] then some false
  else none

/-! ## Literals -/

/-- Datatype IRIs: those the code knows by name, any other IRI, and an unresolved prefixed name. -/
inductive Dt
  | int (k : IntKind)
  | decimal | double | float | boolean | dateTime | string | langString
  | other (iri : Str)
  | prefixed (pfx loc : Str)
  deriving DecidableEq, Repr

/-- `ConcreteLiteral` (L 160-187). -/
inductive Literal (D : Type)
  | str (lex : Str) (lang : Option Str)
  | typed (lex : Str) (dt : Dt)
  | num (n : Num)
  | datetime (d : D)
  | bool (b : Bool)
  | wrong (lex : Str) (dt : Dt) (error : Str)

section
variable {D : Type} (X : Ext D)

/-- `ConcreteLiteral::match_literal` (L 373-408). -/
def Literal.matchLit : Literal D → Literal D → Bool
  | .str l g, .str l' g' => decide (l = l' ∧ g = g')
  | .typed l d, .typed l' d' => decide (l = l' ∧ d = d')
  | .num n, .num n' => n.eq X n'
  | .datetime d, .datetime d' => X.eqDT d d'
  | .bool b, .bool b' => b == b'
  | .wrong l d _, .wrong l' d' _ => decide (l = l' ∧ d = d')
  | _, _ => false

/-- The derived `PartialEq for ConcreteLiteral` (L 158). -/
def Literal.eq : Literal D → Literal D → Bool
  | .str l g, .str l' g' => decide (l = l' ∧ g = g')
  | .typed l d, .typed l' d' => decide (l = l' ∧ d = d')
  | .num n, .num n' => n.eq X n'
  | .datetime d, .datetime d' => X.eqDT d d'
  | .bool b, .bool b' => b == b'
  | .wrong l d e, .wrong l' d' e' => decide (l = l' ∧ d = d' ∧ e = e')
  | _, _ => false

/-- `ConcreteLiteral::lang` (L 595-600). -/
def Literal.lang : Literal D → Option Str
  | .str _ g => g
  | _ => none

/-- `ConcreteLiteral::lexical_form` (L 611-620). -/
def Literal.lexicalForm : Literal D → Str
  | .str l _ | .typed l _ | .wrong l _ _ => l
  | .num n => n.text X
  | .bool true => ['t', 'r', 'u', 'e']
  | .bool false => ['f', 'a', 'l', 's', 'e']
  | .datetime d => X.showDT d

/-- `NumericLiteral::datatype` (N 59-77). -/
def Num.datatype : Num → Dt
  | .int k _ => .int k
  | .decimal _ => .decimal
  | .double _ => .double
  | .float _ => .float

/-- `ConcreteLiteral::datatype` (L 631-644). -/
def Literal.datatype : Literal D → Dt
  | .typed _ d | .wrong _ d _ => d
  | .str _ none => .string
  | .str _ (some _) => .langString
  | .num n => n.datatype
  | .bool _ => .boolean
  | .datetime _ => .dateTime

/-- `validate` and `validate_with_result` (L 1295-1340). The text of the error is left out. -/
def validate {T : Type} (lex : Str) (dt : Dt) (parsed : Option T) (mk : T → Literal D) : Literal D :=
  match parsed with
  | some v => mk v
  | none => .wrong lex dt []

/-- `s.eq_ignore_ascii_case(...)` against `+INF` and `+infinity`. -/
def plusInf (s : Str) : Bool :=
  let l := s.map Char.toLower
  l == ['+', 'i', 'n', 'f'] || l == ['+', 'i', 'n', 'f', 'i', 'n', 'i', 't', 'y']

/-- `check_literal_datatype` (L 1169-1284), with the parsers of L 674-902. `none` is the error for an
unresolved prefixed name. -/
def checkDatatype (lex : Str) : Dt → Option (Literal D)
  | .prefixed _ _ => none
  | .int k => some (validate lex (.int k) (parseInt k lex) fun n => .num (.int k n))
  | .double => some (validate lex .double (if plusInf lex then none else X.parseF64 lex) fun b => .num (.double b))
  | .float => some (validate lex .float (if plusInf lex then none else X.parseF32 lex) fun b => .num (.float b))
  | .boolean => some (validate lex .boolean (parseBool lex) fun b => .bool b)
  | .decimal => some (validate lex .decimal
      (if lex.contains 'e' || lex.contains 'E' then none else X.parseDec lex) fun d => .num (.decimal d))
  | .dateTime => some (validate lex .dateTime (X.parseDT lex) fun d => .datetime d)
  | dt => some (.typed lex dt)

/-- `ConcreteLiteral::into_checked_literal` (L 327-333). -/
def Literal.intoChecked : Literal D → Option (Literal D)
  | .typed l d => checkDatatype X l d
  | l => some l

/-- Order of texts: by bytes of UTF-8, which is by code points. -/
def cmpStr : Str → Str → Ordering
  | [], [] => .eq
  | [], _ :: _ => .lt
  | _ :: _, [] => .gt
  | a :: as, b :: bs => if a.toNat < b.toNat then .lt else if b.toNat < a.toNat then .gt else cmpStr as bs

/-- `b1.cmp(b2)` for booleans. -/
def cmpBool : Bool → Bool → Ordering
  | false, true => .lt
  | true, false => .gt
  | _, _ => .eq

/-- `PartialOrd for ConcreteLiteral` (L 936-972). -/
def Literal.partialCmp : Literal D → Literal D → Option Ordering
  | .datetime a, .datetime b => X.cmpDT a b
  | .str a _, .str b _ => some (cmpStr a b)
  | .typed l1 d1, .typed l2 d2 =>
    match checkDatatype X l1 d1, checkDatatype X l2 d2 with
    | some (.num n1), some (.num n2) => n1.partialCmp X n2
    | _, _ => if d1 = d2 then some (cmpStr l1 l2) else none
  | .num a, .num b => a.partialCmp X b
  | .bool a, .bool b => some (cmpBool a b)
  | _, _ => none

/-- An `oxrdf::Literal` taken apart: text, datatype other than `xsd:string`, language. -/
structure RdfLiteral where
  lex : Str
  dt : Option Dt
  lang : Option Str
  deriving DecidableEq

/-- `TryFrom<oxrdf::Literal> for ConcreteLiteral` (L 1034-1100). `normLang` is `Lang::new`. -/
def Literal.ofRdf (normLang : Str → Option Str) (r : RdfLiteral) : Option (Literal D) :=
  match r.dt, r.lang with
  | none, none => some (.str r.lex none)
  | none, some g => (normLang g).map fun g => .str r.lex (some g)
  | some dt, none =>
    if dt = .int .integer ∨ dt = .decimal ∨ dt = .double ∨ dt = .float then
      match checkDatatype X r.lex dt with
      | some (.wrong _ _ e) => some (.wrong r.lex dt e)
      | _ => some (.typed r.lex dt)
    else checkDatatype X r.lex dt
  | some _, some _ => none

/-- `From<ConcreteLiteral> for oxrdf::Literal` (L 1102-1129, N 680-715). Doubles, floats and
date-times are printed by the parameters. A typed literal with an unresolved datatype becomes plain
text. -/
def Literal.toRdf : Literal D → RdfLiteral
  | .str l g => ⟨l, none, g⟩
  | .typed l d | .wrong l d _ =>
    match d with
    | .prefixed _ _ => ⟨l, none, none⟩
    | .string => ⟨l, none, none⟩
    | d => ⟨l, some d, none⟩
  | .num n => ⟨n.text X, some n.datatype, none⟩
  | .bool true => ⟨['t', 'r', 'u', 'e'], some .boolean, none⟩
  | .bool false => ⟨['f', 'a', 'l', 's', 'e'], some .boolean, none⟩
  | .datetime d => ⟨X.showDT d, some .dateTime, none⟩

end

/-! ## Cardinality bounds -/

/-- `Max` of `rbe/src/max.rs` 10-13. -/
inductive Max
  | unbounded
  | intMax (n : Nat)
  deriving DecidableEq, Repr

/-- The result of a call that may return an error or panic. -/
inductive Outcome (A : Type)
  | ok (a : A)
  | err
  | panic
  deriving DecidableEq, Repr

/-- `n as i64` for a 64-bit `usize`. -/
def asI64 (n : Nat) : Int := if n < 2 ^ 63 then (n : Int) else (n : Int) - 2 ^ 64

/-- `v as usize` for an `i64`. -/
def asUsize (v : Int) : Nat := (v % 2 ^ 64).toNat

/-- `Serialize for Max` (max.rs 143-154): the `i64` written. -/
def Max.written : Max → Int
  | .unbounded => -1
  | .intMax n => asI64 n

/-- `From<i64> for Max` (max.rs 112-120). -/
def Max.ofI64 (m : Int) : Outcome Max :=
  if m = -1 then .ok .unbounded else if m > 0 then .ok (.intMax m.toNat) else .panic

/-- `MaxVisitor::visit_i64` (max.rs 165-177). -/
def Max.visitI64 (v : Int) : Outcome Max :=
  if v < -1 then .err else if v = -1 then .ok .unbounded else Max.ofI64 v

/-- `MaxVisitor::visit_u64` (max.rs 179-184). -/
def Max.visitU64 (v : Nat) : Outcome Max := .ok (.intMax v)

/-- How a format hands an integer to the visitor: text formats give non-negative numbers as unsigned,
binary formats give what was asked for. -/
inductive Format
  | text
  | binary
  deriving DecidableEq, Repr

/-- `Deserialize for Max` (max.rs 187-194): a format is asked for an `i64`. -/
def Max.read (f : Format) (v : Int) : Outcome Max :=
  match f with
  | .text => if 0 ≤ v then Max.visitU64 v.toNat else Max.visitI64 v
  | .binary => Max.visitI64 v

/-- `Serialize for Min` (min.rs 52-60): the `u64` written. -/
def minWritten (n : Nat) : Nat := n

/-- `MinVisitor::visit_i64` (min.rs 94-103). -/
def minVisitI64 (v : Int) : Outcome Nat := if v < -1 then .err else .ok (asUsize v)

/-- `Deserialize for Min` (min.rs 113-120): both kinds of format give an unsigned number for one that
is not negative; a text format can also hold a negative one. -/
def minRead (v : Int) : Outcome Nat := if 0 ≤ v then .ok v.toNat else minVisitI64 v

end Lit

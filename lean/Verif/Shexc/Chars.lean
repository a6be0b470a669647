import Verif.Shexc.Ast

/-!
# Model: combinators and terminals of the compact syntax

The reader is written with nom combinators (nom 8.0.0, nom_locate 5.0.0) over located strings. Here the input is the
list of the characters that are left; positions and the payload of errors (`map_error`, grammar.rs:22-41) are left out.
-/

namespace Shexc

/-- What a parser gives: a value and the input that is left; a recoverable error (`Err::Error`); an error that no
alternative recovers from (`Err::Failure`); a panic of the program; or the end of the fuel of the model. -/
inductive Res (α : Type) where
  | ok (a : α) (rest : Str)
  | err
  | fail
  | panic
  | deep

/-- A parser: `IRes` (shex_ast/src/compact/mod.rs:55). -/
abbrev P (α : Type) := Str → Res α

namespace P

variable {α β : Type}

/-- A parser that reads nothing. -/
def pure (a : α) : P α := fun i => .ok a i

/-- One parser after the other: the tuples of nom and the `?` of the code. -/
def bind (p : P α) (f : α → P β) : P β := fun i =>
  match p i with
  | .ok a r => f a r
  | .err => .err
  | .fail => .fail
  | .panic => .panic
  | .deep => .deep

instance : Monad P where
  pure := P.pure
  bind := P.bind

/-- The program panics. -/
def crash : P α := fun _ => .panic

/-- The program panics where a value is missing (`unwrap`, `panic!`). -/
def orCrash : Option α → P α
  | some a => pure a
  | none => crash

/-- A recoverable error. -/
def error : P α := fun _ => .err

/-- `alt`: the second parser only after a recoverable error of the first. -/
def alt (p q : P α) : P α := fun i =>
  match p i with
  | .err => q i
  | r => r

/-- `opt`. -/
def opt (p : P α) : P (Option α) := fun i =>
  match p i with
  | .ok a r => .ok (some a) r
  | .err => .ok none i
  | .fail => .fail
  | .panic => .panic
  | .deep => .deep

/-- `cut`: an error becomes final. -/
def cut (p : P α) : P α := fun i =>
  match p i with
  | .err => .fail
  | r => r

/-- `many0` with fuel: it ends at the first recoverable error, and an element that reads nothing is an error. -/
def many0Go (p : P α) : Nat → P (List α)
  | 0 => fun i =>
    match p i with
    | .ok _ r => if r.length = i.length then .err else .deep
    | .err => .ok [] i
    | .fail => .fail
    | .panic => .panic
    | .deep => .deep
  | n + 1 => fun i =>
    match p i with
    | .ok a r =>
      if r.length = i.length then .err
      else
        match many0Go p n r with
        | .ok as r' => .ok (a :: as) r'
        | .err => .err
        | .fail => .fail
        | .panic => .panic
        | .deep => .deep
    | .err => .ok [] i
    | .fail => .fail
    | .panic => .panic
    | .deep => .deep

/-- `many0` (also `fold_many0`): every element reads at least one character, so the length of the input is enough
fuel. -/
def many0 (p : P α) : P (List α) := fun i => many0Go p i.length i

/-- `many1`. -/
def many1 (p : P α) : P (List α) := do
  let a ← p
  let as ← many0 p
  return a :: as

/-- `count`. -/
def count (p : P α) : Nat → P (List α)
  | 0 => pure []
  | n + 1 => do
    let a ← p
    let as ← count p n
    return a :: as

/-- `recognize`: the characters that were read. -/
def recognize (p : P α) : P Str := fun i =>
  match p i with
  | .ok _ r => .ok (i.take (i.length - r.length)) r
  | .err => .err
  | .fail => .fail
  | .panic => .panic
  | .deep => .deep

/-- `satisfy`. -/
def satisfy (f : Char → Bool) : P Char
  | c :: r => if f c then .ok c r else .err
  | [] => .err

/-- `char`. -/
def char (c : Char) : P Char := satisfy fun d => d == c

/-- `one_of`. -/
def oneOf (s : Str) : P Char := satisfy fun c => s.contains c

/-- `none_of`. -/
def noneOf (s : Str) : P Char := satisfy fun c => !s.contains c

/-- `tag`, `token` (grammar.rs:102-104). -/
def tag : Str → P Unit
  | [], i => .ok () i
  | _ :: _, [] => .err
  | c :: s, d :: i => if c = d then tag s i else .err

/-- `tag_no_case`: characters are compared in lower case. The keywords are letters of ASCII, none of them `k`, so that
only letters of ASCII have them as lower case. -/
def tagNoCase : Str → P Unit
  | [], i => .ok () i
  | _ :: _, [] => .err
  | c :: s, d :: i => if c.toLower = d.toLower then tagNoCase s i else .err

/-- `take_while` (also `digit0`). -/
def takeWhile (f : Char → Bool) : P Str := fun i => .ok (i.takeWhile f) (i.dropWhile f)

/-- `take_while1` (also `digit1`, `alpha1`, `alphanumeric1`, `multispace1`, `is_not`). -/
def takeWhile1 (f : Char → Bool) : P Str := fun i =>
  if (i.takeWhile f).isEmpty then .err else .ok (i.takeWhile f) (i.dropWhile f)

/-- `one_if` (shex_grammar.rs:2158-2171): the character is taken as one byte, `take_split(1)`, which panics inside a
character of several bytes. -/
def oneIf (f : Char → Bool) : P Char
  | c :: r => if f c then (if c.utf8Size = 1 then .ok c r else .panic) else .err
  | [] => .err

end P

open P

/-! ## White space and comments -/

/-- The characters of `multispace1`. -/
def isSpace (c : Char) : Bool := c == ' ' || c == '\t' || c == '\r' || c == '\n'

/-- The end of a comment of several lines: `take_until("*/")` and `tag("*/")`. -/
def afterClose : Str → Option Str
  | '*' :: '/' :: r => some r
  | _ :: r => afterClose r
  | [] => none

/-- `multi_comment` (grammar.rs:81-85). -/
def multiComment : P Unit := do
  tag ['/', '*']
  fun i => match afterClose i with
    | some r => .ok () r
    | none => .err

/-- `comment` (grammar.rs:70-79). -/
def comment : P Unit :=
  alt (do tag ['#']; let _ ← takeWhile1 fun c => c != '\n' && c != '\r')
    (alt (tag ['#']) multiComment)

/-- `tws0` (grammar.rs:89-91). -/
def tws0 : P Unit := do
  let _ ← many0 (alt (do let _ ← takeWhile1 isSpace) comment)

/-- `token_tws` (grammar.rs:108-112). -/
def tokenTws (s : Str) : P Unit := do tws0; tag s; tws0

/-- `token_tws_no_case`, `tag_no_case_tws` (grammar.rs:116-128) and `symbol` (shex_grammar.rs:2173-2178). -/
def tokenTwsNoCase (s : Str) : P Unit := do tws0; tagNoCase s; tws0

/-! ## Characters of names -/

/-- `is_alpha` (shex_grammar.rs:2145-2147). -/
def isAlpha (c : Char) : Bool := ('a' ≤ c && c ≤ 'z') || ('A' ≤ c && c ≤ 'Z')

/-- `is_digit` (shex_grammar.rs:2149-2151). -/
def isDigit (c : Char) : Bool := '0' ≤ c && c ≤ '9'

/-- `in_range` (shex_grammar.rs:2153-2155). -/
def inRange (c : Char) (lo hi : Nat) : Bool := lo ≤ c.toNat && c.toNat ≤ hi

/-- `is_pn_chars_base` (shex_grammar.rs:2113-2127). -/
def isPnCharsBase (c : Char) : Bool :=
  isAlpha c || inRange c 0xC0 0xD6 || inRange c 0xD8 0xF6 || inRange c 0xF8 0x2FF || inRange c 0x370 0x37D ||
    inRange c 0x37F 0x1FFF || inRange c 0x200C 0x200D || inRange c 0x2070 0x218F || inRange c 0x2C00 0x2FEF ||
    inRange c 0x3001 0xD7FF || inRange c 0xF900 0xFDCF || inRange c 0xFDF0 0xFFFD || inRange c 0x10000 0xEFFFF

/-- `is_pn_chars_u` (shex_grammar.rs:2130-2132). -/
def isPnCharsU (c : Char) : Bool := c == '_' || isPnCharsBase c

/-- `is_pn_chars` (shex_grammar.rs:2136-2143). -/
def isPnChars (c : Char) : Bool :=
  isPnCharsU c || c == '-' || isDigit c || c.toNat == 0xB7 || inRange c 0x300 0x36F || inRange c 0x203F 0x2040

/-- `is_hex` (shex_grammar.rs:1943-1945) and the digits of `hex` (1381-1383). -/
def isHex (c : Char) : Bool := isDigit c || ('a' ≤ c && c ≤ 'f') || ('A' ≤ c && c ≤ 'F')

/-! ## Escapes -/

/-- The value of a hexadecimal digit (`from_str_radix`). -/
def hexDigit (c : Char) : Nat :=
  if isDigit c then c.toNat - '0'.toNat
  else if 'a' ≤ c && c ≤ 'f' then c.toNat - 'a'.toNat + 10
  else c.toNat - 'A'.toNat + 10

/-- The number written by hexadecimal digits. -/
def hexVal (ds : List Char) : Nat := ds.foldl (fun n c => n * 16 + hexDigit c) 0

/-- `char::from_u32`: nothing for a surrogate or a number that is too large. -/
def charOf (n : Nat) : Option Char := if n.isValidChar then some (Char.ofNat n) else none

/-- `uchar` (shex_grammar.rs:1422-1430) with `unescape_uchar` (2004-2043): the `unwrap` of `char::from_u32` panics. -/
def uchar : P Char := do
  let ds ← alt (do tag ['\\', 'u']; count (satisfy isHex) 4) (do tag ['\\', 'U']; count (satisfy isHex) 8)
  orCrash (charOf (hexVal ds))

/-- The characters that may follow a backslash in a string, with what they stand for (shex_grammar.rs:1436-1446). -/
def echarOf : Char → Option Char
  | 't' => some '\t'
  | 'b' => some '\x08'
  | 'n' => some '\n'
  | 'r' => some '\r'
  | 'f' => some '\x0C'
  | '"' => some '"'
  | '\'' => some '\''
  | '\\' => some '\\'
  | _ => none

/-- `echar` (shex_grammar.rs:1434-1448). -/
def echar : P Char := do
  tag ['\\']
  let c ← oneOf ['t', 'b', 'n', 'r', 'f', '"', '\'', '\\']
  orCrash (echarOf c)

/-! ## IRIs and names -/

/-- `is_iri_ref` (shex_grammar.rs:2051-2053). -/
def isIriChar (c : Char) : Bool := ' ' < c && !['<', '>', '"', '{', '}', '|', '^', '`', '\\'].contains c

/-- `iri_ref` with `iri_chars` and `iri_char` (shex_grammar.rs:1949-1984, 2046-2048). -/
def iriRef : P Str := do
  let _ ← char '<'
  let cs ← many0 (alt (satisfy isIriChar) uchar)
  let _ ← char '>'
  return cs

/-- `pn_prefix` with `rest_pn_chars` (shex_grammar.rs:2062-2086): letters, then groups after dots. -/
def pnPrefix : P Str := recognize do
  let _ ← satisfy isPnCharsBase
  let _ ← P.takeWhile isPnChars
  let _ ← many0 (do let _ ← char '.'; takeWhile1 isPnChars)

/-- `pname_ns` (shex_grammar.rs:2056-2059). -/
def pnameNs : P Str := do
  let p ← opt pnPrefix
  let _ ← char ':'
  return p.getD []

/-- `plx` with `percent` and `pn_local_esc` (shex_grammar.rs:1928-1941). -/
def plx : P Unit :=
  alt (do let _ ← char '%'; let _ ← oneIf isHex; let _ ← oneIf isHex)
    (do let _ ← char '\\'; let _ ← oneIf fun c => "_~.-!$&'()*+,;=/?#@%".toList.contains c)

/-- `pn_local` with `pn_local2`, `pn_local3` (shex_grammar.rs:1889-1926): a dot at the end belongs to the name, and escapes are kept
as they are written. -/
def pnLocal : P Str := recognize do
  alt (do let _ ← oneIf fun c => c == ':' || isDigit c || isPnCharsU c) plx
  let _ ← many0 (alt (do let _ ← takeWhile1 fun c => c == ':' || isPnChars c)
    (alt plx (do let _ ← char '.')))

/-- `pname_ln` (shex_grammar.rs:1882-1886). -/
def pnameLn : P IriRef := do
  let p ← pnameNs
  let l ← pnLocal
  return .prefixed p l

/-- `pname_ns_iri_ref` (shex_grammar.rs:1768-1771). -/
def pnameNsIri : P IriRef := do
  let p ← pnameNs
  return .prefixed p []

/-- `iri` with `iri_ref_s` and `prefixed_name` (shex_grammar.rs:1732-1750). -/
def iri : P IriRef := alt (do let s ← iriRef; return .iri s) (alt pnameLn pnameNsIri)

/-- `blank_node_label` and its parts (shex_grammar.rs:1781-1815): a dot at the end belongs to the label. -/
def bnodeLabel : P Str := do
  tag ['_', ':']
  recognize do
    let _ ← oneIf fun c => isDigit c || isPnCharsU c
    let _ ← P.takeWhile fun c => c == '.' || isPnChars c

/-- `shape_expr_label` (shex_grammar.rs:1478-1490). -/
def shapeLabel : P Label := alt (do let r ← iri; return .iri r) (do let s ← bnodeLabel; return .bnode s)

/-- `triple_expr_label` (shex_grammar.rs:1493-1499). -/
def tripleLabel : P TLabel := alt (do let r ← iri; return .iri r) (do let s ← bnodeLabel; return .bnode s)

/-- `RdfVocab::rdf_type()` (rudof_rdf/src/rdf_core/vocabs). -/
def rdfType : Str := "http://www.w3.org/1999/02/22-rdf-syntax-ns#type".toList

/-- `predicate` with `rdf_type` (shex_grammar.rs:1467-1469, 1617-1621). -/
def predicate : P IriRef := alt iri (do tag ['a']; return .iri rdfType)

/-! ## Numbers -/

/-- The number written by decimal digits. -/
def decVal (ds : List Char) : Nat := ds.foldl (fun n c => n * 10 + (c.toNat - '0'.toNat)) 0

/-- `digits` (shex_grammar.rs:1877-1879): at most what an `i128` holds. -/
def digits : P Int := do
  let ds ← takeWhile1 isDigit
  if decVal ds < 2 ^ 127 then return (decVal ds : Int) else error

/-- `integer` (shex_grammar.rs:1818-1832). -/
def integer : P Int := do
  let s ← opt (oneOf ['+', '-'])
  let n ← digits
  return if s = some '-' then -n else n

/-- `n as i32` for an `i128`. -/
def wrap32 (n : Int) : Int := (n + 2 ^ 31) % 2 ^ 32 - 2 ^ 31

/-- `n as usize` for an `i128`. -/
def wrap64 (n : Int) : Nat := (n % 2 ^ 64).toNat

/-- `pos_integer` (shex_grammar.rs:493-502). -/
def posInteger : P Nat := do
  let n ← integer
  if n < 0 then error else return wrap64 n

/-- The number of decimal digits of a number as it is displayed. -/
def numDigits (n : Nat) : Nat := (Nat.toDigits 10 n).length

/-- `NumericLiteral::decimal_from_parts` (numeric_literal.rs:152-156): the parts are displayed as numbers with a dot
between them, so that the zeros in front of the fraction and the sign of a whole part of zero are lost; a mantissa
over 96 bits is an error of `Decimal::from_str_exact`. -/
def decimalOfParts (w : Int) (f : Nat) : Option Num :=
  let m := w.natAbs * 10 ^ numDigits f + f
  if m < 2 ^ 96 then some (.dec (if w < 0 then -(m : Int) else m) (numDigits f)) else none

/-- `parse::<i64>` of an optional sign and digits: nothing without digits or out of range. -/
def parseI64 (sign : Option Char) (ds : List Char) : Option Int :=
  if ds.isEmpty then none
  else
    let n : Int := if sign = some '-' then -(decVal ds : Int) else decVal ds
    if -(2 ^ 63) ≤ n ∧ n < 2 ^ 63 then some n else none

/-- What the model takes from outside: `Lang::new` (the tag as it is normalised, or nothing), and
`NumericLiteral::decimal_from_f64` of the number that a text with an exponent stands for. -/
structure Ext where
  lang : Str → Option Str
  double : Str → Option Num

/-- `decimal` (shex_grammar.rs:1835-1851). -/
def decimal : P Num := do
  let s ← opt (oneOf ['+', '-'])
  let w ← P.takeWhile isDigit
  tag ['.']
  let f ← takeWhile1 isDigit
  match parseI64 s w with
  | none => error
  | some w =>
    if decVal f < 2 ^ 32 then
      match decimalOfParts w (decVal f) with
      | some d => return d
      | none => error
    else error

/-- `exponent` (shex_grammar.rs:1869-1871). -/
def exponent : P Unit := do
  let _ ← oneOf ['e', 'E']
  let _ ← opt (oneOf ['+', '-'])
  let _ ← takeWhile1 isDigit

/-- The text of a number with an exponent, `double` (shex_grammar.rs:1854-1867) and `double_raw` (1194-1211). -/
def doubleText : P Str := recognize do
  let _ ← opt (oneOf ['+', '-'])
  alt (do let _ ← takeWhile1 isDigit; tag ['.']; let _ ← P.takeWhile isDigit; exponent)
    (alt (do tag ['.']; let _ ← takeWhile1 isDigit; exponent)
      (do let _ ← takeWhile1 isDigit; exponent))

/-- `raw_numeric_literal` (shex_grammar.rs:1238-1259). -/
def rawNumeric (X : Ext) : P Num :=
  alt (do
      let s ← doubleText
      match X.double s with
      | some n => return n
      | none => error)
    (alt decimal (do let n ← integer; return .int n))

/-! ## Strings and literals -/

/-- The characters of a string, plain or escaped. -/
def stringChars (stop : Str) : P Str := many0 (alt (noneOf stop) (alt echar uchar))

/-- `string_literal_long1` (shex_grammar.rs:1358-1367). -/
def stringLong1 : P Str := do
  tag ['\'', '\'', '\'']
  let s ← cut (stringChars ['\'', '\\'])
  tag ['\'', '\'', '\'']
  return s

/-- `string_literal_long2` (shex_grammar.rs:1370-1379). -/
def stringLong2 : P Str := do
  tag ['"', '"', '"']
  let s ← cut (stringChars ['"', '\\'])
  tag ['"', '"', '"']
  return s

/-- `string_literal1` (shex_grammar.rs:1341-1355). -/
def string1 : P Str := do
  tag ['\'']
  let s ← stringChars ['\'', '\\', '\n', '\r']
  tag ['\'']
  return s

/-- `string_literal2` (shex_grammar.rs:1329-1338). -/
def string2 : P Str := do
  tag ['"']
  let s ← cut (stringChars ['"', '\\', '\n', '\r'])
  tag ['"']
  return s

/-- `string` (shex_grammar.rs:1314-1327). -/
def string : P Str := alt stringLong1 (alt stringLong2 (alt string1 string2))

/-- `lang_tag` (shex_grammar.rs:1451-1464). -/
def langTag (X : Ext) : P Str := do
  tag ['@']
  let t ← recognize do
    let _ ← takeWhile1 isAlpha
    let _ ← many0 (do tag ['-']; takeWhile1 fun c => isAlpha c || isDigit c)
  match X.lang t with
  | some l => return l
  | none => error

/-- The namespace of the datatypes of XML Schema. -/
def xsd (s : String) : IriRef := .iri (("http://www.w3.org/2001/XMLSchema#" ++ s).toList)

/-- `decimal_raw` (shex_grammar.rs:1213-1222). -/
def decimalText : P Str := recognize do
  let _ ← opt (oneOf ['+', '-'])
  let _ ← P.takeWhile isDigit
  let _ ← char '.'
  let _ ← takeWhile1 isDigit

/-- `integer_raw` (shex_grammar.rs:1224-1233). -/
def integerText : P Str := recognize do
  let _ ← opt (oneOf ['+', '-'])
  let _ ← takeWhile1 isDigit

/-- `numeric_literal_datatype` (shex_grammar.rs:1190-1192). -/
def numericLit : P Lit :=
  alt (do let s ← doubleText; return .typed s (xsd "double"))
    (alt (do let s ← decimalText; return .typed s (xsd "decimal"))
      (do let s ← integerText; return .typed s (xsd "integer")))

/-- `boolean_value` (shex_grammar.rs:1279-1281). -/
def boolValue : P Bool :=
  alt (do tokenTws ['t', 'r', 'u', 'e']; return true) (do tokenTws ['f', 'a', 'l', 's', 'e']; return false)

/-- `rdf_literal` (shex_grammar.rs:1286-1310). -/
def rdfLit (X : Ext) : P Lit := do
  let s ← string
  let v ← opt (alt (do let l ← langTag X; return Lit.lang s l) (do tag ['^', '^']; let d ← iri; return Lit.typed s d))
  return v.getD (.str s)

/-- `literal` (shex_grammar.rs:1181-1186). -/
def literal (X : Ext) : P Lit := alt (rdfLit X) (alt numericLit (do let b ← boolValue; return .bool b))

/-- The lexical form of a literal as `literal` builds it (literal.rs:611-620). -/
def Lit.lexical : Lit → Str
  | .str s => s
  | .lang s _ => s
  | .typed s _ => s
  | .bool b => if b then ['t', 'r', 'u', 'e'] else ['f', 'a', 'l', 's', 'e']
  | .num (.int n) => (toString n).toList
  | .num (.dec m k) => (toString m).toList ++ ['e', '-'] ++ (toString k).toList
  | .num (.other t) => t

/-! ## Patterns and code -/

/-- The escapes of a pattern that are kept as they are (shex_grammar.rs:1654-1656). -/
def keptEscapes : Str := "nrt\\|.?*+(){}$-[]^".toList

/-- The hexadecimal digits of an escape: the first `n` characters, or nothing when there are fewer or one of them is
not a digit (`panic!` and `unwrap`). -/
def hexPrefix (n : Nat) (s : Str) : Option (Nat × Str) :=
  let ds := s.take n
  if ds.length = n ∧ ds.all isHex then some (hexVal ds, s.drop n) else none

/-- `unescape_pattern` (shex_grammar.rs:1653-1702) with fuel; `none` when it panics. `u32::from_str_radix` also takes a sign in front
of the digits, which is left out. -/
def unescapeGo : Nat → Str → Option Str
  | 0, _ => some []
  | _ + 1, [] => some []
  | n + 1, c :: s =>
    if c ≠ '\\' then (unescapeGo n s).map (c :: ·)
    else
      match s with
      | [] => none
      | d :: s' =>
        if keptEscapes.contains d then (unescapeGo n s').map fun r => '\\' :: d :: r
        else if d = 'u' then do
          let (v, s'') ← hexPrefix 4 s'
          let ch ← charOf v
          let r ← unescapeGo n s''
          return ch :: r
        else if d = 'U' then do
          let (v, s'') ← hexPrefix 8 s'
          let ch ← charOf v
          let r ← unescapeGo n s''
          return ch :: r
        else (unescapeGo n s').map (d :: ·)

/-- `unescape_pattern`: every step takes at least one character. -/
def unescapePattern (s : Str) : Option Str := unescapeGo s.length s

/-- `pattern` with `escaped_pattern` (shex_grammar.rs:1705-1724). -/
def patternText : P Str := do
  let cs ← many1 (alt (do let c ← noneOf ['/', '\\', '\n', '\r']; return [c])
    (alt (do tag ['\\']; let c ← oneOf "nrt\\|.?*+(){}$-[]^/".toList; return ['\\', c])
      (do let c ← uchar; return [c])))
  return cs.flatten

/-- `regexp` with `flags` (shex_grammar.rs:1640-1650, 1727-1729). -/
def regexp : P Facet := do
  let _ ← char '/'
  let s ← patternText
  let _ ← cut (char '/')
  let fs ← recognize (many0 (oneOf ['s', 'm', 'i', 'x']))
  let s ← orCrash (unescapePattern s)
  return .pattern s (if fs.isEmpty then none else some fs)

/-- `code` with `code_str` and `escaped_code` (shex_grammar.rs:1503-1512, 1564-1578). -/
def code : P (Option Str) := do
  let _ ← char '{'
  let s ← cut (many0 (alt (noneOf ['%', '\\']) (alt (do tag ['\\']; oneOf ['%', '\\']) uchar)))
  let _ ← cut (char '%')
  tws0
  let _ ← cut (char '}')
  return some s

/-- `code_decl` with `code_or_percent` (shex_grammar.rs:1159-1178). -/
def codeDecl : P SemAct := do
  let _ ← char '%'
  tws0
  let n ← cut iri
  tws0
  let c ← cut (alt code (do let _ ← char '%'; return none))
  tws0
  return ⟨n, c⟩

end Shexc

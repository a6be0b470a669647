import Verif.Shexc.Ast
import Mathlib.Data.Nat.Digits.Defs

/-!
# Specification: how the words of the compact syntax are written

What is written between words, and the texts of each word, after the grammar of the ShEx specification
(section "ShEx Compact Syntax"). Nothing here mentions the reader. Where the rule is narrower than the one of the
ShEx specification the comment says so.
-/

namespace Shexc

namespace Spec

/-! ## Characters -/

/-- A range of code points. -/
def within (c : Char) (lo hi : Nat) : Prop := lo ≤ c.toNat ∧ c.toNat ≤ hi

/-- Letters of ASCII. -/
def letter (c : Char) : Prop := within c 0x41 0x5A ∨ within c 0x61 0x7A

/-- Digits. -/
def digit (c : Char) : Prop := within c 0x30 0x39

/-- `PN_CHARS_BASE`. -/
def nameStart (c : Char) : Prop :=
  letter c ∨ within c 0xC0 0xD6 ∨ within c 0xD8 0xF6 ∨ within c 0xF8 0x2FF ∨ within c 0x370 0x37D ∨
    within c 0x37F 0x1FFF ∨ within c 0x200C 0x200D ∨ within c 0x2070 0x218F ∨ within c 0x2C00 0x2FEF ∨
    within c 0x3001 0xD7FF ∨ within c 0xF900 0xFDCF ∨ within c 0xFDF0 0xFFFD ∨ within c 0x10000 0xEFFFF

/-- `PN_CHARS`. -/
def nameChar (c : Char) : Prop :=
  nameStart c ∨ c = '_' ∨ c = '-' ∨ digit c ∨ c.toNat = 0xB7 ∨ within c 0x300 0x36F ∨ within c 0x203F 0x2040

/-- White space. -/
def space (c : Char) : Prop := c = ' ' ∨ c = '\t' ∨ c = '\r' ∨ c = '\n'

/-- Hexadecimal digits. -/
def hex (c : Char) : Prop := digit c ∨ within c 0x41 0x46 ∨ within c 0x61 0x66

/-- The number that a hexadecimal digit stands for. -/
def hexNum (c : Char) : Nat :=
  if c.toNat < 0x41 then c.toNat - 0x30 else if c.toNat < 0x61 then c.toNat - 0x41 + 10 else c.toNat - 0x61 + 10

/-- The number that decimal digits stand for. -/
def decNum (ds : Str) : Nat := Nat.ofDigits 10 (ds.reverse.map fun c => c.toNat - 0x30)

/-! ## Between words -/

/-- White space and comments. A comment begins after white space or after another comment of one line. -/
inductive Gap : Bool → Str → Prop where
  | nil {b : Bool} : Gap b []
  | space {b : Bool} {c : Char} {g : Str} (hc : space c) (hg : Gap true g) : Gap b (c :: g)
  | line {b : Bool} {cs g : Str} {e : Char} (hcs : ∀ c ∈ cs, c ≠ '\n' ∧ c ≠ '\r') (he : e = '\n' ∨ e = '\r')
      (hg : Gap true g) : Gap b ('#' :: (cs ++ e :: g))
  | block {cs g : Str} (hcs : ¬ ['*', '/'] <:+: cs ++ ['*']) (hg : Gap true g) :
      Gap true ('/' :: '*' :: (cs ++ '*' :: '/' :: g))

/-! ## Characters in strings -/

/-- An escape by number: `\u` and four digits or `\U` and eight. -/
inductive Numbered : Char → Str → Prop where
  | four {c : Char} {ds : Str} (hl : ds.length = 4) (hd : ∀ d ∈ ds, hex d)
      (hv : Nat.ofDigits 16 (ds.reverse.map hexNum) = c.toNat) : Numbered c ('\\' :: 'u' :: ds)
  | eight {c : Char} {ds : Str} (hl : ds.length = 8) (hd : ∀ d ∈ ds, hex d)
      (hv : Nat.ofDigits 16 (ds.reverse.map hexNum) = c.toNat) : Numbered c ('\\' :: 'U' :: ds)

/-- The escapes by letter, with what they stand for. -/
def letters : List (Char × Char) :=
  [('t', '\t'), ('b', '\x08'), ('n', '\n'), ('r', '\r'), ('f', '\x0C'), ('"', '"'), ('\'', '\''), ('\\', '\\')]

/-- A character of a string: itself unless it is one of `stop` or a backslash, or escaped. -/
inductive CharText (stop : Str) : Char → Str → Prop where
  | plain {c : Char} (h : c ∉ stop) (h' : c ≠ '\\') : CharText stop c [c]
  | letter {l c : Char} (h : (l, c) ∈ letters) : CharText stop c ['\\', l]
  | numbered {c : Char} {w : Str} (h : Numbered c w) : CharText stop c w

/-- The characters one after the other. -/
inductive Chars (R : Char → Str → Prop) : Str → Str → Prop where
  | nil : Chars R [] []
  | cons {c : Char} {s w ws : Str} (h : R c w) (hs : Chars R s ws) : Chars R (c :: s) (w ++ ws)

/-- The four ways to write a string. Inside long strings quotes are escaped, which is narrower than the ShEx
specification (see `C106_refuted`). -/
inductive StringText : Str → Str → Prop where
  | single {s w : Str} (h : Chars (CharText ['\'', '\n', '\r']) s w) : StringText s ('\'' :: (w ++ ['\'']))
  | double {s w : Str} (h : Chars (CharText ['"', '\n', '\r']) s w) : StringText s ('"' :: (w ++ ['"']))
  | longSingle {s w : Str} (h : Chars (CharText ['\'']) s w) :
      StringText s ('\'' :: '\'' :: '\'' :: (w ++ ['\'', '\'', '\'']))
  | longDouble {s w : Str} (h : Chars (CharText ['"']) s w) :
      StringText s ('"' :: '"' :: '"' :: (w ++ ['"', '"', '"']))

/-! ## Names -/

/-- A character of an IRI between angle brackets. -/
inductive IriChar : Char → Str → Prop where
  | plain {c : Char} (h : 0x20 < c.toNat) (h' : c ∉ ['<', '>', '"', '{', '}', '|', '^', '`', '\\']) : IriChar c [c]
  | numbered {c : Char} {w : Str} (h : Numbered c w) : IriChar c w

/-- An IRI between angle brackets. -/
inductive IriText : Str → Str → Prop where
  | mk {s w : Str} (h : Chars IriChar s w) : IriText s ('<' :: (w ++ ['>']))

/-- A prefix (dots left out, which the ShEx specification allows inside). -/
def PrefixName (p : Str) : Prop := p = [] ∨ ∃ c r, p = c :: r ∧ nameStart c ∧ ∀ d ∈ r, nameChar d

/-- A local name (without escapes and per cent signs, and with a first character of ASCII). -/
def LocalName (l : Str) : Prop := ∃ c r, l = c :: r ∧ c.toNat < 128 ∧ (c = ':' ∨ c = '_' ∨ digit c ∨ nameStart c) ∧
  (∀ d ∈ r, nameChar d ∨ d = ':' ∨ d = '.') ∧ l.getLast? ≠ some '.'

/-- The label of a blank node. -/
def BnodeName (l : Str) : Prop := ∃ c r, l = c :: r ∧ c.toNat < 128 ∧ (c = '_' ∨ digit c ∨ nameStart c) ∧
  (∀ d ∈ r, nameChar d ∨ d = '.') ∧ l.getLast? ≠ some '.'

/-- The keywords of the compact syntax. -/
def keywords : List String :=
  ["BASE", "PREFIX", "IMPORT", "START", "ABSTRACT", "EXTERNAL", "AND", "OR", "NOT", "IRI", "BNODE", "NONLITERAL",
    "LITERAL", "LENGTH", "MINLENGTH", "MAXLENGTH", "MININCLUSIVE", "MAXINCLUSIVE", "MINEXCLUSIVE", "MAXEXCLUSIVE",
    "TOTALDIGITS", "FRACTIONDIGITS", "EXTENDS", "CLOSED", "EXTRA"]

/-- A word that does not begin like a keyword, in capitals or not (the ShEx specification knows no such rule). -/
def NoKeyword (w : Str) : Prop := ∀ k ∈ keywords, ¬ (k.toList.map Char.toLower) <+: w.map Char.toLower

/-- The text of an IRI or of a prefixed name. -/
inductive NameText : IriRef → Str → Prop where
  | iri {s w : Str} (h : IriText s w) : NameText (.iri s) w
  | ns {p : Str} (hp : PrefixName p) (hk : NoKeyword (p ++ [':'])) : NameText (.prefixed p []) (p ++ [':'])
  | local {p l : Str} (hp : PrefixName p) (hl : LocalName l) (hk : NoKeyword (p ++ ':' :: l)) :
      NameText (.prefixed p l) (p ++ ':' :: l)

/-- The text of an IRI or of a prefixed name, whatever it begins with. -/
inductive RefText : IriRef → Str → Prop where
  | iri {s w : Str} (h : IriText s w) : RefText (.iri s) w
  | ns {p : Str} (hp : PrefixName p) : RefText (.prefixed p []) (p ++ [':'])
  | local {p l : Str} (hp : PrefixName p) (hl : LocalName l) : RefText (.prefixed p l) (p ++ ':' :: l)

/-- The text of a label of a shape. -/
inductive LabelText : Label → Str → Prop where
  | iri {r : IriRef} {w : Str} (h : NameText r w) : LabelText (.iri r) w
  | bnode {b : Str} (h : BnodeName b) : LabelText (.bnode b) ('_' :: ':' :: b)

/-! ## Numbers -/

/-- An optional sign. -/
inductive Sign : Bool → Str → Prop where
  | none : Sign false []
  | plus : Sign false ['+']
  | minus : Sign true ['-']

/-- A sequence of digits, at least one. -/
def Digits (ds : Str) : Prop := ds ≠ [] ∧ ∀ d ∈ ds, digit d

/-- An exponent. -/
inductive Exponent : Str → Prop where
  | mk {e : Char} {b : Bool} {s ds : Str} (he : e = 'e' ∨ e = 'E') (hs : Sign b s) (hd : Digits ds) :
      Exponent (e :: (s ++ ds))

/-- An integer. -/
inductive IntText : Int → Str → Prop where
  | mk {b : Bool} {s ds : Str} (hs : Sign b s) (hd : Digits ds) :
      IntText (if b then -(decNum ds : Int) else decNum ds) (s ++ ds)

/-- A decimal number: digits before and after the dot (the ShEx specification also allows none before). -/
inductive DecText : Bool → Str → Str → Str → Prop where
  | mk {b : Bool} {s ds fs : Str} (hs : Sign b s) (hd : Digits ds) (hf : Digits fs) :
      DecText b ds fs (s ++ (ds ++ '.' :: fs))

/-- A number with an exponent (the ShEx specification also allows a dot without digits before or after it). -/
inductive DoubleText : Str → Prop where
  | whole {b : Bool} {s ds e : Str} (hs : Sign b s) (hd : Digits ds) (he : Exponent e) : DoubleText (s ++ (ds ++ e))
  | dot {b : Bool} {s ds fs e : Str} (hs : Sign b s) (hd : Digits ds) (hf : Digits fs) (he : Exponent e) :
      DoubleText (s ++ (ds ++ '.' :: (fs ++ e)))

/-! ## Literals -/

/-- A language tag. -/
def LangName (t : Str) : Prop := ∃ (a : Str) (rs : List Str), t = a ++ (rs.map fun r => '-' :: r).flatten ∧ a ≠ [] ∧ (∀ c ∈ a, letter c) ∧
  ∀ r ∈ rs, r ≠ [] ∧ ∀ c ∈ r, letter c ∨ digit c

/-- The datatypes of numbers. -/
def xsdName (s : String) : IriRef := .iri (("http://www.w3.org/2001/XMLSchema#" ++ s).toList)

/-- The text of a literal. `lang` gives the normal form of a language tag. -/
inductive LitText (lang : Str → Option Str) : Lit → Str → Prop where
  | str {s w : Str} (h : StringText s w) : LitText lang (.str s) w
  | lang {s w t t' : Str} (h : StringText s w) (ht : LangName t) (hn : lang t = some t') :
      LitText lang (.lang s t') (w ++ '@' :: t)
  | typed {s w v : Str} {d : IriRef} (h : StringText s w) (hd : NameText d v) :
      LitText lang (.typed s d) (w ++ '^' :: '^' :: v)
  | integer {n : Int} {w : Str} (h : IntText n w) : LitText lang (.typed w (xsdName "integer")) w
  | decimal {b : Bool} {ds fs w : Str} (h : DecText b ds fs w) : LitText lang (.typed w (xsdName "decimal")) w
  | double {w : Str} (h : DoubleText w) : LitText lang (.typed w (xsdName "double")) w
  | yes : LitText lang (.bool true) "true".toList
  | no : LitText lang (.bool false) "false".toList

/-- The text of a number in a facet. `double` gives the number that a text with an exponent stands for. Of decimal
numbers only those that the reader keeps: not with zeros after the dot in front of other digits, not between -1 and 0,
and not too long (see `C106_refuted`). -/
inductive NumText (double : Str → Option Num) : Num → Str → Prop where
  | int {n : Int} {w : Str} (h : IntText n w) (hr : n.natAbs < 2 ^ 127) : NumText double (.int n) w
  | dec {b : Bool} {ds fs w : Str} (h : DecText b ds fs w) (h0 : fs = ['0'] ∨ fs.head? ≠ some '0')
      (hz : b = true → decNum ds ≠ 0) (hd : decNum ds < 2 ^ 63) (hf : decNum fs < 2 ^ 32)
      (hr : decNum (ds ++ fs) < 2 ^ 96) :
      NumText double (.dec (if b then -(decNum (ds ++ fs) : Int) else decNum (ds ++ fs)) fs.length) w
  | double {n : Num} {w : Str} (h : DoubleText w) (hn : double w = some n) : NumText double n w

/-! ## Patterns, cardinalities and code -/

/-- A piece of a pattern: what it is in the pattern, and how it is written. -/
inductive PatPiece : Str → Str → Prop where
  | plain {c : Char} (h : c ∉ ['/', '\\', '\n', '\r']) : PatPiece [c] [c]
  | kept {c : Char} (h : c ∈ "nrt\\|.?*+(){}$-[]^".toList) : PatPiece ['\\', c] ['\\', c]
  | slash : PatPiece ['/'] ['\\', '/']
  | numbered {c : Char} {w : Str} (h : Numbered c w) (h' : c ≠ '\\') : PatPiece [c] w

/-- The pieces one after the other. -/
inductive PatBody : Str → Str → Prop where
  | nil : PatBody [] []
  | cons {p s w ws : Str} (h : PatPiece p w) (hs : PatBody s ws) : PatBody (p ++ s) (w ++ ws)

/-- A pattern between slashes, with flags. It does not begin with a star, which would make it a comment. -/
inductive RegexText : Facet → Str → Prop where
  | mk {s w fs : Str} (h : PatBody s w) (hne : w ≠ []) (hs : w.head? ≠ some '*') (hf : ∀ c ∈ fs, c ∈ "smix".toList) :
      RegexText (.pattern s (if fs = [] then none else some fs)) ('/' :: (w ++ '/' :: fs))

/-- The number in a cardinality, in the range of the reader (see `C106_refuted`). -/
def CardNum (n : Int) (w : Str) : Prop := IntText n w ∧ -(2 ^ 31) ≤ n ∧ n < 2 ^ 31

/-- A cardinality in braces; `-1` stands for no limit. -/
inductive CardText : Int → Int → Str → Prop where
  | exact {n : Int} {w : Str} (h : CardNum n w) : CardText n n ('{' :: (w ++ ['}']))
  | atLeast {m : Int} {w g h : Str} (hm : CardNum m w) (hg : Gap false g) (hh : Gap false h) :
      CardText m (-1) ('{' :: (w ++ (g ++ ',' :: (h ++ ['}']))))
  | star {m : Int} {w g h k : Str} (hm : CardNum m w) (hg : Gap false g) (hh : Gap false h) (hk : Gap false k) :
      CardText m (-1) ('{' :: (w ++ (g ++ ',' :: (h ++ '*' :: (k ++ ['}'])))))
  | range {m n : Int} {w v g h : Str} (hm : CardNum m w) (hn : CardNum n v) (hg : Gap false g) (hh : Gap false h) :
      CardText m n ('{' :: (w ++ (g ++ ',' :: (h ++ (v ++ ['}'])))))

/-- A character of code. -/
inductive CodeChar : Char → Str → Prop where
  | plain {c : Char} (h : c ≠ '%') (h' : c ≠ '\\') : CodeChar c [c]
  | escaped {c : Char} (h : c = '%' ∨ c = '\\') : CodeChar c ['\\', c]
  | numbered {c : Char} {w : Str} (h : Numbered c w) : CodeChar c w

/-- Code between `{` and `%}`. -/
inductive CodeText : Str → Str → Prop where
  | mk {s w g : Str} (h : Chars CodeChar s w) (hg : Gap false g) : CodeText s ('{' :: (w ++ '%' :: (g ++ ['}'])))

/-! ## Words -/

/-- The words of the compact syntax. -/
inductive Tok where
  /-- Punctuation. -/
  | sym (s : Str)
  /-- A keyword, in capitals or not. -/
  | kw (k : String)
  /-- A keyword in capitals. -/
  | cap (k : String)
  | name (r : IriRef)
  | bnode (b : Str)
  /-- A prefix where it is declared. -/
  | ns (p : Str)
  /-- `a`. -/
  | isA
  /-- A reference to a shape. -/
  | at (l : Label)
  | lit (l : Lit)
  | lang (t : Str)
  | int (n : Int)
  | num (n : Num)
  | regex (f : Facet)
  | card (mn mx : Int)
  | code (s : Str)

/-- The punctuation. -/
def symbols : List Str :=
  ["(", ")", "{", "}", "[", "]", ".", ";", "|", "+", "*", "?", "!", "^", "&", "$", "~", "-", "=", "//", "@",
    "%"].map String.toList

/-- The words that are built from outside: the normal form of a language tag, and the number of a text with an
exponent. -/
structure Ext where
  lang : Str → Option Str
  double : Str → Option Num

/-- The text of a word. -/
inductive Text (E : Ext) : Tok → Str → Prop where
  | sym {s : Str} (h : s ∈ symbols) : Text E (.sym s) s
  | kw {k : String} {w : Str} (hk : k ∈ keywords) (h : w.map Char.toLower = k.toList.map Char.toLower) :
      Text E (.kw k) w
  | cap {k : String} (hk : k ∈ keywords) : Text E (.cap k) k.toList
  | name {r : IriRef} {w : Str} (h : NameText r w) : Text E (.name r) w
  | bnode {b : Str} (h : BnodeName b) : Text E (.bnode b) ('_' :: ':' :: b)
  | ns {p : Str} (h : PrefixName p) : Text E (.ns p) (p ++ [':'])
  | isA : Text E .isA ['a']
  | at {l : Label} {w : Str} (h : LabelText l w) : Text E (.at l) ('@' :: w)
  | lit {l : Lit} {w : Str} (h : LitText E.lang l w) : Text E (.lit l) w
  | lang {t t' : Str} (h : LangName t) (hn : E.lang t = some t') : Text E (.lang t') ('@' :: t)
  | int {n : Int} {w : Str} (h : IntText n w) : Text E (.int n) w
  | num {n : Num} {w : Str} (h : NumText E.double n w) : Text E (.num n) w
  | regex {f : Facet} {w : Str} (h : RegexText f w) : Text E (.regex f) w
  | card {m n : Int} {w : Str} (h : CardText m n w) : Text E (.card m n) w
  | code {s w : Str} (h : CodeText s w) : Text E (.code s) w

/-- The characters that may not follow a word directly. -/
def sticks (t : Tok) (c : Char) : Prop :=
  match t with
  | .sym s => s = ['@'] ∧ letter c
  | .card .. => False
  | .code _ => False
  | .ns _ => False
  | .name (.iri _) => False
  | .at (.iri (.iri _)) => False
  | _ => nameChar c ∨ c ∈ [':', '.', '%', '\\', '"', '\'', '@', '^']

/-- Words one after the other, each followed by a gap, which may be empty where the next word does not begin with
something that would be taken for a part of the word. -/
inductive Spell (E : Ext) : List Tok → Str → Prop where
  | nil : Spell E [] []
  | cons {t : Tok} {ts : List Tok} {w g r : Str} (ht : Text E t w) (hg : Gap false g)
      (hs : g = [] → ∀ c ∈ r.head?, ¬ sticks t c) (hr : Spell E ts r) : Spell E (t :: ts) (w ++ (g ++ r))

end Spec

end Shexc

import Mathlib.Data.List.Basic

/-!
# Model: regular expressions with flags

`R` is `rudof_rdf/src/rdf_core/utils/regex.rs`, `K` is `shex_ast/src/ast/cond_kind.rs`.

The crate `regex` is modelled for patterns without repetitions, groups, classes and alternatives: sequences of characters, dots
and anchors, with its flags, white space and comments. `parse` answers `none` both for patterns that the crate refuses and for
those that are not modelled. The variants of characters that differ in case and the limit for the size of what is compiled are
parameters.
-/

namespace Regex

/-- Texts. -/
abbrev Str := List Char

/-- What is matched in turn. -/
inductive Item where
  | chr (c : Char)
  | any
  | bol
  | eol
deriving DecidableEq

/-- The flags of the crate that are set. -/
structure RFlags where
  s : Bool
  m : Bool
  i : Bool
  x : Bool
deriving DecidableEq

/-- Characters that are escaped (`regex::escape`). -/
def metaChars : Str := "\\.+*?()|[]{}^$#&-~".toList

/-- Characters that start what is not modelled, or are refused. -/
def operators : Str := "\\+*?()|[]{}".toList

/-- White space that is skipped (Pattern_White_Space). -/
def patSpace : Str :=
  ['\t', '\n', Char.ofNat 0x0B, Char.ofNat 0x0C, '\r', ' ', Char.ofNat 0x85, Char.ofNat 0x200E, Char.ofNat 0x200F,
    Char.ofNat 0x2028, Char.ofNat 0x2029]

/-- `regex::escape`. -/
def escape (p : Str) : Str := p.flatMap fun c => if c ∈ metaChars then ['\\', c] else [c]

/-- The parser of the crate, with or without `x`; the second argument tells whether it is in a comment. -/
def parse (x : Bool) : Bool → Str → Option (List Item)
  | _, [] => some []
  | true, c :: r => parse x (c ≠ '\n') r
  | false, '\\' :: c :: r =>
    if c ∈ metaChars ∨ (x = true ∧ c ∈ patSpace) then (parse x false r).map (.chr c :: ·) else none
  | false, c :: r =>
    if x = true ∧ c ∈ patSpace then parse x false r
    else if x = true ∧ c = '#' then parse x true r
    else if c = '.' then (parse x false r).map (.any :: ·)
    else if c = '^' then (parse x false r).map (.bol :: ·)
    else if c = '$' then (parse x false r).map (.eol :: ·)
    else if c ∈ operators then none
    else (parse x false r).map (.chr c :: ·)

/-- What is not modelled of the crate. -/
structure Engine where
  /-- Characters that are the same but for case. -/
  same : Char → Char → Bool
  /-- The program is within the limit of its size (R 7, 66). -/
  fits : RFlags → List Item → Bool

variable (E : Engine)

/-- Matching from a place on; the character before that place is given. -/
def matchHere (f : RFlags) : List Item → Option Char → Str → Bool
  | [], _, _ => true
  | .chr c :: is, _, d :: r => (if f.i then E.same c d else decide (c = d)) && matchHere f is (some d) r
  | .any :: is, _, d :: r => (f.s || decide (d ≠ '\n')) && matchHere f is (some d) r
  | .bol :: is, p, r => (decide (p = none) || (f.m && decide (p = some '\n'))) && matchHere f is p r
  | .eol :: is, p, r => (decide (r = []) || (f.m && decide (r.head? = some '\n'))) && matchHere f is p r
  | .chr _ :: _, _, [] => false
  | .any :: _, _, [] => false

/-- `is_match`, from a place on. -/
def searchFrom (f : RFlags) (is : List Item) : Option Char → Str → Bool
  | p, [] => matchHere E f is p []
  | p, d :: r => matchHere E f is p (d :: r) || searchFrom f is (some d) r

/-- `RDFRegex` (R 15-22). -/
structure RDFRegex where
  items : List Item
  on : RFlags
  source : Str
  flags : Option Str

/-- `RDFRegexError` (R 123-135). -/
inductive NewError where
  | pattern
  | flag (c : Char)
deriving DecidableEq

/-- The loop over flags (R 67-84). -/
def setFlags : Str → RFlags → Except Char RFlags
  | [], f => .ok f
  | c :: cs, f =>
    if c = 's' then setFlags cs { f with s := true }
    else if c = 'm' then setFlags cs { f with m := true }
    else if c = 'i' then setFlags cs { f with i := true }
    else if c = 'x' then setFlags cs { f with x := true }
    else if c = 'q' then setFlags cs f
    else .error c

/-- No flags. -/
def RFlags.none : RFlags := ⟨false, false, false, false⟩

/-- `RDFRegex::new` (R 59-95). -/
def new (pattern : Str) (flags : Option Str) : Except NewError RDFRegex :=
  let fs := flags.getD []
  let p := if 'q' ∈ fs then escape pattern else pattern
  match setFlags fs .none with
  | .error c => .error (.flag c)
  | .ok on => match parse on.x false p with
    | none => .error .pattern
    | some is => if E.fits on is then .ok ⟨is, on, p, if fs = [] then Option.none else some fs⟩ else .error .pattern

/-- `RDFRegex::is_match` (R 105-107). -/
def RDFRegex.isMatch (r : RDFRegex) (text : Str) : Bool := searchFrom E r.on r.items Option.none text

/-! ## ShEx -/

/-- The flags between `(?` and `)` as the crate reads them; flags that are repeated or not known are refused. Negated flags and
`U`, `u` and `R` are not modelled. -/
def inlineFlags : Str → RFlags → Option (RFlags × Str)
  | [], _ => Option.none
  | c :: r, f =>
    if c = ')' then some (f, r)
    else if c = 's' then if f.s then Option.none else inlineFlags r { f with s := true }
    else if c = 'm' then if f.m then Option.none else inlineFlags r { f with m := true }
    else if c = 'i' then if f.i then Option.none else inlineFlags r { f with i := true }
    else if c = 'x' then if f.x then Option.none else inlineFlags r { f with x := true }
    else Option.none

/-- `Regex::new` for a text that may start with flags. -/
def compile (p : Str) : Option (RFlags × List Item) :=
  match p with
  | '(' :: '?' :: r =>
    match inlineFlags r .none with
    | some (f, r') => (parse f.x false r').map fun is => (f, is)
    | Option.none => Option.none
  | p => (parse false false p).map fun is => (RFlags.none, is)

/-- `check_pattern` (K 191-223) for the text of a node; the default limit of sizes is not reached. -/
def checkPattern (text regex : Str) (flags : Option Str) : Bool :=
  let effective := match flags with
    | some f => if f = [] then regex else '(' :: '?' :: f ++ ')' :: regex
    | Option.none => regex
  match compile effective with
  | some (f, is) => searchFrom E f is Option.none text
  | Option.none => false

end Regex

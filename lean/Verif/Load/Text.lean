import Verif.Prefix.Model

/-!
# Model: texts read when data are loaded

Which source a text names (rudof_lib/src/formats/input_spec.rs), the prefix declarations given by a user
(load_data.rs), how an endpoint is recognised (load_data.rs) and the declarations put in front of a
document (rudof_lib/src/utils/prefix_header.rs). Strings are lists of characters. Which characters are
white space, which texts are IRIs or URLs and what the file system holds are parameters.
-/

namespace Load

open Prefix (Str PrefixMap)

/-- A text as a list of characters. -/
abbrev chars (s : String) : Str := s.toList

/-! ## Input specifications -/

/-- `enum InputSpec` (input_spec.rs:25-35), with the text each was made of. -/
inductive Source where
  | path (p : Str)
  | stdin
  | str (s : Str)
  | url (u : Str)
  deriving DecidableEq

/-- `InputSpec::source_name` (input_spec.rs:63-70); the URL as it was written. -/
def Source.name : Source → Str
  | .path p => p
  | .stdin => chars "stdin"
  | .url u => u
  | .str _ => chars "string"

/-- `[a-zA-Z0-9]`. -/
def alnum (c : Char) : Bool :=
  (decide ('a' ≤ c) && decide (c ≤ 'z')) || (decide ('A' ≤ c) && decide (c ≤ 'Z')) ||
    (decide ('0' ≤ c) && decide (c ≤ '9'))

/-- `[.~/a-zA-Z0-9]`, the class of the first character (input_spec.rs:222). -/
def pathFirst (c : Char) : Bool := c == '.' || c == '~' || c == '/' || alnum c

/-- `[/\\a-zA-Z0-9._:-]`, the class of the other characters (input_spec.rs:222). -/
def pathRest (c : Char) : Bool :=
  c == '/' || c == '\\' || alnum c || c == '.' || c == '_' || c == ':' || c == '-'

/-- `filepath_regex.is_match` (input_spec.rs:222): the first class may be skipped. -/
def pathLike (s : Str) : Bool :=
  match s with
  | [] => true
  | c :: cs => (pathFirst c && cs.all pathRest) || (c :: cs).all pathRest

/-- What the file system and the URL parser say of a text: `Path::exists`, `Path::is_dir`,
`UrlSpec::parse`. -/
structure World where
  pathExists : Str → Bool
  isDir : Str → Bool
  urlOk : Str → Bool

/-- `InputSpec::from_str` (input_spec.rs:220-257); `none` is an error. -/
def fromStr (w : World) (s : Str) : Option Source :=
  if s.isEmpty then none
  else if s = ['-'] then some .stdin
  else if (chars "http://").isPrefixOf s then (if w.urlOk s then some (.url s) else none)
  else if (chars "https://").isPrefixOf s then (if w.urlOk s then some (.url s) else none)
  else if pathLike s then
    (if !w.pathExists s then none else if w.isDir s then none else some (.path s))
  else some (.str s)

/-! ## Prefix declarations of a user -/

/-- The captures of ` *: *<(.*)` after the longest group 1 (load_data.rs:138), in a text whose last `>`
has been cut off: the last colon followed by spaces and `<`. -/
def lastDecl : Str → Option (Str × Str)
  | [] => none
  | c :: cs =>
    match lastDecl cs with
    | some (a, b) => some (c :: a, b)
    | none =>
      if c = ':' then
        match cs.dropWhile (· == ' ') with
        | [] => none
        | d :: r => if d = '<' then some ([], r) else none
      else none

/-- `prefix_regex.captures` (load_data.rs:138, 141) of `^(.*) *: *<(.*)>$`: groups 1 and 2, where group
1 may keep spaces at its end, which the caller trims. The dot matches no line feed. -/
def captures (s : Str) : Option (Str × Str) :=
  if s.contains '\n' then none
  else if s.getLast? = some '>' then lastDecl s.dropLast
  else none

/-- The closure `add_prefix` (load_data.rs:140-155). -/
def addDecl (ws : Char → Bool) (validIri : Str → Bool) (pm : PrefixMap) (s : Str) : Option PrefixMap :=
  match captures s with
  | none => none
  | some (a, b) =>
    let iri := Prefix.trim ws b
    if validIri iri then some (pm.addPrefix (Prefix.trim ws a) iri) else none

/-- `str::split("\n")`. -/
def splitLines : Str → List Str
  | [] => [[]]
  | c :: cs =>
    if c = '\n' then [] :: splitLines cs
    else
      match splitLines cs with
      | [] => [[c]]
      | l :: ls => (c :: l) :: ls

/-- The loop over lines (load_data.rs:160-166). -/
def addLines (ws : Char → Bool) (validIri : Str → Bool) : PrefixMap → List Str → Option PrefixMap
  | pm, [] => some pm
  | pm, l :: ls =>
    let line := Prefix.trim ws l
    if line.isEmpty then addLines ws validIri pm ls
    else
      match addDecl ws validIri pm line with
      | none => none
      | some pm => addLines ws validIri pm ls

/-! ## Recognising an endpoint -/

/-- `trim_end_matches(c)`. -/
def trimEnd (c : Char) (s : Str) : Str := (s.reverse.dropWhile (· == c)).reverse

/-- `to_ascii_lowercase`. -/
def asciiLower (c : Char) : Char :=
  if 'A' ≤ c ∧ c ≤ 'Z' then Char.ofNat (c.toNat + 32) else c

/-- `normalize_endpoint_id` (load_data.rs:456-464). -/
def normalizeId (ws : Char → Bool) (s : Str) : Str :=
  let t := trimEnd '/' (Prefix.trim ws s)
  let u := ((Prefix.stripPrefix (chars "http://") t).or (Prefix.stripPrefix (chars "https://") t)).getD t
  u.map asciiLower

/-- An endpoint: `OxigraphEndpoint` as far as its address and its prefixes go. -/
structure Endpoint where
  iri : Str
  pm : PrefixMap
  deriving DecidableEq

/-- `get_endpoint_name` (load_data.rs:278-315), over the endpoints known, in the order of the hash map;
`valid` tells IRIs and `reachable` whether `OxigraphEndpoint::new` makes a client of one. -/
def getEndpoint (ws : Char → Bool) (valid reachable : Str → Bool) (known : List (Str × Endpoint)) (s : Str) :
    Option Endpoint :=
  match Prefix.imGet s known with
  | some e => some e
  | none =>
    match known.find? fun k => normalizeId ws k.1 == normalizeId ws s || normalizeId ws k.2.iri == normalizeId ws s with
    | some k => some k.2
    | none => if valid s && reachable s then some ⟨s, PrefixMap.new⟩ else none

/-! ## Declarations put in front of a document -/

/-- `enum PrefixDirective` (prefix_header.rs:7-12). -/
inductive Directive where
  | turtle
  | sparql
  deriving DecidableEq

/-- `@prefix`, or `PREFIX` in letters of either case (prefix_header.rs:14-15), at the start of a text;
the text after it. The Unicode folding of `(?i)` has no further letter for those of `PREFIX`. -/
def keyword : Directive → Str → Option Str
  | .turtle, s => Prefix.stripPrefix (chars "@prefix") s
  | .sparql, s =>
    if (s.take 6).map asciiLower = chars "prefix" then some (s.drop 6) else none

/-- One match of the expression (prefix_header.rs:14-15) at the start of a text: group 1 and the text
after the match. `\s+` takes all the white space: group 1 has none and a colon must follow. -/
def declAt (ws : Char → Bool) (d : Directive) (s : Str) : Option (Str × Str) :=
  match keyword d (s.dropWhile ws) with
  | none => none
  | some r =>
    if (r.takeWhile ws).isEmpty then none
    else
      let r := r.dropWhile ws
      let name := r.takeWhile fun c => !ws c && c != ':'
      match (r.dropWhile fun c => !ws c && c != ':').dropWhile ws with
      | [] => none
      | c :: rest => if c = ':' then some (name, rest) else none

/-- `captures_iter` (prefix_header.rs:37-40): the search goes from left to right, tries the starts of
lines only and goes on after each match; `bol` tells whether the text is at the start of a line. The
length of the text bounds the steps. -/
def declsGo (ws : Char → Bool) (d : Directive) : Nat → Bool → Str → List Str
  | 0, _, _ => []
  | n + 1, bol, s =>
    match (if bol then declAt ws d s else none) with
    | some (name, rest) => name :: declsGo ws d n false rest
    | none =>
      match s with
      | [] => []
      | c :: cs => declsGo ws d n (c == '\n') cs

/-- The set `declared` (prefix_header.rs:37-40). -/
def declared (ws : Char → Bool) (d : Directive) (s : Str) : List Str := declsGo ws d (s.length + 1) true s

/-- One line of the header (prefix_header.rs:47-50). -/
def headerLine (d : Directive) (al iri : Str) : Str :=
  match d with
  | .turtle => chars "@prefix " ++ al ++ chars ": <" ++ iri ++ chars "> .\n"
  | .sparql => chars "PREFIX " ++ al ++ chars ": <" ++ iri ++ chars ">\n"

/-- `default_prefix_header` (prefix_header.rs:25-53); `defaults` are the prefixes of `rudof`. -/
def header (ws : Char → Bool) (defaults : Option PrefixMap) (source : Str) (d : Directive) : Str :=
  match defaults with
  | none => []
  | some pm =>
    if pm.map.isEmpty then []
    else ((pm.map.filter fun e => !(declared ws d source).contains e.1).map fun e => headerLine d e.1 e.2).flatten

end Load

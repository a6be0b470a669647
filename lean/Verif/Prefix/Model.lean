/-!
# Model: prefix maps and IRI registries

prefixmap/src/prefix_map.rs, rudof_iri/src/iri/iris.rs and rudof_iri/src/registry. Strings are lists of
characters; where the code counts bytes the model adds the UTF-8 sizes. `IndexMap` and `IndexSet` are
lists in insertion order. Colours are not modelled (no colour is set in a fresh map). Which strings are
IRIs is decided by the oxiri crate and is a parameter here.
-/

namespace Prefix

/-- A string. -/
abbrev Str := List Char

/-- `str::len`, in bytes. -/
def blen (s : Str) : Nat := (s.map fun c => c.utf8Size).sum

/-- `str::strip_prefix`. -/
def stripPrefix : Str → Str → Option Str
  | [], s => some s
  | _ :: _, [] => none
  | p :: ps, c :: cs => if p = c then stripPrefix ps cs else none

/-- `str::rsplit_once`. -/
def rsplitOnce (c : Char) : Str → Option (Str × Str)
  | [] => none
  | x :: xs =>
    match rsplitOnce c xs with
    | some (a, b) => some (x :: a, b)
    | none => if x = c then some ([], xs) else none

/-- `Iterator::max_by_key`: the last of the greatest. -/
def maxByKey {A : Type} (key : A → Nat) : List A → Option A
  | [] => none
  | x :: xs => some (xs.foldl (fun best y => if key best ≤ key y then y else best) x)

/-! ## IndexMap -/

section IndexMap
variable {K V : Type} [DecidableEq K]

/-- `IndexMap::insert`: an existing key keeps its place. -/
def imInsert (k : K) (v : V) : List (K × V) → List (K × V)
  | [] => [(k, v)]
  | e :: es => if e.1 = k then (k, v) :: es else e :: imInsert k v es

/-- `IndexMap::get`. -/
def imGet (k : K) : List (K × V) → Option V
  | [] => none
  | e :: es => if e.1 = k then some e.2 else imGet k es

/-- `IndexMap::shift_remove`, the remaining map. -/
def imRemove (k : K) : List (K × V) → List (K × V)
  | [] => []
  | e :: es => if e.1 = k then es else e :: imRemove k es

/-- `IndexMap::eq`: equal sizes, and every entry of the left is found in the right. -/
def imEq [DecidableEq V] (m n : List (K × V)) : Bool :=
  decide (m.length = n.length) && m.all fun e => decide (imGet e.1 n = some e.2)

end IndexMap

/-- `struct PrefixMap` (prefix_map.rs:13-30) without the colours. -/
structure PrefixMap where
  map : List (Str × Str)
  hyperlink : Bool
  deriving DecidableEq

namespace PrefixMap

/-- `PrefixMap::new` (prefix_map.rs:94-96). -/
def new : PrefixMap := ⟨[], false⟩

/-- `add_prefix` (prefix_map.rs:111-124). -/
def addPrefix (m : PrefixMap) (al iri : Str) : PrefixMap := { m with map := imInsert al iri m.map }

/-- `find` (prefix_map.rs:127-129). -/
def find (m : PrefixMap) (al : Str) : Option Str := imGet al m.map

/-- `remove_prefix` (prefix_map.rs:132-134): the map afterwards and the answer. -/
def removePrefix (m : PrefixMap) (al : Str) : PrefixMap × Option Str :=
  ({ m with map := imRemove al m.map }, imGet al m.map)

/-- `Iterator::next` (prefix_map.rs:589-601). -/
def next (m : PrefixMap) : Option ((Str × Str) × PrefixMap) :=
  match m.map with
  | [] => none
  | e :: es => some (e, { m with map := es })

/-- The loop of `merge` (prefix_map.rs:139-143); the number of entries bounds the turns. -/
def mergeGo : Nat → PrefixMap → PrefixMap → PrefixMap
  | 0, m, _ => m
  | n + 1, m, other =>
    match other.next with
    | none => m
    | some (e, rest) => mergeGo n (m.addPrefix e.1 e.2) rest

/-- `merge` (prefix_map.rs:139-143). -/
def merge (m other : PrefixMap) : PrefixMap := mergeGo (other.map.length + 1) m other

/-- `PartialEq::eq` (prefix_map.rs:32-36). -/
def eq (m n : PrefixMap) : Bool := imEq m.map n.map

/-- The sequence of strings given to the hasher (prefix_map.rs:38-52), for the order `le` of
strings. -/
def hashed (le : Str → Str → Bool) (m : PrefixMap) : List (Str × Str) :=
  m.map.mergeSort fun a b => le a.1 b.1

/-- `Serialize` (prefix_map.rs:54-62): the entries written. -/
def serialize (m : PrefixMap) : List (Str × Str) := m.map

/-- `Deserialize` (prefix_map.rs:64-88) of the entries read, none of which is an invalid IRI. -/
def deserialize (entries : List (Str × Str)) : PrefixMap :=
  ⟨entries.foldl (fun m e => imInsert e.1 e.2 m) [], false⟩

/-- `longest_prefix_match` (prefix_map.rs:472-481). -/
def longestMatch (m : PrefixMap) (iri : Str) : Option (Str × Str) :=
  maxByKey (fun r => blen iri - blen r.2)
    (m.map.filterMap fun e => (stripPrefix e.2 iri).map fun rest => (e.1, rest))

/-- `format_colored` (prefix_map.rs:204-210) without colours. -/
def format (al rest : Str) : Str := al ++ ':' :: rest

/-- The hyperlink around a text (prefix_map.rs:396, 436). -/
def link (iri s : Str) : Str :=
  ['\x1b', ']', '8', ';', ';'] ++ iri ++ ['\x1b', '\\'] ++ s ++ ['\x1b', ']', '8', ';', ';', '\x1b', '\\']

/-- `qualify_optional` (prefix_map.rs:391-400). -/
def qualifyOptional (m : PrefixMap) (iri : Str) : Option Str := do
  let (al, rest) ← m.longestMatch iri
  let s := format al rest
  pure (if m.hyperlink then link iri s else s)

/-- `qualify` (prefix_map.rs:363-365). -/
def qualify (m : PrefixMap) (iri : Str) : Str :=
  (m.qualifyOptional iri).getD ('<' :: iri ++ ['>'])

/-- `qualify_and_length` (prefix_map.rs:424-441). -/
def qualifyAndLength (m : PrefixMap) (iri : Str) : Str × Nat :=
  let r := match m.longestMatch iri with
    | some (al, rest) => (format al rest, blen al + 1 + blen rest)
    | none => ('<' :: iri ++ ['>'], blen iri + 2)
  if m.hyperlink then (link iri r.1, r.2) else r

/-- `qualify_local` (prefix_map.rs:467-469). -/
def qualifyLocal (m : PrefixMap) (iri : Str) : Option Str := (m.longestMatch iri).map Prod.snd

end PrefixMap

/-! ## IRIs -/

/-- `IriS::from_str` (iris.rs:319-325) and `IriS::new` (iris.rs:55-61). -/
def iriFromStr (valid : Str → Bool) (s : Str) : Option Str := if valid s then some s else none

/-- `IriS::extend` (iris.rs:82-96). -/
def iriExtend (valid : Str → Bool) (iri s : Str) : Option Str :=
  iriFromStr valid
    (if iri.getLast? = some '/' ∨ iri.getLast? = some '#' then iri ++ s else iri ++ '/' :: s)

/-- `IriS::extend_unchecked` (iris.rs:114-119). -/
def iriExtendUnchecked (iri s : Str) : Str := iri ++ s

/-- `IriS::relative_from` (iris.rs:249-256). -/
def iriRelativeFrom (iri base : Str) : Str := (stripPrefix base iri).getD iri

/-- `str::split('#').next()`. -/
def beforeFragment (s : Str) : Str := s.takeWhile fun c => c ≠ '#'

/-- `IriS::equal_without_fragment` (iris.rs:103-111). -/
def equalWithoutFragment (a b : Str) : Bool := beforeFragment a == beforeFragment b

/-- `str::trim` for a given class of white space. -/
def trim (ws : Char → Bool) (s : Str) : Str := ((s.dropWhile ws).reverse.dropWhile ws).reverse

/-- `IriS::parse_turtle` (iris.rs:157-168). -/
def parseTurtle (ws : Char → Bool) (validIri : Str → Bool) (s : Str) : Option Str :=
  let s := trim ws s
  if s.head? = some '<' ∧ s.getLast? = some '>' then iriFromStr validIri (s.drop 1).dropLast else none

namespace PrefixMap

/-- `resolve_prefix_local` (prefix_map.rs:560-577). -/
def resolvePrefixLocal (m : PrefixMap) (valid : Str → Bool) (pfx loc : Str) : Option Str :=
  match m.find pfx with
  | some iri => if loc = [] then some iri else iriExtend valid iri loc
  | none => none

/-- `resolve` (prefix_map.rs:513-518). -/
def resolve (m : PrefixMap) (valid : Str → Bool) (s : Str) : Option Str :=
  match rsplitOnce ':' s with
  | some (pfx, loc) => m.resolvePrefixLocal valid pfx loc
  | none => iriFromStr valid s

end PrefixMap

/-! ## Registry -/

section Registry
variable {I : Type} [DecidableEq I]

/-- `IndexSet::insert_full`: the set afterwards and the index. -/
def insertFull (i : I) (set : List I) : List I × Nat :=
  match set.findIdx? (fun x => decide (x = i)) with
  | some k => (set, k)
  | none => (set ++ [i], set.length)

/-- `register` (simple.rs:30-33) and, under the write lock, parallel.rs:25-28. -/
def register (reg : List I) (i : I) : List I × Nat := insertFull i reg

/-- `get` (simple.rs:35-37) and, under the read lock, parallel.rs:30-36. -/
def getIri (reg : List I) (k : Nat) : Option I := reg[k]?

/-- A sequence of registrations: the registry afterwards and the indices given out. -/
def registerAll : List I → List I → List I × List Nat
  | reg, [] => (reg, [])
  | reg, i :: is =>
    let r := register reg i
    let r' := registerAll r.1 is
    (r'.1, r.2 :: r'.2)

end Registry

end Prefix

import Verif.Shacl.Sparql

/-!
# Model: texts in SPARQL queries, and SPARQL-based constraints

`CM` is `shacl/src/validator/constraints/mod.rs`, `SM` and `SB` are `mod.rs` and `basic_validator.rs` in
`shacl/src/validator/constraints/sparql`.

Texts are lists of characters; positions in them are in bytes of UTF-8 where the code has it so. `str::to_uppercase` is
given by what it makes of each character.
-/

namespace Shacl
open Lit

/-- The language or the IRI of the datatype of a literal. -/
inductive Ann where
  | lang (t : Str)
  | type (iri : Str)
deriving DecidableEq

/-- The terms that can be written. -/
inductive WTerm where
  | iri (s : Str)
  | lit (lex : Str) (a : Ann)
deriving DecidableEq

/-- A character of `escape_sparql_string` (CM 432-439). -/
def escapeChar (c : Char) : Str :=
  if c = '\\' then ['\\', '\\']
  else if c = '"' then ['\\', '"']
  else if c = '\n' then ['\\', 'n']
  else if c = '\r' then ['\\', 'r']
  else if c = '\t' then ['\\', 't']
  else [c]

/-- `escape_sparql_string` (CM 429-442). -/
def escape (s : Str) : Str := s.flatMap escapeChar

/-- `object_as_sparql` (CM 402-418). -/
def WTerm.text : WTerm → Str
  | .iri s => '<' :: s ++ ['>']
  | .lit lex (.lang t) => '"' :: escape lex ++ ['"', '@'] ++ t
  | .lit lex (.type d) => '"' :: escape lex ++ ['"', '^', '^', '<'] ++ d ++ ['>']

mutual
/-- `path_to_sparql` (SM 10-27). -/
def pathText : Path Str → Str
  | .pred p => '<' :: p ++ ['>']
  | .alt l => '(' :: joinText '|' l ++ [')']
  | .seq l => '(' :: joinText '/' l ++ [')']
  | .inv q => '^' :: '(' :: pathText q ++ [')']
  | .star q => '(' :: pathText q ++ [')', '*']
  | .plus q => '(' :: pathText q ++ [')', '+']
  | .opt q => '(' :: pathText q ++ [')', '?']
/-- `join` of the texts. -/
def joinText (sep : Char) : List (Path Str) → Str
  | [] => []
  | [q] => pathText q
  | q :: l => pathText q ++ sep :: joinText sep l
end

/-! ## Where the focus node is put -/

/-- The length in bytes. -/
def bytes (s : Str) : Nat := (s.map Char.utf8Size).sum

/-- `str::find` of a text: what is before its first occurrence. -/
def before (pat : Str) : Str → Option Str
  | [] => if pat.isEmpty then some [] else none
  | c :: s => if pat.isPrefixOf (c :: s) then some [] else (before pat s).map (c :: ·)

/-- The two parts of a text at a position in bytes; `none` where Rust panics, inside of a character or after the end. -/
def cutBytes : Nat → Str → Option (Str × Str)
  | 0, s => some ([], s)
  | _ + 1, [] => none
  | n + 1, c :: s => if n + 1 < c.utf8Size then none else (cutBytes (n + 1 - c.utf8Size) s).map fun r => (c :: r.1, r.2)

/-- `WHERE`. -/
def kwWhere : Str := ['W', 'H', 'E', 'R', 'E']

/-- `inject_values_into_where` (SM 29-43); `none` is a panic. -/
def inject (upper : Char → Str) (query values : Str) : Option Str :=
  match before kwWhere (query.flatMap upper) with
  | none => some (values ++ ' ' :: query)
  | some pre =>
    match cutBytes (bytes pre) query with
    | none => none
    | some (a, b) =>
      match before ['{'] b with
      | none => some (values ++ ' ' :: query)
      | some c => some (a ++ c ++ '{' :: ' ' :: values ++ b.drop (c.length + 1))

/-- `str::replace` (SB 61-63), for a pattern that is not empty; the counter is the length of the text. -/
def replaceAll (pat new : Str) : Nat → Str → Str
  | 0, s => s
  | _ + 1, [] => []
  | n + 1, c :: s =>
    if pat.isPrefixOf (c :: s) then new ++ replaceAll pat new n ((c :: s).drop pat.length)
    else c :: replaceAll pat new n s

/-! ## SPARQL-based constraints -/

/-- `BasicSparql` (`shacl/src/ir/components/basic_sparql.rs`); the message is a text. -/
structure SparqlC where
  select : Str
  prefixes : Option (List (Str × Str))
  deactivated : Option Bool
  message : Str

/-- What is made a `ValidationResult` (SB 118-124); the component, the severity and the source are those of the shape. -/
structure SparqlHit (D : Type) where
  focus : Ob D
  path : Option (Path Str)
  value : Option (Ob D)
  message : Str

/-- What is outside: `to_uppercase`, `Display` of terms, and the store. -/
structure SparqlExt where
  upper : Char → Str
  shows : Term → Str
  store : Str → Option (List Row)

/-- The variable `failure`. -/
def vFailure : Str := ['f', 'a', 'i', 'l', 'u', 'r', 'e']
/-- The variable `path`. -/
def vPath : Str := ['p', 'a', 't', 'h']
/-- The variable `value`. -/
def vValue : Str := ['v', 'a', 'l', 'u', 'e']
/-- The variable `message`. -/
def vMessage : Str := ['m', 'e', 's', 's', 'a', 'g', 'e']

/-- `PREFIX` lines (SB 51-58). -/
def prefixHeader (c : SparqlC) : Str :=
  (c.prefixes.getD []).flatMap fun pi => "PREFIX ".toList ++ pi.1 ++ [':', ' ', '<'] ++ pi.2 ++ ['>', '\n']

/-- `$PATH`. -/
def kwPath : Str := ['$', 'P', 'A', 'T', 'H']

/-- `VALUES ?this { .. }` (SB 70). -/
def valuesClause (shown : Str) : Str := "VALUES ?this { ".toList ++ shown ++ [' ', '}']

section
variable {D : Type} (E : Env D) (X : SparqlExt)

/-- The query for a focus node (SB 61-72). -/
def sparqlQuery (c : SparqlC) (path : Option (Path Str)) (x : Term) : Option Str :=
  let select := replaceAll kwPath ((path.map pathText).getD []) c.select.length c.select
  (inject X.upper select (valuesClause (X.shows x))).map fun q => prefixHeader c ++ q

/-- The result for a solution (SB 78-125): an error for `?failure`, or for a term that is not an object. -/
def sparqlRow (c : SparqlC) (path : Option (Path Str)) (x : Term) (r : Row) : Option (SparqlHit D) :=
  if (r vFailure).bind E.obj matches some (.lit (.bool true)) then none
  else
    (E.obj ((r vThis).getD x)).map fun o =>
      { focus := o
        path := ((r vPath).bind fun t => match E.obj t with
          | some (.iri i) => some (.pred i)
          | _ => none).or path
        value := ((r vValue).bind E.obj).or (E.obj x)
        message := match r vMessage with
          | some m => X.shows m
          | none => c.message }

/-- The loop over the focus nodes (SB 68-127). -/
def sparqlLoop (c : SparqlC) (path : Option (Path Str)) : List Term → Outcome (List (SparqlHit D))
  | [] => .ok []
  | x :: xs =>
    match sparqlQuery X c path x with
    | none => .panic
    | some q =>
      match X.store q with
      | none => .err
      | some rows =>
        match rows.mapM (sparqlRow E X c path x) with
        | none => .err
        | some hs =>
          match sparqlLoop c path xs with
          | .ok hs' => .ok (hs ++ hs')
          | o => o

/-- `validate_sparql` of `BasicSparql` (SB 37-130). -/
def sparqlConstraint (c : SparqlC) (path : Option (Path Str)) (xs : List Term) : Outcome (List (SparqlHit D)) :=
  if c.deactivated = some true then .ok [] else sparqlLoop E X c path xs

end

end Shacl

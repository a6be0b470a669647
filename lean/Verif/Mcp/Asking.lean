import Verif.Prefix.Model

/-!
# Model: the tool of the MCP server that executes SPARQL queries

* QT = `rudof_mcp/src/service/tools/query_tools_impl.rs`
* HP = `rudof_mcp/src/service/tools/helpers.rs`
* QF = `rudof_lib/src/formats/query.rs`

Not modelled: the texts of errors, the previews (see `Mcp.Pages`), the check that the results are UTF-8 (a part of `Engine.write`), and
what is asked of the language model. What becomes of a query in `rudof_lib` is given by `Engine`.
-/

namespace Mcp.Asking

open Prefix (Str)

/-- What the standard library knows of Unicode: `char::is_whitespace` and `char::to_uppercase`. -/
structure Lib where
  ws : Char → Bool
  upper : Char → Str

/-- `str::to_uppercase`. -/
def toUpper (L : Lib) (s : Str) : Str := s.flatMap L.upper

/-- A word that is read so far. -/
def flush (w : Str) : List Str := if w = [] then [] else [w]

/-- `str::split_whitespace`, with the word that is read so far. -/
def splitFrom (L : Lib) : Str → Str → List Str
  | w, [] => flush w
  | w, c :: s => if L.ws c then flush w ++ splitFrom L [] s else splitFrom L (w ++ [c]) s

/-- The kinds of queries (`QueryType`, QF 35-45). -/
inductive Kind where
  | select
  | construct
  | ask
  | describe
deriving DecidableEq, Repr

/-- One arm of the match of `sparql_query_type` (HP 768-774). -/
def keyword (s : Str) : Option Kind :=
  if s = "SELECT".toList then some .select
  else if s = "CONSTRUCT".toList then some .construct
  else if s = "ASK".toList then some .ask
  else if s = "DESCRIBE".toList then some .describe
  else none

/-- The loop of `sparql_query_type` (HP 767-776). -/
def firstKeyword (L : Lib) : List Str → Option Kind
  | [] => none
  | w :: ws =>
    match keyword (toUpper L w) with
    | some k => some k
    | none => firstKeyword L ws

/-- `sparql_query_type` (HP 766-777). -/
def queryType (L : Lib) (q : Str) : Option Kind := firstKeyword L (splitFrom L [] q)

/-- `ResultQueryFormat` (QF 9-32). -/
inductive Format where
  | internal
  | turtle
  | nTriples
  | jsonLd
  | json
  | rdfXml
  | csv
  | markdown
  | triG
  | n3
  | nQuads
deriving DecidableEq, Repr

/-- `Display for ResultQueryFormat` (QF 51-67). -/
def Format.name : Format → Str
  | .internal => "internal".toList
  | .turtle => "turtle".toList
  | .nTriples => "ntriples".toList
  | .jsonLd => "json-ld".toList
  | .json => "json".toList
  | .rdfXml => "rdf-xml".toList
  | .csv => "csv".toList
  | .markdown => "markdown".toList
  | .triG => "trig".toList
  | .n3 => "n3".toList
  | .nQuads => "nquads".toList

/-- `ResultQueryFormat::FORMATS` (QF 88-100). -/
def formats : List (List String × Format) :=
  [(["internal", "asciitable"], .internal), (["turtle"], .turtle), (["ntriples"], .nTriples), (["json-ld", "jsonld"], .jsonLd),
   (["json"], .json), (["rdf-xml", "rdfxml"], .rdfXml), (["csv"], .csv), (["markdown"], .markdown), (["trig"], .triG), (["n3"], .n3),
   (["nquads"], .nQuads)]

/-- `ResultQueryFormat::from_str` (QF 106-110), where `eq_ignore_ascii_case` compares lower case. -/
def parseFormat (s : Str) : Option Format :=
  (formats.find? fun p => p.1.any fun a => a.toList.map Char.toLower = s.map Char.toLower).map (·.2)

/-- `str::lines`, with the line that is read so far: a last line that is empty is none. The end `\r` of a line is not modelled. -/
def linesFrom : Str → Str → List Str
  | l, [] => flush l
  | l, c :: s => if c = '\n' then l :: linesFrom [] s else linesFrom (l ++ [c]) s

/-- `join("\n")`. -/
def join : List Str → Str
  | [] => []
  | [l] => l
  | l :: ls => l ++ '\n' :: join ls

/-- The three backticks. -/
def fence : Str := "```".toList

/-- The text of the language model without its fences (QT 98-110). -/
def clean (L : Lib) (s : Str) : Str :=
  if fence.isPrefixOf s then
    Prefix.trim L.ws (join (((linesFrom [] s).drop 1).takeWhile fun l => !fence.isPrefixOf l))
  else Prefix.trim L.ws s

/-- The calls of `rudof_lib` (QT 208-247): `load_sparql_query`, `run_query` and `serialize_query_results`. -/
structure Engine (σ : Type) where
  load : Str → σ → σ × Bool
  run : σ → σ × Bool
  write : Option Format → σ → Option Str

/-- `ExecuteSparqlQueryRequest` (QT 18-32). -/
structure Request where
  query : Option Str
  natural : Option Str
  format : Option Str

/-- What the client gets: an error of the tool, an error of the protocol, or the response (QT 36-45). -/
inductive Outcome where
  | toolError
  | protocolError
  | answer (query results format : Str) (size : Nat)
deriving DecidableEq, Repr

/-- From the lock on (QT 206-291). -/
def perform {σ : Type} (E : Engine σ) (q : Str) (f : Option Format) (st : σ) : σ × Outcome :=
  match E.load q st with
  | (st, false) => (st, .protocolError)
  | (st, true) =>
    match E.run st with
    | (st, false) => (st, .protocolError)
    | (st, true) =>
      match E.write f st with
      | none => (st, .protocolError)
      | some out => (st, .answer q out ((f.getD .internal).name) (String.ofList out).utf8ByteSize)

/-- The guards by the kind of the query (QT 184-204), then the rest. -/
def guarded {σ : Type} (L : Lib) (E : Engine σ) (q : Str) (f : Option Format) (st : σ) : σ × Outcome :=
  if queryType L q = some .describe then (st, .toolError)
  else if queryType L q = some .select ∧ f.isSome ∧ f ≠ some .internal then (st, .toolError)
  else perform E q f st

/-- The format, then the rest (QT 169-182). -/
def formatted {σ : Type} (L : Lib) (E : Engine σ) (q : Str) (f : Option Str) (st : σ) : σ × Outcome :=
  match f with
  | none => guarded L E q none st
  | some s =>
    match parseFormat s with
    | none => (st, .toolError)
    | some f => guarded L E q (some f) st

/-- `execute_sparql_query_impl` (QT 136-292). `sample` is the first text of the answer of the language model, if there is one. -/
def execute {σ : Type} (L : Lib) (E : Engine σ) (sample : Str → Option Str) (r : Request) (st : σ) : σ × Outcome :=
  match r.query, r.natural with
  | some q, none => formatted L E q r.format st
  | none, some n =>
    match sample n with
    | none => (st, .protocolError)
    | some s => formatted L E (clean L s) r.format st
  | some _, some _ => (st, .toolError)
  | none, none => (st, .toolError)

end Mcp.Asking

import Verif.Prefix.Model

/-!
# Model: answers to SPARQL queries, their tables, and queries over several sources

`QS` is rudof_rdf/src/rdf_core/query/query_solution.rs, `QT` is `query_solutions.rs`, `VN` is `var_name.rs` and `VI` is
`variable_solution_index.rs` beside it; `RD` is sparql_service/src/srdf_data/rdf_data.rs; `SR` and `RQ` are
`serialize_query_results.rs` and `run_query.rs` of rudof_lib/src/api/query/implementations.

Terms of a source, their `Display`, their conversion to objects and the texts of literals are parameters, as are the drawing
of a grid (crate `tabled`) and the writing of JSON (crate `serde_json`). The writer of the crate `csv`, with its default
settings, is modelled: a field with a comma, a quotation mark or an end of line is put between quotation marks, which are
doubled inside; a record without any character is written as two quotation marks; records end with a line feed; records
of different lengths are an error. Writing to the destination does not fail here. The texts of errors are not modelled.
-/

namespace Answers

/-- A string. -/
abbrev Str := List Char

open Prefix (PrefixMap)

/-- `QuerySolution` (QS 20-26). -/
structure Sol (T : Type) where
  vars : List Str
  vals : List (Option T)
deriving DecidableEq

/-- A subject of a triple term: `IriOrBlankNode`. -/
inductive Sub where
  | iri (i : Str)
  | bnode (b : Str)
deriving DecidableEq

/-- `Object`, with literals as a parameter. -/
inductive Obj (L : Type) where
  | iri (i : Str)
  | bnode (b : Str)
  | lit (l : L)
  | triple (s : Sub) (p : Str) (o : Obj L)

/-- What is outside: `Display` of terms, `term_as_object`, `Display` of literals and their `show_qualified`. -/
structure Outside (T L : Type) where
  text : T → Str
  obj : T → Option (Obj L)
  lit : L → Str
  litQ : PrefixMap → L → Str

variable {T L U : Type}

/-- `find_solution` with a position (QS 50-55, VI 34-36). -/
def Sol.at (s : Sol T) (i : Nat) : Option T :=
  match s.vals[i]? with
  | some v => v
  | none => none

/-- `find_solution` with the name of a variable (QS 50-55, VI 49-51, VN 66-68). -/
def Sol.get (s : Sol T) (v : Str) : Option T :=
  match s.vars.findIdx? (fun x => decide (x = v)) with
  | none => none
  | some i => s.at i

/-- `convert` (QS 84-93). -/
def Sol.convert (f : T → U) (s : Sol T) : Sol U := ⟨s.vars, s.vals.map (Option.map f)⟩

/-- `Display` of `VarName` (VN 37-39). -/
def varText (v : Str) : Str := '?' :: v

/-- `show` (QS 99-109). -/
def Sol.show (O : Outside T L) (s : Sol T) : Str :=
  s.vars.flatMap fun v =>
    varText v ++ " -> ".toList ++ (match s.get v with | none => "()".toList | some t => O.text t) ++ ['\n']

/-- The entries of the map that `serialize` writes (QS 137-150). -/
def Sol.entries (O : Outside T L) (s : Sol T) : List (Str × Str) :=
  (s.vars.zip s.vals).filterMap fun e => e.2.map fun t => (e.1, O.text t)

/-- `QuerySolutions` (QT 21-26). -/
structure Sols (T : Type) where
  rows : List (Sol T)
  pm : PrefixMap
deriving DecidableEq

/-- `empty` (QT 42-47). -/
def Sols.empty : Sols T := ⟨[], PrefixMap.new⟩

/-- `extend` (QT 68-71). -/
def Sols.extend (q : Sols T) (rows : List (Sol T)) (pm : PrefixMap) : Sols T := ⟨q.rows ++ rows, q.pm.merge pm⟩

/-- `count` (QT 79-81). -/
def Sols.count (q : Sols T) : Nat := q.rows.length

/-- `Display` (QT 131-136). -/
def Sols.show (O : Outside T L) (q : Sols T) : Str := q.rows.flatMap fun s => s.show O ++ ['\n']

/-- What `serde_json::to_writer` is given (QT 20, QS 137-150): the maps and the prefix map. -/
def Sols.json (O : Outside T L) (q : Sols T) : List (List (Str × Str)) × PrefixMap := (q.rows.map (Sol.entries O), q.pm)

/-! ## Cells -/

/-- `show_qualified` of `IriOrBlankNode` (iri_or_blanknode.rs:52-57). -/
def Sub.show (pm : PrefixMap) : Sub → Str
  | .iri i => pm.qualify i
  | .bnode b => '_' :: ':' :: b

/-- `show_qualified` of `Object` (triple.rs:338-354). -/
def Obj.show (O : Outside T L) (pm : PrefixMap) : Obj L → Str
  | .iri i => pm.qualify i
  | .bnode b => '_' :: ':' :: b
  | .lit l => O.litQ pm l
  | .triple s p o =>
    "<< ".toList ++ s.show pm ++ [' '] ++ pm.qualify p ++ [' '] ++ o.show O pm ++ " >>".toList

/-- The text of an object in a cell (QT 177-190, 233-246). -/
def Obj.cell (O : Outside T L) (pm : PrefixMap) : Obj L → Str
  | .iri i => pm.qualify i
  | .bnode b => '_' :: ':' :: b
  | .lit l => O.lit l
  | .triple s p o => "<<".toList ++ s.show pm ++ [' '] ++ pm.qualify p ++ [' '] ++ o.show O pm ++ ">>".toList

/-- The text of a cell (QT 174-193, 230-249); `none` is the error of `term_as_object`. -/
def cell (O : Outside T L) (pm : PrefixMap) : Option T → Option Str
  | none => some []
  | some t => (O.obj t).map (Obj.cell O pm)

/-- The loop over the positions of the variables (QT 173-195, 229-251). -/
def cellsFrom (O : Outside T L) (pm : PrefixMap) (s : Sol T) : Nat → List Str → Option (List Str)
  | _, [] => some []
  | i, _ :: vs =>
    match cell O pm (s.at i) with
    | none => none
    | some c =>
      match cellsFrom O pm s (i + 1) vs with
      | none => none
      | some cs => some (c :: cs)

/-- The cells of a row. -/
def cells (O : Outside T L) (pm : PrefixMap) (s : Sol T) : Option (List Str) := cellsFrom O pm s 0 s.vars

/-! ## CSV -/

/-- Whether a field is put between quotation marks (`csv`, `QuoteStyle::Necessary`). -/
def needsQuotes (f : Str) : Bool := f.any fun c => c == ',' || c == '"' || c == '\r' || c == '\n'

/-- A field as it is written (`csv`). -/
def csvField (f : Str) : Str :=
  if needsQuotes f then '"' :: (f.flatMap fun c => if c = '"' then ['"', '"'] else [c]) ++ ['"'] else f

/-- The fields of a record, with commas between (`csv`). -/
def csvFields : List Str → Str
  | [] => []
  | [f] => csvField f
  | f :: g :: fs => csvField f ++ ',' :: csvFields (g :: fs)

/-- A record as it is written (`csv`). -/
def csvRecord (fs : List Str) : Str :=
  (if (csvFields fs).isEmpty then ['"', '"'] else csvFields fs) ++ ['\n']

/-- The loop over the solutions (QT 171-198): what is written, and whether it ends without an error. The fields of a record of
another length are written before the error. -/
def csvRows (O : Outside T L) (pm : PrefixMap) (n : Nat) : List (Sol T) → Str × Bool
  | [] => ([], true)
  | s :: ss =>
    match cells O pm s with
    | none => ([], false)
    | some cs =>
      if cs.length = n then
        let r := csvRows O pm n ss
        (csvRecord cs ++ r.1, r.2)
      else (csvFields cs, false)

/-- `write_csv_table` (QT 155-200). -/
def csvTable (O : Outside T L) (q : Sols T) : Str × Bool :=
  match q.rows with
  | [] => ("No results".toList, true)
  | first :: _ =>
    let header := first.vars.map varText
    let r := csvRows O q.pm header.length q.rows
    (csvRecord header ++ r.1, r.2)

/-! ## Tables -/

/-- `TableStyle` (query/mod.rs:44-50). -/
inductive Style where
  | modernRounded
  | ascii
  | markdown
deriving DecidableEq

/-- `TableFormat` (query/mod.rs:20-26). -/
inductive TFormat where
  | ascii
  | csv
  | markdown
deriving DecidableEq

/-- `TableOptions` (query/mod.rs:29-33). -/
structure Opts where
  showIndex : Bool
  style : Option Style
deriving DecidableEq

/-- `TableOptions::default` (query/mod.rs:35-42). -/
def Opts.default : Opts := ⟨false, some .modernRounded⟩

/-- The loop over the solutions (QT 225-253), from the number of the next one. -/
def gridRows (O : Outside T L) (pm : PrefixMap) : Nat → List (Sol T) → Option (List (List Str))
  | _, [] => some []
  | i, s :: ss =>
    match cells O pm s with
    | none => none
    | some cs =>
      match gridRows O pm (i + 1) ss with
      | none => none
      | some rs => some ((Nat.toDigits 10 (i + 1) :: cs) :: rs)

/-- `write_ascii_table` (QT 202-262): the text, or an error before anything is written. `draw` draws a grid. -/
def asciiTable (draw : Style → List (List Str) → Str) (O : Outside T L) (o : Opts) (q : Sols T) : Str × Bool :=
  match q.rows with
  | [] => ("No results".toList, true)
  | first :: _ =>
    match gridRows O q.pm 0 q.rows with
    | none => ([], false)
    | some rs => (draw (o.style.getD .modernRounded) (([] :: first.vars.map varText) :: rs) ++ ['\n'], true)

/-- `write_table` (QT 103-116). -/
def writeTable (draw : Style → List (List Str) → Str) (O : Outside T L) (f : TFormat) (o : Opts) (q : Sols T) : Str × Bool :=
  match f with
  | .ascii => asciiTable draw O o q
  | .markdown => asciiTable draw O o q
  | .csv => csvTable O q

/-- `ResultQueryFormat` (rudof_lib/src/formats/query.rs). -/
inductive RFormat where
  | internal | turtle | ntriples | jsonld | json | rdfxml | csv | markdown | trig | n3 | nquads
deriving DecidableEq

/-- `QueryResult` (rudof_lib/src/types/query.rs). -/
inductive Result (T : Type) where
  | select (q : Sols T)
  | construct (s : Str)
  | ask (b : Bool)

/-- `serialize_query_results` (SR 11-71): what is written, and whether it ends without an error; `json` writes JSON. -/
def serialize (draw : Style → List (List Str) → Str) (json : List (List (Str × Str)) × PrefixMap → Str) (O : Outside T L)
    (f : Option RFormat) : Option (Result T) → Str × Bool
  | none => ([], false)
  | some (.select q) =>
    match f.getD .internal with
    | .internal => writeTable draw O .ascii .default q
    | .csv => writeTable draw O .csv .default q
    | .markdown => writeTable draw O .markdown .default q
    | .json => (json (q.json O), true)
    | _ => ([], false)
  | some (.construct s) => (s ++ ['\n'], true)
  | some (.ask b) => ((if b then "true".toList else "false".toList) ++ ['\n'], true)

/-! ## Several sources

A source is the graph that was loaded or an endpoint. Its answer to a query is a parameter; `none` is an error. -/

/-- The loop of `query_select` over the endpoints (RD 400-405). -/
def selectFrom (f : T → U) : Sols U → List (Option (Sols T) × PrefixMap) → Option (Sols U)
  | q, [] => some q
  | _, (none, _) :: _ => none
  | q, (some r, pm) :: es => selectFrom f (q.extend (r.rows.map (Sol.convert f)) pm) es

/-- `query_select` (RD 385-408); each source has an answer and a prefix map. -/
def select (f : T → U) (primary : Option (Sols T) × PrefixMap) (ends : List (Option (Sols T) × PrefixMap)) :
    Option (Sols U) :=
  match primary.1 with
  | none => none
  | some r => selectFrom f (Sols.empty.extend (r.rows.map (Sol.convert f)) primary.2) ends

/-- `query_ask` (RD 410-424); errors are `none`. -/
def ask : List (Option Bool) → Option Bool
  | [] => some false
  | none :: _ => none
  | some true :: _ => some true
  | some false :: es => ask es

/-- `query_construct` (RD 370-383). -/
def construct (primary : Option Str) (ends : List (Option Str)) : Option Str :=
  ends.foldl (fun out e => out.bind fun o => e.map fun x => o ++ x) primary

/-- The kinds of queries (`detect_query_type`, rudof_lib/src/utils/utils.rs:87-97). -/
inductive Kind where
  | select | construct | ask | describe
deriving DecidableEq

/-- How a call ends. -/
inductive End (A : Type) where
  | ok (a : A)
  | err
  | panic
deriving DecidableEq

/-- `run_query` (RQ 11-64) on a graph that is loaded, with the answers of its sources: the results that are kept. -/
def runQuery (k : Kind) (sel : Option (Sols T)) (con : Option Str) (as : Option Bool) : End (Result T) :=
  match k with
  | .select => match sel with | some q => .ok (.select q) | none => .err
  | .construct => match con with | some s => .ok (.construct s) | none => .err
  | .ask => match as with | some b => .ok (.ask b) | none => .err
  | .describe => .panic

end Answers

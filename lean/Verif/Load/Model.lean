import Verif.Load.Text

/-!
# Model: loading of data

rudof_lib/src/api/data/implementations/load_data.rs with rudof_lib/src/types/data.rs and the parts of
sparql_service/src/srdf_data/rdf_data.rs it uses. The RDF readers, the parser of property graphs and
their union are parameters (they are modelled elsewhere), as are the file system and the network: an
input carries what opening and reading it gives. Messages of errors are not modelled. The loader of the
QLever back end is not modelled.
-/

namespace Load

open Prefix (Str PrefixMap)

/-- `enum DataFormat` (formats/data.rs:17-35). -/
inductive Format where
  | turtle
  | ntriples
  | rdfxml
  | trig
  | n3
  | nquads
  | jsonld
  | pg
  deriving DecidableEq

/-- `enum DataReaderMode` (formats/data.rs:42-); strict is the default. -/
inductive Mode where
  | lax
  | strict
  deriving DecidableEq

/-- An input specification with what `open_read` gives: `none` if it cannot be opened, `some none` if
it is not text, else the text. A second use of the standard input carries an empty text. -/
structure Input where
  source : Source
  opened : Option (Option Str)
  deriving DecidableEq

/-- `RdfData` (rdf_data.rs:25-43): the graph and the prefixes of the primary back end, the endpoints
known and those in use, hash maps as lists of entries. -/
structure Rdf (G : Type) where
  store : G × PrefixMap
  endpoints : List (Str × Endpoint)
  used : List (Str × Endpoint)

/-- `enum Data` (types/data.rs:5-8). -/
inductive Data (G P : Type) where
  | rdf (r : Rdf G)
  | pg (p : P)

/-- What the loader uses of its surroundings. -/
structure Env (G P : Type) where
  /-- `char::is_whitespace`. -/
  ws : Char → Bool
  /-- Whether `IriS::from_str` takes a text. -/
  validIri : Str → Bool
  /-- Whether `OxigraphEndpoint::new` makes a client of an IRI. -/
  reachable : Str → Bool
  /-- The base of the ShEx configuration. -/
  configBase : Option Str
  /-- The URL of the current directory, if it can be made. -/
  cwdBase : Option Str
  /-- The endpoints of the configuration, in the order of the hash map. -/
  configEndpoints : List (Str × Endpoint)
  /-- The default prefixes. -/
  defaults : Option PrefixMap
  /-- The graph of `RdfBackend::default`. -/
  emptyGraph : G
  /-- `merge_from_reader` (rdf_data.rs:150-173): the store afterwards and whether it succeeded. -/
  read : Format → Str → Mode → Option Str → G × PrefixMap → (G × PrefixMap) × Bool
  /-- `PropertyGraph::new`. -/
  emptyPg : P
  /-- `PgBuilder::parse_pg`. -/
  parsePg : Str → Option P
  /-- `PropertyGraph::merge`. -/
  mergePg : P → P → P

/-- How a call ends. -/
inductive Outcome where
  | ok
  | err
  | panic
  deriving DecidableEq

section
variable {G P : Type}

/-- `get_base_iri` (utils/utils.rs:36-70). -/
def getBase (e : Env G P) (base : Option Str) : Option Str :=
  match base with
  | some b => if e.validIri b then some b else none
  | none =>
    match e.configBase with
    | some b => some b
    | none => e.cwdBase

/-- `with_rdf_data_config` (rdf_data.rs:81-95): each endpoint of the configuration is added. -/
def addEndpoints (reachable : Str → Bool) : List (Str × Endpoint) → List (Str × Endpoint) →
    Option (List (Str × Endpoint))
  | known, [] => some known
  | known, (n, ep) :: rest =>
    if reachable ep.iri then addEndpoints reachable (Prefix.imInsert n ep known) rest else none

/-- `init_rdf_data_with_config` (load_data.rs:326-336). -/
def initRdf (e : Env G P) : Option (Rdf G) :=
  match addEndpoints e.reachable [] e.configEndpoints with
  | some eps => some ⟨(e.emptyGraph, PrefixMap.new), eps, []⟩
  | none => none

/-- The first lines of `read_rdf_data` (load_data.rs:187-190): the data read into. -/
def target (e : Env G P) (merge : Bool) (st : Option (Data G P)) : Option (Rdf G) :=
  match merge, st with
  | true, some (.rdf r) => some r
  | _, _ => initRdf e

/-- `read_rdf_data` (load_data.rs:178-237). -/
def readRdf (e : Env G P) (fmt : Format) (base : Str) (mode : Mode) (merge : Bool) (text : Option Str)
    (st : Option (Data G P)) : Option (Data G P) × Outcome :=
  match target e merge st with
  | none => (st, .err)
  | some r =>
    if fmt = .turtle then
      match text with
      | none => (some (.rdf r), .err)
      | some t =>
        let res := e.read fmt base mode (some (header e.ws e.defaults t .turtle ++ t)) r.store
        (some (.rdf { r with store := res.1 }), if res.2 then .ok else .err)
    else
      let res := e.read fmt base mode text r.store
      (some (.rdf { r with store := res.1 }), if res.2 then .ok else .err)

/-- The loop of `load_data_from_specs_rdf` (load_data.rs:88-106). -/
def readAllRdf (e : Env G P) (fmt : Format) (base : Str) (mode : Mode) (merge : Bool) :
    List Input → Option (Data G P) → Option (Data G P) × Outcome
  | [], st => (st, .ok)
  | i :: is, st =>
    match i.opened with
    | none => (st, .err)
    | some text =>
      match readRdf e fmt base mode merge text st with
      | (st, .ok) => readAllRdf e fmt base mode merge is st
      | (st, o) => (st, o)

/-- `load_user_prefixes` (load_data.rs:120-176). -/
def userPrefixes (e : Env G P) (i : Input) : Option PrefixMap :=
  if i.source = .stdin then none
  else
    match i.opened with
    | none => none
    | some none => none
    | some (some t) =>
      match i.source with
      | .str _ => addDecl e.ws e.validIri PrefixMap.new (Prefix.trim e.ws t)
      | _ => addLines e.ws e.validIri PrefixMap.new (splitLines t)

/-- The loop over the inputs with prefixes (load_data.rs:111-113). -/
def allUserPrefixes (e : Env G P) : PrefixMap → List Input → Option PrefixMap
  | pm, [] => some pm
  | pm, i :: is =>
    match userPrefixes e i with
    | none => none
    | some p => allUserPrefixes e (pm.merge p) is

/-- `load_data_from_specs_rdf` (load_data.rs:79-118). The `unwrap`s panic if there are no RDF data. -/
def loadRdf (e : Env G P) (data : List Input) (fmt : Format) (base : Str) (mode : Mode) (merge : Bool)
    (prefixes : Option (List Input)) (st : Option (Data G P)) : Option (Data G P) × Outcome :=
  match readAllRdf e fmt base mode merge data st with
  | (st, .ok) =>
    match prefixes with
    | none => (st, .ok)
    | some ps =>
      match allUserPrefixes e PrefixMap.new ps with
      | none => (st, .err)
      | some pm =>
        match st with
        | some (.rdf r) => (some (.rdf { r with store := (r.store.1, r.store.2.merge pm) }), .ok)
        | _ => (st, .panic)
  | (st, o) => (st, o)

/-- `read_pg_data` (load_data.rs:239-265). -/
def readPg (e : Env G P) (merge : Bool) (text : Option Str) (st : Option (Data G P)) :
    Option (Data G P) × Outcome :=
  let p := match merge, st with
    | true, some (.pg p) => p
    | _, _ => e.emptyPg
  match text with
  | none => (some (.pg p), .err)
  | some t =>
    match e.parsePg t with
    | none => (some (.pg p), .err)
    | some q => (some (.pg (e.mergePg p q)), .ok)

/-- `load_data_from_specs_pg` (load_data.rs:63-77). -/
def loadPg (e : Env G P) (merge : Bool) : List Input → Option (Data G P) → Option (Data G P) × Outcome
  | [], st => (st, .ok)
  | i :: is, st =>
    match i.opened with
    | none => (st, .err)
    | some text =>
      match readPg e merge text st with
      | (st, .ok) => loadPg e merge is st
      | (st, o) => (st, o)

/-- `load_data_from_endpoint` (load_data.rs:267-276, 317-324). -/
def loadEndpoint (e : Env G P) (s : Str) (st : Option (Data G P)) : Option (Data G P) × Outcome :=
  match initRdf e with
  | none => (st, .err)
  | some r =>
    match getEndpoint e.ws e.validIri e.reachable r.endpoints s with
    | none => (some (.rdf r), .err)
    | some ep => (some (.rdf { r with used := Prefix.imInsert s ep r.used }), .ok)

/-- The arguments of `load_data`. -/
structure Args where
  data : Option (List Input)
  format : Option Format
  base : Option Str
  endpoint : Option Str
  mode : Option Mode
  merge : Option Bool
  prefixes : Option (List Input)

/-- `load_data` (load_data.rs:19-61). -/
def loadData (e : Env G P) (a : Args) (st : Option (Data G P)) : Option (Data G P) × Outcome :=
  match getBase e a.base with
  | none => (st, .err)
  | some base =>
    match a.data, a.endpoint with
    | some _, some _ => (st, .err)
    | some l, none =>
      match a.format.getD .turtle with
      | .pg => loadPg e (a.merge.getD true) l st
      | f => loadRdf e l f base (a.mode.getD .strict) (a.merge.getD true) a.prefixes st
    | none, some s => loadEndpoint e s st
    | none, none => (st, .err)

end

end Load

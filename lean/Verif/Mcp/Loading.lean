import Verif.Load.Model

/-!
# Model: loading of data through the MCP server, and what is kept of them

* DT = `rudof_mcp/src/service/tools/data_tools_impl.rs`
* MS = `rudof_mcp/src/service/mcp_service.rs`

The loader is that of `Verif/Load/Model.lean`, as `LoadDataBuilder::execute` calls it (`rudof_lib/src/api/data/builders/load_data.rs:49-52,
76-79, 93-114`). Parameters: `InputSpec::from_str` and `DataFormat::from_str`, by their results; `serialize_data` for N-Triples. Saving the
state is one step here, and succeeds (`Verif/Mcp/State.lean` is about how it is saved).
-/

namespace Mcp.Loading

open Load Prefix

variable {G P : Type}

/-- `LoadRdfDataFromSourcesRequest`: of each source and of the format, what reading it gives. -/
structure Request where
  data : Option (List (Option Input))
  format : Option (Option Format)
  base : Option Str
  endpoint : Option Str

/-- How a call ends: the text that was counted, an error of the tool, an error of the protocol, a panic. -/
inductive Answer where
  | loaded (ntriples : Str)
  | toolError
  | protocolError
  | panic
  deriving DecidableEq

/-- The sources, if all can be read (DT 139-153). -/
def specs : List (Option Input) → Option (List Input)
  | [] => some []
  | none :: _ => none
  | some i :: l => (specs l).map (i :: ·)

/-- `load_rdf_data_from_sources_impl` while it holds the lock (DT 124-228). -/
def locked (e : Env G P) (ser : Option (Data G P) → Option Str) (r : Request) (st : Option (Data G P)) : Option (Data G P) × Answer :=
  let entries := r.data.getD []
  if entries.isEmpty && r.endpoint.isNone then (st, .toolError)
  else
    match specs entries with
    | none => (st, .toolError)
    | some l =>
      match r.format.getD (some .turtle) with
      | none => (st, .toolError)
      | some f =>
        match loadData e ⟨some l, some f, r.base, r.endpoint, none, none, none⟩ st with
        | (st, .ok) =>
          match ser st with
          | none => (st, .protocolError)
          | some t => (st, .loaded t)
        | (st, .err) => (st, .protocolError)
        | (st, .panic) => (st, .panic)

/-- `count_triples_in_ntriples` (MS 176-184). `str::lines` gives no empty line at the end and takes off carriage returns, which changes
nothing, since lines are trimmed and empty ones are left out. -/
def count (ws : Char → Bool) (t : Str) : Nat :=
  ((splitLines t).filter fun l => !(trim ws l).isEmpty && (trim ws l).head? != some '#').length

/-- The server: its data, the text in the file of its state, and what its clients have still to save. -/
structure Server (G P : Type) where
  mem : Option (Data G P)
  disk : Option Str
  pending : Nat → Option Str

/-- What the calls of clients do, in the order in which they do it. -/
inductive Event where
  | lock (client : Nat) (r : Request)
  | persist (client : Nat)

/-- One step: a call under the lock, or the save after it (DT 226-234; MS 200-228). -/
def step (e : Env G P) (ser : Option (Data G P) → Option Str) (s : Server G P) : Event → Server G P
  | .lock k r =>
    match locked e ser r s.mem with
    | (m, .loaded t) => { s with mem := m, pending := fun i => if i = k then some t else s.pending i }
    | (m, _) => { s with mem := m }
  | .persist k =>
    match s.pending k with
    | none => s
    | some t => { s with disk := some t, pending := fun i => if i = k then none else s.pending i }

/-- Steps, one after the other. -/
def run (e : Env G P) (ser : Option (Data G P) → Option Str) (s : Server G P) (es : List Event) : Server G P := es.foldl (step e ser) s

/-- `try_new` (MS 123-158): what a new server has of the text in the file of the state. -/
def restart (e : Env G P) (disk : Option Str) : Option (Data G P) :=
  match disk with
  | none => none
  | some [] => none
  | some t => (loadData e ⟨some [⟨.str t, some (some t)⟩], some .ntriples, none, none, none, none, none⟩ none).1

end Mcp.Loading

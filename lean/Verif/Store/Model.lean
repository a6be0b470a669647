/-!
# The graph kept in memory

A model of `OxigraphInMemory` (rudof_rdf/src/rdf_impl/oxigraph/in_memory.rs): what its operations do
to the triples, to the SPARQL store that is built once, to the base and to the counter of blank nodes.

Outside the model: the crates `oxrdf` (a graph is a set of triples with its indexes), `oxttl`,
`oxrdfxml` and `oxjsonld` (a document is the list of results their parsers yield), `oxigraph` (a query
is a function of the triples of the store), and the prefix map, which has its own model in `Prefix`.
-/

namespace Store

/-- A triple, as in `Shex.Graph`: subject, predicate, object (`oxrdf::Triple`). -/
abbrev Tr (N P : Type) := N × P × N

/-- `ReaderMode` (in_memory.rs:1180-1197). -/
inductive Mode where
  | strict | lax
  deriving DecidableEq, Repr

/-- `RDFFormat` (rudof_rdf/src/rdf_core/rdf_format.rs). -/
inductive Format where
  | turtle | ntriples | rdfxml | trig | n3 | nquads | jsonld
  deriving DecidableEq, Repr

/-- A document, as the parser of its format shows it: the results it yields, `none` for an error.
`badBase` says that `with_base_iri` refuses the base, `badPrefixes` that the prefixes found cannot
be turned into a prefix map; both only matter for Turtle (in_memory.rs:187-190, 226). The graph
names of N-Quads are dropped on insertion (in_memory.rs:326), so a result is a triple there too. -/
structure Doc (N P : Type) where
  items : List (Option (Tr N P))
  badBase : Bool := false
  badPrefixes : Bool := false

/-- How a call ends. -/
inductive End where
  | ok | err | panic
  deriving DecidableEq, Repr

/-- The fields of `OxigraphInMemory` (in_memory.rs:43-63) without the focus and the prefix map. The
graph is a set: `insert` keeps the list free of repetitions. The counter is unbounded here. -/
structure Mem (N P : Type) where
  graph : List (Tr N P)
  base : Option String
  counter : Nat
  store : Option (List (Tr N P))
  deriving DecidableEq

section
variable {N P : Type} [DecidableEq N] [DecidableEq P]

/-- `empty` (in_memory.rs:1041-1051). -/
def Mem.empty : Mem N P := ⟨[], none, 0, none⟩

/-- `Graph::insert` of `oxrdf`. -/
def insert (t : Tr N P) (g : List (Tr N P)) : List (Tr N P) := if t ∈ g then g else g ++ [t]

/-- `Graph::remove` of `oxrdf`. -/
def remove (t : Tr N P) (g : List (Tr N P)) : List (Tr N P) := g.filter fun u => decide (u ≠ t)

/-- `add_triple` (in_memory.rs:989-998). -/
def Mem.add (t : Tr N P) (g : Mem N P) : Mem N P := { g with graph := insert t g.graph }

/-- `remove_triple` (in_memory.rs:1007-1016). -/
def Mem.del (t : Tr N P) (g : Mem N P) : Mem N P := { g with graph := remove t g.graph }

/-- `add_type` (in_memory.rs:1026-1034); the first argument is `rdf:type`. -/
def Mem.addType (rdfType : P) (n c : N) (g : Mem N P) : Mem N P := g.add (n, rdfType, c)

/-- `add_bnode` (in_memory.rs:974-980): the number of the new node. -/
def Mem.bnode (g : Mem N P) : Nat × Mem N P :=
  (g.counter + 1, { g with counter := g.counter + 1 })

/-- The loops of `parse_turtle`, `parse_ntriples`, `parse_rdfxml`, `parse_nquads` and `parse_jsonld`
(in_memory.rs:195-218, 250-260, 284-294, 318-327, 351-360), with `handle_parse_error`
(in_memory.rs:1157-1172). `valid` is `validate_triple_iris`. The flag tells whether the loop ended
without an error; the graph is changed in place. -/
def readLoop (valid : Tr N P → Bool) (m : Mode) :
    List (Option (Tr N P)) → List (Tr N P) → Bool × List (Tr N P)
  | [], g => (true, g)
  | none :: ds, g =>
    match m with
    | .strict => (false, g)
    | .lax => readLoop valid m ds g
  | some t :: ds, g =>
    if valid t then readLoop valid m ds (insert t g)
    else match m with
      | .strict => (false, g)
      | .lax => readLoop valid m ds g

/-- `parse_turtle` (in_memory.rs:180-229). -/
def Mem.parseTurtle (valid : Tr N P → Bool) (m : Mode) (d : Doc N P) (base : Option String)
    (g : Mem N P) : End × Mem N P :=
  if base.isSome && d.badBase then (.err, g)
  else
    let r := readLoop valid m d.items g.graph
    if !r.1 then (.err, { g with graph := r.2 })
    else
      let g' := { g with graph := r.2, base := match base with | none => g.base | some b => some b }
      if d.badPrefixes then (.err, g') else (.ok, g')

/-- `parse_ntriples`, `parse_rdfxml`, `parse_nquads`, `parse_jsonld` (in_memory.rs:241-363). -/
def Mem.parsePlain (m : Mode) (d : Doc N P) (g : Mem N P) : End × Mem N P :=
  let r := readLoop (fun _ => true) m d.items g.graph
  (if r.1 then .ok else .err, { g with graph := r.2 })

/-- The choice of the parser in `merge_from_reader` (in_memory.rs:138-161). -/
def Mem.parse (valid : Tr N P → Bool) (f : Format) (m : Mode) (d : Doc N P) (base : Option String)
    (g : Mem N P) : End × Mem N P :=
  match f with
  | .turtle => g.parseTurtle valid m d base
  | .ntriples => g.parsePlain m d
  | .rdfxml => g.parsePlain m d
  | .trig => (.panic, g)
  | .n3 => (.panic, g)
  | .nquads => g.parsePlain m d
  | .jsonld => g.parsePlain m d

/-- `merge_from_reader` (in_memory.rs:130-166). -/
def Mem.merge (valid : Tr N P → Bool) (f : Format) (m : Mode) (d : Doc N P) (base : Option String)
    (g : Mem N P) : End × Mem N P :=
  let r := g.parse valid f m d base
  match r.1, base with
  | .ok, some b => (.ok, { r.2 with base := some b })
  | e, _ => (e, r.2)

/-- `ensure_store` (in_memory.rs:591-601); loading the quads does not fail here. -/
def Mem.ensureStore (g : Mem N P) : Mem N P :=
  match g.store with
  | some _ => g
  | none => { g with store := some g.graph }

/-- `query_ask` (in_memory.rs:1325-1345), with the parser and the evaluator of `oxigraph` as a
parameter: `none` for an error. -/
def Mem.ask {Q : Type} (eval : Q → List (Tr N P) → Option Bool) (q : Q) (g : Mem N P) : Option Bool :=
  match g.store with
  | none => some false
  | some st => eval q st

/-- `query_select` (in_memory.rs:1295-1320). -/
def Mem.select {Q R : Type} (eval : Q → List (Tr N P) → Option (List R)) (q : Q) (g : Mem N P) :
    Option (List R) :=
  match g.store with
  | none => some []
  | some st => eval q st

/-- `triples_matching` (in_memory.rs:734-803); the indexes of `oxrdf` list the triples with given
components. -/
def matching (g : List (Tr N P)) (s : Option N) (p : Option P) (o : Option N) : List (Tr N P) :=
  match s, p, o with
  | some s, some p, some o => if (s, p, o) ∈ g then [(s, p, o)] else []
  | some s, some p, none =>
    (g.filterMap fun t => if t.1 = s ∧ t.2.1 = p then some t.2.2 else none).map fun o => (s, p, o)
  | some s, none, some o => (g.filter fun t => decide (t.1 = s)).filter fun t => decide (t.2.2 = o)
  | some s, none, none => g.filter fun t => decide (t.1 = s)
  | none, some p, some o =>
    (g.filterMap fun t => if t.2.1 = p ∧ t.2.2 = o then some t.1 else none).map fun s => (s, p, o)
  | none, some p, none => g.filter fun t => decide (t.2.1 = p)
  | none, none, some o => g.filter fun t => decide (t.2.2 = o)
  | none, none, none => g

/-- The calls that may change the graph or the store. -/
inductive Op (N P : Type) where
  | add (t : Tr N P)
  | del (t : Tr N P)
  | type (n c : N)
  | read (f : Format) (m : Mode) (d : Doc N P) (base : Option String)
  | ensure
  | bnode

/-- One call; what it answers is dropped. -/
def step (rdfType : P) (valid : Tr N P → Bool) (g : Mem N P) : Op N P → Mem N P
  | .add t => g.add t
  | .del t => g.del t
  | .type n c => g.addType rdfType n c
  | .read f m d base => (g.merge valid f m d base).2
  | .ensure => g.ensureStore
  | .bnode => g.bnode.2

/-- A sequence of calls on an empty graph. -/
def run (rdfType : P) (valid : Tr N P → Bool) (ops : List (Op N P)) : Mem N P :=
  ops.foldl (step rdfType valid) Mem.empty

/-- The numbers of the blank nodes that a sequence of calls yields. -/
def names (rdfType : P) (valid : Tr N P → Bool) : Mem N P → List (Op N P) → List Nat
  | _, [] => []
  | g, .bnode :: ops => g.bnode.1 :: names rdfType valid g.bnode.2 ops
  | g, op :: ops => names rdfType valid (step rdfType valid g op) ops

end

end Store

import Verif.Store.Model
import Verif.Shex.ModelShape

/-!
# Data from a graph and from SPARQL services

A model of the neighbourhoods that `OxigraphInMemory`, `OxigraphEndpoint`, `RdfBackend` and `RdfData`
give to the ShEx engine: rudof_rdf/src/rdf_core/neighs_rdf.rs,
rudof_rdf/src/rdf_impl/oxigraph/endpoint.rs, rudof_rdf/src/rdf_impl/backend.rs and
sparql_service/src/srdf_data/rdf_data.rs.

Outside the model: the network, rate limits and retries (a service answers or does not), the
reading of its answers, the QLever backend, prefix maps.
-/

namespace Store

/-- The kinds of terms that matter here: those that may be subjects (`term_as_subject`) and blank
nodes, which a SPARQL query takes for variables. -/
structure Kinds (N : Type) where
  isSubject : N → Bool
  isBlank : N → Bool

/-- `HashMap<IRI, HashSet<Term>>`. -/
abbrev Arcs (N P : Type) := List (P × List N)

section
variable {N P : Type} [DecidableEq N] [DecidableEq P]

/-- `HashSet::insert`. -/
def setPut (v : N) (vs : List N) : List N := if v ∈ vs then vs else vs ++ [v]

/-- `entry(p).or_default().insert(v)`. -/
def Arcs.put (p : P) (v : N) : Arcs N P → Arcs N P
  | [] => [(p, [v])]
  | x :: a => if x.1 = p then (x.1, setPut v x.2) :: a else x :: Arcs.put p v a

/-- `entry(p).or_default()`. -/
def Arcs.touch (p : P) : Arcs N P → Arcs N P
  | [] => [(p, [])]
  | x :: a => if x.1 = p then x :: a else x :: Arcs.touch p a

/-- `entry(p).or_default().extend(vs)`. -/
def Arcs.putAll (p : P) (vs : List N) (a : Arcs N P) : Arcs N P :=
  vs.foldl (fun a v => a.put p v) (a.touch p)

/-- The two loops that read such a map (engine.rs:1635-1641). -/
def Arcs.pairs (a : Arcs N P) : List (P × N) := a.flatMap fun x => x.2.map fun v => (x.1, v)

/-- `outgoing_arcs_from_list` of the trait (neighs_rdf.rs:203-222), over the triples of the subject;
it is what `OxigraphInMemory` uses. -/
def splitArcs (preds : List P) (ts : List (Tr N P)) : Arcs N P × List P :=
  ts.foldl (fun r t => if t.2.1 ∈ preds then (r.1.put t.2.1 t.2.2, r.2) else (r.1, r.2 ++ [t.2.1]))
    ([], [])

/-- `incoming_arcs_from_list` of the trait (neighs_rdf.rs:232-245), over the triples of the object. -/
def inArcs (preds : List P) (ts : List (Tr N P)) : Arcs N P :=
  ts.foldl (fun a t => if t.2.1 ∈ preds then a.put t.2.1 t.1 else a) []

/-- `outgoing_arcs_from_list` for a graph in memory (neighs_rdf.rs:203-222). -/
def memOutgoing (g : List (Tr N P)) (s : N) (preds : List P) : Arcs N P × List P :=
  splitArcs preds (matching g (some s) none none)

/-- A SPARQL service and what is remembered of it: the triples it answers from, whether it answers
at all, and `triple_cache` (endpoint.rs:64-67). -/
structure Endpoint (N P : Type) where
  content : List (Tr N P)
  up : Bool
  cache : N → P → Option (List N)

/-- `OxigraphEndpoint::new` (endpoint.rs:159-175). -/
def Endpoint.new (content : List (Tr N P)) (up : Bool) : Endpoint N P :=
  ⟨content, up, fun _ _ => none⟩

/-- Does a term written in a SPARQL query stand for a term of the data? A blank node stands for
any. -/
def stands (K : Kinds N) (x : N) (y : N) : Bool := K.isBlank x || decide (y = x)

/-- The rows of `SELECT ?p ?o WHERE { s ?p ?o FILTER(?p IN (…)) }` (endpoint.rs:708-712). -/
def rows (K : Kinds N) (w : List (Tr N P)) (s : N) (preds : List P) : List (P × N) :=
  (w.filter fun t => stands K s t.1 && decide (t.2.1 ∈ preds)).map fun t => t.2

/-- `subject_entry.entry(p).or_default().insert(o)` (endpoint.rs:745). -/
def cachePut (s : N) (r : P × N) (c : N → P → Option (List N)) : N → P → Option (List N) :=
  fun n p => if n = s ∧ p = r.1 then some (setPut r.2 ((c n p).getD [])) else c n p

/-- The cache read pass (endpoint.rs:684-700) on the map of results. -/
def Endpoint.known (e : Endpoint N P) (s : N) (preds : List P) (a : Arcs N P) : Arcs N P :=
  preds.foldl (fun a p =>
    match e.cache s p with
    | some vs => Arcs.putAll p vs a
    | none => a) a

/-- `outgoing_arcs_from_list` of a service (endpoint.rs:672-754); it always leaves the remainder
empty. `none` when the service does not answer. -/
def Endpoint.outgoing (K : Kinds N) (e : Endpoint N P) (s : N) (preds : List P) :
    Option (Arcs N P) × Endpoint N P :=
  if preds.isEmpty then (some [], e)
  else
    let results := e.known s preds []
    let uncached := preds.filter fun p => (e.cache s p).isNone
    if uncached.isEmpty then (some results, e)
    else if !e.up then (none, e)
    else
      let rs := rows K e.content s uncached
      let marked : N → P → Option (List N) := fun n p =>
        if n = s ∧ p ∈ uncached then some ((e.cache n p).getD []) else e.cache n p
      (some (rs.foldl (fun a r => a.put r.1 r.2) results),
        { e with cache := rs.foldl (fun c r => cachePut s r c) marked })

/-- Does a triple match the pattern of a query? A blank node in both places is one variable. -/
def svcMatch (K : Kinds N) (s : Option N) (p : Option P) (o : Option N) (t : Tr N P) : Bool :=
  (s.all fun x => stands K x t.1) && (p.all fun x => decide (t.2.1 = x)) &&
    (o.all fun x => stands K x t.2.2) &&
    (s.all fun x => o.all fun y => if K.isBlank x ∧ x = y then decide (t.1 = t.2.2) else true)

/-- `triples_matching` of a service (endpoint.rs:599-665). -/
def Endpoint.matching (K : Kinds N) (e : Endpoint N P) (s : Option N) (p : Option P)
    (o : Option N) : Option (List (Tr N P)) :=
  if e.up then
    some ((e.content.filter (svcMatch K s p o)).map fun t =>
      (s.getD t.1, p.getD t.2.1, o.getD t.2.2))
  else none

/-- `RdfBackend` (backend.rs:22-29). -/
inductive Backend (N P : Type) where
  | mem (g : List (Tr N P))
  | endpoint (e : Endpoint N P)

/-- `RdfData` (rdf_data.rs:24-32): the primary backend and the services in use, in the order in
which the map of services lists them. -/
structure Data (N P : Type) where
  primary : Backend N P
  uses : List (Endpoint N P)

/-- `triples_matching` (backend.rs:163-185). -/
def Backend.matching (K : Kinds N) (b : Backend N P) (s : Option N) (p : Option P)
    (o : Option N) : Option (List (Tr N P)) :=
  match b with
  | .mem g => some (Store.matching g s p o)
  | .endpoint e => e.matching K s p o

/-- `outgoing_arcs_from_list` (backend.rs:187-218). -/
def Backend.outgoing (K : Kinds N) (b : Backend N P) (s : N) (preds : List P) :
    Option (Arcs N P × List P) × Backend N P :=
  match b with
  | .endpoint e =>
    let r := e.outgoing K s preds
    (r.1.map fun a => (a, []), .endpoint r.2)
  | .mem g => if preds.isEmpty then (some ([], []), b) else (some (memOutgoing g s preds), b)

/-- The services of `triples_matching` one after the other (rdf_data.rs:461-464). -/
def usesMatching (K : Kinds N) (s : Option N) (p : Option P) (o : Option N) :
    List (Endpoint N P) → Option (List (Tr N P))
  | [] => some []
  | e :: es =>
    match e.matching K s p o with
    | none => none
    | some ts => (usesMatching K s p o es).map fun r => ts ++ r

/-- `triples_matching` (rdf_data.rs:445-466). -/
def Data.matching (K : Kinds N) (D : Data N P) (s : Option N) (p : Option P) (o : Option N) :
    Option (List (Tr N P)) :=
  match D.primary.matching K s p o with
  | none => none
  | some ts => (usesMatching K s p o D.uses).map fun r => ts ++ r

/-- `triples` (rdf_data.rs:428-443): a service that does not answer is left out. -/
def Data.triples (K : Kinds N) (D : Data N P) : Option (List (Tr N P)) :=
  (D.primary.matching K none none none).map fun ts =>
    ts ++ D.uses.flatMap fun e => (e.matching K none none none).getD []

/-- The services of `outgoing_arcs_from_list` one after the other (rdf_data.rs:488-493). -/
def usesOutgoing (K : Kinds N) (s : N) (preds : List P) :
    Arcs N P → List (Endpoint N P) → Option (Arcs N P) × List (Endpoint N P)
  | a, [] => (some a, [])
  | a, e :: es =>
    let r := e.outgoing K s preds
    match r.1 with
    | none => (none, r.2 :: es)
    | some b =>
      let r' := usesOutgoing K s preds (b.foldl (fun a x => a.putAll x.1 x.2) a) es
      (r'.1, r.2 :: r'.2)

/-- `outgoing_arcs_from_list` (rdf_data.rs:468-498). -/
def Data.outgoing (K : Kinds N) (D : Data N P) (s : N) (preds : List P) :
    Option (Arcs N P × List P) × Data N P :=
  if preds.isEmpty then (some ([], []), D)
  else
    let r := D.primary.outgoing K s preds
    match r.1 with
    | none => (none, { D with primary := r.2 })
    | some (a, rem) =>
      let r' := usesOutgoing K s preds a D.uses
      (r'.1.map fun a' => (a', rem), ⟨r.2, r'.2⟩)

/-- `incoming_arcs_from_list` of the trait for `RdfData` (neighs_rdf.rs:232-245). -/
def Data.incoming (K : Kinds N) (D : Data N P) (o : N) (preds : List P) : Option (Arcs N P) :=
  (D.matching K none none (some o)).map (inArcs preds)

/-- `neighs` of the engine (engine.rs:1618-1667) for given ways to find the arcs. -/
def neighsBy (K : Kinds N) (out : N → List P → Option (Arcs N P × List P))
    (inc : N → List P → Option (Arcs N P)) (node : N) (preds : List (Shex.Pred P)) :
    Option (List (Shex.Pred P × N) × List P) :=
  let outgoing := (preds.filter fun p => p.direct).map fun p => p.iri
  let incoming := (preds.filter fun p => !p.direct).map fun p => p.iri
  let first : Option (List (Shex.Pred P × N) × List P) :=
    if K.isSubject node then
      (out node outgoing).map fun r => (r.1.pairs.map fun x => (⟨x.1, true⟩, x.2), r.2)
    else some ([], [])
  match first with
  | none => none
  | some (vs, rem) =>
    if incoming.isEmpty then some (vs, rem)
    else (inc node incoming).map fun a => (vs ++ a.pairs.map fun x => (⟨x.1, false⟩, x.2), rem)

/-- `neighs` over a graph in memory. -/
def memNeighs (K : Kinds N) (g : List (Tr N P)) (node : N) (preds : List (Shex.Pred P)) :
    Option (List (Shex.Pred P × N) × List P) :=
  neighsBy K (fun s ps => some (memOutgoing g s ps))
    (fun o ps => some (inArcs ps (matching g none none (some o)))) node preds

/-- `neighs` over `RdfData`. -/
def Data.neighs (K : Kinds N) (D : Data N P) (node : N) (preds : List (Shex.Pred P)) :
    Option (List (Shex.Pred P × N) × List P) :=
  neighsBy K (fun s ps => (D.outgoing K s ps).1) (fun o ps => D.incoming K o ps) node preds

/-- `check_node_shape` (engine.rs:627-681) as in `Shex.Env.checkShape`, for a given way to find the
neighbourhood. -/
def checkShapeBy (enum : List Nat → List (Nat × Nat))
    (nb : N → List (Shex.Pred P) → Option (List (Shex.Pred P × N) × List P)) (node : N)
    (s : Shex.Shape N P) (T : N × Nat → Bool) : Option Bool :=
  let candidatePreds := Shex.addPreds s.preds s.extra
  (nb node candidatePreds).map fun r =>
    let values := (Shex.withCtx node r.1).filter fun x =>
      if x.1 ∉ s.extra then true else Shex.matchesAnyLeaf s.expr x
    if s.closed && !r.2.isEmpty then false
    else Shex.checkExprNeigh enum s.expr values T

end

end Store

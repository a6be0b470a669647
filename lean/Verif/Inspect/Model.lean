/-!
# Information about a node

Model of `rudof_lib/src/api/data/implementations/show_node_info.rs` (shown below as `sni.rs`): the
arcs around a node are collected to a depth and shown as two trees. The graph is a list of triples.
Terms, predicates, their order, their texts and the order in which a hash set is iterated are
parameters. A node of the code at the last level is a `Term` and at the other levels a `More`; here
the type is indexed by the levels that are below. Writing trees as text (`termtree`), colours and
hyperlinks are not modelled.
-/

namespace Inspect

/-- What a function gives. -/
inductive Out (α : Type) where
  | ok (a : α)
  | err
  | panic
deriving DecidableEq

/-- `?`. -/
def Out.bind {α β : Type} : Out α → (α → Out β) → Out β
  | .ok a, f => f a
  | .err, _ => .err
  | .panic, _ => .panic

/-- `collect` into a `Result`. -/
def Out.all {α β : Type} (f : α → Out β) : List α → Out (List β)
  | [] => .ok []
  | a :: as => (f a).bind fun b => (Out.all f as).bind fun bs => .ok (b :: bs)

/-- The data and what is done by other parts of the code. `isNode` is whether `term_as_subject`
succeeds; `predicate` is the IRI of a text (`parse_iri_ref`, `resolve_prefix_local`); `le` is the
order of IRIs; `showP` and `showT` are `qualify_iri` and `qualify_term`; `hash` puts the elements of
a set in the order of their hashes. -/
structure Data (T P : Type) where
  triples : List (T × P × T)
  isNode : T → Bool
  predicate : String → Option P
  le : P → P → Bool
  showP : P → String
  showT : T → Option String
  hash : List T → List T

variable {T P : Type} [DecidableEq T] [DecidableEq P]

/-- `entry(p).or_default().insert(o)`. -/
def insArc (m : List (P × List T)) (p : P) (o : T) : List (P × List T) :=
  match m with
  | [] => [(p, [o])]
  | (q, os) :: m =>
    if q = p then (q, if o ∈ os then os else os ++ [o]) :: m else (q, os) :: insArc m p o

/-- `NeighsRDF::outgoing_arcs` (rudof_rdf/src/rdf_core/neighs_rdf.rs:184-191). -/
def outgoingArcs (D : Data T P) (s : T) : List (P × List T) :=
  (D.triples.filter fun t => t.1 = s).foldl (fun m t => insArc m t.2.1 t.2.2) []

/-- `NeighsRDF::outgoing_arcs_from_list` (neighs_rdf.rs:203-222), without the remainder, which is
dropped by the callers. -/
def outgoingFrom (D : Data T P) (s : T) (ps : List P) : List (P × List T) :=
  (D.triples.filter fun t => t.1 = s).foldl
    (fun m t => if t.2.1 ∈ ps then insArc m t.2.1 t.2.2 else m) []

/-- `NeighsRDF::incoming_arcs` (neighs_rdf.rs:167-174). -/
def incomingArcs (D : Data T P) (o : T) : List (P × List T) :=
  (D.triples.filter fun t => t.2.2 = o).foldl (fun m t => insArc m t.2.1 t.1) []

/-- `convert_predicate_strings_to_iris` (sni.rs:437-463). -/
def predicates (D : Data T P) (ps : List String) : Out (List P) :=
  Out.all (fun p => match D.predicate p with
    | some i => .ok i
    | none => .err) ps

/-- The arcs that are followed from a node: the first lines of `collect_outgoing_arcs_recursive`
and of `collect_outgoing_arcs` (sni.rs:113-124, 163-173). -/
def outArcs (D : Data T P) (ps : List String) (s : T) : Out (List (P × List T)) :=
  if ps.isEmpty then .ok (outgoingArcs D s)
  else (predicates D ps).bind fun is => .ok (outgoingFrom D s is)

/-- The arcs that are followed to a node (sni.rs:211-214, 243-247). -/
def inArcs (D : Data T P) (o : T) : Out (List (P × List T)) := .ok (incomingArcs D o)

variable (T P) in
/-- `OutgoingNeighsNode` and `IncomingNeighsNode` (sni.rs:559-584), with that many levels below. -/
def Nd : Nat → Type
  | 0 => T
  | n + 1 => T × List (P × List (Nd n))

/-- The term of a node. -/
def Nd.term : {n : Nat} → Nd T P n → T
  | 0, t => t
  | _ + 1, t => t.1

/-- The arcs below a node. -/
def Nd.rest : {n : Nat} → Nd T P n → List (P × List (Nd T P (n - 1)))
  | 0, _ => []
  | _ + 1, t => t.2

/-- `collect_outgoing_arcs_recursive` (sni.rs:97-155) and `collect_incoming_arcs_recursive`
(sni.rs:189-236) with depth one more than the number: they differ in the arcs they follow and in
that the former does not go on from a term that is no subject. -/
def collect (D : Data T P) (arcs : T → Out (List (P × List T))) (goes : T → Bool) :
    (n : Nat) → T → Out (List (P × List (Nd T P n)))
  | 0, s => (arcs s).bind fun m => .ok (m.map fun e => (e.1, D.hash e.2))
  | n + 1, s => (arcs s).bind fun m =>
    Out.all (fun e => (Out.all (fun o =>
      (if goes o then collect D arcs goes n o else .ok []).bind fun r =>
        (.ok (o, r) : Out (Nd T P (n + 1)))) (D.hash e.2)).bind fun ns => .ok (e.1, ns)) m

/-- The same with depth zero: nothing stops the recursion, so that `depth - 1` overflows at the
first term from which it goes on (sni.rs:102, 138, 195, 226). -/
def collectZero (D : Data T P) (arcs : T → Out (List (P × List T))) (goes : T → Bool) (s : T) :
    Out (List (P × List (Nd T P 0))) :=
  (arcs s).bind fun m =>
    if m.any fun e => e.2.any goes then .panic else .ok (m.map fun e => (e.1, D.hash e.2))

/-- `termtree::Tree`. -/
inductive Tree where
  | node (label : String) (leaves : List Tree)

/-- Insertion into a sorted list. -/
def insertP (le : P → P → Bool) (p : P) : List P → List P
  | [] => [p]
  | q :: qs => if le p q then p :: q :: qs else q :: insertP le p qs

/-- `sort`. -/
def sortP (le : P → P → Bool) (ps : List P) : List P := ps.foldr (insertP le) []

/-- The label of an arc (sni.rs:325, 331: with `─►`; sni.rs:366, 371: with `──`). -/
def label (sep p t : String) : String := "─ " ++ p ++ " " ++ sep ++ " " ++ t

/-- `build_outgoing_tree` (sni.rs:307-343) and `build_incoming_tree` (sni.rs:346-383): they differ
in the sign between the predicate and the term. -/
def build (D : Data T P) (sep : String) : (n : Nat) → List (P × List (Nd T P n)) → Out (List Tree)
  | 0, m =>
    (Out.all (fun p => Out.all (fun x : Nd T P 0 => match D.showT x.term with
      | some t => Out.ok (Tree.node (label sep (D.showP p) t) [])
      | none => .err) ((m.lookup p).getD [])) (sortP D.le (m.map Prod.fst))).bind fun ts =>
        .ok ts.flatten
  | n + 1, m =>
    (Out.all (fun p => Out.all (fun x : Nd T P (n + 1) => match D.showT x.term with
      | some t => (build D sep n x.rest).bind fun ks =>
          Out.ok (Tree.node (label sep (D.showP p) t) ks)
      | none => .err) ((m.lookup p).getD [])) (sortP D.le (m.map Prod.fst))).bind fun ts =>
        .ok ts.flatten

/-- `NodeInspectionMode` (rudof_lib/src/formats/node.rs:31-50). -/
inductive Mode where
  | outgoing
  | incoming
  | both
deriving DecidableEq

/-- `NodeInspectionMode::show_outgoing` (node.rs:43-45). -/
def Mode.out : Mode → Bool
  | .outgoing => true
  | .incoming => false
  | .both => true

/-- `NodeInspectionMode::show_incoming` (node.rs:47-49). -/
def Mode.inc : Mode → Bool
  | .outgoing => false
  | .incoming => true
  | .both => true

/-- The arcs of one direction as trees: `collect_…_recursive` in `build_node_info` and
`build_…_tree` in `write_node_information`, which is not called when there are no arcs
(sni.rs:72-82, 282-284, 292-294). -/
def section' (D : Data T P) (sep : String) (arcs : T → Out (List (P × List T))) (goes : T → Bool)
    (depth : Nat) (s : T) : Out (List Tree) :=
  match depth with
  | 0 => (collectZero D arcs goes s).bind fun m => build D sep 0 m
  | n + 1 => (collect D arcs goes n s).bind fun m => build D sep n m

/-- `build_node_info` (sni.rs:63-90) and `write_node_information` (sni.rs:272-303) for a node: the
text of the node, the trees of outgoing arcs and those of incoming arcs, which are printed when
there are any. -/
def nodeInfo (D : Data T P) (ps : List String) (mode : Mode) (depth : Nat) (node : T) :
    Out (String × List Tree × List Tree) :=
  if D.isNode node then
    match D.showT node with
    | none => .err
    | some name =>
      (if mode.out then section' D "─►" (outArcs D ps) D.isNode depth node else .ok []).bind fun o =>
      (if mode.inc then section' D "──" (inArcs D) (fun _ => true) depth node else .ok []).bind
        fun i => .ok (name, o, i)
  else .err

/-- `collect_node_information` and `write_node_information_list` (sni.rs:47-60, 257-267) for the
nodes selected; `from_options` takes depth 1 and both directions when nothing is said
(sni.rs:526-541). -/
def showNodes (D : Data T P) (nodes : List T) (ps : Option (List String)) (mode : Option Mode)
    (depth : Option Nat) : Out (List (String × List Tree × List Tree)) :=
  Out.all (nodeInfo D (ps.getD []) (mode.getD .both) (depth.getD 1)) nodes

/-! ## The text of the node -/

/-- `IriNormalizationMode` (rudof_lib/src/formats/node.rs:10-17). -/
inductive Norm where
  | lax
  | strict
deriving DecidableEq

/-- `str::trim`. -/
def trim (space : Char → Bool) (s : List Char) : List Char :=
  ((s.dropWhile space).reverse.dropWhile space).reverse

/-- `str::contains`. -/
def contains (w : List Char) : List Char → Bool
  | [] => w.isEmpty
  | c :: cs => w.isPrefixOf (c :: cs) || contains w cs

/-- `normalize_iri_str` (rudof_lib/src/utils/utils.rs:18-34). -/
def normalize (space : Char → Bool) (mode : Norm) (s : List Char) : List Char :=
  let t := trim space s
  match mode with
  | .strict => t
  | .lax =>
    if !(['<'].isPrefixOf t) && !(['_'].isPrefixOf t) && !(['{'].isPrefixOf t) &&
        contains [':', '/', '/'] t then '<' :: t ++ ['>'] else t

end Inspect

import Verif.Shacl.Path

/-!
# Model: validation of SHACL shapes

`VA` is `shacl/src/validator/engine/validate.rs`, `VN` is `…/engine/value_nodes_ops.rs`, `AN`, `OR`, `NO`,
`XO` are `shacl/src/validator/constraints/core/logical/{and,or,not,xone}.rs`, `ND` and `QV` are
`…/core/shape_based/{node,qualified_value_shape}.rs`, `CA` is `shacl/src/validator/cache/parallel.rs`, `PR` is
`shacl/src/validator/processor/mod.rs`.

Everything the engine does beside reading the graph is operations on the cache that all workers share, so
a validation is modelled as a tree of such operations (`Prog`); sequential runs and interleavings of
several workers are both defined on these trees.

Types: `T` terms of the data, `O` the objects that key the cache (`term_as_object`, taken to succeed), `P`
predicates, `Q` the constraints that do not refer to shapes. Shapes are their indices
(`labels_idx_map` is one-to-one). Reifier shapes (SHACL 1.2, VA 120-132), messages, and SPARQL constraints are
not modelled. Sets are lists without repetitions and traversed in an order `ord`.
-/

namespace Shacl

/-- The component named in a result. -/
inductive Kind (Q : Type) where
  | and | or | not | xone | node | qmin | qmax
  | prim (q : Q)
deriving DecidableEq

/-- `ValidationResult` (`validator/report/result.rs` 12-25), without message and details. Severity and path are
those of the source shape, except that `sh:closed` names a predicate. -/
structure Res (O P Q : Type) where
  focus : O
  comp : Kind Q
  value : Option O
  path : Option P
  source : Nat
deriving DecidableEq

/-- `IRComponent` (`ir/component.rs`): constraints that refer to shapes, and the others. -/
inductive Comp (Q : Type) where
  | prim (q : Q)
  | and (l : List Nat)
  | or (l : List Nat)
  | not (i : Nat)
  | xone (l : List Nat)
  | node (i : Nat)
  | qual (i : Nat) (min max : Option Int) (siblings : List Nat)
deriving DecidableEq

/-- `IRShape` (`ir/shape.rs` 17-21): a node shape has no path. -/
structure Shape (P Q : Type) where
  path : Option (Path P)
  comps : List (Comp Q)
  props : List Nat
  deactivated : Bool

/-- What validation reads: the shapes, the data, and the constraints that do not refer to shapes. For these,
`prim q i x vs` gives the results of constraint `q` of shape `i` for the focus node `x` with value nodes `vs`,
or a failure (all native validators are loops over the focus nodes). -/
structure World (T O P Q : Type) where
  shape : Nat → Option (Shape P Q)
  graph : Graph T P
  /-- `RDF::term_as_object`. -/
  obj : T → O
  prim : Q → Nat → T → List T → Option (List (Res O P Q))
  /-- Traversal order of hash sets. -/
  ord : List T → List T

/-- A computation that uses the cache, one operation at a time: it returns, fails (`Err`), never ends, looks
up the results under a key, asks whether there are any, or records results. -/
inductive Prog (K V A : Type) where
  | ret (a : A)
  | fail
  | loop
  | look (k : K) (c : Option V → Prog K V A)
  | has (k : K) (c : Bool → Prog K V A)
  | record (k : K) (v : V) (p : Prog K V A)

namespace Prog
variable {K V A B : Type}

/-- One after the other; a failure is passed on (`?`). -/
def bind : Prog K V A → (A → Prog K V B) → Prog K V B
  | .ret a, f => f a
  | .fail, _ => .fail
  | .loop, _ => .loop
  | .look k c, f => .look k fun v => bind (c v) f
  | .has k c, f => .has k fun b => bind (c b) f
  | .record k v p, f => .record k v (bind p f)

/-- Look at the outcome instead of passing on the failure. -/
def attempt : Prog K V A → Prog K V (Option A)
  | .ret a => .ret (some a)
  | .fail => .ret none
  | .loop => .loop
  | .look k c => .look k fun v => attempt (c v)
  | .has k c => .has k fun b => attempt (c b)
  | .record k v p => .record k v (attempt p)

end Prog

section
variable {T O P Q : Type} [DecidableEq T] [DecidableEq O] [DecidableEq P] [DecidableEq Q]

/-- Keys of the cache: object and shape. -/
abbrev Key (O : Type) := O × Nat

/-- Computations of validation. -/
abbrev VProg (O P Q A : Type) := Prog (Key O) (List (Res O P Q)) A

variable (W : World T O P Q)

/-- `IRShape::value_nodes` for one focus node (VN 30-57): the node itself, or what the path gives; a node for which
the path cannot be evaluated is dropped. A path that panics, the converse of something other than a predicate, is not
told apart from one that fails. The number of iterations is one that suffices (C34). -/
def World.vals (sh : Shape P Q) (x : T) : Option (List T) :=
  match sh.path with
  | none => some [x]
  | some q =>
    match eval W.graph W.ord (2 * W.graph.triples.length + 1) q x with
    | .ok l => some l
    | _ => none

/-- `value_nodes` of a set of focus nodes, in the order of traversal of the map. -/
def World.valueNodes (sh : Shape P Q) (nodes : List T) : List (T × List T) :=
  (W.ord nodes).filterMap fun x => (W.vals sh x).map fun vs => (x, vs)

/-- A result of a constraint that refers to shapes. -/
def World.res (i : Nat) (k : Kind Q) (x : T) (y : Option T) : Res O P Q := ⟨W.obj x, k, y.map W.obj, none, i⟩

section
variable (val : Nat → List T → VProg O P Q (List (Res O P Q)))

/-- `get_shape_from_idx_e`: fails when there is no such shape, before anything else. -/
def World.need (j : Nat) {A : Type} (p : VProg O P Q A) : VProg O P Q A :=
  match W.shape j with
  | none => .fail
  | some _ => p

/-- The loop of `sh:and` over shapes (AN 31-49): failures count as not conforming. -/
def World.allConform : List Nat → T → VProg O P Q Bool
  | [], _ => .ret true
  | j :: l, y => W.need j <|
    (val j [y]).attempt.bind fun r =>
      match r with
      | some [] => World.allConform l y
      | _ => .ret false

/-- The loop of `sh:or` (OR 33-41): failures are passed on. -/
def World.someConforms : List Nat → T → VProg O P Q Bool
  | [], _ => .ret false
  | j :: l, y => W.need j <|
    (val j [y]).bind fun r =>
      match r with
      | [] => .ret true
      | _ => World.someConforms l y

/-- The shape conforms; a failure is not conforming (NO 31-36, QV 37-42, 47-50). -/
def World.conforms (j : Nat) (y : T) : VProg O P Q Bool :=
  W.need j <| (val j [y]).attempt.bind fun r => .ret (match r with | some [] => true | _ => false)

/-- The loop of `sh:xone` (XO 32-42): the number of conforming shapes. -/
def World.countConform : List Nat → T → VProg O P Q Nat
  | [], _ => .ret 0
  | j :: l, y => (W.conforms val j y).bind fun b =>
      (World.countConform l y).bind fun n => .ret (if b then n + 1 else n)

/-- `sh:node` for one value node (ND 33-45): the cache is asked first. -/
def World.nodeViolates (j : Nat) (y : T) : VProg O P Q Bool :=
  .has (W.obj y, j) fun b =>
    if b then
      .look (W.obj y, j) fun r => .ret (match r with | some [] => false | some _ => true | none => false)
    else
      (val j [y]).bind fun r => .ret (match r with | [] => false | _ => true)

/-- The loop over siblings of a qualified shape (QV 44-56): some sibling conforms. -/
def World.someSibling : List Nat → T → VProg O P Q Bool
  | [], _ => .ret false
  | j :: l, y => (W.conforms val j y).bind fun b => if b then .ret true else World.someSibling l y

/-- The number of value nodes that conform to a qualified shape and to no sibling (QV 32-61). -/
def World.countQualified (j : Nat) (sib : List Nat) : List T → VProg O P Q Int
  | [] => .ret 0
  | y :: l =>
    (W.conforms val j y).bind fun b =>
      (if b then (W.someSibling val sib y).bind fun s => .ret (!s) else .ret false).bind fun c =>
        (World.countQualified j sib l).bind fun n => .ret (if c then n + 1 else n)

/-- A loop over value nodes that adds a result for those that do not pass (`ok`). -/
def World.perValue (i : Nat) (k : Kind Q) (x : T) (bad : T → VProg O P Q Bool) :
    List T → VProg O P Q (List (Res O P Q))
  | [] => .ret []
  | y :: l => (bad y).bind fun b =>
      (World.perValue i k x bad l).bind fun r => .ret (if b then W.res i k x (some y) :: r else r)

/-- The component for one focus node. -/
def World.evalComp (i : Nat) (c : Comp Q) (x : T) (vs : List T) : VProg O P Q (List (Res O P Q)) :=
  match c with
  | .prim q => match W.prim q i x vs with
    | none => .fail
    | some r => .ret r
  | .and l => W.perValue i .and x (fun y => (W.allConform val l y).bind fun b => .ret (!b)) (W.ord vs)
  | .or l => W.perValue i .or x (fun y => (W.someConforms val l y).bind fun b => .ret (!b)) (W.ord vs)
  | .not j => W.perValue i .not x (fun y => W.conforms val j y) (W.ord vs)
  | .xone l => W.perValue i .xone x (fun y => (W.countConform val l y).bind fun n => .ret (n != 1)) (W.ord vs)
  | .node j => W.perValue i .node x (fun y => W.nodeViolates val j y) (W.ord vs)
  | .qual j mn mx sib => (W.countQualified val j sib (W.ord vs)).bind fun n =>
      .ret ((match mn with | some m => if n < m then [W.res i .qmin x none] else [] | none => []) ++
        (match mx with | some m => if m < n then [W.res i .qmax x none] else [] | none => []))

/-- The outer loops over focus nodes (AN 27-61, OR 29-53, NO 27-53, XO 28-57, ND 30-60, QV 31-92). The set that
`sh:qualifiedValueShape` collects its results in has no effect here, as results of focus nodes with different
objects differ. -/
def World.evalLoop (i : Nat) (c : Comp Q) : List (T × List T) → VProg O P Q (List (Res O P Q))
  | [] => .ret []
  | e :: l => (W.evalComp val i c e.1 e.2).bind fun r => (World.evalLoop i c l).bind fun s => .ret (r ++ s)

/-- `Engine::evaluate` on the value nodes of all focus nodes; `sh:node` looks for its shape first (ND 26-27). -/
def World.evalAll (i : Nat) (c : Comp Q) (vn : List (T × List T)) : VProg O P Q (List (Res O P Q)) :=
  match c with
  | .node j => W.need j (W.evalLoop val i c vn)
  | _ => W.evalLoop val i c vn

/-- The loop over components (VA 81-94). -/
def World.evalComps (i : Nat) (vn : List (T × List T)) : List (Comp Q) → VProg O P Q (List (Res O P Q))
  | [] => .ret []
  | c :: l => (W.evalAll val i c vn).bind fun r => (World.evalComps i vn l).bind fun s => .ret (r ++ s)

/-- The inner loop over value nodes for one nested property shape (VA 114-117). -/
def World.nestedOne (j : Nat) : List (T × List T) → VProg O P Q (List (Res O P Q))
  | [] => .ret []
  | e :: l => (val j e.2).bind fun r => (World.nestedOne j l).bind fun s => .ret (r ++ s)

/-- The loop over nested property shapes (VA 111-118). -/
def World.nested (vn : List (T × List T)) : List Nat → VProg O P Q (List (Res O P Q))
  | [] => .ret []
  | j :: l => W.need j <| (World.nestedOne val j vn).bind fun r =>
      (World.nested vn l).bind fun s => .ret (r ++ s)

/-- Separate the focus nodes with cached results from the others (VA 50-68). -/
def World.split (i : Nat) : List T → VProg O P Q (List (Res O P Q) × List T)
  | [] => .ret ([], [])
  | x :: l => .look (W.obj x, i) fun r =>
      (World.split i l).bind fun s =>
        .ret (match r with | some v => (v ++ s.1, s.2) | none => (s.1, x :: s.2))

/-- Record the results of each focus node (VA 141-157). -/
def recordAll (i : Nat) (new : List (Res O P Q)) : List O → VProg O P Q Unit
  | [] => .ret ()
  | o :: l => .record (o, i) (new.filter fun r => decide (r.focus = o)) (recordAll i new l)

/-- `IRShape::validate` with given focus nodes, calling `val` for other shapes (VA 28-163). -/
def World.body (i : Nat) (sh : Shape P Q) (nodes : List T) : VProg O P Q (List (Res O P Q)) :=
  if sh.deactivated then .ret []
  else (W.split i (W.ord nodes)).bind fun s =>
    if s.2.isEmpty then .ret s.1
    else
      let vn := W.valueNodes sh s.2
      (W.evalComps val i vn sh.comps).bind fun r1 =>
        (W.nested val vn sh.props).bind fun r2 =>
          (recordAll i (r1 ++ r2) ((s.2.map W.obj).dedup)).bind fun _ => .ret (s.1 ++ (r1 ++ r2))

end

/-- `IRShape::validate` (VA 28-163). The number bounds the depth of calls. -/
def World.validate : Nat → Nat → List T → VProg O P Q (List (Res O P Q))
  | 0, _, _ => .loop
  | n + 1, i, nodes =>
    match W.shape i with
    | none => .fail
    | some sh => W.body (World.validate n) i sh nodes

/-- The cache (CA 13-16): the results under each key. -/
abbrev Cache (O P Q : Type) := Key O → Option (List (Res O P Q))

/-- How a computation ends. -/
inductive Ended (A : Type) where
  | ret (a : A)
  | fail
  | loop
deriving DecidableEq

/-- One worker alone: look up and insert in the cache (CA 23-33). -/
def run {A : Type} : VProg O P Q A → Cache O P Q → Ended A × Cache O P Q
  | .ret a, c => (.ret a, c)
  | .fail, c => (.fail, c)
  | .loop, c => (.loop, c)
  | .look k f, c => run (f (c k)) c
  | .has k f, c => run (f (c k).isSome) c
  | .record k v p, c => run p (fun k' => if k' = k then some v else c k')

/-- One operation of a worker. A worker that has ended stays as it is. -/
def step1 {A : Type} : VProg O P Q A → Cache O P Q → VProg O P Q A × Cache O P Q
  | .look k f, c => (f (c k), c)
  | .has k f, c => (f (c k).isSome, c)
  | .record k v p, c => (p, fun k' => if k' = k then some v else c k')
  | p, c => (p, c)

/-- Several workers that share the cache; a schedule says which worker makes each operation. -/
def exec {A : Type} : List Nat → List (VProg O P Q A) → Cache O P Q → List (VProg O P Q A) × Cache O P Q
  | [], ps, c => (ps, c)
  | t :: s, ps, c =>
    match ps[t]? with
    | none => exec s ps c
    | some p => exec s (ps.set t (step1 p c).1) (step1 p c).2

/-- The results of workers that have all returned. -/
def returns {A : Type} : List (VProg O P Q A) → Option (List A)
  | [] => some []
  | .ret a :: ps => (returns ps).map fun l => a :: l
  | _ :: _ => none

/-- One level of shapes validated in parallel (PR 73-85): every shape by a worker of its own, on its targets. -/
def World.workers (depth : Nat) (targets : Nat → List T) (level : List Nat) : List (VProg O P Q (List (Res O P Q))) :=
  level.map fun i => match W.shape i with
    | none => .fail
    | some _ => W.validate depth i (targets i)

/-- The levels one after the other (PR 72-90), each with its schedule: all workers of a level end before the
next level begins. `none` if some schedule does not bring all workers to return. -/
def World.levels (depth : Nat) (targets : Nat → List T) :
    List (List Nat × List Nat) → Cache O P Q → Option (List (Res O P Q) × Cache O P Q)
  | [], c => some ([], c)
  | (level, sched) :: ls, c =>
    let e := exec sched (W.workers depth targets level) c
    match returns e.1 with
    | none => none
    | some rs => (World.levels depth targets ls e.2).map fun s => (rs.flatten ++ s.1, s.2)

end

end Shacl

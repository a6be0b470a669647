import Mathlib.Data.List.Dedup
import Mathlib.Data.List.Perm.Basic

/-!
# Model: SHACL property paths

`NE` is `rudof_rdf/src/rdf_core/neighs_rdf.rs`, `SP` is `rudof_rdf/src/rdf_core/shacl_path.rs`.

Terms `T` and predicates `P` are any types with decidable equality; `subj t` tells whether the term can
be the subject of a triple (IRIs and blank nodes, not literals). A graph is a list of triples; failures
of the access to the graph itself are not modelled. A set is a list without repetitions. The order in
which a hash set is traversed is any function `ord` that permutes lists.
-/

namespace Shacl

/-- `SHACLPath` (SP 13-28). -/
inductive Path (P : Type) where
  | pred (p : P)
  | alt (l : List (Path P))
  | seq (l : List (Path P))
  | inv (q : Path P)
  | star (q : Path P)
  | plus (q : Path P)
  | opt (q : Path P)

/-- How an evaluation ends: with a set, with an error, with a panic, or not at all within the number of
iterations of loops allowed. -/
inductive Out (T : Type) where
  | ok (l : List T)
  | err
  | panic
  | loop
deriving DecidableEq

/-- `?`: go on with the set, otherwise end in the same way. -/
def Out.bind {T : Type} (o : Out T) (f : List T → Out T) : Out T :=
  match o with
  | .ok l => f l
  | .err => .err
  | .panic => .panic
  | .loop => .loop

/-- A graph: its triples, and which terms can be subjects. -/
structure Graph (T P : Type) where
  triples : List (T × P × T)
  subj : T → Bool

section
variable {T P : Type} [DecidableEq T] [DecidableEq P]

/-- `HashSet::extend`: the items of the second that are new come at the end. -/
def union (a b : List T) : List T := a ++ (b.dedup.filter fun x => decide (x ∉ a))

/-- `NeighsRDF::objects_for` (NE 412-425): an error when the term cannot be a subject. -/
def Graph.objects (g : Graph T P) (x : T) (p : P) : Out T :=
  if g.subj x then .ok (((g.triples.filter fun t => decide (t.1 = x ∧ t.2.1 = p)).map fun t => t.2.2).dedup)
  else .err

/-- `NeighsRDF::subjects_for` (NE 440-453). -/
def Graph.subjects (g : Graph T P) (p : P) (y : T) : Out T :=
  .ok (((g.triples.filter fun t => decide (t.2.1 = p ∧ t.2.2 = y)).map fun t => t.1).dedup)

/-- The body of the loops over a set that collect what an evaluation gives for each item (NE 344-349). -/
def collect (f : T → Out T) : List T → List T → Out T
  | [], acc => .ok acc
  | x :: l, acc => (f x).bind fun r => collect f l (union acc r)

/-- The items of a set that are not yet in the accumulated one, in the order of traversal. -/
def fresh (acc r : List T) : List T := r.filter fun x => decide (x ∉ acc)

/-- The `while let` loops of the closures (NE 362-369, 378-385): `acc` is `all_objects`, `todo` is
`to_process` with the item to be popped next in front. The number bounds the iterations. -/
def closure (f : T → Out T) (ord : List T → List T) : Nat → List T → List T → Out T
  | _, acc, [] => .ok acc
  | 0, _, _ :: _ => .loop
  | n + 1, acc, x :: todo =>
    (f x).bind fun r =>
      let new := fresh acc (ord r)
      closure f ord n (acc ++ new) (new.reverse ++ todo)

variable (g : Graph T P) (ord : List T → List T) (n : Nat)

mutual
/-- `NeighsRDF::objects_for_shacl_path` (NE 325-397). Loops are cut after `n` iterations. The inverse of
a path other than a predicate is a panic (`path.pred().unwrap()`, NE 353). -/
def eval : Path P → T → Out T
  | .pred p, x => g.objects x p
  | .alt l, x => evalAlt l x []
  | .seq l, x => evalSeq l x
  | .inv q, x =>
    match q with
    | .pred p => g.subjects p x
    | _ => .panic
  | .star q, x => closure (eval q) ord n [x] [x]
  | .plus q, x => (eval q x).bind fun r => closure (eval q) ord n r (ord r).reverse
  | .opt q, x => (eval q x).bind fun r => .ok (union [x] r)
/-- The loop over alternatives (NE 331-338). -/
def evalAlt : List (Path P) → T → List T → Out T
  | [], _, acc => .ok acc
  | q :: l, x, acc => (eval q x).bind fun r => evalAlt l x (union acc r)
/-- Sequences (NE 339-351). -/
def evalSeq : List (Path P) → T → Out T
  | [], x => .ok [x]
  | q :: l, x => (eval q x).bind fun r => collect (evalSeq l) (ord r) []
end

end

end Shacl

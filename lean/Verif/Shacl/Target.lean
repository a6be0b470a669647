import Verif.Shacl.Prim

/-!
# Model: targets and the class index

`NA` is `shacl/src/validator/engine/native.rs`, `CI` is `shacl/src/validator/index/class.rs`, `EM` is
`shacl/src/validator/engine/mod.rs`, `NE` is `rudof_rdf/src/rdf_core/neighs_rdf.rs`. Sets are lists without
repetitions.
-/

namespace Shacl
open Lit

section
variable {D : Type} (E : Env D)

/-- `HashMap<Object, HashSet<Object>>`. -/
abbrev ObMap (D : Type) := List (Ob D × List (Ob D))

/-- `map.entry(k).or_default().insert(v)`. -/
def Env.insert (k v : Ob D) : ObMap D → ObMap D
  | [] => [(k, [v])]
  | (k', vs) :: m =>
    if E.same k' k then (k', if vs.any (E.same v) then vs else vs ++ [v]) :: m else (k', vs) :: insert k v m

/-- `map.get(k)`, with an empty set for no entry. -/
def Env.lookup (k : Ob D) : ObMap D → List (Ob D)
  | [] => []
  | (k', vs) :: m => if E.same k' k then vs else lookup k m

/-- `ClassIndex` (CI 19-25). -/
structure ClassIndex (D : Type) where
  instances : ObMap D
  subclasses : ObMap D

/-- The loop of `ClassIndex::build` (CI 36-55). -/
def Env.indexLoop : List (Term × Str × Term) → ClassIndex D → ClassIndex D
  | [], ix => ix
  | (s, p, o) :: ts, ix =>
    indexLoop ts <|
      if p = rdfType then
        match E.obj o, E.obj s with
        | some c, some i => { ix with instances := E.insert c i ix.instances }
        | _, _ => ix
      else if p = subClassOf then
        match E.obj o, E.obj s with
        | some c, some i => { ix with subclasses := E.insert c i ix.subclasses }
        | _, _ => ix
      else ix

/-- `ClassIndex::build` (CI 29-60). -/
def Env.index (g : Graph Term Str) : ClassIndex D := E.indexLoop g.triples ⟨[], []⟩

/-- Insertion of items of a set into another (CI 75-79). -/
def Env.addAll (vs : List (Ob D)) (acc : List (Ob D)) : List (Ob D) :=
  vs.foldl (fun acc v => if acc.any (E.same v) then acc else acc ++ [v]) acc

/-- `instances_of_with_subclasses` (CI 72-82). -/
def Env.withSubclasses (ix : ClassIndex D) (c : Ob D) : List (Ob D) :=
  (E.lookup c ix.subclasses).foldl (fun acc s => E.addAll (E.lookup s ix.instances) acc) (E.lookup c ix.instances)

/-- `Target` (`types/target.rs`), the targets that are well-formed. -/
inductive Target (D : Type) where
  | node (o : Ob D)
  | cls (c : Ob D)
  | subjectsOf (p : Str)
  | objectsOf (p : Str)
  | implicit (c : Ob D)

/-- `target_class_impl` (NA 53-71), and `shacl_instances_of` (NE 255-266). -/
def Env.targetClass (g : Graph Term Str) (ix : Option (ClassIndex D)) (c : Ob D) : List Term :=
  match ix with
  | some ix => ((E.lookup c ix.instances).map E.term).dedup
  | none => ((g.triples.filter fun t => decide (t.2.1 = rdfType ∧ t.2.2 = E.term c)).map fun t => t.1).dedup

/-- `subjects_for` (NE 440-453). -/
def Graph.subjectsOf (g : Graph Term Str) (p : Str) (o : Term) : List Term :=
  ((g.triples.filter fun t => decide (t.2.1 = p ∧ t.2.2 = o)).map fun t => t.1).dedup

/-- `implicit_target_class_impl` (NA 100-122). -/
def Env.implicitClass (g : Graph Term Str) (ix : Option (ClassIndex D)) (c : Ob D) : List Term :=
  match ix with
  | some ix => ((E.withSubclasses ix c).map E.term).dedup
  | none => (g.subjectsOf rdfType (E.term c) ++
      (g.subjectsOf subClassOf (E.term c)).flatMap fun s => g.subjectsOf rdfType s).dedup

/-- `target_node_impl` (NA 42-51): blank nodes are an error, and the error is dropped (EM 52-66). -/
def Env.targetNode (o : Ob D) : List Term := if (E.term o).isBlank then [] else [E.term o]

/-- The focus nodes of one target (EM 54-59). -/
def Env.targetNodes (g : Graph Term Str) (ix : Option (ClassIndex D)) : Target D → List Term
  | .node o => E.targetNode o
  | .cls c => E.targetClass g ix c
  | .subjectsOf p => ((g.triples.filter fun t => decide (t.2.1 = p)).map fun t => t.1).dedup
  | .objectsOf p => ((g.triples.filter fun t => decide (t.2.1 = p)).map fun t => t.2.2).dedup
  | .implicit c => E.implicitClass g ix c

/-- `Engine::focus_nodes` (EM 50-69). -/
def Env.focusNodes (g : Graph Term Str) (ix : Option (ClassIndex D)) (ts : List (Target D)) : List Term :=
  (ts.flatMap (E.targetNodes g ix)).dedup

end

end Shacl

import Mathlib.Data.List.Perm.Basic

/-!
# Model: data made from schemas

`P` is `shape_processing.rs`, `L` is `lib.rs`, `G` is `parallel_generation.rs`, `U` is `converters/shex_to_unified.rs`,
`M` is `unified_constraints.rs`, all in `rudof_generate/src`.

The tasks of the code do not share what they read and write but for the map of entities, to which each writes its own
shape; they are run one after the other here, in the order of the map of shapes. All that is random is given by functions
of the place where it is drawn: any outcome of the random numbers is one of these. Texts are lists of characters.
-/

namespace Gen

/-- Texts. -/
abbrev Str := List Char

/-- The text of a number in `format!`. -/
def digits (n : Nat) : Str := Nat.toDigits 10 n

/-- RDF terms that are made. -/
inductive GTerm where
  | iri (s : Str)
  | lit (lex dt : Str)
deriving DecidableEq

/-- A triple. -/
structure GTriple where
  subj : Str
  pred : Str
  obj : GTerm
deriving DecidableEq

/-- `PropertyInfo` (P 28-36); the constraints are given to the generators of values only. -/
structure PropInfo (C : Type) where
  iri : Str
  datatype : Option Str
  shapeRef : Option Str
  min : Option Int
  max : Option Int
  constraints : List C

/-- `ShapeDependency` (P 19-25). -/
structure Dep where
  target : Str
  property : Str
  min : Option Int
  max : Option Int

/-- `ShapeInfo` (P 11-16), with the name of the declaration. -/
structure ShapeInfo (C : Type) where
  id : Str
  deps : List Dep
  props : List (PropInfo C)

/-! ## The shapes of a ShEx schema -/

/-- The value expressions that are told apart (P 154-200). -/
inductive ValueExpr where
  | ref (label : Str)
  | node (datatype : Option Str)
  | other

/-- Triple expressions (P 137-219). -/
inductive TExpr where
  | eachOf (es : List TExpr)
  | oneOf (es : List TExpr)
  | constraint (pred : Str) (value : Option ValueExpr) (min max : Option Int)
  | ref (label : Str)

/-- `http://www.w3.org/2001/XMLSchema#string`. -/
def xsdString : Str := "http://www.w3.org/2001/XMLSchema#string".toList

/-- A triple constraint (P 143-214). -/
def extractOne {C : Type} (pred : Str) (value : Option ValueExpr) (min max : Option Int) : List Dep × List (PropInfo C) :=
  let mm := if min = none ∧ max = none then (some 1, some 1) else (min, max)
  match value with
  | some (.ref l) => ([⟨l, pred, mm.1, mm.2⟩], [⟨pred, none, some l, mm.1, mm.2, []⟩])
  | some (.node dt) => ([], [⟨pred, some (dt.getD xsdString), none, mm.1, mm.2, []⟩])
  | _ => ([], [⟨pred, some xsdString, none, mm.1, mm.2, []⟩])

mutual
/-- `extract_dependencies_and_properties` (P 130-221): what is added to both lists. -/
def extract {C : Type} : TExpr → List Dep × List (PropInfo C)
  | .eachOf es => extractList es
  | .oneOf es => extractList es
  | .constraint p v min max => extractOne p v min max
  | .ref _ => ([], [])
/-- The loop over the expressions (P 139-141). -/
def extractList {C : Type} : List TExpr → List Dep × List (PropInfo C)
  | [] => ([], [])
  | e :: es =>
    let a := extract e
    let b := extractList es
    (a.1 ++ b.1, a.2 ++ b.2)
end

/-! ## Numbers of values -/

/-- `CardinalityStrategy` (`config.rs`). -/
inductive Strategy where
  | minimum | maximum | random | balanced

/-- `i32 as usize`. -/
def asUsize (i : Int) : Nat := if 0 ≤ i then i.toNat else (2 ^ 64 + i).toNat

/-- The choice between two bounds (G 401-420, 551-571); `none` is a panic. `gen_range` panics for an empty range; in
`max_card - min_card + 1` the subtraction panics with checks of overflow, and wraps without them. `drawn` is what
`gen_range` gives. -/
def choose (strategy : Strategy) (index lo hi : Nat) (drawn : Nat) : Option Nat :=
  match strategy with
  | .minimum => some lo
  | .maximum => some hi
  | .random => if lo = hi then some lo else if lo ≤ hi then some drawn else none
  | .balanced => if lo = hi then some lo else if lo ≤ hi then some (lo + index % (hi - lo + 1)) else none

/-- The bounds of `calculate_property_value_count` (G 392-399). -/
def valueBounds (min max : Option Int) (ignoreMin : Bool) : Nat × Nat :=
  let raw := (min.getD 1).toNat
  let lo := if ignoreMin then 0 else raw
  (lo, match max with
    | some m => if m = -1 then 5 else Nat.max (asUsize m) lo
    | none => 1)

/-- The bounds of `calculate_relationship_count` (G 542-549). -/
def relBounds (min max : Option Int) (available : Nat) : Nat × Nat :=
  let lo := (min.getD 1).toNat
  let hi := match max with
    | some m => if m = -1 then Nat.min available 20 else Nat.min (asUsize m) available
    | none => Nat.min 1 available
  (lo, Nat.max hi lo)

/-! ## Entities -/

/-- The results of a loop that appends, in the order of the list; `none` if one of them is an error. -/
def collect {α β : Type} (f : α → Option (List β)) (l : List α) : Option (List β) := (l.mapM f).map List.flatten

/-- `PropertySelectionStrategy` (`config.rs`). -/
inductive Selection where
  | all | random | weighted

/-- `GenerationConfig` after the overrides for a shape (G 180-206). -/
structure Config where
  ignoreMin : Bool
  maxProps : Nat
  selection : Selection
  excluded : List Str

/-- What is drawn, at a place, and what is made outside: whether a candidate is kept (G 277), how many properties are aimed
at (G 290), orders of lists (G 307, 324), numbers in a range, texts of values (`generate_field`, G 365; an error for
datatypes without a generator), and how entities are distributed with weights (G 112). -/
structure Draws (C : Type) where
  keep : List Nat → Bool
  target : List Nat → Nat → Nat
  shuffle : List Nat → List (PropInfo C) → List (PropInfo C)
  range : List Nat → Nat → Nat → Nat
  field : List Nat → Str → Str → List C → Option Str
  weighted : Str → Nat

/-- What the parts of a lawful outcome satisfy. -/
structure Draws.Lawful {C : Type} (R : Draws C) : Prop where
  shuffle : ∀ p l, (R.shuffle p l).Perm l
  range : ∀ p lo hi, lo ≤ hi → lo ≤ R.range p lo hi ∧ R.range p lo hi ≤ hi

/-- `rdf:type`. -/
def rdfType : Str := "http://www.w3.org/1999/02/22-rdf-syntax-ns#type".toList

/-- The datatypes that are kept by `create_typed_literal` (G 424-456). -/
def keptDatatypes : List Str :=
  ["string", "integer", "decimal", "boolean", "date", "dateTime", "anyURI"].map fun n =>
    "http://www.w3.org/2001/XMLSchema#".toList ++ n.toList

/-- `create_typed_literal` (G 423-465). -/
def typed (value dt : Str) : GTerm := .lit value (if dt ∈ keptDatatypes then dt else xsdString)

/-- The IRI of an entity (G 165, 212). -/
def entityIri (id : Str) (index : Nat) : Str := id ++ '-' :: digits (index + 1)

/-- The IRI of a nested entity (G 342). -/
def nestedIri (ref : Str) (index value : Nat) : Str := ref ++ '-' :: digits index ++ '-' :: digits value

section
variable {C : Type} (R : Draws C) (strategy : Strategy)

/-- `calculate_property_value_count` (G 384-421). -/
def valueCount (place : List Nat) (p : PropInfo C) (index : Nat) (ignoreMin : Bool) : Option Nat :=
  let b := valueBounds p.min p.max ignoreMin
  choose strategy index b.1 b.2 (R.range place b.1 b.2)

/-- Literals for a property (G 352-378, 618-634): `none` for an error of a generator. -/
def literals (subj : Str) (place : List Nat) (p : PropInfo C) (dt : Str) (cs : List C) (n : Nat) : Option (List GTriple) :=
  (List.range n).mapM fun i => (R.field (i :: place) p.iri dt cs).map fun v => ⟨subj, p.iri, typed v dt⟩

/-- The properties of a nested entity (G 602-637): those with a datatype and no reference, without the constraints. -/
def nestedProps (ignoreMin : Bool) (node : Str) (place : List Nat) (index : Nat) (ps : List (PropInfo C)) :
    Option (List GTriple) :=
  collect (fun pk : PropInfo C × Nat => match pk.1.shapeRef, pk.1.datatype with
    | none, some dt => (valueCount R strategy (pk.2 :: place) pk.1 index ignoreMin).bind
        (literals R node (pk.2 :: place) pk.1 dt [])
    | _, _ => some []) ps.zipIdx

/-- `generate_nested_entity_properties` (G 583-640). -/
def nested (ignoreMin : Bool) (node : Str) (s : ShapeInfo C) (place : List Nat) (index : Nat) : Option (List GTriple) :=
  (nestedProps R strategy ignoreMin node place index s.props).map fun ts => ⟨node, rdfType, .iri s.id⟩ :: ts

/-- The candidates that are kept one by one (G 271-281). -/
def keepSome (place : List Nat) (ps : List (PropInfo C)) : List (PropInfo C) :=
  (ps.zipIdx.filter fun pk => R.keep (pk.2 :: place)).map (·.1)

/-- Whether a property has to be there (G 246-257): the least number is 0 if there is none. -/
def isMandatory (cfg : Config) (p : PropInfo C) : Bool := !cfg.ignoreMin && 0 < p.min.getD 0

/-- The properties that have to be there, or that need not (G 240-258). -/
def split (cfg : Config) (s : ShapeInfo C) (b : Bool) : List (PropInfo C) :=
  s.props.filter fun p => p.iri ∉ cfg.excluded ∧ isMandatory cfg p = b

/-- The candidates that are chosen (G 264-313). -/
def chosen (cfg : Config) (place : List Nat) (s : ShapeInfo C) : List (PropInfo C) :=
  match cfg.selection with
  | .random =>
    (R.shuffle (0 :: place) (split cfg s false)).take (R.target place s.props.length - (split cfg s true).length)
  | _ => keepSome R place (split cfg s false)

/-- The properties that are selected (G 240-328). -/
def selected (cfg : Config) (place : List Nat) (s : ShapeInfo C) : List (PropInfo C) :=
  let props := chosen R cfg place s ++ split cfg s true
  if 0 < cfg.maxProps ∧ cfg.maxProps < props.length then (R.shuffle (1 :: place) props).take cfg.maxProps else props

/-- The values of a property with a reference (G 338-360). The nested entity is made with the configuration that has no
overrides (G 616). -/
def refValues (plainIgnoreMin : Bool) (shapes : List (ShapeInfo C)) (subj : Str) (place : List Nat) (p : PropInfo C)
    (ref : Str) (index n : Nat) : Option (List GTriple) :=
  collect (fun i =>
    let node := nestedIri ref index i
    let link : GTriple := ⟨subj, p.iri, .iri node⟩
    match shapes.find? fun s : ShapeInfo C => s.id = ref with
    | some s => (nested R strategy plainIgnoreMin node s (i :: place) index).map (link :: ·)
    | none => some [link]) (List.range n)

/-- The triples of a property (G 331-379). -/
def propValues (cfg : Config) (plainIgnoreMin : Bool) (shapes : List (ShapeInfo C)) (subj : Str) (place : List Nat)
    (index : Nat) (p : PropInfo C) : Option (List GTriple) :=
  (valueCount R strategy place p index cfg.ignoreMin).bind fun n =>
    match p.shapeRef, p.datatype with
    | some ref, _ => refValues R strategy plainIgnoreMin shapes subj place p ref index n
    | none, some dt => literals R subj place p dt p.constraints n
    | none, none => some []

/-- `generate_single_entity` (G 209-382). -/
def entity (cfg : Str → Config) (plainIgnoreMin : Bool) (shapes : List (ShapeInfo C)) (s : ShapeInfo C) (place : List Nat)
    (index : Nat) : Option (List GTriple) :=
  let subj := entityIri s.id index
  (collect (fun pk : PropInfo C × Nat =>
      propValues R strategy (cfg s.id) plainIgnoreMin shapes subj (pk.2 :: index :: place) index pk.1)
    (selected R (cfg s.id) (index :: place) s).zipIdx).map fun ts => ⟨subj, rdfType, .iri s.id⟩ :: ts

/-- `generate_entities_for_shape` (G 131-177); the batches make no difference. -/
def entities (cfg : Str → Config) (plainIgnoreMin : Bool) (shapes : List (ShapeInfo C)) (s : ShapeInfo C) (place : List Nat)
    (n : Nat) : Option (List GTriple) :=
  collect (entity R strategy cfg plainIgnoreMin shapes s place) (List.range n)

/-! ## The whole -/

/-- `EntityDistribution` (`config.rs`). -/
inductive Distribution where
  | equal
  | weighted
  | custom (counts : Str → Option Nat)

/-- `calculate_entity_distribution` (G 89-128): the count for the shape at a position in the map. The weights are numbers
in floating point, and so outside. -/
def share (d : Distribution) (total shapes position : Nat) (id : Str) : Nat :=
  match d with
  | .equal => if position < total % shapes then total / shapes + 1 else total / shapes
  | .weighted => R.weighted id
  | .custom f => (f id).getD 0

/-- Relationships from one entity (G 494-530). -/
def relationsOf (place : List Nat) (d : Dep) (from_ : Str) (targets : List Str) (index : Nat) : Option (List GTriple) :=
  let b := relBounds d.min d.max targets.length
  (choose strategy index b.1 b.2 (R.range place b.1 b.2)).map fun n =>
    (List.range n).filterMap fun i => targets[(index + i) % targets.length]?.map fun t => ⟨from_, d.property, .iri t⟩

/-- `generate_relationships_for_dependency` (G 487-533). -/
def relations (place : List Nat) (d : Dep) (froms targets : List Str) : Option (List GTriple) :=
  if targets = [] then some []
  else collect (fun fi : Str × Nat => relationsOf R strategy (fi.2 :: place) d fi.1 targets fi.2) froms.zipIdx

/-- The names of the entities of a shape (G 164-172). -/
def names (id : Str) (n : Nat) : List Str := (List.range n).map (entityIri id)

/-- The relationships of a shape (G 473-480); `count` has the number of entities that were made for a shape. -/
def shapeRelations (count : Str → Option Nat) (s : ShapeInfo C) (place : List Nat) : Option (List GTriple) :=
  collect (fun dk : Dep × Nat => match count s.id, count dk.1.target with
    | some n, some m => relations R strategy (dk.2 :: place) dk.1 (names s.id n) (names dk.1.target m)
    | _, _ => some []) s.deps.zipIdx

/-- The number of entities that were made for a shape. -/
def countOf (shapes : List (ShapeInfo C)) (count : Nat → Str → Nat) (id : Str) : Option Nat :=
  (shapes.zipIdx.find? fun sk => sk.1.id = id).map fun sk => count sk.2 id

/-- The entities of all shapes (G 61-83); `shapes` is the map in the order of iteration. -/
def allEntities (cfg : Str → Config) (plainIgnoreMin : Bool) (shapes : List (ShapeInfo C)) (count : Nat → Str → Nat) :
    Option (List GTriple) :=
  collect (fun sk : ShapeInfo C × Nat =>
    entities R strategy cfg plainIgnoreMin shapes sk.1 [0, sk.2] (count sk.2 sk.1.id)) shapes.zipIdx

/-- `generate_relationships` (G 468-484). -/
def allRelations (shapes : List (ShapeInfo C)) (count : Str → Option Nat) : Option (List GTriple) :=
  collect (fun sk : ShapeInfo C × Nat => shapeRelations R strategy count sk.1 [1, sk.2]) shapes.zipIdx

/-- `generate_data` (G 49-86): the triples that are added to the graph, which is a set; `none` for errors and panics. -/
def generateData (cfg : Str → Config) (plainIgnoreMin : Bool) (d : Distribution) (total : Nat)
    (shapes : List (ShapeInfo C)) : Option (List GTriple) :=
  let count := share R d total shapes.length
  (allEntities R strategy cfg plainIgnoreMin shapes count).bind fun ts =>
    (allRelations R strategy shapes (countOf shapes count)).map fun rs => ts ++ rs

end

end Gen

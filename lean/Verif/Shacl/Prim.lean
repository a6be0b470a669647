import Verif.Value.Model
import Verif.Shacl.Path

/-!
# Model: SHACL constraints that do not refer to shapes

Files below `shacl/src/validator/constraints`: `CM` is `mod.rs`; the others are cited by their names in
`core/{cardinality,other,property_pair,string_based,value,value_range}`.

All native validators are loops over pairs of a focus node and the set of its value nodes; the model gives the
results for one pair. Messages, severities and the source shape are left out. Triple terms are not modelled (the
conversion of one to a term of the library is `todo!()`). Failures of the access to the graph are not modelled.
The regular expressions of another crate are a parameter, and so is the normalisation of language tags (`Lang::new`).
-/

namespace Shacl
open Lit

/-- Terms of the data (`oxrdf::Term`). -/
inductive Term where
  | iri (s : Str)
  | bnode (s : Str)
  | lit (r : RdfLiteral)
deriving DecidableEq

/-- `Object` (`rudof_rdf/src/rdf_core/term/triple.rs` 178-197): what terms are converted to. -/
inductive Ob (D : Type) where
  | iri (s : Str)
  | bnode (s : Str)
  | lit (l : Literal D)

/-- `Term::is_literal`. -/
def Term.isLit : Term → Bool
  | .lit _ => true
  | _ => false

/-- `Term::is_blank_node`. -/
def Term.isBlank : Term → Bool
  | .bnode _ => true
  | _ => false

/-- A graph: terms other than literals can be subjects (`term_as_subject`). -/
def data (ts : List (Term × Str × Term)) : Graph Term Str := ⟨ts, fun t => !t.isLit⟩

/-- Functions of other crates: for literals, and `Lang::new`. -/
structure Env (D : Type) where
  X : Ext D
  norm : Str → Option Str

section
variable {D : Type} (E : Env D)

/-- `term_as_object` (`triple.rs` 400-424). -/
def Env.obj : Term → Option (Ob D)
  | .iri s => some (.iri s)
  | .bnode s => some (.bnode s)
  | .lit r => (Literal.ofRdf E.X E.norm r).map .lit

/-- `object_as_term` (`triple.rs` 383-392). -/
def Env.term : Ob D → Term
  | .iri s => .iri s
  | .bnode s => .bnode s
  | .lit l => .lit (l.toRdf E.X)

/-- The derived equality of `Object`. -/
def Env.same : Ob D → Ob D → Bool
  | .iri s, .iri s' => decide (s = s')
  | .bnode s, .bnode s' => decide (s = s')
  | .lit l, .lit l' => l.eq E.X l'
  | _, _ => false

/-- `PartialOrd for Object` (`triple.rs` 515-539). -/
def Env.cmp : Ob D → Ob D → Option Ordering
  | .iri a, .iri b => some (cmpStr a b)
  | .bnode a, .bnode b => some (cmpStr a b)
  | .lit a, .lit b => a.partialCmp E.X b
  | .iri _, _ => some .lt
  | .bnode _, .iri _ => some .gt
  | .bnode _, .lit _ => some .lt
  | .lit _, _ => some .gt

/-- The datatype of a literal of the library (`oxrdf_impl.rs` 146-148). -/
def RdfLiteral.datatype (r : RdfLiteral) : Dt :=
  match r.dt, r.lang with
  | some d, _ => d
  | none, some _ => .langString
  | none, none => .string

/-- `Literal::lang` of the library (`oxrdf_impl.rs` 139-143). -/
def Env.lang (r : RdfLiteral) : Option Str := r.lang.bind E.norm

/-- `NodeKind`. -/
inductive NodeKind where
  | iri | lit | bnode | bnodeOrIri | bnodeOrLit | iriOrLit
deriving DecidableEq

/-- `IRComponent` (`ir/component.rs`), the constraints that do not refer to shapes. Counts and lengths are given as
`isize`. -/
inductive Prim (D : Type) where
  | cls (c : Ob D)
  | datatype (d : Dt)
  | nodeKind (k : NodeKind)
  | minCount (n : Int)
  | maxCount (n : Int)
  | minExclusive (l : Literal D)
  | minInclusive (l : Literal D)
  | maxExclusive (l : Literal D)
  | maxInclusive (l : Literal D)
  | minLength (n : Int)
  | maxLength (n : Int)
  | pattern (re : Str → Bool)
  | uniqueLang (b : Bool)
  | languageIn (langs : List Str)
  | equals (p : Str)
  | disjoint (p : Str)
  | lessThan (p : Str)
  | lessThanOrEquals (p : Str)
  | hasValue (o : Ob D)
  | isIn (l : List (Ob D))
  | closed (b : Bool)

/-- A result for a focus node: its value, and the predicate named by `sh:closed`. -/
structure Hit (D : Type) where
  value : Option (Ob D)
  path : Option Str

/-- `apply` with value node iteration (CM 248-284): a result for each value node for which the evaluator says so. -/
def Env.each (x : Term) (vs : List Term) (bad : Term → Bool) : List (Hit D) :=
  match E.obj x with
  | none => []
  | some _ => (vs.filter bad).map fun v => ⟨E.obj v, none⟩

/-- `apply` with focus node iteration: at most one result, without value. -/
def Env.once (x : Term) (bad : Bool) : List (Hit D) :=
  match E.obj x with
  | none => []
  | some _ => if bad then [⟨none, none⟩] else []

/-- `rdf:type`. -/
def rdfType : Str := "http://www.w3.org/1999/02/22-rdf-syntax-ns#type".toList
/-- `rdfs:subClassOf`. -/
def subClassOf : Str := "http://www.w3.org/2000/01/rdf-schema#subClassOf".toList

/-- `objects_for(..).unwrap_or_default()`. -/
def Graph.objectsOr (g : Graph Term Str) (x : Term) (p : Str) : List Term :=
  match g.objects x p with
  | .ok l => l
  | _ => []

/-- `value/class.rs` 38-55. -/
def classViolates (g : Graph Term Str) (c : Term) (v : Term) : Bool :=
  if v.isLit then true
  else !((g.objectsOr v rdfType).any fun t => t == c || (g.objectsOr t subClassOf).contains c)

/-- `value/datatype.rs` 25-35. -/
def Env.datatypeViolates (d : Dt) : Term → Bool
  | .lit r =>
    match Literal.ofRdf E.X E.norm r with
    | some (.wrong _ _ _) => true
    | some _ => decide (RdfLiteral.datatype r ≠ d)
    | none => true
  | _ => true

/-- `value/node_kind.rs` 36-53. -/
def kindViolates (k : NodeKind) : Term → Bool
  | .bnode _ => !(k == .bnode || k == .bnodeOrIri || k == .bnodeOrLit)
  | .iri _ => !(k == .iri || k == .bnodeOrIri || k == .iriOrLit)
  | .lit _ => !(k == .lit || k == .iriOrLit || k == .bnodeOrLit)

/-- The four files of `value_range` (37-41): the literal is compared to the bound; a term that is not a literal, or
that is not comparable, is a violation. -/
def Env.rangeViolates (bound : Literal D) (out : Ordering → Bool) : Term → Bool
  | .lit r =>
    match Literal.ofRdf E.X E.norm r with
    | some l =>
      match l.partialCmp E.X bound with
      | some o => out o
      | none => true
    | none => true
  | _ => true

/-- `string_based/{min,max}_length.rs` 33-44: the length in bytes of an IRI or of the text of a literal. -/
def lengthViolates (bad : Nat → Bool) : Term → Bool
  | .bnode _ => true
  | .iri s => bad (Value.byteLen s)
  | .lit r => bad (Value.byteLen r.lex)

/-- `string_based/pattern.rs` 42-49. -/
def patternViolates (re : Str → Bool) : Term → Bool
  | .bnode _ => true
  | .iri s => !re s
  | .lit r => !re r.lex

/-- `string_based/language_in.rs` 29-43. -/
def Env.languageViolates (langs : List Str) : Term → Bool
  | .lit r =>
    match E.lang r with
    | none => true
    | some g => !(langs.any fun l =>
        g.map Char.toLower == l.map Char.toLower || (l.map Char.toLower ++ ['-']).isPrefixOf (g.map Char.toLower))
  | _ => true

/-- The language of a value node for `sh:uniqueLang`. -/
def Env.langOf : Term → Option Str
  | .lit r => E.lang r
  | _ => none

/-- `string_based/unique_lang.rs` 34-60: a result for each language of more than one value node. The order of the
map is not modelled. -/
def Env.uniqueHits (vs : List Term) : List (Hit D) :=
  let langs := (vs.filterMap E.langOf).dedup
  (langs.filter fun g => decide (1 < (vs.filter fun v => E.langOf v == some g).length)).map fun _ => ⟨none, none⟩

/-- `triples_with_subject_predicate`, the objects. -/
def Graph.values (g : Graph Term Str) (x : Term) (p : Str) : List Term :=
  (g.triples.filter fun t => decide (t.1 = x ∧ t.2.1 = p)).map fun t => t.2.2

/-- `property_pair/equals.rs` 34-75. -/
def Env.equalsHits (g : Graph Term Str) (p : Str) (x : Term) (vs : List Term) : Outcome (List (Hit D)) :=
  if x.isLit then .ok []
  else
    match E.obj x with
    | none => .err
    | some _ =>
      let ps := (g.values x p).dedup
      .ok ((ps.filter fun t => !vs.contains t).map (fun t => ⟨E.obj t, none⟩) ++
        (vs.filter fun t => !ps.contains t).map fun t => ⟨E.obj t, none⟩)

/-- The loop over triples of `property_pair/disjoint.rs` 41-49, with the panics of `unwrap`. -/
def Env.sharedLoop (v : Term) : List Term → Outcome Bool
  | [] => .ok false
  | t :: ts =>
    match E.obj v, E.obj t with
    | some a, some b => if E.same a b then .ok true else sharedLoop v ts
    | _, _ => .panic

/-- `property_pair/disjoint.rs` 33-60: the focus node has to be a subject. -/
def Env.disjointLoop (g : Graph Term Str) (p : Str) (x : Term) : List Term → Outcome (List (Hit D))
  | [] => .ok []
  | v :: vs =>
    if x.isLit then .panic
    else
      match E.sharedLoop v (g.values x p) with
      | .ok b =>
        match disjointLoop g p x vs with
        | .ok hs => .ok (if b then ⟨E.obj v, none⟩ :: hs else hs)
        | o => o
      | .err => .err
      | .panic => .panic

/-- Whether `node2.partial_cmp(&node1)` is a violation (`property_pair/less_than{,_or_equals}.rs` 46-54). -/
def outOfOrder (strict : Bool) : Option Ordering → Bool
  | none => true
  | some .lt => false
  | some .eq => strict
  | some .gt => true

/-- The inner loop, over value nodes (`less_than.rs` 44-69). -/
def Env.lessInner (strict : Bool) (node1 : Ob D) : List Term → Outcome (List (Hit D))
  | [] => .ok []
  | v :: vs =>
    match E.obj v with
    | none => .err
    | some node2 =>
      match lessInner strict node1 vs with
      | .ok hs => .ok (if outOfOrder strict (E.cmp node2 node1) then ⟨some node2, none⟩ :: hs else hs)
      | o => o

/-- The outer loop, over triples (`less_than.rs` 42-70). -/
def Env.lessLoop (strict : Bool) (vs : List Term) : List Term → Outcome (List (Hit D))
  | [] => .ok []
  | t :: ts =>
    match E.obj t with
    | none => .err
    | some node1 =>
      match E.lessInner strict node1 vs with
      | .ok hs =>
        match lessLoop strict vs ts with
        | .ok hs' => .ok (hs ++ hs')
        | o => o
      | o => o

/-- `property_pair/less_than{,_or_equals}.rs` 34-87. -/
def Env.lessHits (strict : Bool) (g : Graph Term Str) (p : Str) (x : Term) (vs : List Term) : Outcome (List (Hit D)) :=
  if x.isLit then .err
  else
    match E.obj x with
    | none => .err
    | some _ => E.lessLoop strict vs (g.values x p)

/-- `other/closed.rs` 33-63, with the allowed properties of the shape (`types/closed_info.rs` 36-47): the triples
of the focus node whose predicate is not allowed. -/
def Env.closedHits (g : Graph Term Str) (allowed : List Str) (x : Term) : Outcome (List (Hit D)) :=
  if x.isLit then .ok []
  else
    match E.obj x with
    | none => .err
    | some _ => .ok ((g.triples.filter fun t => decide (t.1 = x ∧ t.2.1 ∉ allowed)).map fun t => ⟨E.obj t.2.2, some t.2.1⟩)

/-- `validate_native` of the components, for one focus node with its value nodes. `allowed` is what `allowed_properties`
of the shape gives. -/
def Prim.eval (g : Graph Term Str) (allowed : List Str) (x : Term) (vs : List Term) : Prim D → Outcome (List (Hit D))
  | .cls c => .ok (E.each x vs (classViolates g (E.term c)))
  | .datatype d => .ok (E.each x vs (E.datatypeViolates d))
  | .nodeKind k => .ok (E.each x vs (kindViolates k))
  | .minCount n => .ok (if asUsize n = 0 then [] else E.once x (decide (vs.length < asUsize n)))
  | .maxCount n => .ok (E.once x (decide (asUsize n < vs.length)))
  | .minExclusive l => .ok (E.each x vs (E.rangeViolates l fun o => o.isLE))
  | .minInclusive l => .ok (E.each x vs (E.rangeViolates l fun o => o.isLT))
  | .maxExclusive l => .ok (E.each x vs (E.rangeViolates l fun o => o.isGE))
  | .maxInclusive l => .ok (E.each x vs (E.rangeViolates l fun o => o.isGT))
  | .minLength n => .ok (E.each x vs (lengthViolates fun k => decide (k < asUsize n)))
  | .maxLength n => .ok (E.each x vs (lengthViolates fun k => decide (asUsize n < k)))
  | .pattern re => .ok (E.each x vs (patternViolates re))
  | .uniqueLang b => if b then (match E.obj x with | none => .err | some _ => .ok (E.uniqueHits vs)) else .ok []
  | .languageIn ls => .ok (E.each x vs (E.languageViolates ls))
  | .equals p => E.equalsHits g p x vs
  | .disjoint p => match E.obj x with | none => .ok [] | some _ => E.disjointLoop g p x vs
  | .lessThan p => E.lessHits true g p x vs
  | .lessThanOrEquals p => E.lessHits false g p x vs
  | .hasValue o => .ok (E.once x (!vs.contains (E.term o)))
  | .isIn l => .ok (E.each x vs fun v => !(l.map E.term).contains v)
  | .closed b => if b then E.closedHits g allowed x else .ok []

/-- `defined_properties_for` (`shacl/src/ast/mod.rs` 25-48) and `allowed_properties`: the predicates of the paths of the
property shapes, and the ignored ones. -/
def allowedOf (paths : List (Path Str)) (ignored : List Str) : List Str :=
  (paths.filterMap fun
    | .pred p => some p
    | _ => none) ++ ignored

end

end Shacl

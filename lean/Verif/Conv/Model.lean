import Verif.Shexc.Ast

/-!
# Model: SHACL schemas as ShEx schemas

shapes_converter/src/shacl_to_shex/shacl2shex.rs, from the compiled SHACL shapes (shacl/src/ir) to the syntax tree of
ShEx, as far as the conversion looks at them. The prefix map of the result is left out.
-/

namespace Conv

open Shexc (SE TE NC Value ObjVal IriRef Label Str)

/-- `Object` (rudof_rdf/src/rdf_core/term/triple.rs:179-190), as far as it matters here. -/
inductive Ob where
  | iri (i : Str)
  | bnode (b : Str)
  | literal
  | triple
deriving DecidableEq

/-- `IRComponent` (shacl/src/ir/component.rs:24-55): `Or` without its shapes, and one for all the other constraints
that the conversion has no code for. -/
inductive Comp where
  | cls (c : Ob)
  | datatype (d : IriRef)
  | or
  | other
deriving DecidableEq

/-- `Target` (shacl/src/types/target.rs:9-23), without what is not looked at; the five wrong ones are one. -/
inductive Target where
  | node
  | cls (c : Ob)
  | subjectsOf
  | objectsOf
  | implicitClass
  | wrong
deriving DecidableEq

/-- `IRNodeShape` (shacl/src/ir/node_shape.rs): its components are not looked at. -/
structure NodeShape where
  id : Ob
  props : List Nat
  targets : List Target

/-- `IRPropertyShape` (shacl/src/ir/property_shape.rs): the predicate, if the path is one, and the components. -/
structure PropShape where
  path : Option Str
  comps : List Comp

/-- `IRShape` (shacl/src/ir/shape.rs:17-21). -/
inductive Shape where
  | node (s : NodeShape)
  | prop (s : PropShape)

/-- `IRSchema` (shacl/src/ir/schema.rs:19-31): the indices of the labels, in the order in which the hash map is gone
through, and the shapes. -/
structure Schema where
  labels : List Nat
  shape : Nat → Option Shape

/-- What a function ends with. -/
inductive Out (α : Type) where
  | ok (a : α)
  | error
  | panic

/-- `?`. -/
def Out.bind {α β : Type} : Out α → (α → Out β) → Out β
  | .ok a, f => f a
  | .error, _ => .error
  | .panic, _ => .panic

/-- A loop that stops at the first failure. -/
def mapOut {α β : Type} (f : α → Out β) : List α → Out (List β)
  | [] => .ok []
  | a :: as => (f a).bind fun b => (mapOut f as).bind fun bs => .ok (b :: bs)

/-- `IriS::rdf_type()`. -/
def rdfType : Str := "http://www.w3.org/1999/02/22-rdf-syntax-ns#type".toList

/-- `TripleExpr::triple_constraint` as it is used here (triple_expr.rs:91-110). -/
def mkTc (p : Str) (e : Option SE) : TE := .tc none none none (.iri p) e none none none none

/-- `TripleExpr::each_of` (triple_expr.rs:112-127). -/
def mkEach (ts : List TE) : TE := .each none ts none none none none

/-- `ShExShape::new` (shape.rs:31-40). -/
def mkShape (te : Option TE) : SE := .shape none none te none none none

/-- A value set of IRIs. -/
def mkValues (cs : List Str) : SE := .nc { values := some (cs.map fun c => .obj (.iri (.iri c))) }

/-- `rdfnode2label` (shacl2shex.rs:60-67). -/
def label : Ob → Out Label
  | .iri i => .ok (.iri (.iri i))
  | .bnode b => .ok (.bnode b)
  | .literal => .error
  | .triple => .panic

/-- `create_class_constraint` (shacl2shex.rs:298-310). -/
def classConstraint : Ob → Out SE
  | .iri c => .ok (mkShape (some (mkTc rdfType (some (mkValues [c])))))
  | _ => .panic

/-- `component2shape_expr` (shacl2shex.rs:312-353). -/
def component : Comp → Out SE
  | .cls c => classConstraint c
  | .datatype d => .ok (.nc { datatype := some d })
  | .or => .ok (mkShape none)
  | .other => .panic

/-- `components2shape_expr` (shacl2shex.rs:274-296): of several only the first is taken. -/
def components (cs : List Comp) : Out (Option SE) := (mapOut component cs).bind fun es => .ok es.head?

/-- `property_shape2triple_constraint` with `shacl_path2predicate` (shacl2shex.rs:264-272, 355-360). -/
def property (s : PropShape) : Out TE :=
  match s.path with
  | none => .panic
  | some p => (components s.comps).bind fun e => .ok (mkTc p e)

/-- A property shape of a node shape (shacl2shex.rs:71-86). -/
def propertyAt (S : Schema) (i : Nat) : Out TE :=
  match S.shape i with
  | none => .panic
  | some (.prop s) => property s
  | some (.node _) => .error

/-- `target2value_set_value` (shacl2shex.rs:124-153). -/
def targetValue : Target → Out (Option Str)
  | .cls (.iri c) => .ok (some c)
  | .cls (.bnode _) => .error
  | .cls .literal => .error
  | .cls .triple => .panic
  | .wrong => .panic
  | _ => .ok none

/-- `convert_target_decls` (shacl2shex.rs:107-122). -/
def targetDecls (ts : List Target) : Out TE :=
  (mapOut targetValue ts).bind fun cs => .ok (mkTc rdfType (some (mkValues (cs.filterMap id))))

/-- `merge_triple_exprs` with `merge_expressions` (shacl2shex.rs:155-262). -/
def merge : TE → TE → Out TE
  | .each id es mn mx acts anns, .each _ es' _ _ _ _ => .ok (.each id (es ++ es') mn mx acts anns)
  | .each _ es _ _ _ _, .tc id n i p e mn mx acts anns =>
    .ok (.each id (es ++ [.tc id n i p e mn mx acts anns]) mn mx acts anns)
  | .tc id n i p e mn mx acts anns, .each _ es' _ _ _ _ =>
    .ok (.each id (.tc id n i p e mn mx acts anns :: es') mn mx acts anns)
  | .tc id n i p e mn mx acts anns, .tc id' n' i' p' e' mn' mx' acts' anns' =>
    .ok (.each id' [.tc id n i p e mn mx acts anns, .tc id' n' i' p' e' mn' mx' acts' anns'] mn' mx' acts' anns')
  | _, _ => .panic

/-- The property shapes as one triple expression (shacl2shex.rs:89-93). -/
def eachOpt (ts : List TE) : Option TE := if ts.isEmpty then none else some (mkEach ts)

/-- `node_shape2shape_expr` (shacl2shex.rs:69-105). -/
def nodeShape (addTargetClass : Bool) (S : Schema) (s : NodeShape) : Out SE :=
  (mapOut (propertyAt S) s.props).bind fun ts =>
    if addTargetClass then
      (targetDecls s.targets).bind fun t =>
        match eachOpt ts with
        | none => .ok (mkShape (some t))
        | some t' => (merge t' t).bind fun te => .ok (mkShape (some te))
    else .ok (mkShape (eachOpt ts))

/-- `convert_shape` (shacl2shex.rs:49-58). -/
def convertShape (addTargetClass : Bool) (S : Schema) (s : NodeShape) : Out (Label × SE × Bool) :=
  (label s.id).bind fun l => (nodeShape addTargetClass S s).bind fun e => .ok (l, e, false)

/-- One label of the loop of `convert` (shacl2shex.rs:35-45) with `IRSchema::iter` (shacl/src/ir/schema.rs:101-111). -/
def convertAt (addTargetClass : Bool) (S : Schema) (i : Nat) : Out (Option (Label × SE × Bool)) :=
  match S.shape i with
  | none => .panic
  | some (.node s) => (convertShape addTargetClass S s).bind fun d => .ok (some d)
  | some (.prop _) => .ok none

/-- `convert` (shacl2shex.rs:32-47): the shapes of the schema. -/
def convert (addTargetClass : Bool) (S : Schema) : Out (List (Label × SE × Bool)) :=
  (mapOut (convertAt addTargetClass S) S.labels).bind fun ds => .ok (ds.filterMap id)

end Conv

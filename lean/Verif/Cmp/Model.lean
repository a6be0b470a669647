import Verif.Shexc.Ast
import Verif.Prefix.Model

/-!
# Model: comparison of shapes

shapes_comparator/src/coshamo.rs, shaco.rs and coshamo_converter.rs, with `Schema::find_shape`. The syntax tree is that
of `Verif/Shexc`, prefix maps are those of `Verif/Prefix`. A `HashMap` is the list of its entries in the order of
iteration. Percentages are not modelled, since none is ever set; the texts of errors are not modelled either.
-/

namespace Cmp

open Shexc (SE TE NC IriRef Label Kind Str)

/-- What is outside: which texts are IRIs, and how a label is displayed. -/
structure Env where
  valid : Str → Bool
  showLabel : Label → Str

/-- The parts of a schema that are used (shex_ast/src/ast/schema.rs:18-50). -/
structure Schema where
  prefixmap : Option Prefix.PrefixMap
  shapes : Option (List (Label × SE))

/-- `ValueConstraint` (coshamo.rs:107-115), without `Other`, which is never made. -/
inductive VC where
  | datatype (iri : Str)
  | kind (k : Kind)
  | ref (text : Str)
  | any
  deriving DecidableEq, Repr

/-- `ValueDescription` (coshamo.rs:65-75). -/
structure Desc where
  iri : IriRef
  vc : VC
  deriving DecidableEq, Repr

/-- `ComparatorError` (comparator_error.rs:5-32), as far as it comes from a ShEx schema. -/
inductive Err where
  | notFound
  | noLabel
  | noPrefixMap
  | resolve
  | notImplemented
  deriving DecidableEq, Repr

/-- A result, or a panic. -/
inductive Res (α : Type) where
  | ok (a : α)
  | err (e : Err)
  | panic
  deriving DecidableEq, Repr

/-- `?`. -/
def Res.bind {α β : Type} : Res α → (α → Res β) → Res β
  | .ok a, f => f a
  | .err e, _ => .err e
  | .panic, _ => .panic

instance : Monad Res where
  pure := .ok
  bind := Res.bind

/-- The constraints of a `CoShaMo` (coshamo.rs:8-12). -/
abbrev Constraints := List (Str × Desc)

/-- `ShaCo` (shaco.rs:7-12). -/
structure ShaCo where
  equal : List (Str × (Desc × Desc))
  only1 : List (Str × Desc)
  only2 : List (Str × Desc)
  deriving DecidableEq, Repr

/-- The first loop of `compare` (coshamo.rs:49-55). -/
def compare1 (other : Constraints) : Constraints → ShaCo → ShaCo
  | [], r => r
  | (p, d) :: cs, r =>
    compare1 other cs (match Prefix.imGet p other with
      | some d2 => { r with equal := Prefix.imInsert p (d, d2) r.equal }
      | none => { r with only1 := Prefix.imInsert p d r.only1 })

/-- The second loop of `compare` (coshamo.rs:56-62). -/
def compare2 (self : Constraints) : Constraints → ShaCo → ShaCo
  | [], r => r
  | (p, d) :: cs, r =>
    compare2 self cs (if (Prefix.imGet p self).isSome then r else { r with only2 := Prefix.imInsert p d r.only2 })

/-- `CoShaMo::compare` (coshamo.rs:47-64). -/
def compare (self other : Constraints) : ShaCo := compare2 self other (compare1 other self ⟨[], [], []⟩)

/-- `PrefixMap::resolve_iriref` (prefixmap/src/prefix_map.rs:521-526). -/
def resolveRef (E : Env) (m : Prefix.PrefixMap) : IriRef → Option Str
  | .prefixed pfx loc => m.resolvePrefixLocal E.valid pfx loc
  | .iri s => some s

/-- The loop of `find_shape_by_iri_ref` (schema.rs:283-290); `none` for an error. -/
def findGo (E : Env) (m : Prefix.PrefixMap) (iri : Str) : List (Label × SE) → Option (Option SE)
  | [] => some none
  | (.iri r, e) :: ds => match resolveRef E m r with
    | none => none
    | some i => if i = iri then some (some e) else findGo E m iri ds
  | _ :: ds => findGo E m iri ds

/-- `find_shape` with `find_shape_by_iri_ref` (schema.rs:243-297), and an error for no shape
(coshamo_converter.rs:44-75). -/
def findShape (E : Env) (S : Schema) (label : Str) : Res SE :=
  if label = "START".toList then .panic
  else if (Prefix.stripPrefix "_:".toList label).isSome then .panic
  else match Prefix.iriFromStr E.valid label with
    | none => .err .notFound
    | some iri => match S.shapes with
      | none => .err .notFound
      | some ds => match findGo E (S.prefixmap.getD Prefix.PrefixMap.new) iri ds with
        | some (some e) => .ok e
        | _ => .err .notFound

/-- `CoShaMo::resolve` and `get_iri` (coshamo.rs:32-45, coshamo_converter.rs:83-85). -/
def getIri (E : Env) (S : Schema) (r : IriRef) : Res Str :=
  match S.prefixmap with
  | none => .err .noPrefixMap
  | some m => match resolveRef E m r with
    | none => .err .resolve
    | some i => .ok i

/-- `value_expr2value_constraint` (coshamo_converter.rs:176-222). -/
def valueConstraint (E : Env) (S : Schema) (ignore : Bool) (v : Option SE) : Res VC :=
  if ignore then .ok .any
  else match v with
    | none => .ok .any
    | some (.nc c) => match c.datatype with
      | some dt => do let i ← getIri E S dt; return .datatype i
      | none => match c.kind with
        | some k => .ok (.kind k)
        | none => .err .notImplemented
    | some (.ref l) => .ok (.ref (E.showLabel l))
    | some _ => .err .notImplemented

/-- `triple_expr_as_constraint2coshamo` (coshamo_converter.rs:149-174). -/
def asConstraint (E : Env) (S : Schema) (ignore : Bool) : TE → Res (IriRef × Desc)
  | .tc _ _ _ p v _ _ _ _ => do let vc ← valueConstraint E S ignore v; return (p, ⟨p, vc⟩)
  | _ => .err .notImplemented

/-- The loop over the expressions of a group (coshamo_converter.rs:97-101). -/
def groupGo (E : Env) (S : Schema) (ignore : Bool) : List TE → Constraints → Res Constraints
  | [], cs => .ok cs
  | t :: ts, cs => do
    let (p, d) ← asConstraint E S ignore t
    let i ← getIri E S p
    groupGo E S ignore ts (Prefix.imInsert i d cs)

/-- `triple_expr2coshamo` with `triple_constraint2coshamo` (coshamo_converter.rs:87-147). A triple constraint that is
not in a group is added to the model of the converter, `self.current_coshamo`, not to the one that is returned. -/
def tripleExpr (E : Env) (S : Schema) (ignore : Bool) : TE → Res Constraints
  | .each _ es _ _ _ _ => groupGo E S ignore es []
  | .one _ _ _ _ _ _ => .err .notImplemented
  | .tc _ _ _ p v _ _ _ _ => do
    let _ ← getIri E S p
    let _ ← valueConstraint E S ignore v
    return []
  | .ref _ => .panic

/-- `shape2coshamo` (coshamo_converter.rs:224-257). -/
def shapeConstraints (E : Env) (S : Schema) (ignore : Bool) : SE → Res Constraints
  | .shape _ _ (some te) _ _ _ => tripleExpr E S ignore te
  | .shape _ _ none _ _ _ => .ok []
  | _ => .err .notImplemented

/-- `populate_from_shex` (coshamo_converter.rs:39-81). -/
def populate (E : Env) (S : Schema) (ignore : Bool) : Option Str → Res Constraints
  | none => .err .noLabel
  | some l => do
    let e ← findShape E S l
    shapeConstraints E S ignore e

end Cmp

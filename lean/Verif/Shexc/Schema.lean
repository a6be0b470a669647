import Verif.Prefix.Model
import Verif.Shexc.Grammar

/-!
# Model: from the statements of a text to a schema

shex_ast/src/compact/shex_parser.rs and the implementations of `DerefIri` in shex_ast/src/ast, which replace names by
IRIs. Which strings are IRIs and how an IRI is resolved against a base are parameters (the oxiri crate).
-/

namespace Shexc

/-- What the resolution of names takes from outside: which strings are IRIs, and the resolution of an IRI against a
base (`IriS::resolve`, rudof_iri/src/iri/iris.rs:122-126). -/
structure Iris where
  valid : Str → Bool
  resolve : Str → Str → Option Str

/-- The declarations that names are resolved with. -/
structure Env where
  base : Option Str := none
  pm : Option Prefix.PrefixMap := none

/-- `IriRef::deref_iri` (prefixmap/src/iri/iri_ref.rs:61-90). -/
def IriRef.deref (I : Iris) (E : Env) : IriRef → Option IriRef
  | .iri s =>
    match E.base with
    | none => some (.iri s)
    | some b => (I.resolve b s).map .iri
  | .prefixed p l =>
    match E.pm with
    | none => none
    | some m => (m.resolvePrefixLocal I.valid p l).map .iri

/-- `Vec::deref_iri` (deref_iri.rs:37-44). -/
def derefList {α : Type} (f : α → Option α) : List α → Option (List α)
  | [] => some []
  | a :: as => do
    let a ← f a
    let as ← derefList f as
    return a :: as

/-- `Option::deref_iri` (deref_iri.rs:19-26). -/
def derefOpt {α : Type} (f : α → Option α) : Option α → Option (Option α)
  | none => some none
  | some a => (f a).map some

/-- `ShapeExprLabel::deref_iri` (shape_expr_label.rs:56-70). -/
def Label.deref (I : Iris) (E : Env) : Label → Option Label
  | .iri r => (r.deref I E).map .iri
  | .bnode s => some (.bnode s)
  | .start => some .start

/-- `TripleExprLabel::deref_iri` (triple_expr_label.rs:17-34). -/
def TLabel.deref (I : Iris) (E : Env) : TLabel → Option TLabel
  | .iri r => (r.deref I E).map .iri
  | .bnode s => some (.bnode s)

/-- `SemAct::deref_iri` (sem_act.rs:27-39). -/
def SemAct.deref (I : Iris) (E : Env) (a : SemAct) : Option SemAct := (a.name.deref I E).map fun n => ⟨n, a.code⟩

/-- `ConcreteLiteral::deref_iri` (literal.rs:1001-1028). -/
def Lit.deref (I : Iris) (E : Env) : Lit → Option Lit
  | .typed s d => (d.deref I E).map (.typed s)
  | l => some l

/-- `ObjectValue::deref_iri` (object_value.rs:87-100). -/
def ObjVal.deref (I : Iris) (E : Env) : ObjVal → Option ObjVal
  | .iri r => (r.deref I E).map .iri
  | .lit l => (l.deref I E).map .lit

/-- `Annotation::deref_iri` (annotation.rs:49-58). -/
def Annot.deref (I : Iris) (E : Env) (a : Annot) : Option Annot := do
  let p ← a.pred.deref I E
  let o ← a.obj.deref I E
  return ⟨p, o⟩

/-- `ValueSetValue::deref_iri` (value_set_value.rs:94-128): stems and exclusions stay as they are. -/
def Value.deref (I : Iris) (E : Env) : Value → Option Value
  | .obj o => (o.deref I E).map .obj
  | v => some v

/-- `NodeConstraint::deref_iri` (node_constraint.rs:152-170). -/
def NC.deref (I : Iris) (E : Env) (c : NC) : Option NC := do
  let d ← derefOpt (·.deref I E) c.datatype
  let vs ← derefOpt (derefList (·.deref I E)) c.values
  return ⟨c.kind, d, c.facets, vs⟩

mutual
/-- `ShapeExpr::deref_iri` with `Shape::deref_iri` (shape_expr.rs:178-213, shape.rs:101-160). -/
def SE.deref (I : Iris) (E : Env) : SE → Option SE
  | .or es => (SE.derefs I E es).map .or
  | .and es => (SE.derefs I E es).map .and
  | .not e => (SE.deref I E e).map .not
  | .nc c => (c.deref I E).map .nc
  | .shape cl extra te acts anns ext => do
    let extra ← derefOpt (derefList (·.deref I E)) extra
    let te ← TE.derefO I E te
    let anns ← derefOpt (derefList (·.deref I E)) anns
    let acts ← derefOpt (derefList (·.deref I E)) acts
    let ext ← derefOpt (derefList (·.deref I E)) ext
    return .shape cl extra te acts anns ext
  | .external => some .external
  | .ref l => (l.deref I E).map .ref
/-- `Vec<ShapeExprWrapper>::deref_iri` (shape_expr.rs:22-28, deref_iri.rs:37-44). -/
def SE.derefs (I : Iris) (E : Env) : List SE → Option (List SE)
  | [] => some []
  | e :: es => do
    let e ← SE.deref I E e
    let es ← SE.derefs I E es
    return e :: es
/-- `Option<Box<ShapeExpr>>::deref_iri` (deref_iri.rs:19-35). -/
def SE.derefO (I : Iris) (E : Env) : Option SE → Option (Option SE)
  | none => some none
  | some e => (SE.deref I E e).map some
/-- `TripleExpr::deref_iri` (triple_expr.rs:470-549). -/
def TE.deref (I : Iris) (E : Env) : TE → Option TE
  | .each id es mn mx acts anns => do
    let id ← derefOpt (·.deref I E) id
    let anns ← derefOpt (derefList (·.deref I E)) anns
    let acts ← derefOpt (derefList (·.deref I E)) acts
    let es ← TE.derefs I E es
    return .each id es mn mx acts anns
  | .one id es mn mx acts anns => do
    let id ← derefOpt (·.deref I E) id
    let anns ← derefOpt (derefList (·.deref I E)) anns
    let acts ← derefOpt (derefList (·.deref I E)) acts
    let es ← TE.derefs I E es
    return .one id es mn mx acts anns
  | .tc id n i p v mn mx acts anns => do
    let id ← derefOpt (·.deref I E) id
    let anns ← derefOpt (derefList (·.deref I E)) anns
    let acts ← derefOpt (derefList (·.deref I E)) acts
    let p ← p.deref I E
    let v ← SE.derefO I E v
    return .tc id n i p v mn mx acts anns
  | .ref l => (l.deref I E).map .ref
/-- `Vec<TripleExprWrapper>::deref_iri` (triple_expr.rs:584-589). -/
def TE.derefs (I : Iris) (E : Env) : List TE → Option (List TE)
  | [] => some []
  | e :: es => do
    let e ← TE.deref I E e
    let es ← TE.derefs I E es
    return e :: es
/-- `Option<TripleExprWrapper>::deref_iri` (shape.rs:113-119). -/
def TE.derefO (I : Iris) (E : Env) : Option TE → Option (Option TE)
  | none => some none
  | some e => (TE.deref I E e).map some
end

/-- `ShapeDecl` (shape_decl.rs:10-21). -/
structure Decl where
  label : Label
  expr : SE
  abs : Bool

/-- `Schema` (schema.rs:22-47), without the context and the source. -/
structure Schema where
  imports : Option (List IriRef) := none
  start : Option SE := none
  startActs : Option (List SemAct) := none
  shapes : Option (List Decl) := none
  env : Env := {}

/-- `with_import`, `add_shape` (schema.rs:103-110, 164-172): a list that is made when it is first needed. -/
def push {α : Type} (l : Option (List α)) (a : α) : Option (List α) := some (l.getD [] ++ [a])

/-- `add_prefix` (schema.rs:117-126). -/
def Env.addPrefix (E : Env) (p i : Str) : Env := { E with pm := some ((E.pm.getD .new).addPrefix p i) }

/-- One statement (shex_parser.rs:37-63); `none` when a name cannot be resolved. -/
def Schema.step (I : Iris) (S : Schema) : Stmt → Option Schema
  | .base s => some { S with env := { S.env with base := some s } }
  | .pfx p i => some { S with env := S.env.addPrefix p i }
  | .imp r => some { S with imports := push S.imports r }
  | .startActs as => some { S with startActs := some as }
  | .start e => do
    let e ← e.deref I S.env
    return { S with start := some e }
  | .decl a l e => do
    let l ← l.deref I S.env
    let e ← e.deref I S.env
    return { S with shapes := push S.shapes ⟨l, e, a⟩ }

/-- What `ShExParser::parse` ends with. -/
inductive Out where
  | ok (S : Schema)
  | error
  | panic
  | deep

/-- The loop of `parse` with `StatementIterator::next` (shex_parser.rs:36-64, 102-148), with fuel. -/
def parseGo (X : Ext) (I : Iris) : Nat → Schema → Str → Out
  | _, S, [] => .ok S
  | 0, _, _ :: _ => .deep
  | n + 1, S, c :: i =>
    match statement X (c :: i) with
    | .ok s r =>
      match S.step I s with
      | some S' => parseGo X I n S' (skip r)
      | none => .error
    | .panic => .panic
    | .deep => .deep
    | _ => .error

/-- `ShExParser::parse` (shex_parser.rs:29-66). -/
def parse (X : Ext) (I : Iris) (base : Option Str) (i : Str) : Out :=
  parseGo X I i.length { env := { base := base } } (skip i)

end Shexc

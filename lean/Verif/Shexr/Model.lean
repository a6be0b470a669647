import Verif.Rd.Model

/-!
# Model: the reader of ShEx schemas written as graphs (ShExR)

`SR` is `shex_ast/src/shexr/shexr_parser.rs`, `SV` is `rudof_rdf/src/rdf_core/vocabs/shexr.rs`; `CO`, `VL`, `PM`, `PR`,
`TY` are the files of parsers of nodes as in `Rd/Model.lean` (`TY` is `constructors/typing.rs`).

The parsers of nodes are those of `Rd/Model.lean`. The conversion of literals to Booleans is a parameter. The prefix map
and the base of the schema are not modelled, nor triple terms (for which the label of a declaration is a `todo!`).
Expressions may be nested without end, so they are read with at most so many nested calls.
-/

namespace Shexr

open Rd

/-- `NodeKind` (`shex_ast/src/ast/node_kind.rs`). -/
inductive NKind where
  | iri | literal | bnode | nonliteral
deriving DecidableEq

/-- Values of value sets: `ObjectValue` (`shex_ast/src/ast/object_value.rs`). Stems and ranges are not modelled: none
are read. -/
inductive Val (L : Type) where
  | iri (i : Iri)
  | lit (l : L)
deriving DecidableEq

/-- `ShapeExpr` (`shex_ast/src/ast/shape_expr.rs`). A triple expression is given by its node, as it is never read. Of
facets there are none, for the same reason. -/
inductive Se (L : Type) where
  | and (es : List (Se L))
  | or (es : List (Se L))
  | not (e : Se L)
  | ext
  | ref (label : Tm L)
  | shape (closed : Option Bool) (extra : Option (List Iri)) (expr : Option (Tm L))
  | nc (kind : Option NKind) (datatype : Option Iri) (values : Option (List (Val L)))

/-- `Schema` (`shex_ast/src/ast/schema.rs`): the start and the declared shapes. -/
structure Schema (L : Type) where
  start : Option (Se L)
  shapes : List (Tm L × Se L)

/-- The IRIs of the ShEx vocabulary (SV 6-76). -/
def sx (s : String) : Iri := .o ("http://www.w3.org/ns/shex#" ++ s)

section
variable {L A : Type} [DecidableEq L] (g : Gr L) (bool : L → Option Bool)

/-- `HasTypeParser` (VL 165-182) with `TypeParser` (TY 37-41): any one of the types is looked at. -/
def hasType (c : Iri) : Pr L Unit := do
  let t ← single g (.v .type)
  if t = .iri c then ret () else fail

/-- `IsIriParser` (VL 75-100) and `map`: SR 182-208. -/
def isIri (i : Iri) (a : A) : Pr L A := do
  let t ← getFocus
  if t = .iri i then ret a else fail

/-- `nodekind` (SR 175-180). -/
def nodekind : Pr L NKind :=
  orElse (orElse (orElse (isIri (sx "iri") .iri) (isIri (sx "literal") .literal)) (isIri (sx "bnode") .bnode))
    (isIri (sx "nonLiteral") .nonliteral)

/-- `parse_nodekind` (SR 166-173): the focus stays at the value of `sx:nodeKind`. -/
def parseNodekind : Pr L (Option NKind) := Rd.optional do
  let t ← single g (sx "nodeKind")
  setFocus t
  nodekind

/-- `List` (CO 576-588). -/
def listOf (p : Pr L A) : Pr L (List A) := do
  let ts ← listP g
  each (fun t => do setFocus t; p) ts

/-- `parse_value`, `object_value` (SR 219-233), `IriParser` (PM 102-112). -/
def parseValue : Pr L (Val L) := do
  let t ← getFocus
  match t with
  | .iri i => ret (.iri i)
  | _ => fail

/-- `parse_value_set` (SR 210-217). -/
def parseValueSet : Pr L (Option (List (Val L))) := Rd.optional do
  let t ← single g (sx "values")
  setFocus t
  listOf g parseValue

/-- `node_constraint` (SR 147-164): the type of the node is not looked at. -/
def nodeConstraint : Pr L (Se L) := do
  let k ← parseNodekind g
  let v ← parseValueSet g
  ret (.nc k none v)

/-- `closed` (SR 117-122), `SingleBoolPropertyParser` (PR 493-498). -/
def closed : Pr L (Option Bool) := Rd.optional do
  let t ← single g (sx "closed")
  match t with
  | .lit l => lift (bool l)
  | _ => fail

/-- `shape` (SR 104-115). -/
def shape : Pr L (Se L) := do
  hasType g (sx "Shape")
  let c ← closed g bool
  ret (.shape c none none)

/-- `shape_and`, `shape_or` (SR 124-140), given the parser of expressions. -/
def junction (rec : Pr L (Se L)) (c : Iri) (k : List (Se L) → Se L) : Pr L (Se L) := do
  hasType g c
  let t ← single g (sx "shapeExprs")
  setFocus t
  let es ← listOf g rec
  ret (k es)

/-- `shape_expr`, `shape_expr_` (SR 97-102, 142-146) with at most so many nested calls. -/
def shapeExpr : Nat → Pr L (Se L)
  | 0 => fun s => (.loop, s)
  | n + 1 =>
    orElse (orElse (orElse (junction g (shapeExpr n) (sx "ShapeAnd") .and) (junction g (shapeExpr n) (sx "ShapeOr") .or))
      (shape g bool)) (nodeConstraint g)

/-- `shape_decl`, `parse_shape_expr`, `term_to_shape_label` (SR 66-94). -/
def shapeDecl (n : Nat) : Pr L (Tm L × Se L) := do
  let t ← getFocus
  if t.isLit then fail else do
    let x ← single g (sx "shapeExpr")
    setFocus x
    let e ← shapeExpr g bool n
    ret (t, e)

/-- `InstancesParser`, `SubjectsWithValuePropertyParser` (TY 153-159, PR 616-623): subjects are not literals. -/
def instances (c : Iri) : List (Tm L) :=
  ((g.ts.filter fun t => decide (t.1.isLit = false ∧ t.2.1 = .v .type ∧ t.2.2 = .iri c)).map fun t => t.1).dedup

/-- `SingleInstanceParser` (TY 67-86). -/
def singleInstance (c : Iri) : Pr L (Tm L) := fun s =>
  match instances g c with
  | [t] => (.ok t, s)
  | _ => (.err, s)

/-- `schema_parser`, `schema` (SR 51-64); `parse` (SR 43-49). -/
def parseSchema (n : Nat) : Pr L (Schema L) := do
  let s ← singleInstance g (sx "Schema")
  setFocus s
  let l ← single g (sx "shapes")
  setFocus l
  let ds ← listOf g (shapeDecl g bool n)
  ret ⟨none, ds⟩

end

end Shexr

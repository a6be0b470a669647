/-!
# Model: the syntax tree of a ShEx schema as the compact syntax builds it

Names are kept as they are written (`IriRef`), strings are lists of characters.
-/

namespace Shexc

/-- Strings (`&str`, `String`). -/
abbrev Str := List Char

/-- `IriRef` (prefixmap/src/iri/iri_ref.rs:14-17): an IRI in angle brackets or a prefixed name. -/
inductive IriRef where
  | iri (s : Str)
  | prefixed (pfx loc : Str)
  deriving DecidableEq, Repr

/-- `ShapeExprLabel` (shex_ast/src/ast/shape_expr_label.rs:18-22). -/
inductive Label where
  | iri (r : IriRef)
  | bnode (s : Str)
  | start
  deriving DecidableEq, Repr

/-- `TripleExprLabel` (shex_ast/src/ast/triple_expr_label.rs:12-15). -/
inductive TLabel where
  | iri (r : IriRef)
  | bnode (s : Str)
  deriving DecidableEq, Repr

/-- `SemAct` (shex_ast/src/ast/sem_act.rs:6-11). -/
structure SemAct where
  name : IriRef
  code : Option Str
  deriving DecidableEq, Repr

/-- `NumericLiteral` (rudof_rdf/src/rdf_core/term/literal/numeric_literal.rs:19-35), as far as the compact syntax
makes a difference: integers, decimals as mantissa and scale, and any other kind by the text it is displayed as. -/
inductive Num where
  | int (n : Int)
  | dec (mantissa : Int) (scale : Nat)
  | other (text : Str)
  deriving DecidableEq, Repr

/-- `ConcreteLiteral` (rudof_rdf/src/rdf_core/term/literal/literal.rs:163-190), without the kinds that no reader of
the compact syntax builds (dates, literals found to be wrong). -/
inductive Lit where
  | str (s : Str)
  | lang (s tag : Str)
  | typed (s : Str) (dt : IriRef)
  | bool (b : Bool)
  | num (n : Num)
  deriving DecidableEq, Repr

/-- `ObjectValue` (shex_ast/src/ast/object_value.rs:32-36). -/
inductive ObjVal where
  | iri (r : IriRef)
  | lit (l : Lit)
  deriving DecidableEq, Repr

/-- `Annotation` (shex_ast/src/ast/annotation.rs:16-19). -/
structure Annot where
  pred : IriRef
  obj : ObjVal
  deriving DecidableEq, Repr

/-- `NodeKind` (shex_ast/src/ast/node_kind.rs:7-12). -/
inductive Kind where
  | iri
  | bnode
  | nonLiteral
  | literal
  deriving DecidableEq, Repr

/-- `XsFacet` (shex_ast/src/ast/xs_facet.rs:14-17, 67-76, 147-154). -/
inductive Facet where
  | length (n : Nat)
  | minLength (n : Nat)
  | maxLength (n : Nat)
  | pattern (s : Str) (flags : Option Str)
  | minInc (n : Num)
  | minExc (n : Num)
  | maxInc (n : Num)
  | maxExc (n : Num)
  | totalDigits (n : Nat)
  | fractionDigits (n : Nat)
  deriving DecidableEq, Repr

/-- `IriExclusion`, `LiteralExclusion` and `LanguageExclusion` (shex_ast/src/ast/iri_exclusion.rs,
literal_exclusion.rs, language_exclusion.rs): the value itself or what starts with it. -/
inductive Excl (α : Type) where
  | exact (a : α)
  | stem (a : α)
  deriving DecidableEq, Repr

/-- `ValueSetValue` (shex_ast/src/ast/value_set_value.rs:21-48); `none` for a stem is the wildcard. -/
inductive Value where
  | obj (o : ObjVal)
  | iriStem (r : IriRef)
  | iriStemRange (stem : Option IriRef) (excl : Option (List (Excl IriRef)))
  | litStem (s : Str)
  | litStemRange (stem : Option Str) (excl : Option (List (Excl Str)))
  | lang (t : Str)
  | langStem (stem : Option Str)
  | langStemRange (stem : Option Str) (excl : Option (List (Excl Str)))
  deriving DecidableEq, Repr

/-- `NodeConstraint` (shex_ast/src/ast/node_constraint.rs:15-28). -/
structure NC where
  kind : Option Kind := none
  datatype : Option IriRef := none
  facets : Option (List Facet) := none
  values : Option (List Value) := none
  deriving DecidableEq, Repr

/-- `NodeConstraint::with_xsfacets` (node_constraint.rs:68-71). -/
def NC.withFacets (nc : NC) (fs : List Facet) : NC := { nc with facets := if fs.isEmpty then none else some fs }

mutual
/-- `ShapeExpr` with `Shape` in line (shex_ast/src/ast/shape_expr.rs:38-60, shape.rs:11-29). -/
inductive SE : Type where
  | or (es : List SE)
  | and (es : List SE)
  | not (e : SE)
  | nc (c : NC)
  | shape (closed : Option Bool) (extra : Option (List IriRef)) (expr : Option TE) (acts : Option (List SemAct))
      (anns : Option (List Annot)) (ext : Option (List Label))
  | external
  | ref (l : Label)
/-- `TripleExpr` (shex_ast/src/ast/triple_expr.rs:15-85). -/
inductive TE : Type where
  | each (id : Option TLabel) (es : List TE) (mn mx : Option Int) (acts : Option (List SemAct))
      (anns : Option (List Annot))
  | one (id : Option TLabel) (es : List TE) (mn mx : Option Int) (acts : Option (List SemAct))
      (anns : Option (List Annot))
  | tc (id : Option TLabel) (negated inverse : Option Bool) (pred : IriRef) (value : Option SE) (mn mx : Option Int)
      (acts : Option (List SemAct)) (anns : Option (List Annot))
  | ref (l : TLabel)
end

/-- `ShapeExpr::any` and `Shape::default` (shape_expr.rs:134-136, 175-179). -/
def SE.any : SE := .shape none none none none none none

/-- Comparison with `ShapeExpr::any()` (shex_grammar.rs:841). -/
def SE.isAny : SE → Bool
  | .shape none none none none none none => true
  | _ => false

/-- `TripleExpr::with_id` (triple_expr.rs:142-200); on a reference it panics. -/
def TE.withId (id : Option TLabel) : TE → Option TE
  | .each _ es mn mx a b => some (.each id es mn mx a b)
  | .one _ es mn mx a b => some (.one id es mn mx a b)
  | .tc _ n i p v mn mx a b => some (.tc id n i p v mn mx a b)
  | .ref _ => none

/-- `TripleExpr::with_min` followed by `with_max` (triple_expr.rs:202-320); on a reference they panic. -/
def TE.withCard (mn mx : Option Int) : TE → Option TE
  | .each id es _ _ a b => some (.each id es mn mx a b)
  | .one id es _ _ a b => some (.one id es mn mx a b)
  | .tc id n i p v _ _ a b => some (.tc id n i p v mn mx a b)
  | .ref _ => none

/-- `TripleExpr::with_sem_acts` (triple_expr.rs:322-380); on a reference it panics. -/
def TE.withActs (acts : Option (List SemAct)) : TE → Option TE
  | .each id es mn mx _ b => some (.each id es mn mx acts b)
  | .one id es mn mx _ b => some (.one id es mn mx acts b)
  | .tc id n i p v mn mx _ b => some (.tc id n i p v mn mx acts b)
  | .ref _ => none

/-- `TripleExpr::with_annotations` (triple_expr.rs:382-441); on a reference it panics. -/
def TE.withAnns (anns : Option (List Annot)) : TE → Option TE
  | .each id es mn mx a _ => some (.each id es mn mx a anns)
  | .one id es mn mx a _ => some (.one id es mn mx a anns)
  | .tc id n i p v mn mx a _ => some (.tc id n i p v mn mx a anns)
  | .ref _ => none

end Shexc

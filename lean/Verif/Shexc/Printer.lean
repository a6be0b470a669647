import Verif.Shexc.Schema

/-!
# Model: writing a schema in the compact syntax

shex_ast/src/compact/shex_compact_printer.rs and compact_printer.rs, for a formatter without colours
(`ShExFormatter::without_colors`, shex_compact_printer.rs:87-93). The documents are those of the pretty crate; how it
breaks lines is outside: `Layout` holds of every text that a document may be rendered as. `none` is a panic: the code
has `todo!()` there.
-/

namespace Shexc

/-! ## Documents (the pretty crate) -/

/-- `Doc`: the documents that the printer makes. `line` is a line break or, in a group that fits, a space. -/
inductive Doc where
  | nil
  | text (s : Str)
  | line
  | hardline
  | cat (a b : Doc)
  | nest (d : Doc)
  | group (d : Doc)

namespace Doc

/-- `DocAllocator::space`. -/
def space : Doc := .text [' ']

/-- `DocAllocator::softline`. -/
def softline : Doc := .group .line

/-- `DocAllocator::intersperse`. -/
def sepBy (sep : Doc) : List Doc → Doc
  | [] => .nil
  | [d] => d
  | d :: ds => .cat d (.cat sep (sepBy sep ds))

instance : Append Doc := ⟨.cat⟩

/-- The text of a document when every group fits in its line. A `hardline` is a break in any case; the indentation
after it is left out. -/
def flat : Doc → Str
  | .nil => []
  | .text s => s
  | .line => [' ']
  | .hardline => ['\n']
  | .cat a b => flat a ++ flat b
  | .nest d => flat d
  | .group d => flat d

end Doc

/-- The texts that a document may be rendered as: at each line a space, or a break and some indentation. The pretty
crate chooses one of them. -/
inductive Layout : Doc → Str → Prop where
  | nil : Layout .nil []
  | text (s : Str) : Layout (.text s) s
  | space : Layout .line [' ']
  | break (n : Nat) : Layout .line ('\n' :: List.replicate n ' ')
  | hardline (n : Nat) : Layout .hardline ('\n' :: List.replicate n ' ')
  | cat {a b : Doc} {v w : Str} (ha : Layout a v) (hb : Layout b w) : Layout (.cat a b) (v ++ w)
  | nest {d : Doc} {w : Str} (h : Layout d w) : Layout (.nest d) w
  | group {d : Doc} {w : Str} (h : Layout d w) : Layout (.group d) w

/-- The flat text is one of them. -/
theorem Doc.layout_flat : ∀ d : Doc, Layout d d.flat
  | .nil => .nil
  | .text s => .text s
  | .line => .space
  | .hardline => .hardline 0
  | .cat a b => .cat (layout_flat a) (layout_flat b)
  | .nest d => .nest (layout_flat d)
  | .group d => .group (layout_flat d)

namespace Pp

open Doc

/-- `keyword` without colour (shex_compact_printer.rs:763-778). -/
def keyword (s : String) : Doc := .text s.toList

/-- `opt_pp`, `opt_pp1` (shex_compact_printer.rs:853-873) for a printer that may panic. -/
def opt {α : Type} (f : α → Option Doc) : Option α → Option Doc
  | none => some .nil
  | some a => f a

/-- `enclose_space` (shex_compact_printer.rs:901-919) around documents with something between them. `is_empty`
(shex_compact_printer.rs:875-899) is true when there are none: the documents that it is used on are texts. -/
def enclose (left : Str) (ds : List Doc) (right : Str) : Doc :=
  if ds.isEmpty then .text left ++ .text right
  else .group (.nest (.text left ++ .line ++ sepBy space ds) ++ .line ++ .text right)

/-- Displayed natural numbers and integers. -/
def showNat (n : Nat) : Str := Nat.toDigits 10 n

def showInt : Int → Str
  | .ofNat n => showNat n
  | .negSucc n => '-' :: showNat (n + 1)

/-- `Decimal::to_string` (the rust_decimal crate): the digits of the mantissa with a dot before the last ones. -/
def showDec (m : Int) (scale : Nat) : Str :=
  let ds := showNat m.natAbs
  let ds := List.replicate (scale + 1 - ds.length) '0' ++ ds
  let t := if scale = 0 then ds else ds.take (ds.length - scale) ++ '.' :: ds.drop (ds.length - scale)
  if m < 0 then '-' :: t else t

/-- `as isize` on 64 bits. -/
def toIsize (n : Int) : Int := (n + 2 ^ 63) % 2 ^ 64 - 2 ^ 63

/-- `pp_numeric_literal` of the printer (shex_compact_printer.rs:661-679). -/
def num : Num → Doc
  | .int n => .text (showInt (toIsize n))
  | .dec m s => .text (showDec m s)
  | .other t => .text t

/-- `pp_numeric_literal` (compact_printer.rs:44-62). -/
def valueNum : Num → Doc
  | .int n => .text (showInt n)
  | .dec m s => .text (showDec m s)
  | .other t => .text t

/-- `pp_iri` and `pp_iri_ref` (shex_compact_printer.rs:745-754, 845-847; compact_printer.rs:64-72, 91-93). -/
def iriRef (m : Prefix.PrefixMap) : IriRef → Doc
  | .iri s => .text (m.qualify s)
  | .prefixed p l => .text p ++ .text [':'] ++ .text l

/-- `pp_label` with `pp_bnode` (shex_compact_printer.rs:649-655, 681-683; ast/bnode.rs:26-30). -/
def label (m : Prefix.PrefixMap) : Label → Doc
  | .bnode b => .text ('_' :: ':' :: b)
  | .iri r => iriRef m r
  | .start => keyword "START"

/-- `pp_reference` (shex_compact_printer.rs:657-659). -/
def reference (m : Prefix.PrefixMap) (l : Label) : Doc := .text ['@'] ++ label m l

/-- `pp_string` without colour (shex_compact_printer.rs:520-527): nothing is escaped. -/
def string (s : Str) : Doc := .text ('"' :: (s ++ ['"']))

/-- `pp_literal` with `pp_string_literal` (shex_compact_printer.rs:495-518). -/
def lit : Lit → Option Doc
  | .str s => some (string s)
  | .lang _ _ => none
  | .typed _ _ => none
  | .num n => some (num n)
  | .bool _ => none

/-- `pp_object_value` of the printer (shex_compact_printer.rs:488-493). -/
def objVal (m : Prefix.PrefixMap) : ObjVal → Option Doc
  | .iri r => some (iriRef m r)
  | .lit l => lit l

/-- `pp_object_value` (compact_printer.rs:9-25), which value sets use. -/
def valueObj (m : Prefix.PrefixMap) : ObjVal → Option Doc
  | .iri r => some (iriRef m r)
  | .lit (.num n) => some (valueNum n)
  | .lit _ => none

/-- `pp_annotation` (shex_compact_printer.rs:478-486). -/
def annot (m : Prefix.PrefixMap) (a : Annot) : Option Doc := do
  let o ← objVal m a.obj
  return keyword "//" ++ space ++ iriRef m a.pred ++ space ++ o

/-- Each element of a vector. -/
def all {α : Type} (f : α → Option Doc) : List α → Option (List Doc)
  | [] => some []
  | a :: as => do
    let d ← f a
    let ds ← all f as
    return d :: ds

/-- `pp_annotations` (shex_compact_printer.rs:352-366). -/
def annots (m : Prefix.PrefixMap) (as : List Annot) : Option Doc := do
  let ds ← all (annot m) as
  return space ++ sepBy softline ds

/-- `pp_action` (shex_compact_printer.rs:793-805). -/
def action (m : Prefix.PrefixMap) (a : SemAct) : Doc :=
  .text ['%'] ++ iriRef m a.name ++
    match a.code with
    | none => .text ['%']
    | some c => .text ['{'] ++ .text c ++ .text ['%', '}']

/-- `pp_actions` (shex_compact_printer.rs:780-791). -/
def actions (m : Prefix.PrefixMap) (as : List SemAct) : Doc := sepBy hardline (as.map (action m)) ++ hardline

/-- `pp_value_set_value` (shex_compact_printer.rs:636-647). -/
def value (m : Prefix.PrefixMap) : Value → Option Doc
  | .obj o => valueObj m o
  | _ => none

/-- `pp_value_set` (shex_compact_printer.rs:545-559). -/
def valueSet (m : Prefix.PrefixMap) (vs : List Value) : Option Doc := do
  let ds ← all (value m) vs
  return space ++ enclose ['['] ds [']']

/-- `pp_xsfacet` with `pp_numericfacet`, `pp_stringfacet` and `pp_pattern` (shex_compact_printer.rs:574-626). -/
def facet : Facet → Doc
  | .fractionDigits n => keyword "FractionDigits" ++ space ++ .text (showNat n)
  | .totalDigits n => keyword "TotalDigits" ++ space ++ .text (showNat n)
  | .minInc n => keyword "MinInclusive" ++ space ++ num n
  | .maxInc n => keyword "MaxInclusive" ++ space ++ num n
  | .minExc n => keyword "MinExclusive" ++ space ++ num n
  | .maxExc n => keyword "MaxExclusive" ++ space ++ num n
  | .length n => keyword "Length" ++ space ++ .text (showNat n)
  | .minLength n => keyword "MinLength" ++ space ++ .text (showNat n)
  | .maxLength n => keyword "MaxLength" ++ space ++ .text (showNat n)
  | .pattern s flags => .text ('/' :: (s ++ '/' :: flags.getD []))

/-- `pp_xsfacets` (shex_compact_printer.rs:561-572). -/
def facets (fs : List Facet) : Doc := space ++ sepBy space (fs.map facet)

/-- `pp_node_kind` (shex_compact_printer.rs:536-543). -/
def kind : Kind → Doc
  | .iri => keyword "IRI"
  | .bnode => keyword "BNODE"
  | .nonLiteral => keyword "NONLITERAL"
  | .literal => keyword "LITERAL"

/-- `pp_node_constraint` with `pp_datatype` (shex_compact_printer.rs:529-534, 628-630). -/
def nodeConstraint (m : Prefix.PrefixMap) (c : NC) : Option Doc := do
  let vs ← opt (valueSet m) c.values
  return (c.kind.elim .nil kind) ++ (c.datatype.elim .nil (iriRef m)) ++ vs ++ (c.facets.elim .nil facets)

/-- `pp_cardinality` (shex_compact_printer.rs:430-462). -/
def cardinality : Option Int → Option Int → Doc
  | some m, some n =>
    if m = 1 ∧ n = 1 then .nil
    else if m = 0 ∧ n = 1 then space ++ .text ['?']
    else if m = 0 ∧ n = -1 then space ++ .text ['*']
    else if m = 1 ∧ n = -1 then space ++ .text ['+']
    else space ++ enclose ['{'] [.text (showInt m) ++ .text [','] ++ .text (showInt n)] ['}']
  | some m, none =>
    if m = 1 then space ++ .text ['+']
    else space ++ .text ['{'] ++ .text (showInt m) ++ .text [',', '}']
  | none, some n =>
    if n = -1 then space ++ .text ['*']
    else space ++ .text ['{', ','] ++ .text (showInt n) ++ .text ['}']
  | none, none => .nil

/-- `pp_negated` and `pp_inverse` (shex_compact_printer.rs:416-428). -/
def flag (c : Char) : Option Bool → Doc
  | some true => .text [c]
  | _ => .nil

/-- `pp_extra` (shex_compact_printer.rs:464-476). -/
def extra (m : Prefix.PrefixMap) (es : List IriRef) : Doc := keyword "EXTRA " ++ sepBy space (es.map (iriRef m))

/-- `pp_extends` (shex_compact_printer.rs:334-350). -/
def exts (m : Prefix.PrefixMap) (ls : List Label) : Doc :=
  keyword "EXTENDS" ++ space ++ sepBy space (ls.map (reference m)) ++ space

mutual
/-- `pp_shape_expr` with `pp_shape` (shex_compact_printer.rs:273-332). The actions of a shape are not written. -/
def shapeExpr (m : Prefix.PrefixMap) : SE → Option Doc
  | .ref l => some (.text ['@'] ++ label m l)
  | .shape closed ex te _ anns ext => do
    let te ← tripleOpt m te
    let anns ← opt (annots m) anns
    return .group (.nest ((if closed.getD false then keyword "CLOSED " else .nil) ++ ex.elim .nil (extra m) ++
      ext.elim .nil (exts m) ++ .text ['{'] ++ .line ++ te) ++ .line ++ .text ['}'] ++ anns)
  | .nc c => nodeConstraint m c
  | .external => some (keyword "EXTERNAL")
  | .and es => do
    let ds ← shapeExprs m es
    return .nest (.group (sepBy (keyword " AND ") ds))
  | .or es => do
    let ds ← shapeExprs m es
    return .nest (.group (sepBy (keyword " OR ") ds))
  | .not e => do
    let d ← shapeExpr m e
    return keyword "NOT " ++ d
/-- The shape expressions of a vector. -/
def shapeExprs (m : Prefix.PrefixMap) : List SE → Option (List Doc)
  | [] => some []
  | e :: es => do
    let d ← shapeExpr m e
    let ds ← shapeExprs m es
    return d :: ds
/-- The value expression of a triple constraint (shex_compact_printer.rs:389-392). -/
def valueOpt (m : Prefix.PrefixMap) : Option SE → Option Doc
  | none => some (.text ['.'])
  | some e => shapeExpr m e
/-- `pp_triple_expr` (shex_compact_printer.rs:368-412). Labels of triple expressions, and everything of a group but its
expressions, are not written. -/
def triple (m : Prefix.PrefixMap) : TE → Option Doc
  | .each _ es _ _ _ _ => do
    let ds ← triples m es
    return sepBy (.text [';'] ++ .line) ds
  | .one _ _ _ _ _ _ => none
  | .tc _ neg inv p v mn mx acts anns => do
    let v ← valueOpt m v
    let anns ← opt (annots m) anns
    return flag '!' neg ++ flag '^' inv ++ iriRef m p ++ space ++ v ++ cardinality mn mx ++
      acts.elim .nil (actions m) ++ anns
  | .ref _ => none
/-- The triple expressions of a vector. -/
def triples (m : Prefix.PrefixMap) : List TE → Option (List Doc)
  | [] => some []
  | e :: es => do
    let d ← triple m e
    let ds ← triples m es
    return d :: ds
/-- The triple expression of a shape. -/
def tripleOpt (m : Prefix.PrefixMap) : Option TE → Option Doc
  | none => some .nil
  | some e => triple m e
end

/-- `pp_shape_decl` (shex_compact_printer.rs:255-259). -/
def decl (m : Prefix.PrefixMap) (d : Decl) : Option Doc := do
  let e ← shapeExpr m d.expr
  return label m d.label ++ space ++ e

/-- `pp_shape_decls` (shex_compact_printer.rs:240-253). -/
def decls (m : Prefix.PrefixMap) (ds : List Decl) : Option Doc := do
  let ds ← all (decl m) ds
  return sepBy hardline ds ++ hardline

/-- `pp_start` (shex_compact_printer.rs:261-271). -/
def start (m : Prefix.PrefixMap) (e : SE) : Option Doc := do
  let d ← shapeExpr m e
  return keyword "start" ++ space ++ .text ['='] ++ space ++ d ++ hardline

/-- `pp_imports` (shex_compact_printer.rs:220-238). -/
def imports (m : Prefix.PrefixMap) (rs : List IriRef) : Doc :=
  if rs.isEmpty then .nil else sepBy hardline (rs.map fun r => keyword "import" ++ space ++ iriRef m r) ++ hardline

/-- `pp_iri_unqualified` (shex_compact_printer.rs:840-843). -/
def wholeIri (s : Str) : Doc := .text ('<' :: (s ++ ['>']))

/-- `pp_base` (shex_compact_printer.rs:807-815). -/
def base (b : Str) : Doc := keyword "base" ++ space ++ wholeIri b ++ hardline

/-- `pp_prefix_map` (shex_compact_printer.rs:817-838). -/
def prefixes (m : Prefix.PrefixMap) : Doc :=
  sepBy hardline (m.map.map fun e => keyword "prefix" ++ space ++ .text e.1 ++ .text [':'] ++ space ++ wholeIri e.2) ++
    hardline

/-- `pp_schema` (shex_compact_printer.rs:211-218). -/
def schema (S : Schema) : Option Doc := do
  let m := S.env.pm.getD .new
  let st ← opt (start m) S.start
  let ds ← opt (decls m) S.shapes
  return S.env.pm.elim .nil prefixes ++ S.env.base.elim .nil base ++ S.imports.elim .nil (imports m) ++
    S.startActs.elim .nil (actions m) ++ st ++ ds

end Pp

/-- The texts that `ShExFormatter::format_schema` may give (shex_compact_printer.rs:95-104). -/
def Written (S : Schema) (w : Str) : Prop := ∃ d, Pp.schema S = some d ∧ Layout d w

end Shexc

import Verif.Uml.Model

/-!
# Model: the conversion of a ShEx schema to HTML pages

`H` is shapes_converter/src/shex_to_html/shex2html.rs; `html_schema.rs`, `html_shape.rs`, `name.rs`, `cardinality.rs` and
`value_constraint.rs` are beside it. The syntax tree is the one of `Shexc/Ast.lean`; names, the configuration and
`find_annotation` are those of `Uml/Model.lean`, whose `get_label` has the same text. The file of a name is a function
of its text (name.rs:15-25) and not a field. Hash maps are lists of pairs. Errors are not told apart. Pictures are not
embedded (`embed_svg_schema` and `embed_svg_shape` are off), templates are not rendered, but where a value cannot be
serialized for them is modelled. `children` of pages and the constraints `ValueSet` and `None`, which are never made, are left
out.
-/

namespace Html
open Shexc
open Uml (Out Cfg Name Card)

/-- `ValueConstraint` (value_constraint.rs:7-14). -/
inductive VC where
  | any
  | datatype (n : Name)
  | ref (n : Name)
  deriving DecidableEq

/-- `ShapeTemplateEntry` (entry.rs:7-11). -/
structure Entry where
  name : Name
  vc : VC
  card : Card
  deriving DecidableEq

/-- `HtmlShape` (html_shape.rs:6-24). -/
structure Page where
  name : Name
  entries : List Entry
  exts : List Name
  parent : Name
  deriving DecidableEq

/-- `HtmlShape::new` (html_shape.rs:27-36). -/
def Page.new (name parent : Name) : Page := ⟨name, [], [], parent⟩

/-- `merge` (html_shape.rs:58-71). -/
def Page.merge (p q : Page) : Page := { p with entries := p.entries ++ q.entries, exts := p.exts ++ q.exts }

/-- `HtmlSchema` (html_schema.rs:16-22). -/
structure St where
  next : Nat
  labels : List (Str × Nat)
  pages : List (Nat × Page)
  deriving DecidableEq

namespace St

/-- `HtmlSchema::new` (html_schema.rs:25-27). -/
def init : St := ⟨0, [], []⟩

/-- `get_node_adding_label` (html_schema.rs:35-45): the node, whether it was there, and the state. -/
def node (u : St) (l : Str) : Nat × Bool × St :=
  match Rbe.alookup l u.labels with
  | some n => (n, true, u)
  | none => (u.next + 1, false, { u with next := u.next + 1, labels := u.labels ++ [(l, u.next + 1)] })

/-- `add_component` (html_schema.rs:52-63). -/
def add (u : St) (n : Nat) (p : Page) : St :=
  match Rbe.alookup n u.pages with
  | some q => { u with pages := Rbe.upsert n q (fun q => q.merge p) u.pages }
  | none => { u with pages := u.pages ++ [(n, p)] }

/-- A page without entries for a name that is met for the first time (H 197-204, 305-310). -/
def mention (u : St) (name parent : Name) : St :=
  let r := u.node name.str
  if r.2.1 then r.2.2 else r.2.2.add r.1 (Page.new name parent)

end St

/-- `Name::new` (name.rs:15-25): the file of a name, in the target folder. -/
def fileOf (s : Str) : Str := s.map (fun c => if c = ':' then '_' else c) ++ ".html".toList

/-- `mk_card` (H 359-371). The sixth arm has the condition of the fifth and is never reached. -/
def mkCard (min max : Option Int) : Out Card :=
  let m := min.getD 1
  let n := max.getD 1
  if m = 1 ∧ n = 1 then .ok .oneOne
  else if m = 0 ∧ n = -1 then .ok .star
  else if m = 0 ∧ n = 1 then .ok .optional
  else if m = 1 ∧ n = -1 then .ok .plus
  else if m ≥ 0 ∧ n > m then .ok (.fixed m)
  else if m ≥ 0 ∧ n > m then .ok (.range m n)
  else .err

/-- `iri_ref2name` (H 325-349), without the file. -/
def iriName (C : Cfg) (pm : Prefix.PrefixMap) (label : Option Str) : IriRef → Out Name
  | .iri i => .ok ⟨pm.qualify i, some i, label⟩
  | .prefixed a l =>
    match pm.resolvePrefixLocal C.valid a l with
    | some i => .ok ⟨a ++ ':' :: l, some i, label⟩
    | none => .err

/-- `shape_label2name` (H 148-154). -/
def labelName (C : Cfg) (pm : Prefix.PrefixMap) : Label → Out Name
  | .iri r => iriName C pm none r
  | .bnode _ => .panic
  | .start => .panic

/-- `mk_name` (H 401-410) with `get_label` (H 412-423). -/
def mkName (C : Cfg) (pm : Prefix.PrefixMap) (anns : Option (List Annot)) (r : IriRef) : Out Name :=
  (Uml.getLabel C pm (anns.getD []) C.labels).bind fun label => iriName C pm label r

/-- `value_expr2value_constraint` (H 268-320). -/
def valueVC (C : Cfg) (pm : Prefix.PrefixMap) (parent : Name) (u : St) : SE → Out (VC × St)
  | .nc nc =>
    match nc.datatype with
    | some d => (iriName C pm none d).bind fun n => .ok (.datatype n, u)
    | none => .err
  | .ref (.iri r) => (iriName C pm none r).bind fun n => .ok (.ref n, u.mention n parent)
  | _ => .err

/-- The value of a triple constraint (H 224-235, 249-253). -/
def tcValue (C : Cfg) (pm : Prefix.PrefixMap) (parent : Name) (u : St) : Option SE → Out (VC × St)
  | none => .ok (.any, u)
  | some se => valueVC C pm parent u se

/-- The arm for a triple constraint (H 211-243, 246-262): the entry and the state; other triple expressions panic. -/
def tcEntry (C : Cfg) (pm : Prefix.PrefixMap) (parent : Name) (u : St) : TE → Out (Entry × St)
  | .tc _ _ _ p v mn mx _ anns =>
    (mkName C pm anns p).bind fun pred =>
      (mkCard mn mx).bind fun card =>
        (tcValue C pm parent u v).bind fun r => .ok (⟨pred, r.1, card⟩, r.2)
  | _ => .panic

/-- The loop over the expressions (H 208-246). -/
def tcsEntries (C : Cfg) (pm : Prefix.PrefixMap) (parent : Name) : List TE → St → Out (List Entry × St)
  | [], u => .ok ([], u)
  | t :: ts, u => (tcEntry C pm parent u t).bind fun r =>
      (tcsEntries C pm parent ts r.2).bind fun q => .ok (r.1 :: q.1, q.2)

/-- The match on the triple expression of a shape (H 199-266). -/
def teEntries (C : Cfg) (pm : Prefix.PrefixMap) (parent : Name) (u : St) : Option TE → Out (List Entry × St)
  | none => .ok ([], u)
  | some (.each _ es _ _ _ _) => tcsEntries C pm parent es u
  | some (.tc id ng iv p v mn mx acts anns) => tcsEntries C pm parent [.tc id ng iv p v mn mx acts anns] u
  | some (.one ..) => .panic
  | some (.ref _) => .err

/-- The loop over the extended labels (H 188-198): the names extended and the state. -/
def extNames (C : Cfg) (pm : Prefix.PrefixMap) (parent : Name) : List Label → St → Out (List Name × St)
  | [], u => .ok ([], u)
  | l :: ls, u => (labelName C pm l).bind fun name =>
      (extNames C pm parent ls (u.mention name parent)).bind fun r => .ok (name :: r.1, r.2)

/-- `shape_expr2htmlshape` and `shape2htmlshape` (H 156-266). -/
def shapePage (C : Cfg) (pm : Prefix.PrefixMap) (name parent : Name) (u : St) : SE → Out (Page × St)
  | .shape _ _ te _ anns ext =>
    (Uml.getLabel C pm (anns.getD []) C.labels).bind fun label =>
      (extNames C pm parent (ext.getD []) u).bind fun r =>
        (teEntries C pm parent r.2 te).bind fun q =>
          .ok (⟨{ name with label := label.orElse fun _ => name.label }, q.1, r.1, parent⟩, q.2)
  | _ => .err

/-- The loop of `convert` (H 43-50). -/
def convertAll (C : Cfg) (pm : Prefix.PrefixMap) (parent : Name) : List (Label × SE) → St → Out St
  | [], u => .ok u
  | d :: ds, u => (labelName C pm d.1).bind fun name =>
      let n := u.node name.str
      (shapePage C pm name parent n.2.2 d.2).bind fun r => convertAll C pm parent ds (r.2.add n.1 r.1)

/-- `ShEx2Html::convert` (H 36-69); the prefix map loses its colours and links (`without_rich_qualifying`). -/
def convert (C : Cfg) (pm : Option Prefix.PrefixMap) (parent : Name) (shapes : Option (List (Label × SE))) : Out St :=
  convertAll C { (pm.getD Prefix.PrefixMap.new) with hyperlink := false } parent (shapes.getD []) .init

/-- The shapes of the landing page (html_schema.rs:73-81): text, file and label. -/
def landing (u : St) : List (Str × Str × Str) :=
  u.pages.map fun e => (e.2.name.str, fileOf e.2.name.str, e.2.name.label.getD [])

/-- `Serialize` of `Cardinality` (cardinality.rs:17-30). -/
def cardText : Card → Out Str
  | .oneOne => .ok "Exactly one".toList
  | .star => .ok "Zero or more".toList
  | .plus => .ok "One or more".toList
  | .optional => .ok "Zero or one (optional)".toList
  | .range _ _ => .panic
  | .fixed _ => .panic

/-- The cardinalities that are serialized for a page (`generate_shape_page`, H 373-398). -/
def pageCards : List Entry → Out (List Str)
  | [] => .ok []
  | e :: es => (cardText e.card).bind fun t => (pageCards es).bind fun ts => .ok (t :: ts)

end Html

import Verif.Shexc.Ast
import Verif.Prefix.Model
import Verif.Rbe.ModelTable

/-!
# Model: the conversion of a ShEx schema to a UML class diagram

shapes_converter/src/shex_to_uml, with `find_annotation` and `object_value2string` of
shapes_converter/src/lib.rs. The syntax tree is the one of `Shexc/Ast.lean`. Hash maps are lists of pairs
and hash sets lists without duplicates; node ids are numbers. Errors are not told apart, panics are a
result of their own. `local_href` of names is never set and left out, as is `ValueConstraint::Ref`, which
is never made.
-/

namespace Uml
open Shexc

/-- What a call comes to: a result, an error, a panic. -/
inductive Out (α : Type) where
  | ok (a : α)
  | err
  | panic

/-- The `?` operator. -/
def Out.bind {α β : Type} : Out α → (α → Out β) → Out β
  | .ok a, f => f a
  | .err, _ => .err
  | .panic, _ => .panic

/-- `ok_or(..)?`. -/
def Out.of {α : Type} : Option α → Out α
  | some a => .ok a
  | none => .err

/-- `.unwrap()`. -/
def Out.unwrap {α : Type} : Out α → Out α
  | .ok a => .ok a
  | .err => .panic
  | .panic => .panic

/-- What the conversion reads besides the schema: which texts are IRIs, the IRIs of annotations that are
labels (shex2uml_config.rs:20-21), the lexical form of literals and the text of numbers. -/
structure Cfg where
  valid : Str → Bool
  labels : List Str
  lexical : Lit → Str
  showNum : Num → Str

/-- `struct Name` (name.rs:1-8). -/
structure Name where
  str : Str
  href : Option Str
  label : Option Str
  deriving DecidableEq

/-- `enum UmlLabelType` (uml.rs:19-25) without `Class`. -/
inductive Kind where
  | or
  | not
  | and
  deriving DecidableEq

/-- `enum UmlLabel` (uml.rs:44-50). -/
inductive ULabel where
  | cls (name : Str)
  | logic (k : Kind) (n : Nat)
  deriving DecidableEq

/-- `enum UmlCardinality` (uml_cardinality.rs:3-13). -/
inductive Card where
  | oneOne
  | star
  | plus
  | optional
  | range (m n : Int)
  | fixed (m : Int)
  deriving DecidableEq

/-- `enum ValueConstraint` (value_constraint.rs:3-23). -/
inductive VC where
  | any
  | values (ns : List Name)
  | datatype (n : Name)
  | facets (ns : List Name)
  | kind (n : Name)
  | none
  | and (vs : List VC)
  | or (vs : List VC)
  | not (v : VC)

/-- `struct UmlEntry` (uml_entry.rs:3-8). -/
structure Entry where
  name : Name
  vc : VC
  card : Card

/-- `struct UmlClass` (uml_class.rs:5-11). -/
structure Cls where
  name : Name
  entries : List Entry
  exts : List Nat

/-- `enum UmlComponent` (uml_component.rs:7-13). -/
inductive Comp where
  | cls (c : Cls)
  | logic (k : Kind) (ids : List Nat)

/-- `struct UmlLink` (uml_link.rs:3-9). -/
structure Link where
  src : Nat
  dst : Nat
  name : Name
  card : Card
  deriving DecidableEq

/-- `struct Uml` (uml.rs:78-106); the maps to sets are sets of pairs. -/
structure St where
  next : Nat
  nextLogic : Nat
  logical : List ((Kind × List Nat) × Nat)
  labels : List (ULabel × Nat)
  comps : List (Nat × Comp)
  links : List Link
  exts : List (Nat × Nat)
  outgoing : List (Nat × Nat)
  incoming : List (Nat × Nat)

namespace St

/-- `Uml::new` (uml.rs:109-111). -/
def init : St := ⟨0, 0, [], [], [], [], [], [], []⟩

/-- `get_logical_component_idx` (uml.rs:113-126). -/
def logicIdx (u : St) (k : Kind) (ids : List Nat) : Nat × St :=
  match Rbe.alookup (k, ids) u.logical with
  | some n => (n, u)
  | none => (u.nextLogic + 1, { u with nextLogic := u.nextLogic + 1, logical := u.logical ++ [((k, ids), u.nextLogic + 1)] })

/-- `get_node_adding_label` (uml.rs:129-139): the node, whether it was there, and the state. -/
def node (u : St) (l : ULabel) : Nat × Bool × St :=
  match Rbe.alookup l u.labels with
  | some n => (n, true, u)
  | none => (u.next + 1, false, { u with next := u.next + 1, labels := u.labels ++ [(l, u.next + 1)] })

/-- `get_node` (uml.rs:142-144). -/
def find (u : St) (l : ULabel) : Option Nat := Rbe.alookup l u.labels

/-- `get_component` (uml.rs:156-158). -/
def comp (u : St) (n : Nat) : Option Comp := Rbe.alookup n u.comps

/-- `add_component` (uml.rs:146-154). -/
def addComp (u : St) (n : Nat) (c : Comp) : Out St :=
  match u.comp n with
  | some _ => .err
  | none => .ok { u with comps := u.comps ++ [(n, c)] }

/-- `update_component` (uml.rs:160-167). -/
def setComp (u : St) (n : Nat) (c : Comp) : St := { u with comps := Rbe.upsert n c (fun _ => c) u.comps }

/-- `make_link` (uml.rs:202-207) with `insert_map` (uml.rs:465-479). -/
def link (u : St) (src dst : Nat) (name : Name) (card : Card) : St :=
  { u with
    links := u.links ++ [⟨src, dst, name, card⟩]
    outgoing := Rbe.sinsert (src, dst) u.outgoing
    incoming := Rbe.sinsert (dst, src) u.incoming }

/-- `add_link` (uml.rs:179-200). -/
def addLink (u : St) (src : Nat) (target : ULabel) (name : Name) (card : Card) : St :=
  match Rbe.alookup target u.labels with
  | some n => u.link src n name card
  | none =>
    { u with next := u.next + 1, labels := u.labels ++ [(target, u.next + 1)] }.link src (u.next + 1) name card

/-- `add_extends` (uml.rs:209-218). -/
def addExt (u : St) (src dst : Nat) : St := { u with exts := Rbe.sinsert (src, dst) u.exts }

end St

/-! ## Names and cardinalities -/

/-- A text as a list of characters. -/
abbrev chars (s : String) : Str := s.toList

/-- `resolve_iriref` of a prefix map (prefixmap/src/prefix_map.rs:521-526). -/
def resolve (C : Cfg) (pm : Prefix.PrefixMap) : IriRef → Option Str
  | .iri i => some i
  | .prefixed a l => pm.resolvePrefixLocal C.valid a l

/-- `iri_ref2name` (shex2uml.rs:496-513). -/
def iriName (C : Cfg) (pm : Prefix.PrefixMap) (label : Option Str) : IriRef → Out Name
  | .iri i => .ok ⟨pm.qualify i, some i, label⟩
  | .prefixed a l =>
    match pm.resolvePrefixLocal C.valid a l with
    | some i => .ok ⟨a ++ ':' :: l, some i, label⟩
    | none => .err

/-- `shape_label2name` (shex2uml.rs:73-79). -/
def labelName (C : Cfg) (pm : Prefix.PrefixMap) : Label → Out Name
  | .iri r => iriName C pm none r
  | .bnode b => .ok ⟨chars "_:" ++ b, none, none⟩
  | .start => .ok ⟨chars "start", none, none⟩

/-- `mk_card` (shex2uml.rs:515-527). The sixth arm has the condition of the fifth and is never reached. -/
def mkCard (min max : Option Int) : Out Card :=
  let m := min.getD 1
  let n := max.getD 1
  if m = 1 ∧ n = 1 then .ok .oneOne
  else if m = 0 ∧ n = -1 then .ok .star
  else if m = 0 ∧ n = 1 then .ok .optional
  else if m = 1 ∧ n = -1 then .ok .plus
  else if m ≥ 0 ∧ n > m then .ok (.fixed m)
  else if m ≥ 0 ∧ n > m then .ok (.range m n)
  else .err

/-- `find_annotation` (lib.rs:39-55). -/
def findAnnot (C : Cfg) (pm : Prefix.PrefixMap) (p : Str) : List Annot → Out (Option ObjVal)
  | [] => .ok none
  | a :: as =>
    match resolve C pm a.pred with
    | none => .err
    | some i => if p = i then .ok (some a.obj) else findAnnot C pm p as

/-- `get_label` (shex2uml.rs:540-551) with `object_value2string` (lib.rs:57-62). -/
def getLabel (C : Cfg) (pm : Prefix.PrefixMap) (anns : List Annot) : List Str → Out (Option Str)
  | [] => .ok none
  | l :: ls =>
    match findAnnot C pm l anns with
    | .ok (some (.lit t)) => .ok (some (C.lexical t))
    | .ok (some (.iri _)) => .panic
    | .ok none => getLabel C pm anns ls
    | .err => .err
    | .panic => .panic

/-- `mk_name` (shex2uml.rs:529-538). -/
def mkName (C : Cfg) (pm : Prefix.PrefixMap) (anns : Option (List Annot)) (r : IriRef) : Out Name :=
  (getLabel C pm (anns.getD []) C.labels).bind fun label => iriName C pm label r

/-! ## Node constraints -/

/-- A name without IRI. -/
def plain (s : Str) : Name := ⟨s, none, none⟩

/-- `cnv_nodekind` (shex2uml.rs:553-565). -/
def kindVC : Shexc.Kind → VC
  | .iri => .kind (plain (chars "iri"))
  | .bnode => .kind (plain (chars "bnode"))
  | .nonLiteral => .kind (plain (chars "nonliteral"))
  | .literal => .kind (plain (chars "literal"))

/-- The text of a natural number. -/
def showNat (n : Nat) : Str := Nat.toDigits 10 n

/-- `facet2name`, `string_facet2name` and `numeric_facet2name` (shex2uml.rs:607-650). -/
def facetName (C : Cfg) : Facet → Name
  | .length n => plain (chars "length=" ++ showNat n)
  | .minLength n => plain (chars "minLength=" ++ showNat n)
  | .maxLength n => plain (chars "maxLength=" ++ showNat n)
  | .pattern s (some fl) => plain (chars "pattern=" ++ s ++ chars " (flags=" ++ fl ++ chars ")")
  | .pattern s none => plain (chars "pattern=" ++ s)
  | .minInc n => plain (chars "minInclusive=" ++ C.showNum n)
  | .minExc n => plain (chars "minExclusive=" ++ C.showNum n)
  | .maxInc n => plain (chars "maxInclusive=" ++ C.showNum n)
  | .maxExc n => plain (chars "maxExclusive=" ++ C.showNum n)
  | .totalDigits n => plain (chars "totalDigits=" ++ showNat n)
  | .fractionDigits n => plain (chars "fractionDigits=" ++ showNat n)

/-- `value_set2value_constraint` (shex2uml.rs:469-494). -/
def valueNames (C : Cfg) (pm : Prefix.PrefixMap) : List Value → Out (List Name)
  | [] => .ok []
  | .obj (.iri r) :: vs =>
    (iriName C pm none r).bind fun n => (valueNames C pm vs).bind fun ns => .ok (n :: ns)
  | _ :: _ => .err

/-- `mk_and` (shex2uml.rs:652-665). -/
def mkAnd (vs : List (Option VC)) : VC :=
  match vs.filterMap id with
  | [] => .any
  | [v] => v
  | vs => .and vs

/-- An optional part of a node constraint (the `if let Some(..)` of shex2uml.rs:567-599). -/
def optOut {α β : Type} (f : α → Out β) : Option α → Out (Option β)
  | none => .ok none
  | some a => (f a).bind fun b => .ok (some b)

/-- The arm for node constraints of `value_expr2value_constraint` (shex2uml.rs:324-330) with `cnv_datatype`,
`cnv_facets` and `cnv_values` (shex2uml.rs:567-599). -/
def ncVC (C : Cfg) (pm : Prefix.PrefixMap) (nc : NC) : Out VC :=
  (optOut (fun d => (iriName C pm none d).bind fun n => .ok (VC.datatype n)) nc.datatype).bind fun dt =>
    (optOut (fun vs => (valueNames C pm vs).bind fun ns => .ok (VC.values ns)) nc.values).bind fun vals =>
      .ok (mkAnd [nc.kind.map kindVC, dt, nc.facets.map fun fs => .facets (fs.map (facetName C)), vals])

/-! ## Values that are references or datatypes -/

/-- `all_references` (shex2uml.rs:440-450); `none` is `Either::Left`. -/
def allRefs : List SE → Option (List Label)
  | [] => some []
  | .ref l :: es => (allRefs es).map fun ls => l :: ls
  | _ :: _ => none

/-- `all_datatypes` (shex2uml.rs:452-467); a name that cannot be resolved panics (`unwrap`). -/
def allDatatypes (C : Cfg) (pm : Prefix.PrefixMap) : List SE → Out (Option (List Name))
  | [] => .ok (some [])
  | .nc nc :: es =>
    match nc.datatype with
    | none => .ok none
    | some d => (iriName C pm none d).unwrap.bind fun n =>
        (allDatatypes C pm es).bind fun o => .ok (o.map fun ns => n :: ns)
  | _ :: _ => .ok none

/-- `BTreeSet::insert`. -/
def oinsert (n : Nat) : List Nat → List Nat
  | [] => [n]
  | m :: ms => if n < m then n :: m :: ms else if n = m then m :: ms else m :: oinsert n ms

/-- The loop over the labels of `component_for_all_references` (shex2uml.rs:369-375). -/
def refNodes (C : Cfg) (pm : Prefix.PrefixMap) : List Label → List Nat → St → Out (List Nat × St)
  | [], ids, u => .ok (ids, u)
  | l :: ls, ids, u =>
    (labelName C pm l).bind fun name =>
      let r := u.node (.cls name.str)
      refNodes C pm ls (oinsert r.1 ids) r.2.2

/-- `Name::new("member", None)`. -/
def member : Name := plain (chars "member")

/-- The part of `component_for_all_references` (shex2uml.rs:361-410) that adds the component and its links
to the members, unless the node has a component. -/
def logicAdd (n : Nat) (k : Kind) (ids : List Nat) (u : St) : Out St :=
  match u.comp n with
  | some _ => .ok u
  | none => (u.addComp n (.logic k ids)).bind fun u =>
      .ok (ids.foldl (fun u m => u.link n m member .oneOne) u)

/-- `component_for_all_references` (shex2uml.rs:361-410). For `Not` the code asks for exactly one node. -/
def refsComp (C : Cfg) (pm : Prefix.PrefixMap) (cur : Nat) (pred : Name) (card : Card) (ls : List Label)
    (k : Kind) (u : St) : Out St :=
  (refNodes C pm ls [] u).bind fun r =>
    if k = .not ∧ r.1.length ≠ 1 then .err
    else
      let i := r.2.logicIdx k r.1
      let n := i.2.node (.logic k i.1)
      (logicAdd n.1 k r.1 n.2.2).bind fun u => .ok (u.link cur n.1 pred card)

/-- `value_expr2value_constraint` (shex2uml.rs:222-358). -/
def valueVC (C : Cfg) (pm : Prefix.PrefixMap) (cur : Nat) (pred : Name) (card : Card) (u : St) :
    SE → Out (VC × St)
  | .or es =>
    match allRefs es with
    | some ls => (refsComp C pm cur pred card ls .or u).bind fun u => .ok (.none, u)
    | none => (allDatatypes C pm es).bind fun
        | some ns => .ok (.or (ns.map .datatype), u)
        | none => .err
  | .and es =>
    match allRefs es with
    | some ls => (refsComp C pm cur pred card ls .and u).bind fun u => .ok (.none, u)
    | none => (allDatatypes C pm es).bind fun
        | some ns => .ok (.and (ns.map .datatype), u)
        | none => .err
  | .not e =>
    match allRefs [e] with
    | some ls => (refsComp C pm cur pred card ls .not u).bind fun u => .ok (.none, u)
    | none => (allDatatypes C pm [e]).bind fun _ => .err
  | .nc nc => (ncVC C pm nc).bind fun v => .ok (v, u)
  | .shape .. => .err
  | .external => .err
  | .ref (.iri r) => (iriName C pm none r).bind fun name =>
      .ok (.none, u.addLink cur (.cls name.str) pred card)
  | .ref (.bnode _) => .err
  | .ref .start => .err

/-! ## Shapes -/

/-- The value of a triple constraint (shex2uml.rs:154-158, 201-205). -/
def tcValue (C : Cfg) (pm : Prefix.PrefixMap) (cur : Nat) (pred : Name) (card : Card) (u : St) :
    Option SE → Out (VC × St)
  | none => .ok (.any, u)
  | some se => valueVC C pm cur pred card u se

/-- The entry made from a value constraint, none for `ValueConstraint::None` (shex2uml.rs:159-164). -/
def mkEntry (pred : Name) (card : Card) : VC → List Entry
  | .none => []
  | vc => [⟨pred, vc, card⟩]

/-- The arm for a triple constraint (shex2uml.rs:140-165, 188-213): the entry added, if any, and the state;
other triple expressions panic. -/
def tcEntry (C : Cfg) (pm : Prefix.PrefixMap) (cur : Nat) (u : St) : TE → Out (List Entry × St)
  | .tc _ _ _ p v mn mx _ anns =>
    (mkName C pm anns p).bind fun pred =>
      (mkCard mn mx).bind fun card =>
        (tcValue C pm cur pred card u v).bind fun r => .ok (mkEntry pred card r.1, r.2)
  | _ => .panic

/-- The loop over the expressions (shex2uml.rs:138-176). -/
def tcsEntries (C : Cfg) (pm : Prefix.PrefixMap) (cur : Nat) : List TE → St → Out (List Entry × St)
  | [], u => .ok ([], u)
  | t :: ts, u => (tcEntry C pm cur u t).bind fun r =>
      (tcsEntries C pm cur ts r.2).bind fun q => .ok (r.1 ++ q.1, q.2)

/-- The match on the triple expression of a shape (shex2uml.rs:128-219). -/
def teEntries (C : Cfg) (pm : Prefix.PrefixMap) (cur : Nat) (u : St) : Option TE → Out (List Entry × St)
  | none => .ok ([], u)
  | some (.each _ es _ _ _ _) => tcsEntries C pm cur es u
  | some (.tc id ng iv p v mn mx acts anns) => tcsEntries C pm cur [.tc id ng iv p v mn mx acts anns] u
  | some (.one ..) => .panic
  | some (.ref _) => .panic

/-- The loop over the extended labels (shex2uml.rs:115-127): the nodes extended and the state. -/
def extNodes (C : Cfg) (pm : Prefix.PrefixMap) (cur : Nat) : List Label → List Nat → St → Out (List Nat × St)
  | [], ids, u => .ok (ids, u)
  | l :: ls, ids, u => (labelName C pm l).bind fun name =>
      let r := u.node (.cls name.str)
      let v := r.2.2.addExt cur r.1
      (if r.2.1 then .ok v else v.addComp r.1 (.cls ⟨name, [], []⟩)).bind fun w =>
        extNodes C pm cur ls (Rbe.sinsert r.1 ids) w

/-- `shape_expr2component` and `shape2component` (shex2uml.rs:81-220). -/
def shapeComp (C : Cfg) (pm : Prefix.PrefixMap) (name : Name) (cur : Nat) (u : St) : SE → Out (Comp × St)
  | .shape _ _ te _ anns ext =>
    (getLabel C pm (anns.getD []) C.labels).bind fun label =>
      (extNodes C pm cur (ext.getD []) [] u).bind fun r =>
        (teEntries C pm cur r.2 te).bind fun q =>
          .ok (.cls ⟨{ name with label := label.orElse fun _ => name.label }, q.1, r.1⟩, q.2)
  | _ => .err

/-- The loop of `convert` (shex2uml.rs:62-68). -/
def convertAll (C : Cfg) (pm : Prefix.PrefixMap) : List (Label × SE) → St → Out St
  | [], u => .ok u
  | d :: ds, u => (labelName C pm d.1).bind fun name =>
      let n := u.node (.cls name.str)
      (shapeComp C pm name n.1 n.2.2 d.2).bind fun r => convertAll C pm ds (r.2.setComp n.1 r.1)

/-- `ShEx2Uml::convert` (shex2uml.rs:59-71). -/
def convert (C : Cfg) (pm : Option Prefix.PrefixMap) (shapes : Option (List (Label × SE))) : Out St :=
  convertAll C (pm.getD Prefix.PrefixMap.new) (shapes.getD []) .init

/-! ## The parts of the diagram that are written -/

/-- The condition of `as_plantuml_neighs` for components (uml.rs:256-262) with `is_in_extends` and
`is_in_map` (uml.rs:457-463, 481-492); each component is visited once, so the set of those written is
not looked at. -/
def neighComp (u : St) (target n : Nat) : Bool :=
  n == target || decide ((n, target) ∈ u.exts) || decide ((target, n) ∈ u.exts) ||
    decide ((target, n) ∈ u.outgoing) || decide ((target, n) ∈ u.incoming)

/-- The components, links and pairs written by `as_plantuml_neighs` (uml.rs:242-278). -/
def neighs (u : St) (target : Nat) : List (Nat × Comp) × List Link × List (Nat × Nat) :=
  (u.comps.filter fun c => neighComp u target c.1,
    u.links.filter fun l => l.src == target || l.dst == target,
    u.exts.filter fun e => e.1 == target || e.2 == target)

/-- Those written by `as_plantuml` for the neighbours of a name (shex2uml.rs:45-55). -/
def neighsOf (u : St) (name : Str) : Out (List (Nat × Comp) × List Link × List (Nat × Nat)) :=
  match u.find (.cls name) with
  | some n => .ok (neighs u n)
  | none => .err

/-- `card2plantuml` (uml.rs:446-455); integers as their texts. -/
def cardText (showInt : Int → Str) : Card → Str
  | .oneOne => chars " "
  | .star => chars "*"
  | .plus => chars "+"
  | .optional => chars "?"
  | .range m n => showInt m ++ '-' :: showInt n
  | .fixed m => '{' :: showInt m ++ ['}']

end Uml

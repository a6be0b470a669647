import Verif.Comp.Model
import Verif.Prefix.Model

/-!
# Model: the conversion of a ShEx schema to a SPARQL query

shapes_converter/src/shex_to_sparql, with the searches for shapes of shex_ast/src/ast/schema.rs. IRIs and
texts are lists of characters; the syntax tree is the one of `Comp/Model.lean`. `Err` keeps the kind of an
error, not its contents. The following of references is bounded by a number (`more` when it is used up),
since references in a circle make it endless.
-/

namespace Select
open Comp

/-- Texts. -/
abbrev Str := Prefix.Str

variable {NC : Type}

/-- The fields of `ast::Schema` read by the conversion (shex_ast/src/ast/schema.rs:18-40). -/
structure Sch (NC : Type) where
  pm : Option Prefix.PrefixMap
  base : Option Str
  start : Option (SE Str NC)
  shapes : Option (List (Label Str × SE Str NC))

/-- `enum ShEx2SparqlError` (shex2sparql_error.rs). -/
inductive Err where
  | notImplemented
  | shapeNotFound
  | emptyShapes
  | noShapes
  | refNotFound
  | prefixMap
  deriving DecidableEq, Repr

/-- What a call comes to: a result, an error, a panic (`todo!()`), or no answer within the bound. -/
inductive Out (α : Type) where
  | ok (a : α)
  | err (e : Err)
  | panic
  | more

/-- The `?` operator. -/
def Out.bind {α β : Type} : Out α → (α → Out β) → Out β
  | .ok a, f => f a
  | .err e, _ => .err e
  | .panic, _ => .panic
  | .more, _ => .more

/-- `struct TriplePattern` (triple_pattern.rs:6-10); a variable is its name (var.rs:5-8). -/
structure Pat where
  subj : Str
  pred : IRef Str
  obj : Str
  deriving DecidableEq

/-- `struct SelectQuery` (select_query.rs:8-12). -/
structure Qry where
  pm : Option Prefix.PrefixMap
  base : Option Str
  pats : List Pat

/-! ## Variables -/

/-- `VarBuilder::generate` (var.rs:40-44): the name and the counter afterwards. -/
def generate (k : Nat) : Str × Nat := (['v', 'a', 'r'] ++ Nat.toDigits 10 (k + 1), k + 1)

/-- `var_from_predicate` (shex2sparql.rs:147-161); `none` is the `todo!()` of an IRI of no namespace. -/
def varOf (pm : Option Prefix.PrefixMap) (k : Nat) : IRef Str → Option (Str × Nat)
  | .iri i =>
    match pm with
    | none => some (generate k)
    | some m =>
      match m.qualifyLocal i with
      | some loc => some (loc, k)
      | none => none
  | .prefixed _ loc => some (loc.toList, k)

/-! ## Patterns -/

mutual
/-- `triple_expr2patterns` (shex2sparql.rs:109-145): the patterns added and the counter; `none` is a
`todo!()`. -/
def patsTE (pm : Option Prefix.PrefixMap) (this : Str) : TE Str NC → Nat → Option (List Pat × Nat)
  | .eachOf _ es _ _ _, k => patsAll pm this es k
  | .oneOf _ es _ _ _, k => patsAll pm this es k
  | .tc _ _ inverse pred _ _ _ _, k =>
    if inverse = some true then none
    else
      match varOf pm k pred with
      | some (v, k') => some ([⟨this, pred, v⟩], k')
      | none => none
  | .ref _, _ => none
/-- The loops over the expressions (shex2sparql.rs:118-120, 123-125). -/
def patsAll (pm : Option Prefix.PrefixMap) (this : Str) :
    List (TE Str NC) → Nat → Option (List Pat × Nat)
  | [], k => some ([], k)
  | e :: es, k =>
    match patsTE pm this e k with
    | none => none
    | some (ps, k') =>
      match patsAll pm this es k' with
      | none => none
      | some (qs, k'') => some (ps ++ qs, k'')
end

/-- `shape2patterns` (shex2sparql.rs:95-107). -/
def patsShape (pm : Option Prefix.PrefixMap) (this : Str) : Option (TE Str NC) → Option (List Pat)
  | none => some []
  | some te => (patsTE pm this te 0).map Prod.fst

/-! ## The search for shapes -/

/-- `resolve_iriref` of a prefix map (prefixmap/src/prefix_map.rs:521-526). -/
def resolveRef (valid : Str → Bool) (pm : Option Prefix.PrefixMap) : IRef Str → Option Str
  | .iri i => some i
  | .prefixed a l => (pm.getD Prefix.PrefixMap.new).resolvePrefixLocal valid a.toList l.toList

/-- The loop of `find_shape_by_iri_ref` (shex_ast/src/ast/schema.rs:283-290). -/
def findIn (valid : Str → Bool) (pm : Option Prefix.PrefixMap) (want : Str) :
    List (Label Str × SE Str NC) → Out (Option (SE Str NC))
  | [] => .ok none
  | (.ref r, e) :: ds =>
    match resolveRef valid pm r with
    | none => .err .prefixMap
    | some i => if i = want then .ok (some e) else findIn valid pm want ds
  | (.bnode _, _) :: ds => findIn valid pm want ds
  | (.start, _) :: ds => findIn valid pm want ds

/-- `find_shape_by_iri_ref` (schema.rs:273-297). -/
def findRef (valid : Str → Bool) (s : Sch NC) (r : IRef Str) : Out (Option (SE Str NC)) :=
  match s.shapes with
  | none => .ok none
  | some ds =>
    match resolveRef valid s.pm r with
    | none => .err .prefixMap
    | some want => findIn valid s.pm want ds

/-- `find_shape_by_label` (schema.rs:265-271). -/
def findLabel (valid : Str → Bool) (s : Sch NC) : Label Str → Out (Option (SE Str NC))
  | .ref r => findRef valid s r
  | .bnode _ => .panic
  | .start => .panic

/-! ## The conversion -/

/-- `shape_expr2patterns` (shex2sparql.rs:65-93). The counter of the variables is passed down by the code,
but nothing is generated before the shape is reached. -/
def patsSE (valid : Str → Bool) (this : Str) (s : Sch NC) : Nat → SE Str NC → Out (List Pat)
  | _, .or _ => .err .notImplemented
  | _, .and _ => .err .notImplemented
  | _, .not _ => .err .notImplemented
  | _, .nc _ => .err .notImplemented
  | _, .external => .err .notImplemented
  | _, .shape _ _ te _ _ =>
    match patsShape s.pm this te with
    | some ps => .ok ps
    | none => .panic
  | 0, .ref _ => .more
  | n + 1, .ref l =>
    match findLabel valid s l with
    | .ok (some e) => patsSE valid this s n e
    | .ok none => .err .refNotFound
    | .err e => .err e
    | .panic => .panic
    | .more => .more

/-- `shape_expr2query` (shex2sparql.rs:51-63). -/
def query (valid : Str → Bool) (this : Str) (s : Sch NC) (n : Nat) (e : SE Str NC) : Out Qry :=
  (patsSE valid this s n e).bind fun ps => .ok ⟨s.pm, s.base, ps⟩

/-- `ShEx2Sparql::convert` (shex2sparql.rs:14-48). -/
def convert (valid : Str → Bool) (this : Str) (s : Sch NC) (n : Nat) (shape : Option (IRef Str)) :
    Out Qry :=
  match shape with
  | some r =>
    match findRef valid s r with
    | .ok (some e) => query valid this s n e
    | .ok none => .err .shapeNotFound
    | .err e => .err e
    | .panic => .panic
    | .more => .more
  | none =>
    match s.start with
    | some e => query valid this s n e
    | none =>
      match s.shapes with
      | some (d :: _) => query valid this s n d.2
      | some [] => .err .emptyShapes
      | none => .err .noShapes

/-! ## The text of the query -/

/-- A text as a list of characters. -/
abbrev chars (s : String) : Str := s.toList

/-- `TriplePattern::show_qualified` (triple_pattern.rs:21-35); `none` is the error. -/
def showPat (valid : Str → Bool) (m : Prefix.PrefixMap) (p : Pat) : Option Str :=
  let pred := match p.pred with
    | .iri i => some (m.qualify i)
    | .prefixed a l => m.resolvePrefixLocal valid a.toList l.toList
  pred.map fun t => '?' :: p.subj ++ ' ' :: t ++ [' ', '?'] ++ p.obj ++ [' ', '.']

/-- `Display` of a prefix map (prefixmap/src/prefix_map.rs:580-587). -/
def showMap (m : Prefix.PrefixMap) : Str :=
  m.map.flatMap fun e => chars "prefix " ++ e.1 ++ chars ": <" ++ e.2 ++ chars ">\n"

/-- The loops over the patterns (select_query.rs:52-58, 61-65). -/
def showPats (valid : Str → Bool) (m : Prefix.PrefixMap) (before after : Str) : List Pat → Option Str
  | [] => some []
  | p :: ps =>
    match showPat valid m p with
    | none => none
    | some t => (showPats valid m before after ps).map fun r => before ++ t ++ after ++ r

/-- `Display` of a query (select_query.rs:43-71). -/
def showQry (valid : Str → Bool) (q : Qry) : Option Str :=
  let head := match q.base with
    | some b => b ++ ['\n']
    | none => []
  match q.pm with
  | some m =>
    (showPats valid m [' '] ['\n'] q.pats).map fun t =>
      head ++ showMap m ++ ['\n'] ++ chars "SELECT * WHERE {\n" ++ t ++ chars "}\n"
  | none =>
    (showPats valid Prefix.PrefixMap.new [] [] q.pats).map fun t => head ++ t ++ chars "}\n"

end Select

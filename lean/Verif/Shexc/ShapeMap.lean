import Verif.Shexc.Schema

/-!
# Model: shape maps

The compact syntax of shape maps (shex_ast/src/compact/shapemap_grammar.rs, shapemap_parser.rs), the shape map that is
built from it (shex_ast/src/shapemap) and the nodes that its selectors stand for.
-/

namespace Shexc

open P

/-! ## Shape maps -/

/-- `Pattern` (shapemap/pattern.rs:10-14). -/
inductive Pat where
  | node (o : ObjVal)
  | wildcard
  | focus
  deriving DecidableEq, Repr

/-- `SHACLPathRef` (shapemap/shacl_path_ref.rs:12-20). -/
inductive PathRef where
  | pred (r : IriRef)
  | alt (ps : List PathRef)
  | seq (ps : List PathRef)
  | inv (p : PathRef)
  | star (p : PathRef)
  | plus (p : PathRef)
  | opt (p : PathRef)

/-- `NodeSelector` (shapemap/node_selector.rs:18-33). -/
inductive Sel where
  | node (o : ObjVal)
  | bnode (s : Str)
  | triple (s : Pat) (p : PathRef) (o : Pat)
  | sparql (q : Str)
  | generic (iri param : Str)

/-- `ShapeSelector` (shapemap/shape_selector.rs:9-13). -/
inductive ShapeSel where
  | label (l : Label)
  | start
  deriving DecidableEq, Repr

/-- `Association` (shapemap/association.rs:11-15), and `ShapeMapStatement` (shapemap_grammar.rs:20-26). -/
structure Assoc where
  node : Sel
  shape : ShapeSel

/-- `QueryShapeMap` (shapemap/query_shape_map.rs:9-14). -/
structure ShapeMap where
  assocs : List Assoc := []
  nodesPm : Prefix.PrefixMap := .new
  shapesPm : Prefix.PrefixMap := .new

/-! ## Reading -/

/-- `shape_spec` (shapemap_grammar.rs:59-70). -/
def shapeSpec : P ShapeSel :=
  alt (do let l ← shapeLabel; return .label l) (do tokenTwsNoCase "START".toList; return .start)

/-- `object_value` (shapemap_grammar.rs:84-86). -/
def objectValue (X : Ext) : P ObjVal := alt (do let r ← iri; return .iri r) (do let l ← literal X; return .lit l)

/-- `node_or_wildcard` (shapemap_grammar.rs:97-103). -/
def nodeOrWildcard (X : Ext) : P Pat :=
  alt (do let o ← objectValue X; return .node o) (do tokenTws ['_']; return .wildcard)

/-- `focus` (shapemap_grammar.rs:143-146). -/
def focusP : P Pat := do
  tokenTwsNoCase "FOCUS".toList
  return .focus

/-- `shacl_path` with `predicate` and `rdf_type` (shapemap_grammar.rs:129-141), the same as in schemas. -/
def shaclPath : P PathRef := do
  let r ← predicate
  return .pred r

/-- `focus_object` (shapemap_grammar.rs:105-115). -/
def focusObject (X : Ext) : P Sel := do
  let s ← focusP
  tws0
  let p ← shaclPath
  tws0
  let o ← nodeOrWildcard X
  return .triple s p o

/-- `subject_focus` (shapemap_grammar.rs:117-127). -/
def subjectFocus (X : Ext) : P Sel := do
  let s ← nodeOrWildcard X
  tws0
  let p ← shaclPath
  tws0
  let o ← focusP
  return .triple s p o

/-- `triple_pattern` with `triple_pattern_inner` (shapemap_grammar.rs:88-95). -/
def triplePattern (X : Ext) : P Sel := do
  let _ ← char '{'
  tws0
  let t ← alt (focusObject X) (subjectFocus X)
  tws0
  let _ ← char '}'
  return t

/-- `extended` (shapemap_grammar.rs:148-151). -/
def extended : P Sel := do
  tokenTwsNoCase "SPARQL".toList
  tws0
  let q ← string
  return .sparql q

/-- `object_term` with `subject_term`, `bnode_selector`, `iri_selector` and `literal_selector`
(shapemap_grammar.rs:80-82, 153-170). -/
def objectTerm (X : Ext) : P Sel :=
  alt (alt (do let b ← bnodeLabel; return .bnode b) (do let r ← iri; return .node (.iri r)))
    (do let l ← literal X; return .node (.lit l))

/-- `node_selector` (shapemap_grammar.rs:73-78). -/
def nodeSelector (X : Ext) : P Sel := alt (objectTerm X) (alt (triplePattern X) extended)

/-- `association` (shapemap_grammar.rs:44-51). -/
def association (X : Ext) : P Assoc := do
  let n ← nodeSelector X
  tokenTws ['@']
  let s ← shapeSpec
  return ⟨n, s⟩

/-- One more association after a comma (shapemap_grammar.rs:54). -/
def nextAssociation (X : Ext) : P Assoc := do
  tokenTws [',']
  tws0
  association X

/-- `shapemap_statement` with `rest_associations` (shapemap_grammar.rs:28-41, 53-57), without `all_consuming`. -/
def mapStatement (X : Ext) : P (List Assoc) := do
  let a ← association X
  tws0
  let as ← many0 (nextAssociation X)
  tws0
  let _ ← opt (char ',')
  tws0
  return a :: as

/-! ## Names -/

/-- `Pattern::deref_iri` (pattern.rs:45-61). -/
def Pat.deref (I : Iris) (E : Env) : Pat → Option Pat
  | .node o => (o.deref I E).map .node
  | p => some p

mutual
/-- `SHACLPathRef::deref_iri` (shacl_path_ref.rs:66-114). -/
def PathRef.deref (I : Iris) (E : Env) : PathRef → Option PathRef
  | .pred r => (r.deref I E).map .pred
  | .alt ps => (PathRef.derefs I E ps).map .alt
  | .seq ps => (PathRef.derefs I E ps).map .seq
  | .inv p => (PathRef.deref I E p).map .inv
  | .star p => (PathRef.deref I E p).map .star
  | .plus p => (PathRef.deref I E p).map .plus
  | .opt p => (PathRef.deref I E p).map .opt
/-- The elements of a path (shacl_path_ref.rs:81-86). -/
def PathRef.derefs (I : Iris) (E : Env) : List PathRef → Option (List PathRef)
  | [] => some []
  | p :: ps => do
    let p ← PathRef.deref I E p
    let ps ← PathRef.derefs I E ps
    return p :: ps
end

/-- `NodeSelector::deref_iri` (node_selector.rs:236-260). -/
def Sel.deref (I : Iris) (E : Env) : Sel → Option Sel
  | .node o => (o.deref I E).map .node
  | .bnode b => some (.bnode b)
  | .triple s p o => do
    let s ← s.deref I E
    let p ← p.deref I E
    let o ← o.deref I E
    return .triple s p o
  | .sparql q => some (.sparql q)
  | .generic i p => some (.generic i p)

/-- `ShapeSelector::deref_iri` (shape_selector.rs:57-73). -/
def ShapeSel.deref (I : Iris) (E : Env) : ShapeSel → Option ShapeSel
  | .label l => (l.deref I E).map .label
  | .start => some .start

/-- `Association::new` (association.rs:18-34). -/
def Assoc.make (I : Iris) (nodes shapes : Env) (n : Sel) (s : ShapeSel) : Option Assoc := do
  let n ← n.deref I nodes
  let s ← s.deref I shapes
  return ⟨n, s⟩

/-- `add_association` (query_shape_map.rs:39-56); `none` when a name cannot be resolved. -/
def ShapeMap.add (I : Iris) (M : ShapeMap) (n : Sel) (baseN : Option Str) (s : ShapeSel) (baseS : Option Str) :
    Option ShapeMap := do
  let a ← Assoc.make I ⟨baseN, some M.nodesPm⟩ ⟨baseS, some M.shapesPm⟩ n s
  return { M with assocs := M.assocs ++ [a] }

/-- The associations that were read, one after the other (shapemap_parser.rs:47-58). -/
def ShapeMap.adds (I : Iris) (baseN baseS : Option Str) : ShapeMap → List Assoc → Option ShapeMap
  | M, [] => some M
  | M, a :: as => do
    let M ← M.add I a.node baseN a.shape baseS
    ShapeMap.adds I baseN baseS M as

/-- What `ShapeMapParser::parse` ends with. -/
inductive MapOut where
  | ok (M : ShapeMap)
  | error
  | panic
  | deep

/-- What the parser is given beside the text. -/
structure MapEnv where
  nodesPm : Option Prefix.PrefixMap := none
  baseNodes : Option Str := none
  shapesPm : Option Prefix.PrefixMap := none
  baseShapes : Option Str := none

/-- The shape map to begin with (shapemap_parser.rs:36-42). -/
def MapEnv.empty (V : MapEnv) : ShapeMap := { nodesPm := V.nodesPm.getD .new, shapesPm := V.shapesPm.getD .new }

/-- `ShapeMapParser::parse` with `ShapeMapStatementIterator` (shapemap_parser.rs:28-61, 117-173). The statement takes
the whole text (`all_consuming`), so that there is only one. -/
def parseMap (X : Ext) (I : Iris) (V : MapEnv) (i : Str) : MapOut :=
  match mapStatement X (skip i) with
  | .ok as [] =>
    match V.empty.adds I V.baseNodes V.baseShapes as with
    | some M => .ok M
    | none => .error
  | .panic => .panic
  | .deep => .deep
  | _ => .error

/-- `parse_node_selector` (shapemap_parser.rs:88-104): what comes after the selector is not looked at. -/
def parseNodeSelector (X : Ext) (i : Str) : Option Sel :=
  match nodeSelector X i with
  | .ok s _ => some s
  | _ => none

/-- `parse_shape_selector` (shapemap_parser.rs:76-86). -/
def parseShapeSelector (i : Str) : Option ShapeSel :=
  match shapeSpec i with
  | .ok s _ => some s
  | _ => none

/-! ## The nodes that are selected -/

/-- What the selection of nodes takes from outside: the prefixes of the data, the terms of names and literals, and the
answers to queries, each a list of values for the variables in order (`query_select`; `none` is an error). -/
structure Data (T : Type) where
  pm : Prefix.PrefixMap
  iriTerm : Str → T
  bnodeTerm : Str → T
  litTerm : Lit → T
  select : Str → Option (List (List (Option T)))

variable {T : Type}

/-- `resolve_iriref`, `get_iri_prefixmap` (prefix_map.rs:521-526, iri_ref.rs:40-45). -/
def IriRef.resolveIn (I : Iris) (m : Prefix.PrefixMap) : IriRef → Option Str
  | .iri s => some s
  | .prefixed p l => m.resolvePrefixLocal I.valid p l

/-- `ConcreteLiteral::to_string` (literal.rs:239-294, 994-998); `basic` is what `PrefixMap::basic()` makes of the IRI
of a datatype, `showNum` how numbers are displayed. -/
def Lit.display (basic : Str → Str) (showNum : Num → Str) : Lit → Str
  | .str s => '"' :: (s ++ ['"'])
  | .lang s t => '"' :: (s ++ ['"', '@'] ++ t)
  | .typed s (.iri d) => '"' :: (s ++ ['"', '^', '^'] ++ basic d)
  | .typed s (.prefixed p l) => '"' :: (s ++ ['"', '^', '^'] ++ p ++ ':' :: l)
  | .bool b => if b then "true".toList else "false".toList
  | .num n => showNum n

/-- `PrefixMap::basic()` (prefix_map.rs:250-261). -/
def basicPm : Prefix.PrefixMap :=
  ⟨[([], "http://example.org/".toList), ("dc".toList, "http://purl.org/dc/elements/1.1/".toList),
    ("rdf".toList, "http://www.w3.org/1999/02/22-rdf-syntax-ns#".toList),
    ("rdfs".toList, "http://www.w3.org/2000/01/rdf-schema#".toList), ("sh".toList, "http://www.w3.org/ns/shacl#".toList),
    ("xsd".toList, "http://www.w3.org/2001/XMLSchema#".toList)], false⟩

/-- `mk_vble` (node_selector.rs:131-144). -/
def mkVble (I : Iris) (m : Prefix.PrefixMap) (showNum : Num → Str) : Pat → Option Str
  | .node (.iri r) => (r.resolveIn I m).map fun s => '<' :: (s ++ ['>'])
  | .node (.lit l) => some (l.display basicPm.qualify showNum)
  | .wildcard => some "?any".toList
  | .focus => some "?focus".toList

/-- What the selection of nodes ends with. -/
inductive NodesOut (T : Type) where
  | ok (ts : List T)
  | error
  | panic

/-- `mk_path_str` (node_selector.rs:117-129); `none` is a panic (`todo!`), `some none` an error. -/
def mkPath (I : Iris) (m : Prefix.PrefixMap) : PathRef → Option (Option Str)
  | .pred r => some ((r.resolveIn I m).map fun s => '<' :: (s ++ ['>']))
  | _ => none

/-- The query of a triple pattern (node_selector.rs:105). -/
def tripleQuery (s p o : Str) : Str := "SELECT ?focus WHERE { ".toList ++ s ++ [' '] ++ p ++ [' '] ++ o ++ " }".toList

/-- `resolve_query` (node_selector.rs:180-205): the value of the first variable of each answer. -/
def resolveQuery (D : Data T) (q : Str) : NodesOut T :=
  match D.select q with
  | none => .error
  | some sols => .ok (sols.filterMap fun vs => vs.head?.bind id)

/-- `NodeSelector::nodes` (node_selector.rs:60-109). -/
def Sel.nodes (I : Iris) (D : Data T) (showNum : Num → Str) : Sel → NodesOut T
  | .node (.iri r) =>
    match r.resolveIn I D.pm with
    | some s => .ok [D.iriTerm s]
    | none => .error
  | .node (.lit l) => .ok [D.litTerm l]
  | .bnode b => .ok [D.bnodeTerm b]
  | .sparql q => resolveQuery D q
  | .triple s p o =>
    match mkVble I D.pm showNum s with
    | none => .error
    | some s' =>
      match mkPath I D.pm p with
      | none => .panic
      | some none => .error
      | some (some p') =>
        match mkVble I D.pm showNum o with
        | none => .error
        | some o' => resolveQuery D (tripleQuery s' p' o')
  | .generic _ _ => .panic

/-- `iter_shape` (shape_selector.rs:40-45). -/
def ShapeSel.shape : ShapeSel → Label
  | .label l => l
  | .start => .start

/-- `QueryShapeMap::node_shapes` with `iter_node_shape` (query_shape_map.rs:62-74, association.rs:36-51). -/
def nodeShapes (I : Iris) (D : Data T) (showNum : Num → Str) : List Assoc → NodesOut (T × Label)
  | [] => .ok []
  | a :: as =>
    match a.node.nodes I D showNum with
    | .error => .error
    | .panic => .panic
    | .ok ts =>
      match nodeShapes I D showNum as with
      | .ok rs => .ok (ts.map (·, a.shape.shape) ++ rs)
      | .error => .error
      | .panic => .panic

end Shexc

import Verif.Pg.Graph
import Verif.Lit.Model

/-!
# Model: from parsed texts to schemas, graphs and type maps

Paths are relative to `pgschema/src/parser`. The generated LR parsers (`pgs.rs`, `pg.rs`, `map.rs`, from the
`.rustemo` grammars) are not modelled: the model starts at the syntax trees they return (`*_actions.rs`), whose leaves
are the texts of the tokens. Every error is `none`, since only the fact that there is one matters here.
-/

namespace Pg

/-- External behaviour: `time::Date::parse` with the format `[year]-[month]-[day]` (../value.rs:24-31), as a number of
days. -/
structure Dates where
  parse : String → Option Int

/-- `remove_quotes` (pgs_builder.rs:370-375, pg_builder.rs:165-170): the text without its first and last character. -/
def removeQuotes (s : String) : String := String.ofList (s.toList.drop 1).dropLast

/-- `SingleValue` (pgs.rustemo:122-130, pg.rustemo:49-57); the texts are those of the tokens. -/
inductive SrcValue where
  | str (token : String)
  | num (token : String)
  | date (token : String)
  | bool (b : Bool)
  deriving DecidableEq, Repr

/-- `get_value` (pgs_builder.rs:345-366, pg_builder.rs:140-161). -/
def buildValue (D : Dates) : SrcValue → Option Value
  | .str t => some (.string (removeQuotes t))
  | .num t => (Lit.rustParse true (-2 ^ 31) (2 ^ 31 - 1) t.toList).map .integer
  | .date t => (D.parse (removeQuotes t)).map .date
  | .bool b => some (.bool b)

/-- `Cond` (pgs.rustemo:96-108). -/
inductive SrcCond where
  | tt
  | ff
  | gt (v : SrcValue)
  | ge (v : SrcValue)
  | lt (v : SrcValue)
  | le (v : SrcValue)
  | eq (v : SrcValue)
  | regex (token : String)
  | and (a b : SrcCond)
  | or (a b : SrcCond)
  | not (a : SrcCond)
  | paren (a : SrcCond)
  deriving DecidableEq, Repr

/-- `get_cond` (pgs_builder.rs:296-343). -/
def buildCond (D : Dates) : SrcCond → Option BExpr
  | .tt => some .tt
  | .ff => some .ff
  | .and a b => do
    let x ← buildCond D a
    let y ← buildCond D b
    pure (.and x y)
  | .or a b => do
    let x ← buildCond D a
    let y ← buildCond D b
    pure (.or x y)
  | .not a => (buildCond D a).map .not
  | .paren a => buildCond D a
  | .gt v => (buildValue D v).map .greaterThan
  | .ge v => (buildValue D v).map .greaterThanOrEqual
  | .lt v => (buildValue D v).map .lessThan
  | .le v => (buildValue D v).map .lessThanOrEqual
  | .eq v => (buildValue D v).map .equals
  | .regex t => some (.regex (removeQuotes t))

/-- `Max` (pgs.rustemo:117-119). -/
inductive SrcMax where
  | num (token : String)
  | star
  deriving DecidableEq, Repr

/-- `Card` (pgs.rustemo:111-115). -/
inductive SrcCard where
  | optional
  | oneOrMore
  | zeroOrMore
  | range (token : String) (max : SrcMax)
  deriving DecidableEq, Repr

/-- `get_number` (pgs_builder.rs:209-211): `parse::<usize>()`, 64 bits. -/
def buildNumber (t : String) : Option Nat := (Lit.rustParse false 0 (2 ^ 64 - 1) t.toList).map Int.toNat

/-- `get_max` (pgs_builder.rs:199-207). -/
def buildMax : SrcMax → Option Max
  | .num t => (buildNumber t).map .bounded
  | .star => some .unbounded

/-- `get_card` and `get_range` (pgs_builder.rs:184-197). -/
def buildCard : SrcCard → Option Card
  | .zeroOrMore => some .zeroOrMore
  | .oneOrMore => some .oneOrMore
  | .optional => some .zeroOrOne
  | .range t m => do
    let min ← buildNumber t
    let max ← buildMax m
    pure (.range min max)

/-- `get_card_opt` (pgs_builder.rs:288-294). -/
def buildCardOpt : Option SrcCard → Option Card
  | some c => buildCard c
  | none => some .one

/-- The four kinds that take a cardinality: `STRING`, `INTEGER`, `DATE`, `BOOL` (pgs.rustemo:85-88). -/
inductive SrcKind where
  | string
  | integer
  | date
  | bool
  deriving DecidableEq, Repr

/-- `SimpleType` (pgs.rustemo:85-91). Simplified: the four productions with a cardinality are one constructor. -/
inductive SrcSimple where
  | kind (k : SrcKind) (card : Option SrcCard) (check : Option SrcCond)
  | any (check : Option SrcCond)
  | check (c : SrcCond)
  deriving DecidableEq, Repr

/-- `ValueType::string`, `integer`, `date`, `bool` (../value_type.rs:18-31). -/
def SrcKind.valueType : SrcKind → Card → ValueType
  | .string => .stringType
  | .integer => .integerType
  | .date => .dateType
  | .bool => .boolType

/-- `get_simple_type` (pgs_builder.rs:235-286). -/
def buildSimple (D : Dates) : SrcSimple → Option TypeSpec
  | .kind k c none => do
    let card ← buildCardOpt c
    pure (.value (k.valueType card))
  | .kind k c (some e) => do
    let card ← buildCardOpt c
    let cond ← buildCond D e
    pure (.cond (k.valueType card) cond)
  | .any none => some (.value .any)
  | .any (some e) => (buildCond D e).map (.cond .any)
  | .check e => (buildCond D e).map (.cond .any)

/-- `MoreTypes?` (pgs.rustemo:80-83). -/
inductive SrcMore where
  | nil
  | inter (t : SrcSimple) (more : SrcMore)
  | union (t : SrcSimple) (more : SrcMore)
  deriving DecidableEq, Repr

/-- `TypeSpec` (pgs.rustemo:77-78). -/
structure SrcType where
  first : SrcSimple
  more : SrcMore
  deriving DecidableEq, Repr

/-- `get_type_spec` and `get_more_types` (pgs_builder.rs:213-233). What follows the second type is not looked at. -/
def buildType (D : Dates) (t : SrcType) : Option TypeSpec := do
  let a ← buildSimple D t.first
  match t.more with
  | .nil => pure a
  | .union s _ => do
    let b ← buildSimple D s
    pure (.disj a b)
  | .inter s _ => do
    let b ← buildSimple D s
    pure (.conj a b)

/-- `Properties` (pgs.rustemo:64-72). -/
inductive SrcProps where
  | eachOf (a b : SrcProps)
  | oneOf (a b : SrcProps)
  | paren (a : SrcProps)
  | base (optional : Bool) (key : String) (t : SrcType)
  deriving DecidableEq, Repr

/-- `get_property_value`, `get_base_property`, `get_property` (pgs_builder.rs:148-182). -/
def buildProps (D : Dates) : SrcProps → Option PropValue
  | .paren a => buildProps D a
  | .eachOf a b => do
    let x ← buildProps D a
    let y ← buildProps D b
    pure (.eachOf x y)
  | .oneOf a b => do
    let x ← buildProps D a
    let y ← buildProps D b
    pure (.oneOf x y)
  | .base o k t => do
    let ts ← buildType D t
    pure (if o then .optionalProperty k ts else .property k ts)

/-- `Labels` and `SingleLabel` (pgs.rustemo:49-59). -/
inductive SrcLabels where
  | conj (a b : SrcLabels)
  | disj (a b : SrcLabels)
  | paren (a : SrcLabels)
  | square (a : SrcLabels)
  | label (name : String)
  | typeName (name : String)
  deriving DecidableEq, Repr

/-- `get_labels` and `get_single_label` (pgs_builder.rs:93-121). -/
def buildLabels : SrcLabels → Spec
  | .conj a b => .and (buildLabels a) (buildLabels b)
  | .disj a b => .or (buildLabels a) (buildLabels b)
  | .paren a => buildLabels a
  | .square a => buildLabels a
  | .label l => .label l
  | .typeName t => .ref t

/-- `LabelPropertySpec` (pgs.rustemo:43-44). -/
structure SrcSpec where
  labels : Option SrcLabels
  props : Option SrcProps
  deriving DecidableEq, Repr

/-- `get_label_property_spec` (pgs_builder.rs:76-91). Without labels the properties are not looked at. -/
def buildSpec (D : Dates) (s : SrcSpec) : Option Spec :=
  match s.labels with
  | none => some .empty
  | some l =>
    match s.props with
    | none => some (buildLabels l)
    | some p => (buildProps D p).map fun pv => .content (buildLabels l) (.closed pv)

/-- `CreateType` (pgs.rustemo:4-20). -/
inductive Stmt where
  | node (name : Option String) (spec : SrcSpec)
  | edge (name : Option String) (source edge target : SrcSpec)
  | graph
  deriving DecidableEq, Repr

/-- What a call returns: a value, an error, or a panic. -/
inductive Parsed (α : Type) where
  | ok (a : α)
  | error
  | panic

/-- `PropertyGraphSchema::add_blank_node_spec` (../pgs.rs:101-104). -/
def Schema.addBlankNodeSpec (S : Schema) (s : Spec) : Schema := S.addNodeSpec (toString S.nodeCounter) s

/-- `PropertyGraphSchema::add_blank_edge_spec` (../pgs.rs:106-114). -/
def Schema.addBlankEdgeSpec (S : Schema) (t : EdgeType) : Option Schema := S.addEdgeSpec (toString S.edgeCounter) t

/-- The body of `CREATE EDGE TYPE` (pgs_builder.rs:58-62). -/
def buildEdge (D : Dates) (source edge target : SrcSpec) : Option EdgeType := do
  let s ← buildSpec D source
  let t ← buildSpec D target
  let e ← buildSpec D edge
  pure ⟨s, e, t⟩

/-- One iteration of `get_create_types` (pgs_builder.rs:48-74). The error of a blank edge type is dropped. -/
def buildStmt (D : Dates) (S : Schema) : Stmt → Parsed Schema
  | .node name spec =>
    match buildSpec D spec with
    | none => .error
    | some s =>
      match name with
      | some n => .ok (S.addNodeSpec n s)
      | none => .ok (S.addBlankNodeSpec s)
  | .edge name source edge target =>
    match buildEdge D source edge target with
    | none => .error
    | some t =>
      match name with
      | some n =>
        match S.addEdgeSpec n t with
        | none => .error
        | some S' => .ok S'
      | none =>
        match S.addBlankEdgeSpec t with
        | none => .ok S
        | some S' => .ok S'
  | .graph => .panic

/-- `get_create_types` (pgs_builder.rs:48-74). -/
def buildStmts (D : Dates) : Schema → List Stmt → Parsed Schema
  | S, [] => .ok S
  | S, st :: rest =>
    match buildStmt D S st with
    | .ok S' => buildStmts D S' rest
    | .error => .error
    | .panic => .panic

/-- `PgsBuilder::parse_pgs` (pgs_builder.rs:38-45), after the parser. -/
def buildSchema (D : Dates) (p : List Stmt) : Parsed Schema := buildStmts D Schema.new p

/-! ## Graphs -/

/-- `identifier` (pg.rustemo:62-65): a bare word or a quoted string. -/
inductive SrcName where
  | bare (token : String)
  | quoted (token : String)
  deriving DecidableEq, Repr

/-- `identifier::as_str` (pg_builder.rs:172-179): one quote is taken from each side if both are there. -/
def SrcName.text : SrcName → String
  | .bare t => t
  | .quoted t =>
    match t.toList with
    | '"' :: cs => if cs.getLast? = some '"' then String.ofList cs.dropLast else t
    | _ => t

/-- `Values` (pg.rustemo:43-47). -/
inductive SrcValues where
  | single (v : SrcValue)
  | list (vs : List SrcValue)
  deriving DecidableEq, Repr

/-- The loop of `get_values` over a list (pg_builder.rs:128-134). -/
def buildValueList (D : Dates) : List SrcValue → Finset Value → Option (Finset Value)
  | [], acc => some acc
  | v :: rest, acc =>
    match buildValue D v with
    | none => none
    | some x => buildValueList D rest (insert x acc)

/-- `get_values` (pg_builder.rs:121-138). -/
def buildValues (D : Dates) : SrcValues → Option (Finset Value)
  | .single v => (buildValue D v).map fun x => {x}
  | .list vs => buildValueList D vs ∅

/-- `get_properties` (pg_builder.rs:106-113). -/
def buildRecord (D : Dates) : List (SrcName × SrcValues) → Record → Option Record
  | [], r => some r
  | (k, vs) :: rest, r =>
    match buildValues D vs with
    | none => none
    | some xs => buildRecord D rest (Record.insertValues r k.text xs)

/-- `LabelsRecord` (pg.rustemo:30-40). Simplified: labels that are left out are the empty list, and so are
properties. -/
structure SrcBody where
  labels : List SrcName
  props : List (SrcName × SrcValues)
  deriving DecidableEq, Repr

/-- `get_labels_record` and `get_labels` (pg_builder.rs:80-104). -/
def buildBody (D : Dates) (b : SrcBody) : Option (LabelSet × Record) :=
  (buildRecord D b.props ∅).map fun r => ((b.labels.map SrcName.text).toFinset, r)

/-- `Statement` (pg.rustemo:6-20). -/
inductive GStmt where
  | node (id : String) (body : SrcBody)
  | edge (id : Option String) (source : String) (body : SrcBody) (target : String)
  deriving DecidableEq, Repr

/-- `get_statement`, `get_node`, `get_edge` (pg_builder.rs:47-78). -/
def buildGStmt (D : Dates) (G : Graph) : GStmt → Option Graph
  | .node id b => (buildBody D b).map fun x => G.addNode id x.1 x.2
  | .edge id s b t =>
    match buildBody D b with
    | none => none
    | some x =>
      match G.addEdge id s x.1 x.2 t with
      | (G', true) => some G'
      | (_, false) => none

/-- `get_statements` (pg_builder.rs:40-45). -/
def buildGStmts (D : Dates) : Graph → List GStmt → Option Graph
  | G, [] => some G
  | G, st :: rest =>
    match buildGStmt D G st with
    | none => none
    | some G' => buildGStmts D G' rest

/-- `PgBuilder::parse_pg` (pg_builder.rs:30-37), after the parser. -/
def buildGraph (D : Dates) (p : List GStmt) : Option Graph := buildGStmts D Graph.new p

/-! ## Type maps -/

/-- `Association` (map.rustemo:5-6): `negated` is the presence of `!`. -/
structure SrcAssoc where
  nodeId : String
  negated : Bool
  typeName : String
  deriving DecidableEq, Repr

/-- `get_association` (map_builder.rs:38-47), with `Association::new`, `with_no_conform` and `add_association`
(../type_map.rs:35-38, 179-190). -/
def buildAssoc (m : List Assoc) (a : SrcAssoc) : List Assoc :=
  if a.negated then m ++ [⟨a.nodeId, a.typeName, false⟩] else m ++ [⟨a.nodeId, a.typeName, true⟩]

/-- `MapBuilder::parse_map` and `get_type_map` (map_builder.rs:21-36), after the parser. -/
def buildMap (as : List SrcAssoc) : List Assoc := as.foldl buildAssoc []

end Pg

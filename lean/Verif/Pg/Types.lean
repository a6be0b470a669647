import Mathlib.Data.List.AList
import Mathlib.Data.Finset.Card
import Mathlib.Data.Finset.Basic
import Mathlib.Data.Finset.Union

/-!
# Model: property graph values, cardinalities, conditions, record types and base types

Paths are relative to `pgschema/src`. Every `HashMap` and `BTreeMap` is an association list with distinct keys
(`HMap`), a `HashSet` of values or labels is a `Finset`, and a `HashSet` that is only searched and iterated is a list.
Messages inside errors and evidences are dropped: an error keeps its kind only.
-/

namespace Pg

/-- `HashMap<K, V>` and `BTreeMap<K, V>`; the iteration order is the order of the entries. -/
abbrev HMap (K V : Type) := AList (fun _ : K => V)

/-- `Value` (value.rs:9-15). An `i32` is an unbounded integer here (no arithmetic is done on it) and a date is its
number of days, which is what `time::Date` orders by. -/
inductive Value where
  | string (s : String)
  | integer (i : Int)
  | date (d : Int)
  | bool (b : Bool)
  deriving DecidableEq, Repr

/-- External behaviour: `Regex::new(pattern)` followed by `is_match`; `none` is a pattern that does not compile. -/
structure Ext where
  regex : String → String → Option Bool

/-- `Value::is_string` (value.rs:33-35). -/
def Value.isString : Value → Bool | .string _ => true | _ => false
/-- `Value::is_integer` (value.rs:45-47). -/
def Value.isInteger : Value → Bool | .integer _ => true | _ => false
/-- `Value::is_date` (value.rs:49-51). -/
def Value.isDate : Value → Bool | .date _ => true | _ => false
/-- `Value::is_bool` (value.rs:53-55). -/
def Value.isBool : Value → Bool | .bool _ => true | _ => false

/-- `Value::greater_than` (value.rs:57-67); `none` is the type mismatch error. -/
def Value.greaterThan : Value → Value → Option Bool
  | .integer i, .integer v => some (decide (i > v))
  | .date i, .date v => some (decide (i > v))
  | _, _ => none

/-- `Value::less_than` (value.rs:69-79). -/
def Value.lessThan : Value → Value → Option Bool
  | .integer i, .integer v => some (decide (i < v))
  | .date i, .date v => some (decide (i < v))
  | _, _ => none

/-- `Value::less_than_or_equal` (value.rs:81-91). -/
def Value.lessThanOrEqual : Value → Value → Option Bool
  | .integer i, .integer v => some (decide (i ≤ v))
  | .date i, .date v => some (decide (i ≤ v))
  | _, _ => none

/-- `Value::greater_than_or_equal` (value.rs:93-103). -/
def Value.greaterThanOrEqual : Value → Value → Option Bool
  | .integer i, .integer v => some (decide (i ≥ v))
  | .date i, .date v => some (decide (i ≥ v))
  | _, _ => none

/-- `Value::regex_match` (value.rs:105-122). -/
def Value.regexMatch (X : Ext) (pattern : String) : Value → Option Bool
  | .string s => X.regex pattern s
  | _ => none

/-- `Max` (card.rs:53-57). -/
inductive Max where
  | unbounded
  | bounded (n : Nat)
  deriving DecidableEq, Repr

/-- `Max::min` (card.rs:59-67). -/
def Max.min : Max → Max → Max
  | .unbounded, _ => .unbounded
  | _, .unbounded => .unbounded
  | .bounded a, .bounded b => .bounded (Nat.min a b)

/-- `Card` (card.rs:4-11). -/
inductive Card where
  | zeroOrOne
  | one
  | zeroOrMore
  | oneOrMore
  | range (min : Nat) (max : Max)
  deriving DecidableEq, Repr

/-- `Card::contains` (card.rs:17-28). -/
def Card.contains : Card → Nat → Bool
  | .zeroOrOne, n => decide (n ≤ 1)
  | .one, n => decide (n = 1)
  | .zeroOrMore, _ => true
  | .oneOrMore, n => decide (n ≥ 1)
  | .range min .unbounded, n => decide (n ≥ min)
  | .range min (.bounded max), n => decide (n ≥ min) && decide (n ≤ max)

/-- `Card::intersection` (card.rs:30-38). -/
def Card.intersection : Card → Card → Card
  | .zeroOrOne, _ => .zeroOrOne
  | _, .zeroOrOne => .zeroOrOne
  | .one, _ => .one
  | _, .one => .one
  | .zeroOrMore, _ => .zeroOrMore
  | _, .zeroOrMore => .zeroOrMore
  | .oneOrMore, _ => .oneOrMore
  | _, .oneOrMore => .oneOrMore
  | .range min1 max1, .range min2 max2 => .range (Nat.max min1 min2) (max1.min max2)

/-- `BooleanExpr` (boolean_expr.rs:5-18). -/
inductive BExpr where
  | tt
  | ff
  | and (a b : BExpr)
  | or (a b : BExpr)
  | not (a : BExpr)
  | equals (v : Value)
  | greaterThan (v : Value)
  | lessThan (v : Value)
  | greaterThanOrEqual (v : Value)
  | lessThanOrEqual (v : Value)
  | regex (pattern : String)
  deriving DecidableEq, Repr

/-- `BooleanExpr::check` (boolean_expr.rs:20-47); `none` is an error, and `?` passes it on. -/
def BExpr.check (X : Ext) : BExpr → Value → Option Bool
  | .and a b, v => do
    let x ← a.check X v
    let y ← b.check X v
    pure (x && y)
  | .or a b, v => do
    let x ← a.check X v
    let y ← b.check X v
    pure (x || y)
  | .not a, v => do
    let x ← a.check X v
    pure (!x)
  | .equals w, v => some (decide (v = w))
  | .greaterThan w, v => v.greaterThan w
  | .lessThan w, v => v.lessThan w
  | .greaterThanOrEqual w, v => v.greaterThanOrEqual w
  | .lessThanOrEqual w, v => v.lessThanOrEqual w
  | .regex p, v => v.regexMatch X p
  | .tt, _ => some true
  | .ff, _ => some false

/-- The kinds of `PgsError` (pgs_error.rs) that conformance returns. -/
inductive Err where
  | cardinality
  | predicate
  | condition
  | missingKeys
  | extraKeys
  | keyNotFound
  | labels
  | content
  | missingLabel (name : String)
  | missingType (name : String)
  | missingNodeId (id : Nat)
  deriving DecidableEq, Repr

/-- The kinds of `Evidence` (evidence.rs). -/
inductive Ev where
  | condition
  | any
  | labelsContent
  deriving DecidableEq, Repr

/-- `Either<Vec<PgsError>, Vec<Evidence>>`: `error` is `Left`, `ok` is `Right`. -/
abbrev Verdict := Except (List Err) (List Ev)

/-- `Either::is_right`. -/
def Verdict.isRight : Verdict → Bool
  | .ok _ => true
  | .error _ => false

/-- `ValueType` (value_type.rs:5-15). -/
inductive ValueType where
  | any
  | stringType (c : Card)
  | integerType (c : Card)
  | dateType (c : Card)
  | boolType (c : Card)
  | intersection (a b : ValueType)
  | union (a b : ValueType)
  | cond (e : BExpr)
  deriving DecidableEq, Repr

/-- `check_all` (value_type.rs:128-144) after the cardinality test (value_type.rs:43-51). -/
def cardAll (c : Card) (p : Value → Bool) (vs : Finset Value) : Verdict :=
  if !c.contains vs.card then .error [.cardinality]
  else if ∀ v ∈ vs, p v = true then .ok []
  else .error [.predicate]

/-- `ValueType::conforms` (value_type.rs:41-125). Simplified: a condition that fails and a condition that errors give
the same kind of error, so that the order in which the values are tried does not matter. -/
def ValueType.conforms (X : Ext) : ValueType → Finset Value → Verdict
  | .stringType c, vs => cardAll c Value.isString vs
  | .integerType c, vs => cardAll c Value.isInteger vs
  | .dateType c, vs => cardAll c Value.isDate vs
  | .boolType c, vs => cardAll c Value.isBool vs
  | .intersection a b, vs =>
    match a.conforms X vs, b.conforms X vs with
    | .error ea, .error eb => .error (ea ++ eb)
    | .error e, .ok _ => .error e
    | .ok _, .error e => .error e
    | .ok va, .ok vb => .ok (va ++ vb)
  | .union a b, vs =>
    match a.conforms X vs, b.conforms X vs with
    | .error ea, .error eb => .error (ea ++ eb)
    | .error _, .ok e => .ok e
    | .ok e, .error _ => .ok e
    | .ok va, .ok vb => .ok (va ++ vb)
  | .cond e, vs => if ∀ v ∈ vs, e.check X v = some true then .ok [.condition] else .error [.condition]
  | .any, _ => .ok [.any]

/-- `Record` (record.rs:7-10). -/
abbrev Record := HMap String (Finset Value)

/-- `Record::insert` and `Record::with_key_value` (record.rs:27-34). -/
def Record.insertValue (r : Record) (k : String) (v : Value) : Record :=
  AList.insert k (insert v ((AList.lookup k r).getD ∅)) r

/-- `Record::insert_values` (record.rs:36-38). -/
def Record.insertValues (r : Record) (k : String) (vs : Finset Value) : Record :=
  AList.insert k ((AList.lookup k r).getD ∅ ∪ vs) r

/-- `RecordType` (record_type.rs:11-15). -/
structure RecordType where
  map : HMap String ValueType
  isOpen : Bool

/-- `RecordType::new` and `RecordType::empty` (record_type.rs:27-42). -/
def RecordType.empty : RecordType := ⟨∅, false⟩

/-- `RecordType::with_open` (record_type.rs:34-37). -/
def RecordType.withOpen (t : RecordType) : RecordType := { t with isOpen := true }

/-- `RecordType::with_key_value` and `insert` (record_type.rs:45-48, 113-115). -/
def RecordType.withKeyValue (t : RecordType) (k : String) (v : ValueType) : RecordType :=
  { t with map := t.map.insert k v }

/-- The loop over the entries of a record type (record_type.rs:67-91). -/
def RecordType.loop (X : Ext) (isOpen : Bool) (r : Record) : List (Sigma fun _ : String => ValueType) → Verdict
  | [] => .ok []
  | ⟨k, t⟩ :: rest =>
    match AList.lookup k r with
    | some vs =>
      match t.conforms X vs with
      | .error e => .error e
      | .ok _ => loop X isOpen r rest
    | none => if !isOpen then .error [.keyNotFound] else loop X isOpen r rest

/-- `RecordType::conforms` and `compare_keys` (record_type.rs:51-92, 130-150). -/
def RecordType.conforms (X : Ext) (t : RecordType) (r : Record) : Verdict :=
  if !(t.map.keys.filter fun k => decide (k ∉ r.keys)).isEmpty then .error [.missingKeys]
  else if !(r.keys.filter fun k => decide (k ∉ t.map.keys)).isEmpty && !t.isOpen then .error [.extraKeys]
  else RecordType.loop X t.isOpen r t.map.entries

/-- One iteration of the first loop of `RecordType::combine` (record_type.rs:96-103). -/
def RecordType.leftStep (b m : HMap String ValueType) (e : Sigma fun _ : String => ValueType) : HMap String ValueType :=
  match b.lookup e.1 with
  | some t => m.insert e.1 (.intersection e.2 t)
  | none => m.insert e.1 e.2

/-- One iteration of the second loop of `RecordType::combine` (record_type.rs:104-108). -/
def RecordType.rightStep (a m : HMap String ValueType) (e : Sigma fun _ : String => ValueType) :
    HMap String ValueType :=
  if e.1 ∈ a.keys then m else m.insert e.1 e.2

/-- `RecordType::combine` (record_type.rs:94-110). The result is closed. -/
def RecordType.combine (a b : RecordType) : RecordType :=
  ⟨b.map.entries.foldl (RecordType.rightStep a.map) (a.map.entries.foldl (RecordType.leftStep b.map) ∅), false⟩

/-- `LabelSet` (label_set.rs:8-11). -/
abbrev LabelSet := Finset String

/-- `FormalBaseType` (formal_base_type.rs:12-17). -/
structure BaseType where
  labels : List LabelSet
  openLabels : Bool
  content : List RecordType

/-- `FormalBaseType::new` (formal_base_type.rs:27-33). -/
def BaseType.new : BaseType := ⟨[], false, []⟩

/-- `FormalBaseType::with_open` (formal_base_type.rs:35-38). -/
def BaseType.withOpen (t : BaseType) : BaseType := { t with openLabels := true }

/-- `FormalBaseType::conforms` (formal_base_type.rs:62-106). -/
def BaseType.conforms (X : Ext) (t : BaseType) (ls : LabelSet) (r : Record) : Verdict :=
  if !decide (ls ∈ t.labels) then .error [.labels]
  else if t.content.any fun rt => (rt.conforms X r).isRight then .ok [.labelsContent]
  else .error [.content]

/-- `FormalBaseType::from_label` (formal_base_type.rs:109-113). -/
def BaseType.fromLabel (l : String) : BaseType := ⟨[{l}], false, [RecordType.empty]⟩

/-- `FormalBaseType::type_0` (formal_base_type.rs:147-155). -/
def BaseType.type0 : BaseType := ⟨[], false, [RecordType.empty]⟩

/-- `FormalBaseType::union` (formal_base_type.rs:123-130). -/
def BaseType.union (a b : BaseType) : BaseType := ⟨a.labels ++ b.labels, false, a.content ++ b.content⟩

/-- `combine_label_sets` (formal_base_type.rs:162-178). -/
def combineLabelSets (a b : List LabelSet) : List LabelSet :=
  if a.isEmpty then b else if b.isEmpty then a else a.flatMap fun x => b.map fun y => x ∪ y

/-- `combine_set_records` (formal_base_type.rs:180-195). -/
def combineSetRecords (a b : List RecordType) : List RecordType :=
  if a.isEmpty then b else if b.isEmpty then a else a.flatMap fun x => b.map fun y => x.combine y

/-- `FormalBaseType::combine` and `combine_openness` (formal_base_type.rs:132-145, 158-160). -/
def BaseType.combine (a b : BaseType) : BaseType :=
  ⟨combineLabelSets a.labels b.labels, a.openLabels || b.openLabels, combineSetRecords a.content b.content⟩

/-- `Type` and `TypeSpec` (property_value_spec.rs:141-144, 206-212). -/
inductive TypeSpec where
  | conj (a b : TypeSpec)
  | disj (a b : TypeSpec)
  | value (t : ValueType)
  | cond (t : ValueType) (e : BExpr)
  deriving DecidableEq, Repr

/-- `Type::to_value_type` (property_value_spec.rs:214-230). -/
def TypeSpec.toValueType : TypeSpec → ValueType
  | .value t => t
  | .conj a b => .intersection a.toValueType b.toValueType
  | .disj a b => .union a.toValueType b.toValueType
  | .cond t e => .intersection t (.cond e)

/-- `PropertyValue` (property_value_spec.rs:39-46). -/
inductive PropValue where
  | eachOf (a b : PropValue)
  | oneOf (a b : PropValue)
  | property (k : String) (t : TypeSpec)
  | optionalProperty (k : String) (t : TypeSpec)
  | empty
  deriving DecidableEq, Repr

/-- `PropertyValue::semantics`, `combine_semantics_sets`, `union_semantics_sets`
(property_value_spec.rs:69-92, 109-128). -/
def PropValue.semantics : PropValue → List RecordType
  | .eachOf a b => a.semantics.flatMap fun l => b.semantics.map fun r => l.combine r
  | .oneOf a b => a.semantics ++ b.semantics
  | .property k t => [RecordType.empty.withKeyValue k t.toValueType]
  | .optionalProperty k t => [RecordType.empty.withKeyValue k t.toValueType, RecordType.empty]
  | .empty => []

/-- `PropertyValueSpec` (property_value_spec.rs:12-16). -/
inductive PropSpec where
  | closed (p : PropValue)
  | opened (p : PropValue)
  deriving DecidableEq, Repr

/-- `PropertyValueSpec::semantics` (property_value_spec.rs:27-36). -/
def PropSpec.semantics : PropSpec → BaseType
  | .closed p => { BaseType.new with content := p.semantics }
  | .opened p => { BaseType.new with content := p.semantics.map RecordType.withOpen }

/-- `LabelPropertySpec` (label_property_spec.rs:12-22). `EdgeLabelPropertySpec` is a wrapper around it
(edge_label_property_spec.rs:9-23). -/
inductive Spec where
  | empty
  | label (l : String)
  | ref (name : String)
  | optional (s : Spec)
  | and (a b : Spec)
  | or (a b : Spec)
  | opened (s : Spec)
  | content (s : Spec) (p : PropSpec)
  deriving DecidableEq, Repr

/-- `EdgeType` (edge_type.rs:8-13). -/
structure EdgeType where
  source : Spec
  edge : Spec
  target : Spec

/-- `PropertyGraphSchema` (pgs.rs:11-18). -/
structure Schema where
  nodeTypes : HMap Nat Spec
  edgeTypes : HMap Nat EdgeType
  nodeNames : HMap String Nat
  edgeNames : HMap String Nat
  nodeCounter : Nat
  edgeCounter : Nat

/-- `PropertyGraphSchema::new` (pgs.rs:27-36). -/
def Schema.new : Schema := ⟨∅, ∅, ∅, ∅, 0, 0⟩

/-- `PropertyGraphSchema::get_node_semantics` (pgs.rs:48-55). -/
def Schema.getNodeSemantics (S : Schema) (name : String) : Except Err Spec :=
  match S.nodeNames.lookup name with
  | none => .error (.missingLabel name)
  | some id =>
    match S.nodeTypes.lookup id with
    | none => .error (.missingType name)
    | some s => .ok s

/-- `PropertyGraphSchema::add_node_spec` (pgs.rs:93-99). -/
def Schema.addNodeSpec (S : Schema) (name : String) (s : Spec) : Schema :=
  { S with
    nodeTypes := S.nodeTypes.insert S.nodeCounter s
    nodeNames := S.nodeNames.insert name S.nodeCounter
    nodeCounter := S.nodeCounter + 1 }

/-- `PropertyGraphSchema::add_edge_spec` (pgs.rs:116-134); `none` is the duplicate name error. -/
def Schema.addEdgeSpec (S : Schema) (name : String) (t : EdgeType) : Option Schema :=
  if name ∈ S.edgeNames.keys then none
  else some { S with
    edgeTypes := S.edgeTypes.insert S.edgeCounter t
    edgeNames := S.edgeNames.insert name S.edgeCounter
    edgeCounter := S.edgeCounter + 1 }

/-- `LabelPropertySpec::semantics` (label_property_spec.rs:58-91). The recursion through `Ref` is not structural: the
fuel is the depth of the stack, and `none` is running out of it. -/
def Spec.semantics (S : Schema) : Nat → Spec → Option (Except Err BaseType)
  | 0, _ => none
  | n + 1, s =>
    match s with
    | .empty => some (.ok BaseType.type0)
    | .label l => some (.ok (BaseType.fromLabel l))
    | .ref name =>
      match S.getNodeSemantics name with
      | .error e => some (.error e)
      | .ok s => Spec.semantics S n s
    | .optional s =>
      match Spec.semantics S n s with
      | some (.ok t) => some (.ok (t.union BaseType.type0))
      | other => other
    | .and a b =>
      match Spec.semantics S n a with
      | some (.ok t) =>
        match Spec.semantics S n b with
        | some (.ok u) => some (.ok (t.combine u))
        | other => other
      | other => other
    | .or a b =>
      match Spec.semantics S n a with
      | some (.ok t) =>
        match Spec.semantics S n b with
        | some (.ok u) => some (.ok (t.union u))
        | other => other
      | other => other
    | .opened s =>
      match Spec.semantics S n s with
      | some (.ok t) => some (.ok t.withOpen)
      | other => other
    | .content s p =>
      match Spec.semantics S n s with
      | some (.ok t) => some (.ok (t.combine p.semantics))
      | other => other

end Pg

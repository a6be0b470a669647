import Verif.Prefix.Model

/-!
# Model: reading DCTAP tables

dctap/src: tap_reader.rs, tap_reader_state.rs, tap_headers.rs, tap_shape.rs, tap_statement.rs,
node_type.rs, value_constraint.rs, placeholder_resolver.rs and `DCTap::from_reader` (dctap.rs).

Strings are lists of characters. What the standard library says about characters (`char::is_whitespace`
and `str::to_uppercase`) is a parameter. The csv crate (or the spreadsheet range of reader_range.rs) is
the list of the records it delivers, each with the line `position()` shows before it is read, and with an
error in the place of a record which it refuses. Tracing calls are left out. Line numbers and the
counters of the placeholders are natural numbers where the code has `u64`.
-/

namespace Tap

/-- A string. -/
abbrev Str := List Char

/-- What the standard library says about characters and upper case. -/
structure Text where
  /-- `char::is_whitespace` -/
  ws : Char → Bool
  /-- `str::to_uppercase` -/
  upper : Str → Str

/-- `str::trim`. -/
def trim (T : Text) (s : Str) : Str := Prefix.trim T.ws s

/-- `str::split` at a character. -/
def split (c : Char) : Str → List Str
  | [] => [[]]
  | x :: xs =>
    if x = c then [] :: split c xs
    else
      match split c xs with
      | [] => [[x]]
      | p :: ps => (x :: p) :: ps

/-- `str::split_terminator`: as `split`, without the last piece if that is empty. -/
def splitTerminator (c : Char) (s : Str) : List Str :=
  if (split c s).getLast? = some [] then (split c s).dropLast else split c s

/-- `str::replace(s, "\n", " ")`. -/
def noNewline (s : Str) : Str := s.map fun c => if c = '\n' then ' ' else c

/-- `csv::StringRecord`. -/
abbrev Record := List Str

/-! ## Headers -/

/-- `struct TapHeaders` (tap_headers.rs:5-22). -/
structure Headers where
  shapeId : Option Nat := none
  shapeLabel : Option Nat := none
  propertyId : Option Nat := none
  propertyLabel : Option Nat := none
  repeatable : Option Nat := none
  mandatory : Option Nat := none
  valueDatatype : Option Nat := none
  valueNodetype : Option Nat := none
  valueShape : Option Nat := none
  valueConstraint : Option Nat := none
  valueConstraintType : Option Nat := none
  note : Option Nat := none
  extendsId : Option Nat := none
  extendsLabel : Option Nat := none

/-- `clean` (tap_headers.rs:131-133). -/
def clean (T : Text) (s : Str) : Str := T.upper (trim T s)

/-- One turn of the loop of `from_record` (tap_headers.rs:45-65). -/
def headerStep (T : Text) (h : Headers) (idx : Nat) (field : Str) : Headers :=
  let k := clean T field
  if k = "SHAPEID".toList then { h with shapeId := some idx }
  else if k = "PROPERTYID".toList then { h with propertyId := some idx }
  else if k = "PROPERTYLABEL".toList then { h with propertyLabel := some idx }
  else if k = "SHAPELABEL".toList then { h with shapeLabel := some idx }
  else if k = "REPEATABLE".toList then { h with repeatable := some idx }
  else if k = "MANDATORY".toList then { h with mandatory := some idx }
  else if k = "VALUEDATATYPE".toList then { h with valueDatatype := some idx }
  else if k = "VALUESHAPE".toList then { h with valueShape := some idx }
  else if k = "VALUENODETYPE".toList then { h with valueNodetype := some idx }
  else if k = "VALUECONSTRAINT".toList then { h with valueConstraint := some idx }
  else if k = "VALUECONSTRAINTTYPE".toList then { h with valueConstraintType := some idx }
  else if k = "NOTE".toList then { h with note := some idx }
  else if k = "EXTENDSID".toList then { h with extendsId := some idx }
  else if k = "EXTENDSLABEL".toList then { h with extendsLabel := some idx }
  else h

/-- The loop of `from_record` from column `idx` on. -/
def headersFrom (T : Text) : Headers → Nat → List Str → Headers
  | h, _, [] => h
  | h, idx, f :: fs => headersFrom T (headerStep T h idx f) (idx + 1) fs

/-- `TapHeaders::from_record` (tap_headers.rs:29-82). -/
def headersOf (T : Text) (r : Record) : Headers := headersFrom T {} 0 r

/-- The accessors of `TapHeaders` (tap_headers.rs:84-137): the cell of a record in the column, if any. -/
def cellAt (idx : Option Nat) (r : Record) : Option Str := idx.bind fun i => r[i]?

/-! ## Statements and shapes -/

/-- `ShapeId`, `DatatypeId` and `PropertyId`: a string and the line it comes from. -/
structure Id where
  str : Str
  line : Nat
  deriving DecidableEq

/-- `PropertyId::new` (property_id.rs:12-17). -/
def propertyId (s : Str) (line : Nat) : Id := ⟨noNewline s, line⟩

/-- `ExtendsId` (extends_id.rs:6-10). -/
structure ExtendsId where
  str : Str
  label : Option Str
  line : Nat
  deriving DecidableEq

/-- `enum BasicNodeType` (node_type.rs:11-16). -/
inductive Basic
  | iri | bnode | literal
  deriving DecidableEq

/-- `enum NodeType` (node_type.rs:5-9). -/
inductive NodeType
  | basic (b : Basic)
  | or (bs : List Basic)
  deriving DecidableEq

/-- `merge_node_type` (node_type.rs:19-47). -/
def NodeType.merge : NodeType → NodeType → NodeType
  | .basic b, .basic c => .or [b, c]
  | .basic b, .or ns => .or (b :: ns)
  | .or vs, .basic b => .or (vs ++ [b])
  | .or vs, .or ts => .or (vs ++ ts)

/-- `enum Value` (value_constraint.rs:50-54). -/
inductive Val
  | iri (i : Str)
  | str (s : Str)
  deriving DecidableEq

/-- `enum ValueConstraint` (value_constraint.rs:6-18): the eight kinds which no reader builds are one
constructor. -/
inductive Constraint
  | picklist (vs : List Val)
  | pattern (s : Str)
  | other
  deriving DecidableEq

/-- `enum ValueConstraintType` (value_constraint.rs:72-88) as far as the reader tells the kinds apart. -/
inductive ConstraintType
  | picklist | pattern | ignored
  deriving DecidableEq

/-- `struct TapStatement` (tap_statement.rs:6-37). -/
structure Statement where
  property : Id
  label : Option Str := none
  mandatory : Option Bool := none
  repeatable : Option Bool := none
  nodetype : Option NodeType := none
  datatypes : List Id := []
  constraint : Option Constraint := none
  shape : Option Id := none
  note : Option Str := none
  line : Option Nat := none
  deriving DecidableEq

/-- `struct TapShape` (tap_shape.rs:8-20). -/
structure Shape where
  id : Option Id := none
  label : Option Str := none
  statements : List Statement := []
  extends_ : List ExtendsId := []
  startLine : Nat := 0
  deriving DecidableEq

namespace Shape

/-- `set_shape_id` (tap_shape.rs:45-49). -/
def setId (s : Shape) (i : Id) : Shape := { s with id := some i, statements := [] }

/-- `set_shape_label` (tap_shape.rs:51-55). -/
def setLabel (s : Shape) (l : Str) : Shape := { s with label := some l, statements := [] }

/-- `add_extends_id` (tap_shape.rs:69-71). -/
def addExtendsId (s : Shape) (i : Str) (line : Nat) : Shape :=
  { s with extends_ := s.extends_ ++ [⟨i, none, line⟩] }

/-- `add_extends_label` (tap_shape.rs:57-67): `none` is the warning. -/
def addExtendsLabel (s : Shape) (l : Str) : Option Shape :=
  match s.extends_ with
  | [] => none
  | e :: es => some { s with extends_ := { e with label := some l } :: es }

/-- `add_statement` (tap_shape.rs:77-79). -/
def addStatement (s : Shape) (st : Statement) : Shape := { s with statements := s.statements ++ [st] }

end Shape

/-! ## The reader -/

/-- `TapReaderWarning` (tap_reader_warning.rs:5-11). -/
inductive Warning
  | emptyProperty (line : Nat)
  | extendsLabelWithoutExtendsId (label : Str) (line : Nat)
  deriving DecidableEq

/-- The errors of `TapError` (tap_error.rs) which the reader returns. -/
inductive Err
  | csv (line : Nat)
  | shouldBeBoolean (field : Str) (value : Str) (line : Nat)
  | unexpectedNodeType (str : Str) (line : Nat)
  deriving DecidableEq

/-- What the reader takes from `TapConfig` (tap_config.rs:9-64). The placeholders are a function, since
only `get` is used; a placeholder is its stem (placeholder_resolver.rs:6-9). -/
structure Config where
  picklistDelimiter : Char := '|'
  propertyPlaceholders : Str → Option Str := fun _ => none
  emptyPropertyPlaceholder : Option Str := none

/-- `get_property_placeholder` (tap_config.rs:151-156). -/
def Config.placeholder (c : Config) (k : Str) : Option Str :=
  if k = [] then c.emptyPropertyPlaceholder else c.propertyPlaceholders k

/-- One record of the source, or an error in its place, with the line before it is read. -/
structure Item where
  line : Nat
  row : Option Record

/-- `struct TapReaderState` (tap_reader_state.rs:7-14) with the rest of the source. -/
structure State where
  current : Shape := {}
  cached : Option (Record × Nat) := none
  headers : Headers
  ids : List (Str × Nat) := []
  warnings : List Warning := []
  src : List Item

/-- `HashMap::get` of the counters. -/
def lookupId (k : Str) : List (Str × Nat) → Option Nat
  | [] => none
  | e :: es => if e.1 = k then some e.2 else lookupId k es

/-- `placeholder_id` (tap_reader_state.rs:59-72): the value and the counters afterwards. -/
def placeholderId (ids : List (Str × Nat)) (k : Str) : Nat × List (Str × Nat) :=
  match lookupId k ids with
  | some v => (v + 1, (k, v + 1) :: ids)
  | none => (0, (k, 0) :: ids)

/-- `PlaceholderResolver::generate` (placeholder_resolver.rs:20-24). -/
def generate (stem : Str) (n : Nat) : Str := stem ++ Nat.toDigits 10 n

/-- `generate_property_id` (tap_reader.rs:225-234). -/
def generatePropertyId (st : State) (value stem : Str) (line : Nat) : Option Id × State :=
  let (n, ids) := placeholderId st.ids value
  (some (propertyId (generate stem n) line), { st with ids := ids })

/-- `add_warning` (tap_reader_state.rs:82-84). -/
def State.warn (st : State) (w : Warning) : State := { st with warnings := st.warnings ++ [w] }

/-- `get_property_id` (tap_reader.rs:185-223). -/
def getPropertyId (T : Text) (cfg : Config) (st : State) (r : Record) (line : Nat) : Option Id × State :=
  match cellAt st.headers.propertyId r with
  | some s =>
    if s = [] then
      match cellAt st.headers.propertyLabel r with
      | some l =>
        if l = [] then (none, st.warn (.emptyProperty line))
        else
          match cfg.emptyPropertyPlaceholder with
          | some stem => generatePropertyId st [] stem line
          | none => (none, st)
      | none => (none, st.warn (.emptyProperty line))
    else
      match cfg.placeholder s with
      | some stem => generatePropertyId st (trim T s) stem line
      | none => (some (propertyId (trim T s) line), st)
  | none => (none, st)

/-- `strip_whitespace` (tap_reader.rs:460-463). -/
def stripWhitespace (T : Text) (s : Str) : Option Str := if trim T s = [] then none else some (trim T s)

/-- `get_strs` (tap_reader.rs:465-467). -/
def getStrs (s : Str) : List Str := (split ' ' s).filter fun x => x ≠ []

/-- `parse_boolean` (tap_reader.rs:439-454). -/
def parseBoolean (T : Text) (s : Str) (field : Str) (line : Nat) : Except Err Bool :=
  let k := T.upper (trim T s)
  if k = "".toList then .ok false
  else if k = "YES".toList then .ok true
  else if k = "NO".toList then .ok false
  else if k = "TRUE".toList then .ok true
  else if k = "FALSE".toList then .ok false
  else if k = "1".toList then .ok true
  else if k = "0".toList then .ok false
  else .error (.shouldBeBoolean field s line)

/-- `parse_node_type` (tap_reader.rs:416-427). -/
def parseNodeType (T : Text) (s : Str) (line : Nat) : Except Err NodeType :=
  let k := T.upper s
  if k = "URI".toList then .ok (.basic .iri)
  else if k = "IRI".toList then .ok (.basic .iri)
  else if k = "BNODE".toList then .ok (.basic .bnode)
  else if k = "LITERAL".toList then .ok (.basic .literal)
  else .error (.unexpectedNodeType s line)

/-- `read_property_label` (tap_reader.rs:253-260). -/
def readPropertyLabel (T : Text) (h : Headers) (r : Record) (s : Statement) : Statement :=
  match cellAt h.propertyLabel r with
  | some l =>
    match stripWhitespace T l with
    | some c => { s with label := some (noNewline c) }
    | none => s
  | none => s

/-- `read_mandatory` (tap_reader.rs:383-389). -/
def readMandatory (T : Text) (h : Headers) (r : Record) (line : Nat) (s : Statement) :
    Except Err Statement :=
  match cellAt h.mandatory r with
  | some c =>
    match parseBoolean T c "mandatory".toList line with
    | .ok b => .ok { s with mandatory := some b }
    | .error e => .error e
  | none => .ok s

/-- `read_repeatable` (tap_reader.rs:391-397). -/
def readRepeatable (T : Text) (h : Headers) (r : Record) (line : Nat) (s : Statement) :
    Except Err Statement :=
  match cellAt h.repeatable r with
  | some c =>
    match parseBoolean T c "repeatable".toList line with
    | .ok b => .ok { s with repeatable := some b }
    | .error e => .error e
  | none => .ok s

/-- The loop of `read_value_nodetype` (tap_reader.rs:301-308). -/
def nodetypeLoop (T : Text) (line : Nat) : Option NodeType → List Str → Except Err (Option NodeType)
  | cur, [] => .ok cur
  | cur, s :: ss =>
    match parseNodeType T s line with
    | .error e => .error e
    | .ok n =>
      match cur with
      | some m => nodetypeLoop T line (some (m.merge n)) ss
      | none => nodetypeLoop T line (some n) ss

/-- `read_value_nodetype` (tap_reader.rs:299-318). -/
def readValueNodetype (T : Text) (h : Headers) (r : Record) (line : Nat) (s : Statement) :
    Except Err Statement :=
  match cellAt h.valueNodetype r with
  | some c =>
    match nodetypeLoop T line none (getStrs c) with
    | .error e => .error e
    | .ok (some n) => .ok { s with nodetype := some n }
    | .ok none => .ok s
  | none => .ok s

/-- `read_value_datatype` (tap_reader.rs:290-297). -/
def readValueDatatype (T : Text) (h : Headers) (r : Record) (line : Nat) (s : Statement) : Statement :=
  match cellAt h.valueDatatype r with
  | some c =>
    match stripWhitespace T c with
    | some k => { s with datatypes := (getStrs k).map fun d => ⟨d, line⟩ }
    | none => s
  | none => s

/-- `read_value_shape` (tap_reader.rs:320-327). -/
def readValueShape (T : Text) (h : Headers) (r : Record) (line : Nat) (s : Statement) : Statement :=
  match cellAt h.valueShape r with
  | some c =>
    match stripWhitespace T c with
    | some k => { s with shape := some ⟨k, line⟩ }
    | none => s
  | none => s

/-- `read_value_constraint_type` (tap_reader.rs:353-381). It never fails. -/
def readConstraintType (T : Text) (h : Headers) (r : Record) : ConstraintType :=
  match cellAt h.valueConstraintType r with
  | some c =>
    match stripWhitespace T c with
    | some k =>
      if T.upper k = "PICKLIST".toList then .picklist
      else if T.upper k = "PATTERN".toList then .pattern
      else .ignored
    | none => .picklist
  | none => .picklist

/-- `parse_values` (tap_reader.rs:456-458). -/
def parseValues (s : Str) (delim : Char) : List Val := (splitTerminator delim s).map .str

/-- `read_value_constraint` (tap_reader.rs:329-351). -/
def readValueConstraint (T : Text) (cfg : Config) (h : Headers) (r : Record) (s : Statement) : Statement :=
  match cellAt h.valueConstraint r with
  | some c =>
    match readConstraintType T h r with
    | .picklist =>
      if parseValues c cfg.picklistDelimiter = [] then s
      else { s with constraint := some (.picklist (parseValues c cfg.picklistDelimiter)) }
    | .pattern => { s with constraint := some (.pattern c) }
    | .ignored => s
  | none => s

/-- `read_note` (tap_reader.rs:262-268). -/
def readNote (h : Headers) (r : Record) (s : Statement) : Statement :=
  match cellAt h.note r with
  | some c => if c = [] then s else { s with note := some c }
  | none => s

/-- The end of `record2statement`, from the datatypes on (tap_reader.rs:243-247). -/
def fillEnd (T : Text) (cfg : Config) (h : Headers) (r : Record) (line : Nat) (s : Statement) : Statement :=
  let s := readValueDatatype T h r line s
  let s := readValueShape T h r line s
  let s := readValueConstraint T cfg h r s
  readNote h r s

/-- `record2statement` from the node type on (tap_reader.rs:242-247). -/
def fillNodetype (T : Text) (cfg : Config) (h : Headers) (r : Record) (line : Nat) (s : Statement) :
    Except Err Statement :=
  match readValueNodetype T h r line s with
  | .error e => .error e
  | .ok s => .ok (fillEnd T cfg h r line s)

/-- `record2statement` from `repeatable` on (tap_reader.rs:241-247). -/
def fillRepeatable (T : Text) (cfg : Config) (h : Headers) (r : Record) (line : Nat) (s : Statement) :
    Except Err Statement :=
  match readRepeatable T h r line s with
  | .error e => .error e
  | .ok s => fillNodetype T cfg h r line s

/-- The body of `record2statement` once there is a property (tap_reader.rs:238-247). -/
def fillStatement (T : Text) (cfg : Config) (h : Headers) (r : Record) (line : Nat) (p : Id) :
    Except Err Statement :=
  let s : Statement := { property := p, line := some line }
  let s := readPropertyLabel T h r s
  match readMandatory T h r line s with
  | .error e => .error e
  | .ok s => fillRepeatable T cfg h r line s

/-- `record2statement` (tap_reader.rs:236-251). -/
def record2statement (T : Text) (cfg : Config) (st : State) (r : Record) (line : Nat) :
    Except Err (Option Statement × State) :=
  match getPropertyId T cfg st r line with
  | (some p, st) =>
    match fillStatement T cfg st.headers r line p with
    | .error e => .error e
    | .ok s => .ok (some s, st)
  | (none, st) => .ok (none, st)

/-- `record2statement` and `add_statement` as `read_shape` does them (tap_reader.rs:106-109, 111-114). -/
def addRow (T : Text) (cfg : Config) (st : State) (r : Record) (line : Nat) : Except Err State :=
  match record2statement T cfg st r line with
  | .error e => .error e
  | .ok (some s, st) => .ok { st with current := st.current.addStatement s }
  | .ok (none, st) => .ok st

/-- `get_shape_id` (tap_reader.rs:161-168). -/
def getShapeId (T : Text) (h : Headers) (r : Record) (line : Nat) : Option Id :=
  (cellAt h.shapeId r).map fun s => ⟨trim T s, line⟩

/-- `read_shape_label` (tap_reader.rs:170-183). -/
def readShapeLabel (T : Text) (st : State) (r : Record) : State :=
  match cellAt st.headers.shapeLabel r with
  | some s => { st with current := st.current.setLabel (trim T s) }
  | none => st

/-- `read_extends_id` (tap_reader.rs:270-277). -/
def readExtendsId (T : Text) (st : State) (r : Record) (line : Nat) : State :=
  match cellAt st.headers.extendsId r with
  | some s =>
    match stripWhitespace T s with
    | some c => { st with current := st.current.addExtendsId c line }
    | none => st
  | none => st

/-- `read_extends_label` (tap_reader.rs:279-288). -/
def readExtendsLabel (st : State) (r : Record) (line : Nat) : State :=
  match cellAt st.headers.extendsLabel r with
  | some s =>
    if s = [] then st
    else
      match st.current.addExtendsLabel s with
      | some c => { st with current := c }
      | none => st.warn (.extendsLabelWithoutExtendsId s line)
  | none => st

/-- `is_empty_record` (tap_reader.rs:412-414). -/
def isEmptyRecord (T : Text) (r : Record) : Bool := r.all fun f => trim T f = []

/-- `same_shape_id` (tap_reader.rs:429-437). -/
def sameShapeId : Option Id → Option Id → Bool
  | none, none => true
  | some _, none => true
  | some a, some b => if b.str = [] then true else a.str = b.str
  | none, some _ => false

/-- `next_record` (tap_reader.rs:120-132). -/
def nextRecord (st : State) : Except Err (Option (Record × Nat) × State) :=
  match st.cached with
  | some c => .ok (some c, st)
  | none =>
    match st.src with
    | [] => .ok (none, st)
    | i :: rest =>
      match i.row with
      | none => .error (.csv i.line)
      | some r => .ok (some (r, i.line), { st with src := rest })

/-- The loop at the start of `read_shape` (tap_reader.rs:87-97), with fuel for its turns. -/
def firstRecord (T : Text) : Nat → State → Except Err (Option (Record × Nat) × State)
  | 0, st => .ok (none, st)
  | n + 1, st =>
    match nextRecord st with
    | .error e => .error e
    | .ok (none, st) => .ok (none, st)
    | .ok (some (r, line), st) =>
      let st := { st with cached := none }
      if isEmptyRecord T r then firstRecord T n st else .ok (some (r, line), st)

/-- The loop of `read_shape` over the further rows of a shape with `next_record_with_id`
(tap_reader.rs:110-115, 134-149), along the rest of the source. -/
def rowsLoop (T : Text) (cfg : Config) (id : Option Id) : List Item → State → Except Err State
  | [], st => .ok { st with src := [] }
  | i :: rest, st =>
    match i.row with
    | none => .error (.csv i.line)
    | some r =>
      if sameShapeId id (getShapeId T st.headers r i.line) then
        match addRow T cfg st r i.line with
        | .error e => .error e
        | .ok st => rowsLoop T cfg id rest st
      else .ok { st with src := rest, cached := some (r, i.line) }

/-- The identifier of a new shape in `read_shape` (tap_reader.rs:98-103). -/
def startId (T : Text) (st : State) (r : Record) (line : Nat) : State :=
  match getShapeId T st.headers r line with
  | some i => { st with current := { st.current.setId i with startLine := line, extends_ := [] } }
  | none => st

/-- The beginning of a shape in `read_shape` (tap_reader.rs:98-106). -/
def startShape (T : Text) (st : State) (r : Record) (line : Nat) : State :=
  readExtendsLabel (readExtendsId T (readShapeLabel T (startId T st r line) r) r line) r line

/-- `read_shape` (tap_reader.rs:85-118): `none` is `Ok(false)`. -/
def readShape (T : Text) (cfg : Config) (st : State) : Except Err (Option State) :=
  match firstRecord T (st.src.length + 2) st with
  | .error e => .error e
  | .ok (none, _) => .ok none
  | .ok (some (r, line), st) =>
    match addRow T cfg (startShape T st r line) r line with
    | .error e => .error e
    | .ok st =>
      match rowsLoop T cfg (getShapeId T st.headers r line) st.src st with
      | .error e => .error e
      | .ok st => .ok (some st)

/-- The loop of `DCTap::from_reader` over `ShapesIter` (dctap.rs:62-65, tap_reader.rs:487-499), with fuel
for the shapes: the shapes and the warnings. -/
def shapesLoop (T : Text) (cfg : Config) : Nat → State → Except Err (List Shape × List Warning)
  | 0, st => .ok ([], st.warnings)
  | n + 1, st =>
    match readShape T cfg st with
    | .error e => .error e
    | .ok none => .ok ([], st.warnings)
    | .ok (some st) =>
      match shapesLoop T cfg n st with
      | .error e => .error e
      | .ok (ss, ws) => .ok (st.current :: ss, ws)

/-- `DCTap::from_reader` with `TapReaderBuilder::from_reader` (dctap.rs:58-67, tap_reader_builder.rs):
the table is the record of the headers and the records below it. The warnings are those of
`TapReader::warnings` at the end. -/
def fromReader (T : Text) (cfg : Config) (header : Record) (items : List Item) :
    Except Err (List Shape × List Warning) :=
  shapesLoop T cfg (items.length + 1) { headers := headersOf T header, src := items }

end Tap

import Verif.Tap.Model
import Mathlib.Data.List.SplitBy
import Mathlib.Data.List.SplitOn

/-!
# Specification: what a DCTAP table says

A table is a row of headers and the rows below it. The cells of a row are found by the names of the
columns, the rows are divided into shapes by the names in the column of shape identifiers, and each row
with a property is a statement of its shape. Nothing here keeps a state from row to row.
-/

namespace Tap

/-- The columns with a meaning. -/
inductive Col
  | shapeId | shapeLabel | propertyId | propertyLabel | repeatable | mandatory | valueDatatype
  | valueNodetype | valueShape | valueConstraint | valueConstraintType | note | extendsId | extendsLabel
  deriving DecidableEq

/-- How the header of a column reads in upper case. -/
def Col.name : Col → Str
  | .shapeId => "SHAPEID".toList
  | .shapeLabel => "SHAPELABEL".toList
  | .propertyId => "PROPERTYID".toList
  | .propertyLabel => "PROPERTYLABEL".toList
  | .repeatable => "REPEATABLE".toList
  | .mandatory => "MANDATORY".toList
  | .valueDatatype => "VALUEDATATYPE".toList
  | .valueNodetype => "VALUENODETYPE".toList
  | .valueShape => "VALUESHAPE".toList
  | .valueConstraint => "VALUECONSTRAINT".toList
  | .valueConstraintType => "VALUECONSTRAINTTYPE".toList
  | .note => "NOTE".toList
  | .extendsId => "EXTENDSID".toList
  | .extendsLabel => "EXTENDSLABEL".toList

namespace Spec

variable (T : Text) (cfg : Config) (header : Record)

/-- The place of a column: that of the last header which reads as its name without regard to case and to
whitespace around it. -/
def column (c : Col) : Option Nat :=
  (header.findIdxs fun f => decide (T.upper (trim T f) = c.name)).getLast?

/-- The cell of a row in a column. -/
def cell (c : Col) (r : Record) : Option Str := (column T header c).bind fun i => r[i]?

/-- Is there nothing but whitespace in the row? -/
def Blank (r : Record) : Prop := ∀ f ∈ r, trim T f = []

instance (r : Record) : Decidable (Blank T r) := by unfold Blank; infer_instance

/-- The words of a cell: its pieces between spaces. -/
def words (s : Str) : List Str := (s.splitOn ' ').filter fun w => w ≠ []

/-- The truth value a cell stands for. -/
def truth (s : Str) : Option Bool :=
  if T.upper (trim T s) ∈ ["YES".toList, "TRUE".toList, "1".toList] then some true
  else if T.upper (trim T s) ∈ ["".toList, "NO".toList, "FALSE".toList, "0".toList] then some false
  else none

/-- The kind of node a word stands for. -/
def kind (w : Str) : Option Basic :=
  if T.upper w = "IRI".toList ∨ T.upper w = "URI".toList then some .iri
  else if T.upper w = "BNODE".toList then some .bnode
  else if T.upper w = "LITERAL".toList then some .literal
  else none

/-- The alternatives of a list of kinds. -/
def nodeType : List Basic → Option NodeType
  | [] => none
  | [b] => some (.basic b)
  | bs => some (.or bs)

/-- The placeholder of a row, if its property is to be generated: the text it counts under and its stem. -/
def placeholder (r : Record) : Option (Str × Str) :=
  match cell T header .propertyId r with
  | none => none
  | some [] =>
    match cell T header .propertyLabel r with
    | none | some [] => none
    | some _ => cfg.emptyPropertyPlaceholder.map fun stem => ([], stem)
  | some s => (cfg.propertyPlaceholders s).map fun stem => (trim T s, stem)

/-- How many rows have a placeholder which counts under the text. -/
def uses (k : Str) (rs : List Record) : Nat :=
  rs.countP fun r => (placeholder T cfg header r).map Prod.fst = some k

/-- The name of the property of a row with the rows `above` it: the cell as it stands, or the stem of the
placeholder followed by the number of rows above which have the same placeholder. -/
def property (above : List Record) (r : Record) : Option Str :=
  match placeholder T cfg header r with
  | some (k, stem) => some (noNewline (stem ++ Nat.toDigits 10 (uses T cfg header k above)))
  | none =>
    match cell T header .propertyId r with
    | none | some [] => none
    | some s => some (noNewline (trim T s))

/-- What is wrong with a row which has a property: the first of its cells in the order mandatory,
repeatable, node type which cannot be understood. -/
def rowError (line : Nat) (r : Record) : Option Err :=
  if (property T cfg header [] r).isNone then none
  else
    ((cell T header .mandatory r).bind fun c =>
      if truth T c = none then some (Err.shouldBeBoolean "mandatory".toList c line) else none)
    <|> ((cell T header .repeatable r).bind fun c =>
      if truth T c = none then some (Err.shouldBeBoolean "repeatable".toList c line) else none)
    <|> ((cell T header .valueNodetype r).bind fun c =>
      ((words c).find? fun w => kind T w = none).map fun w => Err.unexpectedNodeType w line)

/-- The cell without whitespace around it, if anything is left. -/
def text (c : Col) (r : Record) : Option Str :=
  ((cell T header c r).map (trim T)).filter fun s => s ≠ []

/-- What the cell of values says: alternatives when the type of constraint is missing or a pick list, a
pattern when it is a pattern, and nothing otherwise. -/
def constraint (r : Record) : Option Constraint :=
  (cell T header .valueConstraint r).bind fun c =>
    match (text T header .valueConstraintType r).map T.upper with
    | some k =>
      if k = "PATTERN".toList then some (.pattern c)
      else if k = "PICKLIST".toList then choices c
      else none
    | none => choices c
where
  /-- The pieces between the delimiters; a delimiter at the end ends the last piece. -/
  choices (c : Str) : Option Constraint :=
    let ps := c.splitOn cfg.picklistDelimiter
    let ps := if ps.getLast? = some [] then ps.dropLast else ps
    if ps = [] then none else some (.picklist (ps.map .str))

/-- The statement of a row, when it has a property and its cells can be understood. -/
def statement (above : List Record) (line : Nat) (r : Record) : Option Statement :=
  (property T cfg header above r).map fun p =>
    { property := ⟨p, line⟩
      label := (text T header .propertyLabel r).map noNewline
      mandatory := (cell T header .mandatory r).bind (truth T)
      repeatable := (cell T header .repeatable r).bind (truth T)
      nodetype := (cell T header .valueNodetype r).bind fun c => nodeType ((words c).filterMap (kind T))
      datatypes := ((text T header .valueDatatype r).map fun c => (words c).map fun d => (⟨d, line⟩ : Id)).getD []
      constraint := constraint T cfg header r
      shape := (text T header .valueShape r).map fun c => ⟨c, line⟩
      note := (cell T header .note r).filter fun c => c ≠ []
      line := some line }

/-- A row in its place: the rows above it and the name of the shape it belongs to. -/
structure Row where
  cells : Record
  line : Nat
  above : List Record
  name : Str

/-- The rows in their places. A row with an empty shape identifier, or with none, belongs to the shape of
the row above it. -/
def rows (name : Str) (above : List Record) : List Item → List Row
  | [] => []
  | i :: is =>
    match i.row with
    | none => rows name above is
    | some r =>
      let own := ((cell T header .shapeId r).map (trim T)).getD []
      let name := if own = [] then name else own
      ⟨r, i.line, above, name⟩ :: rows name (above ++ [r]) is

/-- The rows of each shape: a new shape begins wherever the name changes. -/
def blocks (rs : List Row) : List (List Row) := rs.splitBy fun a b => a.name = b.name

/-- What a shape extends, by its first row. -/
def extends_ (line : Nat) (r : Record) : List ExtendsId :=
  match text T header .extendsId r with
  | some s => [⟨s, (cell T header .extendsLabel r).filter fun l => l ≠ [], line⟩]
  | none => []

/-- The shape of a block of rows. -/
def shape : List Row → Shape
  | [] => {}
  | b :: bs =>
    { id := (cell T header .shapeId b.cells).map fun s => ⟨trim T s, b.line⟩
      label := (cell T header .shapeLabel b.cells).map (trim T)
      statements := (b :: bs).filterMap fun r => statement T cfg header r.above r.line r.cells
      extends_ := extends_ T header b.line b.cells
      startLine := if (cell T header .shapeId b.cells).isSome then b.line else 0 }

/-- The warning for a row without a property. -/
def noProperty (b : Row) : List Warning :=
  if cell T header .propertyId b.cells = some [] ∧ (cell T header .propertyLabel b.cells).getD [] = [] then
    [.emptyProperty b.line] else []

/-- The warning for the first row of a shape which has a label for what it extends but no identifier. -/
def loneLabel (b : Row) : List Warning :=
  match text T header .extendsId b.cells, (cell T header .extendsLabel b.cells).getD [] with
  | none, c :: cs => [.extendsLabelWithoutExtendsId (c :: cs) b.line]
  | _, _ => []

/-- The warnings for a block of rows. -/
def warnings : List Row → List Warning
  | [] => []
  | b :: bs => loneLabel T header b ++ (b :: bs).flatMap (noProperty T header)

/-- The table without the blank rows at its top. -/
def body (items : List Item) : List Item :=
  items.dropWhile fun i => decide (∃ r ∈ i.row, Blank T r)

/-- What is wrong with a record. -/
def itemError (i : Item) : Option Err :=
  match i.row with
  | none => some (.csv i.line)
  | some r => rowError T cfg header i.line r

/-- What a table says: the error of its first record with an error, or its shapes and the warnings. -/
def table (items : List Item) : Except Err (List Shape × List Warning) :=
  match (body T items).findSome? (itemError T cfg header) with
  | some e => .error e
  | none =>
    let bs := blocks (rows T header [] [] (body T items))
    .ok (bs.map (shape T cfg header), bs.flatMap (warnings T header))

/-- Every record has a cell in each column of the headers. -/
def Full (items : List Item) : Prop := ∀ i ∈ items, ∀ r ∈ i.row, header.length ≤ r.length

end Spec

end Tap

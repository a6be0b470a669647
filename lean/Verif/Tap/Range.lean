import Verif.Tap.Model

/-!
# Model: reading a sheet of a workbook

dctap/src/reader_range.rs. The calamine crate is the part of the sheet which is in use: where it begins
and its cells, each as the text `as_string` gives, if any. `u32` positions are natural numbers.
-/

namespace Tap

/-- `calamine::Range<Data>`: the first row and column in use, the number of columns and the cells. -/
structure Sheet where
  top : Nat
  left : Nat
  width : Nat
  cells : List (List (Option Str))

namespace Sheet

/-- `Range::height`. -/
def height (s : Sheet) : Nat := s.cells.length

/-- `Range::get_value`: the cell at a place of the whole sheet, counted from its first row and column. -/
def getValue (s : Sheet) (row col : Nat) : Option (Option Str) :=
  if s.top ≤ row ∧ s.left ≤ col then (s.cells[row - s.top]?).bind fun r => r[col - s.left]? else none

/-- One turn of the loop of `next_record` over the columns (reader_range.rs:32-43). -/
def field (s : Sheet) (row col : Nat) : Str :=
  match s.getValue row col with
  | some d =>
    match d with
    | some t => t
    | none => []
  | none => []

/-- `ReaderRange::next_record` (reader_range.rs:26-47): the record and the next line. -/
def nextRecord (s : Sheet) (line : Nat) : Option (Record × Nat) :=
  if line = s.height then none else some ((List.range s.width).map (s.field line), line + 1)

/-- The records from a line on, with fuel for the lines. -/
def recordsFrom (s : Sheet) : Nat → Nat → List Record
  | 0, _ => []
  | n + 1, line =>
    match s.nextRecord line with
    | none => []
    | some (r, line) => r :: s.recordsFrom n line

/-- The records of a sheet; the first one is that of the headers (tap_reader_builder.rs:124-127). -/
def records (s : Sheet) : List Record := s.recordsFrom (s.height + 1) 0

end Sheet

/-- `TapReaderBuilder::from_excel` and `DCTap::from_excel` (tap_reader_builder.rs:98-134, dctap.rs:71-86):
`none` is the error for a sheet without headers. `ReaderRange::position` (reader_range.rs:49-51) is the
same for each row, line 1 of the csv crate. -/
def fromExcel (T : Text) (cfg : Config) (s : Sheet) : Option (Except Err (List Shape × List Warning)) :=
  match s.records with
  | [] => none
  | header :: rs => some (fromReader T cfg header (rs.map fun r => ⟨1, some r⟩))

end Tap

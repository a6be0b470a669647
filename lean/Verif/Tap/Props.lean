import Verif.Tap.LemmasCells
import Verif.Tap.Range
import Mathlib.Data.Fin.VecNotation

/-!
# Properties of reading DCTAP tables
-/

namespace Tap

variable (T : Text) (cfg : Config)

/-- Characters for the examples. -/
def ascii : Text := ⟨fun c => c = ' ' || c = '\t' || c = '\n', fun s => s.map Char.toUpper⟩

/-! ## C89: tables -/

/-- C89 (part): a table whose rows have a cell in each column is read as the specification says: the error
of its first bad row, or the shapes of its blocks of rows with their statements, and the warnings. What is
missing: rows with fewer cells than there are headers, for which `C89_refuted` shows that it fails. -/
theorem C89_tables_partial (header : Record) (items : List Item)
    (hfull : Spec.Full header (Spec.body T items)) :
    fromReader T cfg header items = Spec.table T cfg header items :=
  fromReader_eq T cfg header items hfull

/-- A table with two shapes, a blank row in front and one between. -/
def sample : Record × List Item :=
  (["shapeId".toList, "shapeLabel".toList, "propertyID".toList, "Mandatory".toList],
    [⟨2, some ["".toList, " ".toList, "".toList, "".toList]⟩,
     ⟨3, some ["Person".toList, "A person".toList, "name".toList, "yes".toList]⟩,
     ⟨4, some ["".toList, "".toList, "knows".toList, "".toList]⟩,
     ⟨5, some ["".toList, "".toList, "".toList, "".toList]⟩,
     ⟨6, some ["User".toList, "".toList, "age".toList, "0".toList]⟩])

example : Spec.Full sample.1 (Spec.body ascii sample.2) ∧
    fromReader ascii {} sample.1 sample.2 = .ok
      ([{ id := some ⟨"Person".toList, 3⟩, label := some "A person".toList, startLine := 3
          statements :=
            [{ property := ⟨"name".toList, 3⟩, mandatory := some true, line := some 3 },
             { property := ⟨"knows".toList, 4⟩, mandatory := some false, line := some 4 }] },
        { id := some ⟨"User".toList, 6⟩, label := some [], startLine := 6
          statements := [{ property := ⟨"age".toList, 6⟩, mandatory := some false, line := some 6 }] }],
       [.emptyProperty 5]) := by
  constructor
  · intro i hi r hr
    have : i ∈ sample.2 := (List.dropWhile_suffix _).subset hi
    simp only [sample, List.mem_cons, List.not_mem_nil, or_false] at this
    rcases this with rfl | rfl | rfl | rfl | rfl <;> simp_all [sample] <;> subst hr <;> simp
  · rfl

/-- A table with a row which ends before the column of the labels of shapes. -/
def ragged : Record × List Item :=
  (["shapeId".toList, "propertyId".toList, "shapeLabel".toList],
    [⟨2, some ["Person".toList, "name".toList, "A person".toList]⟩,
     ⟨3, some ["User".toList, "age".toList]⟩])

/-- C89 fails for rows with fewer cells than headers, which the default configuration allows: the second
shape has no label in the table, and the reader gives it the label of the first. -/
theorem C89_refuted :
    ¬ ∀ (T : Text) (cfg : Config) (header : Record) (items : List Item),
      fromReader T cfg header items = Spec.table T cfg header items := by
  intro h
  have h1 := h ascii {} ragged.1 ragged.2
  have h2 : (match fromReader ascii {} ragged.1 ragged.2 with
      | .ok (ss, _) => ss.map Shape.label | .error _ => []) = [some "A person".toList, some "A person".toList] := by
    rfl
  have h3 : (match Spec.table ascii {} ragged.1 ragged.2 with
      | .ok (ss, _) => ss.map Shape.label | .error _ => []) = [some "A person".toList, none] := by
    decide +kernel
  rw [h1, h3] at h2
  simp at h2

/-! ## C90: the order of the columns -/

/-- C90: when no two columns with a meaning have the same header, the order of the columns makes no
difference: permuting the headers and all rows alike leaves the result as it is. -/
theorem C90_column_order {n : Nat} (σ : Equiv.Perm (Fin n)) (H : Fin n → Str)
    (hH : ∀ (c : Col) (i j : Fin n), T.upper (trim T (H i)) = c.name → T.upper (trim T (H j)) = c.name → i = j)
    (rows : List (Nat × Option (Fin n → Str))) :
    fromReader T cfg (List.ofFn (H ∘ σ)) (rows.map fun e => ⟨e.1, e.2.map fun f => List.ofFn (f ∘ σ)⟩)
      = fromReader T cfg (List.ofFn H) (rows.map fun e => ⟨e.1, e.2.map fun f => List.ofFn f⟩) := by
  have hf : ∀ (K : Fin n → Str) (g : (Fin n → Str) → Record), (∀ f, (g f).length = n) →
      Spec.Full (List.ofFn K) (Spec.body T (write g rows)) := by
    intro K g hg i hi r hr
    have : i ∈ write g rows := (List.dropWhile_suffix _).subset hi
    obtain ⟨e, _, rfl⟩ := List.mem_map.mp this
    obtain ⟨f, _, rfl⟩ := Option.mem_map.mp hr
    simp [hg]
  have h1 := C89_tables_partial T cfg (List.ofFn (H ∘ σ)) (write (fun f => List.ofFn (f ∘ σ)) rows)
    (hf _ _ (by simp))
  have h2 := C89_tables_partial T cfg (List.ofFn H) (write (fun f => List.ofFn f) rows)
    (hf _ _ (by simp))
  have h3 := table_congr T cfg (header := List.ofFn (H ∘ σ)) (header' := List.ofFn H)
    (fun f : Fin n → Str => List.ofFn (f ∘ σ)) (fun f => List.ofFn f) rows
    (fun e _ f _ => same_perm T hH σ f)
  exact h1.trans (h3.trans h2.symm)

/-- C90: two headers which differ in case or in whitespace around them are the same header. -/
theorem C90_header_case (header header' : Record)
    (h : header.map (fun f => T.upper (trim T f)) = header'.map (fun f => T.upper (trim T f)))
    (items : List Item) : fromReader T cfg header items = fromReader T cfg header' items := by
  have hh : ∀ (st : Headers) (k : Nat) (a b : Record),
      a.map (fun f => T.upper (trim T f)) = b.map (fun f => T.upper (trim T f)) →
      headersFrom T st k a = headersFrom T st k b := by
    intro st k a
    induction a generalizing st k with
    | nil => intro b hb; cases b with
      | nil => rfl
      | cons y ys => simp at hb
    | cons x xs ih => intro b hb; cases b with
      | nil => simp at hb
      | cons y ys =>
        simp only [List.map_cons, List.cons.injEq] at hb
        have hs : headerStep T st k x = headerStep T st k y := by
          unfold headerStep clean
          rw [hb.1]
        rw [headersFrom, headersFrom, hs, ih _ _ _ hb.2]
  unfold fromReader headersOf
  rw [hh {} 0 header header' h]

/-- Three columns told apart, and a row. -/
def threeColumns : Fin 3 → Str := ![" shapeID".toList, "propertyid".toList, "x".toList]

example : (∀ (c : Col) (i j : Fin 3), ascii.upper (trim ascii (threeColumns i)) = c.name →
      ascii.upper (trim ascii (threeColumns j)) = c.name → i = j)
    ∧ fromReader ascii {} (List.ofFn (threeColumns ∘ Equiv.swap 0 1))
        [⟨2, some (List.ofFn (![" a".toList, "p".toList, "".toList] ∘ Equiv.swap 0 1))⟩]
      = .ok ([{ id := some ⟨"a".toList, 2⟩, startLine := 2
                statements := [{ property := ⟨"p".toList, 2⟩, line := some 2 }] }], []) := by
  constructor
  · intro c
    cases c <;> decide +kernel
  · rfl

example : fromReader ascii {} [" SHAPEid ".toList, "propertyID".toList] [⟨2, some ["a".toList, "p".toList]⟩]
    = .ok ([{ id := some ⟨"a".toList, 2⟩, startLine := 2
              statements := [{ property := ⟨"p".toList, 2⟩, line := some 2 }] }], []) := by
  rfl

/-! ## C91: generated names of properties -/

/-- C91: the statements of all shapes, in order, are those of the rows in order: the row at each place with
the rows above it. -/
theorem C91_statements (header : Record) (items : List Item)
    (hfull : Spec.Full header (Spec.body T items)) (ss : List Shape) (ws : List Warning)
    (h : fromReader T cfg header items = .ok (ss, ws)) :
    ss.flatMap Shape.statements
      = (Spec.rows T header [] [] (Spec.body T items)).filterMap
          fun b => Spec.statement T cfg header b.above b.line b.cells := by
  rw [C89_tables_partial T cfg header items hfull, Spec.table] at h
  cases he : (Spec.body T items).findSome? (Spec.itemError T cfg header) with
  | some e => rw [he] at h; cases h
  | none =>
    rw [he] at h
    simp only [Except.ok.injEq, Prod.mk.injEq] at h
    rw [← h.1, List.flatMap_map]
    have : ∀ b : List Spec.Row, (Spec.shape T cfg header b).statements
        = b.filterMap fun r => Spec.statement T cfg header r.above r.line r.cells := by
      intro b; cases b <;> simp [Spec.shape]
    rw [funext this]
    conv_rhs => rw [← List.flatten_splitBy (fun a b : Spec.Row => decide (a.name = b.name))
      (Spec.rows T header [] [] (Spec.body T items))]
    unfold Spec.blocks
    rw [List.flatMap, List.filterMap_flatten]

theorem noNewline_append (a b : Str) : noNewline (a ++ b) = noNewline a ++ noNewline b := by
  simp [noNewline]

theorem noNewline_digits (n : Nat) : noNewline (Nat.toDigits 10 n) = Nat.toDigits 10 n := by
  unfold noNewline
  rw [List.map_congr_left (g := id), List.map_id]
  intro c hc
  have := Nat.isDigit_of_mem_toDigits (by omega) (by omega) hc
  have hne : c ≠ '\n' := by rintro rfl; simp at this
  simp [hne]

theorem toDigits_injective {m n : Nat} (h : Nat.toDigits 10 m = Nat.toDigits 10 n) : m = n := by
  have h1 := Nat.ofDigitChars_ten_toDigits (n := m)
  have h2 := Nat.ofDigitChars_ten_toDigits (n := n)
  rw [h] at h1
  exact h1.symm.trans h2

/-- C91 (part): two rows of a table whose properties are generated from the same placeholder never get the
same name. What is missing: rows with different placeholders, and rows whose property is written in the
table, for which `C91_refuted` shows that it fails. -/
theorem C91_generated_distinct_partial (header : Record) (rs : List Record) (i j : Nat) (hi : i < j)
    (hj : j < rs.length) (k stem : Str)
    (hpi : Spec.placeholder T cfg header rs[i] = some (k, stem))
    (hpj : Spec.placeholder T cfg header rs[j] = some (k, stem)) :
    Spec.property T cfg header (rs.take i) rs[i] ≠ Spec.property T cfg header (rs.take j) rs[j] := by
  unfold Spec.property
  rw [hpi, hpj]
  simp only [ne_eq, Option.some.injEq, noNewline_append, noNewline_digits, List.append_cancel_left_eq]
  intro h
  have huse := toDigits_injective h
  have hle : Spec.uses T cfg header k (rs.take (i + 1)) ≤ Spec.uses T cfg header k (rs.take j) := by
    have : rs.take (i + 1) = (rs.take j).take (i + 1) := by rw [List.take_take]; congr 1; omega
    rw [this]
    exact (List.take_sublist _ _).countP_le
  rw [List.take_succ_eq_append_getElem (by omega), uses_snoc] at hle
  rw [if_pos (by rw [hpi]; rfl)] at hle
  omega

/-- A configuration with the placeholder `_`. -/
def underscore : Config := { propertyPlaceholders := fun s => if s = "_".toList then some "P".toList else none }

example : let rs : List Record := [["S".toList, "_".toList], ["".toList, "q".toList], ["".toList, "_".toList]]
    Spec.placeholder ascii underscore ["shapeId".toList, "propertyId".toList] rs[0] = some ("_".toList, "P".toList)
    ∧ Spec.placeholder ascii underscore ["shapeId".toList, "propertyId".toList] rs[2] = some ("_".toList, "P".toList)
    ∧ fromReader ascii underscore ["shapeId".toList, "propertyId".toList] (rs.map fun r => ⟨0, some r⟩)
      = .ok ([{ id := some ⟨"S".toList, 0⟩
                statements :=
                  [{ property := ⟨"P0".toList, 0⟩, line := some 0 },
                   { property := ⟨"q".toList, 0⟩, line := some 0 },
                   { property := ⟨"P1".toList, 0⟩, line := some 0 }] }], []) := by
  refine ⟨?_, ?_, ?_⟩ <;> first | decide +kernel | rfl

/-- C91 fails when the table itself has the name which is generated. -/
theorem C91_refuted :
    ¬ ∀ (T : Text) (cfg : Config) (header : Record) (rs : List Record) (i j : Nat) (_ : i < j)
      (hj : j < rs.length), (Spec.placeholder T cfg header rs[i]).isSome →
      Spec.property T cfg header (rs.take i) rs[i] ≠ Spec.property T cfg header (rs.take j) rs[j] := by
  intro h
  exact h ascii underscore ["propertyId".toList] [["_".toList], ["P0".toList]] 0 1 (by omega) (by simp)
    (by decide +kernel) (by decide +kernel)

/-! ## C92: sheets of workbooks -/

/-- The text of a cell of a sheet, empty where there is none. -/
def Spec.sheetCell (s : Sheet) (row col : Nat) : Str :=
  ((s.cells[row]?.bind fun r => r[col]?).bind id).getD []

theorem recordsFrom_eq (s : Sheet) : ∀ n line, line + n = s.height + 1 →
    s.recordsFrom n line = (List.range' line (n - 1)).map fun i => (List.range s.width).map (s.field i)
  | 0, line, h => by simp [Sheet.recordsFrom]
  | n + 1, line, h => by
    rw [Sheet.recordsFrom, Sheet.nextRecord]
    cases n with
    | zero => rw [if_pos (by omega)]; simp
    | succ n =>
      rw [if_neg (by omega)]
      simp only
      rw [recordsFrom_eq s (n + 1) (line + 1) (by omega)]
      simp [List.range'_succ]

/-- C92: what is read from any sheet: as many records as rows are in use, but each cell is the one that many
rows and columns before it as the part in use is away from the first row and column. -/
theorem C92_sheet_shift (s : Sheet) :
    s.records = (List.range s.cells.length).map fun i => (List.range s.width).map fun j =>
      if s.top ≤ i ∧ s.left ≤ j then Spec.sheetCell s (i - s.top) (j - s.left) else [] := by
  unfold Sheet.records
  rw [recordsFrom_eq s _ 0 (by omega), ← List.range_eq_range']
  change (List.range s.cells.length).map _ = _
  apply List.map_congr_left
  intro i _
  apply List.map_congr_left
  intro j _
  unfold Sheet.field Sheet.getValue Spec.sheetCell
  split_ifs with h
  · cases s.cells[i - s.top]? with
    | none => rfl
    | some r =>
      cases hr : r[j - s.left]? with
      | none => simp [hr]
      | some d => cases d <;> simp [hr]
  · rfl

/-- C92 (part): a sheet in use from its first row and column is read row by row. What is missing: sheets in
use from elsewhere, for which `C92_refuted` shows that it fails. -/
theorem C92_sheet_partial (s : Sheet) (htop : s.top = 0) (hleft : s.left = 0)
    (hw : ∀ r ∈ s.cells, r.length = s.width) :
    s.records = s.cells.map fun r => r.map fun d => d.getD [] := by
  rw [C92_sheet_shift, htop, hleft]
  apply List.ext_getElem
  · simp
  · intro i h1 h2
    simp only [List.length_map, List.length_range] at h1
    simp only [List.getElem_map, List.getElem_range]
    apply List.ext_getElem
    · simp [hw _ (List.getElem_mem _)]
    · intro j h3 h4
      simp only [List.length_map, List.length_range] at h3 h4
      simp [Spec.sheetCell, h1, h4]

/-- A sheet whose first row is empty, and so not in use. -/
def lower : Sheet := ⟨1, 0, 2, [[some "shapeId".toList, some "propertyId".toList], [some "S".toList, some "p".toList]]⟩

example : ({ lower with top := 0 } : Sheet).records
    = [["shapeId".toList, "propertyId".toList], ["S".toList, "p".toList]] := by rfl

/-- C92 fails for a sheet with an empty first row: the headers are taken from the empty row, and the last
row is not read. -/
theorem C92_refuted :
    ¬ ∀ s : Sheet, (∀ r ∈ s.cells, r.length = s.width) →
      s.records = s.cells.map fun r => r.map fun d => d.getD [] := by
  intro h
  have := h lower (by simp [lower])
  have h2 : lower.records = [[[], []], ["shapeId".toList, "propertyId".toList]] := by rfl
  rw [h2] at this
  simp [lower] at this

theorem fromExcel_eq (s : Sheet) (header : Record) (rs : List Record) (h : s.records = header :: rs) :
    fromExcel T cfg s = some (Spec.table T cfg header (rs.map fun r => ⟨1, some r⟩)) := by
  have hlen : ∀ r ∈ s.records, r.length = s.width := by
    intro r hr
    rw [C92_sheet_shift] at hr
    obtain ⟨i, _, rfl⟩ := List.mem_map.mp hr
    simp
  unfold fromExcel
  rw [h]
  dsimp only
  rw [C89_tables_partial T cfg header _]
  intro i hi r hr
  have : i ∈ rs.map fun r => (⟨1, some r⟩ : Item) := (List.dropWhile_suffix _).subset hi
  obtain ⟨r', hr', rfl⟩ := List.mem_map.mp this
  simp only [Option.mem_def, Option.some.injEq] at hr
  subst hr
  rw [hlen header (by simp [h]), hlen r' (by simp [h, hr'])]

/-- The line an error shows. -/
def Spec.errorLine : Err → Nat
  | .csv l => l
  | .shouldBeBoolean _ _ l => l
  | .unexpectedNodeType _ l => l

/-- C92: whichever row of a sheet has an error, the line which the error shows is 1, and so is the line of
every statement. -/
theorem C92_lines (s : Sheet) :
    (∀ e, fromExcel T cfg s = some (.error e) → Spec.errorLine e = 1) ∧
    (∀ ss ws, fromExcel T cfg s = some (.ok (ss, ws)) →
      ∀ sh ∈ ss, ∀ st ∈ sh.statements, st.line = some 1) := by
  cases hrec : s.records with
  | nil => simp [fromExcel, hrec]
  | cons header rs =>
    rw [fromExcel_eq T cfg s header rs hrec]
    have hline : ∀ i ∈ Spec.body T (rs.map fun r => (⟨1, some r⟩ : Item)), i.line = 1 := by
      intro i hi
      have : i ∈ rs.map fun r => (⟨1, some r⟩ : Item) := (List.dropWhile_suffix _).subset hi
      obtain ⟨r', _, rfl⟩ := List.mem_map.mp this
      rfl
    unfold Spec.table
    generalize Spec.body T (rs.map fun r => (⟨1, some r⟩ : Item)) = items at hline
    cases hf : items.findSome? (Spec.itemError T cfg header) with
    | some e =>
      refine ⟨?_, by simp⟩
      intro e' he'
      simp only [Option.some.injEq, Except.error.injEq] at he'
      subst he'
      obtain ⟨i, hi, he⟩ := List.exists_of_findSome?_eq_some hf
      have hl := hline i hi
      unfold Spec.itemError at he
      cases hr : i.row with
      | none => rw [hr] at he; simp only [Option.some.injEq] at he; rw [← he]; exact hl
      | some r =>
        rw [hr, hl] at he
        simp only [Spec.rowError] at he
        split_ifs at he
        rw [Option.orElse_eq_some] at he
        rcases he with he | ⟨_, he⟩
        · obtain ⟨c, _, he⟩ := Option.bind_eq_some_iff.mp he
          split_ifs at he
          cases he; rfl
        · rw [Option.orElse_eq_some] at he
          rcases he with he | ⟨_, he⟩
          · obtain ⟨c, _, he⟩ := Option.bind_eq_some_iff.mp he
            split_ifs at he
            cases he; rfl
          · obtain ⟨c, _, he⟩ := Option.bind_eq_some_iff.mp he
            obtain ⟨w, _, rfl⟩ := Option.map_eq_some_iff.mp he
            rfl
    | none =>
      refine ⟨by simp, ?_⟩
      intro ss ws h sh hsh st hst
      simp only [Option.some.injEq, Except.ok.injEq, Prod.mk.injEq] at h
      rw [← h.1] at hsh
      obtain ⟨b, hb, rfl⟩ := List.mem_map.mp hsh
      have hrow : ∀ (items : List Item) (name : Str) (above : List Record), (∀ i ∈ items, i.line = 1) →
          ∀ r ∈ Spec.rows T header name above items, r.line = 1 := by
        intro items
        induction items with
        | nil => intro _ _ _ r hr; simp [Spec.rows] at hr
        | cons i is ih =>
          intro name above hl r hr
          unfold Spec.rows at hr
          cases hi : i.row with
          | none => rw [hi] at hr; exact ih _ _ (fun j hj => hl j (by simp [hj])) r hr
          | some q =>
            rw [hi] at hr
            rcases List.mem_cons.mp hr with rfl | hr
            · exact hl i (by simp)
            · exact ih _ _ (fun j hj => hl j (by simp [hj])) r hr
      have hmem : ∀ r ∈ b, r.line = 1 := by
        intro r hr
        refine hrow items [] [] hline r ?_
        rw [← List.flatten_splitBy (fun a b : Spec.Row => decide (a.name = b.name))
          (Spec.rows T header [] [] items)]
        exact List.mem_flatten.mpr ⟨b, hb, hr⟩
      cases b with
      | nil => simp [Spec.shape] at hst
      | cons r b =>
        simp only [Spec.shape] at hst
        obtain ⟨q, hq, hs⟩ := List.mem_filterMap.mp hst
        unfold Spec.statement at hs
        obtain ⟨p, _, rfl⟩ := Option.map_eq_some_iff.mp hs
        simp [hmem q hq]

example : fromExcel ascii {} ⟨0, 0, 2, [[some "propertyId".toList, some "mandatory".toList],
      [some "p".toList, some "yes".toList], [some "q".toList, some "maybe".toList]]⟩
    = some (.error (.shouldBeBoolean "mandatory".toList "maybe".toList 1)) := by rfl

end Tap

import Verif.Tap.Spec

/-! # Lemmas about the reader of DCTAP tables -/

namespace Tap

/-! ## Headers -/

/-- The column of a header. -/
def Headers.get (h : Headers) : Col → Option Nat
  | .shapeId => h.shapeId
  | .shapeLabel => h.shapeLabel
  | .propertyId => h.propertyId
  | .propertyLabel => h.propertyLabel
  | .repeatable => h.repeatable
  | .mandatory => h.mandatory
  | .valueDatatype => h.valueDatatype
  | .valueNodetype => h.valueNodetype
  | .valueShape => h.valueShape
  | .valueConstraint => h.valueConstraint
  | .valueConstraintType => h.valueConstraintType
  | .note => h.note
  | .extendsId => h.extendsId
  | .extendsLabel => h.extendsLabel

/-- A number which tells the names of the columns apart. -/
def nameCode (s : Str) : Nat := s.foldl (fun n c => (n * 7 + c.toNat) % 1009) 0

/-- The number of a column. -/
def Col.code : Col → Nat
  | .shapeId => 878
  | .shapeLabel => 349
  | .propertyId => 801
  | .propertyLabel => 172
  | .repeatable => 356
  | .mandatory => 299
  | .valueDatatype => 6
  | .valueNodetype => 381
  | .valueShape => 907
  | .valueConstraint => 633
  | .valueConstraintType => 784
  | .note => 3
  | .extendsId => 655
  | .extendsLabel => 544

theorem nameCode_name (c : Col) : nameCode c.name = c.code := by cases c <;> decide +kernel

theorem Col.code_inj {c d : Col} (h : c.code = d.code) : c = d := by
  cases c <;> cases d <;> first | rfl | (exfalso; revert h; decide)

theorem name_inj (c d : Col) : c.name = d.name ↔ c = d := by
  constructor
  · intro h
    apply Col.code_inj
    rw [← nameCode_name, ← nameCode_name, h]
  · rintro rfl
    rfl

theorem headerStep_get (T : Text) (h : Headers) (idx : Nat) (f : Str) (c : Col) :
    (headerStep T h idx f).get c = if clean T f = c.name then some idx else h.get c := by
  unfold headerStep
  generalize clean T f = k
  show (if k = Col.shapeId.name then { h with shapeId := some idx }
    else if k = Col.propertyId.name then { h with propertyId := some idx }
    else if k = Col.propertyLabel.name then { h with propertyLabel := some idx }
    else if k = Col.shapeLabel.name then { h with shapeLabel := some idx }
    else if k = Col.repeatable.name then { h with repeatable := some idx }
    else if k = Col.mandatory.name then { h with mandatory := some idx }
    else if k = Col.valueDatatype.name then { h with valueDatatype := some idx }
    else if k = Col.valueShape.name then { h with valueShape := some idx }
    else if k = Col.valueNodetype.name then { h with valueNodetype := some idx }
    else if k = Col.valueConstraint.name then { h with valueConstraint := some idx }
    else if k = Col.valueConstraintType.name then { h with valueConstraintType := some idx }
    else if k = Col.note.name then { h with note := some idx }
    else if k = Col.extendsId.name then { h with extendsId := some idx }
    else if k = Col.extendsLabel.name then { h with extendsLabel := some idx }
    else h : Headers).get c = _
  by_cases hk : ∃ d : Col, k = d.name
  · obtain ⟨d, rfl⟩ := hk
    simp only [name_inj]
    cases d <;> simp only [reduceCtorEq, if_true, if_false] <;> cases c <;>
      simp only [reduceCtorEq, if_true, if_false, Headers.get]
  · have hn : ∀ d : Col, k ≠ d.name := fun d hd => hk ⟨d, hd⟩
    simp only [hn, if_false]

theorem headersFrom_get (T : Text) (c : Col) : ∀ (fs : List Str) (h : Headers) (idx : Nat),
    (headersFrom T h idx fs).get c
      = (((fs.findIdxs (fun f => decide (clean T f = c.name)) idx).getLast?) <|> h.get c)
  | [], h, idx => by simp [headersFrom]
  | f :: fs, h, idx => by
    rw [headersFrom, headersFrom_get T c fs, headerStep_get, List.findIdxs_cons]
    by_cases hf : clean T f = c.name
    · simp only [hf, decide_true, if_true, List.getLast?_cons]
      cases (fs.findIdxs (fun f => decide (clean T f = c.name)) (idx + 1)).getLast? <;> simp
    · simp [hf]

theorem headersOf_get (T : Text) (header : Record) (c : Col) :
    (headersOf T header).get c = Spec.column T header c := by
  rw [headersOf, headersFrom_get]
  have : ({} : Headers).get c = none := by cases c <;> rfl
  rw [this]
  simp [Spec.column, clean]
  congr!

theorem cellAt_headersOf (T : Text) (header : Record) (c : Col) (r : Record) :
    cellAt ((headersOf T header).get c) r = Spec.cell T header c r := by
  rw [headersOf_get]; rfl

theorem cell_shapeId (T : Text) (header : Record) (r : Record) :
    cellAt (headersOf T header).shapeId r = Spec.cell T header .shapeId r :=
  cellAt_headersOf T header .shapeId r
theorem cell_shapeLabel (T : Text) (header : Record) (r : Record) :
    cellAt (headersOf T header).shapeLabel r = Spec.cell T header .shapeLabel r :=
  cellAt_headersOf T header .shapeLabel r
theorem cell_propertyId (T : Text) (header : Record) (r : Record) :
    cellAt (headersOf T header).propertyId r = Spec.cell T header .propertyId r :=
  cellAt_headersOf T header .propertyId r
theorem cell_propertyLabel (T : Text) (header : Record) (r : Record) :
    cellAt (headersOf T header).propertyLabel r = Spec.cell T header .propertyLabel r :=
  cellAt_headersOf T header .propertyLabel r
theorem cell_repeatable (T : Text) (header : Record) (r : Record) :
    cellAt (headersOf T header).repeatable r = Spec.cell T header .repeatable r :=
  cellAt_headersOf T header .repeatable r
theorem cell_mandatory (T : Text) (header : Record) (r : Record) :
    cellAt (headersOf T header).mandatory r = Spec.cell T header .mandatory r :=
  cellAt_headersOf T header .mandatory r
theorem cell_valueDatatype (T : Text) (header : Record) (r : Record) :
    cellAt (headersOf T header).valueDatatype r = Spec.cell T header .valueDatatype r :=
  cellAt_headersOf T header .valueDatatype r
theorem cell_valueNodetype (T : Text) (header : Record) (r : Record) :
    cellAt (headersOf T header).valueNodetype r = Spec.cell T header .valueNodetype r :=
  cellAt_headersOf T header .valueNodetype r
theorem cell_valueShape (T : Text) (header : Record) (r : Record) :
    cellAt (headersOf T header).valueShape r = Spec.cell T header .valueShape r :=
  cellAt_headersOf T header .valueShape r
theorem cell_valueConstraint (T : Text) (header : Record) (r : Record) :
    cellAt (headersOf T header).valueConstraint r = Spec.cell T header .valueConstraint r :=
  cellAt_headersOf T header .valueConstraint r
theorem cell_valueConstraintType (T : Text) (header : Record) (r : Record) :
    cellAt (headersOf T header).valueConstraintType r = Spec.cell T header .valueConstraintType r :=
  cellAt_headersOf T header .valueConstraintType r
theorem cell_note (T : Text) (header : Record) (r : Record) :
    cellAt (headersOf T header).note r = Spec.cell T header .note r :=
  cellAt_headersOf T header .note r
theorem cell_extendsId (T : Text) (header : Record) (r : Record) :
    cellAt (headersOf T header).extendsId r = Spec.cell T header .extendsId r :=
  cellAt_headersOf T header .extendsId r
theorem cell_extendsLabel (T : Text) (header : Record) (r : Record) :
    cellAt (headersOf T header).extendsLabel r = Spec.cell T header .extendsLabel r :=
  cellAt_headersOf T header .extendsLabel r

/-! ## Text -/

theorem split_ne_nil (c : Char) : ∀ s : Str, split c s ≠ []
  | [] => by simp [split]
  | x :: xs => by
    rw [split]
    split_ifs
    · simp
    · split <;> simp

theorem split_eq (c : Char) : ∀ s : Str, split c s = s.splitOn c
  | [] => by simp [split]
  | x :: xs => by
    rw [split, List.splitOn_cons_eq_if_modifyHead, ← split_eq c xs]
    by_cases h : x = c
    · simp [h]
    · have hne := split_ne_nil c xs
      simp only [h, if_false, beq_iff_eq]
      cases hs : split c xs with
      | nil => exact absurd hs hne
      | cons p ps => simp

theorem getStrs_eq (s : Str) : getStrs s = Spec.words s := by
  rw [getStrs, split_eq, Spec.words]

theorem stripWhitespace_eq (T : Text) (header : Record) (c : Col) (r : Record) :
    (Spec.cell T header c r).bind (stripWhitespace T) = Spec.text T header c r := by
  unfold Spec.text stripWhitespace
  cases Spec.cell T header c r with
  | none => rfl
  | some s => by_cases h : trim T s = [] <;> simp [h, Option.filter]

theorem splitTerminator_eq (c : Char) (s : Str) :
    splitTerminator c s
      = if (s.splitOn c).getLast? = some [] then (s.splitOn c).dropLast else s.splitOn c := by
  rw [splitTerminator, split_eq]

/-! ## The cells of a statement -/

variable (T : Text) (cfg : Config) (header : Record)

theorem parseBoolean_eq (s field : Str) (line : Nat) :
    parseBoolean T s field line
      = match Spec.truth T s with
        | some b => .ok b
        | none => .error (.shouldBeBoolean field s line) := by
  unfold parseBoolean Spec.truth
  generalize T.upper (trim T s) = k
  dsimp only
  by_cases h1 : k = "".toList
  · subst h1; rfl
  by_cases h2 : k = "YES".toList
  · subst h2; rfl
  by_cases h3 : k = "NO".toList
  · subst h3; rfl
  by_cases h4 : k = "TRUE".toList
  · subst h4; rfl
  by_cases h5 : k = "FALSE".toList
  · subst h5; rfl
  by_cases h6 : k = "1".toList
  · subst h6; rfl
  by_cases h7 : k = "0".toList
  · subst h7; rfl
  simp only [h1, h2, h3, h4, h5, h6, h7, if_false, List.mem_cons, List.not_mem_nil, or_self]

theorem parseNodeType_eq (s : Str) (line : Nat) :
    parseNodeType T s line
      = match Spec.kind T s with
        | some b => .ok (.basic b)
        | none => .error (.unexpectedNodeType s line) := by
  unfold parseNodeType Spec.kind
  generalize T.upper s = k
  dsimp only
  by_cases h1 : k = "URI".toList
  · subst h1; rfl
  by_cases h2 : k = "IRI".toList
  · subst h2; rfl
  by_cases h3 : k = "BNODE".toList
  · subst h3; rfl
  by_cases h4 : k = "LITERAL".toList
  · subst h4; rfl
  simp only [h1, h2, h3, h4, if_false, or_self]

/-- The alternatives met so far. -/
def kinds : Option NodeType → List Basic
  | none => []
  | some (.basic b) => [b]
  | some (.or bs) => bs

theorem nodetypeLoop_eq (line : Nat) : ∀ (ws : List Str) (bs : List Basic),
    nodetypeLoop T line (Spec.nodeType bs) ws
      = match ws.find? fun w => decide (Spec.kind T w = none) with
        | some w => .error (.unexpectedNodeType w line)
        | none => .ok (Spec.nodeType (bs ++ ws.filterMap (Spec.kind T)))
  | [], bs => by simp [nodetypeLoop]
  | w :: ws, bs => by
    rw [nodetypeLoop, parseNodeType_eq]
    cases hk : Spec.kind T w with
    | none => simp [hk]
    | some b =>
      have h := nodetypeLoop_eq line ws (bs ++ [b])
      simp only [List.find?_cons, hk, reduceCtorEq, decide_false, List.filterMap_cons]
      rw [List.append_assoc, List.singleton_append] at h
      rw [← h]
      match bs with
      | [] => rfl
      | [c] => rfl
      | c :: d :: bs => rfl

theorem constraintType_eq (r : Record) :
    readConstraintType T (headersOf T header) r
      = match (Spec.text T header .valueConstraintType r).map T.upper with
        | some k => if k = "PATTERN".toList then .pattern
            else if k = "PICKLIST".toList then .picklist else .ignored
        | none => .picklist := by
  unfold readConstraintType
  rw [cell_valueConstraintType, ← stripWhitespace_eq]
  cases hc : Spec.cell T header .valueConstraintType r with
  | none => rfl
  | some c =>
    simp only [Option.bind_some]
    cases hs : stripWhitespace T c with
    | none => rfl
    | some k =>
      simp only [Option.map_some]
      by_cases h1 : T.upper k = "PICKLIST".toList
      · simp only [h1]; rfl
      · simp only [h1, if_false]

theorem readValueConstraint_eq (r : Record) (s : Statement) (hs : s.constraint = none) :
    readValueConstraint T cfg (headersOf T header) r s
      = { s with constraint := Spec.constraint T cfg header r } := by
  unfold readValueConstraint Spec.constraint
  rw [constraintType_eq, cell_valueConstraint]
  cases hc : Spec.cell T header .valueConstraint r with
  | none => cases s; cases hs; rfl
  | some c =>
    have hpick : ∀ (t : Statement), t.constraint = none →
        (if parseValues c cfg.picklistDelimiter = [] then t
          else { t with constraint := some (.picklist (parseValues c cfg.picklistDelimiter)) })
        = { t with constraint := Spec.constraint.choices cfg c } := by
      intro t ht
      unfold Spec.constraint.choices parseValues
      rw [splitTerminator_eq]
      dsimp only
      generalize (if (c.splitOn cfg.picklistDelimiter).getLast? = some [] then _ else _) = ps
      by_cases hp : ps = []
      · subst hp
        cases t; cases ht; rfl
      · simp [hp]
    simp only [Option.bind_some]
    cases (Spec.text T header .valueConstraintType r).map T.upper with
    | none => exact hpick s hs
    | some k =>
      dsimp only
      by_cases h1 : k = "PATTERN".toList
      · simp only [h1, if_true]
      · by_cases h2 : k = "PICKLIST".toList
        · simp only [h2, if_true]
          exact hpick s hs
        · simp only [h1, h2, if_false]
          cases s; cases hs; rfl

theorem property_isNone (above : List Record) (r : Record) :
    (Spec.property T cfg header above r).isNone = (Spec.property T cfg header [] r).isNone := by
  unfold Spec.property
  cases Spec.placeholder T cfg header r with
  | none => rfl
  | some k => rfl

theorem fillStatement_eq (above : List Record) (r : Record) (line : Nat) (p : Str)
    (hp : Spec.property T cfg header above r = some p) :
    fillStatement T cfg (headersOf T header) r line ⟨p, line⟩
      = match Spec.rowError T cfg header line r with
        | some e => .error e
        | none => .ok ((Spec.statement T cfg header above line r).getD { property := ⟨p, line⟩ }) := by
  have hnone : (Spec.property T cfg header [] r).isNone = false := by
    rw [← property_isNone T cfg header above, hp]; rfl
  unfold Spec.rowError Spec.statement fillStatement
  rw [hp, hnone]
  simp only [Bool.false_eq_true, if_false, Option.map_some, Option.getD_some]
  have hlabel : readPropertyLabel T (headersOf T header) r { property := ⟨p, line⟩, line := some line }
      = { property := ⟨p, line⟩, line := some line,
          label := (Spec.text T header .propertyLabel r).map noNewline } := by
    unfold readPropertyLabel
    rw [cell_propertyLabel, ← stripWhitespace_eq]
    cases Spec.cell T header .propertyLabel r with
    | none => rfl
    | some l => simp only [Option.bind_some]; cases stripWhitespace T l <;> rfl
  rw [hlabel]
  generalize (Spec.text T header .propertyLabel r).map noNewline = lab
  unfold readMandatory
  rw [cell_mandatory]
  have hrest : ∀ (m : Option Bool),
      fillRepeatable T cfg (headersOf T header) r line
          { property := ⟨p, line⟩, line := some line, label := lab, mandatory := m }
        = (match ((Spec.cell T header .repeatable r).bind fun c =>
              if Spec.truth T c = none then some (Err.shouldBeBoolean "repeatable".toList c line) else none)
            <|> ((Spec.cell T header .valueNodetype r).bind fun c =>
              ((Spec.words c).find? fun w => Spec.kind T w = none).map
                fun w => Err.unexpectedNodeType w line) with
          | some e => Except.error e
          | none => .ok
            { property := ⟨p, line⟩
              label := lab
              mandatory := m
              repeatable := (Spec.cell T header .repeatable r).bind (Spec.truth T)
              nodetype := (Spec.cell T header .valueNodetype r).bind fun c =>
                Spec.nodeType ((Spec.words c).filterMap (Spec.kind T))
              datatypes := ((Spec.text T header .valueDatatype r).map
                fun c => (Spec.words c).map fun d => (⟨d, line⟩ : Id)).getD []
              constraint := Spec.constraint T cfg header r
              shape := (Spec.text T header .valueShape r).map fun c => ⟨c, line⟩
              note := (Spec.cell T header .note r).filter fun c => c ≠ []
              line := some line }) := by
    intro m
    have hlast : ∀ (q : Option Bool),
        fillNodetype T cfg (headersOf T header) r line
            { property := ⟨p, line⟩, line := some line, label := lab, mandatory := m, repeatable := q }
          = (match ((Spec.cell T header .valueNodetype r).bind fun c =>
                ((Spec.words c).find? fun w => Spec.kind T w = none).map
                  fun w => Err.unexpectedNodeType w line) with
            | some e => Except.error e
            | none => .ok
              { property := ⟨p, line⟩
                label := lab
                mandatory := m
                repeatable := q
                nodetype := (Spec.cell T header .valueNodetype r).bind fun c =>
                  Spec.nodeType ((Spec.words c).filterMap (Spec.kind T))
                datatypes := ((Spec.text T header .valueDatatype r).map
                  fun c => (Spec.words c).map fun d => (⟨d, line⟩ : Id)).getD []
                constraint := Spec.constraint T cfg header r
                shape := (Spec.text T header .valueShape r).map fun c => ⟨c, line⟩
                note := (Spec.cell T header .note r).filter fun c => c ≠ []
                line := some line }) := by
      intro q
      have hend : ∀ (n : Option NodeType),
          fillEnd T cfg (headersOf T header) r line
              { property := ⟨p, line⟩, line := some line, label := lab, mandatory := m,
                repeatable := q, nodetype := n }
            = { property := ⟨p, line⟩
                label := lab
                mandatory := m
                repeatable := q
                nodetype := n
                datatypes := ((Spec.text T header .valueDatatype r).map
                  fun c => (Spec.words c).map fun d => (⟨d, line⟩ : Id)).getD []
                constraint := Spec.constraint T cfg header r
                shape := (Spec.text T header .valueShape r).map fun c => ⟨c, line⟩
                note := (Spec.cell T header .note r).filter fun c => c ≠ []
                line := some line } := by
        intro n
        unfold fillEnd
        dsimp only
        have hd : readValueDatatype T (headersOf T header) r line
            { property := ⟨p, line⟩, line := some line, label := lab, mandatory := m,
              repeatable := q, nodetype := n }
            = { property := ⟨p, line⟩, line := some line, label := lab, mandatory := m,
                repeatable := q, nodetype := n,
                datatypes := ((Spec.text T header .valueDatatype r).map
                  fun c => (Spec.words c).map fun d => (⟨d, line⟩ : Id)).getD [] } := by
          unfold readValueDatatype
          rw [cell_valueDatatype, ← stripWhitespace_eq]
          cases Spec.cell T header .valueDatatype r with
          | none => rfl
          | some l =>
            simp only [Option.bind_some]
            cases stripWhitespace T l with
            | none => rfl
            | some k => simp [getStrs_eq]
        rw [hd]
        generalize Option.getD _ [] = ds
        have hsh : readValueShape T (headersOf T header) r line
            { property := ⟨p, line⟩, line := some line, label := lab, mandatory := m,
              repeatable := q, nodetype := n, datatypes := ds }
            = { property := ⟨p, line⟩, line := some line, label := lab, mandatory := m,
                repeatable := q, nodetype := n, datatypes := ds,
                shape := (Spec.text T header .valueShape r).map fun c => ⟨c, line⟩ } := by
          unfold readValueShape
          rw [cell_valueShape, ← stripWhitespace_eq]
          cases Spec.cell T header .valueShape r with
          | none => rfl
          | some l => simp only [Option.bind_some]; cases stripWhitespace T l <;> rfl
        rw [hsh, readValueConstraint_eq T cfg header r _ rfl]
        unfold readNote
        rw [cell_note]
        cases Spec.cell T header .note r with
        | none => rfl
        | some c => by_cases hc : c = [] <;> simp [hc, Option.filter]
      unfold fillNodetype readValueNodetype
      rw [cell_valueNodetype]
      cases Spec.cell T header .valueNodetype r with
      | none => simp only [Option.bind_none]; rw [hend none]
      | some c =>
        have hloop := nodetypeLoop_eq T line (Spec.words c) []
        simp only [Option.bind_some]
        rw [getStrs_eq]
        change nodetypeLoop T line none (Spec.words c) = _ at hloop
        rw [hloop]
        cases (Spec.words c).find? fun w => decide (Spec.kind T w = none) with
        | some w => rfl
        | none =>
          simp only [List.nil_append, Option.map_none]
          cases hn : Spec.nodeType ((Spec.words c).filterMap (Spec.kind T)) with
          | none => simp only; rw [hend none]
          | some n => simp only; rw [hend (some n)]
    unfold fillRepeatable readRepeatable
    rw [cell_repeatable]
    cases Spec.cell T header .repeatable r with
    | none => exact hlast none
    | some c =>
      simp only [Option.bind_some]
      rw [parseBoolean_eq]
      cases ht : Spec.truth T c with
      | none => rfl
      | some b => exact hlast (some b)
  cases Spec.cell T header .mandatory r with
  | none => exact hrest none
  | some c =>
    simp only [Option.bind_some]
    rw [parseBoolean_eq]
    cases ht : Spec.truth T c with
    | none => rfl
    | some b => exact hrest (some b)

end Tap

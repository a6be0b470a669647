import Verif.Tap.Lemmas
import Mathlib.Data.List.TakeWhile

/-! # Lemmas about the loops of the reader of DCTAP tables -/

namespace Tap

variable (T : Text) (cfg : Config) (header : Record)

/-- The counters say how often each placeholder was used in the rows above. -/
def Counters (ids : List (Str × Nat)) (above : List Record) : Prop :=
  ∀ k, lookupId k ids
    = if Spec.uses T cfg header k above = 0 then none else some (Spec.uses T cfg header k above - 1)

theorem counters_nil : Counters T cfg header [] [] := by
  intro k; simp [lookupId, Spec.uses]

theorem uses_snoc (k : Str) (above : List Record) (r : Record) :
    Spec.uses T cfg header k (above ++ [r])
      = Spec.uses T cfg header k above
        + if (Spec.placeholder T cfg header r).map Prod.fst = some k then 1 else 0 := by
  simp only [Spec.uses, List.countP_append, List.countP_cons, List.countP_nil, decide_eq_true_eq, Nat.zero_add]

theorem counters_other {ids above r} (h : Counters T cfg header ids above)
    (hr : Spec.placeholder T cfg header r = none) : Counters T cfg header ids (above ++ [r]) := by
  intro k
  rw [uses_snoc, hr]
  simpa using h k

theorem placeholderId_eq {ids above r k stem} (h : Counters T cfg header ids above)
    (hr : Spec.placeholder T cfg header r = some (k, stem)) :
    (placeholderId ids k).1 = Spec.uses T cfg header k above
      ∧ Counters T cfg header (placeholderId ids k).2 (above ++ [r]) := by
  unfold placeholderId
  rw [h k]
  by_cases h0 : Spec.uses T cfg header k above = 0
  · simp only [h0, if_true, true_and]
    intro j
    rw [uses_snoc, hr]
    by_cases hj : k = j
    · subst hj; simp [lookupId, h0]
    · have := h j
      simp [lookupId, hj, this]
  · simp only [h0, if_false]
    refine ⟨by omega, ?_⟩
    intro j
    rw [uses_snoc, hr]
    by_cases hj : k = j
    · subst hj
      simp [lookupId]
      omega
    · have := h j
      simp [lookupId, hj, this]

theorem getPropertyId_eq (st : State) (hh : st.headers = headersOf T header) (b : Spec.Row)
    (hc : Counters T cfg header st.ids b.above) :
    ∃ ids, Counters T cfg header ids (b.above ++ [b.cells]) ∧
      getPropertyId T cfg st b.cells b.line
        = ((Spec.property T cfg header b.above b.cells).map fun p => ⟨p, b.line⟩,
            { st with ids := ids, warnings := st.warnings ++ Spec.noProperty T header b }) := by
  obtain ⟨cur, cached, hdr, ids, ws, src⟩ := st
  dsimp only at hh hc
  subst hh
  unfold getPropertyId Spec.noProperty
  dsimp only
  rw [cell_propertyId, cell_propertyLabel]
  cases hp : Spec.cell T header .propertyId b.cells with
  | none =>
    have hpl : Spec.placeholder T cfg header b.cells = none := by simp [Spec.placeholder, hp]
    refine ⟨ids, counters_other T cfg header hc hpl, ?_⟩
    simp [Spec.property, hpl, hp]
  | some s =>
    match s with
    | [] =>
      cases hl : Spec.cell T header .propertyLabel b.cells with
      | none =>
        have hpl : Spec.placeholder T cfg header b.cells = none := by simp [Spec.placeholder, hp, hl]
        refine ⟨ids, counters_other T cfg header hc hpl, ?_⟩
        simp [Spec.property, hpl, hp, State.warn]
      | some l =>
        match l with
        | [] =>
          have hpl : Spec.placeholder T cfg header b.cells = none := by simp [Spec.placeholder, hp, hl]
          refine ⟨ids, counters_other T cfg header hc hpl, ?_⟩
          simp [Spec.property, hpl, hp, State.warn]
        | c :: cs =>
          cases he : cfg.emptyPropertyPlaceholder with
          | none =>
            have hpl : Spec.placeholder T cfg header b.cells = none := by
              simp [Spec.placeholder, hp, hl, he]
            refine ⟨ids, counters_other T cfg header hc hpl, ?_⟩
            simp [Spec.property, hpl, hp]
          | some stem =>
            have hpl : Spec.placeholder T cfg header b.cells = some ([], stem) := by
              simp [Spec.placeholder, hp, hl, he]
            obtain ⟨h1, h2⟩ := placeholderId_eq T cfg header hc hpl
            refine ⟨_, h2, ?_⟩
            simp [Spec.property, hpl, generatePropertyId, h1, propertyId, generate]
    | c :: cs =>
      have hph : cfg.placeholder (c :: cs) = cfg.propertyPlaceholders (c :: cs) := by
        simp [Config.placeholder]
      cases he : cfg.propertyPlaceholders (c :: cs) with
      | none =>
        have hpl : Spec.placeholder T cfg header b.cells = none := by
          simp [Spec.placeholder, hp, he]
        refine ⟨ids, counters_other T cfg header hc hpl, ?_⟩
        simp [Spec.property, hpl, hp, hph, he, propertyId]
      | some stem =>
        have hpl : Spec.placeholder T cfg header b.cells = some (trim T (c :: cs), stem) := by
          simp [Spec.placeholder, hp, he]
        obtain ⟨h1, h2⟩ := placeholderId_eq T cfg header hc hpl
        refine ⟨_, h2, ?_⟩
        simp [Spec.property, hpl, hph, he, generatePropertyId, h1, propertyId, generate]

/-- What a row adds to the state when nothing is wrong with it. -/
def State.plus (st : State) (ids : List (Str × Nat)) (stmts : List Statement) (ws : List Warning) : State :=
  { st with
    ids := ids
    warnings := st.warnings ++ ws
    current := { st.current with statements := st.current.statements ++ stmts } }

theorem addRow_eq (st : State) (hh : st.headers = headersOf T header) (b : Spec.Row)
    (hc : Counters T cfg header st.ids b.above) :
    ∃ ids, Counters T cfg header ids (b.above ++ [b.cells]) ∧
      addRow T cfg st b.cells b.line
        = match Spec.rowError T cfg header b.line b.cells with
          | some e => .error e
          | none => .ok (st.plus ids (Spec.statement T cfg header b.above b.line b.cells).toList
              (Spec.noProperty T header b)) := by
  obtain ⟨ids, hi, hg⟩ := getPropertyId_eq T cfg header st hh b hc
  refine ⟨ids, hi, ?_⟩
  unfold addRow record2statement
  rw [hg]
  cases hp : Spec.property T cfg header b.above b.cells with
  | none =>
    have hn : Spec.rowError T cfg header b.line b.cells = none := by
      unfold Spec.rowError
      rw [← property_isNone T cfg header b.above, hp]; rfl
    rw [hn]
    simp [Spec.statement, hp, State.plus]
  | some p =>
    simp only [Option.map_some]
    rw [hh, fillStatement_eq T cfg header b.above b.cells b.line p hp]
    cases Spec.rowError T cfg header b.line b.cells with
    | some e => rfl
    | none => simp [Spec.statement, hp, State.plus, Shape.addStatement, hh]

/-! ## Rows -/

/-- The identifier a row has itself. -/
def own (r : Record) : Str := ((Spec.cell T header .shapeId r).map (trim T)).getD []

/-- Does a record belong to the shape of the name? A record with an error is met on the way. -/
def mine (name : Str) (i : Item) : Bool :=
  match i.row with
  | none => true
  | some r => own T header r = [] || own T header r = name

/-- The rows in their places when all of them belong to the shape of the name. -/
theorem rows_append (name : Str) : ∀ (xs ys : List Item) (above : List Record),
    (∀ i ∈ xs, mine T header name i = true) →
    Spec.rows T header name above (xs ++ ys)
      = Spec.rows T header name above xs
        ++ Spec.rows T header name (above ++ xs.filterMap Item.row) ys
  | [], ys, above, _ => by simp [Spec.rows]
  | i :: xs, ys, above, h => by
    rw [List.cons_append, Spec.rows, Spec.rows]
    have hi := h i (by simp)
    have hxs : ∀ j ∈ xs, mine T header name j = true := fun j hj => h j (by simp [hj])
    cases hr : i.row with
    | none =>
      simp only [List.filterMap_cons, hr]
      exact rows_append name xs ys above hxs
    | some r =>
      have hn : (if own T header r = [] then name else own T header r) = name := by
        simp [mine, hr] at hi
        rcases hi with hi | hi <;> simp [hi]
      simp only [List.filterMap_cons, hr]
      unfold own at hn
      rw [hn, rows_append name xs ys _ hxs]
      simp

theorem rows_name (name : Str) : ∀ (xs : List Item) (above : List Record),
    (∀ i ∈ xs, mine T header name i = true) → ∀ b ∈ Spec.rows T header name above xs, b.name = name
  | [], above, _, b, hb => by simp [Spec.rows] at hb
  | i :: xs, above, h, b, hb => by
    rw [Spec.rows] at hb
    have hi := h i (by simp)
    have hxs : ∀ j ∈ xs, mine T header name j = true := fun j hj => h j (by simp [hj])
    cases hr : i.row with
    | none =>
      rw [hr] at hb
      exact rows_name name xs above hxs b hb
    | some r =>
      have hn : (if own T header r = [] then name else own T header r) = name := by
        simp [mine, hr] at hi
        rcases hi with hi | hi <;> simp [hi]
      rw [hr] at hb
      unfold own at hn
      simp only [hn] at hb
      rcases List.mem_cons.mp hb with rfl | hb
      · rfl
      · exact rows_name name xs _ hxs b hb

theorem State.plus_plus (st : State) (i j : List (Str × Nat)) (a b : List Statement) (v w : List Warning) :
    (st.plus i a v).plus j b w = st.plus j (a ++ b) (v ++ w) := by
  simp [State.plus]

/-- The statements of rows. -/
def stmts (bs : List Spec.Row) : List Statement :=
  bs.filterMap fun b => Spec.statement T cfg header b.above b.line b.cells

theorem rowsLoop_eq (id : Option Id) (name : Str) : ∀ (items : List Item) (st : State) (above : List Record),
    st.headers = headersOf T header → st.cached = none → Counters T cfg header st.ids above →
    (∀ i ∈ items, ∀ r ∈ i.row, sameShapeId id (getShapeId T (headersOf T header) r i.line)
      = mine T header name i) →
    match (items.takeWhile (mine T header name)).findSome? (Spec.itemError T cfg header) with
    | some e => rowsLoop T cfg id items st = .error e
    | none => ∃ ids,
        Counters T cfg header ids
          (above ++ (items.takeWhile (mine T header name)).filterMap Item.row) ∧
        rowsLoop T cfg id items st
          = .ok { st.plus ids
              (stmts T cfg header (Spec.rows T header name above (items.takeWhile (mine T header name))))
              ((Spec.rows T header name above (items.takeWhile (mine T header name))).flatMap
                (Spec.noProperty T header)) with
              src := (items.dropWhile (mine T header name)).tail
              cached := (items.dropWhile (mine T header name)).head?.bind
                fun i => i.row.map fun r => (r, i.line) }
  | [], st, above, hh, hca, hc, _ => by
    refine ⟨st.ids, by simpa using hc, ?_⟩
    cases st
    simp_all [rowsLoop, State.plus, stmts, Spec.rows]
  | i :: is, st, above, hh, hca, hc, hid => by
    have hid' : ∀ j ∈ is, ∀ r ∈ j.row, sameShapeId id (getShapeId T (headersOf T header) r j.line)
      = mine T header name j := fun j hj => hid j (by simp [hj])
    rw [rowsLoop]
    cases hr : i.row with
    | none =>
      have hm : mine T header name i = true := by simp [mine, hr]
      simp [List.takeWhile_cons, hm, Spec.itemError, hr]
    | some r =>
      have hs := hid i (by simp) r (by simp [hr])
      rw [← hh] at hs
      dsimp only
      rw [hs]
      by_cases hm : mine T header name i = true
      · have hown : (if own T header r = [] then name else own T header r) = name := by
          simp [mine, hr] at hm
          rcases hm with hm | hm <;> simp [hm]
        obtain ⟨ids, hi, hadd⟩ := addRow_eq T cfg header st hh ⟨r, i.line, above, name⟩ hc
        dsimp only at hi hadd
        simp only [hm, if_true, List.takeWhile_cons, List.dropWhile_cons, List.findSome?_cons]
        rw [hadd]
        have hie : Spec.itemError T cfg header i = Spec.rowError T cfg header i.line r := by
          simp [Spec.itemError, hr]
        rw [hie]
        cases he : Spec.rowError T cfg header i.line r with
        | some e => simp
        | none =>
          dsimp only
          have ih := rowsLoop_eq id name is
            (st.plus ids (Spec.statement T cfg header above i.line r).toList
              (Spec.noProperty T header ⟨r, i.line, above, name⟩)) (above ++ [r]) hh hca hi hid'
          cases hf : (is.takeWhile (mine T header name)).findSome? (Spec.itemError T cfg header) with
          | some e => rw [hf] at ih; exact ih
          | none =>
            rw [hf] at ih
            obtain ⟨ids', hi', hrun⟩ := ih
            refine ⟨ids', ?_, ?_⟩
            · simpa [List.filterMap_cons, hr, List.append_assoc] using hi'
            · rw [hrun, State.plus_plus]
              have hrows : Spec.rows T header name above (i :: is.takeWhile (mine T header name))
                  = ⟨r, i.line, above, name⟩
                    :: Spec.rows T header name (above ++ [r]) (is.takeWhile (mine T header name)) := by
                rw [Spec.rows, hr]
                unfold own at hown
                simp only [hown]
              rw [hrows]
              have hst : stmts T cfg header (⟨r, i.line, above, name⟩
                  :: Spec.rows T header name (above ++ [r]) (is.takeWhile (mine T header name)))
                  = (Spec.statement T cfg header above i.line r).toList
                    ++ stmts T cfg header
                      (Spec.rows T header name (above ++ [r]) (is.takeWhile (mine T header name))) := by
                unfold stmts
                rw [List.filterMap_cons]
                cases Spec.statement T cfg header above i.line r <;> rfl
              rw [hst, List.flatMap_cons]
      · simp only [Bool.not_eq_true] at hm
        simp only [hm, List.takeWhile_cons, List.dropWhile_cons, Bool.false_eq_true, if_false]
        refine ⟨st.ids, by simpa using hc, ?_⟩
        simp [State.plus, stmts, Spec.rows, hr, hh]

/-! ## Shapes -/

/-- The records still to come. -/
def State.todo (st : State) : List Item :=
  (st.cached.map fun c => (⟨c.2, some c.1⟩ : Item)).toList ++ st.src

theorem firstRecord_nil (n : Nat) (st : State) (h : st.todo = []) :
    firstRecord T (n + 1) st = .ok (none, st) := by
  unfold State.todo at h
  cases hc : st.cached with
  | some c => simp [hc] at h
  | none =>
    simp [hc] at h
    simp [firstRecord, nextRecord, hc, h]

theorem firstRecord_cons (n : Nat) (st : State) (i : Item) (is : List Item) (h : st.todo = i :: is)
    (hb : ∀ r ∈ i.row, ¬ Spec.Blank T r) :
    firstRecord T (n + 1) st
      = match i.row with
        | none => .error (.csv i.line)
        | some r => .ok (some (r, i.line), { st with cached := none, src := is }) := by
  unfold State.todo at h
  have hemp : ∀ r ∈ i.row, isEmptyRecord T r = false := by
    intro r hr
    have := hb r hr
    unfold Spec.Blank at this
    simpa [isEmptyRecord] using this
  cases hc : st.cached with
  | some c =>
    simp [hc] at h
    obtain ⟨rfl, rfl⟩ := h
    have := hemp c.1 (by simp)
    simp [firstRecord, nextRecord, hc, this]
  | none =>
    simp [hc] at h
    cases hr : i.row with
    | none => simp [firstRecord, nextRecord, hc, h, hr]
    | some r =>
      have := hemp r (by simp [hr])
      simp [firstRecord, nextRecord, hc, h, hr, this]

/-- Rows of full length have a cell in each column there is. -/
theorem cell_isSome {r : Record} (hr : header.length ≤ r.length) (c : Col) :
    (Spec.cell T header c r).isSome = (Spec.column T header c).isSome := by
  unfold Spec.cell
  cases hc : Spec.column T header c with
  | none => rfl
  | some i =>
    have hi : i ∈ header.findIdxs fun f => decide (T.upper (trim T f) = c.name) :=
      List.mem_of_getLast? hc
    have : i < header.length := by
      rw [List.mem_findIdxs_iff_exists_getElem_pos] at hi
      exact hi.1
    simp [List.getElem?_eq_getElem (Nat.lt_of_lt_of_le this hr)]

theorem readExtendsId_eq (st : State) (hh : st.headers = headersOf T header) (r : Record) (line : Nat) :
    readExtendsId T st r line
      = { st with current := ((Spec.text T header .extendsId r).map
            fun c => st.current.addExtendsId c line).getD st.current } := by
  unfold readExtendsId
  rw [hh, cell_extendsId, ← stripWhitespace_eq, ← hh]
  cases Spec.cell T header .extendsId r with
  | none => rfl
  | some s => simp only [Option.bind_some]; cases stripWhitespace T s <;> rfl

theorem readExtendsLabel_eq (st : State) (hh : st.headers = headersOf T header) (r : Record) (line : Nat) :
    readExtendsLabel st r line
      = match st.current.extends_, (Spec.cell T header .extendsLabel r).getD [] with
        | [], c :: cs => st.warn (.extendsLabelWithoutExtendsId (c :: cs) line)
        | e :: es, c :: cs =>
          { st with current := { st.current with extends_ := { e with label := some (c :: cs) } :: es } }
        | _, [] => st := by
  unfold readExtendsLabel
  rw [hh, cell_extendsLabel, ← hh]
  cases hl : Spec.cell T header .extendsLabel r with
  | none => cases st.current.extends_ <;> rfl
  | some l =>
    match l with
    | [] => cases st.current.extends_ <;> rfl
    | c :: cs => cases he : st.current.extends_ <;> simp [Shape.addExtendsLabel, he]

theorem startShape_eq (st : State) (hh : st.headers = headersOf T header) (b : Spec.Row)
    (hr : header.length ≤ b.cells.length)
    (hlab : Spec.column T header .shapeLabel = none → st.current.label = none)
    (hcol : Spec.column T header .shapeId = none → st.current = {}) :
    startShape T st b.cells b.line
      = { st with
          current := { Spec.shape T cfg header [b] with statements := [] }
          warnings := st.warnings ++ Spec.loneLabel T header b } := by
  obtain ⟨cur, cached, hdr, ids, ws, src⟩ := st
  dsimp only at hh hlab hcol
  subst hh
  have hli := cell_isSome T header hr .shapeLabel
  have hii := cell_isSome T header hr .shapeId
  -- the identifier and the label
  have h1 : readShapeLabel T
      (startId T ⟨cur, cached, headersOf T header, ids, ws, src⟩ b.cells b.line) b.cells
      = ⟨{ Spec.shape T cfg header [b] with statements := [], extends_ := [] }, cached,
            headersOf T header, ids, ws, src⟩ := by
    unfold startId getShapeId
    dsimp only
    rw [cell_shapeId]
    cases hi : Spec.cell T header .shapeId b.cells with
    | none =>
      rw [hi] at hii
      have hc := hcol (by simpa using hii.symm)
      subst hc
      simp only [Option.map_none, readShapeLabel]
      rw [cell_shapeLabel]
      cases hl : Spec.cell T header .shapeLabel b.cells with
      | none => simp [Spec.shape, hi, hl]
      | some l => simp [Spec.shape, hi, hl, Shape.setLabel]
    | some x =>
      simp only [Option.map_some, readShapeLabel]
      rw [cell_shapeLabel]
      cases hl : Spec.cell T header .shapeLabel b.cells with
      | none =>
        rw [hl] at hli
        have hc := hlab (by simpa using hli.symm)
        simp [Spec.shape, hi, hl, Shape.setId, hc]
      | some l => simp [Spec.shape, hi, hl, Shape.setLabel, Shape.setId]
  unfold startShape
  rw [h1, readExtendsId_eq T header _ rfl, readExtendsLabel_eq T header _ (by rfl)]
  unfold Spec.loneLabel
  cases hx : Spec.text T header .extendsId b.cells with
  | none =>
    cases hl : (Spec.cell T header .extendsLabel b.cells).getD [] with
    | nil => simp [Spec.shape, Spec.extends_, hx]
    | cons c cs => simp [Spec.shape, Spec.extends_, hx, State.warn]
  | some s =>
    cases hl : Spec.cell T header .extendsLabel b.cells with
    | none => simp [Spec.shape, Spec.extends_, hx, hl, Shape.addExtendsId]
    | some l =>
      match l with
      | [] => simp [Spec.shape, Spec.extends_, hx, hl, Shape.addExtendsId, Option.filter]
      | c :: cs => simp [Spec.shape, Spec.extends_, hx, hl, Shape.addExtendsId, Option.filter]

theorem blank_own {r : Record} (h : Spec.Blank T r) : own T header r = [] := by
  unfold own Spec.cell
  cases Spec.column T header .shapeId with
  | none => rfl
  | some i =>
    simp only [Option.bind_some]
    cases hi : r[i]? with
    | none => rfl
    | some f => exact h f (List.mem_of_getElem? hi)

theorem sameShapeId_eq {r r' : Record} (line : Nat) (i : Item) (hi : i.row = some r')
    (hr : header.length ≤ r.length) (hr' : header.length ≤ r'.length) :
    sameShapeId (getShapeId T (headersOf T header) r line) (getShapeId T (headersOf T header) r' i.line)
      = mine T header (own T header r) i := by
  have h1 := cell_isSome T header hr .shapeId
  have h2 := cell_isSome T header hr' .shapeId
  unfold getShapeId
  rw [cell_shapeId, cell_shapeId]
  rcases Option.eq_none_or_eq_some (Spec.cell T header .shapeId r) with hc | ⟨s, hc⟩
  · rw [hc] at h1
    rw [← h1] at h2
    have : Spec.cell T header .shapeId r' = none := by
      cases h : Spec.cell T header .shapeId r' <;> simp_all
    simp [mine, own, hi, hc, this, sameShapeId]
  · rw [hc] at h1
    rw [← h1] at h2
    obtain ⟨s', hs'⟩ := Option.isSome_iff_exists.mp h2
    have ho : own T header r = trim T s := by simp [own, hc]
    have ho' : own T header r' = trim T s' := by simp [own, hs']
    rw [hc, hs']
    simp only [mine, hi, Option.map_some, sameShapeId, ho, ho']
    by_cases h0 : trim T s' = []
    · simp [h0]
    · simp only [h0, if_false, decide_false, Bool.false_or, decide_eq_decide]
      exact eq_comm

theorem blocks_append (xs ys : List Spec.Row) (name : Str) (hne : xs ≠ [])
    (hx : ∀ b ∈ xs, b.name = name) (hy : ∀ b ∈ ys.head?, b.name ≠ name) :
    Spec.blocks (xs ++ ys) = xs :: Spec.blocks ys := by
  unfold Spec.blocks
  rw [List.splitBy_append, List.splitBy_of_isChain hne]
  · rfl
  · rw [List.isChain_iff_getElem]
    intro i hi
    rw [hx _ (List.getElem_mem _), hx _ (List.getElem_mem _)]
    simp
  · intro x hx' y hy'
    have h1 := hx x (List.mem_of_mem_getLast? hx')
    have h2 := hy y hy'
    rw [h1]
    simpa using fun h => h2 h.symm

theorem readShape_eq (st : State) (b : Spec.Row) (is : List Item)
    (htodo : st.todo = ⟨b.line, some b.cells⟩ :: is) (hh : st.headers = headersOf T header)
    (hc : Counters T cfg header st.ids b.above) (hfull : Spec.Full header (⟨b.line, some b.cells⟩ :: is))
    (hlab : Spec.column T header .shapeLabel = none → st.current.label = none)
    (hcol : Spec.column T header .shapeId = none → st.current = {})
    (hname : b.name = own T header b.cells) (hblank : ¬ Spec.Blank T b.cells) :
    match Spec.rowError T cfg header b.line b.cells
        <|> (is.takeWhile (mine T header b.name)).findSome? (Spec.itemError T cfg header) with
    | some e => readShape T cfg st = .error e
    | none => ∃ ids,
        Counters T cfg header ids
          (b.above ++ [b.cells] ++ (is.takeWhile (mine T header b.name)).filterMap Item.row) ∧
        readShape T cfg st = .ok (some
          { current := Spec.shape T cfg header
              (b :: Spec.rows T header b.name (b.above ++ [b.cells])
                (is.takeWhile (mine T header b.name)))
            cached := (is.dropWhile (mine T header b.name)).head?.bind
                fun i => i.row.map fun r => (r, i.line)
            headers := headersOf T header
            ids := ids
            warnings := st.warnings ++ Spec.warnings T header
              (b :: Spec.rows T header b.name (b.above ++ [b.cells])
                (is.takeWhile (mine T header b.name)))
            src := (is.dropWhile (mine T header b.name)).tail }) := by
  have hlen : header.length ≤ b.cells.length := hfull ⟨b.line, some b.cells⟩ (by simp) b.cells (by simp)
  have hfirst := firstRecord_cons T (st.src.length + 1) st ⟨b.line, some b.cells⟩ is htodo
    (by simpa using hblank)
  have hss := startShape_eq T cfg header { st with cached := none, src := is } hh b hlen hlab hcol
  obtain ⟨ids, hi, hadd⟩ := addRow_eq T cfg header
    { st with
      cached := none, src := is,
      current := { Spec.shape T cfg header [b] with statements := [] }
      warnings := st.warnings ++ Spec.loneLabel T header b } hh b hc
  rw [readShape, hfirst]
  dsimp only at hss hadd ⊢
  rw [hss, hadd]
  cases he : Spec.rowError T cfg header b.line b.cells with
  | some e => simp
  | none =>
    have hrl := rowsLoop_eq T cfg header (getShapeId T (headersOf T header) b.cells b.line)
      b.name is
      (State.plus
        { st with
          cached := none, src := is,
          current := { Spec.shape T cfg header [b] with statements := [] }
          warnings := st.warnings ++ Spec.loneLabel T header b }
        ids (Spec.statement T cfg header b.above b.line b.cells).toList (Spec.noProperty T header b))
      (b.above ++ [b.cells]) hh rfl hi
      (fun j hj r' hr' => by
        rw [hname]
        exact sameShapeId_eq T header b.line j hr' hlen (hfull j (by simp [hj]) r' hr'))
    have hnone : ∀ x : Option Err, (none <|> x) = x := by intro x; cases x <;> rfl
    rw [hnone]
    have hhead : (State.plus
        { st with
          cached := none, src := is,
          current := { Spec.shape T cfg header [b] with statements := [] }
          warnings := st.warnings ++ Spec.loneLabel T header b }
        ids (Spec.statement T cfg header b.above b.line b.cells).toList
          (Spec.noProperty T header b)).headers = headersOf T header := hh
    cases hf : (is.takeWhile (mine T header b.name)).findSome? (Spec.itemError T cfg header) with
    | some e =>
      rw [hf] at hrl
      dsimp only at hrl ⊢
      rw [hhead]
      simp only [State.plus] at hrl ⊢
      rw [hrl]
    | none =>
      rw [hf] at hrl
      obtain ⟨ids', hi', hrun⟩ := hrl
      refine ⟨ids', hi', ?_⟩
      dsimp only at hrun ⊢
      rw [hhead]
      simp only [State.plus] at hrun ⊢
      rw [hrun]
      have hst : ∀ bs : List Spec.Row, (Spec.shape T cfg header (b :: bs))
          = { Spec.shape T cfg header [b] with
              statements := (Spec.statement T cfg header b.above b.line b.cells).toList
                ++ stmts T cfg header bs } := by
        intro bs
        simp only [Spec.shape, stmts, List.filterMap_cons]
        cases Spec.statement T cfg header b.above b.line b.cells <;> rfl
      have h1 : (Spec.shape T cfg header (b :: Spec.rows T header b.name (b.above ++ [b.cells])
            (is.takeWhile (mine T header b.name))))
          = { Spec.shape T cfg header [b] with
              statements := (Spec.statement T cfg header b.above b.line b.cells).toList
                ++ stmts T cfg header (Spec.rows T header b.name (b.above ++ [b.cells])
                    (is.takeWhile (mine T header b.name))) } := hst _
      simp [h1, Spec.warnings, hh]

theorem shapesLoop_eq : ∀ (n : Nat) (st : State) (items : List Item) (name : Str) (above : List Record),
    items.length < n → st.todo = items → st.headers = headersOf T header →
    Counters T cfg header st.ids above → Spec.Full header items →
    (Spec.column T header .shapeLabel = none → st.current.label = none) →
    (Spec.column T header .shapeId = none → st.current = {} ∨ items = []) →
    (∀ i ∈ items.head?, ∀ r ∈ i.row, ¬ Spec.Blank T r ∧ (own T header r ≠ [] ∨ name = [])) →
    shapesLoop T cfg n st
      = match items.findSome? (Spec.itemError T cfg header) with
        | some e => .error e
        | none => .ok ((Spec.blocks (Spec.rows T header name above items)).map (Spec.shape T cfg header),
            st.warnings ++ (Spec.blocks (Spec.rows T header name above items)).flatMap
              (Spec.warnings T header))
  | 0, st, items, name, above, hn, _, _, _, _, _, _, _ => by omega
  | n + 1, st, [], name, above, hn, htodo, hh, hc, hfull, hlab, hcol, hstart => by
    rw [shapesLoop, readShape, firstRecord_nil T _ st htodo]
    simp [Spec.rows, Spec.blocks]
  | n + 1, st, ⟨line, none⟩ :: is, name, above, hn, htodo, hh, hc, hfull, hlab, hcol, hstart => by
    rw [shapesLoop, readShape, firstRecord_cons T _ st _ is htodo (by simp)]
    rw [List.findSome?_cons]
    simp [Spec.itemError]
  | n + 1, st, ⟨line, some r⟩ :: is, name, above, hn, htodo, hh, hc, hfull, hlab, hcol, hstart => by
    have hst := (hstart ⟨line, some r⟩ (by simp) r (by simp)).2
    have hcol' : Spec.column T header .shapeId = none → st.current = {} := by
      intro h; rcases hcol h with h | h
      · exact h
      · simp at h
    have hrs := readShape_eq T cfg header st ⟨r, line, above, own T header r⟩ is htodo hh hc hfull hlab
      hcol' rfl (hstart ⟨line, some r⟩ (by simp) r (by simp)).1
    dsimp only at hrs
    rw [shapesLoop]
    have hfind : (⟨line, some r⟩ :: is).findSome? (Spec.itemError T cfg header)
        = ((Spec.rowError T cfg header line r <|>
            (is.takeWhile (mine T header (own T header r))).findSome? (Spec.itemError T cfg header))
          <|> (is.dropWhile (mine T header (own T header r))).findSome? (Spec.itemError T cfg header)) := by
      rw [List.findSome?_cons]
      conv_lhs => rw [← List.takeWhile_append_dropWhile (p := mine T header (own T header r)) (l := is)]
      rw [List.findSome?_append]
      simp only [Spec.itemError]
      cases Spec.rowError T cfg header line r with
      | some e => rfl
      | none => cases (is.takeWhile (mine T header (own T header r))).findSome? _ <;> rfl
    rw [hfind]
    cases hf : (Spec.rowError T cfg header line r <|>
        (is.takeWhile (mine T header (own T header r))).findSome? (Spec.itemError T cfg header)) with
    | some e =>
      rw [hf] at hrs
      dsimp only at hrs
      rw [hrs]
      rfl
    | none =>
      rw [hf] at hrs
      obtain ⟨ids, hi, hrun⟩ := hrs
      rw [hrun]
      dsimp only
      set ys := is.dropWhile (mine T header (own T header r)) with hys
      set xs := is.takeWhile (mine T header (own T header r)) with hxs
      have hsub : ∀ y ∈ ys, y ∈ is := fun y hy => (List.dropWhile_suffix _).subset hy
      have hnot : ∀ y ∈ ys.head?, mine T header (own T header r) y = false := by
        intro y hy
        have := List.head?_dropWhile_not (mine T header (own T header r)) is
        rw [← hys, Option.mem_def.mp hy] at this
        simpa using this
      have hrow : ∀ y ∈ ys.head?, ∃ q, y.row = some q ∧ own T header q ≠ [] ∧ own T header q ≠ own T header r := by
        intro y hy
        have h := hnot y hy
        cases hq : y.row with
        | none => simp [mine, hq] at h
        | some q =>
          simp [mine, hq] at h
          exact ⟨q, rfl, h.1, h.2⟩
      have hlen : ys.length ≤ is.length := (List.dropWhile_suffix _).length_le
      have ih := shapesLoop_eq n
        { current := Spec.shape T cfg header
            (⟨r, line, above, own T header r⟩ :: Spec.rows T header (own T header r) (above ++ [r]) xs)
          cached := ys.head?.bind fun i => i.row.map fun r => (r, i.line)
          headers := headersOf T header
          ids := ids
          warnings := st.warnings ++ Spec.warnings T header
            (⟨r, line, above, own T header r⟩ :: Spec.rows T header (own T header r) (above ++ [r]) xs)
          src := ys.tail } ys (own T header r) (above ++ [r] ++ xs.filterMap Item.row)
        (by simp at hn; omega)
        (by
          cases hy : ys with
          | nil => simp [State.todo]
          | cons y ys' =>
            obtain ⟨q, hq, _⟩ := hrow y (by simp [hy])
            obtain ⟨yl, yr⟩ := y
            dsimp only at hq
            subst hq
            simp [State.todo])
        rfl hi (fun y hy => hfull y (by simp [hsub y hy]))
        (by
          intro h
          have := cell_isSome T header (hfull ⟨line, some r⟩ (by simp) r (by simp)) .shapeLabel
          rw [h] at this
          simp [Spec.shape] at this ⊢
          exact this)
        (by
          intro h
          right
          cases hy : ys with
          | nil => rfl
          | cons y ys' =>
            obtain ⟨q, hq, h1, _⟩ := hrow y (by simp [hy])
            exact absurd (by simp [own, Spec.cell, h]) h1)
        (by
          intro y hy q hq
          obtain ⟨q', hq', h1, _⟩ := hrow y hy
          have : q = q' := by rw [Option.mem_def, hq'] at hq; simpa using hq.symm
          subst this
          exact ⟨fun hb => h1 (blank_own T header hb), Or.inl h1⟩)
      rw [ih]
      have hrows : Spec.rows T header name above (⟨line, some r⟩ :: is)
          = (⟨r, line, above, own T header r⟩ :: Spec.rows T header (own T header r) (above ++ [r]) xs)
            ++ Spec.rows T header (own T header r) (above ++ [r] ++ xs.filterMap Item.row) ys := by
        rw [Spec.rows]
        have hown : (if ((Spec.cell T header .shapeId r).map (trim T)).getD [] = [] then name
            else ((Spec.cell T header .shapeId r).map (trim T)).getD []) = own T header r := by
          unfold own at hst ⊢
          rcases hst with h | h
          · simp only [h, if_false]
          · subst h
            split_ifs with h0
            · exact h0.symm
            · rfl
        dsimp only
        rw [hown, List.cons_append]
        congr 1
        conv_lhs => rw [← List.takeWhile_append_dropWhile (p := mine T header (own T header r)) (l := is)]
        rw [rows_append T header _ _ _ _ (fun j hj => by simpa using List.mem_takeWhile_imp hj)]
      have hblocks := blocks_append
        (⟨r, line, above, own T header r⟩ :: Spec.rows T header (own T header r) (above ++ [r]) xs)
        (Spec.rows T header (own T header r) (above ++ [r] ++ xs.filterMap Item.row) ys) (own T header r)
        (by simp)
        (by
          intro b hb
          rcases List.mem_cons.mp hb with rfl | hb
          · rfl
          · exact rows_name T header _ xs _ (fun j hj => by simpa using List.mem_takeWhile_imp hj) b hb)
        (by
          intro b hb
          cases hy : ys with
          | nil => rw [hy] at hb; simp [Spec.rows] at hb
          | cons y ys' =>
            obtain ⟨q, hq, h1, h2⟩ := hrow y (by simp [hy])
            rw [hy, Spec.rows, hq] at hb
            have h1' := h1
            unfold own at h1'
            simp only [h1', if_false, List.head?_cons, Option.mem_def, Option.some.injEq] at hb
            rw [← hb]
            exact h2)
      rw [hrows, hblocks]
      have hnone : ∀ x : Option Err, (none <|> x) = x := by intro x; cases x <;> rfl
      rw [hnone]
      cases ys.findSome? (Spec.itemError T cfg header) with
      | some e => rfl
      | none => simp

theorem firstRecord_blank (st : State) (n : Nat) (line : Nat) (r : Record) (is : List Item)
    (hc : st.cached = none) (hs : st.src = ⟨line, some r⟩ :: is) (hb : Spec.Blank T r) :
    firstRecord T (n + 1) st = firstRecord T n { st with src := is } := by
  have hemp : isEmptyRecord T r = true := by
    unfold Spec.Blank at hb
    simpa [isEmptyRecord] using hb
  obtain ⟨cur, cached, hdr, ids, ws, src⟩ := st
  dsimp only at hc hs
  subst hc hs
  simp [firstRecord, nextRecord, hemp]

theorem firstRecord_body (h : Headers) : ∀ (items : List Item) (n : Nat), items.length < n →
    ∃ m, 0 < m ∧ firstRecord T n { headers := h, src := items }
      = firstRecord T m { headers := h, src := Spec.body T items }
  | [], n, hn => ⟨n, hn, by simp [Spec.body]⟩
  | ⟨line, none⟩ :: is, n, hn => ⟨n, by omega, by simp [Spec.body]⟩
  | ⟨line, some r⟩ :: is, n, hn => by
    by_cases hb : Spec.Blank T r
    · obtain ⟨n, rfl⟩ : ∃ k, n = k + 1 := ⟨n - 1, by omega⟩
      rw [firstRecord_blank T _ n line r is rfl rfl hb]
      obtain ⟨m, hm, h⟩ := firstRecord_body h is n (by simp at hn; omega)
      refine ⟨m, hm, ?_⟩
      rw [show Spec.body T (⟨line, some r⟩ :: is) = Spec.body T is by simp [Spec.body, hb]]
      exact h
    · exact ⟨n, by omega, by simp [Spec.body, hb]⟩

/-- The fuel of the loop over blank rows makes no difference. -/
theorem firstRecord_fuel (h : Headers) (items : List Item)
    (hb : ∀ i ∈ items.head?, ∀ r ∈ i.row, ¬ Spec.Blank T r) (m n : Nat) (hm : 0 < m) (hn : 0 < n) :
    firstRecord T m { headers := h, src := items } = firstRecord T n { headers := h, src := items } := by
  obtain ⟨m, rfl⟩ : ∃ k, m = k + 1 := ⟨m - 1, by omega⟩
  obtain ⟨n, rfl⟩ : ∃ k, n = k + 1 := ⟨n - 1, by omega⟩
  cases items with
  | nil => rw [firstRecord_nil T m _ rfl, firstRecord_nil T n _ rfl]
  | cons i is =>
    rw [firstRecord_cons T m _ i is rfl (hb i (by simp)), firstRecord_cons T n _ i is rfl (hb i (by simp))]

theorem body_head (items : List Item) : ∀ i ∈ (Spec.body T items).head?, ∀ r ∈ i.row, ¬ Spec.Blank T r := by
  intro i hi r hr hb
  have := List.head?_dropWhile_not (fun i : Item => decide (∃ r ∈ i.row, Spec.Blank T r)) items
  unfold Spec.body at hi
  rw [Option.mem_def.mp hi] at this
  have h2 : ¬ ∃ r ∈ i.row, Spec.Blank T r := by simpa using this
  exact h2 ⟨r, hr, hb⟩

theorem fromReader_eq (items : List Item) (hfull : Spec.Full header (Spec.body T items)) :
    fromReader T cfg header items = Spec.table T cfg header items := by
  have hhead := body_head T items
  have hbody : fromReader T cfg header items
      = shapesLoop T cfg (items.length + 1) { headers := headersOf T header, src := Spec.body T items } := by
    rw [fromReader, shapesLoop, shapesLoop, readShape, readShape]
    obtain ⟨m, hm, h⟩ := firstRecord_body T (headersOf T header) items (items.length + 2) (by omega)
    dsimp only
    rw [h, firstRecord_fuel T (headersOf T header) (Spec.body T items) hhead m
      ((Spec.body T items).length + 2) hm (by omega)]
  rw [hbody, shapesLoop_eq T cfg header (items.length + 1) _ (Spec.body T items) [] [] _ rfl rfl
    (counters_nil T cfg header) hfull (fun _ => rfl) (fun _ => Or.inl rfl)
    (fun i hi r hr => ⟨hhead i hi r hr, Or.inr rfl⟩)]
  · rw [Spec.table]
    cases (Spec.body T items).findSome? (Spec.itemError T cfg header) with
    | some e => rfl
    | none => simp
  · have : (Spec.body T items).length ≤ items.length := (List.dropWhile_suffix _).length_le
    omega

end Tap

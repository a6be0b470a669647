import Verif.Pg.BuildLemmas

/-!
# Specification and lemmas: texts of graphs
-/

namespace Pg

/-! ## What a text says -/

/-- The name that an identifier stands for. -/
def NameOf : SrcName → String → Prop
  | .bare t, n => n = t
  | .quoted t, n => ∃ body, Quoted t body ∧ n = String.ofList (unescape body)

/-- The values that are written for a property. -/
def SrcValues.items : SrcValues → List SrcValue
  | .single v => [v]
  | .list vs => vs

/-- The labels and the properties written in a body: a key that is written more than once has all the values. -/
structure Carries (D : Dates) (b : SrcBody) (L : LabelSet) (r : Record) : Prop where
  labels : ∀ l, l ∈ L ↔ ∃ nm ∈ b.labels, NameOf nm l
  keys : ∀ k, (∃ vs, r.lookup k = some vs) ↔ ∃ e ∈ b.props, NameOf e.1 k
  values : ∀ k v, v ∈ valuesIn r k ↔ ∃ e ∈ b.props, NameOf e.1 k ∧ ∃ w ∈ e.2.items, Denotes D w v

/-- The last statement of the text that declares a node of this name. -/
def LastDecl (p : List GStmt) (name : String) (b : SrcBody) : Prop :=
  ∃ pre post, p = pre ++ .node name b :: post ∧ ∀ b', GStmt.node name b' ∉ post

/-- The number of edges of a text. -/
def edgeCount : List GStmt → Nat
  | [] => 0
  | .edge _ _ _ _ :: rest => edgeCount rest + 1
  | .node _ _ :: rest => edgeCount rest

/-- An identifier is as the lexer makes it, and no quote is escaped. -/
def SrcName.Plain : SrcName → Prop
  | .bare _ => True
  | .quoted t => IsPlain t

/-- The same for a body. -/
def SrcBody.Plain (b : SrcBody) : Prop :=
  (∀ nm ∈ b.labels, nm.Plain) ∧ ∀ e ∈ b.props, e.1.Plain ∧ ∀ w ∈ e.2.items, w.Plain

/-- The body of a statement. -/
def GStmt.body : GStmt → SrcBody
  | .node _ b => b
  | .edge _ _ b _ => b

/-- Every number and date of a body can be read. -/
def SrcBody.Readable (D : Dates) (b : SrcBody) : Prop := ∀ e ∈ b.props, ∀ w ∈ e.2.items, w.Readable D

/-- The ends of every edge are declared before it. -/
def EndsDeclared (p : List GStmt) : Prop :=
  ∀ pre id s b t post, p = pre ++ .edge id s b t :: post →
    (∃ b', GStmt.node s b' ∈ pre) ∧ ∃ b', GStmt.node t b' ∈ pre

/-! ## Bodies -/

theorem text_nameOf (nm : SrcName) (h : nm.Plain) (n : String) : NameOf nm n ↔ n = nm.text := by
  cases nm with
  | bare t => exact Iff.rfl
  | quoted t =>
    obtain ⟨body, hq, hb⟩ := h
    have ht : SrcName.text (.quoted t) = String.ofList body := by
      unfold Quoted at hq
      simp [SrcName.text, hq]
    rw [ht]
    constructor
    · rintro ⟨b, hb', rfl⟩
      rw [quoted_inj t _ _ hb' hq, unescape_plain body hb]
    · rintro rfl
      exact ⟨body, hq, by rw [unescape_plain body hb]⟩

theorem buildValueList_mem (D : Dates) (vs : List SrcValue) (hp : ∀ w ∈ vs, w.Plain) (acc xs : Finset Value)
    (h : buildValueList D vs acc = some xs) (v : Value) : v ∈ xs ↔ v ∈ acc ∨ ∃ w ∈ vs, Denotes D w v := by
  induction vs generalizing acc with
  | nil =>
    cases h
    simp
  | cons w vs ih =>
    simp only [buildValueList] at h
    cases hx : buildValue D w with
    | none => rw [hx] at h; cases h
    | some x =>
      rw [hx] at h
      rw [ih (fun w hw => hp w (by simp [hw])) _ h]
      simp only [Finset.mem_insert, List.mem_cons, exists_eq_or_imp, buildValue_denotes D w (hp w (by simp)) x hx v]
      tauto

theorem buildValues_mem (D : Dates) (vs : SrcValues) (hp : ∀ w ∈ vs.items, w.Plain) (xs : Finset Value)
    (h : buildValues D vs = some xs) (v : Value) : v ∈ xs ↔ ∃ w ∈ vs.items, Denotes D w v := by
  cases vs with
  | single w =>
    simp only [buildValues, Option.map_eq_some_iff] at h
    obtain ⟨x, hx, rfl⟩ := h
    simp [SrcValues.items, buildValue_denotes D w (hp w (by simp [SrcValues.items])) x hx v]
  | list ws =>
    simp only [buildValues] at h
    rw [buildValueList_mem D ws hp ∅ xs h v]
    simp [SrcValues.items]

theorem buildRecord_reads (D : Dates) (ps : List (SrcName × SrcValues))
    (hp : ∀ e ∈ ps, e.1.Plain ∧ ∀ w ∈ e.2.items, w.Plain) (r0 r : Record) (h : buildRecord D ps r0 = some r) (k : String) :
    ((∃ vs, r.lookup k = some vs) ↔ (∃ vs, r0.lookup k = some vs) ∨ ∃ e ∈ ps, NameOf e.1 k) ∧
    ∀ v, v ∈ valuesIn r k ↔ v ∈ valuesIn r0 k ∨ ∃ e ∈ ps, NameOf e.1 k ∧ ∃ w ∈ e.2.items, Denotes D w v := by
  induction ps generalizing r0 with
  | nil =>
    cases h
    simp
  | cons e ps ih =>
    obtain ⟨nm, vs⟩ := e
    simp only [buildRecord] at h
    cases hx : buildValues D vs with
    | none => rw [hx] at h; cases h
    | some xs =>
      rw [hx] at h
      obtain ⟨h1, h2⟩ := ih (fun e he => hp e (by simp [he])) _ h
      have hn := text_nameOf nm (hp (nm, vs) (by simp)).1 k
      have hv := buildValues_mem D vs (hp (nm, vs) (by simp)).2 xs hx
      refine ⟨?_, fun v => ?_⟩
      · rw [h1]
        simp only [Record.insertValues, lookup_insert_if, List.mem_cons, exists_eq_or_imp, hn]
        by_cases hk : k = nm.text
        · simp [hk]
        · simp [hk]
      · rw [h2]
        simp only [List.mem_cons, exists_eq_or_imp, hn, ← hv v]
        have : v ∈ valuesIn (Record.insertValues r0 nm.text xs) k ↔ v ∈ valuesIn r0 k ∨ (k = nm.text ∧ v ∈ xs) := by
          simp only [valuesIn, Record.insertValues, lookup_insert_if]
          by_cases hk : k = nm.text
          · subst hk
            simp
          · simp [hk]
        rw [this, or_assoc]

theorem buildBody_carries (D : Dates) (b : SrcBody) (hp : b.Plain) (L : LabelSet) (r : Record)
    (h : buildBody D b = some (L, r)) : Carries D b L r := by
  simp only [buildBody, Option.map_eq_some_iff, Prod.mk.injEq] at h
  obtain ⟨r', hr, rfl, rfl⟩ := h
  have key := buildRecord_reads D b.props hp.2 ∅ r' hr
  refine ⟨fun l => ?_, fun k => ?_, fun k v => ?_⟩
  · simp only [List.mem_toFinset, List.mem_map]
    constructor
    · rintro ⟨nm, hm, rfl⟩
      exact ⟨nm, hm, (text_nameOf nm (hp.1 nm hm) _).2 rfl⟩
    · rintro ⟨nm, hm, hn⟩
      exact ⟨nm, hm, ((text_nameOf nm (hp.1 nm hm) _).1 hn).symm⟩
  · rw [(key k).1]
    simp
  · rw [(key k).2]
    simp [valuesIn]

theorem buildValueList_isSome (D : Dates) (vs : List SrcValue) (hp : ∀ w ∈ vs, w.Plain) (acc : Finset Value) :
    (∃ xs, buildValueList D vs acc = some xs) ↔ ∀ w ∈ vs, w.Readable D := by
  induction vs generalizing acc with
  | nil => simp [buildValueList]
  | cons w vs ih =>
    simp only [buildValueList, List.mem_cons, forall_eq_or_imp, ← buildValue_isSome D w (hp w (by simp))]
    cases buildValue D w with
    | none => simp
    | some x => simp [ih fun w hw => hp w (by simp [hw])]

theorem buildValues_isSome (D : Dates) (vs : SrcValues) (hp : ∀ w ∈ vs.items, w.Plain) :
    (∃ xs, buildValues D vs = some xs) ↔ ∀ w ∈ vs.items, w.Readable D := by
  cases vs with
  | single w =>
    rw [buildValues, map_isSome, buildValue_isSome D w (hp w (by simp [SrcValues.items]))]
    simp [SrcValues.items]
  | list ws => exact buildValueList_isSome D ws hp ∅

theorem buildRecord_isSome (D : Dates) (ps : List (SrcName × SrcValues))
    (hp : ∀ e ∈ ps, e.1.Plain ∧ ∀ w ∈ e.2.items, w.Plain) (r0 : Record) :
    (∃ r, buildRecord D ps r0 = some r) ↔ ∀ e ∈ ps, ∀ w ∈ e.2.items, w.Readable D := by
  induction ps generalizing r0 with
  | nil => simp [buildRecord]
  | cons e ps ih =>
    obtain ⟨nm, vs⟩ := e
    simp only [buildRecord, List.mem_cons, forall_eq_or_imp, ← buildValues_isSome D vs (hp (nm, vs) (by simp)).2]
    cases buildValues D vs with
    | none => simp
    | some xs => simp [ih fun e he => hp e (by simp [he])]

theorem buildBody_isSome (D : Dates) (b : SrcBody) (hp : b.Plain) : (∃ x, buildBody D b = some x) ↔ b.Readable D := by
  rw [buildBody, map_isSome]
  exact buildRecord_isSome D b.props hp.2 ∅

/-! ## Statements -/

theorem lastDecl_snoc (p : List GStmt) (st : GStmt) (name : String) (b : SrcBody) :
    LastDecl (p ++ [st]) name b ↔
      st = .node name b ∨ ((∀ b', st ≠ .node name b') ∧ LastDecl p name b) := by
  constructor
  · rintro ⟨pre, post, h, hn⟩
    rcases List.eq_nil_or_concat post with rfl | ⟨post', x, rfl⟩
    · left
      have := List.append_inj' h rfl
      simpa using this.2
    · right
      have h' : p ++ [st] = (pre ++ GStmt.node name b :: post') ++ [x] := by simp [h]
      have := List.append_inj' h' rfl
      obtain ⟨rfl, h2⟩ := this
      simp only [List.cons.injEq, and_true] at h2
      subst h2
      refine ⟨fun b' he => hn b' (by simp [he]), pre, post', rfl, fun b' hm => hn b' (by simp [hm])⟩
  · rintro (rfl | ⟨hne, pre, post, rfl, hn⟩)
    · exact ⟨p, [], rfl, by simp⟩
    · refine ⟨pre, post ++ [st], by simp, fun b' hm => ?_⟩
      rcases List.mem_append.1 hm with hm | hm
      · exact hn b' hm
      · exact hne b' (List.mem_singleton.1 hm).symm

theorem lastDecl_mem (p : List GStmt) (name : String) (b : SrcBody) (h : LastDecl p name b) :
    GStmt.node name b ∈ p := by
  obtain ⟨pre, post, rfl, _⟩ := h
  simp

theorem mem_lastDecl (p : List GStmt) (name : String) (a : SrcBody) (h : GStmt.node name a ∈ p) :
    ∃ b, LastDecl p name b := by
  induction p using List.reverseRecOn with
  | nil => cases h
  | append_singleton p st ih =>
    by_cases hst : ∃ b, st = .node name b
    · obtain ⟨b, rfl⟩ := hst
      exact ⟨b, (lastDecl_snoc _ _ _ _).2 (Or.inl rfl)⟩
    · rcases List.mem_append.1 h with h | h
      · obtain ⟨b, hb⟩ := ih h
        exact ⟨b, (lastDecl_snoc _ _ _ _).2 (Or.inr ⟨fun c hc => hst ⟨c, hc⟩, hb⟩)⟩
      · exact absurd ⟨a, (List.mem_singleton.1 h).symm⟩ hst

theorem lastDecl_unique (p : List GStmt) (name : String) (a b : SrcBody) (ha : LastDecl p name a)
    (hb : LastDecl p name b) : a = b := by
  induction p using List.reverseRecOn with
  | nil =>
    obtain ⟨pre, post, h, _⟩ := ha
    simp at h
  | append_singleton p st ih =>
    rw [lastDecl_snoc] at ha hb
    rcases ha with rfl | ⟨ha, ha'⟩ <;> rcases hb with hb | ⟨hb, hb'⟩
    · cases hb
      rfl
    · exact absurd rfl (hb a)
    · exact absurd hb (ha b)
    · exact ih ha' hb'

theorem buildGStmts_append (D : Dates) (G : Graph) (p q : List GStmt) :
    buildGStmts D G (p ++ q) = match buildGStmts D G p with
      | some G' => buildGStmts D G' q
      | none => none := by
  induction p generalizing G with
  | nil => rfl
  | cons st p ih =>
    simp only [List.cons_append, buildGStmts]
    cases buildGStmt D G st <;> simp [ih]

theorem edgeCount_snoc (p : List GStmt) (st : GStmt) :
    edgeCount (p ++ [st]) = edgeCount p + match st with | .edge _ _ _ _ => 1 | .node _ _ => 0 := by
  induction p with
  | nil => cases st <;> rfl
  | cons x p ih =>
    cases x <;> simp only [List.cons_append, edgeCount, ih] <;> omega

/-- An end of an edge in the graph of a text. -/
structure EndOk (D : Dates) (G : Graph) (pre post : List GStmt) (name : String) (id : Nat) : Prop where
  carries : ∃ b n, LastDecl pre name b ∧ G.nodes.lookup id = some n ∧ Carries D b n.labels n.properties
  kept : (∀ b, GStmt.node name b ∉ post) → G.nodeNames.lookup name = some id

/-- An edge in the graph of a text. -/
structure EdgeOk (D : Dates) (G : Graph) (pre post : List GStmt) (id : Option String) (s : String) (b : SrcBody)
    (t : String) (e : Edge) : Prop where
  found : G.edges.lookup (edgeCount pre) = some e
  carries : Carries D b e.labels e.properties
  source : EndOk D G pre post s e.source
  target : EndOk D G pre post t e.target
  named : ∀ nm, id = some nm → nm ≠ "" → (∀ s' b' t', GStmt.edge (some nm) s' b' t' ∉ post) →
    G.edgeNames.lookup nm = some (edgeCount pre)

/-- What the graph of a text contains. -/
structure FromGText (D : Dates) (p : List GStmt) (G : Graph) : Prop where
  node : ∀ name id, G.nodeNames.lookup name = some id →
    ∃ b n, LastDecl p name b ∧ G.nodes.lookup id = some n ∧ Carries D b n.labels n.properties
  last : ∀ name b, LastDecl p name b → ∃ id, G.nodeNames.lookup name = some id
  nbound : ∀ id n, G.nodes.lookup id = some n → id < G.nodeCounter
  ecount : G.edgeCounter = edgeCount p
  ebound : ∀ id e, G.edges.lookup id = some e → id < G.edgeCounter
  edge : ∀ pre id s b t post, p = pre ++ .edge id s b t :: post → ∃ e, EdgeOk D G pre post id s b t e

theorem fromGText_new (D : Dates) : FromGText D [] Graph.new where
  node := by intro name id h; simp [Graph.new] at h
  last := by
    rintro name spec ⟨pre, post, h, _⟩
    simp at h
  nbound := by intro id s h; simp [Graph.new] at h
  ecount := rfl
  ebound := by intro id T h; simp [Graph.new] at h
  edge := by intro pre id s b t post h; simp at h

theorem snoc_split {α : Type} (p pre post : List α) (st x : α) (h : p ++ [st] = pre ++ x :: post) :
    (post = [] ∧ pre = p ∧ x = st) ∨ ∃ post', post = post' ++ [st] ∧ p = pre ++ x :: post' := by
  rcases List.eq_nil_or_concat post with rfl | ⟨post', y, rfl⟩
  · left
    have := List.append_inj' h rfl
    simp only [List.cons.injEq, and_true] at this
    exact ⟨rfl, this.1.symm, this.2.symm⟩
  · right
    have h' : p ++ [st] = (pre ++ x :: post') ++ [y] := by simp [h]
    have := List.append_inj' h' rfl
    obtain ⟨h1, h2⟩ := this
    simp only [List.cons.injEq, and_true] at h2
    exact ⟨post', by simp [h2], h1⟩

theorem fromGText_node (D : Dates) (p : List GStmt) (G : Graph) (h : FromGText D p G) (name : String) (b : SrcBody)
    (L : LabelSet) (r : Record) (hb : Carries D b L r) :
    FromGText D (p ++ [.node name b]) (G.addNode name L r) where
  node := by
    intro n id hl
    simp only [Graph.addNode, lookup_insert_if] at hl ⊢
    split at hl
    · cases hl
      subst n
      exact ⟨b, _, (lastDecl_snoc _ _ _ _).2 (Or.inl rfl), by rw [if_pos rfl], hb⟩
    · rename_i hne
      obtain ⟨b', n', h1, h2, h3⟩ := h.node n id hl
      refine ⟨b', n', (lastDecl_snoc _ _ _ _).2 (Or.inr ⟨fun c hc => hne ?_, h1⟩), ?_, h3⟩
      · simp only [GStmt.node.injEq] at hc
        exact hc.1.symm
      · rw [if_neg (Nat.ne_of_lt (h.nbound id n' h2)), h2]
  last := by
    intro n b' hl
    simp only [Graph.addNode, lookup_insert_if]
    split
    · exact ⟨_, rfl⟩
    · rename_i hne
      rcases (lastDecl_snoc _ _ _ _).1 hl with hc | ⟨_, hl⟩
      · simp only [GStmt.node.injEq] at hc
        exact absurd hc.1.symm hne
      · exact h.last n b' hl
  nbound := by
    intro id n hl
    simp only [Graph.addNode, lookup_insert_if] at hl ⊢
    split at hl
    · subst id
      exact Nat.lt_succ_self _
    · exact Nat.lt_succ_of_lt (h.nbound id n hl)
  ecount := by
    rw [edgeCount_snoc]
    exact h.ecount
  ebound := h.ebound
  edge := by
    intro pre id s b' t post hp
    rcases snoc_split _ _ _ _ _ hp with ⟨_, _, hx⟩ | ⟨post', rfl, hp'⟩
    · cases hx
    · obtain ⟨e, he⟩ := h.edge pre id s b' t post' hp'
      have ends : ∀ x i, EndOk D G pre post' x i →
          EndOk D (G.addNode name L r) pre (post' ++ [.node name b]) x i := by
        rintro x i ⟨⟨b0, n0, h1, h2, h3⟩, h4⟩
        refine ⟨⟨b0, n0, h1, ?_, h3⟩, fun hno => ?_⟩
        · simp only [Graph.addNode, lookup_insert_if]
          rw [if_neg (Nat.ne_of_lt (h.nbound i n0 h2)), h2]
        · simp only [Graph.addNode, lookup_insert_if]
          rw [if_neg, h4 fun b0 hm => hno b0 (by simp [hm])]
          rintro rfl
          exact hno b (by simp)
      exact ⟨e, he.found, he.carries, ends s _ he.source, ends t _ he.target,
        fun nm hid hne hno => he.named nm hid hne fun s' b' t' hm => hno s' b' t' (by simp [hm])⟩

theorem fromGText_edge (D : Dates) (p : List GStmt) (G : Graph) (h : FromGText D p G) (id : Option String)
    (s t : String) (b : SrcBody) (L : LabelSet) (r : Record) (hb : Carries D b L r) (G' : Graph)
    (ha : G.addEdge id s L r t = (G', true)) : FromGText D (p ++ [.edge id s b t]) G' := by
  unfold Graph.addEdge at ha
  cases hs : G.nodeNames.lookup s with
  | none => rw [hs] at ha; simp at ha
  | some si =>
    cases ht : G.nodeNames.lookup t with
    | none => rw [hs, ht] at ha; simp at ha
    | some ti =>
      rw [hs, ht] at ha
      simp only [Prod.mk.injEq, and_true] at ha
      subst ha
      refine ⟨?_, ?_, h.nbound, ?_, ?_, ?_⟩
      · intro n i hl
        obtain ⟨b', n', h1, h2, h3⟩ := h.node n i hl
        exact ⟨b', n', (lastDecl_snoc _ _ _ _).2 (Or.inr ⟨fun c hc => (by cases hc), h1⟩), h2, h3⟩
      · intro n b' hl
        rcases (lastDecl_snoc _ _ _ _).1 hl with hc | ⟨_, hl⟩
        · cases hc
        · exact h.last n b' hl
      · rw [edgeCount_snoc]
        show G.edgeCounter + 1 = _
        rw [h.ecount]
      · intro i e hl
        simp only [lookup_insert_if] at hl ⊢
        split at hl
        · subst i
          exact Nat.lt_succ_self _
        · exact Nat.lt_succ_of_lt (h.ebound i e hl)
      · intro pre id' s' b' t' post hp
        rcases snoc_split _ _ _ _ _ hp with ⟨rfl, rfl, hx⟩ | ⟨post', rfl, hp'⟩
        · simp only [GStmt.edge.injEq] at hx
          obtain ⟨rfl, rfl, rfl, rfl⟩ := hx
          refine ⟨⟨G.edgeCounter, si, ti, L, r⟩, ?_, hb, ⟨?_, fun _ => hs⟩, ⟨?_, fun _ => ht⟩, ?_⟩
          · simp only [lookup_insert_if, h.ecount, if_true]
          · obtain ⟨b', n', h1, h2, h3⟩ := h.node s' si hs
            exact ⟨b', n', h1, h2, h3⟩
          · obtain ⟨b', n', h1, h2, h3⟩ := h.node t' ti ht
            exact ⟨b', n', h1, h2, h3⟩
          · rintro nm rfl _ _
            simp only [lookup_insert_if, h.ecount, Option.getD_some, if_true]
        · obtain ⟨e, he⟩ := h.edge pre id' s' b' t' post' hp'
          have ends : ∀ x i, EndOk D G pre post' x i → ∀ G0 : Graph, G0.nodes = G.nodes → G0.nodeNames = G.nodeNames →
              EndOk D G0 pre (post' ++ [.edge id s b t]) x i := by
            rintro x i ⟨⟨b0, n0, h1, h2, h3⟩, h4⟩ G0 e1 e2
            refine ⟨⟨b0, n0, h1, by rw [e1, h2], h3⟩, fun hno => ?_⟩
            rw [e2, h4 fun b0 hm => hno b0 (by simp [hm])]
          refine ⟨e, ?_, he.carries, ends s' _ he.source _ rfl rfl, ends t' _ he.target _ rfl rfl, ?_⟩
          · simp only [lookup_insert_if]
            rw [if_neg (Nat.ne_of_lt (h.ebound _ e he.found)), he.found]
          · intro nm hid hne hno
            simp only [lookup_insert_if]
            rw [if_neg, he.named nm hid hne fun s' b' t' hm => hno s' b' t' (by simp [hm])]
            rintro rfl
            cases id with
            | none => exact hne rfl
            | some x => exact hno s b t (by simp)

/-- Every statement of the text is plain. -/
def PlainGraphText (p : List GStmt) : Prop := ∀ st ∈ p, st.body.Plain

theorem buildGStmt_fromGText (D : Dates) (p : List GStmt) (st : GStmt) (hp : st.body.Plain) (G G' : Graph)
    (h : FromGText D p G) (hb : buildGStmt D G st = some G') : FromGText D (p ++ [st]) G' := by
  cases st with
  | node id b =>
    simp only [buildGStmt, Option.map_eq_some_iff] at hb
    obtain ⟨⟨L, r⟩, hx, rfl⟩ := hb
    exact fromGText_node D p G h id b L r (buildBody_carries D b hp L r hx)
  | edge id s b t =>
    simp only [buildGStmt] at hb
    cases hx : buildBody D b with
    | none => rw [hx] at hb; cases hb
    | some x =>
      obtain ⟨L, r⟩ := x
      rw [hx] at hb
      simp only at hb
      split at hb
      · rename_i G0 hG
        cases hb
        exact fromGText_edge D p G h id s t b L r (buildBody_carries D b hp L r hx) _ hG
      · cases hb

theorem buildGraph_fromGText (D : Dates) (p : List GStmt) (hp : PlainGraphText p) (G : Graph)
    (h : buildGraph D p = some G) : FromGText D p G := by
  induction p using List.reverseRecOn generalizing G with
  | nil =>
    cases h
    exact fromGText_new D
  | append_singleton p st ih =>
    simp only [buildGraph, buildGStmts_append] at h
    cases hq : buildGStmts D Graph.new p with
    | none => rw [hq] at h; cases h
    | some G0 =>
      rw [hq] at h
      simp only [buildGStmts] at h
      cases hs : buildGStmt D G0 st with
      | none => rw [hs] at h; cases h
      | some G1 =>
        rw [hs] at h
        simp only [Option.some.injEq] at h
        subst h
        exact buildGStmt_fromGText D p st (hp st (by simp)) G0 G1 (ih (fun st hm => hp st (by simp [hm])) G0 hq) hs

end Pg

import Verif.Pg.BuildLemmas

/-!
# Properties: texts of schemas

C86: what a schema text says is what nodes and edges are checked against.
-/

namespace Pg

/-- A calendar for the examples: one date. -/
def exDates : Dates := ⟨fun s => if s = "2024-01-01" then some 19723 else none⟩

/-- What C86 says of one text: every declared node type without `|`, whose names lead somewhere, accepts exactly the
nodes that the text describes. -/
def ReadAsWritten (X : Ext) (D : Dates) (p : List Stmt) : Prop :=
  ∀ (S : Schema) (name : String) (spec : SrcSpec), buildSchema D p = .ok S → LastNode p name spec → Grounded p spec →
    (∀ nm sp l, Stmt.node nm sp ∈ p → sp.labels = some l → l.NoBar) →
    ∀ (n : Node) (fuel : Nat) (v : Verdict), S.conformsNode X fuel name n = some v →
      (Positively v ↔ Says X D p n.properties spec n.labels (keysOf n.properties))

/-- The simple types `INTEGER` and `STRING`. -/
def exInt : SrcSimple := .kind .integer none none
def exStr : SrcSimple := .kind .string none none

/-- `CREATE NODE TYPE (T: A {k: INTEGER & INTEGER & STRING})` -/
def exThird : List Stmt :=
  [.node (some "T") ⟨some (.label "A"), some (.base false "k" ⟨exInt, .inter exInt (.inter exStr .nil)⟩)⟩]

/-- C86, refuted. The third part of a type is not read: a property that is asked to be an integer, an integer and a
string accepts an integer. -/
theorem C86_third_type_refuted : ¬ ReadAsWritten exExt exDates exThird := by
  intro h
  let r : Record := Record.insertValue ∅ "k" (.integer 1)
  have := (h _ "T" _ rfl ⟨[], [], rfl, by simp⟩ (.label _ _)
    (fun nm sp l hm hl => by
      simp only [exThird, List.mem_singleton, Stmt.node.injEq] at hm
      obtain ⟨_, rfl⟩ := hm
      cases hl
      trivial)
    ⟨0, {"A"}, r⟩ 5 (.ok [.labelsContent]) (by decide)).1 ⟨_, rfl⟩
  generalize hL : ({"A"} : LabelSet) = L at this
  generalize hK : keysOf r = K at this
  cases this with
  | @props l ps L' K1 K2 _ hp =>
    rcases hp with ⟨_, vs, hvs, ht⟩ | ⟨h0, _⟩
    · have hvs' : r.lookup "k" = some vs := hvs
      have : vs = {.integer 1} := by
        rw [show r.lookup "k" = some {.integer 1} from by decide] at hvs'
        exact (Option.some.inj hvs').symm
      subst this
      have : SaysSimple exExt exDates exStr {.integer 1} := ht.2
      obtain ⟨s, hs⟩ := this.2.1 (.integer 1) (by simp)
      cases hs
    · cases h0

/-- `CREATE NODE TYPE (T {k: STRING})` -/
def exUnlabelled : List Stmt := [.node (some "T") ⟨none, some (.base false "k" ⟨exStr, .nil⟩)⟩]

/-- C86, refuted. The properties of a type without labels are not read, and the type accepts nothing: a node without
labels that has the property is rejected. -/
theorem C86_unlabelled_refuted : ¬ ReadAsWritten exExt exDates exUnlabelled := by
  intro h
  let r : Record := Record.insertValue ∅ "k" (.string "x")
  have := (h _ "T" _ rfl ⟨[], [], rfl, by simp⟩ (.nothing _)
    (fun nm sp l hm hl => by
      simp only [exUnlabelled, List.mem_singleton, Stmt.node.injEq] at hm
      obtain ⟨_, rfl⟩ := hm
      cases hl)
    ⟨0, ∅, r⟩ 5 (.error [.labels]) (by decide)).2 ?_
  · obtain ⟨_, h⟩ := this
    cases h
  · have hk : keysOf r = ∅ ∪ {"k"} := by decide
    rw [hk]
    refine .props .nothing (Or.inl ⟨rfl, {.string "x"}, by decide, ?_⟩)
    refine ⟨rfl, ?_, by simp [Checked]⟩
    intro v hv
    simp only [Finset.mem_singleton] at hv
    exact ⟨"x", hv⟩

/-- `CREATE NODE TYPE (T: A {k: STRING CHECK = "a\"b"})` -/
def exEscaped : List Stmt :=
  [.node (some "T") ⟨some (.label "A"),
    some (.base false "k" ⟨.kind .string none (some (.eq (.str "\"a\\\"b\""))), .nil⟩)⟩]

/-- C86, refuted. An escaped quote is not turned into a quote: a value equal to the text that the token stands for is
rejected. -/
theorem C86_escape_refuted : ¬ ReadAsWritten exExt exDates exEscaped := by
  intro h
  let r : Record := Record.insertValue ∅ "k" (.string "a\"b")
  have := (h _ "T" _ rfl ⟨[], [], rfl, by simp⟩ (.label _ _)
    (fun nm sp l hm hl => by
      simp only [exEscaped, List.mem_singleton, Stmt.node.injEq] at hm
      obtain ⟨_, rfl⟩ := hm
      cases hl
      trivial)
    ⟨0, {"A"}, r⟩ 5 (.error [.content]) (by decide)).2 ?_
  · obtain ⟨_, h⟩ := this
    cases h
  · have hk : keysOf r = ∅ ∪ {"k"} := by decide
    rw [hk]
    refine .props (.label "A") (Or.inl ⟨rfl, {.string "a\"b"}, by decide, ?_⟩)
    have hv : ∀ v ∈ ({.string "a\"b"} : Finset Value), v = .string "a\"b" := by simp
    refine ⟨rfl, fun v h => ⟨_, hv v h⟩, ?_⟩
    intro e he v h
    cases he
    rw [hv v h]
    exact ⟨trivial, .str (body := ['a', '\\', '"', 'b']) rfl⟩

/-- The check against a specification built from a plain text, when no label has `|`. -/
theorem spec_conforms (X : Ext) (D : Dates) (p : List Stmt) (hp : PlainText p) (S : Schema) (h : FromText D p S)
    (hno : ∀ nm sp l, Stmt.node nm sp ∈ p → sp.labels = some l → l.NoBar) (spec : SrcSpec) (hs : spec.Plain)
    (hn : ∀ l, spec.labels = some l → l.NoBar) (hg : Grounded p spec) (s : Spec) (hb : buildSpec D spec = some s) :
    ∃ n0 t, (∀ fuel, n0 ≤ fuel → s.semantics S fuel = some (.ok t)) ∧
      ∀ L r, Positively (t.conforms X L r) ↔ Says X D p r spec L (keysOf r) := by
  have noOr : ∀ (sp : SrcSpec) (u : Spec), (∀ l, sp.labels = some l → l.NoBar) → buildSpec D sp = some u → NoOr u := by
    rintro ⟨labels, props⟩ u hl hu
    cases labels with
    | none => cases hu; trivial
    | some l =>
      have := (buildLabels_noOr l).2 (hl l rfl)
      cases props with
      | none => cases hu; exact this
      | some ps =>
        simp only [buildSpec, Option.map_eq_some_iff] at hu
        obtain ⟨pv, _, rfl⟩ := hu
        exact this
  have hS : LabelledSchema S := by
    intro id u hu
    obtain ⟨_, nm, sp, hm, hb⟩ := h.types id u hu
    exact buildSpec_labelled D sp (hp _ hm).2 u hb
  have hO : ∀ i u, S.nodeTypes.lookup i = some u → NoOr u := by
    intro i u hu
    obtain ⟨_, nm, sp, hm, hb⟩ := h.types i u hu
    exact noOr sp u (fun l hl => hno nm sp l hm hl) hb
  obtain ⟨n0, t, ht⟩ := semantics_resolves S s (grounded_resolves D p hp S h spec hg s hb)
  refine ⟨n0, t, ht, fun L r => ?_⟩
  rw [base_closed_conforms X t (semantics_never_open S n0 s t (ht n0 le_rfl)).2]
  obtain ⟨_, b, c⟩ := semantics_labelled X S hS r n0 s (buildSpec_labelled D spec hs s hb) t (ht n0 le_rfl)
  rw [b, c]
  constructor
  · rintro ⟨h1, h2⟩
    exact describes_says X D p hp S h r s L _ (both_describes X S hO r s (noOr spec s hn hb) _ _ h1 h2) spec hs hb
  · intro hsay
    exact describes_both X S r s L _ (says_describes X D p hp S h r spec L _ hsay hs s hb)

/-- C86, the part that holds. For texts in which every specification has a label, types have at most two parts and no
quote is escaped: the check of a node against a declared type whose type names lead to declared types ends; it accepts
every node that the last declaration of the type describes; and when no labels are joined by `|` it accepts exactly
those. Missing: the three exceptions, refuted above, and `|` between labels, refuted in C44 and C81. -/
theorem C86_schema_text_partial (X : Ext) (D : Dates) (p : List Stmt) (hp : PlainText p) (S : Schema)
    (h : buildSchema D p = .ok S) (name : String) (spec : SrcSpec) (hl : LastNode p name spec) (hg : Grounded p spec)
    (n : Node) :
    ∃ v n0, (∀ fuel, n0 ≤ fuel → S.conformsNode X fuel name n = some v) ∧
      (Says X D p n.properties spec n.labels (keysOf n.properties) → Positively v) ∧
      ((∀ nm sp l, Stmt.node nm sp ∈ p → sp.labels = some l → l.NoBar) →
        (Positively v ↔ Says X D p n.properties spec n.labels (keysOf n.properties))) := by
  have hf := buildSchema_fromText D p (plain_named p hp) S h
  have hm := hp _ (lastNode_mem p name spec hl)
  obtain ⟨id, hid⟩ := hf.last name spec hl
  obtain ⟨spec', s, h1, h2, h3⟩ := hf.node name id (hm.1 name rfl) hid
  cases lastNode_unique p name spec spec' hl h1
  have hS : LabelledSchema S := by
    intro id u hu
    obtain ⟨_, nm, sp, hm, hb⟩ := hf.types id u hu
    exact buildSpec_labelled D sp (hp _ hm).2 u hb
  obtain ⟨v, n0, hv, _, ha, _⟩ :=
    C81_node_types_partial X S hS name id s hid h2 (grounded_resolves D p hp S hf spec hg s h3) n
  refine ⟨v, n0, hv, fun hsay => ha (says_describes X D p hp S hf _ spec _ _ hsay hm.2 s h3), fun hno => ?_⟩
  obtain ⟨n1, t, ht, he⟩ := spec_conforms X D p hp S hf hno spec hm.2
    (fun l hl' => hno _ spec l (lastNode_mem p name spec hl) hl') hg s h3
  have e1 := hv (max n0 n1) (le_max_left _ _)
  simp only [Schema.conformsNode, hid, h2, ht (max n0 n1) (le_max_right _ _), Option.some.injEq] at e1
  rw [← e1]
  exact he _ _

/-- `CREATE NODE TYPE (P: Person {name: STRING, OPTIONAL age: INTEGER CHECK >= 18});
CREATE NODE TYPE (Q: Student & @P)` -/
def exText : List Stmt :=
  [.node (some "P") ⟨some (.label "Person"),
      some (.eachOf (.base false "name" ⟨exStr, .nil⟩)
        (.base true "age" ⟨.kind .integer none (some (.ge (.num "18"))), .nil⟩))⟩,
    .node (some "Q") ⟨some (.conj (.label "Student") (.typeName "P")), none⟩]

/-- The text is plain, its second type leads to the first, and the schema is built from it. -/
example : PlainText exText ∧ (∃ S, buildSchema exDates exText = .ok S ∧
      (S.conformsNode exExt 6 "Q" ⟨0, {"Student", "Person"},
        Record.insertValue (Record.insertValue ∅ "name" (.string "Ann")) "age" (.integer 17)⟩) = some (.error [.content])) ∧
    ∃ spec, LastNode exText "Q" spec ∧ Grounded exText spec := by
  refine ⟨?_, ⟨_, rfl, by decide⟩, _, ⟨[exText[0]], [], rfl, by simp⟩, ?_⟩
  · intro st hst
    simp only [exText, List.mem_cons, List.not_mem_nil, or_false] at hst
    rcases hst with rfl | rfl
    · refine ⟨fun n hn => by cases hn; exact ⟨'P', [], rfl, rfl⟩, ⟨_, rfl, trivial⟩, fun ps hps => ?_⟩
      cases hps
      refine ⟨⟨⟨by simp, by simp⟩, Or.inl rfl⟩, ⟨⟨by simp, fun e he => ?_⟩, Or.inl rfl⟩⟩
      cases he
      show IsNumber "18"
      unfold IsNumber
      decide
    · refine ⟨fun n hn => by cases hn; exact ⟨'Q', [], rfl, rfl⟩, ⟨_, rfl, trivial, ⟨'P', [], rfl, rfl⟩⟩, by simp⟩
  · have h1 : LastNode exText "P" ⟨some (.label "Person"), _⟩ := ⟨[], [exText[1]], rfl, by simp [exText]⟩
    exact .conj _ (.label _ _) (.typeName _ h1 (.label _ _))

/-- C86. A name that the text does not declare is not a type of the schema, even if there are types without a name. -/
theorem C86_undeclared (X : Ext) (D : Dates) (p : List Stmt) (hp : PlainText p) (S : Schema)
    (h : buildSchema D p = .ok S) (name : String) (hi : IsIdent name) (hn : ∀ spec, Stmt.node (some name) spec ∉ p)
    (fuel : Nat) (n : Node) : S.conformsNode X fuel name n = some (.error [.missingLabel name]) := by
  have hf := buildSchema_fromText D p (plain_named p hp) S h
  have : S.nodeNames.lookup name = none := by
    cases hl : S.nodeNames.lookup name with
    | none => rfl
    | some id =>
      obtain ⟨spec, s, h1, _⟩ := hf.node name id hi hl
      exact absurd (lastNode_mem p name spec h1) (hn spec)
  simp [Schema.conformsNode, this]

example : ∃ S, buildSchema exDates [.node none ⟨some (.label "A"), none⟩] = .ok S ∧
    S.conformsNode exExt 3 "A" ⟨0, {"A"}, ∅⟩ = some (.error [.missingLabel "A"]) ∧
    S.conformsNode exExt 3 "0" ⟨0, {"A"}, ∅⟩ = some (.ok [.labelsContent]) := ⟨_, rfl, by decide, by decide⟩

/-- C86, for edges. Under the same conditions, the check of an edge against a declared edge type ends, and without `|`
it accepts the edge exactly when its ends and the edge itself are as the three parts of the declaration say. Missing: as
above. -/
theorem C86_edge_text_partial (X : Ext) (D : Dates) (p : List Stmt) (hp : PlainText p) (S : Schema)
    (h : buildSchema D p = .ok S) (name : String) (s e t : SrcSpec) (hm : Stmt.edge (some name) s e t ∈ p)
    (hgs : Grounded p s) (hge : Grounded p e) (hgt : Grounded p t)
    (hno : ∀ nm sp l, Stmt.node nm sp ∈ p → sp.labels = some l → l.NoBar)
    (hne : ∀ sp ∈ [s, e, t], ∀ l, sp.labels = some l → l.NoBar) (ed : Edge) (G : Graph) :
    ∃ v n0, (∀ fuel, n0 ≤ fuel → S.conformsEdge X fuel name ed G = some v) ∧
      (Positively v ↔ ∃ a b, G.nodes.lookup ed.source = some a ∧ G.nodes.lookup ed.target = some b ∧
        Says X D p a.properties s a.labels (keysOf a.properties) ∧
        Says X D p ed.properties e ed.labels (keysOf ed.properties) ∧
        Says X D p b.properties t b.labels (keysOf b.properties)) := by
  have hf := buildSchema_fromText D p (plain_named p hp) S h
  obtain ⟨id, T, h1, h2, h3⟩ := hf.edge name s e t hm
  obtain ⟨_, ps, pe, pt⟩ := hp _ hm
  simp only [buildEdge, Option.bind_eq_bind, Option.bind_eq_some_iff, Option.pure_def, Option.some.injEq] at h3
  obtain ⟨ss, hs, tt, ht, ee, he, rfl⟩ := h3
  obtain ⟨n1, t1, a1, b1⟩ := spec_conforms X D p hp S hf hno s ps (hne s (by simp)) hgs ss hs
  obtain ⟨n2, t2, a2, b2⟩ := spec_conforms X D p hp S hf hno e pe (hne e (by simp)) hge ee he
  obtain ⟨n3, t3, a3, b3⟩ := spec_conforms X D p hp S hf hno t pt (hne t (by simp)) hgt tt ht
  refine ⟨(EdgeSemantics.mk t1 t2 t3).conformsEdge X ed G, max n1 (max n2 n3), fun fuel hfuel => ?_, ?_⟩
  · simp only [max_le_iff] at hfuel
    simp [Schema.conformsEdge, h1, h2, EdgeType.semantics, a1 fuel hfuel.1, a2 fuel hfuel.2.1, a3 fuel hfuel.2.2]
  · rw [C82_edges]
    simp only [b1, b2, b3]

/-- `CREATE NODE TYPE (P: Person); CREATE EDGE TYPE (:@P)-[K: knows]->(:@P)` -/
def exEdgeText : List Stmt :=
  [.node (some "P") ⟨some (.label "Person"), none⟩,
    .edge (some "K") ⟨some (.typeName "P"), none⟩ ⟨some (.label "knows"), none⟩ ⟨some (.typeName "P"), none⟩]

example : ∃ S, buildSchema exDates exEdgeText = .ok S ∧
    S.conformsEdge exExt 5 "K" ⟨0, 0, 1, {"knows"}, ∅⟩
      ((Graph.new.addNode "a" {"Person"} ∅).addNode "b" {"Person"} ∅) = some (.ok [.labelsContent, .labelsContent, .labelsContent]) :=
  ⟨_, rfl, by decide⟩

/-- C86. A text is accepted exactly when it declares no graph type, names no two edge types alike, and every number and
date in it can be read: integers of conditions in 32 bits, cardinalities in 64 bits. -/
theorem C86_accepted (D : Dates) (p : List Stmt) (hp : PlainText p) :
    (∃ S, buildSchema D p = .ok S) ↔ (edgeTypeNames p).Nodup ∧ ∀ st ∈ p, st.Readable D := by
  induction p using List.reverseRecOn with
  | nil => simp [buildSchema, buildStmts, edgeTypeNames]
  | append_singleton p st ih =>
    have hp' : PlainText p := fun st hm => hp st (by simp [hm])
    have hst := hp st (by simp)
    have step : (∃ S, buildSchema D (p ++ [st]) = .ok S) ↔
        ∃ S0, buildSchema D p = .ok S0 ∧ ∃ S1, buildStmt D S0 st = .ok S1 := by
      simp only [buildSchema, buildStmts_append]
      cases buildStmts D Schema.new p with
      | ok S0 =>
        simp only [buildStmts]
        cases hs : buildStmt D S0 st <;> simp [hs]
      | error => simp
      | panic => simp
    rw [step]
    have key : ∀ S0, buildSchema D p = .ok S0 → ((∃ S1, buildStmt D S0 st = .ok S1) ↔
        st.Readable D ∧ ∀ n s e t, st = .edge (some n) s e t → n ∉ edgeTypeNames p) := by
      intro S0 hS0
      have hf := buildSchema_fromText D p (plain_named p hp') S0 hS0
      rcases st with ⟨name, spec⟩ | ⟨name, s, e, t⟩ | _
      · simp only [Stmt.Readable, ← buildSpec_isSome D spec hst.2, buildStmt]
        cases buildSpec D spec <;> cases name <;> simp
      · obtain ⟨hn, h1, h2, h3⟩ := hst
        simp only [Stmt.Readable, ← buildEdge_isSome D s e t h1 h2 h3, buildStmt]
        cases buildEdge D s e t with
        | none => simp
        | some T =>
          cases name with
          | none =>
            have := blank_none D p (plain_named p hp') S0 hf
            simp only [Schema.addBlankEdgeSpec, Schema.addEdgeSpec, if_neg ((not_mem_keys _ _).2 this)]
            simp
          | some n =>
            by_cases hin : n ∈ edgeTypeNames p
            · obtain ⟨s', e', t', hm⟩ := (mem_edgeTypeNames p n).1 hin
              obtain ⟨id, _, hid, _⟩ := hf.edge n s' e' t' hm
              have hk : n ∈ S0.edgeNames.keys := by
                by_contra hk
                rw [not_mem_keys, hid] at hk
                cases hk
              simp [Schema.addEdgeSpec, hk, hin]
            · have := edgeNames_none D p S0 hf n (hn n rfl) hin
              simp only [Schema.addEdgeSpec, if_neg ((not_mem_keys _ _).2 this)]
              simp
              rintro _ _ _ _ rfl _ _ _
              exact hin
      · simp [buildStmt, Stmt.Readable]
    have nd : (edgeTypeNames (p ++ [st])).Nodup ↔
        (edgeTypeNames p).Nodup ∧ ∀ n s e t, st = .edge (some n) s e t → n ∉ edgeTypeNames p := by
      rw [edgeTypeNames_append]
      rcases st with ⟨name, spec⟩ | ⟨_ | n, s, e, t⟩ | _ <;> simp [edgeTypeNames, List.nodup_append]
      intro _
      constructor
      · rintro h _ _ _ _ rfl _ _ _
        exact fun hm => h n hm rfl
      · intro h a ha hn
        exact h n s e t rfl rfl rfl rfl (hn ▸ ha)
    rw [nd]
    simp only [List.mem_append, List.mem_singleton, or_imp, forall_and, forall_eq]
    constructor
    · rintro ⟨S0, h0, h1⟩
      obtain ⟨a, b⟩ := (ih hp').1 ⟨S0, h0⟩
      obtain ⟨c, d⟩ := (key S0 h0).1 h1
      exact ⟨⟨a, d⟩, b, c⟩
    · rintro ⟨⟨a, d⟩, b, c⟩
      obtain ⟨S0, h0⟩ := (ih hp').2 ⟨a, b⟩
      exact ⟨S0, h0, (key S0 h0).2 ⟨c, d⟩⟩

/-- The example text can be read; the same number in a condition with one digit more than 32 bits cannot. -/
example : (∀ st ∈ exText, st.Readable exDates) ∧ Digits (2 ^ 31 - 1) "2147483647" ∧ ¬ Digits (2 ^ 31 - 1) "2147483648" := by
  refine ⟨?_, ⟨by decide, by decide, by decide⟩, fun h => absurd h.2.2 (by decide)⟩
  intro st hst
  simp only [exText, List.mem_cons, List.not_mem_nil, or_false] at hst
  rcases hst with rfl | rfl
  · intro ps hps
    cases hps
    refine ⟨⟨⟨by simp, by simp⟩, trivial⟩, ⟨by simp, fun e he => ?_⟩, trivial⟩
    cases he
    exact ⟨by decide, by decide, by decide⟩
  · intro ps hps
    cases hps

/-- C86. Every edge type of an accepted text is in the schema, whether it has a name or not. -/
theorem C86_edges_kept (D : Dates) (p : List Stmt) (hp : PlainText p) (S : Schema) (h : buildSchema D p = .ok S)
    (name : Option String) (s e t : SrcSpec) (hm : Stmt.edge name s e t ∈ p) :
    ∃ id T, S.edgeTypes.lookup id = some T ∧ buildSpec D s = some T.source ∧ buildSpec D e = some T.edge ∧
      buildSpec D t = some T.target := by
  have hf := buildSchema_fromText D p (plain_named p hp) S h
  obtain ⟨id, T, h1, h2⟩ := hf.kept name s e t hm
  simp only [buildEdge, Option.bind_eq_bind, Option.bind_eq_some_iff, Option.pure_def, Option.some.injEq] at h2
  obtain ⟨ss, hs, tt, ht, ee, he, rfl⟩ := h2
  exact ⟨id, _, h1, hs, he, ht⟩

example : ∃ S, buildSchema exDates [.edge none ⟨some (.label "A"), none⟩ ⟨some (.label "B"), none⟩
    ⟨some (.label "C"), none⟩, .edge none ⟨some (.label "D"), none⟩ ⟨some (.label "E"), none⟩
    ⟨some (.label "F"), none⟩] = .ok S ∧ S.edgeCounter = 2 := ⟨_, rfl, rfl⟩

/-- C86. `CREATE GRAPH TYPE` after an accepted text is a panic, not an error. -/
theorem C86_graph_type_panics (D : Dates) (p q : List Stmt) (S : Schema) (h : buildSchema D p = .ok S) :
    buildSchema D (p ++ .graph :: q) = .panic := by
  have : buildStmts D Schema.new p = .ok S := h
  simp [buildSchema, buildStmts_append, this, buildStmts, buildStmt]

example : ∃ S, buildSchema exDates exText = .ok S := ⟨_, rfl⟩

end Pg

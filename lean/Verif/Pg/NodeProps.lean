import Verif.Pg.NodeLemmas
import Verif.Pg.RecordProps

/-!
# Properties: node types, edge types and type maps

C43 open types, C44 unions, C45 type maps, C80 property lists, C81 node types, C82 edges, C83 expected verdicts.
-/

namespace Pg

/-- A schema with a type `T` given by a specification. -/
def exSchema (s : Spec) : Schema := Schema.new.addNodeSpec "T" s

/-- One string property. -/
def exName : PropValue := .property "name" (.value (.stringType .one))

/-- A record with a name. -/
def exAnn : Record := Record.insertValue ∅ "name" (.string "Ann")

/-- A record with a name and an age. -/
def exAnn3 : Record := Record.insertValue exAnn "age" (.integer 3)

/-- C43, refuted. A node may conform to a type whose properties are declared open and stop conforming when a property is
added; the same holds for a type declared open as a whole. -/
theorem C43_open_refuted :
    ¬ ∀ (X : Ext) (S : Schema) (fuel : Nat) (name : String) (id : Nat) (s : Spec) (p : PropValue) (n n' : Node)
        (v v' : Verdict), S.nodeNames.lookup name = some id →
      S.nodeTypes.lookup id = some (.content s (.opened p)) ∨ S.nodeTypes.lookup id = some (.opened s) →
      n'.labels = n.labels → (∀ k vs, n.properties.lookup k = some vs → n'.properties.lookup k = some vs) →
      S.conformsNode X fuel name n = some v → S.conformsNode X fuel name n' = some v' →
      Positively v → Positively v' := by
  intro h
  have := h exExt (exSchema (.content (.label "Person") (.opened exName))) 5 "T" 0 (.label "Person") exName
    ⟨0, {"Person"}, exAnn⟩ ⟨0, {"Person"}, exAnn3⟩ (.ok [.labelsContent]) (.error [.content]) rfl (Or.inl rfl) rfl
    ?_ (by decide) (by decide) ⟨_, rfl⟩
  · obtain ⟨_, h⟩ := this
    cases h
  · intro k vs hk
    have hn : k ≠ "age" := by
      rintro rfl
      revert hk
      have : exAnn.lookup "age" = none := by decide
      rw [this]
      exact nofun
    rw [← hk]
    exact AList.lookup_insert_ne hn

/-- C43. In fact no node type is ever open: whatever the schema and the specification, every record type in its meaning
is closed, so a conforming node has no properties other than those of one record type. -/
theorem C43_never_open (X : Ext) (S : Schema) (fuel : Nat) (s : Spec) (t : BaseType)
    (h : s.semantics S fuel = some (.ok t)) (L : LabelSet) (r : Record) (hr : Positively (t.conforms X L r)) :
    ∃ rt ∈ t.content, ∀ k vs, r.lookup k = some vs → ∃ T, rt.map.lookup k = some T := by
  obtain ⟨_, hc⟩ := semantics_never_open S fuel s t h
  obtain ⟨_, rt, hrt, hp⟩ := (base_conforms X t L r).1 hr
  exact ⟨rt, hrt, ((conforms_record X rt r).1 hp).2 (hc rt hrt)⟩

example : ∃ t, (Spec.opened (.content (.label "P") (.opened exName))).semantics Schema.new 4 = some (.ok t) ∧
    t.openLabels = true ∧ Positively (t.conforms exExt {"P"} exAnn) := by
  refine ⟨_, rfl, rfl, ?_⟩
  rw [← isRight_iff]
  decide

/-- C43, the part that holds: the meaning of an open property list, taken by itself, tolerates further properties; the
openness is lost when it is combined with labels. Missing: the statement for node types, refuted above. -/
theorem C43_open_partial (X : Ext) (p : PropValue) (r r' : Record)
    (hx : ∀ k vs, r.lookup k = some vs → r'.lookup k = some vs)
    (hr : ∃ rt ∈ (PropSpec.opened p).semantics.content, Positively (rt.conforms X r)) :
    ∃ rt ∈ (PropSpec.opened p).semantics.content, Positively (rt.conforms X r') := by
  obtain ⟨rt, hrt, hp⟩ := hr
  refine ⟨rt, hrt, C42_open_records X rt r r' ?_ hp hx⟩
  simp only [PropSpec.semantics, List.mem_map] at hrt
  obtain ⟨_, _, rfl⟩ := hrt
  rfl

example : ∃ rt ∈ (PropSpec.opened exName).semantics.content, Positively (rt.conforms exExt exAnn3) :=
  ⟨_, List.mem_singleton.2 rfl, by rw [← isRight_iff]; decide⟩

/-- C44, refuted. A node may conform to the union of two types and to neither of them: labels of one side are accepted
with properties of the other. -/
theorem C44_union_refuted :
    ¬ ∀ (X : Ext) (a b : BaseType) (L : LabelSet) (r : Record),
      Positively ((a.union b).conforms X L r) ↔ Positively (a.conforms X L r) ∨ Positively (b.conforms X L r) := by
  intro h
  have := (h exExt ⟨[{"A"}], false, [RecordType.empty]⟩
    ⟨[{"B"}], false, [RecordType.empty.withKeyValue "name" (.stringType .one)]⟩ {"A"} exAnn).1
    (by rw [← isRight_iff]; decide)
  rw [← isRight_iff, ← isRight_iff] at this
  exact absurd this (by decide)

/-- C44, the part that holds: the union accepts what either type accepts, what it accepts has the labels of one of the
types and the properties of one of them, and it is exact when the types have the same labels or the same record types.
Missing: exactness for all pairs of types, refuted above. -/
theorem C44_union_partial (X : Ext) (a b : BaseType) (L : LabelSet) (r : Record) :
    (Positively (a.conforms X L r) ∨ Positively (b.conforms X L r) → Positively ((a.union b).conforms X L r)) ∧
    (Positively ((a.union b).conforms X L r) ↔ (L ∈ a.labels ∨ L ∈ b.labels) ∧
      ((∃ rt ∈ a.content, Belongs X rt r) ∨ ∃ rt ∈ b.content, Belongs X rt r)) ∧
    ((∀ L', L' ∈ a.labels ↔ L' ∈ b.labels) ∨ (∀ rt, rt ∈ a.content ↔ rt ∈ b.content) →
      (Positively ((a.union b).conforms X L r) ↔ Positively (a.conforms X L r) ∨ Positively (b.conforms X L r))) := by
  have key : Positively ((a.union b).conforms X L r) ↔ (L ∈ a.labels ∨ L ∈ b.labels) ∧
      ((∃ rt ∈ a.content, Belongs X rt r) ∨ ∃ rt ∈ b.content, Belongs X rt r) := by
    rw [base_conforms]
    simp only [BaseType.union, List.mem_append, conforms_record]
    refine and_congr_right fun _ => ?_
    constructor
    · rintro ⟨rt, h | h, hb⟩
      exacts [Or.inl ⟨rt, h, hb⟩, Or.inr ⟨rt, h, hb⟩]
    · rintro (⟨rt, h, hb⟩ | ⟨rt, h, hb⟩)
      exacts [⟨rt, Or.inl h, hb⟩, ⟨rt, Or.inr h, hb⟩]
  refine ⟨?_, key, ?_⟩
  · rw [key, base_conforms, base_conforms]
    simp only [conforms_record]
    rintro (⟨h1, h2⟩ | ⟨h1, h2⟩)
    exacts [⟨Or.inl h1, Or.inl h2⟩, ⟨Or.inr h1, Or.inr h2⟩]
  · rw [key, base_conforms, base_conforms]
    simp only [conforms_record]
    rintro (h | h)
    · rw [h L, or_self, and_or_left]
    · have : (∃ rt ∈ a.content, Belongs X rt r) ↔ ∃ rt ∈ b.content, Belongs X rt r := by
        simp only [h]
      rw [this, or_self, or_and_right]

/-- Two types with the same labels and different properties. -/
example : Positively ((BaseType.union ⟨[{"A"}], false, [RecordType.empty]⟩
    ⟨[{"A"}], false, [RecordType.empty.withKeyValue "name" (.stringType .one)]⟩).conforms exExt {"A"} exAnn) := by
  rw [← isRight_iff]; decide

/-- C80, refuted. The empty property list is not neutral: beside another property nothing conforms any more. -/
theorem C80_properties_refuted :
    ¬ ∀ (X : Ext) (p : PropValue) (r : Record),
      (∃ rt ∈ p.semantics, Positively (rt.conforms X r)) ↔ Choice X r p (keysOf r) := by
  intro h
  have := (h exExt (.eachOf .empty .empty) ∅).2 ⟨∅, ∅, rfl, rfl, rfl⟩
  obtain ⟨_, h, _⟩ := this
  cases h

/-- C80, the part that holds: a record conforms to a closed property list exactly when its keys are the keys of one way
of reading the list (both sides of `,`, one side of `||`, an optional property or not) with values of the declared
types, and to an open one when its keys include those of one way. Missing: lists in which the empty list occurs. -/
theorem C80_properties_partial (X : Ext) (p : PropValue) (hp : NoEmpty p) (r : Record) :
    ((∃ rt ∈ (PropSpec.closed p).semantics.content, Positively (rt.conforms X r)) ↔ Choice X r p (keysOf r)) ∧
    ((∃ rt ∈ (PropSpec.opened p).semantics.content, Positively (rt.conforms X r)) ↔
      ∃ K, K ⊆ keysOf r ∧ Choice X r p K) := by
  constructor
  · rw [← semantics_choice X r p hp]
    constructor
    · rintro ⟨rt, hrt, h⟩
      obtain ⟨hd, hk⟩ := (closed_conforms X rt r (semantics_closed p rt hrt)).1 h
      exact ⟨rt, hrt, hk.symm, hd⟩
    · rintro ⟨rt, hrt, hk, hd⟩
      exact ⟨rt, hrt, (closed_conforms X rt r (semantics_closed p rt hrt)).2 ⟨hd, hk.symm⟩⟩
  · simp only [← semantics_choice X r p hp, PropSpec.semantics, List.mem_map, conforms_record]
    constructor
    · rintro ⟨rt, ⟨u, hu, rfl⟩, h1, _⟩
      refine ⟨u.keySet, fun k hk => ?_, u, hu, rfl, h1⟩
      rw [mem_keySet] at hk
      obtain ⟨T, hT⟩ := hk
      obtain ⟨vs, hvs, _⟩ := h1 k T hT
      exact (mem_keysOf r k).2 ⟨vs, hvs⟩
    · rintro ⟨K, hK, u, hu, rfl, hd⟩
      exact ⟨u.withOpen, ⟨u, hu, rfl⟩, hd, fun h => by cases h⟩

example : NoEmpty (.eachOf exName (.optionalProperty "age" (.value (.integerType .one)))) ∧
    (∃ rt ∈ (PropSpec.closed (.eachOf exName (.optionalProperty "age" (.value (.integerType .one))))).semantics.content,
      Positively (rt.conforms exExt exAnn3)) := by
  refine ⟨⟨trivial, trivial⟩, _, List.mem_cons_self, ?_⟩
  rw [← isRight_iff]
  decide

/-- C81, refuted. A node may conform to a type with `|` without being described by it. -/
theorem C81_node_types_refuted :
    ¬ ∀ (X : Ext) (S : Schema) (fuel : Nat) (name : String) (id : Nat) (s : Spec) (n : Node) (v : Verdict),
      LabelledSchema S → S.nodeNames.lookup name = some id → S.nodeTypes.lookup id = some s → Resolves S s →
      S.conformsNode X fuel name n = some v →
      (Positively v ↔ Describes X S n.properties s n.labels (keysOf n.properties)) := by
  intro h
  have hl : ∀ s, Labelled s → LabelledSchema (exSchema s) := by
    intro s hs id s' h
    by_cases hid : id = 0
    · subst hid
      rw [show (exSchema s).nodeTypes.lookup 0 = some s from AList.lookup_insert _] at h
      cases h
      exact hs
    · rw [show (exSchema s).nodeTypes.lookup id = none from
        (AList.lookup_insert_ne hid).trans (AList.lookup_empty _)] at h
      cases h
  have := (h exExt (exSchema (.or (.label "A") (.content (.label "B") (.closed exName)))) 5 "T" 0
    (.or (.label "A") (.content (.label "B") (.closed exName))) ⟨0, {"A"}, exAnn⟩ (.ok [.labelsContent])
    (hl _ (.or (.label _) (.content (.label _) trivial))) rfl rfl (.or (.label _) (.content (.label _)))
    (by decide)).1 ⟨_, rfl⟩
  cases this with
  | left h =>
    generalize hK : keysOf (Node.properties ⟨0, {"A"}, exAnn⟩) = K at h
    cases h with
    | label _ =>
      exact absurd hK (by decide)
  | right h =>
    generalize hL : (Node.labels ⟨0, {"A"}, exAnn⟩) = L at h
    generalize hK : keysOf (Node.properties ⟨0, {"A"}, exAnn⟩) = K at h
    cases h with
    | content h _ =>
      cases h with
      | label _ => exact absurd hL (by decide)

/-- C81, the part that holds. For schemas built by the parser (every node type has a label) with references that lead to
types and do not go round: the check of a node ends; the node conforms exactly when its label set is one of the type and
its properties are those of the type, labels and properties being chosen independently; hence for schemas without `|`
it conforms exactly when the type describes it, and with `|` whenever the type describes it. Missing: the converse with
`|`, refuted above, and node types without a label, to which no node conforms. -/
theorem C81_node_types_partial (X : Ext) (S : Schema) (hS : LabelledSchema S) (name : String) (id : Nat) (s : Spec)
    (h1 : S.nodeNames.lookup name = some id) (h2 : S.nodeTypes.lookup id = some s) (hr : Resolves S s) (n : Node) :
    ∃ v n0, (∀ fuel, n0 ≤ fuel → S.conformsNode X fuel name n = some v) ∧
      (Positively v ↔ LabelsOf S s n.labels ∧ KeysOf X S n.properties s (keysOf n.properties)) ∧
      (Describes X S n.properties s n.labels (keysOf n.properties) → Positively v) ∧
      ((∀ i u, S.nodeTypes.lookup i = some u → NoOr u) →
        (Positively v ↔ Describes X S n.properties s n.labels (keysOf n.properties))) := by
  obtain ⟨n0, t, ht⟩ := semantics_resolves S s hr
  have hex : Positively (t.conforms X n.labels n.properties) ↔
      LabelsOf S s n.labels ∧ KeysOf X S n.properties s (keysOf n.properties) := by
    rw [base_closed_conforms X t (semantics_never_open S n0 s t (ht n0 le_rfl)).2]
    obtain ⟨_, b, c⟩ := semantics_labelled X S hS n.properties n0 s (hS id s h2) t (ht n0 le_rfl)
    rw [b, c]
  refine ⟨t.conforms X n.labels n.properties, n0, fun fuel hf => ?_, hex, fun hd => ?_, fun hno => ?_⟩
  · simp [Schema.conformsNode, h1, h2, ht fuel hf]
  · exact hex.2 (describes_both X S _ s _ _ hd)
  · rw [hex]
    exact ⟨fun ⟨a, b⟩ => both_describes X S hno _ s (hno id s h2) _ _ a b, describes_both X S _ s _ _⟩

/-- A type that refers to another one and adds a property. -/
example : Resolves (exSchema (.content (.label "P") (.closed exName))) (.ref "T") ∧
    ((exSchema (.content (.label "P") (.closed exName))).addNodeSpec "U" (.and (.label "Q") (.ref "T"))).conformsNode
      exExt 6 "U" ⟨0, {"P", "Q"}, exAnn⟩ = some (.ok [.labelsContent]) := by
  refine ⟨.ref (id := 0) rfl rfl (.content (.label _)), by decide⟩

/-- C81. A node type written without a label accepts no node, whatever its labels and properties. -/
theorem C81_no_label (X : Ext) (S : Schema) (fuel : Nat) (L : LabelSet) (r : Record) :
    ∃ t, Spec.empty.semantics S (fuel + 1) = some (.ok t) ∧ ¬ Positively (t.conforms X L r) := by
  refine ⟨BaseType.type0, rfl, ?_⟩
  rw [base_conforms]
  simp [BaseType.type0]

example : Spec.empty.semantics Schema.new 1 = some (.ok BaseType.type0) := rfl

/-- C81. A type that refers to itself is never decided: the check does not return, whatever the depth of the stack. -/
theorem C81_cyclic (X : Ext) (fuel : Nat) (n : Node) :
    (exSchema (.ref "T")).conformsNode X fuel "T" n = none := by
  have hs : ∀ fuel, Spec.semantics (exSchema (.ref "T")) fuel (.ref "T") = none := by
    intro fuel
    induction fuel with
    | zero => rfl
    | succ m ih =>
      rw [Spec.semantics]
      exact ih
  have h1 : (exSchema (.ref "T")).nodeNames.lookup "T" = some 0 := rfl
  have h2 : (exSchema (.ref "T")).nodeTypes.lookup 0 = some (.ref "T") := rfl
  simp [Schema.conformsNode, h1, h2, hs fuel]

example : Labelled (.ref "T") := .ref "T"

/-- C82. An edge conforms to an edge type exactly when both its ends are nodes of the graph, the source conforms to the
source type, the edge to its own type and the target to the target type. -/
theorem C82_edges (X : Ext) (t : EdgeSemantics) (e : Edge) (G : Graph) :
    Positively (t.conformsEdge X e G) ↔
      ∃ s d, G.nodes.lookup e.source = some s ∧ G.nodes.lookup e.target = some d ∧
        Positively (t.source.conforms X s.labels s.properties) ∧
        Positively (t.edge.conforms X e.labels e.properties) ∧
        Positively (t.target.conforms X d.labels d.properties) := by
  unfold EdgeSemantics.conformsEdge
  cases hs : G.nodes.lookup e.source with
  | none => simp [Positively]
  | some s =>
    cases hd : G.nodes.lookup e.target with
    | none => simp [Positively]
    | some d =>
      simp only [Option.some.injEq, exists_and_left, exists_eq_left', List.foldl_cons, List.foldl_nil]
      cases t.source.conforms X s.labels s.properties <;> cases t.edge.conforms X e.labels e.properties <;>
        cases t.target.conforms X d.labels d.properties <;> simp [Positively, Verdict.join]

/-- C82. The errors of a rejected edge are the errors of the parts that fail, in the order source, edge, target. -/
theorem C82_edge_errors (X : Ext) (t : EdgeSemantics) (e : Edge) (G : Graph) (s d : Node)
    (hs : G.nodes.lookup e.source = some s) (hd : G.nodes.lookup e.target = some d) (errs : List Err)
    (h : t.conformsEdge X e G = .error errs) :
    errs = ([t.source.conforms X s.labels s.properties, t.edge.conforms X e.labels e.properties,
      t.target.conforms X d.labels d.properties].map fun v => match v with | .error es => es | .ok _ => []).flatten := by
  unfold EdgeSemantics.conformsEdge at h
  rw [hs, hd] at h
  simp only [List.foldl_cons, List.foldl_nil] at h
  revert h
  generalize t.source.conforms X s.labels s.properties = a
  generalize t.edge.conforms X e.labels e.properties = b
  generalize t.target.conforms X d.labels d.properties = c
  intro h
  rcases a with a | a <;> rcases b with b | b <;> rcases c with c | c <;> simp_all [Verdict.join]

/-- An edge whose source has the wrong label. -/
example :
    let G := (Graph.new.addNode "a" {"A"} ∅).addNode "b" {"B"} ∅
    let t : EdgeSemantics := ⟨BaseType.fromLabel "B", BaseType.fromLabel "E", BaseType.fromLabel "B"⟩
    t.conformsEdge exExt ⟨0, 0, 1, {"E"}, ∅⟩ G = .error [.labels] ∧
      Positively (t.conformsEdge exExt ⟨0, 1, 1, {"E"}, ∅⟩ G) := by
  refine ⟨by decide, ?_⟩
  rw [← isRight_iff]
  decide

/-- The loop of a validation, with what was recorded before. -/
theorem validateLoop_some (X : Ext) (S : Schema) (G : Graph) (fuel : Nat) (m : List Assoc) (r0 r : Result)
    (h : validateLoop X S G fuel m r0 = some (some r)) :
    ∃ vs : List Verdict, List.Forall₂ (fun a v => verdictOf X S G fuel a = some (some v)) m vs ∧
      r.assocs = r0.assocs ++ List.zipWith (fun a v => ⟨a.nodeId, a.typeName, v.isRight, v⟩) m vs ∧
      (r.isValid = true ↔ r0.isValid = true ∧ ∀ v ∈ vs, v.isRight = true) := by
  induction m generalizing r0 with
  | nil =>
    rw [validateLoop] at h
    cases h
    exact ⟨[], .nil, by simp, by simp⟩
  | cons a m ih =>
    rw [validateLoop] at h
    cases hv : verdictOf X S G fuel a with
    | none => rw [hv] at h; cases h
    | some o =>
      rw [hv] at h
      cases o with
      | none => cases h
      | some v =>
        obtain ⟨vs, h1, h2, h3⟩ := ih _ h
        refine ⟨v :: vs, .cons hv h1, ?_, ?_⟩
        · rw [h2]
          simp [Result.add]
        · rw [h3]
          simp only [Result.add, List.forall_mem_cons]
          cases v.isRight <;> simp

/-- C45. Validating a type map gives one verdict per association, in order, each the verdict of that node or edge
against that type; and the result is valid exactly when every verdict is positive. -/
theorem C45_type_map (X : Ext) (S : Schema) (G : Graph) (fuel : Nat) (m : List Assoc) (r : Result)
    (h : validate X S G fuel m = some (some r)) :
    List.Forall₂ (fun a (x : ResultAssoc) => x.nodeId = a.nodeId ∧ x.typeName = a.typeName ∧
      verdictOf X S G fuel a = some (some x.details) ∧ (x.conforms = true ↔ Positively x.details)) m r.assocs ∧
    (r.isValid = true ↔ ∀ x ∈ r.assocs, Positively x.details) := by
  obtain ⟨vs, h1, h2, h3⟩ := validateLoop_some X S G fuel m _ r h
  simp only [List.nil_append] at h2
  refine ⟨?_, ?_⟩
  · rw [h2]
    clear h2 h3 h
    induction h1 with
    | nil => exact .nil
    | cons h _ ih => exact .cons ⟨rfl, rfl, h, isRight_iff _⟩ ih
  · rw [h3, h2]
    simp only [true_and]
    clear h2 h3 h
    induction h1 with
    | nil => simp
    | @cons a v m vs _ _ ih =>
      simp only [List.forall_mem_cons, List.zipWith_cons_cons, ← ih, isRight_iff]

/-- C45. The validation fails exactly when some association names neither a node nor an edge. -/
theorem C45_missing (X : Ext) (S : Schema) (G : Graph) (fuel : Nat) (m : List Assoc)
    (hd : ∀ a ∈ m, verdictOf X S G fuel a ≠ none) :
    validate X S G fuel m = some none ↔ ∃ a ∈ m, G.nodeByName a.nodeId = none ∧ G.edgeByName a.nodeId = none := by
  have hv : ∀ a, verdictOf X S G fuel a = some none ↔ G.nodeByName a.nodeId = none ∧ G.edgeByName a.nodeId = none := by
    intro a
    unfold verdictOf Graph.nodeOrEdge
    cases G.nodeByName a.nodeId with
    | some n => simp
    | none =>
      cases G.edgeByName a.nodeId with
      | some e => simp
      | none => simp
  have key : ∀ r0, validateLoop X S G fuel m r0 = some none ↔
      ∃ a ∈ m, G.nodeByName a.nodeId = none ∧ G.edgeByName a.nodeId = none := by
    induction m with
    | nil => intro r0; simp [validateLoop]
    | cons a m ih =>
      intro r0
      have ih := ih fun b hb => hd b (List.mem_cons_of_mem _ hb)
      rw [validateLoop]
      cases ho : verdictOf X S G fuel a with
      | none => exact (hd a List.mem_cons_self ho).elim
      | some o =>
        cases o with
        | none =>
          simp only [true_iff]
          exact ⟨a, List.mem_cons_self, (hv a).1 ho⟩
        | some v =>
          have : ¬ (G.nodeByName a.nodeId = none ∧ G.edgeByName a.nodeId = none) := by
            rw [← hv, ho]
            simp
          simp only [ih, List.mem_cons, exists_eq_or_imp, this, false_or]
  exact key _

/-- Two associations, one of them positive. -/
example :
    let G := Graph.new.addNode "a" {"A"} ∅
    let S := exSchema (.label "A")
    (validate exExt S G 3 [⟨"a", "T", true⟩, ⟨"a", "U", false⟩]).map (fun o => o.map fun r =>
      (r.isValid, r.assocs.map fun x => x.conforms)) = some (some (false, [true, false])) ∧
    (validate exExt S G 3 [⟨"b", "T", true⟩]).map (fun o => o.isSome) = some false := by
  decide

/-- C83. Comparing a result with the type map it came from reports exactly the associations whose verdict differs from
the expected one, in order, provided no node is associated twice with one type. -/
theorem C83_expected (X : Ext) (S : Schema) (G : Graph) (fuel : Nat) (m : List Assoc) (r : Result)
    (hm : (m.map fun a => (a.nodeId, a.typeName)).Nodup) (h : validate X S G fuel m = some (some r)) :
    compareWithResult m r.assocs [] =
      some (((List.zip m r.assocs).filter fun p => p.2.conforms != p.1.shouldConform).map
        fun p => ⟨p.1.nodeId, p.1.typeName, p.1.shouldConform⟩) := by
  obtain ⟨hf, _⟩ := C45_type_map X S G fuel m r h
  have hfind : ∀ a ∈ m, findAssoc m a.nodeId a.typeName = some a := by
    clear hf h
    induction m with
    | nil => simp
    | cons b m ih =>
      intro a ha
      rw [List.map_cons, List.nodup_cons] at hm
      rw [findAssoc, List.find?_cons]
      rcases List.mem_cons.1 ha with rfl | ha
      · simp
      · have hne : ¬ (b.nodeId = a.nodeId ∧ b.typeName = a.typeName) := by
          rintro ⟨h1, h2⟩
          exact hm.1 (List.mem_map.2 ⟨a, ha, by rw [h1, h2]⟩)
        have hb : (decide (b.nodeId = a.nodeId) && decide (b.typeName = a.typeName)) = false := by
          simpa using hne
        rw [hb]
        exact ih hm.2 a ha
  have key : ∀ (l : List Assoc) (rs : List ResultAssoc) (acc : List Failed), (∀ a ∈ l, a ∈ m) →
      List.Forall₂ (fun a (x : ResultAssoc) => x.nodeId = a.nodeId ∧ x.typeName = a.typeName ∧
        verdictOf X S G fuel a = some (some x.details) ∧ (x.conforms = true ↔ Positively x.details)) l rs →
      compareWithResult m rs acc = some (acc ++ ((List.zip l rs).filter fun p => p.2.conforms != p.1.shouldConform).map
        fun p => ⟨p.1.nodeId, p.1.typeName, p.1.shouldConform⟩) := by
    intro l rs acc hl hf
    induction hf generalizing acc with
    | nil => simp [compareWithResult]
    | @cons a x l rs hx _ ih =>
      obtain ⟨h1, h2, _, h4⟩ := hx
      have ih := fun acc => ih acc fun b hb => hl b (List.mem_cons_of_mem _ hb)
      rw [compareWithResult, h1, h2, hfind a (hl a List.mem_cons_self)]
      simp only [List.zip_cons_cons, List.filter_cons]
      cases hd : x.details with
      | error e =>
        have hc : x.conforms = false := by
          rw [← Bool.not_eq_true, h4, hd]
          rintro ⟨_, h⟩
          cases h
        cases hsc : a.shouldConform <;> simp [hc, hsc, ih]
      | ok e =>
        have hc : x.conforms = true := by
          rw [h4, hd]
          exact ⟨e, rfl⟩
        cases hsc : a.shouldConform <;> simp [hc, hsc, ih]
  simpa using key m r.assocs [] (fun _ h => h) hf

/-- An association expected not to conform that does not conform, and one that should and does not. -/
example :
    let G := Graph.new.addNode "a" {"A"} ∅
    let S := (exSchema (.label "A")).addNodeSpec "U" (.label "B")
    (validate exExt S G 3 [⟨"a", "U", false⟩, ⟨"a", "T", false⟩]).map (fun o => o.map fun r =>
      compareWithResult [⟨"a", "U", false⟩, ⟨"a", "T", false⟩] r.assocs []) =
        some (some (some [⟨"a", "T", false⟩])) := by
  decide

/-- C83, refuted without the proviso: with contradicting expectations the first one is used for both. -/
theorem C83_duplicates_refuted :
    ¬ ∀ (m : List Assoc) (rs : List ResultAssoc), List.Forall₂ (fun a (x : ResultAssoc) => x.nodeId = a.nodeId ∧
        x.typeName = a.typeName ∧ (x.conforms = true ↔ Positively x.details)) m rs →
      compareWithResult m rs [] = some (((List.zip m rs).filter fun p => p.2.conforms != p.1.shouldConform).map
        fun p => ⟨p.1.nodeId, p.1.typeName, p.1.shouldConform⟩) := by
  intro h
  have := h [⟨"a", "T", true⟩, ⟨"a", "T", false⟩] [⟨"a", "T", true, .ok []⟩, ⟨"a", "T", true, .ok []⟩]
    (.cons ⟨rfl, rfl, by simp [Positively]⟩ (.cons ⟨rfl, rfl, by simp [Positively]⟩ .nil))
  exact absurd this (by decide)

end Pg

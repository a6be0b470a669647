import Verif.Visual.LemmasPic

/-!
# C141: drawings of RDF graphs

What `VisualRDFGraph` has for a graph, and the text that is written for it.
-/

namespace Visual

open List (Forall₂)

variable {I B L : Type} [DecidableEq I] [DecidableEq B] [DecidableEq L]

/-- A graph can be drawn exactly if each of its objects can be read. -/
theorem C141_made (C : Cfg I B L) (ts : List (Sub I B × I × Tm I B L)) :
    (∃ g, fromRdf C ts = some g) ↔ ∀ t ∈ ts, ∃ o, Reads C t.2.2 o := by
  constructor
  · rintro ⟨g, h⟩ t ht
    obtain ⟨us, h1, hi⟩ := fromRdf_inv h
    clear h hi
    induction h1 with
    | nil => cases ht
    | cons h2 _ ih =>
      rcases List.mem_cons.mp ht with rfl | ht
      · exact ⟨_, h2.2.2⟩
      · exact ih ht
  · intro h
    have : ∃ us, ReadAll C ts us := by
      clear * - h
      induction ts with
      | nil => exact ⟨[], .nil⟩
      | cons t ts ih =>
        obtain ⟨us, hus⟩ := ih fun t ht => h t (by simp [ht])
        obtain ⟨o, ho⟩ := h t (by simp)
        exact ⟨(t.1, t.2.1, o) :: us, .cons ⟨rfl, rfl, ho⟩ hus⟩
    obtain ⟨us, hus⟩ := this
    exact ⟨_, (addAll_ok C ts ts {} _).mpr ⟨us, hus, rfl⟩⟩

/-- The nodes are the pictures of the terms that occur, and of the predicates of triple terms. -/
theorem C141_nodes {C : Cfg I B L} {ts : List (Sub I B × I × Tm I B L)} {g : G}
    (h : fromRdf C ts = some g) (n : VNode) :
    (∃ i, g.id n i) ↔
      (∃ t, Occurs C ts t ∧ Pic C ts t n) ∨ ∃ p, Inside C ts p ∧ PredPic C p n := by
  obtain ⟨us, hr, hi⟩ := fromRdf_inv h
  have hk : (∃ i, g.id n i) ↔ n ∈ keys g := by
    unfold G.id keys
    simp
  rw [hk, hi.keys]
  constructor
  · rintro ⟨u, hu, h1⟩
    obtain ⟨o, ho, hread⟩ := readAll_mem hr hu
    rcases h1 with rfl | rfl | h1
    · exact .inl ⟨_, .sub _ _ _ ho, (subPic_iff C ts u.1 _).mpr rfl⟩
    · exact .inl ⟨_, .obj _ _ _ _ ho hread, (pic_iff C ts _ _).mpr rfl⟩
    · exact part_occurs (.obj _ _ _ _ ho hread) h1
  · rintro (⟨t, ht, hp⟩ | ⟨p, ⟨s, o, ht⟩, hp⟩)
    · obtain ⟨u, hu, h1⟩ := occurs_sub hr ht
      refine ⟨u, hu, ?_⟩
      rcases h1 with rfl | h1
      · exact .inl ((subPic_iff C ts u.1 n).mp hp)
      · rw [(pic_iff C ts t n).mp hp]
        rcases (part_trans (C := C) (ts := ts) h1).1 with rfl | h2
        · exact .inr (.inl rfl)
        · exact .inr (.inr h2)
    · obtain ⟨u, hu, h1⟩ := occurs_sub hr ht
      refine ⟨u, hu, ?_⟩
      rcases h1 with h1 | h1
      · cases hs : u.1 <;> rw [hs] at h1 <;> cases h1
      · refine .inr (.inr ((part_trans (C := C) (ts := ts) h1).2 n (.inr (.inl ?_))))
        exact (predPic_iff C p n).mp hp

/-- Every node has one number, no two have the same, and the numbers are those below the number of
nodes. -/
theorem C141_numbers {C : Cfg I B L} {ts : List (Sub I B × I × Tm I B L)} {g : G}
    (h : fromRdf C ts = some g) :
    (∀ n i j, g.id n i → g.id n j → i = j) ∧ (∀ n m i, g.id n i → g.id m i → n = m) ∧
    ∀ i, (∃ n, g.id n i) ↔ i < g.nodes.length := by
  obtain ⟨us, hr, hi⟩ := fromRdf_inv h
  have hl : g.counter = g.nodes.length := by
    have := congrArg List.length hi.ok.ids
    simpa using this.symm
  have hnd : (g.nodes.map Prod.snd).Nodup := hi.ok.ids ▸ List.nodup_range
  refine ⟨fun n i j h1 h2 => ?_, fun n m i h1 h2 => ?_, fun i => ?_⟩
  · have e1 := (mem_lookup hi.ok.nodup).mp h1
    have e2 := (mem_lookup hi.ok.nodup).mp h2
    rw [e1] at e2
    exact Option.some.inj e2
  · have := List.inj_on_of_nodup_map hnd h1 h2 rfl
    exact congrArg Prod.fst this
  · rw [← hl, ← List.mem_range, ← hi.ok.ids]
    unfold G.id
    simp

/-- There is an edge from one number to another exactly if there is a triple whose subject and whose
object have these numbers; there are no two equal edges. -/
theorem C141_edges {C : Cfg I B L} {ts : List (Sub I B × I × Tm I B L)} {g : G}
    (h : fromRdf C ts = some g) :
    (∀ a e b, (a, e, b) ∈ g.edges ↔ ∃ s p o o' n m, (s, p, o) ∈ ts ∧ Reads C o o' ∧
      Pic C ts s.tm n ∧ EdgePic C p e ∧ Pic C ts o' m ∧ g.id n a ∧ g.id m b) ∧
    g.edges.Nodup := by
  obtain ⟨us, hr, hi⟩ := fromRdf_inv h
  refine ⟨fun a e b => ?_, hi.once⟩
  rw [hi.edges]
  constructor
  · rintro ⟨u, hu, h1, h2, h3⟩
    obtain ⟨o, ho, hread⟩ := readAll_mem hr hu
    exact ⟨u.1, u.2.1, o, u.2.2, _, _, ho, hread, (subPic_iff C ts _ _).mpr rfl,
      (edgePic_iff C _ _).mpr h2.symm, (pic_iff C ts _ _).mpr rfl, (mem_lookup hi.ok.nodup).mpr h1,
      (mem_lookup hi.ok.nodup).mpr h3⟩
  · rintro ⟨s, p, o, o', n, m, ho, hread, h1, h2, h3, h4, h5⟩
    obtain rfl := (subPic_iff C ts s n).mp h1
    obtain rfl := (pic_iff C ts o' m).mp h3
    obtain rfl := (edgePic_iff C p e).mp h2
    have hex : ∃ u ∈ us, u.1 = s ∧ u.2.1 = p ∧ Reads C o u.2.2 := by
      clear * - hr ho
      induction hr with
      | nil => cases ho
      | cons h1 _ ih =>
        rcases List.mem_cons.mp ho with rfl | ho
        · exact ⟨_, by simp, h1⟩
        · obtain ⟨u, hu, h2⟩ := ih ho
          exact ⟨u, by simp [hu], h2⟩
    obtain ⟨u, hu, rfl, rfl, h6⟩ := hex
    have : o' = u.2.2 := by
      rw [← toObj_reads] at hread h6
      rw [hread] at h6
      exact Option.some.inj h6
    subst this
    exact ⟨u, hu, (mem_lookup hi.ok.nodup).mp h4, rfl, (mem_lookup hi.ok.nodup).mp h5⟩

open Classical in
/-- What is counted for a node is the number of triples with its term as subject, predicate and
object. -/
theorem C141_counts {C : Cfg I B L} {ts : List (Sub I B × I × Tm I B L)} {g : G}
    (h : fromRdf C ts = some g) (n : VNode) :
    (g.use n).sub = ts.countP (fun t => decide (Pic C ts t.1.tm n)) ∧
    (g.use n).pred = ts.countP (fun t => decide (PredPic C t.2.1 n)) ∧
    (g.use n).obj = ts.countP (fun t => decide (∃ o, Reads C t.2.2 o ∧ Pic C ts o n)) := by
  obtain ⟨us, hr, hi⟩ := fromRdf_inv h
  rw [hi.sub, hi.pred, hi.obj]
  clear hi h
  have gen : ∀ (xs : List (Sub I B × I × Tm I B L)), ReadAll C xs us →
      us.countP (fun u => decide (subNode C u.1 = n)) =
        xs.countP (fun t => decide (Pic C ts t.1.tm n)) ∧
      us.countP (fun u => decide (predNode C u.2.1 = n)) =
        xs.countP (fun t => decide (PredPic C t.2.1 n)) ∧
      us.countP (fun u => decide (pic C ts u.2.2 = n)) =
        xs.countP (fun t => decide (∃ o, Reads C t.2.2 o ∧ Pic C ts o n)) := by
    intro xs hx
    clear hr
    induction hx with
    | nil => exact ⟨rfl, rfl, rfl⟩
    | @cons t u _ _ h1 _ ih =>
      obtain ⟨i1, i2, i3⟩ := ih
      have e1 : (subNode C u.1 = n) = Pic C ts t.1.tm n := by
        rw [h1.1]
        exact propext ((subPic_iff C ts _ n).trans eq_comm).symm
      have e2 : (predNode C u.2.1 = n) = PredPic C t.2.1 n := by
        rw [h1.2.1]
        exact propext ((predPic_iff C _ n).trans eq_comm).symm
      have e3 : (pic C ts u.2.2 = n) = ∃ o, Reads C t.2.2 o ∧ Pic C ts o n := by
        refine propext ⟨fun h => ⟨_, h1.2.2, (pic_iff C ts _ n).mpr h.symm⟩, ?_⟩
        rintro ⟨o, h3, h4⟩
        have h5 := h1.2.2
        rw [← toObj_reads] at h3 h5
        rw [h3] at h5
        cases h5
        exact ((pic_iff C ts _ n).mp h4).symm
      simp only [List.countP_cons, i1, i2, i3, e1, e2, e3]
      refine ⟨?_, ?_, ?_⟩ <;> congr <;> trivial
  exact gen ts hr

/-- The text can always be written, in whatever order the nodes and the edges come: it has one line
that declares each node, one for each edge, and the three arrows of every triple term. Nothing is
left out. -/
theorem C141_text {C : Cfg I B L} {ts : List (Sub I B × I × Tm I B L)} {g : G}
    (h : fromRdf C ts = some g) (k : Look) {ns : List (VNode × Nat)} {es : List (Nat × Edge × Nat)}
    (hn : ns.Perm g.nodes) (he : es.Perm g.edges) :
    ∃ as, plantuml k g ns es = some (["@startuml\n", k.style] ++
      (ns.map fun e => declared e.2 e.1 ++ "\n") ++
      (es.map fun e => toString e.1 ++ " --> " ++ toString e.2.2 ++ " : " ++ linked e.2.1 ++ "\n") ++
      as ++ ["@enduml\n"]) ∧
      ∀ l, l ∈ as ↔ ∃ n i, g.id n i ∧ Pointed k g i n l := by
  obtain ⟨us, hr, hi⟩ := fromRdf_inv h
  obtain ⟨as, h1, h2⟩ := allArrows_ok (k := k) hi.ok (inv_closed hi) ns fun e => hn.mem_iff.mp
  refine ⟨as, ?_, fun l => ?_⟩
  · have h3 : (ns.map fun e => nodeText e.2 (showNode g e.1) e.1 ++ "\n") =
        ns.map fun e => declared e.2 e.1 ++ "\n" := by
      refine List.map_congr_left fun e he' => ?_
      have : e.1 ∈ keys g := List.mem_map.mpr ⟨e, hn.mem_iff.mp he', rfl⟩
      rw [showNode_of_key hi.counted this, nodeText_eq]
    simp only [plantuml, h1, h3, linkText_eq]
  · rw [h2]
    constructor
    · rintro ⟨e, he', h3⟩
      exact ⟨e.1, e.2, hn.mem_iff.mp he', h3⟩
    · rintro ⟨n, i, h3, h4⟩
      exact ⟨(n, i), hn.mem_iff.mpr h3, h4⟩

/-- Different terms have different pictures if they are shown differently. -/
theorem C141_distinct {C : Cfg I B L} {ts : List (Sub I B × I × Tm I B L)}
    (hI : Function.Injective C.iriStr) (hS : Function.Injective C.iriShow)
    (hR : ∀ p q, C.reifies p = true → C.reifies q = true → p = q)
    (hB : Function.Injective C.showB) (hL : Function.Injective C.showL) {t t' : Tm I B L} {n : VNode}
    (h : Pic C ts t n) (h' : Pic C ts t' n) : t = t' := by
  have hsub : ∀ s s' : Sub I B, ∀ m, Pic C ts s.tm m → Pic C ts s'.tm m → s = s' := by
    intro s s' m h1 h2
    have e := ((subPic_iff C ts s m).mp h1).symm.trans ((subPic_iff C ts s' m).mp h2)
    cases s <;> cases s' <;> simp only [subNode, VNode.iri.injEq, VNode.bnode.injEq, reduceCtorEq] at e
    · rw [hI e.2]
    · rw [hB e]
  have hpred : ∀ p p' m, PredPic C p m → PredPic C p' m → p = p' := by
    intro p p' m h1 h2
    have e := ((predPic_iff C p m).mp h1).symm.trans ((predPic_iff C p' m).mp h2)
    unfold predNode at e
    split at e <;> split at e
    · exact hR _ _ ‹_› ‹_›
    · cases e
    · cases e
    · simp only [VNode.pred.injEq] at e
      exact hS e.2
  induction h generalizing t' with
  | iri i =>
    generalize hm : VNode.iri (C.qual i) (C.iriStr i) = m at h'
    cases h' with
    | iri j => rw [hI (VNode.iri.inj hm).2]
    | _ => cases hm
  | bnode b =>
    generalize hm : VNode.bnode (C.showB b) = m at h'
    cases h' with
    | bnode j => rw [hB (VNode.bnode.inj hm)]
    | _ => cases hm
  | lit l =>
    generalize hm : VNode.lit (C.showL l) = m at h'
    cases h' with
    | lit j => rw [hL (VNode.lit.inj hm)]
    | _ => cases hm
  | asserted s p o a b c _ h2 h3 h4 _ ih =>
    cases h' with
    | asserted s' p' o' _ _ _ _ h2' h3' h4' =>
      rw [hsub s s' a h2 h2', hpred p p' b h3 h3', ih h4']
  | nonAsserted s p o a b c _ h2 h3 h4 _ ih =>
    cases h' with
    | nonAsserted s' p' o' _ _ _ _ h2' h3' h4' =>
      rw [hsub s s' a h2 h2', hpred p p' b h3 h3', ih h4']

/-- A small world: IRI 9 is `rdf:reifies`; literals are texts, `1` is read as `true` and `!` is
refused. -/
def exCfg : Cfg Nat Nat String where
  reifies i := i == 9
  qual i := "q" ++ toString i
  iriStr i := "u" ++ toString i
  iriShow i := "<u" ++ toString i ++ ">"
  showB b := "_:" ++ toString b
  conv l := if l = "!" then none else if l = "1" then some "true" else some l
  showL l := l

/-- A node that reifies a triple that is asserted. -/
def exGraph : List (Sub Nat Nat × Nat × Tm Nat Nat String) :=
  [(.iri 0, 1, .lit "x"), (.bnode 0, 9, .triple (.iri 0) 1 (.lit "x")), (.iri 0, 1, .iri 2)]

/-- Its drawing. -/
def exG : G where
  counter := 6
  nodes := [(.iri "q0" "u0", 0), (.lit "x", 1), (.bnode "_:0", 2), (.pred "q1" "<u1>", 3),
    (.asserted (.iri "q0" "u0") (.pred "q1" "<u1>") (.lit "x"), 4), (.iri "q2" "u2", 5)]
  usage := [(.iri "q0" "u0", { sub := 2, subT := 1 }), (.pred "q1" "<u1>", { pred := 2, predT := 1 }),
    (.lit "x", { obj := 1, objT := 1 }), (.bnode "_:0", { sub := 1 }), (.reifies, { pred := 1 }),
    (.asserted (.iri "q0" "u0") (.pred "q1" "<u1>") (.lit "x"), { obj := 1 }),
    (.iri "q2" "u2", { obj := 1 })]
  edges := [(0, .iri "q1" "u1", 1), (2, .reifies, 4), (0, .iri "q1" "u1", 5)]

example : fromRdf exCfg exGraph = some exG := by rfl

example : (plantuml ⟨"s", ("a", "b"), ("c", "d"), ("e", "f")⟩ exG exG.nodes.reverse exG.edges).isSome =
    true := by rfl

example : fromRdf exCfg [(.iri 0, 1, .lit "!")] = none := by rfl

/-- It is false that literals that are different are drawn as different nodes: texts of one value
become one. -/
theorem C141_merged_refuted : ¬ ∀ (C : Cfg Nat Nat String) ts g, fromRdf C ts = some g →
    ∀ s p l s' p' l', (s, p, Tm.lit l) ∈ ts → (s', p', Tm.lit l') ∈ ts → l ≠ l' →
    ∃ n m o o', Reads C (.lit l) o ∧ Reads C (.lit l') o' ∧ Pic C ts o n ∧ Pic C ts o' m ∧ n ≠ m := by
  intro h
  obtain ⟨n, m, o, o', h1, h2, h3, h4, h5⟩ := h exCfg [(.iri 0, 1, .lit "1"), (.iri 0, 1, .lit "true")]
    _ rfl (.iri 0) 1 "1" (.iri 0) 1 "true" (by simp) (by simp) (by decide)
  have e1 : o = .lit "true" := by
    rw [← toObj_reads] at h1
    exact (Option.some.inj h1).symm
  have e2 : o' = .lit "true" := by
    rw [← toObj_reads] at h2
    exact (Option.some.inj h2).symm
  subst e1
  subst e2
  exact h5 (((pic_iff _ _ _ _).mp h3).trans ((pic_iff _ _ _ _).mp h4).symm)

/-- It is false that a triple term is drawn as asserted when the graph has the triple: its object may
be read as another literal. -/
theorem C141_asserted_refuted : ¬ ∀ (C : Cfg Nat Nat String) ts g, fromRdf C ts = some g →
    ∀ s p s' p' o, (s', p', Tm.triple s p o) ∈ ts → (s, p, o) ∈ ts →
    ∃ a b c i, g.id (.asserted a b c) i := by
  intro h
  obtain ⟨a, b, c, i, h1⟩ := h exCfg [(.iri 0, 1, .lit "1"), (.iri 2, 9, .triple (.iri 0) 1 (.lit "1"))]
    { counter := 5
      nodes := [(.iri "q0" "u0", 0), (.lit "true", 1), (.iri "q2" "u2", 2), (.pred "q1" "<u1>", 3),
        (.nonAsserted (.iri "q0" "u0") (.pred "q1" "<u1>") (.lit "true"), 4)]
      usage := [(.iri "q0" "u0", { sub := 1, subT := 1 }),
        (.pred "q1" "<u1>", { pred := 1, predT := 1 }), (.lit "true", { obj := 1, objT := 1 }),
        (.iri "q2" "u2", { sub := 1 }), (.reifies, { pred := 1 }),
        (.nonAsserted (.iri "q0" "u0") (.pred "q1" "<u1>") (.lit "true"), { obj := 1 })]
      edges := [(0, .iri "q1" "u1", 1), (2, .reifies, 4)] } rfl
    (.iri 0) 1 (.iri 2) 9 (.lit "1") (by simp) (by simp)
  simp [G.id] at h1

/-- It is false that an IRI has one node: as a predicate of a triple term it has another. -/
theorem C141_iri_refuted : ¬ ∀ (C : Cfg Nat Nat String) ts g, fromRdf C ts = some g →
    ∀ i n m a b, Occurs C ts (.iri i) → Inside C ts i → Pic C ts (.iri i) n → PredPic C i m →
    g.id n a → g.id m b → a = b := by
  intro h
  have := h exCfg [(.iri 1, 9, .triple (.iri 0) 1 (.iri 1))] _ rfl 1 (.iri "q1" "u1")
    (.pred "q1" "<u1>") 0 2
    (.sub (.iri 1) 9 (.triple (.iri 0) 1 (.iri 1)) (List.mem_singleton.mpr rfl))
    ⟨.iri 0, .iri 1, .obj (.iri 1) 9 _ _ (List.mem_singleton.mpr rfl) (.triple _ _ _ _ (.iri 1))⟩
    (.iri 1) (.pred 1 rfl) (by unfold G.id; decide +kernel)
    (by unfold G.id; decide +kernel)
  cases this

/-- Nothing is escaped: it is false that what stands between the first two quotation marks of the
line of a literal is its text. -/
theorem C141_quotes_refuted : ¬ ∀ (v : String) (i : Nat),
    ((declared i (.lit v)).toList.dropWhile (· ≠ '"')).tail.takeWhile (· ≠ '"') = v.toList := by
  intro h
  have := h "\"a\"" 0
  revert this
  decide

end Visual

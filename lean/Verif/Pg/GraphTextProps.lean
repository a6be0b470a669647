import Verif.Pg.GraphText
import Verif.Pg.BuildProps

/-!
# Properties: texts of graphs and of type maps

C87: the graph and the type map that are checked are those of the texts.
-/

namespace Pg

/-- A body with one label and nothing else. -/
def exBody (l : String) : SrcBody := ⟨[.bare l], []⟩

/-- `(a {A}) (b {B}) (a)-(e {E})->(b) (a {C})` -/
def exRedeclared : List GStmt :=
  [.node "a" (exBody "A"), .node "b" (exBody "B"), .edge (some "e") "a" (exBody "E") "b", .node "a" (exBody "C")]

/-- C87, refuted. An edge does not connect the nodes of the names that are written in it, if one of them is declared
again later: the edge keeps the earlier node, which no name leads to any more. -/
theorem C87_edge_ends_refuted :
    ¬ ∀ (D : Dates) (p : List GStmt) (G : Graph), PlainGraphText p → buildGraph D p = some G →
      ∀ pre id s b t post, p = pre ++ .edge id s b t :: post → ∃ e, G.edges.lookup (edgeCount pre) = some e ∧
        G.nodes.lookup e.source = G.nodeByName s ∧ G.nodes.lookup e.target = G.nodeByName t := by
  intro h
  have hp : PlainGraphText exRedeclared := by
    intro st hst
    simp only [exRedeclared, List.mem_cons, List.not_mem_nil, or_false] at hst
    rcases hst with rfl | rfl | rfl | rfl <;> exact ⟨by simp [GStmt.body, exBody, SrcName.Plain], by simp [GStmt.body, exBody]⟩
  obtain ⟨e, he, hs, _⟩ := h exDates exRedeclared _ hp rfl (exRedeclared.take 2) (some "e") "a" (exBody "E") "b"
    (exRedeclared.drop 3) rfl
  have he' : e = ⟨0, 0, 1, {"E"}, ∅⟩ := (Option.some.inj he).symm
  subst he'
  have := congrArg (Option.map Node.labels) hs
  exact absurd this (by decide)

/-- C87, the part that holds, for texts without escaped quotes. The node of a name is the one of its last declaration,
with the labels, keys and values written there; a name that is not declared leads to no node. -/
theorem C87_nodes_partial (D : Dates) (p : List GStmt) (hp : PlainGraphText p) (G : Graph)
    (h : buildGraph D p = some G) (name : String) :
    (∀ b, LastDecl p name b → ∃ n, G.nodeByName name = some n ∧ Carries D b n.labels n.properties) ∧
    ((∀ b, GStmt.node name b ∉ p) → G.nodeByName name = none) := by
  have hf := buildGraph_fromGText D p hp G h
  constructor
  · intro b hl
    obtain ⟨id, hid⟩ := hf.last name b hl
    obtain ⟨b', n, h1, h2, h3⟩ := hf.node name id hid
    cases lastDecl_unique p name b b' hl h1
    exact ⟨n, by simp [Graph.nodeByName, hid, h2], h3⟩
  · intro hno
    cases hid : G.nodeNames.lookup name with
    | none => simp [Graph.nodeByName, hid]
    | some id =>
      obtain ⟨b, n, h1, _⟩ := hf.node name id hid
      exact absurd (lastDecl_mem p name b h1) (hno b)

/-- `(n {"Person", Student} [name: "Ann", age: [18, 19], name: "Bea"])` -/
def exGraphText : List GStmt :=
  [.node "n" ⟨[.quoted "\"Person\"", .bare "Student"],
    [(.bare "name", .single (.str "\"Ann\"")), (.bare "age", .list [.num "18", .num "19"]),
      (.quoted "\"name\"", .single (.str "\"Bea\""))]⟩]

example : PlainGraphText exGraphText ∧ ∃ G, buildGraph exDates exGraphText = some G ∧
    (G.nodeByName "n").map Node.labels = some {"Person", "Student"} ∧
    (G.nodeByName "n").map (fun n => valuesIn n.properties "name") = some {.string "Ann", .string "Bea"} := by
  refine ⟨?_, _, rfl, by decide, by decide⟩
  intro st hst
  simp only [exGraphText, List.mem_singleton] at hst
  subst hst
  have q : ∀ (t : String) (body : List Char), t.toList = '"' :: (body ++ ['"']) → '"' ∉ body → IsPlain t :=
    fun t body h1 h2 => ⟨body, h1, h2⟩
  constructor
  · intro nm hm
    simp only [GStmt.body, List.mem_cons, List.not_mem_nil, or_false] at hm
    rcases hm with rfl | rfl
    · exact q _ "Person".toList rfl (by decide)
    · trivial
  · intro e hm
    simp only [GStmt.body, List.mem_cons, List.not_mem_nil, or_false] at hm
    rcases hm with rfl | rfl | rfl
    · refine ⟨trivial, fun w hw => ?_⟩
      simp only [SrcValues.items, List.mem_singleton] at hw
      subst hw
      exact q _ "Ann".toList rfl (by decide)
    · refine ⟨trivial, fun w hw => ?_⟩
      simp only [SrcValues.items, List.mem_cons, List.not_mem_nil, or_false] at hw
      rcases hw with rfl | rfl <;> · show IsNumber _; unfold IsNumber; decide
    · refine ⟨q _ "name".toList rfl (by decide), fun w hw => ?_⟩
      simp only [SrcValues.items, List.mem_singleton] at hw
      subst hw
      exact q _ "Bea".toList rfl (by decide)

/-- C87, the part that holds for edges. The edges of the graph are those of the text, numbered in order, with the labels,
keys and values written there; their ends are the nodes of the names as declared up to the edge, and the nodes of the
names if these are not declared again; the name of an edge leads to the last edge of that name. Missing: names declared
again after the edge, refuted above. -/
theorem C87_edges_partial (D : Dates) (p : List GStmt) (hp : PlainGraphText p) (G : Graph)
    (h : buildGraph D p = some G) :
    (∀ pre id s b t post, p = pre ++ .edge id s b t :: post →
      ∃ e bs ns bt nt, G.edges.lookup (edgeCount pre) = some e ∧ Carries D b e.labels e.properties ∧
        (LastDecl pre s bs ∧ G.nodes.lookup e.source = some ns ∧ Carries D bs ns.labels ns.properties) ∧
        (LastDecl pre t bt ∧ G.nodes.lookup e.target = some nt ∧ Carries D bt nt.labels nt.properties) ∧
        ((∀ b', GStmt.node s b' ∉ post) → G.nodes.lookup e.source = G.nodeByName s) ∧
        ((∀ b', GStmt.node t b' ∉ post) → G.nodes.lookup e.target = G.nodeByName t) ∧
        ∀ nm, id = some nm → nm ≠ "" → (∀ s' b' t', GStmt.edge (some nm) s' b' t' ∉ post) →
          G.edgeByName nm = some e) ∧
    ∀ i e, G.edges.lookup i = some e → i < edgeCount p := by
  have hf := buildGraph_fromGText D p hp G h
  refine ⟨fun pre id s b t post hsplit => ?_, fun i e he => by rw [← hf.ecount]; exact hf.ebound i e he⟩
  obtain ⟨e, he⟩ := hf.edge pre id s b t post hsplit
  obtain ⟨bs, ns, s1, s2, s3⟩ := he.source.carries
  obtain ⟨bt, nt, t1, t2, t3⟩ := he.target.carries
  refine ⟨e, bs, ns, bt, nt, he.found, he.carries, ⟨s1, s2, s3⟩, ⟨t1, t2, t3⟩, fun hno => ?_, fun hno => ?_,
    fun nm h1 h2 h3 => ?_⟩
  · simp [Graph.nodeByName, he.source.kept hno]
  · simp [Graph.nodeByName, he.target.kept hno]
  · simp [Graph.edgeByName, he.named nm h1 h2 h3, he.found]

example : ∃ G, buildGraph exDates (exRedeclared.take 3) = some G ∧
    (G.edgeByName "e").map (fun e => (e.source, e.target, e.labels)) = some (0, 1, {"E"}) ∧
    ∀ b', GStmt.node "a" b' ∉ ([] : List GStmt) := ⟨_, rfl, by decide, by simp⟩

/-- C87. A text is accepted exactly when its numbers and dates can be read and the ends of every edge are declared
before it. -/
theorem C87_accepted (D : Dates) (p : List GStmt) (hp : PlainGraphText p) :
    (∃ G, buildGraph D p = some G) ↔ (∀ st ∈ p, st.body.Readable D) ∧ EndsDeclared p := by
  induction p using List.reverseRecOn with
  | nil => simp [buildGraph, buildGStmts, EndsDeclared]
  | append_singleton p st ih =>
    have hp' : PlainGraphText p := fun st hm => hp st (by simp [hm])
    have hst := hp st (by simp)
    have step : (∃ G, buildGraph D (p ++ [st]) = some G) ↔
        ∃ G0, buildGraph D p = some G0 ∧ ∃ G1, buildGStmt D G0 st = some G1 := by
      simp only [buildGraph, buildGStmts_append]
      cases buildGStmts D Graph.new p with
      | some G0 =>
        simp only [buildGStmts]
        cases hs : buildGStmt D G0 st <;> simp [hs]
      | none => simp
    have ends : EndsDeclared (p ++ [st]) ↔ EndsDeclared p ∧ ∀ id s b t, st = .edge id s b t →
        (∃ b', GStmt.node s b' ∈ p) ∧ ∃ b', GStmt.node t b' ∈ p := by
      constructor
      · intro h
        exact ⟨fun pre id s b t post hs => h pre id s b t (post ++ [st]) (by simp [hs]),
          fun id s b t hs => h p id s b t [] (by simp [hs])⟩
      · rintro ⟨h1, h2⟩ pre id s b t post hs
        rcases snoc_split _ _ _ _ _ hs with ⟨rfl, rfl, hx⟩ | ⟨post', rfl, hs'⟩
        · exact h2 id s b t hx.symm
        · exact h1 pre id s b t post' hs'
    rw [step, ends]
    have key : ∀ G0, buildGraph D p = some G0 → ((∃ G1, buildGStmt D G0 st = some G1) ↔
        st.body.Readable D ∧ ∀ id s b t, st = .edge id s b t →
          (∃ b', GStmt.node s b' ∈ p) ∧ ∃ b', GStmt.node t b' ∈ p) := by
      intro G0 hG0
      have hf := buildGraph_fromGText D p hp' G0 hG0
      have dec : ∀ x, (∃ i, G0.nodeNames.lookup x = some i) ↔ ∃ b', GStmt.node x b' ∈ p := by
        intro x
        constructor
        · rintro ⟨i, hi⟩
          obtain ⟨b, _, h1, _⟩ := hf.node x i hi
          exact ⟨b, lastDecl_mem p x b h1⟩
        · rintro ⟨b, hb⟩
          obtain ⟨b', hb'⟩ := mem_lastDecl p x b hb
          exact hf.last x b' hb'
      cases st with
      | node id b =>
        rw [buildGStmt, map_isSome, buildBody_isSome D b hst]
        simp [GStmt.body]
      | edge id s b t =>
        have e1 : (∀ id' s' b' t', GStmt.edge id s b t = .edge id' s' b' t' →
            (∃ b', GStmt.node s' b' ∈ p) ∧ ∃ b', GStmt.node t' b' ∈ p) ↔
            (∃ i, G0.nodeNames.lookup s = some i) ∧ ∃ i, G0.nodeNames.lookup t = some i := by
          rw [dec s, dec t]
          constructor
          · intro h
            exact h id s b t rfl
          · rintro h _ _ _ _ he
            cases he
            exact h
        rw [e1]
        simp only [GStmt.body, ← buildBody_isSome D b hst, buildGStmt]
        cases buildBody D b with
        | none => simp
        | some x =>
          simp only [Graph.addEdge]
          cases G0.nodeNames.lookup s with
          | none => simp
          | some si => cases G0.nodeNames.lookup t <;> simp
    simp only [List.mem_append, List.mem_singleton, or_imp, forall_and, forall_eq]
    constructor
    · rintro ⟨G0, h0, h1⟩
      obtain ⟨a, b⟩ := (ih hp').1 ⟨G0, h0⟩
      obtain ⟨c, d⟩ := (key G0 h0).1 h1
      exact ⟨⟨a, c⟩, b, fun id s b t hs => (d id s b t hs).1, fun id s b t hs => (d id s b t hs).2⟩
    · rintro ⟨⟨a, c⟩, b, d1, d2⟩
      obtain ⟨G0, h0⟩ := (ih hp').2 ⟨a, b⟩
      exact ⟨G0, h0, (key G0 h0).2 ⟨c, fun id s b t hs => ⟨d1 id s b t hs, d2 id s b t hs⟩⟩⟩

/-- An edge before the declaration of its target is refused. -/
example : buildGraph exDates [.node "a" (exBody "A"), .edge none "a" (exBody "E") "b", .node "b" (exBody "B")] = none ∧
    (buildGraph exDates (exRedeclared.take 3)).isSome = true := ⟨rfl, rfl⟩

/-- C87. A type map has the associations of its text, in order, and `!` asks for failure. -/
theorem C87_type_map (as : List SrcAssoc) :
    (buildMap as).length = as.length ∧ ∀ (i : Nat) (a : SrcAssoc), as[i]? = some a →
      ∃ m : Assoc, (buildMap as)[i]? = some m ∧ m.nodeId = a.nodeId ∧ m.typeName = a.typeName ∧
        (m.shouldConform = true ↔ a.negated = false) := by
  have key : ∀ (as : List SrcAssoc) (m : List Assoc), as.foldl buildAssoc m =
      m ++ as.map fun a => ⟨a.nodeId, a.typeName, !a.negated⟩ := by
    intro as
    induction as with
    | nil => simp
    | cons a as ih =>
      intro m
      rw [List.foldl_cons, ih]
      unfold buildAssoc
      cases hn : a.negated <;> simp [hn]
  unfold buildMap
  rw [key]
  refine ⟨by simp, fun i a hi => ?_⟩
  exact ⟨⟨a.nodeId, a.typeName, !a.negated⟩, by simp [hi], rfl, rfl, by simp⟩

example : buildMap [⟨"n", false, "T"⟩, ⟨"m", true, "U"⟩] = [⟨"n", "T", true⟩, ⟨"m", "U", false⟩] := rfl

end Pg

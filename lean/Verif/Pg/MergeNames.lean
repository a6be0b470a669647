import Verif.Pg.MergeProps

/-!
# Properties: names of edges after merging property graphs

C84, the names of edges.
-/

namespace Pg

/-- Naming one edge: the names it had lead to its new identifier, other names stay. -/
theorem nameEdge_lookup (oid nid : Nat) (l : List (Sigma fun _ : String => Nat)) (m : HMap String Nat) (name : String) :
    (l.foldl (fun (m : HMap String Nat) n => if n.2 = oid then m.insert n.1 nid else m) m).lookup name =
      if (⟨name, oid⟩ : Sigma fun _ : String => Nat) ∈ l then some nid else m.lookup name := by
  induction l generalizing m with
  | nil => simp
  | cons n l ih =>
    rw [List.foldl_cons, ih]
    by_cases h : (⟨name, oid⟩ : Sigma fun _ : String => Nat) ∈ l
    · simp [h]
    · obtain ⟨x, k⟩ := n
      by_cases hk : k = oid
      · subst hk
        by_cases hx : name = x
        · subst hx
          simp [h]
        · have : (⟨name, k⟩ : Sigma fun _ : String => Nat) ≠ ⟨x, k⟩ := fun e => hx (congrArg Sigma.fst e)
          simp [h, this, AList.lookup_insert_ne hx]
      · have : (⟨name, oid⟩ : Sigma fun _ : String => Nat) ≠ ⟨x, k⟩ := fun e => by cases e; exact hk rfl
        simp [h, this, hk]

/-- The loop over names of nodes does not touch names of edges. -/
theorem mergeNodes_edgeNames (other : Graph) (l : List (Sigma fun _ : String => Nat)) (st st' : Graph × HMap Nat Nat)
    (h : Graph.mergeNodes other l st = some st') :
    st'.1.edgeNames = st.1.edgeNames ∧ st'.1.edgeCounter = st.1.edgeCounter ∧ st'.1.edges = st.1.edges := by
  induction l generalizing st with
  | nil =>
    cases h
    exact ⟨rfl, rfl, rfl⟩
  | cons e l ih =>
    obtain ⟨name, oid⟩ := e
    rw [Graph.mergeNodes] at h
    cases h1 : Graph.mergeNode other st name oid with
    | none => simp [h1] at h
    | some st1 =>
      rw [h1] at h
      have := ih st1 h
      have k : st1.1.edgeNames = st.1.edgeNames ∧ st1.1.edgeCounter = st.1.edgeCounter ∧ st1.1.edges = st.1.edges := by
        unfold Graph.mergeNode at h1
        split at h1
        · cases h1
        · split at h1 <;> cases h1 <;> exact ⟨rfl, rfl, rfl⟩
      exact ⟨this.1.trans k.1, this.2.1.trans k.2.1, this.2.2.trans k.2.2⟩

/-- What the loop over edges does to names. -/
theorem mergeEdges_names (other : Graph) (ids : HMap Nat Nat) (name : String) (es : List (Sigma fun _ : Nat => Edge))
    (hd : es.NodupKeys) (H H' : Graph) (h : Graph.mergeEdges other ids es H = some H') :
    (∀ j (hj : j < es.length), other.edgeNames.lookup name = some es[j].1 →
      H'.edgeNames.lookup name = some (H.edgeCounter + j)) ∧
    ((∀ e ∈ es, other.edgeNames.lookup name ≠ some e.1) → H'.edgeNames.lookup name = H.edgeNames.lookup name) := by
  induction es generalizing H with
  | nil =>
    cases h
    exact ⟨fun j hj => by simp at hj, fun _ => rfl⟩
  | cons e es ih =>
    obtain ⟨oid, e⟩ := e
    rw [Graph.mergeEdges] at h
    cases h1 : Graph.mergeEdge other ids H oid e with
    | none => simp [h1] at h
    | some H1 =>
      rw [h1] at h
      have hc : H1.edgeCounter = H.edgeCounter + 1 ∧ H1.edgeNames.lookup name =
          if other.edgeNames.lookup name = some oid then some H.edgeCounter else H.edgeNames.lookup name := by
        unfold Graph.mergeEdge at h1
        split at h1
        · cases h1
          refine ⟨rfl, ?_⟩
          show AList.lookup _ (List.foldl _ _ _) = _
          rw [nameEdge_lookup]
          simp only [lookup_entries]
        · cases h1
      obtain ⟨p, q⟩ := ih (List.nodupKeys_cons.1 hd).2 H1 h
      have hne : ∀ e' ∈ es, e'.1 ≠ oid := fun e' he' hx =>
        (List.nodupKeys_cons.1 hd).1 (List.mem_keys.2 ⟨e'.2, by rw [← hx]; exact he'⟩)
      refine ⟨fun j hj ho => ?_, fun hno => ?_⟩
      · cases j with
        | zero =>
          have ho' : other.edgeNames.lookup name = some oid := ho
          rw [q fun e' he' hx => hne e' he' (by rw [ho'] at hx; exact (Option.some.inj hx).symm), hc.2, if_pos ho']
          rfl
        | succ j =>
          rw [p j (by simpa using hj) ho, hc.1]
          congr 1
          omega
      · rw [q fun e' he' => hno e' (List.mem_cons_of_mem _ he'), hc.2, if_neg (hno _ List.mem_cons_self)]

/-- In a graph that was built, identifiers that edge names lead to are below the counter. -/
theorem built_edgeNames (G : Graph) (h : Built G) :
    ∀ name id, G.edgeNames.lookup name = some id → id < G.edgeCounter := by
  induction h with
  | new => exact fun _ _ h => by simp [Graph.new] at h
  | node _ _ ih => exact ih
  | @edge G name s t L r _ ih =>
    have key : ∀ x id, (G.edgeNames.insert (name.getD "") G.edgeCounter).lookup x = some id → id < G.edgeCounter + 1 := by
      intro x id h
      rw [lookup_insert_if] at h
      split at h
      · cases h
        omega
      · have := ih x id h
        omega
    unfold Graph.addEdge
    cases G.nodeNames.lookup s with
    | none => exact key
    | some _ =>
      cases G.nodeNames.lookup t with
      | none => exact key
      | some _ => exact key

/-- C84, names of edges. After merging one graph that was built into another, a name of an edge of the second graph leads
to an edge with the same labels, the same properties and ends of the same names; every other name leads to the edge it
led to in the first graph, if any. -/
theorem C84_edge_names (G other : Graph) (hG : Built G) (hO : Built other) :
    ∃ H, G.merge other = some H ∧
      (∀ name e, other.edgeByName name = some e → ∃ e', H.edgeByName name = some e' ∧ e'.labels = e.labels ∧
        e'.properties = e.properties ∧
        (∀ x, other.nodeNames.lookup x = some e.source → H.nodeNames.lookup x = some e'.source) ∧
        ∀ x, other.nodeNames.lookup x = some e.target → H.nodeNames.lookup x = some e'.target) ∧
      ∀ name, other.edgeByName name = none → H.edgeByName name = G.edgeByName name := by
  have gG := C84_built G hG
  have gO := C84_built other hO
  have hes : ∀ e ∈ other.nodeNames.entries, other.nodeNames.lookup e.1 = some e.2 :=
    fun e he => (lookup_entries _ _ _).2 he
  obtain ⟨H1, ids, h1, _, _, _, _, hids, _, he1, _, hec1⟩ :=
    mergeNodes_spec other gO.toNodesOk other.nodeNames.entries hes other.nodeNames.nodupKeys G ∅ gG.toNodesOk
  have hids' : ∀ name oid, other.nodeNames.lookup name = some oid →
      ∃ nid, ids.lookup oid = some nid ∧ H1.nodeNames.lookup name = some nid :=
    fun name oid h => hids ⟨name, oid⟩ ((lookup_entries _ _ _).1 h)
  obtain ⟨H2, h2, l1, l2, _, _, l5, l6⟩ := mergeEdges_spec other ids other.edges.entries (by
    intro e he
    obtain ⟨⟨a, ha⟩, b, hb⟩ := gO.ends e.1 e.2 ((lookup_entries _ _ _).2 he)
    obtain ⟨x, hx, _⟩ := hids' a _ ha
    obtain ⟨y, hy, _⟩ := hids' b _ hb
    exact ⟨⟨x, hx⟩, y, hy⟩) H1
  have hn1 : H1.edgeNames = G.edgeNames := (mergeNodes_edgeNames other _ _ _ h1).1
  refine ⟨H2, by rw [Graph.merge, h1]; exact h2, ?_, ?_⟩
  · intro name e he
    unfold Graph.edgeByName at he
    cases ho : other.edgeNames.lookup name with
    | none => simp [ho] at he
    | some oid =>
      rw [ho] at he
      have hm := (lookup_entries _ _ _).1 he
      obtain ⟨j, hj, hje⟩ := List.getElem_of_mem hm
      have hnm := (mergeEdges_names other ids name _ other.edges.nodupKeys H1 H2 h2).1 j hj (by rw [hje]; exact ho)
      obtain ⟨e', p1, p2, p3, p4, p5⟩ := l6 j hj
      rw [hje] at p2 p3 p4 p5
      refine ⟨e', by simp only [Graph.edgeByName, hnm]; exact p1, p2, p3, ?_, ?_⟩
      · intro x hx
        obtain ⟨nid, q1, q2⟩ := hids' x _ hx
        rw [l2, q2, ← q1, ← p4]
      · intro x hx
        obtain ⟨nid, q1, q2⟩ := hids' x _ hx
        rw [l2, q2, ← q1, ← p5]
  · intro name hno
    have hnm : H2.edgeNames.lookup name = G.edgeNames.lookup name := by
      rw [(mergeEdges_names other ids name _ other.edges.nodupKeys H1 H2 h2).2, hn1]
      intro e he hx
      have hlk := (lookup_entries _ _ _).2 he
      simp only [Graph.edgeByName, hx] at hno
      rw [hlk] at hno
      cases hno
    unfold Graph.edgeByName
    rw [hnm]
    cases hg : G.edgeNames.lookup name with
    | none => rfl
    | some id =>
      have := built_edgeNames G hG name id hg
      show H2.edges.lookup id = G.edges.lookup id
      rw [l5 id (Or.inl (by rw [hec1]; exact this)), he1]

/-- A graph with a named edge. -/
def exNamed : Graph := (((Graph.new.addNode "b" {"B"} ∅).addNode "a" {"C"} ∅).addEdge (some "e") "a" {"E"} ∅ "b").1

example : Built exNamed := .edge (.node (.node .new rfl) (by decide))

example : (exLeft.merge exNamed).bind (fun H => (H.edgeByName "e").map fun e => (e.source, e.target)) = some (0, 1) := by
  decide

end Pg

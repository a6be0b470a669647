import Verif.Pg.BaseLemmas
import Verif.Pg.RecordProps

/-!
# Properties: building and merging property graphs and schemas

C84 merging graphs, C85 building schemas.
-/

namespace Pg

/-- The labels of the node with a name, none if there is no such node. -/
def labelsAt (G : Graph) (name : String) : LabelSet := (G.nodeByName name).elim ∅ Node.labels

/-- The values of a key in a record, none if the key is absent. -/
def valuesIn (r : Record) (k : String) : Finset Value := (r.lookup k).getD ∅

/-- The values of a property of the node with a name. -/
def valuesAt (G : Graph) (name k : String) : Finset Value :=
  (G.nodeByName name).elim ∅ fun n => valuesIn n.properties k

/-- Names lead to nodes, no two names lead to the same node, and identifiers of nodes are below the counter. -/
structure NodesOk (G : Graph) : Prop where
  named : ∀ name id, G.nodeNames.lookup name = some id → ∃ n, G.nodes.lookup id = some n
  bound : ∀ id n, G.nodes.lookup id = some n → id < G.nodeCounter
  inj : ∀ a b id, G.nodeNames.lookup a = some id → G.nodeNames.lookup b = some id → a = b

/-- Moreover the ends of edges are named nodes and identifiers of edges are below the counter. -/
structure GraphOk (G : Graph) : Prop extends NodesOk G where
  ends : ∀ i e, G.edges.lookup i = some e →
    (∃ a, G.nodeNames.lookup a = some e.source) ∧ ∃ b, G.nodeNames.lookup b = some e.target
  ebound : ∀ i e, G.edges.lookup i = some e → i < G.edgeCounter

theorem new_ok : GraphOk Graph.new :=
  { named := fun _ _ h => by simp [Graph.new] at h
    bound := fun _ _ h => by simp [Graph.new] at h
    inj := fun _ _ _ h => by simp [Graph.new] at h
    ends := fun _ _ h => by simp [Graph.new] at h
    ebound := fun _ _ h => by simp [Graph.new] at h }

theorem lookup_insert_if {K V : Type} [DecidableEq K] (m : HMap K V) (k x : K) (v : V) :
    (m.insert k v).lookup x = if x = k then some v else m.lookup x := by
  by_cases h : x = k
  · subst h
    rw [if_pos rfl, AList.lookup_insert]
  · rw [if_neg h, AList.lookup_insert_ne h]

/-- Adding a node with a new name keeps a graph in order. -/
theorem addNode_ok (G : Graph) (hG : GraphOk G) (name : String) (L : LabelSet) (r : Record)
    (hn : G.nodeNames.lookup name = none) : GraphOk (G.addNode name L r) := by
  have hid : ∀ x id, G.nodeNames.lookup x = some id → id < G.nodeCounter := by
    intro x id h
    obtain ⟨n, hn⟩ := hG.named x id h
    exact hG.bound id n hn
  refine { named := ?_, bound := ?_, inj := ?_, ends := ?_, ebound := hG.ebound }
  · intro x id h
    simp only [Graph.addNode, lookup_insert_if] at h ⊢
    by_cases hx : x = name
    · rw [if_pos hx] at h
      cases h
      simp
    · rw [if_neg hx] at h
      by_cases hi : id = G.nodeCounter
      · simp [hi]
      · simpa [hi] using hG.named x id h
  · intro id n h
    simp only [Graph.addNode, lookup_insert_if] at h ⊢
    by_cases hi : id = G.nodeCounter
    · omega
    · rw [if_neg hi] at h
      have := hG.bound id n h
      omega
  · intro a b id ha hb
    simp only [Graph.addNode, lookup_insert_if] at ha hb
    by_cases h1 : a = name <;> by_cases h2 : b = name
    · rw [h1, h2]
    · rw [if_pos h1] at ha
      rw [if_neg h2] at hb
      cases ha
      exact (Nat.lt_irrefl _ (hid b _ hb)).elim
    · rw [if_neg h1] at ha
      rw [if_pos h2] at hb
      cases hb
      exact (Nat.lt_irrefl _ (hid a _ ha)).elim
    · rw [if_neg h1] at ha
      rw [if_neg h2] at hb
      exact hG.inj a b id ha hb
  · intro i e h
    obtain ⟨⟨a, ha⟩, b, hb⟩ := hG.ends i e h
    have keep : ∀ x id, G.nodeNames.lookup x = some id → (G.addNode name L r).nodeNames.lookup x = some id := by
      intro x id hx
      simp only [Graph.addNode, lookup_insert_if]
      have : x ≠ name := by
        rintro rfl
        rw [hn] at hx
        cases hx
      rw [if_neg this]
      exact hx
    exact ⟨⟨a, keep a _ ha⟩, b, keep b _ hb⟩

/-- Adding an edge keeps a graph in order, whether or not it succeeds. -/
theorem addEdge_ok (G : Graph) (hG : GraphOk G) (name : Option String) (s t : String) (L : LabelSet) (r : Record) :
    GraphOk (G.addEdge name s L r t).1 := by
  unfold Graph.addEdge
  cases hs : G.nodeNames.lookup s with
  | none =>
    exact { named := hG.named, bound := hG.bound, inj := hG.inj, ends := hG.ends
            ebound := fun i e h => Nat.lt_succ_of_lt (hG.ebound i e h) }
  | some sid =>
    cases ht : G.nodeNames.lookup t with
    | none =>
      exact { named := hG.named, bound := hG.bound, inj := hG.inj, ends := hG.ends
              ebound := fun i e h => Nat.lt_succ_of_lt (hG.ebound i e h) }
    | some tid =>
      refine { named := hG.named, bound := hG.bound, inj := hG.inj, ends := ?_, ebound := ?_ }
      · intro i e h
        simp only [lookup_insert_if] at h
        by_cases hi : i = G.edgeCounter
        · rw [if_pos hi] at h
          cases h
          exact ⟨⟨s, hs⟩, t, ht⟩
        · rw [if_neg hi] at h
          exact hG.ends i e h
      · intro i e h
        simp only [lookup_insert_if] at h ⊢
        by_cases hi : i = G.edgeCounter
        · omega
        · rw [if_neg hi] at h
          have := hG.ebound i e h
          omega

theorem mergeProperties_values (r o : Record) (k : String) :
    valuesIn (mergeProperties r o) k = valuesIn r k ∪ valuesIn o k := by
  have key : ∀ (es : List (Sigma fun _ : String => Finset Value)) (_ : es.NodupKeys) (r : Record),
      valuesIn (es.foldl (fun (m : Record) e => if e.2 = ∅ then m else Record.insertValues m e.1 e.2) r) k =
        valuesIn r k ∪ ((es.find? fun e => decide (e.1 = k)).elim ∅ fun e => e.2) := by
    intro es hn r
    induction es generalizing r with
    | nil => simp
    | cons e es ih =>
      rw [List.nodupKeys_cons] at hn
      rw [List.foldl_cons, ih hn.2]
      by_cases hk : e.1 = k
      · have hnone : es.find? (fun e => decide (e.1 = k)) = none := by
          rw [List.find?_eq_none]
          intro x hx hxk
          exact hn.1 (by rw [hk, ← of_decide_eq_true hxk]; exact List.mem_keys_of_mem hx)
        simp only [hnone, List.find?_cons, hk, decide_true, Option.elim_none, Option.elim_some]
        by_cases he : e.2 = ∅
        · simp [he]
        · rw [if_neg he]
          simp [valuesIn, Record.insertValues]
      · simp only [List.find?_cons, hk, decide_false]
        by_cases he : e.2 = ∅
        · simp [he]
        · rw [if_neg he]
          simp [valuesIn, Record.insertValues, AList.lookup_insert_ne (fun h : k = e.1 => hk h.symm)]
  rw [mergeProperties, key o.entries o.nodupKeys r, find_entries]
  cases h : o.lookup k <;> simp [valuesIn, h]

/-- What one iteration of the loop over names does. -/
theorem mergeNode_spec (other H : Graph) (ids : HMap Nat Nat) (name : String) (oid : Nat) (onode : Node)
    (hH : NodesOk H) (ho : other.nodes.lookup oid = some onode) :
    ∃ H' nid, Graph.mergeNode other (H, ids) name oid = some (H', ids.insert oid nid) ∧ NodesOk H' ∧
      H'.nodeNames.lookup name = some nid ∧
      (∀ x id, H.nodeNames.lookup x = some id → H'.nodeNames.lookup x = some id) ∧
      (∀ x, x ≠ name → H'.nodeByName x = H.nodeByName x ∧ H'.nodeNames.lookup x = H.nodeNames.lookup x) ∧
      (∃ n', H'.nodeByName name = some n' ∧ n'.labels = labelsAt H name ∪ onode.labels ∧
        ∀ k, valuesIn n'.properties k = valuesAt H name k ∪ valuesIn onode.properties k) ∧
      H'.edges = H.edges ∧ H'.edgeNames = H.edgeNames ∧ H'.edgeCounter = H.edgeCounter := by
  unfold Graph.mergeNode
  simp only [ho]
  cases hn : H.nodeNames.lookup name with
  | some eid =>
    obtain ⟨n, hnode⟩ := hH.named name eid hn
    simp only [hnode]
    refine ⟨_, eid, rfl, ?_, hn, fun _ _ h => h, ?_, ?_, rfl, rfl, rfl⟩
    · refine ⟨?_, ?_, hH.inj⟩
      · intro x id h
        simp only [lookup_insert_if]
        by_cases hi : id = eid
        · simp [hi]
        · simpa [hi] using hH.named x id h
      · intro id m h
        simp only [lookup_insert_if] at h
        by_cases hi : id = eid
        · rw [hi]
          exact hH.bound eid n hnode
        · rw [if_neg hi] at h
          exact hH.bound id m h
    · intro x hx
      refine ⟨?_, rfl⟩
      simp only [Graph.nodeByName]
      cases hxn : H.nodeNames.lookup x with
      | none => rfl
      | some id =>
        have : id ≠ eid := by
          rintro rfl
          exact hx (hH.inj x name id hxn hn)
        simp only [lookup_insert_if, if_neg this]
    · refine ⟨n.merge onode, ?_, ?_, ?_⟩
      · simp only [Graph.nodeByName, hn, lookup_insert_if, if_true]
      · simp [labelsAt, Graph.nodeByName, hn, hnode, Node.merge]
      · intro k
        simp only [Node.merge, mergeProperties_values, valuesAt, Graph.nodeByName, hn, hnode, Option.elim_some]
  | none =>
    simp only
    have hid : ∀ x id, H.nodeNames.lookup x = some id → id < H.nodeCounter := by
      intro x id h
      obtain ⟨n, hn⟩ := hH.named x id h
      exact hH.bound id n hn
    refine ⟨_, H.nodeCounter, rfl, ?_, ?_, ?_, ?_, ?_, rfl, rfl, rfl⟩
    · refine ⟨?_, ?_, ?_⟩
      · intro x id h
        simp only [lookup_insert_if] at h ⊢
        by_cases hi : id = H.nodeCounter
        · simp [hi]
        · by_cases hx : x = name
          · rw [if_pos hx] at h
            cases h
            exact (hi rfl).elim
          · rw [if_neg hx] at h
            simpa [hi] using hH.named x id h
      · intro id m h
        simp only [lookup_insert_if] at h ⊢
        by_cases hi : id = H.nodeCounter
        · omega
        · rw [if_neg hi] at h
          have := hH.bound id m h
          omega
      · intro a b id ha hb
        simp only [lookup_insert_if] at ha hb
        by_cases h1 : a = name <;> by_cases h2 : b = name
        · rw [h1, h2]
        · rw [if_pos h1] at ha
          rw [if_neg h2] at hb
          cases ha
          exact (Nat.lt_irrefl _ (hid b _ hb)).elim
        · rw [if_neg h1] at ha
          rw [if_pos h2] at hb
          cases hb
          exact (Nat.lt_irrefl _ (hid a _ ha)).elim
        · rw [if_neg h1] at ha
          rw [if_neg h2] at hb
          exact hH.inj a b id ha hb
    · simp only [lookup_insert_if, if_true]
    · intro x id h
      have : x ≠ name := by
        rintro rfl
        rw [hn] at h
        cases h
      simp only [lookup_insert_if, if_neg this, h]
    · intro x hx
      simp only [Graph.nodeByName, lookup_insert_if, if_neg hx]
      refine ⟨?_, trivial⟩
      cases hxn : H.nodeNames.lookup x with
      | none => rfl
      | some id =>
        have : id ≠ H.nodeCounter := Nat.ne_of_lt (hid x id hxn)
        simp only [if_neg this]
    · refine ⟨{ onode with id := H.nodeCounter }, ?_, ?_, ?_⟩
      · simp only [Graph.nodeByName, lookup_insert_if, if_true]
      · simp [labelsAt, Graph.nodeByName, hn]
      · intro k
        simp [valuesAt, Graph.nodeByName, hn]

/-- What the loop over names does. -/
theorem mergeNodes_spec (other : Graph) (ho : NodesOk other) (es : List (Sigma fun _ : String => Nat))
    (hes : ∀ e ∈ es, other.nodeNames.lookup e.1 = some e.2) (hn : es.NodupKeys) (H : Graph) (ids : HMap Nat Nat)
    (hH : NodesOk H) :
    ∃ H' ids', Graph.mergeNodes other es (H, ids) = some (H', ids') ∧ NodesOk H' ∧
      (∀ x id, H.nodeNames.lookup x = some id → H'.nodeNames.lookup x = some id) ∧
      (∀ x, (∀ e ∈ es, e.1 ≠ x) → H'.nodeByName x = H.nodeByName x ∧
        H'.nodeNames.lookup x = H.nodeNames.lookup x) ∧
      (∀ e ∈ es, ∃ n' onode, H'.nodeByName e.1 = some n' ∧ other.nodes.lookup e.2 = some onode ∧
        n'.labels = labelsAt H e.1 ∪ onode.labels ∧
        ∀ k, valuesIn n'.properties k = valuesAt H e.1 k ∪ valuesIn onode.properties k) ∧
      (∀ e ∈ es, ∃ nid, ids'.lookup e.2 = some nid ∧ H'.nodeNames.lookup e.1 = some nid) ∧
      (∀ o, (∀ e ∈ es, e.2 ≠ o) → ids'.lookup o = ids.lookup o) ∧
      H'.edges = H.edges ∧ H'.edgeNames = H.edgeNames ∧ H'.edgeCounter = H.edgeCounter := by
  induction es generalizing H ids with
  | nil => exact ⟨H, ids, rfl, hH, fun _ _ h => h, fun _ _ => ⟨rfl, rfl⟩, by simp, by simp, fun _ _ => rfl, rfl, rfl, rfl⟩
  | cons e es ih =>
    obtain ⟨name, oid⟩ := e
    rw [List.nodupKeys_cons] at hn
    have hname : other.nodeNames.lookup name = some oid := hes _ List.mem_cons_self
    obtain ⟨onode, honode⟩ := ho.named name oid hname
    obtain ⟨H1, nid, h1, hok1, hnid, hkeep1, hoth1, ⟨n', hn', hlab, hval⟩, he1, hen1, hec1⟩ :=
      mergeNode_spec other H ids name oid onode hH honode
    obtain ⟨H2, ids2, h2, hok2, hkeep2, hoth2, hall2, hids2, hidk2, he2, hen2, hec2⟩ :=
      ih (fun e he => hes e (List.mem_cons_of_mem _ he)) hn.2 H1 (ids.insert oid nid) hok1
    have hnot : ∀ e ∈ es, e.1 ≠ name := by
      intro e he h
      have hk : e.1 ∈ es.keys := List.mem_keys_of_mem he
      rw [h] at hk
      exact hn.1 hk
    have hnoid : ∀ e ∈ es, e.2 ≠ oid := by
      intro e he h
      have := hes e (List.mem_cons_of_mem _ he)
      rw [h] at this
      exact hnot e he (ho.inj _ _ _ this hname)
    refine ⟨H2, ids2, ?_, hok2, fun x id h => hkeep2 x id (hkeep1 x id h), ?_, ?_, ?_, ?_, he2.trans he1,
      hen2.trans hen1, hec2.trans hec1⟩
    · rw [Graph.mergeNodes, h1]
      exact h2
    · intro x hx
      have hx1 : x ≠ name := fun h => hx _ List.mem_cons_self h.symm
      obtain ⟨a1, a2⟩ := hoth1 x hx1
      obtain ⟨b1, b2⟩ := hoth2 x fun e he => hx e (List.mem_cons_of_mem _ he)
      exact ⟨b1.trans a1, b2.trans a2⟩
    · intro e he
      rcases List.mem_cons.1 he with rfl | he
      · refine ⟨n', onode, ?_, honode, hlab, hval⟩
        rw [(hoth2 name hnot).1]
        exact hn'
      · obtain ⟨m', mnode, p1, p2, p3, p4⟩ := hall2 e he
        have hne := hnot e he
        have hb := (hoth1 e.1 hne).1
        refine ⟨m', mnode, p1, p2, ?_, ?_⟩
        · rw [p3, labelsAt, hb, labelsAt]
        · intro k
          rw [p4, valuesAt, hb, valuesAt]
    · intro e he
      rcases List.mem_cons.1 he with rfl | he
      · refine ⟨nid, ?_, hkeep2 _ _ hnid⟩
        rw [hidk2 oid hnoid, AList.lookup_insert]
      · exact hids2 e he
    · intro o hno
      rw [hidk2 o fun e he => hno e (List.mem_cons_of_mem _ he)]
      exact AList.lookup_insert_ne fun h => hno _ List.mem_cons_self h.symm

/-- What the loop over edges does. -/
theorem mergeEdges_spec (other : Graph) (ids : HMap Nat Nat) (es : List (Sigma fun _ : Nat => Edge))
    (hes : ∀ e ∈ es, (∃ a, ids.lookup e.2.source = some a) ∧ ∃ b, ids.lookup e.2.target = some b) (H : Graph) :
    ∃ H', Graph.mergeEdges other ids es H = some H' ∧ H'.nodes = H.nodes ∧ H'.nodeNames = H.nodeNames ∧
      H'.nodeCounter = H.nodeCounter ∧ H'.edgeCounter = H.edgeCounter + es.length ∧
      (∀ i, i < H.edgeCounter ∨ H.edgeCounter + es.length ≤ i → H'.edges.lookup i = H.edges.lookup i) ∧
      ∀ j (hj : j < es.length), ∃ e', H'.edges.lookup (H.edgeCounter + j) = some e' ∧
        e'.labels = es[j].2.labels ∧ e'.properties = es[j].2.properties ∧
        ids.lookup es[j].2.source = some e'.source ∧ ids.lookup es[j].2.target = some e'.target := by
  induction es generalizing H with
  | nil => exact ⟨H, rfl, rfl, rfl, rfl, rfl, fun _ _ => rfl, fun j hj => by simp at hj⟩
  | cons e es ih =>
    obtain ⟨oid, e⟩ := e
    obtain ⟨⟨a, ha⟩, b, hb⟩ := hes _ List.mem_cons_self
    simp only at ha hb
    have h1 : ∃ H1, Graph.mergeEdge other ids H oid e = some H1 ∧ H1.nodes = H.nodes ∧ H1.nodeNames = H.nodeNames ∧
        H1.nodeCounter = H.nodeCounter ∧ H1.edgeCounter = H.edgeCounter + 1 ∧
        H1.edges = H.edges.insert H.edgeCounter ⟨H.edgeCounter, a, b, e.labels, e.properties⟩ := by
      unfold Graph.mergeEdge
      rw [ha, hb]
      exact ⟨_, rfl, rfl, rfl, rfl, rfl, rfl⟩
    obtain ⟨H1, h1, k1, k2, k3, k4, k5⟩ := h1
    obtain ⟨H2, h2, l1, l2, l3, l4, l5, l6⟩ := ih (fun e he => hes e (List.mem_cons_of_mem _ he)) H1
    refine ⟨H2, ?_, l1.trans k1, l2.trans k2, l3.trans k3, ?_, ?_, ?_⟩
    · rw [Graph.mergeEdges, h1]
      exact h2
    · rw [l4, k4, List.length_cons]
      omega
    · intro i hi
      rw [List.length_cons] at hi
      rw [l5 i (by omega), k5]
      exact AList.lookup_insert_ne (by omega)
    · intro j hj
      cases j with
      | zero =>
        refine ⟨⟨H.edgeCounter, a, b, e.labels, e.properties⟩, ?_, rfl, rfl, ha, hb⟩
        rw [Nat.add_zero, l5 _ (by omega), k5, AList.lookup_insert]
      | succ j =>
        simp only [List.length_cons] at hj
        obtain ⟨e', p⟩ := l6 j (by omega)
        refine ⟨e', ?_⟩
        rw [k4] at p
        rw [show H.edgeCounter + (j + 1) = H.edgeCounter + 1 + j by omega]
        exact p

/-- C84. Merging two graphs in order (names lead to distinct nodes, ends of edges are named) does not panic, and in the
result a name has a node exactly when it has one in either graph, with the labels of both and, for each property, the
values of both; every edge of the first graph stays where it was; and the edges of the second graph are there, under
new identifiers, with the same labels and properties and with ends that are the nodes of the same names; there are no
other edges. -/
theorem C84_merge (G other : Graph) (hG : GraphOk G) (hO : GraphOk other) :
    ∃ H, G.merge other = some H ∧
      (∀ name, (H.nodeByName name).isSome = true ↔
        (G.nodeByName name).isSome = true ∨ (other.nodeByName name).isSome = true) ∧
      (∀ name, labelsAt H name = labelsAt G name ∪ labelsAt other name) ∧
      (∀ name k, valuesAt H name k = valuesAt G name k ∪ valuesAt other name k) ∧
      (∀ i e, G.edges.lookup i = some e → H.edges.lookup i = some e) ∧
      (∀ name id, G.nodeNames.lookup name = some id → H.nodeNames.lookup name = some id) ∧
      (∃ f : Fin other.edges.entries.length → Nat, Function.Injective f ∧
        (∀ j, G.edges.lookup (f j) = none) ∧
        (∀ i e', H.edges.lookup i = some e' → G.edges.lookup i = some e' ∨ ∃ j, f j = i) ∧
        ∀ j, ∃ e', H.edges.lookup (f j) = some e' ∧ e'.labels = other.edges.entries[j].2.labels ∧
          e'.properties = other.edges.entries[j].2.properties ∧
          (∀ name, other.nodeNames.lookup name = some other.edges.entries[j].2.source →
            H.nodeNames.lookup name = some e'.source) ∧
          ∀ name, other.nodeNames.lookup name = some other.edges.entries[j].2.target →
            H.nodeNames.lookup name = some e'.target) := by
  have hes : ∀ e ∈ other.nodeNames.entries, other.nodeNames.lookup e.1 = some e.2 :=
    fun e he => (lookup_entries _ _ _).2 he
  obtain ⟨H1, ids, h1, _, hkeep, hoth, hall, hids, _, he1, _, hec1⟩ :=
    mergeNodes_spec other hO.toNodesOk other.nodeNames.entries hes other.nodeNames.nodupKeys G ∅ hG.toNodesOk
  have hids' : ∀ name oid, other.nodeNames.lookup name = some oid →
      ∃ nid, ids.lookup oid = some nid ∧ H1.nodeNames.lookup name = some nid :=
    fun name oid h => hids ⟨name, oid⟩ ((lookup_entries _ _ _).1 h)
  obtain ⟨H2, h2, l1, l2, _, _, l5, l6⟩ := mergeEdges_spec other ids other.edges.entries (by
    intro e he
    obtain ⟨⟨a, ha⟩, b, hb⟩ := hO.ends e.1 e.2 ((lookup_entries _ _ _).2 he)
    obtain ⟨x, hx, _⟩ := hids' a _ ha
    obtain ⟨y, hy, _⟩ := hids' b _ hb
    exact ⟨⟨x, hx⟩, y, hy⟩) H1
  have hby : ∀ name, H2.nodeByName name = H1.nodeByName name := by
    intro name
    simp only [Graph.nodeByName, l1, l2]
  have hnone : ∀ name, other.nodeNames.lookup name = none → H2.nodeByName name = G.nodeByName name := by
    intro name h
    rw [hby]
    refine (hoth name ?_).1
    rintro e he rfl
    have := hes e he
    rw [h] at this
    cases this
  have honone : ∀ name, other.nodeNames.lookup name = none → other.nodeByName name = none := by
    intro name h
    simp only [Graph.nodeByName, h]
  have hsome : ∀ name oid, other.nodeNames.lookup name = some oid → ∃ n' onode, H2.nodeByName name = some n' ∧
      other.nodeByName name = some onode ∧ n'.labels = labelsAt G name ∪ onode.labels ∧
      ∀ k, valuesIn n'.properties k = valuesAt G name k ∪ valuesIn onode.properties k := by
    intro name oid h
    obtain ⟨n', onode, a1, a2, a3, a4⟩ := hall ⟨name, oid⟩ ((lookup_entries _ _ _).1 h)
    refine ⟨n', onode, by rw [hby]; exact a1, ?_, a3, a4⟩
    simp only [Graph.nodeByName, h]
    exact a2
  refine ⟨H2, ?_, ?_, ?_, ?_, ?_, ?_, ?_⟩
  · rw [Graph.merge, h1]
    exact h2
  · intro name
    cases h : other.nodeNames.lookup name with
    | none => simp [hnone name h, honone name h]
    | some oid =>
      obtain ⟨n', onode, a1, a2, _⟩ := hsome name oid h
      simp [a1, a2]
  · intro name
    cases h : other.nodeNames.lookup name with
    | none => simp [labelsAt, hnone name h, honone name h]
    | some oid =>
      obtain ⟨n', onode, a1, a2, a3, _⟩ := hsome name oid h
      rw [labelsAt, a1, Option.elim_some, a3]
      simp [labelsAt, a2]
  · intro name k
    cases h : other.nodeNames.lookup name with
    | none => simp [valuesAt, hnone name h, honone name h]
    | some oid =>
      obtain ⟨n', onode, a1, a2, _, a4⟩ := hsome name oid h
      rw [valuesAt, a1, Option.elim_some, a4]
      simp [valuesAt, a2]
  · intro i e h
    rw [l5 i (Or.inl (by rw [hec1]; exact hG.ebound i e h)), he1]
    exact h
  · intro name id h
    rw [l2]
    exact hkeep name id h
  · refine ⟨fun j => G.edgeCounter + j.1, ?_, ?_, ?_, ?_⟩
    · intro a b h
      exact Fin.ext (Nat.add_left_cancel h)
    · intro j
      cases h : G.edges.lookup (G.edgeCounter + j.1) with
      | none => rfl
      | some e =>
        have := hG.ebound _ e h
        omega
    · intro i e' h
      by_cases hi : i < H1.edgeCounter ∨ H1.edgeCounter + other.edges.entries.length ≤ i
      · rw [l5 i hi, he1] at h
        exact Or.inl h
      · rw [hec1] at hi
        exact Or.inr ⟨⟨i - G.edgeCounter, by omega⟩, by simp only; omega⟩
    · intro j
      obtain ⟨e', p1, p2, p3, p4, p5⟩ := l6 j.1 j.2
      rw [hec1] at p1
      refine ⟨e', p1, p2, p3, ?_, ?_⟩
      · intro name h
        obtain ⟨nid, q1, q2⟩ := hids' name _ h
        rw [l2, q2, ← q1, ← p4]
        rfl
      · intro name h
        obtain ⟨nid, q1, q2⟩ := hids' name _ h
        rw [l2, q2, ← q1, ← p5]
        rfl

/-- A graph with a node, and one with an edge from it. -/
def exLeft : Graph := Graph.new.addNode "a" {"A"} (Record.insertValue ∅ "k" (.integer 1))
/-- See above. -/
def exRight : Graph :=
  (((Graph.new.addNode "b" {"B"} ∅).addNode "a" {"C"} (Record.insertValue ∅ "k" (.integer 2))).addEdge none "a" {"E"} ∅
    "b").1

example : GraphOk exLeft ∧ GraphOk exRight :=
  ⟨addNode_ok _ new_ok _ _ _ rfl, addEdge_ok _ (addNode_ok _ (addNode_ok _ new_ok _ _ _ rfl) _ _ _ (by decide)) _ _ _ _ _⟩

example : (exLeft.merge exRight).map (fun H => (labelsAt H "a", valuesAt H "a" "k", H.edges.entries.map fun e =>
    (e.2.source, e.2.target))) = some ({"A", "C"}, {.integer 1, .integer 2}, [(0, 1)]) := by
  decide

/-- C84. Every graph built from the empty one by adding nodes with new names and adding edges is in order. -/
inductive Built : Graph → Prop
  | new : Built Graph.new
  | node {G : Graph} {name : String} {L : LabelSet} {r : Record} : Built G → G.nodeNames.lookup name = none →
    Built (G.addNode name L r)
  | edge {G : Graph} {name : Option String} {s t : String} {L : LabelSet} {r : Record} : Built G →
    Built (G.addEdge name s L r t).1

/-- C84. See `Built`. -/
theorem C84_built (G : Graph) (h : Built G) : GraphOk G := by
  induction h with
  | new => exact new_ok
  | node _ hn ih => exact addNode_ok _ ih _ _ _ hn
  | edge _ ih => exact addEdge_ok _ ih _ _ _ _ _

example : Built exRight := .edge (.node (.node .new rfl) (by decide))

/-- C84, refuted without the proviso. After a name has been given to a second node, merging the graph into another one
panics as soon as an edge ends in the first node. -/
theorem C84_shadowed_refuted : ¬ ∀ G other : Graph, GraphOk G → (∃ H, G.merge other = some H) := by
  intro h
  obtain ⟨H, hH⟩ := h Graph.new (((Graph.new.addNode "a" ∅ ∅).addEdge none "a" ∅ ∅ "a").1.addNode "a" ∅ ∅) new_ok
  have : (Graph.new.merge (((Graph.new.addNode "a" ∅ ∅).addEdge none "a" ∅ ∅ "a").1.addNode "a" ∅ ∅)).isSome = false := by
    decide
  rw [hH] at this
  cases this

/-- The counters of a schema are above the identifiers in use. -/
structure SchemaOk (S : Schema) : Prop where
  nodes : ∀ id s, S.nodeTypes.lookup id = some s → id < S.nodeCounter
  nodeNames : ∀ x id, S.nodeNames.lookup x = some id → id < S.nodeCounter
  edges : ∀ id t, S.edgeTypes.lookup id = some t → id < S.edgeCounter
  edgeNames : ∀ x id, S.edgeNames.lookup x = some id → id < S.edgeCounter

/-- C85. Adding a node type makes its name lead to it and leaves every other node type and all edge types as they
were. -/
theorem C85_add_node_type (S : Schema) (hS : SchemaOk S) (name : String) (s : Spec) :
    (S.addNodeSpec name s).getNodeSemantics name = .ok s ∧
    (∀ x, x ≠ name → (S.addNodeSpec name s).getNodeSemantics x = S.getNodeSemantics x) ∧
    (S.addNodeSpec name s).edgeTypes = S.edgeTypes ∧ (S.addNodeSpec name s).edgeNames = S.edgeNames ∧
    SchemaOk (S.addNodeSpec name s) := by
  refine ⟨?_, fun x hx => ?_, rfl, rfl, ?_, ?_, hS.edges, hS.edgeNames⟩
  · simp only [Schema.getNodeSemantics, Schema.addNodeSpec, AList.lookup_insert]
  · simp only [Schema.getNodeSemantics, Schema.addNodeSpec, lookup_insert_if, if_neg hx]
    cases hn : S.nodeNames.lookup x with
    | none => rfl
    | some id =>
      have : id ≠ S.nodeCounter := Nat.ne_of_lt (hS.nodeNames x id hn)
      simp only [if_neg this]
  · intro id s' h
    simp only [Schema.addNodeSpec, lookup_insert_if] at h ⊢
    by_cases hi : id = S.nodeCounter
    · omega
    · rw [if_neg hi] at h
      have := hS.nodes id s' h
      omega
  · intro x id h
    simp only [Schema.addNodeSpec, lookup_insert_if] at h ⊢
    by_cases hx : x = name
    · rw [if_pos hx] at h
      cases h
      omega
    · rw [if_neg hx] at h
      have := hS.nodeNames x id h
      omega

/-- The edge type with a name. -/
def Schema.edgeType (S : Schema) (name : String) : Option EdgeType :=
  (S.edgeNames.lookup name).bind fun id => S.edgeTypes.lookup id

/-- C85. An edge type is added exactly when its name is new; then its name leads to it and every other type is as it
was. A name of an edge type is never given to another one. -/
theorem C85_add_edge_type (S : Schema) (hS : SchemaOk S) (name : String) (t : EdgeType) :
    (S.addEdgeSpec name t = none ↔ ∃ id, S.edgeNames.lookup name = some id) ∧
    ∀ S', S.addEdgeSpec name t = some S' → S'.edgeType name = some t ∧
      (∀ x, x ≠ name → S'.edgeType x = S.edgeType x) ∧ S'.nodeTypes = S.nodeTypes ∧ S'.nodeNames = S.nodeNames ∧
      SchemaOk S' := by
  unfold Schema.addEdgeSpec
  rw [← mem_keys_lookup]
  by_cases h : name ∈ S.edgeNames.keys
  · simp [h]
  · simp only [h, if_false, reduceCtorEq, true_and]
    intro S' hS'
    cases hS'
    refine ⟨?_, fun x hx => ?_, rfl, rfl, hS.nodes, hS.nodeNames, ?_, ?_⟩
    · simp only [Schema.edgeType, AList.lookup_insert, Option.bind_some]
    · simp only [Schema.edgeType, lookup_insert_if, if_neg hx]
      cases hn : S.edgeNames.lookup x with
      | none => rfl
      | some id =>
        have : id ≠ S.edgeCounter := Nat.ne_of_lt (hS.edgeNames x id hn)
        simp only [Option.bind_some, if_neg this]
    · intro id s' h
      simp only [lookup_insert_if] at h ⊢
      by_cases hi : id = S.edgeCounter
      · omega
      · rw [if_neg hi] at h
        have := hS.edges id s' h
        omega
    · intro x id h
      simp only [lookup_insert_if] at h ⊢
      by_cases hx : x = name
      · rw [if_pos hx] at h
        cases h
        omega
      · rw [if_neg hx] at h
        have := hS.edgeNames x id h
        omega

/-- The empty schema, and a schema with a type, are in order. -/
example : SchemaOk (Schema.new.addNodeSpec "T" (.label "A")) :=
  (C85_add_node_type Schema.new ⟨fun _ _ h => by simp [Schema.new] at h, fun _ _ h => by simp [Schema.new] at h,
    fun _ _ h => by simp [Schema.new] at h, fun _ _ h => by simp [Schema.new] at h⟩ "T" (.label "A")).2.2.2.2

end Pg

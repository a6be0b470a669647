import Verif.Inspect.LemmasMore

/-!
# C140: information about a node

What `show_node_info` prints for a node, when it fails, and what the text of a node becomes before
it is read.
-/

namespace Inspect

open List (Forall₂)

variable {T P : Type} [DecidableEq T] [DecidableEq P]

/-- With a depth of at least one, the information about a node has its name and, unless only
incoming arcs are wanted, the trees of its outgoing arcs with the predicates asked for. -/
theorem C140_outgoing {D : Data T P} (hD : Sane D) {ps : List String} {mode : Mode} {depth : Nat}
    (hd : 1 ≤ depth) {node : T} {name : String} {o i : List Tree}
    (h : nodeInfo D ps mode depth node = .ok (name, o, i)) :
    D.showT node = some name ∧
    (mode ≠ .incoming → Shown D (outLine D) (Follows D (Asked D ps)) depth node o) ∧
    (mode = .incoming → o = []) := by
  obtain ⟨n, rfl⟩ : ∃ n, depth = n + 1 := ⟨depth - 1, by omega⟩
  unfold nodeInfo at h
  split at h
  · cases hs : D.showT node with
    | none => simp [hs] at h
    | some t =>
      simp only [hs, bind_ok, Out.ok.injEq, Prod.mk.injEq] at h
      obtain ⟨o', h1, i', _, rfl, rfl, rfl⟩ := h
      refine ⟨rfl, fun hm => ?_, fun hm => ?_⟩
      · have : mode.out = true := by cases mode <;> simp_all [Mode.out]
        rw [if_pos this] at h1
        simp only [section', bind_ok] at h1
        obtain ⟨m, h2, h3⟩ := h1
        refine shown_section hD (fun p o t ht => ⟨t, ht, label_out _ _⟩)
          (fun s m hm => outArcs_has hm) (fun o ho p x hE => ?_) n node m o' h2 h3
        have := hD.subject _ hE.1
        rw [ho] at this
        cases this
      · subst hm
        simp only [Mode.out, Bool.false_eq_true, if_false, Out.ok.injEq] at h1
        exact h1.symm
  · cases h

/-- Likewise the incoming arcs, with whatever predicate. -/
theorem C140_incoming {D : Data T P} (hD : Sane D) {ps : List String} {mode : Mode} {depth : Nat}
    (hd : 1 ≤ depth) {node : T} {name : String} {o i : List Tree}
    (h : nodeInfo D ps mode depth node = .ok (name, o, i)) :
    (mode ≠ .outgoing → Shown D (inLine D) (Reaches D) depth node i) ∧
    (mode = .outgoing → i = []) := by
  obtain ⟨n, rfl⟩ : ∃ n, depth = n + 1 := ⟨depth - 1, by omega⟩
  unfold nodeInfo at h
  split at h
  · cases hs : D.showT node with
    | none => simp [hs] at h
    | some t =>
      simp only [hs, bind_ok, Out.ok.injEq, Prod.mk.injEq] at h
      obtain ⟨o', _, i', h1, rfl, rfl, rfl⟩ := h
      refine ⟨fun hm => ?_, fun hm => ?_⟩
      · have : mode.inc = true := by cases mode <;> simp_all [Mode.inc]
        rw [if_pos this] at h1
        simp only [section', bind_ok] at h1
        obtain ⟨m, h2, h3⟩ := h1
        refine shown_section hD (fun p o t ht => ⟨t, ht, label_in _ _⟩)
          (fun s m hm => ?_) (fun o ho p x hE => by cases ho) n node m i' h2 h3
        cases hm
        exact incomingArcs_has D s
      · subst hm
        simp only [Mode.inc, Bool.false_eq_true, if_false, Out.ok.injEq] at h1
        exact h1.symm
  · cases h

/-- The branches of the trees are the walks of up to that many steps, along arcs and against them. -/
theorem C140_walks {D : Data T P} (hD : Sane D) {ps : List String} {depth : Nat}
    (hd : 1 ≤ depth) {node : T} {name : String} {o i : List Tree}
    (h : nodeInfo D ps .both depth node = .ok (name, o, i)) (ls : List String) :
    (Branch o ls ↔ ∃ w, Walk (Follows D (Asked D ps)) node w ∧ w.length ≤ depth ∧
      Forall₂ (fun e l => outLine D e.1 e.2 l) w ls) ∧
    (Branch i ls ↔ ∃ w, Walk (Reaches D) node w ∧ w.length ≤ depth ∧
      Forall₂ (fun e l => inLine D e.1 e.2 l) w ls) :=
  ⟨branch_walk (outLine_unique D) depth node o ((C140_outgoing hD hd h).2.1 (by simp)) ls,
    branch_walk (inLine_unique D) depth node i ((C140_incoming hD hd h).1 (by simp)) ls⟩

/-- With a depth of at least one there is information exactly about IRIs and blank nodes, provided
the predicates can be read when outgoing arcs are wanted; otherwise there is an error and never a
panic. -/
theorem C140_made {D : Data T P} (hs : ∀ t, (D.showT t).isSome) (ps : List String) (mode : Mode)
    (depth : Nat) (hd : 1 ≤ depth) (node : T) :
    ((∃ r, nodeInfo D ps mode depth node = .ok r) ↔
      D.isNode node = true ∧ (mode = .incoming ∨ ∀ t ∈ ps, (D.predicate t).isSome)) ∧
    nodeInfo D ps mode depth node ≠ .panic := by
  obtain ⟨n, rfl⟩ : ∃ n, depth = n + 1 := ⟨depth - 1, by omega⟩
  obtain ⟨name, hname⟩ := Option.isSome_iff_exists.mp (hs node)
  constructor
  · unfold nodeInfo
    by_cases hn : D.isNode node
    · simp only [hn, if_true, hname, true_and]
      constructor
      · rintro ⟨r, hr⟩
        rw [bind_ok] at hr
        obtain ⟨o, h1, _⟩ := hr
        cases mode with
        | incoming => exact .inl rfl
        | outgoing =>
          exact .inr ((outArcs_total node).mp (section_arcs h1))
        | both =>
          exact .inr ((outArcs_total node).mp (section_arcs h1))
      · intro h
        have h1 : ∃ o, (if mode.out then section' D "─►" (outArcs D ps) D.isNode (n + 1) node
            else .ok []) = .ok o := by
          by_cases hm : mode.out
          · rw [if_pos hm]
            refine section_total hs _ _ (fun s => (outArcs_total s).mpr ?_) n node
            refine h.resolve_left ?_
            rintro rfl
            cases hm
          · exact ⟨[], by rw [if_neg hm]⟩
        have h2 : ∃ i, (if mode.inc then section' D "──" (inArcs D) (fun _ => true) (n + 1) node
            else .ok []) = .ok i := by
          by_cases hm : mode.inc
          · rw [if_pos hm]
            exact section_total hs _ _ (fun s => ⟨_, rfl⟩) n node
          · exact ⟨[], by rw [if_neg hm]⟩
        obtain ⟨o, ho⟩ := h1
        obtain ⟨i, hi⟩ := h2
        exact ⟨(name, o, i), by simp only [ho, hi, Out.bind]⟩
    · simp [hn]
  · unfold nodeInfo
    split
    · simp only [hname]
      refine bind_calm ?_ fun o => bind_calm ?_ fun i => by simp
      · split
        · exact section_calm (outArcs_calm D ps) n node
        · simp
      · split
        · exact section_calm (fun s => by simp [inArcs]) n node
        · simp
    · simp

/-- With depth zero nothing stops the recursion: it panics as soon as there is an arc to go on
from, that is, an outgoing one to an IRI or a blank node or any incoming one. -/
theorem C140_zero {D : Data T P} (hs : ∀ t, (D.showT t).isSome) (ps : List String) (mode : Mode)
    (node : T) (hn : D.isNode node = true) (hp : ∀ t ∈ ps, (D.predicate t).isSome) :
    nodeInfo D ps mode 0 node = .panic ↔
      (mode ≠ .incoming ∧ ∃ p o, Follows D (Asked D ps) node p o ∧ D.isNode o = true) ∨
      (mode ≠ .outgoing ∧ ∃ p s, Reaches D node p s) := by
  obtain ⟨name, hname⟩ := Option.isSome_iff_exists.mp (hs node)
  obtain ⟨m, hm⟩ := (outArcs_total (D := D) node).mpr hp
  have ho := section_zero hs "─►" (goes := D.isNode) hm (outArcs_has hm)
  have hi := section_zero hs "──" (goes := fun _ => true) (arcs := inArcs D) (s := node) rfl
    (incomingArcs_has D node)
  simp only [and_true] at hi
  unfold nodeInfo
  simp only [hn, if_true, hname]
  rw [← ho.1, ← hi.1]
  generalize section' D "─►" (outArcs D ps) D.isNode 0 node = so at ho
  generalize section' D "──" (inArcs D) (fun _ => true) 0 node = si at hi
  have ho2 := ho.2
  have hi2 := hi.2
  clear ho hi
  cases mode <;> cases so <;> cases si <;>
    simp_all [Mode.out, Mode.inc, Out.bind]

/-- When nothing else is said, all arcs from the node and to it are shown, and no further. -/
theorem C140_defaults {D : Data T P} (hD : Sane D) {nodes : List T}
    {rs : List (String × List Tree × List Tree)} (h : showNodes D nodes none none none = .ok rs) :
    Forall₂ (fun node r => D.showT node = some r.1 ∧
      Shown D (outLine D) (fun s p o => (s, p, o) ∈ D.triples) 1 node r.2.1 ∧
      Shown D (inLine D) (Reaches D) 1 node r.2.2) nodes rs := by
  unfold showNodes at h
  rw [all_ok] at h
  refine h.imp ?_
  rintro node ⟨name, o, i⟩ h1
  have h2 := C140_outgoing hD (Nat.le_refl 1) h1
  have h3 := C140_incoming hD (Nat.le_refl 1) h1
  refine ⟨h2.1, ?_, h3.1 (by simp)⟩
  have h4 := h2.2.1 (by simp)
  have : Follows D (Asked D (Option.getD none [])) = fun s p o => (s, p, o) ∈ D.triples := by
    funext s p o
    simp [Follows, Asked]
  rwa [this] at h4

/-- A small graph: a node with two arcs, a literal among them, and one that leads back. -/
def exData : Data Nat Nat where
  triples := [(0, 11, 1), (0, 10, 7), (0, 11, 1), (1, 12, 0)]
  isNode t := t < 5
  predicate
    | "p" => some 10
    | "q" => some 11
    | _ => none
  le p q := p ≤ q
  showP p := toString p
  showT t := some (toString t)
  hash l := l

theorem exData_sane : Sane exData where
  total p q := by
    simp only [exData, decide_eq_true_eq]
    omega
  trans p q r := by
    simp only [exData, decide_eq_true_eq]
    omega
  hash l := .refl l
  subject := by decide

example : nodeInfo exData [] .both 2 0 = .ok ("0",
    [.node "─ 10 ─► 7" [], .node "─ 11 ─► 1" [.node "─ 12 ─► 0" []]],
    [.node "─ 12 ── 1" [.node "─ 11 ── 0" []]]) := by rfl

example : nodeInfo exData ["p"] .outgoing 3 0 = .ok ("0", [.node "─ 10 ─► 7" []], []) := by rfl

example : nodeInfo exData ["x"] .both 1 0 = .err ∧ nodeInfo exData ["x"] .incoming 1 1 =
    .ok ("1", [], [.node "─ 11 ── 0" []]) ∧ nodeInfo exData [] .both 1 7 = .err :=
  ⟨rfl, rfl, rfl⟩

example : nodeInfo exData ["q"] .outgoing 0 0 = .panic ∧ nodeInfo exData ["p"] .outgoing 0 0 =
    .ok ("0", [.node "─ 10 ─► 7" []], []) ∧ nodeInfo exData ["p"] .both 0 0 = .panic :=
  ⟨rfl, rfl, rfl⟩

example : showNodes exData [0, 1] none none none = .ok
    [("0", [.node "─ 10 ─► 7" [], .node "─ 11 ─► 1" []], [.node "─ 12 ── 1" []]),
      ("1", [.node "─ 12 ─► 0" []], [.node "─ 11 ── 0" []])] := by rfl

example : Walk (Follows exData (Asked exData ["q"])) 0 [(11, 1)] :=
  .cons 0 11 1 [] ⟨by decide, .inr ⟨"q", by simp, rfl⟩⟩ (.nil 1)

/-- The predicates asked for do not restrict the incoming arcs: it is false that every arc shown has
one of them. -/
theorem C140_incoming_refuted : ¬ ∀ (D : Data Nat Nat), Sane D → ∀ (ps : List String) (node : Nat)
    (name : String) (o i : List Tree), nodeInfo D ps .both 1 node = .ok (name, o, i) →
    Shown D (inLine D) (fun x p s => Reaches D x p s ∧ Asked D ps p) 1 node i := by
  intro h
  obtain ⟨L, _, h2, _, h4⟩ := h exData exData_sane ["p"] 0 "0" _ _ rfl
  cases L with
  | nil => cases h4
  | cons e L =>
    have h5 := (h2 e.1 e.2).mp (by simp)
    obtain ⟨h6, h7⟩ := h5
    have h8 : e.1 = 10 := by
      rcases h7 with h7 | ⟨t, h7, h9⟩
      · cases h7
      · simp only [List.mem_singleton] at h7
        subst h7
        simpa [exData] using h9.symm
    unfold Reaches at h6
    rw [h8] at h6
    simp [exData] at h6

/-! ## The text of the node -/

/-- The text loses the white space around it, and nothing more when it is taken strictly. Otherwise
it is put between angle brackets when `://` is somewhere in it and it begins with none of `<`, `_`
and `{`. -/
theorem C140_text (space : Char → Bool) (s : List Char) :
    ∃ a t b, s = a ++ t ++ b ∧ (∀ c ∈ a ++ b, space c = true) ∧
      (∀ c, t.head? = some c → space c = false) ∧ (∀ c, t.getLast? = some c → space c = false) ∧
      normalize space .strict s = t ∧
      (((∃ u v, t = u ++ "://".toList ++ v) ∧ t.head? ≠ some '<' ∧ t.head? ≠ some '_' ∧
        t.head? ≠ some '{') → normalize space .lax s = '<' :: (t ++ ['>'])) ∧
      (¬ ((∃ u v, t = u ++ "://".toList ++ v) ∧ t.head? ≠ some '<' ∧ t.head? ≠ some '_' ∧
        t.head? ≠ some '{') → normalize space .lax s = t) := by
  obtain ⟨a, b, h1, h2, h3, h4⟩ := trim_spec space s
  have hp : ∀ (c : Char) (t : List Char), [c].isPrefixOf t = true ↔ t.head? = some c := by
    intro c t
    cases t with
    | nil => simp
    | cons d t =>
      rw [List.isPrefixOf_cons₂, Bool.and_eq_true, beq_iff_eq, List.head?_cons, Option.some_inj]
      exact ⟨fun h => h.1.symm, fun h => ⟨h.symm, by simp⟩⟩
  have hc : contains [':', '/', '/'] (trim space s) = true ↔
      ∃ u v, trim space s = u ++ "://".toList ++ v := by
    rw [contains_iff]
    exact ⟨fun ⟨u, v, h⟩ => ⟨u, v, h.symm⟩, fun ⟨u, v, h⟩ => ⟨u, v, h.symm⟩⟩
  have hq : (!(['<'].isPrefixOf (trim space s)) && !(['_'].isPrefixOf (trim space s)) &&
      !(['{'].isPrefixOf (trim space s)) && contains [':', '/', '/'] (trim space s)) = true ↔
      ((∃ u v, trim space s = u ++ "://".toList ++ v) ∧ (trim space s).head? ≠ some '<' ∧
        (trim space s).head? ≠ some '_' ∧ (trim space s).head? ≠ some '{') := by
    rw [← hc, ne_eq, ne_eq, ne_eq, ← hp, ← hp, ← hp]
    simp only [Bool.and_eq_true, Bool.not_eq_true', Bool.not_eq_true]
    tauto
  refine ⟨a, trim space s, b, h1, h2, h3, h4, rfl, fun h => ?_, fun h => ?_⟩
  · unfold normalize
    rw [← hq] at h
    simp only [h, if_true]
    rfl
  · unfold normalize
    rw [← hq] at h
    simp only [h]
    rfl

/-- What is done to the text is done once. -/
theorem C140_text_idem (space : Char → Bool) (h1 : space '<' = false) (h2 : space '>' = false)
    (mode : Norm) (s : List Char) :
    normalize space mode (normalize space mode s) = normalize space mode s := by
  obtain ⟨_, t, _, _, _, h3, h4, h5, h6, h7⟩ := C140_text space s
  have ht : trim space t = t := trim_fix space t h3 h4
  cases mode with
  | strict =>
    rw [h5]
    exact ht
  | lax =>
    by_cases h : (∃ u v, t = u ++ "://".toList ++ v) ∧ t.head? ≠ some '<' ∧ t.head? ≠ some '_' ∧
        t.head? ≠ some '{'
    · rw [h6 h]
      have hw : trim space ('<' :: (t ++ ['>'])) = '<' :: (t ++ ['>']) := by
        refine trim_fix space _ ?_ ?_
        · intro c hc
          simp only [List.head?_cons, Option.some.injEq] at hc
          exact hc ▸ h1
        · intro c hc
          rw [← List.cons_append, List.getLast?_concat] at hc
          cases hc
          exact h2
      unfold normalize
      simp only [hw]
      rfl
    · rw [h7 h]
      have h8 := h7 h
      unfold normalize at h8 ⊢
      have h9 : trim space s = t := h5
      simp only [h9] at h8
      simp only [ht]
      exact h8

example : normalize (· == ' ') .lax " http://e.org/a ".toList = "<http://e.org/a>".toList ∧
    normalize (· == ' ') .lax "ex:a ".toList = "ex:a".toList ∧
    normalize (· == ' ') .strict " http://e.org/a ".toList = "http://e.org/a".toList := by decide

/-- It is false that only IRIs are put between brackets: neither a literal nor a query with an IRI in
it is left as it is. -/
theorem C140_text_refuted :
    (¬ ∀ s : List Char, s.head? = some '"' → s.getLast? = some '"' →
      normalize (· == ' ') .lax s = s) ∧
    (¬ ∀ s : List Char, "SPARQL ".toList <+: s → normalize (· == ' ') .lax s = s) := by
  refine ⟨fun h => ?_, fun h => ?_⟩
  · have := h "\"http://e.org\"".toList rfl rfl
    revert this
    decide
  · have := h "SPARQL '<http://e.org/q>'".toList (by decide)
    revert this
    decide

end Inspect

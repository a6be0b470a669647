import Verif.Store.Lemmas

/-!
# C121: what a graph in memory holds, reads and shows to SPARQL
-/

namespace Store
variable {N P : Type} [DecidableEq N] [DecidableEq P]

/-- After any calls the graph holds, once each, exactly the triples that some call put there and no
later call took out; no other call, failed reading or building of the store makes a difference. -/
theorem C121_contents (rdfType : P) (valid : Tr N P → Bool) (ops : List (Op N P)) :
    (run rdfType valid ops).graph.Nodup ∧
      ∀ t, t ∈ (run rdfType valid ops).graph ↔ Holds rdfType valid ops t :=
  run_graph rdfType valid ops

/-- A triple added, taken out and added again by a document with an error behind it. -/
def history : List (Op Nat Nat) :=
  [.add (1, 2, 3), .bnode, .del (1, 2, 3), .ensure,
    .read .turtle .strict ⟨[some (1, 2, 3), none, some (7, 8, 9)], false, false⟩ none, .bnode]

example : Holds 0 (fun _ => true) history (1, 2, 3) ∧ ¬Holds 0 (fun _ => true) history (7, 8, 9) := by
  have h := (C121_contents 0 (fun _ => true) history).2
  rw [← h, ← h]
  decide +kernel

/-- The triples matching a pattern are listed once each, and are all the triples of the graph with
the given components, whichever index is used. -/
theorem C121_matching (rdfType : P) (valid : Tr N P → Bool) (ops : List (Op N P))
    (s : Option N) (p : Option P) (o : Option N) :
    (matching (run rdfType valid ops).graph s p o).Nodup ∧
      ∀ t, t ∈ matching (run rdfType valid ops).graph s p o ↔
        Holds rdfType valid ops t ∧ Fits s p o t := by
  obtain ⟨h1, h2⟩ := run_graph rdfType valid ops
  exact ⟨matching_nodup _ h1 _ _ _, fun t => by rw [matching_mem, h2]⟩

example : (1, 2, 3) ∈ matching (run 0 (fun _ => true) history).graph (some 1) none (some 3) := by
  decide +kernel

/-- Reading: TriG and N3 make the program panic. Otherwise it succeeds exactly when the document
opens, its prefixes are fine and, in strict mode, every result is a good triple. Whatever the
ending, what is read before it stays in the graph; the SPARQL store and the counter are untouched. -/
theorem C121_reading (valid : Tr N P → Bool) (f : Format) (m : Mode) (d : Doc N P)
    (base : Option String) (g : Mem N P) :
    ((g.merge valid f m d base).1 = .panic ↔ f = .trig ∨ f = .n3) ∧
    ((g.merge valid f m d base).1 = .ok ↔ Opens f d base ∧
      (m = .strict → ∀ x ∈ d.items, ∃ u, x = some u ∧ Good valid f u) ∧
      (f = .turtle → d.badPrefixes = false)) ∧
    (∀ t, t ∈ (g.merge valid f m d base).2.graph ↔ t ∈ g.graph ∨ Reads valid f m d base t) ∧
    (g.merge valid f m d base).2.store = g.store ∧
    (g.merge valid f m d base).2.counter = g.counter :=
  ⟨(merge_end valid f m d base g).1, (merge_end valid f m d base g).2,
    fun t => merge_mem valid f m d base g t, merge_rest valid f m d base g⟩

example : ((Mem.empty : Mem Nat Nat).merge (fun _ => true) .ntriples .lax
    ⟨[some (1, 2, 3), none, some (7, 8, 9)], false, false⟩ none) =
    (.ok, ⟨[(1, 2, 3), (7, 8, 9)], none, 0, none⟩) := by decide +kernel

/-- After a successful reading the base is the one given, if any, else it is the old one. -/
theorem C121_base (valid : Tr N P → Bool) (f : Format) (m : Mode) (d : Doc N P)
    (base : Option String) (g : Mem N P) (h : (g.merge valid f m d base).1 = .ok) :
    (g.merge valid f m d base).2.base = base.or g.base := by
  have hp : (g.parse valid f m d base).1 = .ok := by rw [← (merge_snd valid f m d base g).1, h]
  unfold Mem.merge
  simp only [hp]
  cases base with
  | some b => rfl
  | none =>
    cases f with
    | turtle =>
      simp only [Mem.parse, Mem.parseTurtle]
      split
      · rfl
      · split
        · rfl
        · split <;> rfl
    | _ => rfl

example : ((Mem.empty : Mem Nat Nat).merge (fun _ => true) .rdfxml .strict
    ⟨[some (1, 2, 3)], true, true⟩ (some "http://example.org/")).2.base =
    some "http://example.org/" := by decide +kernel

/-- A document that cannot be read is expected to leave the graph as it was; it does not. -/
theorem C121_atomic_refuted :
    ¬∀ (valid : Tr Nat Nat → Bool) (f : Format) (m : Mode) (d : Doc Nat Nat) (base : Option String)
      (g : Mem Nat Nat), (g.merge valid f m d base).1 = .err →
        (g.merge valid f m d base).2.graph = g.graph := by
  intro h
  have := h (fun _ => true) .turtle .strict ⟨[some (1, 2, 3), none], false, false⟩ none Mem.empty
    (by decide +kernel)
  revert this
  decide +kernel

/-- A failed reading leaves the graph as it was when nothing good precedes the fault: the document
does not open, or its first result is an error or a triple that is not good. -/
theorem C121_atomic_partial (valid : Tr N P → Bool) (f : Format) (m : Mode) (d : Doc N P)
    (base : Option String) (g : Mem N P) (hm : m = .strict)
    (h : Opens f d base → ∀ t rest, d.items = some t :: rest → ¬Good valid f t) (t : Tr N P) :
    t ∈ (g.merge valid f m d base).2.graph ↔ t ∈ g.graph := by
  rw [merge_mem]
  refine ⟨fun h' => h'.elim id ?_, Or.inl⟩
  rintro ⟨ho, pre, post, he, hg, hp⟩
  cases pre with
  | nil => exact absurd hg (h ho t post he)
  | cons x pre =>
    obtain ⟨u, rfl, hu⟩ := hp hm x (by simp)
    exact absurd hu (h ho u _ he)

example : ((Mem.empty : Mem Nat Nat).add (1, 2, 3)).graph =
    (((Mem.empty : Mem Nat Nat).add (1, 2, 3)).merge (fun _ => true) .turtle .strict
      ⟨[none, some (4, 5, 6)], false, false⟩ none).2.graph := by decide +kernel

/-- Before the first `ensure_store` there is nothing to query: every query, well formed or not,
answers no and lists nothing. From then on queries see the triples of that moment, whatever is done
to the graph afterwards. -/
theorem C121_snapshot (rdfType : P) (valid : Tr N P → Bool) (ops : List (Op N P)) :
    (Op.ensure ∉ ops → (run rdfType valid ops).store = none ∧
      (∀ (Q : Type) (eval : Q → List (Tr N P) → Option Bool) (q : Q),
        (run rdfType valid ops).ask eval q = some false) ∧
      (∀ (Q R : Type) (eval : Q → List (Tr N P) → Option (List R)) (q : Q),
        (run rdfType valid ops).select eval q = some [])) ∧
    (∀ pre post, ops = pre ++ .ensure :: post → Op.ensure ∉ pre →
      ∃ st, (run rdfType valid ops).store = some st ∧ st.Nodup ∧
        (∀ t, t ∈ st ↔ Holds rdfType valid pre t) ∧
        (∀ (Q : Type) (eval : Q → List (Tr N P) → Option Bool) (q : Q),
          (run rdfType valid ops).ask eval q = eval q st) ∧
        (∀ (Q R : Type) (eval : Q → List (Tr N P) → Option (List R)) (q : Q),
          (run rdfType valid ops).select eval q = eval q st)) := by
  constructor
  · intro h
    have hs : (run rdfType valid ops).store = none := fold_store_none _ _ ops Mem.empty rfl h
    exact ⟨hs, fun Q eval q => by simp [Mem.ask, hs], fun Q R eval q => by simp [Mem.select, hs]⟩
  · rintro pre post rfl hn
    have h0 : (run rdfType valid pre).store = none := fold_store_none _ _ pre Mem.empty rfl hn
    have hs : (run rdfType valid (pre ++ .ensure :: post)).store =
        some (run rdfType valid pre).graph := by
      rw [run_append, List.foldl_cons]
      exact fold_store_some _ _ _ _ (by rw [step_store, h0])
    obtain ⟨h1, h2⟩ := run_graph rdfType valid pre
    exact ⟨_, hs, h1, h2, fun Q eval q => by simp [Mem.ask, hs],
      fun Q R eval q => by simp [Mem.select, hs]⟩

example : (run 0 (fun _ => true) history).store = some [] := by decide +kernel

/-- Once the store is there, queries are expected to see the triples of the graph; they do not. -/
theorem C121_queries_refuted :
    ¬∀ (ops : List (Op Nat Nat)) (st : List (Tr Nat Nat)),
      (run 0 (fun _ => true) ops).store = some st →
        ∀ t, t ∈ st ↔ t ∈ (run 0 (fun _ => true) ops).graph := by
  intro h
  have := (h [.ensure, .add (1, 2, 3)] [] (by decide +kernel) (1, 2, 3)).2 (by decide +kernel)
  cases this

/-- Queries see the triples of the graph when the graph is left alone after the first
`ensure_store`. -/
theorem C121_queries_partial (rdfType : P) (valid : Tr N P → Bool) (pre post : List (Op N P))
    (h0 : Op.ensure ∉ pre) (h : ∀ op ∈ post, Idle op) :
    (run rdfType valid (pre ++ .ensure :: post)).store =
      some (run rdfType valid (pre ++ .ensure :: post)).graph := by
  have hn : (run rdfType valid pre).store = none := fold_store_none _ _ pre Mem.empty rfl h0
  have hg : (run rdfType valid (pre ++ .ensure :: post)).graph = (run rdfType valid pre).graph := by
    rw [run_append]
    refine fold_idle _ _ _ _ fun op ho => ?_
    rcases List.mem_cons.1 ho with rfl | ho
    · exact .ensure
    · exact h op ho
  rw [hg, run_append, List.foldl_cons]
  exact fold_store_some _ _ _ _ (by rw [step_store, hn])

example : (run 0 (fun _ => true) ([.add (1, 2, 3), .add (4, 5, 6)] ++ .ensure :: [.bnode, .ensure])
    : Mem Nat Nat).store = some [(1, 2, 3), (4, 5, 6)] := by decide +kernel

/-- The blank nodes that a graph yields differ from one another. -/
theorem C121_blank_nodes (rdfType : P) (valid : Tr N P → Bool) (ops : List (Op N P)) :
    (names rdfType valid Mem.empty ops).Nodup :=
  (names_gt rdfType valid ops Mem.empty).2

example : names 0 (fun _ => true) Mem.empty history = [1, 2] := by decide +kernel

/-- A blank node that a graph yields is expected not to be in the graph already; it may be, when a
document was read before. `none` stands for an IRI, `some n` for the blank node of number `n`. -/
theorem C121_fresh_refuted :
    ¬∀ (ops : List (Op (Option Nat) Nat)),
      ∀ t ∈ (run 0 (fun _ => true) ops).graph,
        t.1 ≠ some (run 0 (fun _ => true) ops).bnode.1 := by
  intro h
  exact h [.read .turtle .strict ⟨[some (some 1, 2, none)], false, false⟩ none]
    (some 1, 2, none) (by decide +kernel) (by decide +kernel)

/-- The blank nodes in the graph whose numbers the graph has yielded itself, are never yielded
again. -/
theorem C121_fresh_partial (rdfType : P) (valid : Tr N P → Bool) (pre post : List (Op N P))
    (n : Nat) (hn : n ∈ names rdfType valid Mem.empty pre) :
    n ∉ names rdfType valid (run rdfType valid pre) post := by
  have app : ∀ (a b : List (Op N P)) (g : Mem N P), names rdfType valid g (a ++ b) =
      names rdfType valid g a ++ names rdfType valid (a.foldl (step rdfType valid) g) b := by
    intro a b
    induction a with
    | nil => intro g; rfl
    | cons op a ih =>
      intro g
      cases op <;> simp [names, ih, step]
  have h := (names_gt rdfType valid (pre ++ post) Mem.empty).2
  rw [app, List.nodup_append] at h
  exact fun h' => h.2.2 n hn n h' rfl

example : 2 ∉ names 0 (fun _ => true) (run 0 (fun _ => true) history) [.bnode, .bnode] := by
  decide +kernel

end Store

import Verif.Store.LemData2

/-!
# C122: the neighbourhoods that data from a graph and from SPARQL services gives
-/

namespace Store
variable {N P : Type} [DecidableEq N] [DecidableEq P]

/-- A service whose triples stay the same, however often it was asked before and went down: a call
fails exactly when the service is down and some predicate was never asked for this node; otherwise
it gives, once each, the arcs the service tells of with the predicates of the list; and the
predicates of the list are remembered, so the same call does not fail later. -/
theorem C122_service (K : Kinds N) (e : Endpoint N P) (h : Reach K e) (s : N) (preds : List P) :
    ((e.outgoing K s preds).1 = none ↔ e.up = false ∧ ∃ p ∈ preds, e.cache s p = none) ∧
    (∀ a, (e.outgoing K s preds).1 = some a → a.pairs.Nodup ∧
      (∀ p o, (p, o) ∈ a.pairs ↔ p ∈ preds ∧ Tells K e.content s p o) ∧
      ∀ up preds', (∀ p ∈ preds', p ∈ preds) →
        ∃ a', (Endpoint.outgoing K { (e.outgoing K s preds).2 with up := up } s preds').1 = some a' ∧
          ∀ p o, (p, o) ∈ a'.pairs ↔ p ∈ preds' ∧ Tells K e.content s p o) := by
  obtain ⟨h1, h2, h3, h4, h5, h6⟩ := Endpoint.outgoing_spec K e h.coherent s preds
  refine ⟨h4, fun a ha => ?_⟩
  obtain ⟨a1, a2, a3⟩ := h5 a ha
  refine ⟨Arcs.nodup_pairs a1, a2, fun up preds' hs => ?_⟩
  obtain ⟨-, -, -, k4, k5, -⟩ := Endpoint.outgoing_spec K
    { (e.outgoing K s preds).2 with up := up } h1 s preds'
  cases hr : (Endpoint.outgoing K { (e.outgoing K s preds).2 with up := up } s preds').1 with
  | none =>
    obtain ⟨-, p, hp, hc⟩ := k4.1 hr
    have := a3 p (hs p hp)
    simp only at hc
    simp [hc] at this
  | some a' =>
    refine ⟨a', rfl, fun p o => ?_⟩
    rw [(k5 a' hr).2.1, h2]

/-- Terms 0–9 are IRIs, 10–19 blank nodes, others literals. -/
def digits : Kinds Nat := ⟨fun n => decide (n < 20), fun n => decide (10 ≤ n ∧ n < 20)⟩

/-- A service with three triples. -/
def remote : Endpoint Nat Nat := Endpoint.new [(1, 2, 3), (1, 2, 4), (1, 5, 6)] true

example : Reach digits remote ∧
    ((Endpoint.outgoing digits { (remote.outgoing digits 1 [2, 7]).2 with up := false } 1 [7, 2]).1.map
      Arcs.pairs) = some [(2, 3), (2, 4)] ∧
    (Endpoint.outgoing digits { (remote.outgoing digits 1 [2, 7]).2 with up := false } 1 [5]).1 =
      none := ⟨.new _ _, by decide +kernel, by decide +kernel⟩

/-- A service is expected to tell of the triples it has at the moment; it does not when they have
changed since the node was asked for. -/
theorem C122_fresh_answer_refuted :
    ¬∀ (w : List (Tr Nat Nat)) (e : Endpoint Nat Nat) (a : Arcs Nat Nat), Reach digits e →
      (Endpoint.outgoing digits { e with content := w } 1 [2]).1 = some a →
        ∀ o, (2, o) ∈ a.pairs ↔ (1, 2, o) ∈ w := by
  intro h
  have := (h [] (remote.outgoing digits 1 [2]).2 [(2, [3, 4])] (.ask _ _ (.new _ _))
    (by decide +kernel) 3).1 (by decide +kernel)
  cases this

/-- A service is expected to tell of the triples of the node; for a blank node it tells of those of
every node. -/
theorem C122_blank_refuted :
    ¬∀ (e : Endpoint Nat Nat) (s : Nat) (a : Arcs Nat Nat), Reach digits e →
      (e.outgoing digits s [2]).1 = some a → ∀ o, (2, o) ∈ a.pairs → (s, 2, o) ∈ e.content := by
  intro h
  have := h remote 10 [(2, [3, 4])] (.new _ _) (by decide +kernel) 3 (by decide +kernel)
  revert this
  decide +kernel

/-- Listing the triples of the data that match a pattern without blank nodes fails exactly when some
service is down; otherwise it gives the triples the data says with the given components. -/
theorem C122_matching (K : Kinds N) (D : Data N P) (s : Option N) (p : Option P) (o : Option N) :
    (D.matching K s p o = none ↔ ¬D.Up) ∧
    ((∀ x, s = some x → K.isBlank x = false) → (∀ x, o = some x → K.isBlank x = false) →
      ∀ ts, D.matching K s p o = some ts → ∀ t, t ∈ ts ↔ D.Says t ∧ Fits s p o t) := by
  obtain ⟨b, es⟩ := D
  have hb : b.matching K s p o = none ↔ ¬∀ e, b = .endpoint e → e.up = true := by
    cases b with
    | mem g => simp [Backend.matching]
    | endpoint e =>
      simp only [Backend.matching, Endpoint.matching, Backend.endpoint.injEq]
      constructor
      · intro h hc
        simp [hc e rfl] at h
      · intro h
        have : e.up = false := by
          cases hu : e.up
          · rfl
          · exact absurd (by rintro _ rfl; exact hu) h
        simp [this]
  have hu := usesMatching_none K s p o es
  constructor
  · simp only [Data.matching, Data.Up]
    cases h1 : b.matching K s p o with
    | none => simpa using fun h => absurd h (hb.1 h1)
    | some ts =>
      have hn : ∀ e, b = .endpoint e → e.up = true := by
        by_contra hc
        rw [hb.2 hc] at h1
        cases h1
      simp only [Option.map_eq_none_iff, hu, not_and]
      constructor
      · rintro ⟨e, he, hf⟩ - hc
        simp [hc e he] at hf
      · intro h
        by_contra hc
        refine h hn fun e he => ?_
        cases hf : e.up
        · exact absurd ⟨e, he, hf⟩ hc
        · rfl
  · intro hs ho ts hts t
    simp only [Data.matching] at hts
    cases h1 : b.matching K s p o with
    | none => simp [h1] at hts
    | some us =>
      rw [h1] at hts
      obtain ⟨r, hr, rfl⟩ := Option.map_eq_some_iff.1 hts
      rw [List.mem_append, usesMatching_mem K s p o es r hr hs ho]
      have : t ∈ us ↔ (match b with
          | .mem g => t ∈ g
          | .endpoint e => t ∈ e.content) ∧ Fits s p o t := by
        cases b with
        | mem g =>
          cases h1
          exact matching_mem ..
        | endpoint e => exact Endpoint.mem_matching K e s p o us h1 hs ho t
      rw [this, Data.Says]
      cases b <;> simp only <;> tauto

/-- A graph with one triple and a service with three. -/
def mixed : Data Nat Nat := ⟨.mem [(1, 2, 8)], [remote]⟩

example : mixed.matching digits (some 1) (some 2) none = some [(1, 2, 8), (1, 2, 3), (1, 2, 4)] := by
  decide +kernel

/-- Listing all the triples does not fail for a service in use that is down: it leaves out the
triples of that service. -/
theorem C122_triples (K : Kinds N) (g : List (Tr N P)) (es : List (Endpoint N P)) :
    ∃ ts, Data.triples K ⟨.mem g, es⟩ = some ts ∧
      ∀ t, t ∈ ts ↔ t ∈ g ∨ ∃ e ∈ es, e.up = true ∧ t ∈ e.content := by
  refine ⟨_, rfl, fun t => ?_⟩
  rw [List.mem_append, List.mem_flatMap]
  refine or_congr (matching_mem g none none none t |>.trans (by simp [Fits])) ?_
  refine exists_congr fun e => and_congr_right fun _ => ?_
  cases hu : e.up with
  | false => simp [Endpoint.matching, hu]
  | true =>
    obtain ⟨ts, hts⟩ : ∃ ts, e.matching K none none none = some ts := by simp [Endpoint.matching, hu]
    rw [hts, Option.getD_some,
      Endpoint.mem_matching K e none none none ts hts (by simp) (by simp)]
    simp [Fits]

example : Data.triples digits ⟨.mem [(1, 2, 8)], [{ remote with up := false }]⟩ =
    some [(1, 2, 8)] := by decide +kernel

/-- The arcs of a node that is not blank, when the services answer: asked for a list of predicates
that is not empty, the data gives, once each, all the arcs it says with these predicates. The
remainder has the other predicates of the primary graph; it has none of a service. Asked for no
predicates, it gives no arcs and no remainder. -/
theorem C122_outgoing_partial (K : Kinds N) (D : Data N P) (hst : D.Steady K) (hup : D.Up) (s : N)
    (hs : K.isBlank s = false) (preds : List P) :
    ∃ a rem, (D.outgoing K s preds).1 = some (a, rem) ∧ a.pairs.Nodup ∧
      (∀ p o, (p, o) ∈ a.pairs ↔ p ∈ preds ∧ D.Says (s, p, o)) ∧
      (∀ p, p ∈ rem ↔ preds ≠ [] ∧ p ∉ preds ∧ ∃ g, D.primary = .mem g ∧ ∃ o, (s, p, o) ∈ g) := by
  have ht : ∀ (w : List (Tr N P)) p o, Tells K w s p o ↔ (s, p, o) ∈ w := by
    intro w p o
    simp [Tells, hs]
  unfold Data.outgoing
  by_cases h0 : preds.isEmpty = true
  · rw [if_pos h0]
    have := List.isEmpty_iff.1 h0
    subst this
    exact ⟨[], [], rfl, List.nodup_nil, by simp [Arcs.pairs], by simp⟩
  · rw [if_neg h0]
    have hne : preds ≠ [] := fun h => h0 (by simp [h])
    have hco : ∀ e ∈ D.uses, e.Coherent K := fun e he => (hst.2 e he).coherent
    obtain ⟨a, rem, ha, hok, hap, hrem⟩ : ∃ a rem, (D.primary.outgoing K s preds).1 = some (a, rem) ∧
        a.Ok ∧ (∀ p o, (p, o) ∈ a.pairs ↔ p ∈ preds ∧ (match D.primary with
          | .mem g => (s, p, o) ∈ g
          | .endpoint e => (s, p, o) ∈ e.content)) ∧
        (∀ p, p ∈ rem ↔ p ∉ preds ∧ ∃ g, D.primary = .mem g ∧ ∃ o, (s, p, o) ∈ g) := by
      cases hp : D.primary with
      | mem g =>
        obtain ⟨o1, o2, o3⟩ := memOutgoing_spec g s preds
        refine ⟨(memOutgoing g s preds).1, (memOutgoing g s preds).2,
          by simp only [Backend.outgoing, h0]; rfl, o1, o2, fun p => ?_⟩
        rw [o3]
        simp only [List.mem_map, List.mem_filter, decide_eq_true_eq, Backend.mem.injEq,
          exists_eq_left']
        constructor
        · rintro ⟨⟨x, q, o⟩, ⟨h1, rfl, h2⟩, rfl⟩
          exact ⟨h2, o, h1⟩
        · rintro ⟨h1, o, h2⟩
          exact ⟨(s, p, o), ⟨h2, rfl, h1⟩, rfl⟩
      | endpoint e =>
        obtain ⟨-, -, -, k4, k5, -⟩ := Endpoint.outgoing_spec K e (hst.1 e hp).coherent s preds
        cases hr : (e.outgoing K s preds).1 with
        | none => simpa [hup.1 e hp] using k4.1 hr
        | some a =>
          obtain ⟨a1, a2, -⟩ := k5 a hr
          refine ⟨a, [], by simp [Backend.outgoing, hr], a1, fun p o => ?_, by simp⟩
          rw [a2, ht]
    obtain ⟨b, hb⟩ := usesOutgoing_some K s preds D.uses a hco hup.2
    obtain ⟨b1, b2⟩ := usesOutgoing_spec K s preds D.uses a hok hco b hb
    refine ⟨b, rem, by simp only [ha, hb, Option.map_some], Arcs.nodup_pairs b1, fun p o => ?_,
      fun p => ?_⟩
    · rw [b2, hap, Data.Says]
      simp only [ht]
      tauto
    · rw [hrem]
      simp [hne]

example : (mixed.outgoing digits 1 [2, 9]).1 = some ([(2, [8, 3, 4])], []) ∧ mixed.Up := by
  refine ⟨by decide +kernel, nofun, ?_⟩
  simp [mixed, remote, Endpoint.new]

/-- The remainder is expected to tell whether the node has arcs with other predicates; it does not
when no predicate is asked for, nor for the arcs of services. -/
theorem C122_remainder_refuted :
    (¬∀ (g : List (Tr Nat Nat)) (a : Arcs Nat Nat) (rem : List Nat),
      (Data.outgoing digits ⟨.mem g, []⟩ 1 []).1 = some (a, rem) →
        ∀ p, p ∈ rem ↔ ∃ o, (1, p, o) ∈ g) ∧
    ¬∀ (D : Data Nat Nat) (a : Arcs Nat Nat) (rem : List Nat), D.Steady digits → D.Up →
      (D.outgoing digits 1 [2]).1 = some (a, rem) →
        ∀ p, p ∈ rem ↔ p ∉ [2] ∧ ∃ o, D.Says (1, p, o) := by
  constructor
  · intro h
    have := (h [(1, 2, 3)] [] [] (by decide +kernel) 2).2 ⟨3, by simp⟩
    cases this
  · intro h
    have hm : mixed.Steady digits := ⟨nofun, by
      intro e he
      simp only [mixed, List.mem_singleton] at he
      rw [he]
      exact .new _ _⟩
    have hu : mixed.Up := ⟨nofun, by simp [mixed, remote, Endpoint.new]⟩
    have := (h mixed [(2, [8, 3, 4])] [] hm hu (by decide +kernel) 5).2
      ⟨by simp, 6, Or.inr ⟨remote, by simp [mixed], by simp [remote, Endpoint.new]⟩⟩
    cases this

/-- The neighbourhood that the engine sees of a node in a graph in memory (`OxigraphInMemory`) is
the one of the model of the engine, in some order: the theorems on the engine speak about it. -/
theorem C122_engine_graph (K : Kinds N) (g : List (Tr N P)) (node : N)
    (preds : List (Shex.Pred P)) :
    ∃ vs, memNeighs K g node preds =
        some (vs, (⟨g, K.isSubject⟩ : Shex.Graph N P).remainder node preds) ∧
      vs.Perm ((⟨g, K.isSubject⟩ : Shex.Graph N P).arcs node preds) :=
  memNeighs_spec K g node preds

example : memNeighs digits [(1, 2, 3), (4, 5, 1), (1, 6, 7)] 1 [⟨2, true⟩, ⟨5, false⟩] =
    some ([(⟨2, true⟩, 3), (⟨5, false⟩, 4)], [6]) := by decide +kernel

/-- The neighbourhood that the engine sees in `RdfData` with a graph in memory and no services is
that of the graph when some predicate is not inverse. -/
theorem C122_engine_data_partial (K : Kinds N) (g : List (Tr N P)) (node : N)
    (preds : List (Shex.Pred P)) (h : ∃ q ∈ preds, q.direct = true) :
    Data.neighs K ⟨.mem g, []⟩ node preds = memNeighs K g node preds := by
  obtain ⟨⟨p, d⟩, hq, hd⟩ := h
  change d = true at hd
  subst hd
  have hne : ((preds.filter fun p => p.direct).map fun p => p.iri).isEmpty = false := by
    have := (mem_direct preds p).2 hq
    cases hl : (preds.filter fun p => p.direct).map fun p => p.iri with
    | nil => simp [hl] at this
    | cons => rfl
  have ho : (Data.outgoing K ⟨.mem g, []⟩ node ((preds.filter fun p => p.direct).map
      fun p => p.iri)).1 = some (memOutgoing g node ((preds.filter fun p => p.direct).map
      fun p => p.iri)) := by
    simp only [Data.outgoing, Backend.outgoing, hne, usesOutgoing, Bool.false_eq_true, ↓reduceIte]
    rfl
  have hi : ∀ ps, Data.incoming K ⟨.mem g, []⟩ node ps =
      some (inArcs ps (matching g none none (some node))) := by
    intro ps
    simp [Data.incoming, Data.matching, Backend.matching, usesMatching]
  simp only [Data.neighs, memNeighs, neighsBy, ho, hi]

example : Data.neighs digits ⟨.mem [(1, 2, 3), (4, 5, 1), (1, 6, 7)], []⟩ 1
    [⟨2, true⟩, ⟨5, false⟩] = some ([(⟨2, true⟩, 3), (⟨5, false⟩, 4)], [6]) := by decide +kernel

/-- Over `RdfData`, CLOSED makes no difference for a shape without predicates other than inverse
ones, nor for any shape when the primary backend is a service. -/
theorem C122_closed_ignored (K : Kinds N) (D : Data N P) (enum : List Nat → List (Nat × Nat))
    (node : N) (s : Shex.Shape N P) (T : N × Nat → Bool)
    (h : (∀ q ∈ Shex.addPreds s.preds s.extra, q.direct = false) ∨ ∃ e, D.primary = .endpoint e) :
    checkShapeBy enum (D.neighs K) node { s with closed := true } T =
      checkShapeBy enum (D.neighs K) node { s with closed := false } T := by
  have hrem : ∀ vs rem, D.neighs K node (Shex.addPreds s.preds s.extra) = some (vs, rem) →
      rem = [] := by
    intro vs rem hn
    have hout : ∀ a r, (D.outgoing K node (((Shex.addPreds s.preds s.extra).filter
        fun p => p.direct).map fun p => p.iri)).1 = some (a, r) → r = [] := by
      intro a r hr
      unfold Data.outgoing at hr
      split at hr
      · cases hr; rfl
      · rename_i hne
        rcases h with h | ⟨e, he⟩
        · refine absurd ?_ hne
          rw [List.isEmpty_iff, List.map_eq_nil_iff, List.filter_eq_nil_iff]
          exact fun q hq => by simp [h q hq]
        · simp only [he, Backend.outgoing] at hr
          cases ho : (e.outgoing K node (((Shex.addPreds s.preds s.extra).filter
              fun p => p.direct).map fun p => p.iri)).1 with
          | none => simp [ho] at hr
          | some a' =>
            simp only [ho, Option.map_some] at hr
            obtain ⟨_, -, h2⟩ := Option.map_eq_some_iff.1 hr
            exact (Prod.mk.inj h2).2.symm
    unfold Data.neighs neighsBy at hn
    by_cases hs : K.isSubject node = true
    · simp only [hs, if_true] at hn
      cases ho : (D.outgoing K node (((Shex.addPreds s.preds s.extra).filter
          fun p => p.direct).map fun p => p.iri)).1 with
      | none => simp [ho] at hn
      | some x =>
        obtain ⟨a, r⟩ := x
        have := hout a r ho
        subst this
        simp only [ho, Option.map_some] at hn
        split at hn
        · cases hn; rfl
        · obtain ⟨_, -, h2⟩ := Option.map_eq_some_iff.1 hn
          exact (Prod.mk.inj h2).2.symm
    · simp only [hs, Bool.false_eq_true, if_false] at hn
      split at hn
      · cases hn; rfl
      · obtain ⟨_, -, h2⟩ := Option.map_eq_some_iff.1 hn
        exact (Prod.mk.inj h2).2.symm
  unfold checkShapeBy
  cases hn : D.neighs K node (Shex.addPreds s.preds s.extra) with
  | none => simp [hn]
  | some x =>
    obtain ⟨vs, rem⟩ := x
    have := hrem vs rem hn
    subst this
    simp [hn]

/-- `CLOSED {}`. -/
def closedEmpty : Shex.Shape Nat Nat := ⟨true, [], Rbe.Table.new, [], []⟩

/-- A counting of the elements of a list. -/
def count1 (l : List Nat) : List (Nat × Nat) := (l.dedup).map fun x => (x, l.count x)

example : checkShapeBy count1 (mixed.neighs digits) 1 closedEmpty (fun _ => false) =
    checkShapeBy count1 (mixed.neighs digits) 1 { closedEmpty with closed := false } fun _ => false :=
  C122_closed_ignored digits mixed count1 1 closedEmpty _ (.inl (by simp [closedEmpty, Shex.addPreds]))

/-- The answer for a shape is expected to be the same over a graph and over `RdfData` with that
graph and no services; `CLOSED {}` is rejected for a node with an arc over the graph, and accepted
over `RdfData`. -/
theorem C122_closed_refuted :
    ¬∀ (g : List (Tr Nat Nat)) (node : Nat) (s : Shex.Shape Nat Nat) (T : Nat × Nat → Bool),
      checkShapeBy count1 (Data.neighs digits ⟨.mem g, []⟩) node s T =
        checkShapeBy count1 (memNeighs digits g) node s T := by
  intro h
  have h1 : checkShapeBy count1 (Data.neighs digits ⟨.mem [(1, 2, 3)], []⟩) 1 closedEmpty
      (fun _ => false) = some true := by decide +kernel
  have h2 : checkShapeBy count1 (memNeighs digits [(1, 2, 3)]) 1 closedEmpty (fun _ => false) =
      some false := by decide +kernel
  have := h [(1, 2, 3)] 1 closedEmpty fun _ => false
  rw [h1, h2] at this
  cases this

/-- The answer for a shape is the same over a graph and over `RdfData` with that graph and no
services when the shape has a predicate that is not inverse. -/
theorem C122_closed_partial (K : Kinds N) (g : List (Tr N P)) (enum : List Nat → List (Nat × Nat))
    (node : N) (s : Shex.Shape N P) (T : N × Nat → Bool)
    (h : ∃ q ∈ Shex.addPreds s.preds s.extra, q.direct = true) :
    checkShapeBy enum (Data.neighs K ⟨.mem g, []⟩) node s T =
      checkShapeBy enum (memNeighs K g) node s T := by
  simp only [checkShapeBy, C122_engine_data_partial K g node _ h]

/-- `CLOSED EXTRA p {}`, for which the two agree. -/
example : ∃ q ∈ Shex.addPreds ({ closedEmpty with extra := [⟨2, true⟩] } : Shex.Shape Nat Nat).preds
    [⟨2, true⟩], q.direct = true := ⟨⟨2, true⟩, by decide +kernel, rfl⟩

end Store

import Verif.Sd.Lemmas

/-!
# Properties: service descriptions of SPARQL endpoints (C142)
-/

namespace Sd
open Rd

section
variable {L : Type} [DecidableEq L] {g : Gr L} {I : Lits L}

/-- **C142** (what is read). A description is read only if there is one service, and it is of this service: for each of
the available graphs, named graphs, graphs and partitions of the graph there is a description, with what the graph says
of it; for each language, feature and format there is one item; a title, an endpoint or a number is one of those given.
Whatever the order of hash sets. -/
theorem C142_reads (hg : g.Orders) {s s' : St L} {d : Service L} (h : parse I g s = (.ok d, s')) :
    ∃ x, TheService g x ∧ IsService g I x d := by
  obtain ⟨x, hx⟩ := parse_ok h
  rw [parse_one hx] at h
  exact ⟨x, hx, serviceDescription_ok hg h⟩

/-- **C142** (success). If the only service has known languages, IRIs for features and formats, and available graphs and
default datasets in order, then it is read, with a dataset if it has any. -/
theorem C142_succeeds (hg : g.Orders) {x : Tm L} (hx : TheService g x) (hn : x.isLit = false) (hs : GoodService g x)
    (s : St L) :
    ∃ d s', parse I g s = (.ok d, s') ∧ (d.dataset = none → ∀ o, ¬ Says g x sdDefaultDataset o) := by
  rw [parse_one hx]
  exact serviceDescription_good hg hn hs _

/-- **C142** (errors). Without a service, or with two, there is an error; so there is for a language that is unknown. -/
theorem C142_errors (hg : g.Orders) (s : St L) :
    ((¬ ∃ x, TheService g x) → (parse I g s).1 = .err) ∧
    ∀ x o, TheService g x → x.isLit = false → Says g x sdSupportedLanguage o →
      (¬ ∃ i l, o = .iri i ∧ LanguageIri i l) → (parse I g s).1 = .err := by
  refine ⟨fun h => by rw [parse_none h], ?_⟩
  intro x o hx hn ho hl
  rw [parse_one hx]
  obtain ⟨e, h1⟩ := optOne_run hg asIri sdEndpoint ⟨x, s.reads⟩
  rcases every_cases hg languageOf sdSupportedLanguage ⟨x, s.reads + 1⟩ with ⟨ls, ⟨vs, _, hv, hf⟩, _⟩ | ⟨_, h2⟩
  · exfalso
    obtain ⟨l, _, i, rfl, hi⟩ := forall₂_mem hf _ ((hv o).2 ho)
    exact hl ⟨i, l, rfl, languageOf_iff.1 hi⟩
  · rw [serviceDescription, getFocus_bind, bind_ok (lift_ok.2 ⟨isNode_asNode hn, rfl⟩), bind_ok h1, bind_err h2]

/-- **C142** (panics). Reading does not panic if no literal is given for available graphs or graphs. -/
theorem C142_no_panic_partial (hg : g.Orders) (hl : ∀ s o, Says g s sdGraph o → o.isLit = false)
    (ha : ∀ s o, Says g s sdAvailableGraphs o → o.isLit = false) (s : St L) : (parse I g s).1 ≠ .panic := by
  by_cases h : ∃ x, TheService g x
  · obtain ⟨x, hx⟩ := h
    rw [parse_one hx]
    exact serviceDescription_panic hg hl ha _
  · rw [parse_none h]
    simp

/-- **C142** is false of the code for datasets with a mistake: if a named graph of the default dataset has no name, the
description is without a dataset, and there is no error for it. -/
theorem C142_dataset_refuted (hg : g.Orders) {s s' : St L} {d : Service L} (h : parse I g s = (.ok d, s')) {x n t : Tm L}
    (hx : TheService g x) (hd : ∀ o, Says g x sdDefaultDataset o → o = n) (ht : Says g n sdNamedGraph t)
    (hm : ∀ o, ¬ Says g t sdName o) : d.dataset = none := by
  obtain ⟨y, hy, hs⟩ := C142_reads hg h
  have hxy : x = y := (hy x).1 ((hx x).2 rfl)
  subst hxy
  cases hds : d.dataset with
  | none => rfl
  | some e =>
    obtain ⟨o, ho, he⟩ := hs.dataset e hds
    obtain rfl := hd o ho
    obtain ⟨vs, _, hv, hf⟩ := he.namedGraphs
    obtain ⟨b, _, hb⟩ := forall₂_mem hf _ ((hv t).2 ht)
    obtain ⟨o', ho', _⟩ := hb.name
    exact absurd ho' (hm o')

/-- **C142** (MIE). The summary has the title and the endpoint, and the names of all named graphs in all collections. -/
theorem C142_mie {ord : List (NamedGraph L) → List (NamedGraph L)} (ho : ∀ l, (ord l).Perm l) (d : Service L)
    (pm : Option (List (String × Iri))) :
    (service2mie ord d pm).title = d.title ∧ (service2mie ord d pm).endpoint = d.endpoint ∧
    (service2mie ord d pm).graphs.Perm (d.available.flatMap fun c => c.graphs.map (·.name)) ∧
    ∀ m, pm = some m → (service2mie ord d pm).prefixes = m := by
  refine ⟨rfl, rfl, ?_, by rintro m rfl; rfl⟩
  have key : ∀ (cs : List (Collection L)) (names gs : List Iri), gs = names →
      (mieGraphs ord cs names gs).Perm (names ++ cs.flatMap fun c => c.graphs.map (·.name)) := by
    intro cs
    induction cs with
    | nil => rintro names gs rfl; simp [mieGraphs]
    | cons c cs ih =>
      rintro names gs rfl
      rw [mieGraphs]
      refine (ih _ _ rfl).trans ?_
      rw [List.flatMap_cons, List.append_assoc]
      exact (List.Perm.refl _).append (((ho _).map _).append (List.Perm.refl _))
  exact key d.available [] [] rfl

end

/-! ## Examples -/

/-- Literals that are numbers. -/
def exLits : Lits Nat := ⟨fun n => some n, fun n => toString n⟩

/-- A service with an endpoint, a language, a feature, and one named graph with a class partition that has a property
partition. -/
def exGraph : Gr Nat :=
  ⟨[(.iri (.o "s"), .v .type, .iri sdService), (.iri (.o "s"), sdEndpoint, .iri (.o "e")),
    (.iri (.o "s"), sdSupportedLanguage, .iri (.o "http://www.w3.org/ns/sparql-service-description#SPARQL11Query")),
    (.iri (.o "s"), sdFeature, .iri (.o "f")), (.iri (.o "s"), dctTitle, .lit 7),
    (.iri (.o "s"), sdAvailableGraphs, .bnode "c"), (.bnode "c", sdNamedGraph, .bnode "n"),
    (.bnode "n", sdName, .iri (.o "name")), (.bnode "n", sdGraph, .bnode "g"), (.bnode "g", voidTriples, .lit 100),
    (.bnode "g", voidClassPartition, .bnode "cp"), (.bnode "cp", voidClass, .iri (.o "C")),
    (.bnode "cp", voidPropertyPartition, .bnode "pp"), (.bnode "pp", voidProperty, .iri (.o "p")),
    (.bnode "pp", voidTriples, .lit 60)], fun _ l => l⟩

theorem exGraph_orders : exGraph.Orders := fun _ _ => List.Perm.refl _

/-- What a description says of classes: the names of graphs, their numbers of triples, the classes and the properties
of these. -/
def summary {L : Type} (d : Service L) : List (Iri × Option Int × Iri × List Iri) :=
  d.available.flatMap fun c => c.graphs.flatMap fun n => n.graphs.flatMap fun x =>
    x.classParts.map fun p => (n.name, x.triples, p.cls, p.properties.map (·.property))

/-- The result of reading, or nothing. -/
def result {L A B : Type} (r : Res A × St L) (f : A → B) : Option B :=
  match r.1 with
  | .ok a => some (f a)
  | _ => none

/-- **C142** is false of the code for class partitions: the property partitions of a class are not read, as they are
sought with `void:property`; and if a class partition has that property, there is an error. -/
theorem C142_classes_refuted :
    result (parse exLits exGraph ⟨.bnode "", 0⟩) summary = some [(.o "name", some 100, .o "C", [])] ∧
    (parse exLits { exGraph with ts := (.bnode "cp", voidProperty, .iri (.o "p")) :: exGraph.ts } ⟨.bnode "", 0⟩).1
      matches .err := by
  constructor <;> decide +kernel

/-- **C142** is false of the code for literals: if one is given for the available graphs, reading panics. -/
theorem C142_panic_refuted :
    (parse exLits ⟨[(.iri (.o "s"), .v .type, .iri sdService), (.iri (.o "s"), sdAvailableGraphs, .lit 1)], fun _ l => l⟩
      ⟨.bnode "", 0⟩).1 matches .panic := by
  decide +kernel

example : result (parse exLits exGraph ⟨.bnode "", 0⟩) (fun d => (d.title, d.endpoint, d.languages, d.features)) =
    some (some "7", some (.o "e"), [.sparql11Query], [.other (.o "f")]) := by decide +kernel

/-- The service of the example is in order. -/
example : TheService exGraph (.iri (.o "s")) ∧ GoodService exGraph (.iri (.o "s")) := by
  have hs : ∀ s p o, Says exGraph s p o → (s, p, o) ∈ exGraph.ts := fun _ _ _ h => h.2
  have : ∀ t ∈ exGraph.ts, t.2.1 = Iri.v .type → t.1 = .iri (.o "s") := by decide +kernel
  refine ⟨fun y => ⟨fun h => this _ h rfl, fun h => by subst h; decide +kernel⟩, ?_, ?_, ?_, ?_, ?_⟩
  · intro o h
    have : ∀ t ∈ exGraph.ts, t.2.1 = sdSupportedLanguage → t.2.2 =
      .iri (.o "http://www.w3.org/ns/sparql-service-description#SPARQL11Query") := by decide +kernel
    exact ⟨_, _, this _ (hs _ _ _ h) rfl, .q11⟩
  · intro o h
    have : ∀ t ∈ exGraph.ts, t.2.1 = sdFeature → t.2.2 = .iri (.o "f") := by decide +kernel
    exact ⟨_, this _ (hs _ _ _ h) rfl⟩
  · intro o h
    have : ∀ t ∈ exGraph.ts, t.2.1 ≠ sdResultFormat := by decide +kernel
    exact absurd rfl (this _ (hs _ _ _ h))
  · intro o h
    have : ∀ t ∈ exGraph.ts, t.2.1 = sdAvailableGraphs → t.2.2 = .bnode "c" := by decide +kernel
    obtain rfl := this _ (hs _ _ _ h) rfl
    refine ⟨rfl, fun o h => ?_⟩
    have : ∀ t ∈ exGraph.ts, t.2.1 = sdNamedGraph → t.2.2 = .bnode "n" := by decide +kernel
    obtain rfl := this _ (hs _ _ _ h) rfl
    refine ⟨⟨⟨.iri (.o "name"), rfl, by decide +kernel⟩, fun o h => ?_⟩, fun o h => ?_⟩
    · have : ∀ t ∈ exGraph.ts, t.2.1 = sdName → t.2.2 = .iri (.o "name") := by decide +kernel
      exact ⟨_, this _ (hs _ _ _ h) rfl⟩
    · have : ∀ t ∈ exGraph.ts, t.2.1 = sdGraph → t.2.2 = .bnode "g" := by decide +kernel
      obtain rfl := this _ (hs _ _ _ h) rfl
      refine ⟨rfl, fun o h => ?_, fun o h => ?_⟩
      · have : ∀ t ∈ exGraph.ts, t.2.1 = voidClassPartition → t.2.2 = .bnode "cp" := by decide +kernel
        obtain rfl := this _ (hs _ _ _ h) rfl
        refine ⟨⟨⟨.iri (.o "C"), rfl, by decide +kernel⟩, fun o h => ?_⟩, fun o h => ?_⟩
        · have : ∀ t ∈ exGraph.ts, t.2.1 = voidClass → t.2.2 = .iri (.o "C") := by decide +kernel
          exact ⟨_, this _ (hs _ _ _ h) rfl⟩
        · have : ∀ t ∈ exGraph.ts, t.2.1 = voidProperty → t.1 ≠ .bnode "cp" := by decide +kernel
          exact absurd rfl (this _ (hs _ _ _ h) rfl)
      · have : ∀ t ∈ exGraph.ts, t.2.1 = voidPropertyPartition → t.1 ≠ .bnode "g" := by decide +kernel
        exact absurd rfl (this _ (hs _ _ _ h) rfl)
  · intro o h
    have : ∀ t ∈ exGraph.ts, t.2.1 ≠ sdDefaultDataset := by decide +kernel
    exact absurd rfl (this _ (hs _ _ _ h))

/-- A default dataset with a named graph without a name is lost, and there is no error. -/
example : result (parse exLits ⟨[(.iri (.o "s"), .v .type, .iri sdService), (.iri (.o "s"), sdDefaultDataset, .bnode "d"),
      (.bnode "d", sdNamedGraph, .bnode "n")], fun _ l => l⟩ ⟨.bnode "", 0⟩) (fun d => d.dataset.isNone) = some true := by
  decide +kernel

#print axioms C142_reads
#print axioms C142_succeeds
#print axioms C142_errors
#print axioms C142_no_panic_partial
#print axioms C142_dataset_refuted
#print axioms C142_mie
#print axioms C142_classes_refuted
#print axioms C142_panic_refuted

end Sd

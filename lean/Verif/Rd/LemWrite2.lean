import Verif.Rd.LemWrite

/-!
# Lemmas on simple schemas and the graphs they are written to
-/

namespace Rd

section
variable {L C : Type} {O : Out L C} {E : Ext L C} {g : Gr L} {S : List (Shape C)} {x : Shape C}

/-- What is written for the components that are kept. -/
inductive KPut (O : Out L C) : Comp C → Voc → Tm L → Prop
  | cls {o} : KPut O (.cls o) .cls (o.term O)
  | datatype {i} : KPut O (.datatype i) .datatype (.iri i)
  | minCount {n} : KPut O (.minCount n) .minCount (.lit (O.int n))
  | maxCount {n} : KPut O (.maxCount n) .maxCount (.lit (O.int n))
  | minExclusive {c} : KPut O (.minExclusive c) .minExclusive (plainLit O c)
  | maxExclusive {c} : KPut O (.maxExclusive c) .maxExclusive (plainLit O c)
  | minInclusive {c} : KPut O (.minInclusive c) .minInclusive (plainLit O c)
  | maxInclusive {c} : KPut O (.maxInclusive c) .maxInclusive (plainLit O c)
  | minLength {n} : KPut O (.minLength n) .minLength (.lit (O.int n))
  | maxLength {n} : KPut O (.maxLength n) .maxLength (.lit (O.int n))
  | flags {p f} : KPut O (.pattern p (some f)) .flags (.lit (O.text f))
  | pattern {p f} : KPut O (.pattern p f) .pattern (.lit (O.text p))
  | uniqueLang {b} : KPut O (.uniqueLang b) .uniqueLang (.lit (O.bool b))
  | equals {i} : KPut O (.equals i) .equals (.iri i)
  | disjoint {i} : KPut O (.disjoint i) .disjoint (.iri i)
  | lessThan {i} : KPut O (.lessThan i) .lessThan (.iri i)
  | lessThanOrEquals {i} : KPut O (.lessThanOrEquals i) .lessThanOrEquals (.iri i)
  | not {o} : KPut O (.not o) .not (o.term O)
  | node {o} : KPut O (.node o) .node (o.term O)
  | qmin {o n mx d} : KPut O (.qualified o (some n) mx d []) .qualifiedMinCount (.lit (O.int n))
  | qmax {o mn n d} : KPut O (.qualified o mn (some n) d []) .qualifiedMaxCount (.lit (O.int n))
  | qdis {o mn mx b} : KPut O (.qualified o mn mx (some b) []) .qualifiedValueShapesDisjoint (.lit (O.bool b))
  | qualified {o mn mx d} : KPut O (.qualified o mn mx d []) .qualifiedValueShape (o.term O)
  | closed {b} : KPut O (.closed b []) .closed (.lit (O.bool b))
  | hasIri {i} : KPut O (.hasValue (.iri i)) .hasValue (.iri i)
  | hasLit {c} : KPut O (.hasValue (.lit c)) .hasValue (plainLit O c)
  | deactivated {b} : KPut O (.deactivated b) .deactivated (.lit (O.bool b))

theorem kput_iff {c : Comp C} {v : Voc} {o : Tm L} (hk : Kept E O c) :
    (∃ ps, compW O c = some ps ∧ (v, o) ∈ ps) ↔ KPut O c v o := by
  constructor
  · rintro ⟨ps, h, hm⟩
    cases hk with
    | pattern =>
      simp only [compW, Option.some.injEq] at h
      subst h
      simp only [List.mem_append, List.mem_map, Option.mem_toList, List.mem_singleton, Prod.mk.injEq] at hm
      rcases hm with ⟨f, hf, rfl, rfl⟩ | ⟨rfl, rfl⟩
      · cases hf
        exact .flags
      · exact .pattern
    | qualified _ =>
      simp only [compW, Option.some.injEq] at h
      subst h
      simp only [List.mem_append, List.mem_map, Option.mem_toList, List.mem_singleton, Prod.mk.injEq] at hm
      rcases hm with ((⟨f, hf, rfl, rfl⟩ | ⟨f, hf, rfl, rfl⟩) | ⟨f, hf, rfl, rfl⟩) | ⟨rfl, rfl⟩
      · cases hf
        exact .qmin
      · cases hf
        exact .qmax
      · cases hf
        exact .qdis
      · exact .qualified
    | _ =>
      simp only [compW, valueW, Option.map_some, Option.some.injEq, List.map_nil] at h
      subst h
      simp only [List.mem_singleton, Prod.mk.injEq] at hm
      obtain ⟨rfl, rfl⟩ := hm
      constructor
  · intro h
    cases h <;> exact ⟨_, rfl, by simp⟩

theorem kept_some {c : Comp C} (hk : Kept E O c) : ∃ ps, compW O c = some ps := by
  cases hk <;> exact ⟨_, rfl⟩

theorem kept_sparql {c : Comp C} {t : Tm L} {b : String} (hk : Kept E O c) : sparqlW O t b c = [] := by
  cases hk <;> rfl

/-- A graph that has the triples that are written for a simple schema. -/
structure Holds (E : Ext L C) (O : Out L C) (S : List (Shape C)) (g : Gr L) : Prop where
  inv : Inverse E O
  simple : Simple E O S
  mem : ∀ e, e ∈ g.ts ↔ ∃ x ∈ S, ∃ v o, Puts O x v o ∧ e = (x.base.id.term O, .v v, o)

theorem simple_writes (hS : Simple E O S) : ∃ ts, writeW O 0 S = some ts := by
  rcases h : writeW O 0 S with - | ts
  · obtain ⟨x, hx, h | ⟨c, hc, h⟩ | ⟨s, rfl, h⟩⟩ := writeW_none.1 h
    · have := hS.named x hx
      cases hi : x.base.id with
      | lit c => exact (this c hi).elim
      | _ => rw [hi] at h; cases h
    · obtain ⟨ps, h'⟩ := kept_some (hS.kept x hx c hc)
      rw [h'] at h
      cases h
    · obtain ⟨⟨i, hi⟩, -⟩ := hS.prop s hx
      exact (h i hi).elim
  · exact ⟨ts, rfl⟩

theorem holds (hI : Inverse E O) (hS : Simple E O S) {ts} (hw : writeW O 0 S = some ts)
    (hg : ∀ e, e ∈ g.ts ↔ e ∈ ts) : Holds E O S g := by
  refine ⟨hI, hS, fun e => (hg e).trans ⟨fun h => ?_, ?_⟩⟩
  · obtain ⟨x, hx, h | ⟨b, c, hc, h⟩⟩ := (writeW_mem hw).1 e h
    · exact ⟨x, hx, h⟩
    · rw [kept_sparql (hS.kept x hx c hc)] at h
      cases h
  · rintro ⟨x, hx, v, o, hp, rfl⟩
    exact (writeW_mem hw).2 x hx v o hp

variable (H : Holds E O S g)
include H

theorem term_nonlit (hx : x ∈ S) : (x.base.id.term O).isLit = false := by
  have := H.simple.named x hx
  cases hi : x.base.id with
  | lit c => exact (this c hi).elim
  | _ => rfl

theorem id_eq {y : Shape C} (hx : x ∈ S) (hy : y ∈ S) (h : x.base.id = y.base.id) : x = y := by
  obtain ⟨i, hi, rfl⟩ := List.getElem_of_mem hx
  obtain ⟨j, hj, rfl⟩ := List.getElem_of_mem hy
  have := (List.nodup_iff_injective_getElem.1 H.simple.ids) (a₁ := ⟨i, by simpa⟩) (a₂ := ⟨j, by simpa⟩) (by simpa using h)
  cases this
  rfl

theorem term_inj {y : Shape C} (hx : x ∈ S) (hy : y ∈ S) (h : x.base.id.term O = y.base.id.term O) : x = y := by
  apply id_eq H hx hy
  have h1 := H.simple.named x hx
  have h2 := H.simple.named y hy
  cases hi : x.base.id with
  | lit c => exact (h1 c hi).elim
  | _ =>
    cases hj : y.base.id with
    | lit c => exact (h2 c hj).elim
    | _ =>
      rw [hi, hj] at h
      cases h <;> rfl

theorem has_shape {t o : Tm L} {v : Voc} (h : g.Has t v o) : ∃ x ∈ S, t = x.base.id.term O ∧ Puts O x v o := by
  obtain ⟨x, hx, v', o', hp, he⟩ := (H.mem _).1 h.2
  cases he
  exact ⟨x, hx, rfl, hp⟩

theorem has_iff (hx : x ∈ S) {v : Voc} {o : Tm L} : g.Has (x.base.id.term O) v o ↔ Puts O x v o := by
  refine ⟨fun h => ?_, fun h => ⟨term_nonlit H hx, (H.mem _).2 ⟨x, hx, v, o, h, rfl⟩⟩⟩
  obtain ⟨y, hy, he, hp⟩ := has_shape H h
  cases term_inj H hx hy he
  exact hp

/-- The properties that are not for components. -/
def special : List Voc :=
  [.type, .path, .severity, .property, .targetClass, .targetNode, .targetSubjectsOf, .targetObjectsOf]

theorem has_comp (hx : x ∈ S) {v : Voc} {o : Tm L} (hv : v ∉ special) :
    g.Has (x.base.id.term O) v o ↔ ∃ c ∈ x.base.comps, KPut O c v o := by
  rw [has_iff H hx]
  constructor
  · intro h
    cases h with
    | comp hc hps hm => exact ⟨_, hc, (kput_iff (H.simple.kept x hx _ hc)).1 ⟨_, hps, hm⟩⟩
    | @target _ τ _ _ hτ he => cases τ <;> cases he <;> exact (hv (by decide)).elim
    | _ => exact (hv (by decide)).elim
  · rintro ⟨c, hc, h⟩
    obtain ⟨ps, hps, hm⟩ := (kput_iff (H.simple.kept x hx c hc)).2 h
    exact .comp hc hps hm

theorem has_target (hx : x ∈ S) {v : Voc} {o : Tm L} (hv : v ∈ [Voc.targetClass, .targetNode, .targetSubjectsOf, .targetObjectsOf]) :
    g.Has (x.base.id.term O) v o ↔ ∃ τ ∈ x.base.targets, targetW O τ = (v, o) := by
  rw [has_iff H hx]
  refine ⟨fun h => ?_, fun ⟨τ, hτ, h⟩ => .target hτ h⟩
  cases h with
  | comp hc hps hm =>
    have := (kput_iff (H.simple.kept x hx _ hc)).1 ⟨_, hps, hm⟩
    cases this <;> exact absurd hv (by decide)
  | target hτ h => exact ⟨_, hτ, h⟩
  | _ => exact absurd hv (by decide)

theorem has_property (hx : x ∈ S) {o : Tm L} :
    g.Has (x.base.id.term O) .property o ↔ ∃ p ∈ x.base.props, p.term O = o := by
  rw [has_iff H hx]
  constructor
  · intro h
    cases h with
    | comp hc hps hm =>
      have := (kput_iff (H.simple.kept x hx _ hc)).1 ⟨_, hps, hm⟩
      cases this
    | @target _ τ _ _ hτ he => cases τ <;> cases he
    | props h => exact ⟨_, h, rfl⟩
  · rintro ⟨p, hp, rfl⟩
    cases x with
    | node s => exact .props hp
    | prop s =>
      have := (H.simple.prop s hx).2.1
      simp [Shape.base, this] at hp

theorem has_severity (hx : x ∈ S) {o : Tm L} :
    g.Has (x.base.id.term O) .severity o ↔ ∃ v, x.base.severity = some v ∧ o = .iri v.iri := by
  rw [has_iff H hx]
  constructor
  · intro h
    cases h with
    | comp hc hps hm =>
      have := (kput_iff (H.simple.kept x hx _ hc)).1 ⟨_, hps, hm⟩
      cases this
    | @target _ τ _ _ hτ he => cases τ <;> cases he
    | severity h => exact ⟨_, h, rfl⟩
  · rintro ⟨v, hv, rfl⟩
    exact .severity hv

theorem has_type (hx : x ∈ S) {v : Voc} (hv : v ∈ [Voc.NodeShape, .PropertyShape]) :
    g.Has (x.base.id.term O) .type (.iri (.v v)) ↔
      (v = .NodeShape ∧ ∃ s, x = .node s) ∨ (v = .PropertyShape ∧ ∃ s, x = .prop s) := by
  rw [has_iff H hx]
  constructor
  · intro h
    cases h with
    | comp hc hps hm =>
      have := (kput_iff (H.simple.kept x hx _ hc)).1 ⟨_, hps, hm⟩
      cases this
    | @target _ τ _ _ hτ he =>
      cases τ <;> cases he
      exact absurd hv (by decide)
    | node => exact .inl ⟨rfl, _, rfl⟩
    | prop => exact .inr ⟨rfl, _, rfl⟩
  · rintro (⟨rfl, s, rfl⟩ | ⟨rfl, s, rfl⟩)
    · exact .node
    · exact .prop

theorem has_class (hx : x ∈ S) :
    g.Has (x.base.id.term O) .type (.iri (.v .rdfsClass)) ↔ .implicit x.base.id ∈ x.base.targets := by
  rw [has_iff H hx]
  constructor
  · intro h
    cases h with
    | comp hc hps hm =>
      have := (kput_iff (H.simple.kept x hx _ hc)).1 ⟨_, hps, hm⟩
      cases this
    | @target _ τ _ _ hτ he =>
      cases τ <;> cases he
      rename_i o
      cases H.simple.implicit x hx o hτ
      exact hτ
  · exact fun h => .target h rfl

theorem has_path (hx : x ∈ S) {o : Tm L} :
    g.Has (x.base.id.term O) .path o ↔ ∃ s i, x = .prop s ∧ s.path = .pred i ∧ o = .iri i := by
  rw [has_iff H hx]
  constructor
  · intro h
    cases h with
    | comp hc hps hm =>
      have := (kput_iff (H.simple.kept x hx _ hc)).1 ⟨_, hps, hm⟩
      cases this
    | @target _ τ _ _ hτ he => cases τ <;> cases he
    | path h => exact ⟨_, _, rfl, h, rfl⟩
  · rintro ⟨s, i, rfl, h, rfl⟩
    exact .path h

end

end Rd

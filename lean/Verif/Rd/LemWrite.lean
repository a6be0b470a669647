import Verif.Rd.SpecWrite
import Verif.Rd.LemSchema

/-!
# Lemmas on what is written
-/

namespace Rd

section
variable {L C : Type} {O : Out L C} {E : Ext L C} {g : Gr L}

/-- The properties and values that the writer puts at the name of a shape, but for SPARQL constraints. -/
inductive Puts (O : Out L C) : Shape C → Voc → Tm L → Prop
  | node {s} : Puts O (.node s) .type (.iri (.v .NodeShape))
  | prop {s} : Puts O (.prop s) .type (.iri (.v .PropertyShape))
  | path {s i} : s.path = .pred i → Puts O (.prop s) .path (.iri i)
  | comp {x c ps v o} : c ∈ x.base.comps → compW O c = some ps → (v, o) ∈ ps → Puts O x v o
  | target {x τ v o} : τ ∈ x.base.targets → targetW O τ = (v, o) → Puts O x v o
  | severity {x v} : x.base.severity = some v → Puts O x .severity (.iri v.iri)
  | props {s o} : o ∈ s.props → Puts O (.node s) .property (o.term O)

theorem compsW_some {t : Tm L} {k : Nat} : ∀ {cs : List (Comp C)} {j}, (∀ c ∈ cs, compW O c ≠ none) →
    ∃ ts, compsW O t k j cs = some ts
  | [], _, _ => ⟨_, rfl⟩
  | c :: cs, j, h => by
    obtain ⟨a, ha⟩ := Option.ne_none_iff_exists'.1 (h c (by simp))
    obtain ⟨b, hb⟩ := compsW_some (t := t) (k := k) (cs := cs) (j := j + 1) (fun c hc => h c (by simp [hc]))
    exact ⟨_, by simp only [compsW, ha, hb, Option.bind_eq_bind, Option.bind_some]; rfl⟩

theorem compsW_none {t : Tm L} {k : Nat} {c : Comp C} (hc : compW O c = none) : ∀ {cs : List (Comp C)} {j}, c ∈ cs →
    compsW O t k j cs = none
  | [], _, h => by simp at h
  | d :: cs, j, h => by
    rcases List.mem_cons.1 h with rfl | h
    · simp [compsW, hc]
    · have := compsW_none (t := t) (k := k) hc (j := j + 1) h
      cases hd : compW O d <;> simp [compsW, hd, this]

theorem compsW_mem {t : Tm L} {k : Nat} : ∀ {cs : List (Comp C)} {j} {ts}, compsW O t k j cs = some ts →
    (∀ e ∈ ts, (∃ c ∈ cs, ∃ ps, compW O c = some ps ∧ ∃ x ∈ ps, e = (t, .v x.1, x.2)) ∨
      ∃ b, ∃ c ∈ cs, e ∈ sparqlW O t b c) ∧
    (∀ c ∈ cs, ∃ ps, compW O c = some ps ∧ ∀ x ∈ ps, (t, Iri.v x.1, x.2) ∈ ts)
  | [], _, ts, h => by
    simp only [compsW, Option.some.injEq] at h
    subst h
    simp
  | c :: cs, j, ts, h => by
    simp only [compsW, Option.bind_eq_bind, Option.bind_eq_some_iff] at h
    obtain ⟨a, ha, b, hb, h⟩ := h
    simp only [Option.some.injEq] at h
    subst h
    obtain ⟨h1, h2⟩ := compsW_mem hb
    constructor
    · intro e he
      simp only [List.mem_append, List.mem_map] at he
      rcases he with (⟨x, hx, rfl⟩ | he) | he
      · exact .inl ⟨c, by simp, a, ha, x, hx, rfl⟩
      · exact .inr ⟨_, c, by simp, he⟩
      · rcases h1 e he with ⟨c', hc', h⟩ | ⟨b', c', hc', h⟩
        · exact .inl ⟨c', by simp [hc'], h⟩
        · exact .inr ⟨b', c', by simp [hc'], h⟩
    · intro c' hc'
      rcases List.mem_cons.1 hc' with rfl | hc'
      · exact ⟨a, ha, fun x hx => by simp only [List.mem_append, List.mem_map]; exact .inl (.inl ⟨x, hx, rfl⟩)⟩
      · obtain ⟨ps, hps, h⟩ := h2 c' hc'
        exact ⟨ps, hps, fun x hx => by simp only [List.mem_append]; exact .inr (h x hx)⟩

/-- When a shape cannot be written. -/
def Unwritable (O : Out L C) (x : Shape C) : Prop :=
  (x.base.id.term O).isLit = true ∨ (∃ c ∈ x.base.comps, compW O c = none) ∨
    ∃ s, x = .prop s ∧ ∀ i, s.path ≠ .pred i

theorem shapeW_none {k : Nat} {x : Shape C} : shapeW O k x = none ↔ Unwritable O x := by
  unfold Unwritable
  cases x with
  | node s =>
    simp only [Shape.base, shapeW, reduceCtorEq, false_and, exists_false, or_false]
    cases hl : (s.id.term O).isLit with
    | true => simp
    | false =>
      by_cases hc : ∃ c ∈ s.comps, compW O c = none
      · obtain ⟨c, hc, hn⟩ := hc
        simp only [compsW_none hn hc, Bool.false_eq_true, if_false, false_or]
        exact ⟨fun _ => ⟨c, hc, hn⟩, fun _ => rfl⟩
      · obtain ⟨ts, hts⟩ := compsW_some (O := O) (t := s.id.term O) (k := k) (j := 0) (cs := s.comps)
          (fun c hcm hn => hc ⟨c, hcm, hn⟩)
        simp [hts, hc]
  | prop s =>
    simp only [Shape.base, shapeW, Shape.prop.injEq, exists_eq_left']
    cases hl : (s.id.term O).isLit with
    | true => simp
    | false =>
      cases hp : s.path with
      | pred i =>
        by_cases hc : ∃ c ∈ s.comps, compW O c = none
        · obtain ⟨c, hc, hn⟩ := hc
          simp only [compsW_none hn hc, Bool.false_eq_true, if_false, false_or]
          exact ⟨fun _ => .inl ⟨c, hc, hn⟩, fun _ => rfl⟩
        · obtain ⟨ts, hts⟩ := compsW_some (O := O) (t := s.id.term O) (k := k) (j := 0) (cs := s.comps)
            (fun c hcm hn => hc ⟨c, hcm, hn⟩)
          simp [hts, hc]
      | _ => simp

theorem writeW_none {S : List (Shape C)} : ∀ {k}, writeW O k S = none ↔ ∃ x ∈ S, Unwritable O x := by
  induction S with
  | nil => simp [writeW]
  | cons x S ih =>
    intro k
    simp only [writeW, List.mem_cons, exists_eq_or_imp]
    cases hx : shapeW O k x with
    | none => simp [shapeW_none.1 hx]
    | some a =>
      have hn : ¬ Unwritable O x := fun h => by rw [shapeW_none.2 h] at hx; cases hx
      cases hb : writeW O (k + 1) S with
      | none => simp [ih.1 hb]
      | some b =>
        have : ¬ ∃ x ∈ S, Unwritable O x := fun h => by rw [ih.2 h] at hb; cases hb
        simp only [hn, false_or, this, iff_false]
        nofun

theorem shapeW_mem {k : Nat} {x : Shape C} {ts} (h : shapeW O k x = some ts) :
    (∀ e ∈ ts, (∃ v o, Puts O x v o ∧ e = (x.base.id.term O, .v v, o)) ∨
      ∃ b, ∃ c ∈ x.base.comps, e ∈ sparqlW O (x.base.id.term O) b c) ∧
    ∀ v o, Puts O x v o → (x.base.id.term O, Iri.v v, o) ∈ ts := by
  cases x with
  | node s =>
    simp only [shapeW] at h
    split at h
    · cases h
    · simp only [Option.bind_eq_bind, Option.bind_eq_some_iff] at h
      obtain ⟨cs, hcs, h⟩ := h
      simp only [Option.some.injEq] at h
      subst h
      obtain ⟨h1, h2⟩ := compsW_mem hcs
      constructor
      · intro e he
        simp only [restW, List.mem_append, List.mem_cons, List.mem_map, Option.mem_toList] at he
        rcases he with ((rfl | he) | ⟨x, ⟨τ, hτ, rfl⟩ | ⟨v, hv, rfl⟩, rfl⟩) | ⟨o, ho, rfl⟩
        · exact .inl ⟨_, _, .node, rfl⟩
        · rcases h1 e he with ⟨c, hc, ps, hps, x, hx, rfl⟩ | ⟨b, c, hc, h⟩
          · exact .inl ⟨_, _, .comp hc hps hx, rfl⟩
          · exact .inr ⟨b, c, hc, h⟩
        · exact .inl ⟨_, _, .target hτ rfl, rfl⟩
        · exact .inl ⟨_, _, .severity hv, rfl⟩
        · exact .inl ⟨_, _, .props ho, rfl⟩
      · intro v o hp
        simp only [restW, List.mem_append, List.mem_cons, List.mem_map, Option.mem_toList]
        cases hp with
        | node => exact .inl (.inl (.inl rfl))
        | comp hc hps hx =>
          obtain ⟨ps', hps', h⟩ := h2 _ hc
          cases hps.symm.trans hps'
          exact .inl (.inl (.inr (h _ hx)))
        | target hτ he => exact .inl (.inr ⟨_, .inl ⟨_, hτ, rfl⟩, by rw [he]; rfl⟩)
        | severity hv => exact .inl (.inr ⟨_, .inr ⟨_, hv, rfl⟩, rfl⟩)
        | props ho => exact .inr ⟨_, ho, rfl⟩
  | prop s =>
    simp only [shapeW] at h
    split at h
    · cases h
    · split at h
      · rename_i i hi
        simp only [Option.bind_eq_bind, Option.bind_eq_some_iff] at h
        obtain ⟨cs, hcs, h⟩ := h
        simp only [Option.some.injEq] at h
        subst h
        obtain ⟨h1, h2⟩ := compsW_mem hcs
        constructor
        · intro e he
          simp only [restW, List.mem_append, List.mem_cons, List.mem_map, Option.mem_toList] at he
          rcases he with (rfl | rfl | he) | ⟨x, ⟨τ, hτ, rfl⟩ | ⟨v, hv, rfl⟩, rfl⟩
          · exact .inl ⟨_, _, .prop, rfl⟩
          · exact .inl ⟨_, _, .path hi, rfl⟩
          · rcases h1 e he with ⟨c, hc, ps, hps, x, hx, rfl⟩ | ⟨b, c, hc, h⟩
            · exact .inl ⟨_, _, .comp hc hps hx, rfl⟩
            · exact .inr ⟨b, c, hc, h⟩
          · exact .inl ⟨_, _, .target (x := .prop s) hτ rfl, rfl⟩
          · exact .inl ⟨_, _, .severity (x := .prop s) hv, rfl⟩
        · intro v o hp
          simp only [restW, List.mem_append, List.mem_cons, List.mem_map, Option.mem_toList]
          cases hp with
          | prop => exact .inl (.inl rfl)
          | path hi' =>
            cases hi.symm.trans hi'
            exact .inl (.inr (.inl rfl))
          | comp hc hps hx =>
            obtain ⟨ps', hps', h⟩ := h2 _ hc
            cases hps.symm.trans hps'
            exact .inl (.inr (.inr (h _ hx)))
          | target hτ he => exact .inr ⟨_, .inl ⟨_, hτ, rfl⟩, by rw [he]; rfl⟩
          | severity hv => exact .inr ⟨_, .inr ⟨_, hv, rfl⟩, rfl⟩
      · cases h

theorem writeW_mem {S : List (Shape C)} : ∀ {k ts}, writeW O k S = some ts →
    (∀ e ∈ ts, ∃ x ∈ S, (∃ v o, Puts O x v o ∧ e = (x.base.id.term O, .v v, o)) ∨
      ∃ b, ∃ c ∈ x.base.comps, e ∈ sparqlW O (x.base.id.term O) b c) ∧
    ∀ x ∈ S, ∀ v o, Puts O x v o → (x.base.id.term O, Iri.v v, o) ∈ ts := by
  induction S with
  | nil =>
    intro k ts h
    simp only [writeW, Option.some.injEq] at h
    subst h
    simp
  | cons x S ih =>
    intro k ts h
    simp only [writeW, Option.bind_eq_bind, Option.bind_eq_some_iff] at h
    obtain ⟨a, ha, b, hb, h⟩ := h
    simp only [Option.some.injEq] at h
    subst h
    obtain ⟨h1, h2⟩ := ih hb
    obtain ⟨h3, h4⟩ := shapeW_mem ha
    constructor
    · intro e he
      rcases List.mem_append.1 he with he | he
      · exact ⟨x, by simp, h3 e he⟩
      · obtain ⟨y, hy, h⟩ := h1 e he
        exact ⟨y, by simp [hy], h⟩
    · intro y hy v o hp
      rcases List.mem_cons.1 hy with rfl | hy
      · exact List.mem_append_left _ (h4 v o hp)
      · exact List.mem_append_right _ (h2 y hy v o hp)

end

end Rd

import Verif.Sd.Spec
import Verif.Rd.Lemmas

/-!
# Lemmas: service descriptions
-/

namespace Sd
open Rd

section
variable {L A B : Type}

theorem forall₂_mem {R : A → B → Prop} : ∀ {l : List A} {m : List B}, List.Forall₂ R l m → ∀ a ∈ l, ∃ b ∈ m, R a b
  | _, _, .cons h hs, a, ha => by
    rcases List.mem_cons.1 ha with rfl | ha
    · exact ⟨_, List.mem_cons_self .., h⟩
    · obtain ⟨b, hb, hr⟩ := forall₂_mem hs a ha
      exact ⟨b, List.mem_cons_of_mem _ hb, hr⟩

/-! ## How parsers end -/

theorem ret_ok {a b : A} {s s' : St L} : (ret a : Pr L A) s = (.ok b, s') ↔ a = b ∧ s = s' := by
  simp [ret]

theorem lift_ok {o : Option A} {b : A} {s s' : St L} : (lift o : Pr L A) s = (.ok b, s') ↔ o = some b ∧ s = s' := by
  cases o <;> simp [lift]

theorem optional_ok {p : Pr L A} {o : Option A} {s s' : St L} :
    Rd.optional p s = (.ok o, s') ↔ (∃ a, o = some a ∧ p s = (.ok a, s')) ∨ (o = none ∧ p s = (.err, s')) := by
  unfold Rd.optional
  rcases p s with ⟨r, s1⟩
  cases r <;> simp <;> grind

theorem expectNode_ok {t t' : Tm L} {s s' : St L} :
    expectNode t s = (.ok t', s') ↔ t.isLit = false ∧ t = t' ∧ s = s' := by
  unfold expectNode
  cases t.isLit <;> simp [ret, Rd.panic]

theorem asIri_iff {t : Tm L} {i : Iri} : asIri t = some i ↔ IsIri t i := by
  cases t <;> simp [asIri, IsIri]

theorem asInt_iff {I : Lits L} {t : Tm L} {n : Int} : I.asInt t = some n ↔ IsInt I t n := by
  cases t <;> simp [Lits.asInt, IsInt]

theorem asText_iff {I : Lits L} {t : Tm L} {n : String} : I.asText t = some n ↔ IsText I t n := by
  cases t <;> simp [Lits.asText, IsText]

theorem asNode_iff {t n : Tm L} : asNode t = some n ↔ t.isLit = false ∧ n = t := by
  cases t <;> simp [asNode, Tm.isLit, eq_comm]

theorem isNode_asNode {t : Tm L} (h : t.isLit = false) : asNode t = some t := asNode_iff.2 ⟨h, rfl⟩

/-- The loop of `each`, with the focus set at each step. -/
theorem each_ok {q : Pr L A} {R : Tm L → A → Prop} (hq : ∀ s a s', q s = (.ok a, s') → R s.focus a) :
    ∀ {vs : List (Tm L)} {l : List A} {s s' : St L},
      each (fun v => do setFocus v; q) vs s = (.ok l, s') → List.Forall₂ R vs l
  | [], l, s, s', h => by
    rw [each, ret_ok] at h
    rw [← h.1]
    exact .nil
  | v :: vs, l, s, s', h => by
    rw [each, bind_ok_iff] at h
    obtain ⟨b, s1, h1, h2⟩ := h
    rw [bind_ok_iff] at h2
    obtain ⟨bs, s2, h2, h3⟩ := h2
    rw [ret_ok] at h3
    rw [← h3.1]
    rw [setFocus_bind] at h1
    exact .cons (hq _ _ _ h1) (each_ok hq h2)

theorem each_succeeds {q : Pr L A} : ∀ {vs : List (Tm L)} (_ : ∀ v ∈ vs, ∀ k, ∃ a s', q ⟨v, k⟩ = (.ok a, s')) (s : St L),
    ∃ l s', each (fun v => do setFocus v; q) vs s = (.ok l, s')
  | [], _, s => ⟨[], s, rfl⟩
  | v :: vs, hq, s => by
    obtain ⟨a, s1, h1⟩ := hq v (List.mem_cons_self ..) s.reads
    obtain ⟨l, s2, h2⟩ := each_succeeds (vs := vs) (fun v hv => hq v (List.mem_cons_of_mem _ hv)) s1
    refine ⟨a :: l, s2, ?_⟩
    rw [each, bind_ok_iff]
    refine ⟨a, s1, by rw [setFocus_bind]; exact h1, ?_⟩
    rw [bind_ok_iff]
    exact ⟨l, s2, h2, rfl⟩

theorem each_panic {q : Pr L A} : ∀ {vs : List (Tm L)} (_ : ∀ v ∈ vs, ∀ k, (q ⟨v, k⟩).1 ≠ .panic) (s : St L),
    (each (fun v => do setFocus v; q) vs s).1 ≠ .panic
  | [], _, s => by simp [each, ret]
  | v :: vs, hq, s => by
    rw [each, Ne, bind_panic_iff]
    rintro (h | ⟨a, s1, _, h⟩)
    · rw [setFocus_bind] at h
      exact hq v (List.mem_cons_self ..) _ h
    · rw [bind_panic_iff] at h
      rcases h with h | ⟨l, s2, _, h⟩
      · exact each_panic (vs := vs) (fun v hv => hq v (List.mem_cons_of_mem _ hv)) s1 h
      · simp [ret] at h

variable [DecidableEq L] {g : Gr L} {I : Lits L}

theorem mem_objs_says {s : Tm L} {p : Iri} {o : Tm L} : o ∈ g.objs s p ↔ Says g s p o := by
  unfold Gr.objs Says
  cases s.isLit
  · simp only [Bool.false_eq_true, if_false, List.mem_dedup, List.mem_map, List.mem_filter, decide_eq_true_eq,
      true_and]
    constructor
    · rintro ⟨⟨a, b, c⟩, ⟨h, rfl, rfl⟩, rfl⟩
      exact h
    · intro h
      exact ⟨_, ⟨h, rfl, rfl⟩, rfl⟩
  · simp

theorem mem_ord (hg : g.Orders) {s : Tm L} {p : Iri} {k : Nat} {o : Tm L} :
    o ∈ g.ord k (g.objs s p) ↔ Says g s p o := by
  rw [(hg k _).mem_iff, mem_objs_says]

theorem values_run (p : Iri) (s : St L) :
    values g p s = (.ok (g.ord s.reads (g.objs s.focus p)), ⟨s.focus, s.reads + 1⟩) := rfl

theorem single_ok (hg : g.Orders) {p : Iri} {s s' : St L} {o : Tm L} (h : single g p s = (.ok o, s')) :
    Says g s.focus p o ∧ s'.focus = s.focus := by
  rw [single, bind_ok (values_run p s)] at h
  cases hv : g.ord s.reads (g.objs s.focus p) with
  | nil => rw [hv] at h; simp [fail] at h
  | cons v vs =>
    rw [hv] at h
    obtain ⟨rfl, rfl⟩ := ret_ok.1 h
    exact ⟨(mem_ord hg).1 (hv ▸ List.mem_cons_self ..), rfl⟩

theorem single_cases (hg : g.Orders) (p : Iri) (s : St L) :
    (∃ o, Says g s.focus p o ∧ single g p s = (.ok o, ⟨s.focus, s.reads + 1⟩)) ∨
    ((∀ o, ¬ Says g s.focus p o) ∧ single g p s = (.err, ⟨s.focus, s.reads + 1⟩)) := by
  rw [single, bind_ok (values_run p s)]
  cases hv : g.ord s.reads (g.objs s.focus p) with
  | nil =>
    refine Or.inr ⟨fun o ho => ?_, rfl⟩
    have := (mem_ord hg (k := s.reads)).2 ho
    rw [hv] at this
    cases this
  | cons v vs => exact Or.inl ⟨v, (mem_ord hg).1 (hv ▸ List.mem_cons_self ..), rfl⟩

theorem one_cases (hg : g.Orders) (f : Tm L → Option A) (p : Iri) (s : St L) :
    (∃ o a, Says g s.focus p o ∧ f o = some a ∧ one g f p s = (.ok a, ⟨s.focus, s.reads + 1⟩)) ∨
    (((∀ o, ¬ Says g s.focus p o) ∨ ∃ o, Says g s.focus p o ∧ f o = none) ∧
      one g f p s = (.err, ⟨s.focus, s.reads + 1⟩)) := by
  rcases single_cases hg p s with ⟨o, ho, h⟩ | ⟨ho, h⟩
  · rw [one, bind_ok h]
    cases hf : f o with
    | none => exact Or.inr ⟨Or.inr ⟨o, ho, hf⟩, rfl⟩
    | some a => exact Or.inl ⟨o, a, ho, hf, rfl⟩
  · rw [one, bind_err h]
    exact Or.inr ⟨Or.inl ho, rfl⟩

theorem one_ok (hg : g.Orders) {f : Tm L → Option A} {R : Tm L → A → Prop} (hf : ∀ o a, f o = some a ↔ R o a)
    {p : Iri} {s s' : St L} {a : A} (h : one g f p s = (.ok a, s')) :
    One g s.focus p R a ∧ s'.focus = s.focus := by
  rcases one_cases hg f p s with ⟨o, b, ho, hb, hr⟩ | ⟨_, hr⟩ <;> rw [hr] at h
  · cases h
    exact ⟨⟨o, ho, (hf _ _).1 hb⟩, rfl⟩
  · cases h

theorem one_panic (hg : g.Orders) (f : Tm L → Option A) (p : Iri) (s : St L) : (one g f p s).1 ≠ .panic := by
  rcases one_cases hg f p s with ⟨o, b, ho, hb, hr⟩ | ⟨_, hr⟩ <;> rw [hr] <;> simp

theorem one_succeeds (hg : g.Orders) {f : Tm L → Option A} {p : Iri} {s : St L} (h1 : ∃ o, Says g s.focus p o)
    (h2 : ∀ o, Says g s.focus p o → ∃ a, f o = some a) :
    ∃ o a, Says g s.focus p o ∧ f o = some a ∧ one g f p s = (.ok a, ⟨s.focus, s.reads + 1⟩) := by
  rcases one_cases hg f p s with h | ⟨h | ⟨o, ho, h⟩, _⟩
  · exact h
  · obtain ⟨o, ho⟩ := h1
    exact absurd ho (h o)
  · obtain ⟨a, ha⟩ := h2 o ho
    rw [h] at ha
    cases ha

theorem hasIris_one (hg : g.Orders) {p : Iri} {s : St L} (h : HasIris g s.focus p) :
    ∃ a, one g asIri p s = (.ok a, ⟨s.focus, s.reads + 1⟩) := by
  obtain ⟨_, a, _, _, hr⟩ := one_succeeds hg (f := asIri) h.1 fun o ho => by
    obtain ⟨i, rfl⟩ := h.2 o ho
    exact ⟨i, rfl⟩
  exact ⟨a, hr⟩

theorem optOne_ok (hg : g.Orders) {f : Tm L → Option A} {R : Tm L → A → Prop} (hf : ∀ o a, f o = some a ↔ R o a)
    {p : Iri} {s s' : St L} {a : Option A} (h : Rd.optional (one g f p) s = (.ok a, s')) :
    Maybe g s.focus p R a ∧ s'.focus = s.focus := by
  have h0 := optional_ok.1 h
  clear h
  rcases h0 with ⟨b, rfl, h⟩ | ⟨rfl, h⟩
  · exact one_ok hg hf h
  · rcases one_cases hg f p s with ⟨o, b, ho, hb, hr⟩ | ⟨hn, hr⟩ <;> rw [hr] at h
    · cases h
    · cases h
      refine ⟨?_, rfl⟩
      rcases hn with hn | ⟨o, ho, hn⟩
      · exact Or.inl hn
      · exact Or.inr ⟨o, ho, fun a ha => by rw [(hf o a).2 ha] at hn; cases hn⟩

theorem optOne_run (hg : g.Orders) (f : Tm L → Option A) (p : Iri) (s : St L) :
    ∃ o, Rd.optional (one g f p) s = (.ok o, ⟨s.focus, s.reads + 1⟩) := by
  rcases one_cases hg f p s with ⟨o, b, ho, hb, hr⟩ | ⟨hn, hr⟩
  · exact ⟨some b, by simp only [Rd.optional, hr]⟩
  · exact ⟨none, by simp only [Rd.optional, hr]⟩

theorem mapM_forall₂ {f : Tm L → Option A} : ∀ {vs : List (Tm L)} {l : List A},
    vs.mapM f = some l ↔ List.Forall₂ (fun v a => f v = some a) vs l
  | [], l => by
    simp only [List.mapM_nil, List.forall₂_nil_left_iff]
    exact ⟨fun h => (Option.some.inj h).symm, fun h => h ▸ rfl⟩
  | v :: vs, l => by
    rw [List.mapM_cons, List.forall₂_cons_left_iff]
    simp only [bind, Option.bind_eq_some_iff, mapM_forall₂, pure, Option.some.injEq]
    constructor
    · rintro ⟨a, ha, as, has, rfl⟩
      exact ⟨a, as, ha, has, rfl⟩
    · rintro ⟨a, as, ha, has, rfl⟩
      exact ⟨a, ha, as, has, rfl⟩

theorem every_cases (hg : g.Orders) (f : Iri → Option A) (p : Iri) (s : St L) :
    (∃ l, Each g s.focus p (fun o a => ∃ i, o = .iri i ∧ f i = some a) l ∧
      every g f p s = (.ok l, ⟨s.focus, s.reads + 1⟩)) ∨
    ((∃ o, Says g s.focus p o ∧ ¬ ∃ i a, o = .iri i ∧ f i = some a) ∧ every g f p s = (.err, ⟨s.focus, s.reads + 1⟩)) := by
  rw [every, bind_ok (values_run p s)]
  cases hm : (g.ord s.reads (g.objs s.focus p)).mapM fun t => (asIri t).bind f with
  | some l =>
    refine Or.inl ⟨l, ⟨g.ord s.reads (g.objs s.focus p), (hg _ _).nodup_iff.2 (nodup_objs _ _), fun v => mem_ord hg, ?_⟩, rfl⟩
    refine (mapM_forall₂.1 hm).imp fun v a h => ?_
    obtain ⟨i, hi, ha⟩ := Option.bind_eq_some_iff.1 h
    exact ⟨i, asIri_iff.1 hi, ha⟩
  | none =>
    refine Or.inr ⟨?_, rfl⟩
    by_contra hc
    push Not at hc
    have : ∀ vs : List (Tm L), (∀ v ∈ vs, Says g s.focus p v) → vs.mapM (fun t => (asIri t).bind f) ≠ none := by
      intro vs
      induction vs with
      | nil => intro _ h; cases h
      | cons v vs ih =>
        intro hv h
        obtain ⟨i, a, rfl, ha⟩ := hc v (hv v (List.mem_cons_self ..))
        have h2 := ih fun w hw => hv w (List.mem_cons_of_mem _ hw)
        obtain ⟨l, hl⟩ := Option.ne_none_iff_exists'.1 h2
        rw [List.mapM_cons, hl] at h
        simp [asIri, ha] at h
    exact this _ (fun v hv => (mem_ord hg).1 hv) hm

theorem every_ok (hg : g.Orders) {f : Iri → Option A} {p : Iri} {s s' : St L} {l : List A}
    (h : every g f p s = (.ok l, s')) :
    Each g s.focus p (fun o a => ∃ i, o = .iri i ∧ f i = some a) l ∧ s'.focus = s.focus := by
  rcases every_cases hg f p s with ⟨l', h1, h2⟩ | ⟨_, h2⟩ <;> rw [h2] at h <;> cases h
  exact ⟨h1, rfl⟩

theorem every_panic (hg : g.Orders) (f : Iri → Option A) (p : Iri) (s : St L) : (every g f p s).1 ≠ .panic := by
  rcases every_cases hg f p s with ⟨l', h1, h2⟩ | ⟨_, h2⟩ <;> rw [h2] <;> simp

theorem every_succeeds (hg : g.Orders) {f : Iri → Option A} {p : Iri} {s : St L}
    (h : ∀ o, Says g s.focus p o → ∃ i a, o = .iri i ∧ f i = some a) :
    ∃ l, every g f p s = (.ok l, ⟨s.focus, s.reads + 1⟩) := by
  rcases every_cases hg f p s with ⟨l', h1, h2⟩ | ⟨⟨o, ho, hn⟩, _⟩
  · exact ⟨l', h2⟩
  · exact absurd (h o ho) hn

theorem mapProperty_ok (hg : g.Orders) {p : Iri} {q : Pr L A} {R : Tm L → A → Prop}
    (hq : ∀ s a s', q s = (.ok a, s') → R s.focus a) {s s' : St L} {l : List A}
    (h : mapProperty g p q s = (.ok l, s')) : Each g s.focus p R l ∧ s'.focus = s.focus := by
  rw [mapProperty, getFocus_bind, bind_ok (values_run p s), bind_ok_iff] at h
  obtain ⟨r, s1, h1, h2⟩ := h
  rw [setFocus_bind, ret_ok] at h2
  obtain ⟨rfl, rfl⟩ := h2
  exact ⟨⟨_, (hg _ _).nodup_iff.2 (nodup_objs _ _), fun v => mem_ord hg, each_ok hq h1⟩, rfl⟩

theorem mapProperty_succeeds (hg : g.Orders) {p : Iri} {q : Pr L A} {s : St L}
    (hq : ∀ v, Says g s.focus p v → ∀ k, ∃ a s', q ⟨v, k⟩ = (.ok a, s')) :
    ∃ l k, mapProperty g p q s = (.ok l, ⟨s.focus, k⟩) := by
  obtain ⟨l, s1, h⟩ := each_succeeds (q := q) (vs := g.ord s.reads (g.objs s.focus p))
    (fun v hv => hq v ((mem_ord hg).1 hv)) ⟨s.focus, s.reads + 1⟩
  refine ⟨l, s1.reads, ?_⟩
  rw [mapProperty, getFocus_bind, bind_ok (values_run p s), bind_ok h, setFocus_bind]
  rfl

theorem mapProperty_panic (hg : g.Orders) {p : Iri} {q : Pr L A} {s : St L}
    (hq : ∀ v, Says g s.focus p v → ∀ k, (q ⟨v, k⟩).1 ≠ .panic) : (mapProperty g p q s).1 ≠ .panic := by
  rw [mapProperty, getFocus_bind, bind_ok (values_run p s), Ne, bind_panic_iff]
  rintro (h | ⟨a, s1, _, h⟩)
  · exact each_panic (q := q) (fun v hv => hq v ((mem_ord hg).1 hv)) _ h
  · rw [setFocus_bind] at h
    simp [ret] at h

/-! ## What is read -/

theorem says_node {s : Tm L} {p : Iri} {o : Tm L} (h : Says g s p o) : s.isLit = false := h.1

theorem propertyPartition_ok (hg : g.Orders) {s s' : St L} {d : PropPart L}
    (h : propertyPartition I g s = (.ok d, s')) : IsPropPart g I s.focus d := by
  rw [propertyPartition, getFocus_bind, bind_ok_iff] at h
  obtain ⟨p, s1, h1, h⟩ := h
  rw [bind_ok_iff] at h
  obtain ⟨n, s2, h2, h⟩ := h
  rw [bind_ok_iff] at h
  obtain ⟨id, s3, h3, h⟩ := h
  obtain ⟨h1, e1⟩ := one_ok hg (fun _ _ => asIri_iff) h1
  obtain ⟨h2, e2⟩ := optOne_ok hg (fun _ _ => asInt_iff) h2
  obtain ⟨_, rfl, rfl⟩ := expectNode_ok.1 h3
  obtain ⟨rfl, rfl⟩ := ret_ok.1 h
  rw [e1] at h2
  exact ⟨rfl, h1, h2⟩

theorem classPartition_ok (hg : g.Orders) {s s' : St L} {d : ClassPart L}
    (h : classPartition I g s = (.ok d, s')) : IsClassPart g I s.focus d := by
  rw [classPartition, getFocus_bind, bind_ok_iff] at h
  obtain ⟨p, s1, h1, h⟩ := h
  rw [bind_ok_iff] at h
  obtain ⟨n, s2, h2, h⟩ := h
  rw [bind_ok_iff] at h
  obtain ⟨id, s3, h3, h⟩ := h
  obtain ⟨h1, e1⟩ := one_ok hg (fun _ _ => asIri_iff) h1
  obtain ⟨h2, e2⟩ := mapProperty_ok hg (fun _ _ _ => propertyPartition_ok hg) h2
  obtain ⟨_, rfl, rfl⟩ := expectNode_ok.1 h3
  obtain ⟨rfl, rfl⟩ := ret_ok.1 h
  rw [e1] at h2
  exact ⟨rfl, h1, h2⟩

theorem graphDescription_ok (hg : g.Orders) {t : Tm L} (ht : t.isLit = false) {s s' : St L} {d : GraphDesc L}
    (h : graphDescription I g t s = (.ok d, s')) : IsGraph g I t d := by
  rw [graphDescription, setFocus_bind, setFocus_bind, bind_ok_iff] at h
  obtain ⟨n, s1, h1, h⟩ := h
  rw [setFocus_bind, bind_ok_iff] at h
  obtain ⟨c, s2, h2, h⟩ := h
  rw [setFocus_bind, bind_ok_iff] at h
  obtain ⟨cs, s3, h3, h⟩ := h
  rw [setFocus_bind, bind_ok_iff] at h
  obtain ⟨ps, s4, h4, h⟩ := h
  obtain ⟨rfl, rfl⟩ := ret_ok.1 h
  exact ⟨rfl, ht, (optOne_ok hg (fun _ _ => asInt_iff) h1).1, (optOne_ok hg (fun _ _ => asInt_iff) h2).1,
    (mapProperty_ok hg (fun _ _ _ => classPartition_ok hg) h3).1,
    (mapProperty_ok hg (fun _ _ _ => propertyPartition_ok hg) h4).1⟩

theorem graph_ok (hg : g.Orders) {s s' : St L} {d : GraphDesc L} (h : graph I g s = (.ok d, s')) :
    IsGraph g I s.focus d := by
  rw [graph, getFocus_bind, bind_ok_iff] at h
  obtain ⟨id, s1, h1, h⟩ := h
  obtain ⟨ht, rfl, rfl⟩ := expectNode_ok.1 h1
  exact graphDescription_ok hg ht h

theorem namedGraph_ok (hg : g.Orders) {s s' : St L} {d : NamedGraph L} (h : namedGraph I g s = (.ok d, s')) :
    IsNamed g I s.focus d := by
  rw [namedGraph, getFocus_bind, setFocus_bind, bind_ok_iff] at h
  obtain ⟨n, s1, h1, h⟩ := h
  rw [bind_ok_iff] at h
  obtain ⟨gs, s2, h2, h⟩ := h
  rw [bind_ok_iff] at h
  obtain ⟨id, s3, h3, h⟩ := h
  obtain ⟨h1, e1⟩ := one_ok hg (fun _ _ => asIri_iff) h1
  obtain ⟨h2, e2⟩ := mapProperty_ok hg (fun _ _ _ => graph_ok hg) h2
  obtain ⟨_, rfl, rfl⟩ := expectNode_ok.1 h3
  obtain ⟨rfl, rfl⟩ := ret_ok.1 h
  rw [e1] at h2
  exact ⟨rfl, h1, h2⟩

theorem defaultGraph_ok (hg : g.Orders) {t : Tm L} {s s' : St L} {d : GraphDesc L}
    (h : defaultGraph I g t s = (.ok d, s')) : One g t sdDefaultGraph (IsGraph g I) d := by
  rw [defaultGraph, setFocus_bind, bind_ok_iff] at h
  obtain ⟨n, s1, h1, h⟩ := h
  obtain ⟨⟨o, ho, ht, rfl⟩, _⟩ := one_ok hg (fun _ _ => asNode_iff) h1
  exact ⟨_, ho, graphDescription_ok hg ht h⟩

theorem dataset_ok (hg : g.Orders) {t : Tm L} (ht : t.isLit = false) {s s' : St L} {d : Dataset L}
    (h : dataset I g t s = (.ok d, s')) : IsDataset g I t d := by
  rw [dataset, setFocus_bind, bind_ok_iff] at h
  obtain ⟨dg, s1, h1, h⟩ := h
  rw [setFocus_bind, bind_ok_iff] at h
  obtain ⟨ns, s2, h2, h⟩ := h
  obtain ⟨rfl, rfl⟩ := ret_ok.1 h
  refine ⟨rfl, ht, (mapProperty_ok hg (fun _ _ _ => namedGraph_ok hg) h2).1, ?_⟩
  rintro x rfl
  rcases optional_ok.1 h1 with ⟨a, h0, h1⟩ | ⟨h0, _⟩
  · cases h0
    exact defaultGraph_ok hg h1
  · cases h0

theorem defaultDataset_ok (hg : g.Orders) {t : Tm L} {s s' : St L} {d : Dataset L}
    (h : defaultDataset I g t s = (.ok d, s')) : One g t sdDefaultDataset (IsDataset g I) d := by
  rw [defaultDataset, setFocus_bind, bind_ok_iff] at h
  obtain ⟨n, s1, h1, h⟩ := h
  obtain ⟨⟨o, ho, ht, rfl⟩, _⟩ := one_ok hg (fun _ _ => asNode_iff) h1
  exact ⟨_, ho, dataset_ok hg ht h⟩

theorem availableGraph_ok (hg : g.Orders) {s s' : St L} {d : Collection L}
    (h : availableGraph I g s = (.ok d, s')) : IsCollection g I s.focus d := by
  rw [availableGraph, getFocus_bind, bind_ok_iff] at h
  obtain ⟨ns, s1, h1, h⟩ := h
  rw [bind_ok_iff] at h
  obtain ⟨id, s3, h3, h⟩ := h
  obtain ⟨ht, rfl, rfl⟩ := expectNode_ok.1 h3
  obtain ⟨rfl, rfl⟩ := ret_ok.1 h
  exact ⟨rfl, ht, (mapProperty_ok hg (fun _ _ _ => namedGraph_ok hg) h1).1⟩

/-! ## Names -/

theorem languageOf_iff {i : Iri} {l : Language} : languageOf i = some l ↔ LanguageIri i l := by
  constructor
  · intro h
    unfold languageOf at h
    split at h
    · rename_i e; subst e; cases h; exact .q10
    split at h
    · rename_i e; subst e; cases h; exact .q11
    split at h
    · rename_i e; subst e; cases h; exact .u11
    · cases h
  · rintro (_ | _ | _)
    · rfl
    · decide +kernel
    · decide +kernel

theorem featureOf_iff (i : Iri) : FeatureIri i (featureOf i) := by
  by_cases h : ∃ s x, i = .o s ∧ (s, x) ∈ featureNames
  · obtain ⟨s, x, rfl, hs⟩ := h
    refine Or.inl ⟨s, rfl, ?_⟩
    have hx : featureOf (.o s) = x := by
      simp only [featureNames, List.mem_cons, Prod.mk.injEq, List.not_mem_nil, or_false] at hs
      rcases hs with ⟨rfl, rfl⟩ | ⟨rfl, rfl⟩ | ⟨rfl, rfl⟩ | ⟨rfl, rfl⟩ | ⟨rfl, rfl⟩ <;> decide +kernel
    rw [hx]
    exact hs
  · push Not at h
    refine Or.inr ⟨h, ?_⟩
    unfold featureOf
    repeat'
      split
      · rename_i e
        exact absurd (by simp [featureNames]; rfl) (h _ _ e)
    rfl

theorem formatOf_iff (i : Iri) : FormatIri i (formatOf i) := by
  by_cases h : ∃ s x, i = .o s ∧ (s, x) ∈ formatNames
  · obtain ⟨s, x, rfl, hs⟩ := h
    refine Or.inl ⟨s, rfl, ?_⟩
    have hx : formatOf (.o s) = x := by
      simp only [formatNames, List.mem_cons, Prod.mk.injEq, List.not_mem_nil, or_false] at hs
      rcases hs with ⟨rfl, rfl⟩ | ⟨rfl, rfl⟩ | ⟨rfl, rfl⟩ | ⟨rfl, rfl⟩ | ⟨rfl, rfl⟩ | ⟨rfl, rfl⟩ | ⟨rfl, rfl⟩ | ⟨rfl, rfl⟩ <;>
        decide +kernel
    rw [hx]
    exact hs
  · push Not at h
    refine Or.inr ⟨h, ?_⟩
    unfold formatOf
    repeat'
      split
      · rename_i e
        exact absurd (by simp [formatNames]; rfl) (h _ _ e)
    rfl

theorem each_imp {R S : Tm L → A → Prop} (h : ∀ o a, R o a → S o a) {t : Tm L} {p : Iri} {l : List A}
    (he : Each g t p R l) : Each g t p S l := by
  obtain ⟨vs, h1, h2, h3⟩ := he
  exact ⟨vs, h1, h2, h3.imp h⟩

theorem serviceDescription_ok (hg : g.Orders) {s s' : St L} {d : Service L}
    (h : serviceDescription I g s = (.ok d, s')) : IsService g I s.focus d := by
  rw [serviceDescription, getFocus_bind, bind_ok_iff] at h
  obtain ⟨f, s0, h0, h⟩ := h
  obtain ⟨h0', rfl⟩ := lift_ok.1 h0
  obtain ⟨ht, rfl⟩ := asNode_iff.1 h0'
  rw [bind_ok_iff] at h
  obtain ⟨e, s1, h1, h⟩ := h
  rw [bind_ok_iff] at h
  obtain ⟨ls, s2, h2, h⟩ := h
  rw [bind_ok_iff] at h
  obtain ⟨rs, s3, h3, h⟩ := h
  rw [bind_ok_iff] at h
  obtain ⟨fs, s4, h4, h⟩ := h
  rw [bind_ok_iff] at h
  obtain ⟨ds, s5, h5, h⟩ := h
  rw [setFocus_bind, bind_ok_iff] at h
  obtain ⟨ags, s6, h6, h⟩ := h
  rw [setFocus_bind, bind_ok_iff] at h
  obtain ⟨t, s7, h7, h⟩ := h
  obtain ⟨rfl, rfl⟩ := ret_ok.1 h
  obtain ⟨h1, e1⟩ := optOne_ok hg (fun _ _ => asIri_iff) h1
  obtain ⟨h2, e2⟩ := every_ok hg h2
  obtain ⟨h3, e3⟩ := every_ok hg h3
  obtain ⟨h4, e4⟩ := every_ok hg h4
  obtain ⟨h6, _⟩ := mapProperty_ok hg (fun _ _ _ => availableGraph_ok hg) h6
  obtain ⟨h7, _⟩ := optOne_ok hg (fun _ _ => asText_iff) h7
  rw [e1] at h2
  rw [e2, e1] at h3
  rw [e3, e2, e1] at h4
  refine ⟨h7, h1, each_imp ?_ h2, each_imp ?_ h4, each_imp ?_ h3, h6, ?_⟩
  · rintro o a ⟨i, rfl, hi⟩
    exact ⟨i, rfl, languageOf_iff.1 hi⟩
  · rintro o a ⟨i, rfl, hi⟩
    cases hi
    exact ⟨i, rfl, featureOf_iff i⟩
  · rintro o a ⟨i, rfl, hi⟩
    cases hi
    exact ⟨i, rfl, formatOf_iff i⟩
  · rintro x rfl
    rcases optional_ok.1 h5 with ⟨a, h0, h5⟩ | ⟨h0, _⟩
    · cases h0
      exact defaultDataset_ok hg h5
    · cases h0

/-! ## When reading succeeds -/

theorem propertyPartition_good (hg : g.Orders) {t : Tm L} (h : GoodProp g t) (k : Nat) :
    ∃ d s', propertyPartition I g ⟨t, k⟩ = (.ok d, s') := by
  obtain ⟨a, ha⟩ := hasIris_one hg (s := ⟨t, k⟩) h
  obtain ⟨n, hn⟩ := optOne_run hg I.asInt voidTriples ⟨t, k + 1⟩
  obtain ⟨o, ho⟩ := h.1
  refine ⟨⟨t, a, n⟩, ⟨t, k + 1 + 1⟩, ?_⟩
  rw [propertyPartition, getFocus_bind, bind_ok ha, bind_ok hn, bind_ok (expectNode_ok.2 ⟨ho.1, rfl, rfl⟩)]
  rfl

theorem classPartition_good (hg : g.Orders) {t : Tm L} (h : GoodClass g t) (k : Nat) :
    ∃ d s', classPartition I g ⟨t, k⟩ = (.ok d, s') := by
  obtain ⟨a, ha⟩ := hasIris_one hg (s := ⟨t, k⟩) h.1
  obtain ⟨ps, k', hp⟩ := mapProperty_succeeds hg (s := ⟨t, k + 1⟩) (q := propertyPartition I g)
    fun v hv k => propertyPartition_good hg (h.2 v hv) k
  obtain ⟨o, ho⟩ := h.1.1
  refine ⟨⟨t, a, ps⟩, ⟨t, k'⟩, ?_⟩
  rw [classPartition, getFocus_bind, bind_ok ha, bind_ok hp, bind_ok (expectNode_ok.2 ⟨ho.1, rfl, rfl⟩)]
  rfl

theorem graphDescription_good (hg : g.Orders) {t : Tm L} (h : GoodGraph g t) (s : St L) :
    ∃ d s', graphDescription I g t s = (.ok d, s') := by
  obtain ⟨n, hn⟩ := optOne_run hg I.asInt voidTriples ⟨t, s.reads⟩
  obtain ⟨c, hc⟩ := optOne_run hg I.asInt voidClasses ⟨t, s.reads + 1⟩
  obtain ⟨cs, k1, h1⟩ := mapProperty_succeeds hg (s := ⟨t, s.reads + 1 + 1⟩) (q := classPartition I g)
    fun v hv k => classPartition_good hg (h.2.1 v hv) k
  obtain ⟨ps, k2, h2⟩ := mapProperty_succeeds hg (s := ⟨t, k1⟩) (q := propertyPartition I g)
    fun v hv k => propertyPartition_good hg (h.2.2 v hv) k
  refine ⟨⟨t, n, c, cs, ps⟩, ⟨t, k2⟩, ?_⟩
  rw [graphDescription, setFocus_bind, setFocus_bind, bind_ok hn, setFocus_bind, bind_ok hc, setFocus_bind, bind_ok h1,
    setFocus_bind, bind_ok h2]
  rfl

theorem graph_good (hg : g.Orders) {t : Tm L} (h : GoodGraph g t) (k : Nat) :
    ∃ d s', graph I g ⟨t, k⟩ = (.ok d, s') := by
  rw [graph, getFocus_bind, bind_ok (expectNode_ok.2 ⟨h.1, rfl, rfl⟩)]
  exact graphDescription_good hg h _

theorem namedGraph_good (hg : g.Orders) {t : Tm L} (h : GoodNamed g t) (k : Nat) :
    ∃ d s', namedGraph I g ⟨t, k⟩ = (.ok d, s') := by
  obtain ⟨a, ha⟩ := hasIris_one hg (s := ⟨t, k⟩) h.1
  obtain ⟨ps, k', hp⟩ := mapProperty_succeeds hg (s := ⟨t, k + 1⟩) (q := graph I g)
    fun v hv k => graph_good hg (h.2 v hv) k
  obtain ⟨o, ho⟩ := h.1.1
  refine ⟨⟨t, a, ps⟩, ⟨t, k'⟩, ?_⟩
  rw [namedGraph, getFocus_bind, setFocus_bind, bind_ok ha, bind_ok hp, bind_ok (expectNode_ok.2 ⟨ho.1, rfl, rfl⟩)]
  rfl

theorem availableGraph_good (hg : g.Orders) {t : Tm L} (h : GoodCollection g t) (k : Nat) :
    ∃ d s', availableGraph I g ⟨t, k⟩ = (.ok d, s') := by
  obtain ⟨ps, k', hp⟩ := mapProperty_succeeds hg (s := ⟨t, k⟩) (q := namedGraph I g)
    fun v hv k => namedGraph_good hg (h.2 v hv) k
  refine ⟨⟨t, ps⟩, ⟨t, k'⟩, ?_⟩
  rw [availableGraph, getFocus_bind, bind_ok hp, bind_ok (expectNode_ok.2 ⟨h.1, rfl, rfl⟩)]
  rfl

theorem defaultGraph_run (hg : g.Orders) {t : Tm L} (h : ∀ o, Says g t sdDefaultGraph o → GoodGraph g o) (s : St L) :
    ∃ o s', Rd.optional (defaultGraph I g t) s = (.ok o, s') ∧ (o = none → ∀ x, ¬ Says g t sdDefaultGraph x) := by
  rcases one_cases hg asNode sdDefaultGraph ⟨t, s.reads⟩ with ⟨o, n, ho, hn, hr⟩ | ⟨hn, hr⟩
  · obtain ⟨_, rfl⟩ := asNode_iff.1 hn
    obtain ⟨d, s', hd⟩ := graphDescription_good (I := I) hg (h _ ho) ⟨t, s.reads + 1⟩
    refine ⟨some d, s', optional_ok.2 (Or.inl ⟨d, rfl, ?_⟩), by simp⟩
    rw [defaultGraph, setFocus_bind, bind_ok hr]
    exact hd
  · refine ⟨none, ⟨t, s.reads + 1⟩, optional_ok.2 (Or.inr ⟨rfl, ?_⟩), fun _ => ?_⟩
    · rw [defaultGraph, setFocus_bind, bind_err hr]
    · rcases hn with hn | ⟨o, ho, hn⟩
      · exact hn
      · rw [isNode_asNode (h o ho).1] at hn
        cases hn

theorem dataset_good (hg : g.Orders) {t : Tm L} (h : GoodDataset g t) (s : St L) :
    ∃ d s', dataset I g t s = (.ok d, s') := by
  obtain ⟨o, s1, h1, _⟩ := defaultGraph_run (I := I) hg h.2.2 ⟨t, s.reads⟩
  obtain ⟨ns, k, h2⟩ := mapProperty_succeeds hg (s := ⟨t, s1.reads⟩) (q := namedGraph I g)
    fun v hv k => namedGraph_good hg (h.2.1 v hv) k
  refine ⟨⟨t, o, ns⟩, ⟨t, k⟩, ?_⟩
  rw [dataset, setFocus_bind, bind_ok h1, setFocus_bind, bind_ok h2]
  rfl

theorem defaultDataset_run (hg : g.Orders) {t : Tm L} (h : ∀ o, Says g t sdDefaultDataset o → GoodDataset g o)
    (s : St L) :
    ∃ o s', Rd.optional (defaultDataset I g t) s = (.ok o, s') ∧ (o = none → ∀ x, ¬ Says g t sdDefaultDataset x) := by
  rcases one_cases hg asNode sdDefaultDataset ⟨t, s.reads⟩ with ⟨o, n, ho, hn, hr⟩ | ⟨hn, hr⟩
  · obtain ⟨_, rfl⟩ := asNode_iff.1 hn
    obtain ⟨d, s', hd⟩ := dataset_good (I := I) hg (h _ ho) ⟨t, s.reads + 1⟩
    refine ⟨some d, s', optional_ok.2 (Or.inl ⟨d, rfl, ?_⟩), by simp⟩
    rw [defaultDataset, setFocus_bind, bind_ok hr]
    exact hd
  · refine ⟨none, ⟨t, s.reads + 1⟩, optional_ok.2 (Or.inr ⟨rfl, ?_⟩), fun _ => ?_⟩
    · rw [defaultDataset, setFocus_bind, bind_err hr]
    · rcases hn with hn | ⟨o, ho, hn⟩
      · exact hn
      · rw [isNode_asNode (h o ho).1] at hn
        cases hn

theorem serviceDescription_good (hg : g.Orders) {t : Tm L} (ht : t.isLit = false) (h : GoodService g t) (k : Nat) :
    ∃ d s', serviceDescription I g ⟨t, k⟩ = (.ok d, s') ∧
      (d.dataset = none → ∀ x, ¬ Says g t sdDefaultDataset x) := by
  obtain ⟨e, h1⟩ := optOne_run hg asIri sdEndpoint ⟨t, k⟩
  obtain ⟨ls, h2⟩ := every_succeeds hg (s := ⟨t, k + 1⟩) (f := languageOf) (p := sdSupportedLanguage) fun o ho => by
    obtain ⟨i, l, rfl, hl⟩ := h.languages o ho
    exact ⟨i, l, rfl, languageOf_iff.2 hl⟩
  obtain ⟨rs, h3⟩ := every_succeeds hg (s := ⟨t, k + 1 + 1⟩) (f := fun i => some (formatOf i)) (p := sdResultFormat)
    fun o ho => by
    obtain ⟨i, rfl⟩ := h.formats o ho
    exact ⟨i, _, rfl, rfl⟩
  obtain ⟨fs, h4⟩ := every_succeeds hg (s := ⟨t, k + 1 + 1 + 1⟩) (f := fun i => some (featureOf i)) (p := sdFeature)
    fun o ho => by
    obtain ⟨i, rfl⟩ := h.features o ho
    exact ⟨i, _, rfl, rfl⟩
  obtain ⟨ds, s5, h5, hds⟩ := defaultDataset_run (I := I) hg h.dataset ⟨t, k + 1 + 1 + 1 + 1⟩
  obtain ⟨ags, k6, h6⟩ := mapProperty_succeeds hg (s := ⟨t, s5.reads⟩) (q := availableGraph I g)
    fun v hv k => availableGraph_good hg (h.available v hv) k
  obtain ⟨x, h7⟩ := optOne_run hg I.asText dctTitle ⟨t, k6⟩
  refine ⟨⟨x, e, ds, ls, fs, rs, ags⟩, ⟨t, k6 + 1⟩, ?_, hds⟩
  rw [serviceDescription, getFocus_bind, bind_ok (lift_ok.2 ⟨isNode_asNode ht, rfl⟩), bind_ok h1, bind_ok h2, bind_ok h3,
    bind_ok h4, bind_ok h5, setFocus_bind, bind_ok h6, setFocus_bind, bind_ok h7]
  rfl

/-! ## Panics -/

theorem optional_panic {p : Pr L A} {s : St L} : (Rd.optional p s).1 = .panic ↔ (p s).1 = .panic := by
  unfold Rd.optional
  rcases p s with ⟨r, s1⟩
  cases r <;> simp

theorem expectNode_panic {t : Tm L} {s : St L} (h : t.isLit = false) : (expectNode t s).1 ≠ .panic := by
  simp [expectNode, h, ret]

theorem propertyPartition_panic (hg : g.Orders) (s : St L) : (propertyPartition I g s).1 ≠ .panic := by
  rw [propertyPartition, getFocus_bind, Ne, bind_panic_iff]
  rintro (h | ⟨a, s1, h1, h⟩)
  · exact one_panic hg _ _ _ h
  obtain ⟨⟨o, ho, _⟩, _⟩ := one_ok hg (fun _ _ => asIri_iff) h1
  rcases bind_panic_iff.1 h with h | ⟨n, s2, _, h⟩
  · exact one_panic hg _ _ _ (optional_panic.1 h)
  rcases bind_panic_iff.1 h with h | ⟨n, s2, _, h⟩
  · exact expectNode_panic ho.1 h
  · simp [ret] at h

theorem classPartition_panic (hg : g.Orders) (s : St L) : (classPartition I g s).1 ≠ .panic := by
  rw [classPartition, getFocus_bind, Ne, bind_panic_iff]
  rintro (h | ⟨a, s1, h1, h⟩)
  · exact one_panic hg _ _ _ h
  obtain ⟨⟨o, ho, _⟩, _⟩ := one_ok hg (fun _ _ => asIri_iff) h1
  rcases bind_panic_iff.1 h with h | ⟨n, s2, _, h⟩
  · exact mapProperty_panic hg (fun _ _ _ => propertyPartition_panic hg _) h
  rcases bind_panic_iff.1 h with h | ⟨n, s2, _, h⟩
  · exact expectNode_panic ho.1 h
  · simp [ret] at h

theorem graphDescription_panic (hg : g.Orders) (t : Tm L) (s : St L) : (graphDescription I g t s).1 ≠ .panic := by
  rw [graphDescription, setFocus_bind, setFocus_bind, Ne, bind_panic_iff]
  rintro (h | ⟨a, s1, _, h⟩)
  · exact one_panic hg _ _ _ (optional_panic.1 h)
  rw [setFocus_bind] at h
  rcases bind_panic_iff.1 h with h | ⟨n, s2, _, h⟩
  · exact one_panic hg _ _ _ (optional_panic.1 h)
  rw [setFocus_bind] at h
  rcases bind_panic_iff.1 h with h | ⟨n, s2, _, h⟩
  · exact mapProperty_panic hg (fun _ _ _ => classPartition_panic hg _) h
  rw [setFocus_bind] at h
  rcases bind_panic_iff.1 h with h | ⟨n, s2, _, h⟩
  · exact mapProperty_panic hg (fun _ _ _ => propertyPartition_panic hg _) h
  · simp [ret] at h

theorem namedGraph_panic (hg : g.Orders) (hl : ∀ s o, Says g s sdGraph o → o.isLit = false) (s : St L) :
    (namedGraph I g s).1 ≠ .panic := by
  rw [namedGraph, getFocus_bind, setFocus_bind, Ne, bind_panic_iff]
  rintro (h | ⟨a, s1, h1, h⟩)
  · exact one_panic hg _ _ _ h
  obtain ⟨⟨o, ho, _⟩, _⟩ := one_ok hg (fun _ _ => asIri_iff) h1
  rcases bind_panic_iff.1 h with h | ⟨n, s2, _, h⟩
  · refine mapProperty_panic hg (fun v hv k => ?_) h
    rw [graph, getFocus_bind, bind_ok (expectNode_ok.2 ⟨hl _ _ hv, rfl, rfl⟩)]
    exact graphDescription_panic hg _ _
  rcases bind_panic_iff.1 h with h | ⟨n, s2, _, h⟩
  · exact expectNode_panic ho.1 h
  · simp [ret] at h

theorem defaultDataset_panic (hg : g.Orders) (hl : ∀ s o, Says g s sdGraph o → o.isLit = false) (t : Tm L) (s : St L) :
    (defaultDataset I g t s).1 ≠ .panic := by
  rw [defaultDataset, setFocus_bind, Ne, bind_panic_iff]
  rintro (h | ⟨a, s1, _, h⟩)
  · exact one_panic hg _ _ _ h
  rw [dataset, setFocus_bind] at h
  rcases bind_panic_iff.1 h with h | ⟨n, s2, _, h⟩
  · have h := optional_panic.1 h
    rw [defaultGraph, setFocus_bind] at h
    rcases bind_panic_iff.1 h with h | ⟨n, s2, _, h⟩
    · exact one_panic hg _ _ _ h
    · exact graphDescription_panic hg _ _ h
  rw [setFocus_bind] at h
  rcases bind_panic_iff.1 h with h | ⟨n, s2, _, h⟩
  · exact mapProperty_panic hg (fun _ _ _ => namedGraph_panic hg hl _) h
  · simp [ret] at h

theorem serviceDescription_panic (hg : g.Orders) (hl : ∀ s o, Says g s sdGraph o → o.isLit = false)
    (ha : ∀ s o, Says g s sdAvailableGraphs o → o.isLit = false) (s : St L) :
    (serviceDescription I g s).1 ≠ .panic := by
  rw [serviceDescription, getFocus_bind, Ne, bind_panic_iff]
  rintro (h | ⟨a, s1, _, h⟩)
  · unfold lift at h
    split at h <;> simp at h
  rcases bind_panic_iff.1 h with h | ⟨n, s2, _, h⟩
  · exact one_panic hg _ _ _ (optional_panic.1 h)
  rcases bind_panic_iff.1 h with h | ⟨n, s2, _, h⟩
  · exact every_panic hg _ _ _ h
  rcases bind_panic_iff.1 h with h | ⟨n, s2, _, h⟩
  · exact every_panic hg _ _ _ h
  rcases bind_panic_iff.1 h with h | ⟨n, s2, _, h⟩
  · exact every_panic hg _ _ _ h
  rcases bind_panic_iff.1 h with h | ⟨n, s2, _, h⟩
  · exact defaultDataset_panic hg hl _ _ (optional_panic.1 h)
  rw [setFocus_bind] at h
  rcases bind_panic_iff.1 h with h | ⟨n, s2, _, h⟩
  · refine mapProperty_panic hg (fun v hv k => ?_) h
    rw [availableGraph, getFocus_bind, Ne, bind_panic_iff]
    rintro (h | ⟨a, s1, _, h⟩)
    · exact mapProperty_panic hg (fun _ _ _ => namedGraph_panic hg hl _) h
    rcases bind_panic_iff.1 h with h | ⟨n, s2, _, h⟩
    · exact expectNode_panic (ha _ _ hv) h
    · simp [ret] at h
  rw [setFocus_bind] at h
  rcases bind_panic_iff.1 h with h | ⟨n, s2, _, h⟩
  · exact one_panic hg _ _ _ (optional_panic.1 h)
  · simp [ret] at h

/-! ## The service -/

theorem mem_instances {c : Iri} {x : Tm L} : x ∈ instances g c ↔ (x, Iri.v .type, .iri c) ∈ g.ts := by
  simp only [instances, List.mem_dedup, List.mem_map, List.mem_filter, decide_eq_true_eq]
  constructor
  · rintro ⟨⟨a, b⟩, ⟨h, rfl⟩, rfl⟩
    exact h
  · intro h
    exact ⟨_, ⟨h, rfl⟩, rfl⟩

theorem instances_one {x : Tm L} : instances g sdService = [x] ↔ TheService g x := by
  have hn : (instances g sdService).Nodup := List.nodup_dedup _
  unfold TheService
  simp only [← mem_instances]
  generalize instances g sdService = l at hn
  constructor
  · rintro rfl y
    exact List.mem_singleton
  · intro h
    match l, hn with
    | [], _ => exact absurd ((h x).2 rfl) (List.not_mem_nil)
    | [y], _ => rw [(h y).1 (List.mem_cons_self ..)]
    | y :: z :: l, hn =>
      have h1 := (h y).1 (List.mem_cons_self ..)
      have h2 := (h z).1 (by simp)
      rw [h1, h2] at hn
      simp at hn

theorem parse_one {x : Tm L} (h : TheService g x) (s : St L) :
    parse I g s = serviceDescription I g ⟨x, s.reads⟩ := by
  unfold parse
  rw [instances_one.2 h]
  rfl

theorem parse_ok {s s' : St L} {d : Service L} (h : parse I g s = (.ok d, s')) : ∃ x, TheService g x := by
  unfold parse at h
  cases hi : instances g sdService with
  | nil => rw [hi] at h; simp [fail] at h
  | cons x l =>
    cases l with
    | nil => exact ⟨x, instances_one.1 hi⟩
    | cons y l => rw [hi] at h; simp [fail] at h

theorem parse_none (h : ¬ ∃ x, TheService g x) (s : St L) : parse I g s = (.err, s) := by
  unfold parse
  cases hi : instances g sdService with
  | nil => rfl
  | cons x l =>
    cases l with
    | nil => exact absurd ⟨x, instances_one.1 hi⟩ h
    | cons y l => rfl

end

end Sd

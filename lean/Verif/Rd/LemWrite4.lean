import Verif.Rd.LemWrite3

/-!
# Lemmas: written shapes are good ones, and what is read is like them
-/

namespace Rd

section
variable {L C : Type} {O : Out L C} {E : Ext L C} {g : Gr L} {S : List (Shape C)} {x : Shape C}
variable (H : Holds E O S g)
include H

theorem lacks_iff (hx : x ∈ S) {v : Voc} (hv : v ∉ special) (h : ∀ c o, ¬ KPut O c v o) {o : Tm L} :
    ¬ g.Has (x.base.id.term O) v o := lacks_of H hx v hv h o

theorem not_malformed (hx : x ∈ S) (k : Key) : ¬ Malformed g E (x.base.id.term O) k := by
  intro h
  have get : ∀ {v o}, v ∉ special → g.Has (x.base.id.term O) v o → ∃ c ∈ x.base.comps, Kept E O c ∧ KPut O c v o :=
    fun hv h => let ⟨c, hc, h⟩ := (has_comp H hx hv).1 h; ⟨c, hc, kept_of H hx hc, h⟩
  cases h with
  | cls h hm => obtain ⟨c, -, -, hk⟩ := get (by decide) h; cases hk; exact hm _ ((means_term H.inv).2 rfl)
  | not h hm => obtain ⟨c, -, -, hk⟩ := get (by decide) h; cases hk; exact hm _ ((means_term H.inv).2 rfl)
  | node h hm => obtain ⟨c, -, -, hk⟩ := get (by decide) h; cases hk; exact hm _ ((means_term H.inv).2 rfl)
  | qualified h hm => obtain ⟨c, -, -, hk⟩ := get (by decide) h; cases hk; exact hm _ ((means_term H.inv).2 rfl)
  | datatype h hm => obtain ⟨c, -, -, hk⟩ := get (by decide) h; cases hk; exact hm _ rfl
  | equals h hm => obtain ⟨c, -, -, hk⟩ := get (by decide) h; cases hk; exact hm _ rfl
  | disjoint h hm => obtain ⟨c, -, -, hk⟩ := get (by decide) h; cases hk; exact hm _ rfl
  | lessThan h hm => obtain ⟨c, -, -, hk⟩ := get (by decide) h; cases hk; exact hm _ rfl
  | lessThanOrEquals h hm => obtain ⟨c, -, -, hk⟩ := get (by decide) h; cases hk; exact hm _ rfl
  | minCount h hm => obtain ⟨c, -, -, hk⟩ := get (by decide) h; cases hk; exact hm _ ((isInt_int H.inv).2 rfl)
  | maxCount h hm => obtain ⟨c, -, -, hk⟩ := get (by decide) h; cases hk; exact hm _ ((isInt_int H.inv).2 rfl)
  | minLength h hm => obtain ⟨c, -, -, hk⟩ := get (by decide) h; cases hk; exact hm _ ((isInt_int H.inv).2 rfl)
  | maxLength h hm => obtain ⟨c, -, -, hk⟩ := get (by decide) h; cases hk; exact hm _ ((isInt_int H.inv).2 rfl)
  | minInclusive h hm =>
    obtain ⟨c, -, hp, hk⟩ := get (by decide) h
    cases hk
    cases hp with | minInclusive hp => exact hm _ ((isConc_plain hp).2 rfl)
  | minExclusive h hm =>
    obtain ⟨c, -, hp, hk⟩ := get (by decide) h
    cases hk
    cases hp with | minExclusive hp => exact hm _ ((isConc_plain hp).2 rfl)
  | maxInclusive h hm =>
    obtain ⟨c, -, hp, hk⟩ := get (by decide) h
    cases hk
    cases hp with | maxInclusive hp => exact hm _ ((isConc_plain hp).2 rfl)
  | maxExclusive h hm =>
    obtain ⟨c, -, hp, hk⟩ := get (by decide) h
    cases hk
    cases hp with | maxExclusive hp => exact hm _ ((isConc_plain hp).2 rfl)
  | pattern h hm => obtain ⟨c, -, -, hk⟩ := get (by decide) h; cases hk; exact hm _ ((isText_text H.inv).2 rfl)
  | patterns h h' hne =>
    obtain ⟨c, hc, -, hk⟩ := get (by decide) h
    obtain ⟨c', hc', -, hk'⟩ := get (by decide) h'
    cases hk
    cases hk'
    cases once_of H hx hc hc' rfl (by simp [Comp.key])
    exact hne rfl
  | qualifiedDisjoint h hm =>
    obtain ⟨c, -, -, hk⟩ := get (by decide) h
    cases hk with
    | qdis =>
    obtain ⟨c, hc, -⟩ := H.inv.truth _
    exact hm _ (.lit hc)
  | property h => exact not_disjoint H hx h
  | cousin h => exact not_disjoint H hx h
  | hasValue h hm =>
    obtain ⟨c, -, hp, hk⟩ := get (by decide) h
    cases hk with
    | hasIri => exact hm _ ⟨.iri, nofun⟩
    | hasLit => cases hp with | hasLit hp => exact hm _ ⟨(means_plain hp).2 rfl, nofun⟩
  | ignored h => exact lacks_iff H hx (v := .ignoredProperties) (by decide) (fun _ _ h => by cases h) h
  | languageIn h => exact lacks_iff H hx (v := .languageIn) (by decide) (fun _ _ h => by cases h) h
  | and h => exact lacks_iff H hx (v := .and) (by decide) (fun _ _ h => by cases h) h
  | or h => exact lacks_iff H hx (v := .or) (by decide) (fun _ _ h => by cases h) h
  | xone h => exact lacks_iff H hx (v := .xone) (by decide) (fun _ _ h => by cases h) h
  | isIn h => exact lacks_iff H hx (v := .isIn) (by decide) (fun _ _ h => by cases h) h
  | sparql h => exact lacks_iff H hx (v := .sparql) (by decide) (fun _ _ h => by cases h) h

theorem written_good (hx : x ∈ S) : Good g E (x.base.id.term O) where
  plain := lacks_of H hx .ignoredProperties (by decide) (fun _ _ h => by cases h)
  well := {
    comps := not_malformed H hx
    iris := by
      intro p hp y hy
      have hp' : p ∈ [Voc.targetClass, .targetNode, .targetSubjectsOf, .targetObjectsOf] := by
        simp only [List.mem_cons, List.not_mem_nil, or_false] at hp ⊢
        tauto
      obtain ⟨τ, -, h⟩ := (has_target H hx hp').1 hy
      cases τ <;> cases h <;> first | exact ⟨_, rfl⟩ | exact absurd hp (by decide)
    objs := by
      intro p hp y hy
      simp only [List.mem_cons, List.not_mem_nil, or_false] at hp
      rcases hp with rfl | rfl
      · obtain ⟨τ, -, h⟩ := (has_target H hx (by decide)).1 hy
        cases τ <;> cases h
        exact ⟨_, (means_term H.inv).2 rfl⟩
      · obtain ⟨p, -, rfl⟩ := (has_property H hx).1 hy
        exact ⟨_, (means_term H.inv).2 rfl⟩ }
  tags := fun ⟨_, _, _, h, _⟩ => lacks_iff H hx (v := .languageIn) (by decide) (fun _ _ h => by cases h) h
  path v h := by
    obtain ⟨s, i, rfl, -, rfl⟩ := (has_path H hx).1 h
    exact ⟨_, .pred⟩

theorem sev_iri {v w : Sev} (hv : ∀ i, v = .generic i → IsSev i v) (h : IsSev v.iri w) : w = v := by
  cases v with
  | generic i =>
    rcases hv i rfl with ⟨u, rfl, hu⟩ | ⟨-, hn⟩
    · simp [sevs] at hu
    · rcases h with ⟨u, hu, hm⟩ | ⟨rfl, -⟩
      · exact (hn u w hu hm).elim
      · rfl
  | _ =>
    rcases h with ⟨u, hu, hm⟩ | ⟨-, hn⟩
    · cases hu
      simpa [sevs] using hm
    · exact (hn _ _ rfl (by simp [sevs]; rfl)).elim

theorem iri_sev {v : Sev} (hv : ∀ i, v = .generic i → IsSev i v) : IsSev v.iri v := by
  cases v with
  | generic i => exact hv i rfl
  | _ => exact .inl ⟨_, rfl, by simp [sevs]⟩

theorem written_alike (hx : x ∈ S) {y : NodeShape C} (h : IsShape g E (x.base.id.term O) y) : Alike x.base y where
  id := ((means_term H.inv).1 h.id).symm
  severity := by
    have hs := h.severity
    cases hy : y.severity with
    | some v =>
      rw [hy] at hs
      obtain ⟨i, hi, hv⟩ := hs
      obtain ⟨w, hw, he⟩ := (has_severity H hx).1 hi
      cases he
      rw [hw, sev_iri H (fun i hi => H.simple.severity x hx w i hw hi) hv]
    | none =>
      rw [hy] at hs
      cases hw : x.base.severity with
      | none => rfl
      | some w =>
        exact (hs w ⟨_, (has_severity H hx).2 ⟨w, hw, rfl⟩,
          iri_sev H fun i hi => H.simple.severity x hx w i hw hi⟩).elim
  targets τ := by
    rw [h.targets]
    constructor
    · intro hτ
      cases τ with
      | cls i => exact .cls ((has_target H hx (by decide)).2 ⟨_, hτ, rfl⟩)
      | subjectsOf i => exact .subjectsOf ((has_target H hx (by decide)).2 ⟨_, hτ, rfl⟩)
      | objectsOf i => exact .objectsOf ((has_target H hx (by decide)).2 ⟨_, hτ, rfl⟩)
      | node o => exact .node ((has_target H hx (by decide)).2 ⟨_, hτ, rfl⟩) ((means_term H.inv).2 rfl)
      | implicit o =>
        cases H.simple.implicit x hx o hτ
        have hc := (has_class H hx).2 hτ
        have hm := (means_term (o := x.base.id) H.inv).2 rfl
        cases x with
        | node s =>
          exact .implicit (v := .NodeShape) hc (by decide) ((has_type H hx (by decide)).2 (.inl ⟨rfl, _, rfl⟩)) hm
        | prop s =>
          exact .implicit (v := .PropertyShape) hc (by decide) ((has_type H hx (by decide)).2 (.inr ⟨rfl, _, rfl⟩)) hm
    · intro hτ
      cases hτ with
      | cls h =>
        obtain ⟨τ, hτ, he⟩ := (has_target H hx (by decide)).1 h
        cases τ <;> cases he
        exact hτ
      | subjectsOf h =>
        obtain ⟨τ, hτ, he⟩ := (has_target H hx (by decide)).1 h
        cases τ <;> cases he
        exact hτ
      | objectsOf h =>
        obtain ⟨τ, hτ, he⟩ := (has_target H hx (by decide)).1 h
        cases τ <;> cases he
        exact hτ
      | node h hm =>
        obtain ⟨τ, hτ, he⟩ := (has_target H hx (by decide)).1 h
        cases τ <;> cases he
        cases (means_term H.inv).1 hm
        exact hτ
      | implicit h _ _ hm =>
        cases (means_term H.inv).1 hm
        exact (has_class H hx).1 h
  props o := by
    rw [h.props]
    constructor
    · exact fun ho => ⟨_, (has_property H hx).2 ⟨o, ho, rfl⟩, (means_term H.inv).2 rfl⟩
    · rintro ⟨t, ht, hm⟩
      obtain ⟨p, hp, rfl⟩ := (has_property H hx).1 ht
      cases (means_term H.inv).1 hm
      exact hp
  comps c := by
    have nil : ∀ {c}, Declared g E (x.base.id.term O) c → c ∈ y.comps →
        ∀ o mn mx d ss, c = .qualified o mn mx d ss → ss = [] := by
      rintro c hd - o mn mx d ss rfl
      cases hd with
      | qualified _ _ _ _ _ hs =>
        cases ss with
        | nil => rfl
        | cons a ss => exact (not_disjoint H hx ((hs a).1 (by simp)).1).elim
    constructor
    · intro hc
      have hd : Declared g E (x.base.id.term O) c := by
        refine (declared_iff H hx ?_).2 hc
        rintro o mn mx d ss rfl
        cases kept_of H hx hc
        rfl
      obtain ⟨c', hc', hs⟩ := h.comps.2 c hd
      cases hs with
      | refl => exact hc'
      | qualified hs =>
        cases nil (h.comps.1 _ hc') hc' _ _ _ _ _ rfl
        cases kept_of H hx hc
        exact hc'
    · intro hc
      have hd := h.comps.1 c hc
      exact (declared_iff H hx (nil hd hc)).1 hd

theorem written_says (hx : x ∈ S) {y : Shape C} (h : Says g E (x.base.id.term O) y) : x.Alike y := by
  cases y with
  | node s =>
    cases x with
    | node s' => exact .node (written_alike H hx h.2)
    | prop s' =>
      obtain ⟨i, hi⟩ := (H.simple.prop s' hx).1
      exact (h.1 _ ((has_path H hx).2 ⟨s', i, rfl, hi, rfl⟩)).elim
  | prop s =>
    obtain ⟨⟨v, hv, hp⟩, h2, h3⟩ := h
    obtain ⟨s', i, rfl, hi, rfl⟩ := (has_path H hx).1 hv
    refine .prop (written_alike H hx h2) ?_ ?_
    · generalize s.path = q at hp ⊢
      cases hp
      exact hi
    · rw [(H.simple.prop s' hx).2.2]
      cases hr : s.reifier with
      | none => rfl
      | some r =>
        rw [hr] at h3
        obtain ⟨⟨y, hy⟩, -⟩ := h3
        exact (lacks_iff H hx (v := .reifierShape) (by decide) (fun _ _ h => by cases h) hy).elim

end

end Rd

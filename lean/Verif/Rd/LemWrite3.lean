import Verif.Rd.LemWrite2

/-!
# Lemmas on how written schemas are read
-/

namespace Rd

section
variable {L C : Type} {O : Out L C} {E : Ext L C} {g : Gr L} {S : List (Shape C)} {x : Shape C}

theorem means_term (hI : Inverse E O) {o o' : Ob C} : E.Means (o.term O) o' ↔ o' = o := by
  constructor
  · intro h
    cases o with
    | lit c =>
      cases h with
      | lit h =>
        rw [hI.lit] at h
        cases h
        rfl
    | _ => cases h; rfl
  · rintro rfl
    cases o' with
    | lit c => exact .lit (hI.lit c)
    | iri i => exact .iri
    | bnode b => exact .bnode

theorem term_injective (hI : Inverse E O) {o o' : Ob C} (h : o.term O = o'.term O) : o = o' :=
  (means_term hI).1 (h ▸ (means_term hI).2 rfl)

theorem isInt_int (hI : Inverse E O) {n m : Int} : E.IsInt (.lit (O.int n)) m ↔ m = n := by
  constructor
  · rintro ⟨l, hl, h⟩
    cases hl
    rw [hI.int] at h
    cases h
    rfl
  · rintro rfl
    exact ⟨_, rfl, hI.int m⟩

theorem isBool_bool (hI : Inverse E O) {n m : Bool} : E.IsBool (.lit (O.bool n)) m ↔ m = n := by
  constructor
  · rintro ⟨l, hl, h⟩
    cases hl
    rw [hI.bool] at h
    cases h
    rfl
  · rintro rfl
    exact ⟨_, rfl, hI.bool m⟩

theorem isText_text (hI : Inverse E O) {n m : String} : E.IsText (.lit (O.text n)) m ↔ m = n := by
  constructor
  · rintro ⟨l, hl, h⟩
    cases hl
    rw [hI.text] at h
    exact h.symm
  · rintro rfl
    exact ⟨_, rfl, hI.text m⟩

theorem isConc_plain {c d : C} (hp : IsPlain E O c) : E.IsConc (plainLit O c) d ↔ d = c := by
  constructor
  · rintro ⟨l, hl, h⟩
    cases hl
    rw [hp] at h
    cases h
    rfl
  · rintro rfl
    exact ⟨_, rfl, hp⟩

theorem means_plain {c : C} (hp : IsPlain E O c) {o : Ob C} : E.Means (plainLit O c) o ↔ o = .lit c := by
  constructor
  · rintro (_ | _ | h)
    rw [hp] at h
    cases h
    rfl
  · rintro rfl
    exact .lit hp

variable (H : Holds E O S g)
include H

theorem kept_of (hx : x ∈ S) {c : Comp C} (hc : c ∈ x.base.comps) : Kept E O c := H.simple.kept x hx c hc

theorem lacks_of (hx : x ∈ S) (v : Voc) (hv : v ∉ special) (h : ∀ c o, ¬ KPut O c v o) :
    g.Lacks (x.base.id.term O) v := fun _ ho => let ⟨c, _, h'⟩ := (has_comp H hx hv).1 ho; h c _ h'

theorem lacks_all (v : Voc) (hv : v ∉ special) (h : ∀ c o, ¬ KPut O c v o) (t : Tm L) : g.Lacks t v := by
  intro o ho
  obtain ⟨x, hx, rfl, -⟩ := has_shape H ho
  exact lacks_of H hx v hv h o ho

theorem once_of (hx : x ∈ S) {c c' : Comp C} (hc : c ∈ x.base.comps) (hc' : c' ∈ x.base.comps) (hk : c.key = c'.key)
    (hm : c.key ∈ [Key.pattern, .closed, .qualified, .deactivated]) : c = c' := H.simple.once x hx c hc c' hc' hk hm

theorem not_disjoint (hx : x ∈ S) : ¬ Disjoint g E (x.base.id.term O) := by
  rintro ⟨y, c, h, hc, ht⟩
  obtain ⟨d, hd, hp⟩ := (has_comp H hx (by decide)).1 h
  cases hp with
  | @qdis o mn mx b =>
    obtain ⟨l, hl, hlc⟩ := hc
    cases hl
    obtain ⟨c', h1, h2⟩ := H.inv.truth b
    cases hlc.symm.trans h1
    rw [ht] at h2
    subst h2
    cases kept_of H hx hd with
    | qualified h => exact h rfl

theorem neat : g.Neat := by
  refine ⟨fun e he => ?_, fun t k hk o o' ho ho' => ?_⟩
  · obtain ⟨x, hx, v, o, -, rfl⟩ := (H.mem e).1 he
    exact term_nonlit H hx
  · obtain ⟨x, hx, rfl, -⟩ := has_shape H ho
    simp only [singles, List.mem_cons, List.not_mem_nil, or_false] at hk
    rcases hk with rfl | rfl | rfl | rfl | rfl | rfl | rfl | rfl | rfl | rfl | rfl | rfl | rfl
    case inr.inr.inr.inr.inr.inr.inr.inr.inr.inr.inl =>
      obtain ⟨v, hv, rfl⟩ := (has_severity H hx).1 ho
      obtain ⟨v', hv', rfl⟩ := (has_severity H hx).1 ho'
      cases hv.symm.trans hv'
      rfl
    case inr.inr.inr.inr.inr.inr.inr.inr.inr.inr.inr.inl =>
      obtain ⟨s, i, rfl, hi, rfl⟩ := (has_path H hx).1 ho
      obtain ⟨s', i', he, hi', rfl⟩ := (has_path H hx).1 ho'
      cases he
      cases hi.symm.trans hi'
      rfl
    all_goals
      obtain ⟨c, hc, h⟩ := (has_comp H hx (by decide)).1 ho
      obtain ⟨c', hc', h'⟩ := (has_comp H hx (by decide)).1 ho'
      cases h <;> cases h' <;> cases once_of H hx hc hc' rfl (by simp [Comp.key]) <;> rfl

theorem no_list {p : Voc} (hp : p ∈ [Voc.and, .or, .xone]) (t : Tm L) : g.Lacks t p := by
  simp only [List.mem_cons, List.not_mem_nil, or_false] at hp
  rcases hp with rfl | rfl | rfl
  · exact lacks_all H .and (by decide) (fun _ _ h => by cases h) t
  · exact lacks_all H .or (by decide) (fun _ _ h => by cases h) t
  · exact lacks_all H .xone (by decide) (fun _ _ h => by cases h) t

theorem no_badList : ∀ p ∈ [Voc.and, .or, .xone], ¬ BadList g p :=
  fun _ hp ⟨_, _, h, _⟩ => no_list H hp _ _ h

theorem candidate_iff {t : Tm L} : Candidate g t ↔ ∃ x ∈ S, t = x.base.id.term O := by
  constructor
  · intro h
    cases h with
    | type _ h =>
      obtain ⟨x, hx, rfl, -⟩ := has_shape H h
      exact ⟨x, hx, rfl⟩
    | target _ h =>
      obtain ⟨x, hx, rfl, -⟩ := has_shape H h
      exact ⟨x, hx, rfl⟩
    | member hp h => exact (no_list H hp _ _ h).elim
    | value hp h hl =>
      obtain ⟨x, hx, rfl, -⟩ := has_shape H h
      have href : ∀ c ∈ x.base.comps, ∀ o, Refers o c → ∃ y ∈ S, o.term O = y.base.id.term O := fun c hc o hr => by
        obtain ⟨y, hy, rfl⟩ := H.simple.refs x hx c hc o hr
        exact ⟨y, hy, rfl⟩
      simp only [List.mem_cons, List.not_mem_nil, or_false] at hp
      rcases hp with rfl | rfl | rfl | rfl | rfl
      · obtain ⟨c, hc, hk⟩ := (has_comp H hx (by decide)).1 h
        cases hk
        exact href _ hc _ .not
      · obtain ⟨p, hp, rfl⟩ := (has_property H hx).1 h
        obtain ⟨y, hy, rfl⟩ := H.simple.props x hx p hp
        exact ⟨y, hy, rfl⟩
      · obtain ⟨c, hc, hk⟩ := (has_comp H hx (by decide)).1 h
        cases hk
        exact href _ hc _ .qualified
      · obtain ⟨c, hc, hk⟩ := (has_comp H hx (by decide)).1 h
        cases hk
        exact href _ hc _ .node
      · obtain ⟨c, hc, hk⟩ := (has_comp H hx (by decide)).1 h
        cases hk
  · rintro ⟨x, hx, rfl⟩
    cases x with
    | node s => exact .type (v := .NodeShape) (by decide) ((has_type H hx (by decide)).2 (.inl ⟨rfl, _, rfl⟩))
    | prop s => exact .type (v := .PropertyShape) (by decide) ((has_type H hx (by decide)).2 (.inr ⟨rfl, _, rfl⟩))

/-- What a written shape declares are its components. -/
theorem declared_iff (hx : x ∈ S) {c : Comp C} (hn : ∀ o mn mx d ss, c = .qualified o mn mx d ss → ss = []) :
    Declared g E (x.base.id.term O) c ↔ c ∈ x.base.comps := by
  constructor
  · intro h
    cases h with
    | cls h hm =>
      obtain ⟨d, hd, hk⟩ := (has_comp H hx (by decide)).1 h
      cases hk
      cases (means_term H.inv).1 hm
      exact hd
    | not h hm =>
      obtain ⟨d, hd, hk⟩ := (has_comp H hx (by decide)).1 h
      cases hk
      cases (means_term H.inv).1 hm
      exact hd
    | node h hm =>
      obtain ⟨d, hd, hk⟩ := (has_comp H hx (by decide)).1 h
      cases hk
      cases (means_term H.inv).1 hm
      exact hd
    | minCount h hm =>
      obtain ⟨d, hd, hk⟩ := (has_comp H hx (by decide)).1 h
      cases hk
      cases (isInt_int H.inv).1 hm
      exact hd
    | maxCount h hm =>
      obtain ⟨d, hd, hk⟩ := (has_comp H hx (by decide)).1 h
      cases hk
      cases (isInt_int H.inv).1 hm
      exact hd
    | minLength h hm =>
      obtain ⟨d, hd, hk⟩ := (has_comp H hx (by decide)).1 h
      cases hk
      cases (isInt_int H.inv).1 hm
      exact hd
    | maxLength h hm =>
      obtain ⟨d, hd, hk⟩ := (has_comp H hx (by decide)).1 h
      cases hk
      cases (isInt_int H.inv).1 hm
      exact hd
    | uniqueLang h hm =>
      obtain ⟨d, hd, hk⟩ := (has_comp H hx (by decide)).1 h
      cases hk
      cases (isBool_bool H.inv).1 hm
      exact hd
    | deactivated h hm =>
      obtain ⟨d, hd, hk⟩ := (has_comp H hx (by decide)).1 h
      cases hk
      cases (isBool_bool H.inv).1 hm
      exact hd
    | minInclusive h hm =>
      obtain ⟨d, hd, hk⟩ := (has_comp H hx (by decide)).1 h
      cases hk
      cases kept_of H hx hd with
      | minInclusive hp => cases (isConc_plain hp).1 hm; exact hd
    | minExclusive h hm =>
      obtain ⟨d, hd, hk⟩ := (has_comp H hx (by decide)).1 h
      cases hk
      cases kept_of H hx hd with
      | minExclusive hp => cases (isConc_plain hp).1 hm; exact hd
    | maxInclusive h hm =>
      obtain ⟨d, hd, hk⟩ := (has_comp H hx (by decide)).1 h
      cases hk
      cases kept_of H hx hd with
      | maxInclusive hp => cases (isConc_plain hp).1 hm; exact hd
    | maxExclusive h hm =>
      obtain ⟨d, hd, hk⟩ := (has_comp H hx (by decide)).1 h
      cases hk
      cases kept_of H hx hd with
      | maxExclusive hp => cases (isConc_plain hp).1 hm; exact hd
    | hasValue h hm =>
      obtain ⟨d, hd, hk⟩ := (has_comp H hx (by decide)).1 h
      cases hk with
      | hasIri => cases hm.1; exact hd
      | hasLit =>
        cases kept_of H hx hd with
        | hasLit hp => cases (means_plain hp).1 hm.1; exact hd
    | @pattern _ p f h hm hf =>
      obtain ⟨d, hd, hk⟩ := (has_comp H hx (by decide)).1 h
      cases hk with
      | @pattern p' f' =>
      cases (isText_text H.inv).1 hm
      have hff : ∀ a, (∃ y, g.Has (x.base.id.term O) .flags y ∧ E.IsText y a) ↔ f' = some a := by
        intro a
        constructor
        · rintro ⟨y, hy, ha⟩
          obtain ⟨e, he, hk⟩ := (has_comp H hx (by decide)).1 hy
          cases hk
          cases (isText_text H.inv).1 ha
          cases once_of H hx hd he rfl (by simp [Comp.key])
          rfl
        · rintro rfl
          exact ⟨_, (has_comp H hx (by decide)).2 ⟨_, hd, .flags⟩, (isText_text H.inv).2 rfl⟩
      cases f with
      | some a => cases (hff a).1 hf; exact hd
      | none =>
        cases f' with
        | none => exact hd
        | some a => exact (hf a ((hff a).2 rfl)).elim
    | @qualified _ o mn mx d ss h hm h1 h2 h3 h4 =>
      obtain ⟨e, he, hk⟩ := (has_comp H hx (by decide)).1 h
      cases hk with
      | @qualified o' mn' mx' d' =>
      cases (means_term H.inv).1 hm
      cases hn _ _ _ _ _ rfl
      have e1 : ∀ a, (∃ y, g.Has (x.base.id.term O) .qualifiedMinCount y ∧ E.IsInt y a) ↔ mn' = some a := by
        intro a
        constructor
        · rintro ⟨y, hy, ha⟩
          obtain ⟨e', he', hk⟩ := (has_comp H hx (by decide)).1 hy
          cases hk
          cases (isInt_int H.inv).1 ha
          cases once_of H hx he he' rfl (by simp [Comp.key])
          rfl
        · rintro rfl
          exact ⟨_, (has_comp H hx (by decide)).2 ⟨_, he, .qmin⟩, (isInt_int H.inv).2 rfl⟩
      have e2 : ∀ a, (∃ y, g.Has (x.base.id.term O) .qualifiedMaxCount y ∧ E.IsInt y a) ↔ mx' = some a := by
        intro a
        constructor
        · rintro ⟨y, hy, ha⟩
          obtain ⟨e', he', hk⟩ := (has_comp H hx (by decide)).1 hy
          cases hk
          cases (isInt_int H.inv).1 ha
          cases once_of H hx he he' rfl (by simp [Comp.key])
          rfl
        · rintro rfl
          exact ⟨_, (has_comp H hx (by decide)).2 ⟨_, he, .qmax⟩, (isInt_int H.inv).2 rfl⟩
      have e3 : ∀ a, (∃ y, g.Has (x.base.id.term O) .qualifiedValueShapesDisjoint y ∧ E.IsBool y a) ↔ d' = some a := by
        intro a
        constructor
        · rintro ⟨y, hy, ha⟩
          obtain ⟨e', he', hk⟩ := (has_comp H hx (by decide)).1 hy
          cases hk
          cases (isBool_bool H.inv).1 ha
          cases once_of H hx he he' rfl (by simp [Comp.key])
          rfl
        · rintro rfl
          exact ⟨_, (has_comp H hx (by decide)).2 ⟨_, he, .qdis⟩, (isBool_bool H.inv).2 rfl⟩
      have key : ∀ {A : Type} {P : A → Prop} {a b : Option A}, (∀ z, P z ↔ b = some z) → Opt P a → a = b := by
        intro A P a b hb ha
        cases a with
        | some a => exact ((hb a).1 ha).symm
        | none =>
          cases b with
          | none => rfl
          | some b => exact (ha b ((hb b).2 rfl)).elim
      rw [key e1 h1, key e2 h2, key e3 h3]
      exact he
    | closed _ _ h => exact (lacks_of H hx .ignoredProperties (by decide) (fun _ _ h => by cases h) _ h).elim
    | justClosed h hm =>
      obtain ⟨d, hd, hk⟩ := (has_comp H hx (by decide)).1 h
      cases hk
      cases (isBool_bool H.inv).1 hm
      exact hd
    | nodeKind h => exact (lacks_of H hx .nodeKind (by decide) (fun _ _ h => by cases h) _ h).elim
    | languageIn h => exact (lacks_of H hx .languageIn (by decide) (fun _ _ h => by cases h) _ h).elim
    | and h => exact (lacks_of H hx .and (by decide) (fun _ _ h => by cases h) _ h).elim
    | or h => exact (lacks_of H hx .or (by decide) (fun _ _ h => by cases h) _ h).elim
    | xone h => exact (lacks_of H hx .xone (by decide) (fun _ _ h => by cases h) _ h).elim
    | isIn h => exact (lacks_of H hx .isIn (by decide) (fun _ _ h => by cases h) _ h).elim
    | sparql h => exact (lacks_of H hx .sparql (by decide) (fun _ _ h => by cases h) _ h).elim
    | _ h =>
      obtain ⟨d, hd, hk⟩ := (has_comp H hx (by decide)).1 h
      cases hk
      exact hd
  · intro hc
    have put : ∀ {v o}, v ∉ special → KPut O c v o → g.Has (x.base.id.term O) v o :=
      fun hv h => (has_comp H hx hv).2 ⟨c, hc, h⟩
    cases kept_of H hx hc with
    | cls => exact .cls (put (by decide) .cls) ((means_term H.inv).2 rfl)
    | datatype => exact .datatype (put (by decide) .datatype)
    | minCount => exact .minCount (put (by decide) .minCount) ((isInt_int H.inv).2 rfl)
    | maxCount => exact .maxCount (put (by decide) .maxCount) ((isInt_int H.inv).2 rfl)
    | minLength => exact .minLength (put (by decide) .minLength) ((isInt_int H.inv).2 rfl)
    | maxLength => exact .maxLength (put (by decide) .maxLength) ((isInt_int H.inv).2 rfl)
    | minExclusive hp => exact .minExclusive (put (by decide) .minExclusive) ((isConc_plain hp).2 rfl)
    | maxExclusive hp => exact .maxExclusive (put (by decide) .maxExclusive) ((isConc_plain hp).2 rfl)
    | minInclusive hp => exact .minInclusive (put (by decide) .minInclusive) ((isConc_plain hp).2 rfl)
    | maxInclusive hp => exact .maxInclusive (put (by decide) .maxInclusive) ((isConc_plain hp).2 rfl)
    | uniqueLang => exact .uniqueLang (put (by decide) .uniqueLang) ((isBool_bool H.inv).2 rfl)
    | equals => exact .equals (put (by decide) .equals)
    | disjoint => exact .disjoint (put (by decide) .disjoint)
    | lessThan => exact .lessThan (put (by decide) .lessThan)
    | lessThanOrEquals => exact .lessThanOrEquals (put (by decide) .lessThanOrEquals)
    | not => exact .not (put (by decide) .not) ((means_term H.inv).2 rfl)
    | node => exact .node (put (by decide) .node) ((means_term H.inv).2 rfl)
    | hasIri => exact .hasValue (put (by decide) .hasIri) ⟨.iri, nofun⟩
    | hasLit hp => exact .hasValue (put (by decide) .hasLit) ⟨(means_plain hp).2 rfl, nofun⟩
    | deactivated => exact .deactivated (put (by decide) .deactivated) ((isBool_bool H.inv).2 rfl)
    | closed =>
      exact .justClosed (put (by decide) .closed) ((isBool_bool H.inv).2 rfl) (lacks_of H hx .ignoredProperties (by decide) (fun _ _ h => by cases h))
    | @pattern p f =>
      refine .pattern (put (by decide) .pattern) ((isText_text H.inv).2 rfl) ?_
      cases f with
      | some f => exact ⟨_, put (by decide) .flags, (isText_text H.inv).2 rfl⟩
      | none =>
        rintro a ⟨y, hy, -⟩
        obtain ⟨e, he, hk⟩ := (has_comp H hx (by decide)).1 hy
        cases hk
        cases once_of H hx hc he rfl (by simp [Comp.key])
    | @qualified o mn mx d hd =>
      refine .qualified (put (by decide) .qualified) ((means_term H.inv).2 rfl) ?_ ?_ ?_ ?_
      · cases mn with
        | some n => exact ⟨_, put (by decide) .qmin, (isInt_int H.inv).2 rfl⟩
        | none =>
          rintro a ⟨y, hy, -⟩
          obtain ⟨e, he, hk⟩ := (has_comp H hx (by decide)).1 hy
          cases hk
          cases once_of H hx hc he rfl (by simp [Comp.key])
      · cases mx with
        | some n => exact ⟨_, put (by decide) .qmax, (isInt_int H.inv).2 rfl⟩
        | none =>
          rintro a ⟨y, hy, -⟩
          obtain ⟨e, he, hk⟩ := (has_comp H hx (by decide)).1 hy
          cases hk
          cases once_of H hx hc he rfl (by simp [Comp.key])
      · cases d with
        | some n => exact ⟨_, put (by decide) .qdis, (isBool_bool H.inv).2 rfl⟩
        | none =>
          rintro a ⟨y, hy, -⟩
          obtain ⟨e, he, hk⟩ := (has_comp H hx (by decide)).1 hy
          cases hk
          cases once_of H hx hc he rfl (by simp [Comp.key])
      · exact fun s => ⟨nofun, fun h => (not_disjoint H hx h.1).elim⟩

end

end Rd

import Verif.Conv.Spec

/-!
# Lemmas for the conversion of SHACL shapes
-/

namespace Conv

open Shexc (SE TE NC Value ObjVal IriRef Label Str)
open Spec

variable {T : Type}

theorem bind_ok {α β : Type} {x : Out α} {f : α → Out β} {b : β} : x.bind f = .ok b ↔ ∃ a, x = .ok a ∧ f a = .ok b := by
  cases x <;> simp [Out.bind]

theorem mapOut_ok {α β : Type} {f : α → Out β} : ∀ {as : List α} {bs : List β},
    mapOut f as = .ok bs ↔ List.Forall₂ (fun a b => f a = .ok b) as bs
  | [], bs => by cases bs <;> simp [mapOut]
  | a :: as, bs => by
    rw [mapOut, bind_ok]
    constructor
    · rintro ⟨b, hb, h⟩
      obtain ⟨bs', hbs, h⟩ := bind_ok.1 h
      cases h
      exact .cons hb (mapOut_ok.1 hbs)
    · intro h
      cases h with
      | cons hb hbs => exact ⟨_, hb, bind_ok.2 ⟨_, mapOut_ok.2 hbs, rfl⟩⟩

theorem forall2_exists {α β : Type} {R : α → β → Prop} : ∀ {as : List α}, (∀ a ∈ as, ∃ b, R a b) →
    ∃ bs, List.Forall₂ R as bs
  | [], _ => ⟨[], .nil⟩
  | a :: as, h => by
    obtain ⟨b, hb⟩ := h a (by simp)
    obtain ⟨bs, hbs⟩ := forall2_exists fun a' ha => h a' (List.mem_cons_of_mem _ ha)
    exact ⟨b :: bs, .cons hb hbs⟩

theorem forall2_left {α β : Type} {R : α → β → Prop} {as : List α} {bs : List β} (h : List.Forall₂ R as bs) :
    ∀ a ∈ as, ∃ b ∈ bs, R a b := by
  induction h with
  | nil => simp
  | cons hb _ ih =>
    intro a ha
    rcases List.mem_cons.1 ha with rfl | ha
    · exact ⟨_, by simp, hb⟩
    · obtain ⟨b, hm, hr⟩ := ih a ha
      exact ⟨b, by simp [hm], hr⟩

theorem component_iff (c : Comp) : (∃ e, component c = .ok e) ↔ CompOk c := by
  constructor
  · rintro ⟨e, h⟩
    cases c with
    | cls o => cases o <;> simp [component, classConstraint] at h; exact .cls _
    | datatype d => exact .datatype d
    | or => exact .or
    | other => simp [component] at h
  · rintro (c | d | _) <;> exact ⟨_, rfl⟩

theorem components_iff (cs : List Comp) : (∃ e, components cs = .ok e) ↔ ∀ c ∈ cs, CompOk c := by
  unfold components
  constructor
  · rintro ⟨e, h⟩ c hc
    obtain ⟨es, hes, _⟩ := bind_ok.1 h
    obtain ⟨e, _, he⟩ := forall2_left (mapOut_ok.1 hes) c hc
    exact (component_iff c).1 ⟨e, he⟩
  · intro h
    obtain ⟨es, hes⟩ := forall2_exists fun c hc => (component_iff c).2 (h c hc)
    exact ⟨es.head?, bind_ok.2 ⟨es, mapOut_ok.2 hes, rfl⟩⟩

theorem satValues {W : World T} {cs : List Str} {x : T} : Sat W (mkValues cs) x ↔ ∃ c ∈ cs, W.isIri c x := by
  constructor
  · intro h
    cases h with
    | nc h => cases h with
      | values h => cases h with
        | mk h hx =>
          simp only [List.mem_map] at h
          obtain ⟨c, hc, h⟩ := h
          cases h
          exact ⟨_, hc, hx⟩
  · rintro ⟨c, hc, hx⟩
    exact .nc (.values (.mk (List.mem_map.2 ⟨c, hc, rfl⟩) hx))

theorem mentions_tc {p q : Str} {e : Option SE} : Mentions (mkTc p e) q ↔ q = p := by
  constructor
  · intro h
    cases h; rfl
  · rintro rfl
    exact .tc

theorem mentions_each {ts : List TE} {q : Str} : Mentions (mkEach ts) q ↔ ∃ t ∈ ts, Mentions t q := by
  constructor
  · intro h
    cases h with
    | each h hp => exact ⟨_, h, hp⟩
  · rintro ⟨t, h, hp⟩
    exact .each h hp

theorem fits_tc {W : World T} {p : Str} {e : SE} {l : List (Str × T)} :
    Fits W (mkTc p (some e)) l ↔ ∃ x, l = [(p, x)] ∧ Sat W e x := by
  constructor
  · intro h
    cases h with
    | tc h => exact ⟨_, rfl, h⟩
  · rintro ⟨x, rfl, h⟩
    exact .tc h

theorem fits_any {W : World T} {p : Str} {l : List (Str × T)} :
    Fits W (mkTc p none) l ↔ ∃ x, l = [(p, x)] := by
  constructor
  · intro h
    cases h
    exact ⟨_, rfl⟩
  · rintro ⟨x, rfl⟩
    exact .any

theorem sat_shape {W : World T} {te : TE} {x : T} : Sat W (mkShape (some te)) x ↔
    ∃ l rest, (l ++ rest).Perm (W.arcs x) ∧ Fits W te l ∧ ∀ a ∈ rest, ¬ Mentions te a.1 := by
  constructor
  · intro h
    cases h with
    | shape hp h hr => exact ⟨_, _, hp, h, hr⟩
  · rintro ⟨l, rest, hp, h, hr⟩
    exact .shape hp h hr

theorem sat_empty {W : World T} {x : T} : Sat W (mkShape none) x := .empty

theorem sat_component {W : World T} {c : Comp} {e : SE} {cs : List Comp} {x : T} (h : component c = .ok e) :
    Sat W e x ↔ FirstHolds W (c :: cs) x := by
  cases c with
  | cls o =>
    cases o <;> simp [component, classConstraint] at h
    subst h
    rw [sat_shape]
    simp only [FirstHolds, OnlyType]
    constructor
    · rintro ⟨l, rest, hp, hf, hr⟩
      obtain ⟨t, rfl, ht⟩ := fits_tc.1 hf
      obtain ⟨c, hc, ht'⟩ := satValues.1 ht
      simp only [List.mem_singleton] at hc
      subst hc
      exact ⟨t, rest, hp, ht', fun a ha he => hr a ha (mentions_tc.2 he)⟩
    · rintro ⟨t, rest, hp, ht, hr⟩
      exact ⟨[(rdfType, t)], rest, hp, fits_tc.2 ⟨t, rfl, satValues.2 ⟨_, by simp, ht⟩⟩,
        fun a ha he => hr a ha (mentions_tc.1 he)⟩
  | datatype d =>
    cases h
    simp only [FirstHolds]
    constructor
    · intro h
      cases h with
      | nc h => cases h; assumption
    · exact fun h => .nc (.datatype h)
  | or => cases h; simpa [FirstHolds] using sat_empty
  | other => simp [component] at h

/-- What the triple expression of a property shape says. -/
def Says (s : PropShape) (t : TE) : Prop :=
  (∀ (T : Type) (W : World T) (l : List (Str × T)), Fits W t l ↔ ∃ a, l = [a] ∧ ArcHolds W s a) ∧
    ∀ p, Mentions t p ↔ s.path = some p

theorem property_says {s : PropShape} {t : TE} (h : property s = .ok t) : Says s t := by
  unfold property at h
  cases hp : s.path with
  | none => simp [hp] at h
  | some p =>
    simp only [hp] at h
    obtain ⟨e, he, h⟩ := bind_ok.1 h
    cases h
    obtain ⟨es, hes, he⟩ := bind_ok.1 he
    have hes := mapOut_ok.1 hes
    refine ⟨fun T W l => ?_, fun q => ?_⟩
    · cases hcs : s.comps with
      | nil =>
        rw [hcs] at hes
        cases hes
        cases he
        rw [List.head?_nil, fits_any]
        simp only [ArcHolds, hp, hcs, FirstHolds, and_true, Option.some.injEq]
        constructor
        · rintro ⟨x, rfl⟩; exact ⟨_, rfl, rfl⟩
        · rintro ⟨a, rfl, rfl⟩; exact ⟨a.2, rfl⟩
      | cons c cs =>
        rw [hcs] at hes
        cases hes with
        | cons hc _ =>
          cases he
          rw [List.head?_cons, fits_tc]
          simp only [ArcHolds, hp, hcs, Option.some.injEq, ← sat_component (cs := cs) hc]
          constructor
          · rintro ⟨x, rfl, hx⟩; exact ⟨_, rfl, rfl, hx⟩
          · rintro ⟨a, rfl, rfl, hx⟩; exact ⟨a.2, rfl, hx⟩
    · rw [mentions_tc, hp, Option.some.injEq]
      exact eq_comm

theorem property_iff (s : PropShape) : (∃ t, property s = .ok t) ↔ s.path ≠ none ∧ ∀ c ∈ s.comps, CompOk c := by
  unfold property
  cases hp : s.path with
  | none => simp
  | some p =>
    rw [← components_iff]
    simp only [ne_eq, reduceCtorEq, not_false_eq_true, true_and]
    constructor
    · rintro ⟨t, h⟩
      obtain ⟨e, he, _⟩ := bind_ok.1 h
      exact ⟨e, he⟩
    · rintro ⟨e, he⟩
      exact ⟨_, bind_ok.2 ⟨e, he, rfl⟩⟩

theorem propertyAt_ok {S : Schema} {i : Nat} {t : TE} (h : propertyAt S i = .ok t) : ∃ s, PropAt S i s ∧ Says s t := by
  unfold propertyAt at h
  split at h
  · cases h
  · next s hs =>
    obtain ⟨h1, h2⟩ := (property_iff s).1 ⟨t, h⟩
    exact ⟨s, ⟨hs, h1, h2⟩, property_says h⟩
  · cases h

theorem propertyAt_of {S : Schema} {i : Nat} {s : PropShape} (h : PropAt S i s) : ∃ t, propertyAt S i = .ok t := by
  unfold propertyAt
  rw [h.1]
  exact (property_iff s).2 h.2

theorem propsAt_ok {S : Schema} {is : List Nat} {ts : List TE} (h : List.Forall₂ (fun i t => propertyAt S i = .ok t) is ts) :
    ∃ ps, List.Forall₂ (PropAt S) is ps ∧ List.Forall₂ Says ps ts := by
  induction h with
  | nil => exact ⟨[], .nil, .nil⟩
  | cons h _ ih =>
    obtain ⟨s, h1, h2⟩ := propertyAt_ok h
    obtain ⟨ps, h3, h4⟩ := ih
    exact ⟨s :: ps, .cons h1 h3, .cons h2 h4⟩

theorem fitsAll_says {W : World T} {ps : List PropShape} {ts : List TE} (h : List.Forall₂ Says ps ts) :
    ∀ l, FitsAll W ts l ↔ List.Forall₂ (ArcHolds W) ps l := by
  induction h with
  | nil =>
    intro l
    constructor
    · intro h; cases h; exact .nil
    · intro h; cases h; exact .nil
  | cons hs _ ih =>
    intro l
    constructor
    · intro h
      cases h with
      | cons h hs' =>
        obtain ⟨a, rfl, ha⟩ := (hs.1 _ _ _).1 h
        exact .cons ha ((ih _).1 hs')
    · intro h
      cases h with
      | cons ha hs' => exact .cons (l := [_]) ((hs.1 _ _ _).2 ⟨_, rfl, ha⟩) ((ih _).2 hs')

theorem fitsAll_append {W : World T} {us : List TE} : ∀ {ts : List TE} {l : List (Str × T)},
    FitsAll W (ts ++ us) l ↔ ∃ a b, l = a ++ b ∧ FitsAll W ts a ∧ FitsAll W us b
  | [], l => by
    constructor
    · exact fun h => ⟨[], l, rfl, .nil, h⟩
    · rintro ⟨a, b, rfl, ha, hb⟩
      cases ha; exact hb
  | t :: ts, l => by
    constructor
    · intro h
      cases h with
      | cons h hs =>
        obtain ⟨a, b, rfl, ha, hb⟩ := fitsAll_append.1 hs
        exact ⟨_ ++ a, b, by simp, .cons h ha, hb⟩
    · rintro ⟨a, b, rfl, ha, hb⟩
      cases ha with
      | cons h hs =>
        rw [List.append_assoc]
        exact .cons h (fitsAll_append.2 ⟨_, b, rfl, hs, hb⟩)

theorem fits_each {W : World T} {ts : List TE} {l : List (Str × T)} : Fits W (mkEach ts) l ↔ FitsAll W ts l := by
  constructor
  · intro h
    cases h; assumption
  · exact .each

theorem mentions_says {ps : List PropShape} {ts : List TE} (h : List.Forall₂ Says ps ts) (q : Str) :
    (∃ t ∈ ts, Mentions t q) ↔ ∃ s ∈ ps, s.path = some q := by
  induction h with
  | nil => simp
  | cons hs _ ih => simp only [List.mem_cons, exists_eq_or_imp, hs.2 q, ih]

/-! ## Targets -/

theorem targetValue_iff (t : Target) : (∃ o, targetValue t = .ok o) ↔ TargetOk t := by
  unfold TargetOk
  constructor
  · rintro ⟨o, h⟩
    cases t with
    | cls c => cases c <;> simp [targetValue] at h; simp
    | wrong => simp [targetValue] at h
    | _ => simp
  · rintro ⟨h1, h2⟩
    cases t with
    | cls c =>
      obtain ⟨i, rfl⟩ := h2 c rfl
      exact ⟨_, rfl⟩
    | wrong => exact absurd rfl h1
    | _ => exact ⟨_, rfl⟩

theorem targetValue_some {t : Target} {c : Str} (h : targetValue t = .ok (some c)) : t = .cls (.iri c) := by
  cases t with
  | cls o => cases o <;> simp [targetValue] at h; subst h; rfl
  | wrong => simp [targetValue] at h
  | _ => simp [targetValue] at h

theorem targetValues_mem {ts : List Target} {os : List (Option Str)}
    (h : List.Forall₂ (fun t o => targetValue t = .ok o) ts os) (c : Str) :
    c ∈ os.filterMap id ↔ targetClasses ts c := by
  unfold targetClasses
  induction h with
  | nil => simp
  | @cons t o ts os ht _ ih =>
    have : o = some c ↔ .cls (.iri c) = t := by
      constructor
      · rintro rfl
        exact (targetValue_some ht).symm
      · rintro rfl
        cases ht; rfl
    simp only [List.mem_filterMap, List.mem_cons, exists_eq_or_imp, id] at ih ⊢
    rw [this, ih]

theorem targetDecls_iff (ts : List Target) : (∃ t, targetDecls ts = .ok t) ↔ ∀ t ∈ ts, TargetOk t := by
  unfold targetDecls
  constructor
  · rintro ⟨e, h⟩ t ht
    obtain ⟨os, hos, _⟩ := bind_ok.1 h
    obtain ⟨o, _, ho⟩ := forall2_left (mapOut_ok.1 hos) t ht
    exact (targetValue_iff t).1 ⟨o, ho⟩
  · intro h
    obtain ⟨os, hos⟩ := forall2_exists fun t ht => (targetValue_iff t).2 (h t ht)
    exact ⟨_, bind_ok.2 ⟨os, mapOut_ok.2 hos, rfl⟩⟩

theorem targetDecls_ok {ts : List Target} {t : TE} (h : targetDecls ts = .ok t) : ∃ cs,
    t = mkTc rdfType (some (mkValues cs)) ∧ ∀ c, c ∈ cs ↔ targetClasses ts c := by
  obtain ⟨os, hos, h⟩ := bind_ok.1 h
  cases h
  exact ⟨_, rfl, targetValues_mem (mapOut_ok.1 hos)⟩

theorem fits_targets {W : World T} {cs : List Str} {ts : List Target} (hcs : ∀ c, c ∈ cs ↔ targetClasses ts c)
    {l : List (Str × T)} : Fits W (mkTc rdfType (some (mkValues cs))) l ↔
      ∃ t c, l = [(rdfType, t)] ∧ targetClasses ts c ∧ W.isIri c t := by
  rw [fits_tc]
  constructor
  · rintro ⟨x, rfl, h⟩
    obtain ⟨c, hc, h⟩ := satValues.1 h
    exact ⟨x, c, rfl, (hcs c).1 hc, h⟩
  · rintro ⟨t, c, rfl, hc, h⟩
    exact ⟨t, rfl, satValues.2 ⟨c, (hcs c).2 hc, h⟩⟩

/-! ## Node shapes -/

theorem says_nil {ps : List PropShape} (h : List.Forall₂ Says ps []) : ps = [] := by cases h; rfl

theorem nodeShape_false {S : Schema} {s : NodeShape} {e : SE} (h : nodeShape false S s = .ok e) :
    ∃ ps, List.Forall₂ (PropAt S) s.props ps ∧
      ∀ (T : Type) (W : World T) x, Sat W e x ↔ Meaning W false s.targets ps x := by
  obtain ⟨ts, hts, h⟩ := bind_ok.1 h
  obtain ⟨ps, h1, h2⟩ := propsAt_ok (mapOut_ok.1 hts)
  refine ⟨ps, h1, fun T W x => ?_⟩
  simp only [Bool.false_eq_true, if_false, Out.ok.injEq] at h
  subst h
  unfold Meaning eachOpt
  cases ts with
  | nil =>
    cases says_nil h2
    simp only [List.isEmpty_nil, if_true]
    refine ⟨fun _ => ⟨[], [], W.arcs x, .refl _, .nil, by simp, by simp⟩, fun _ => sat_empty⟩
  | cons t ts =>
    simp only [List.isEmpty_cons, Bool.false_eq_true, if_false, sat_shape, fits_each, mentions_each]
    constructor
    · rintro ⟨l, rest, hp, hf, hr⟩
      refine ⟨l, [], rest, by simpa using hp, (fitsAll_says h2 l).1 hf, rfl, fun a ha => ⟨fun s hs he => ?_, by simp⟩⟩
      exact hr a ha ((mentions_says h2 _).2 ⟨s, hs, he⟩)
    · rintro ⟨l, m, rest, hp, hf, rfl, hr⟩
      refine ⟨l, rest, by simpa using hp, (fitsAll_says h2 l).2 hf, fun a ha hm => ?_⟩
      obtain ⟨s, hs, he⟩ := (mentions_says h2 _).1 hm
      exact (hr a ha).1 s hs he

theorem nodeShape_true {S : Schema} {s : NodeShape} {e : SE} (h : nodeShape true S s = .ok e) :
    (∀ t ∈ s.targets, TargetOk t) ∧ ∃ ps, List.Forall₂ (PropAt S) s.props ps ∧
      ∀ (T : Type) (W : World T) x, Sat W e x ↔ Meaning W true s.targets ps x := by
  obtain ⟨ts, hts, h⟩ := bind_ok.1 h
  obtain ⟨ps, h1, h2⟩ := propsAt_ok (mapOut_ok.1 hts)
  simp only [if_true] at h
  obtain ⟨t, ht, h⟩ := bind_ok.1 h
  refine ⟨(targetDecls_iff _).1 ⟨t, ht⟩, ps, h1, fun T W x => ?_⟩
  obtain ⟨cs, rfl, hcs⟩ := targetDecls_ok ht
  unfold Meaning
  unfold eachOpt at h
  cases ts with
  | nil =>
    cases says_nil h2
    simp only [List.isEmpty_nil, if_true, Out.ok.injEq] at h
    subst h
    simp only [sat_shape, fits_targets hcs, mentions_tc, if_true]
    constructor
    · rintro ⟨l, rest, hp, hf, hr⟩
      exact ⟨[], l, rest, by simpa using hp, .nil, hf, fun a ha => ⟨by simp, fun _ => hr a ha⟩⟩
    · rintro ⟨l, m, rest, hp, hl, hf, hr⟩
      cases hl
      exact ⟨m, rest, by simpa using hp, hf, fun a ha => (hr a ha).2 trivial⟩
  | cons t ts =>
    simp only [List.isEmpty_cons, Bool.false_eq_true, if_false] at h
    obtain ⟨te, hte, h⟩ := bind_ok.1 h
    cases h
    have hte : te = mkEach (t :: ts ++ [mkTc rdfType (some (mkValues cs))]) := by
      simp only [mkEach, mkTc, merge, Out.ok.injEq] at hte
      rw [← hte]; rfl
    subst hte
    have hone : ∀ b, FitsAll W [mkTc rdfType (some (mkValues cs))] b ↔ Fits W (mkTc rdfType (some (mkValues cs))) b := by
      intro b
      constructor
      · intro h
        cases h with
        | cons h hs => cases hs; simpa using h
      · intro h
        simpa using FitsAll.cons h .nil
    simp only [sat_shape, fits_each, mentions_each, fitsAll_append, hone, fits_targets hcs, if_true]
    constructor
    · rintro ⟨l, rest, hp, ⟨a, b, rfl, ha, hb⟩, hr⟩
      refine ⟨a, b, rest, hp, (fitsAll_says h2 a).1 ha, hb, fun c hc => ⟨fun s hs he => ?_, fun _ he => ?_⟩⟩
      · obtain ⟨u, hu, hm⟩ := (mentions_says h2 _).2 ⟨s, hs, he⟩
        exact hr c hc ⟨u, List.mem_append_left _ hu, hm⟩
      · exact hr c hc ⟨_, List.mem_append_right _ (List.mem_singleton.2 rfl), mentions_tc.2 he⟩
    · rintro ⟨l, m, rest, hp, hf, hm, hr⟩
      refine ⟨l ++ m, rest, hp, ⟨l, m, rfl, (fitsAll_says h2 l).2 hf, hm⟩, fun a ha => ?_⟩
      rintro ⟨u, hu, hmu⟩
      rcases List.mem_append.1 hu with hu | hu
      · obtain ⟨s, hs, he⟩ := (mentions_says h2 _).1 ⟨u, hu, hmu⟩
        exact (hr a ha).1 s hs he
      · rw [List.mem_singleton.1 hu] at hmu
        exact (hr a ha).2 trivial (mentions_tc.1 hmu)

theorem nodeShape_of {b : Bool} {S : Schema} {s : NodeShape} {ps : List PropShape}
    (h : List.Forall₂ (PropAt S) s.props ps) (ht : b = true → ∀ t ∈ s.targets, TargetOk t) :
    ∃ e, nodeShape b S s = .ok e := by
  obtain ⟨ts, hts⟩ := forall2_exists (R := fun i t => propertyAt S i = .ok t) (as := s.props) (by
    intro i hi
    obtain ⟨p, _, hp⟩ := forall2_left h i hi
    exact propertyAt_of hp)
  unfold nodeShape
  rw [mapOut_ok.2 hts]
  simp only [Out.bind]
  cases b with
  | false => exact ⟨_, rfl⟩
  | true =>
    obtain ⟨t, ht⟩ := (targetDecls_iff _).2 (ht rfl)
    obtain ⟨cs, rfl, _⟩ := targetDecls_ok ht
    rw [ht]
    unfold eachOpt
    cases ts with
    | nil => exact ⟨_, rfl⟩
    | cons u us => exact ⟨_, rfl⟩

theorem label_ok {o : Ob} {l : Label} : label o = .ok l ↔ LabelOf o l := by
  constructor
  · intro h
    cases o <;> simp [label] at h <;> subst h <;> constructor
  · rintro (i | b) <;> rfl

theorem convertShape_ok {b : Bool} {S : Schema} {s : NodeShape} {d : Label × SE × Bool} (h : convertShape b S s = .ok d) :
    d.2.2 = false ∧ ∃ ps, NodeOk b S s d.1 ps ∧
      ∀ (T : Type) (W : World T) x, Sat W d.2.1 x ↔ Meaning W b s.targets ps x := by
  obtain ⟨l, hl, h⟩ := bind_ok.1 h
  obtain ⟨e, he, h⟩ := bind_ok.1 h
  cases h
  refine ⟨rfl, ?_⟩
  cases b with
  | false =>
    obtain ⟨ps, h1, h2⟩ := nodeShape_false he
    exact ⟨ps, ⟨label_ok.1 hl, h1, by simp⟩, h2⟩
  | true =>
    obtain ⟨h0, ps, h1, h2⟩ := nodeShape_true he
    exact ⟨ps, ⟨label_ok.1 hl, h1, fun _ => h0⟩, h2⟩

theorem convertShape_of {b : Bool} {S : Schema} {s : NodeShape} {l : Label} {ps : List PropShape} (h : NodeOk b S s l ps) :
    ∃ d, convertShape b S s = .ok d := by
  obtain ⟨e, he⟩ := nodeShape_of h.2.1 h.2.2
  exact ⟨_, bind_ok.2 ⟨l, label_ok.2 h.1, bind_ok.2 ⟨e, he, rfl⟩⟩⟩

end Conv

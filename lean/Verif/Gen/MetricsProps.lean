import Verif.Gen.UnifiedProps

/-!
# Properties: the measure of conformance (C133)
-/

namespace Gen
variable {F : Type}

/-! ## Specification -/

/-- A type of a subject. -/
def HasType (ts : List UTriple) (s : UTerm) (c : Str) : Prop := ⟨s, rdfType, .iri c⟩ ∈ ts

/-- The values of a property of a node, each once. -/
def valuesOf (ts : List UTriple) (s : UTerm) (p : Str) : List UTerm :=
  (ts.filter fun t => t.subj = s ∧ t.pred = p).map (·.obj)

/-- A node conforms to a shape, which is taken as closed: for each property the number of values is allowed and all values
satisfy the constraints, and it has no other properties. -/
structure NodeConforms (O : Outside F) (ts : List UTriple) (s : UTerm) (shape : UShape) : Prop where
  number : ∀ p ∈ shape.props, UWithin (p.min, p.max) (valuesOf ts s p.iri).length
  value : ∀ p ∈ shape.props, ∀ o ∈ valuesOf ts s p.iri, ∀ c ∈ p.constraints, evalConstraint O (subjectType ts) c o = true
  closed : ∀ t ∈ ts, t.subj = s → t.pred = rdfType ∨ ∃ p ∈ shape.props, p.iri = t.pred

/-- The data conform: all subjects have a type that is a shape of the model, to which they conform. -/
def DataConforms (O : Outside F) (model : Str → Option UShape) (ts : List UTriple) : Prop :=
  ∀ t ∈ ts, ∃ c shape, HasType ts t.subj c ∧ model c = some shape ∧ NodeConforms O ts t.subj shape

/-! ## Lemmas -/

theorem subjectType_fold (s : UTerm) (c : Str) (ts : List UTriple) (acc : Option Str)
    (hu : ∀ t ∈ ts, t.subj = s → t.pred = rdfType → t.obj = .iri c) (hacc : acc = none ∨ acc = some c) :
    ts.foldl (fun a t => if t.pred = rdfType ∧ t.subj = s then match t.obj with
      | .iri c => some c
      | _ => a else a) acc =
    if ∃ t ∈ ts, t.subj = s ∧ t.pred = rdfType then some c else acc := by
  induction ts generalizing acc with
  | nil => simp
  | cons t ts ih =>
    rw [List.foldl_cons]
    have hu' : ∀ t ∈ ts, t.subj = s → t.pred = rdfType → t.obj = .iri c := fun t h => hu t (List.mem_cons_of_mem _ h)
    by_cases h : t.pred = rdfType ∧ t.subj = s
    · have ho := hu t List.mem_cons_self h.2 h.1
      have hex : ∃ t' ∈ t :: ts, t'.subj = s ∧ t'.pred = rdfType := ⟨t, List.mem_cons_self, h.2, h.1⟩
      rw [if_pos h, ho, if_pos hex]
      refine (ih (some c) hu' (Or.inr rfl)).trans ?_
      split <;> rfl
    · rw [if_neg h, ih acc hu' hacc]
      have : (∃ t' ∈ t :: ts, t'.subj = s ∧ t'.pred = rdfType) ↔ ∃ t' ∈ ts, t'.subj = s ∧ t'.pred = rdfType := by
        simp only [List.mem_cons, exists_eq_or_imp]
        tauto
      simp only [this]

theorem subjectType_eq {ts : List UTriple} {s : UTerm} {c : Str} (h : HasType ts s c)
    (hu : ∀ t ∈ ts, t.subj = s → t.pred = rdfType → t.obj = .iri c) : subjectType ts s = some c := by
  have := subjectType_fold s c ts none hu (Or.inl rfl)
  rw [if_pos ⟨_, h, rfl, rfl⟩] at this
  exact this

theorem subjectType_none {ts : List UTriple} {s : UTerm} (h : ∀ t ∈ ts, t.subj = s → t.pred ≠ rdfType) :
    subjectType ts s = none := by
  have := subjectType_fold s [] ts none (fun t ht hs hp => absurd hp (h t ht hs)) (Or.inl rfl)
  rw [if_neg (by rintro ⟨t, ht, hs, hp⟩; exact h t ht hs hp)] at this
  exact this

theorem outgoing_eq (ts : List UTriple) (s : UTerm) (p : Str) (hp : p ≠ rdfType) :
    outgoingCount ts s p = (valuesOf ts s p).length := by
  rw [outgoingCount, valuesOf, List.length_map]
  congr 1
  refine List.filter_congr fun t _ => ?_
  simp only [decide_eq_decide]
  constructor
  · rintro ⟨-, h⟩
    exact h
  · rintro ⟨h1, rfl⟩
    exact ⟨hp, h1, rfl⟩

theorem mem_valuesOf {ts : List UTriple} {s : UTerm} {p : Str} {o : UTerm} : o ∈ valuesOf ts s p ↔ ⟨s, p, o⟩ ∈ ts := by
  simp only [valuesOf, List.mem_map, List.mem_filter, decide_eq_true_eq]
  constructor
  · rintro ⟨t, ⟨ht, rfl, rfl⟩, rfl⟩
    exact ht
  · intro h
    exact ⟨_, ⟨h, rfl, rfl⟩, rfl⟩

theorem valuesOf_nodup {ts : List UTriple} (h : ts.Nodup) (s : UTerm) (p : Str) : (valuesOf ts s p).Nodup := by
  rw [valuesOf]
  refine List.Nodup.map_on ?_ (h.filter _)
  rintro ⟨a, b, c⟩ ha ⟨a', b', c'⟩ hb e
  have h1 := of_decide_eq_true (List.mem_filter.1 ha).2
  have h2 := of_decide_eq_true (List.mem_filter.1 hb).2
  simp only at h1 h2 e
  rw [h1.1, h1.2, h2.1, h2.2, e]

/-! ## C133 -/

/-- **C133** (partial). In data where each subject has exactly one type, all triples count as valid exactly if the data
conform to the shapes but for the minimal numbers of values; the shapes are taken as closed.

Missing: minimal numbers, which are not looked at (`C133_missing_refuted`), and subjects with more types, of which the last
in the order of the graph counts (`C133_types_refuted`). -/
theorem C133_valid_partial (O : Outside F) (model : Str → Option UShape) (ts : List UTriple)
    (htype : ∀ t ∈ ts, ∃ c, HasType ts t.subj c ∧ ∀ t' ∈ ts, t'.subj = t.subj → t'.pred = rdfType → t'.obj = .iri c)
    (hmodel : ∀ c shape, model c = some shape → (shape.props.map (·.iri)).Nodup ∧ ∀ p ∈ shape.props, p.iri ≠ rdfType) :
    (validTriples O model ts = ts.length ∧
      ∀ t ∈ ts, ∀ c shape, HasType ts t.subj c → model c = some shape →
        ∀ p ∈ shape.props, p.min.getD 0 ≤ (valuesOf ts t.subj p.iri).length) ↔
    DataConforms O model ts := by
  have hall : validTriples O model ts = ts.length ↔ ∀ t ∈ ts, countsValid O model ts t = true := by
    rw [validTriples, List.length_filter_eq_length_iff]
  rw [hall]
  constructor
  · rintro ⟨hv, hmin⟩ t ht
    obtain ⟨c, hc, hu⟩ := htype t ht
    have hst := subjectType_eq hc hu
    have h1 := hv _ hc
    simp only [countsValid, if_true] at h1
    obtain ⟨shape, hs⟩ := Option.isSome_iff_exists.1 h1
    refine ⟨c, shape, hc, hs, ?_⟩
    have hnon : ∀ t' ∈ ts, t'.subj = t.subj → t'.pred ≠ rdfType → ∃ p ∈ shape.props, p.iri = t'.pred ∧
        (∀ m, p.max = some m → (valuesOf ts t.subj p.iri).length ≤ m) ∧
        ∀ c ∈ p.constraints, evalConstraint O (subjectType ts) c t'.obj = true := by
      intro t' ht' hsub hp
      have h2 := hv t' ht'
      simp only [countsValid, if_neg hp, validTriple, hsub, hst, Option.bind_some, hs] at h2
      cases hf : shape.props.find? fun p => decide (p.iri = t'.pred) with
      | none => rw [hf] at h2; cases h2
      | some p =>
        rw [hf] at h2
        simp only [Bool.and_eq_true, List.all_eq_true] at h2
        have hpi : p.iri = t'.pred := by simpa using List.find?_some hf
        refine ⟨p, List.mem_of_find?_eq_some hf, hpi, ?_, h2.2⟩
        intro m hm
        have h3 := h2.1
        rw [hm] at h3
        simp only [decide_eq_true_eq] at h3
        rw [hpi, ← outgoing_eq _ _ _ hp]
        exact h3
    have huniq : ∀ p ∈ shape.props, ∀ o ∈ valuesOf ts t.subj p.iri,
        (∀ m, p.max = some m → (valuesOf ts t.subj p.iri).length ≤ m) ∧
        ∀ c ∈ p.constraints, evalConstraint O (subjectType ts) c o = true := by
      intro p hp o ho
      obtain ⟨p', hp', e, h3, h4⟩ := hnon _ (mem_valuesOf.1 ho) rfl ((hmodel c shape hs).2 p hp)
      have : p' = p := List.inj_on_of_nodup_map (hmodel c shape hs).1 hp' hp e
      subst this
      exact ⟨h3, h4⟩
    refine ⟨fun p hp => ⟨hmin t ht c shape hc hs p hp, fun m hm => ?_⟩, fun p hp o ho => (huniq p hp o ho).2, ?_⟩
    · cases hvl : valuesOf ts t.subj p.iri with
      | nil => simp
      | cons o l =>
        have := (huniq p hp o (by rw [hvl]; exact List.mem_cons_self)).1 m hm
        rwa [hvl] at this
    · intro t' ht' hsub
      by_cases hp : t'.pred = rdfType
      · exact Or.inl hp
      · obtain ⟨p, hp', e, _⟩ := hnon t' ht' hsub hp
        exact Or.inr ⟨p, hp', e⟩
  · intro h
    have hone : ∀ t ∈ ts, ∀ c shape, HasType ts t.subj c → model c = some shape → NodeConforms O ts t.subj shape := by
      intro t ht c shape hc hs
      obtain ⟨c', shape', hc', hs', hn⟩ := h t ht
      obtain ⟨c0, _, hu⟩ := htype t ht
      have e : UTerm.iri c' = .iri c := (hu _ hc' rfl rfl).trans (hu _ hc rfl rfl).symm
      cases e
      rw [hs] at hs'
      cases hs'
      exact hn
    refine ⟨fun t ht => ?_, fun t ht c shape hc hs p hp => ((hone t ht c shape hc hs).number p hp).1⟩
    obtain ⟨c, hc, hu⟩ := htype t ht
    obtain ⟨c', shape, hc', hs, hn⟩ := h t ht
    have e := hu _ hc' rfl rfl
    cases e
    have hst := subjectType_eq hc hu
    by_cases hp : t.pred = rdfType
    · rw [countsValid, if_pos hp, hu t ht rfl hp]
      simp [hs]
    · simp only [countsValid, if_neg hp, validTriple, hst, Option.bind_some, hs]
      rcases hn.closed t ht rfl with h' | ⟨p, hp', e⟩
      · exact absurd h' hp
      · have hsome : (shape.props.find? fun p => decide (p.iri = t.pred)).isSome := by
          rw [List.find?_isSome]
          exact ⟨p, hp', by simpa using e⟩
        obtain ⟨q, hq⟩ := Option.isSome_iff_exists.1 hsome
        have hqi : q.iri = t.pred := by simpa using List.find?_some hq
        have hqm := List.mem_of_find?_eq_some hq
        rw [hq]
        simp only [Bool.and_eq_true, List.all_eq_true]
        refine ⟨?_, fun k hk => hn.value q hqm t.obj (mem_valuesOf.2 (by rw [hqi]; exact ht)) k hk⟩
        cases hm : q.max with
        | none => rfl
        | some m =>
          simp only [decide_eq_true_eq]
          rw [outgoing_eq _ _ _ hp, ← hqi]
          exact (hn.number q hqm).2 m hm

/-- **C133** is false of the code for values that are missing: a node without a value that has to be there is fully
valid. -/
theorem C133_missing_refuted (O : Outside F) :
    let shape : UShape := ⟨['S'], [⟨['p'], [], some 1, some 1⟩]⟩
    let model : Str → Option UShape := fun c => if c = ['S'] then some shape else none
    let ts : List UTriple := [⟨.iri ['a'], rdfType, .iri ['S']⟩]
    validTriples O model ts = ts.length ∧ ¬ DataConforms O model ts := by
  refine ⟨rfl, fun h => ?_⟩
  obtain ⟨c, shape, hc, hs, hn⟩ := h _ List.mem_cons_self
  have e : c = ['S'] := by simpa [HasType] using hc
  subst e
  simp only [if_true, Option.some.injEq] at hs
  subst hs
  have := (hn.number _ List.mem_cons_self).1
  revert this
  decide

/-- **C133** is false of the code for nodes with two types: whether a triple is valid depends on the order of the graph. -/
theorem C133_types_refuted (O : Outside F) :
    let model : Str → Option UShape := fun c =>
      if c = ['S'] then some ⟨['S'], [⟨['p'], [], some 1, some 1⟩]⟩ else if c = ['T'] then some ⟨['T'], []⟩ else none
    let a : UTriple := ⟨.iri ['a'], rdfType, .iri ['S']⟩
    let b : UTriple := ⟨.iri ['a'], rdfType, .iri ['T']⟩
    let t : UTriple := ⟨.iri ['a'], ['p'], .iri ['x']⟩
    validTriples O model [a, b, t] = 2 ∧ validTriples O model [b, a, t] = 3 := by
  have hp : (['p'] : Str) ≠ rdfType := by decide
  constructor <;>
    simp [validTriples, countsValid, validTriple, subjectType, outgoingCount, hp]

/-- The hypotheses of `C133_valid_partial` hold of a graph, and it conforms. -/
example (O : Outside F) :
    let shape : UShape := ⟨['S'], [⟨['p'], [.kind .iri], some 1, some 1⟩]⟩
    let model : Str → Option UShape := fun c => if c = ['S'] then some shape else none
    let ts : List UTriple := [⟨.iri ['a'], rdfType, .iri ['S']⟩, ⟨.iri ['a'], ['p'], .iri ['x']⟩]
    DataConforms O model ts := by
  intro shape model ts
  have hp : (['p'] : Str) ≠ rdfType := by decide
  refine (C133_valid_partial O model ts ?_ ?_).1 ⟨?_, ?_⟩
  · intro t ht
    refine ⟨['S'], ?_, ?_⟩
    · simp only [ts, List.mem_cons, List.not_mem_nil, or_false] at ht
      rcases ht with rfl | rfl <;> simp [HasType, ts]
    · intro t' ht' _ hp'
      simp only [ts, List.mem_cons, List.not_mem_nil, or_false] at ht'
      rcases ht' with rfl | rfl
      · rfl
      · exact absurd hp' hp
  · intro c sh h
    simp only [model] at h
    split at h
    · cases h
      exact ⟨by simp [shape], by simp [shape, hp]⟩
    · cases h
  · simp [validTriples, countsValid, validTriple, subjectType, outgoingCount, hp, ts, model, shape, evalConstraint, kindHolds]
  · intro t ht c sh hc hs p hpp
    simp only [model] at hs
    split at hs
    · cases hs
      simp only [shape, List.mem_singleton] at hpp
      subst hpp
      have : t.subj = .iri ['a'] := by
        simp only [ts, List.mem_cons, List.not_mem_nil, or_false] at ht
        rcases ht with rfl | rfl <;> rfl
      rw [this]
      simp [valuesOf, ts, hp.symm]
    · cases hs

/-! ## Data that are made -/

/-- A term that is made, as a term of the graph. -/
def GTerm.lift : GTerm → UTerm
  | .iri s => .iri s
  | .lit v dt => .lit v dt

/-- A triple that is made, as a triple of the graph. -/
def GTriple.lift (t : GTriple) : UTriple := ⟨.iri t.subj, t.pred, t.obj.lift⟩

/-- A shape whose properties have a datatype, which is kept, no reference, bounds that can be met, and values that are made
with the constraints in mind. -/
structure UShape.Simple (O : Outside F) (R : Draws UConstraint) (s : UShape) : Prop where
  distinct : (s.props.map (·.iri)).Nodup
  notType : ∀ p ∈ s.props, p.iri ≠ rdfType
  datatype : ∀ p ∈ s.props, ∃ dt ∈ keptDatatypes, p.constraints.findSome? UConstraint.datatype? = some dt ∧
    (∀ r, .shape r ∉ p.constraints) ∧ ∀ types place v, R.field place p.iri dt p.constraints = some v →
      ∀ c ∈ p.constraints, evalConstraint O types c (.lit v dt) = true
  bounds : ∀ p ∈ s.props, ∀ m, p.max = some m → m < 2 ^ 31 ∧ p.min.getD 1 ≤ m

theorem count_max {R : Draws UConstraint} {st : Strategy} (hR : R.Lawful) {place : List Nat} {p : UProp} {i : Nat} {ig : Bool}
    {n m : Nat} (h : valueCount R st place p.info i ig = some n) (hm : p.max = some m)
    (hb : m < 2 ^ 31 ∧ p.min.getD 1 ≤ m) : n ≤ m := by
  have e1 : asI32 m = (m : Int) := by rw [asI32, if_pos hb.1]
  have e2 : ((p.min.map asI32).getD 1).toNat ≤ m := by
    cases hmin : p.min with
    | none => rw [hmin] at hb; simpa using hb.2
    | some a =>
      rw [hmin] at hb
      simp only [Option.getD_some] at hb
      simp only [Option.map_some, Option.getD_some]
      rw [asI32, if_pos (by omega)]
      simpa using hb.2
  have e3 : asUsize (m : Int) = m := by simp [asUsize]
  have hv : (valueBounds p.info.min p.info.max ig).1 ≤ m ∧ (valueBounds p.info.min p.info.max ig).2 = m := by
    have hlo : (if ig then 0 else ((p.min.map asI32).getD 1).toNat) ≤ m := by
      split
      · exact Nat.zero_le _
      · exact e2
    refine ⟨hlo, ?_⟩
    simp only [valueBounds, UProp.info, hm, Option.map_some, e1, e3]
    rw [if_neg (by omega)]
    exact Nat.max_eq_left hlo
  have hle : (valueBounds p.info.min p.info.max ig).1 ≤ (valueBounds p.info.min p.info.max ig).2 := by rw [hv.2]; exact hv.1
  exact hv.2 ▸ (choose_within (fun _ => hR.range _ _ _ hle) hle h).2

theorem find_unique {α : Type} {f : α → Str} {l : List α} (h : (l.map f).Nodup) {a : α} (ha : a ∈ l) :
    (l.find? fun x => decide (f x = f a)) = some a := by
  have hsome : (l.find? fun x => decide (f x = f a)).isSome := by
    rw [List.find?_isSome]
    exact ⟨a, ha, by simp⟩
  obtain ⟨b, hb⟩ := Option.isSome_iff_exists.1 hsome
  have := List.inj_on_of_nodup_map h (List.mem_of_find?_eq_some hb) ha (by simpa using List.find?_some hb)
  rw [hb, this]

theorem noShape {cs : List UConstraint} (h : ∀ r, .shape r ∉ cs) :
    cs.findSome? UConstraint.shape? = none ∧ cs.filterMap UConstraint.shape? = [] := by
  have : ∀ c ∈ cs, c.shape? = none := by
    intro c hc
    cases c with
    | shape r => exact absurd hc (h r)
    | _ => rfl
  exact ⟨List.findSome?_eq_none_iff.2 this, List.filterMap_eq_nil_iff.2 this⟩

/-- **C133** (partial), data that are made. If each property of the shapes has a datatype, which is kept, no reference, and
bounds that can be met, and the texts that are made for it satisfy its constraints, then all triples that are made from the
shapes count as valid: with every strategy and distribution, all random numbers, all configurations and also if texts are
made twice.

For the texts see C134 and C135. Missing: references, which get values that are too many (`C131_references_refuted`). -/
theorem C133_generated_partial (O : Outside F) {R : Draws UConstraint} (hR : R.Lawful) (st : Strategy) (cfg : Str → Config)
    (pim : Bool) (d : Distribution) (total : Nat) (us : List UShape) (ts : List GTriple)
    (h : generateData R st cfg pim d total (us.map UShape.info) = some ts) (hnames : (us.map (·.id)).Nodup)
    (hsimple : ∀ u ∈ us, u.Simple O R) (uts : List UTriple) (hnd : uts.Nodup) (huts : ∀ t, t ∈ uts ↔ ∃ g ∈ ts, g.lift = t) :
    validTriples O (fun c => us.find? fun u => u.id = c) uts = uts.length := by
  obtain ⟨rs, hrs, hmem, -⟩ := generate_mem h
  have hinfo : ∀ s ∈ us.map UShape.info, ∃ u ∈ us, s = u.info := by
    intro s hs
    obtain ⟨u, hu, rfl⟩ := List.mem_map.1 hs
    exact ⟨u, hu, rfl⟩
  have hdeps : ∀ u ∈ us, u.info.deps = [] := by
    intro u hu
    simp only [UShape.info, List.flatMap_eq_nil_iff]
    intro p hp
    obtain ⟨dt, _, _, e, _⟩ := (hsimple u hu).datatype p hp
    rw [(noShape e).2]
    rfl
  have hrs0 : rs = [] := by
    rw [List.eq_nil_iff_forall_not_mem]
    intro t ht
    obtain ⟨⟨s', k'⟩, hs', bs, hb, htb⟩ := ((collect_mem hrs).1 t).1 ht
    obtain ⟨⟨d', j⟩, hd, _⟩ := ((collect_mem hb).1 t).1 htb
    have := (zip_mem hd).1
    obtain ⟨u, hu, rfl⟩ := hinfo s' (zip_mem hs').1
    rw [hdeps u hu] at this
    cases this
  subst hrs0
  -- What is made, in terms of the shapes.
  have hmade : ∀ g ∈ ts, ∃ u ∈ us, ∃ k i, (u.info, k) ∈ (us.map UShape.info).zipIdx ∧
      ⟨entityIri u.id i, rdfType, .iri u.id⟩ ∈ ts ∧ g.subj = entityIri u.id i ∧
      (g = ⟨entityIri u.id i, rdfType, .iri u.id⟩ ∨ ∃ p ∈ u.props, ∃ j vs,
        (p.info, j) ∈ (selected R (cfg u.id) (i :: [0, k]) u.info).zipIdx ∧
        propValues R st (cfg u.id) pim (us.map UShape.info) (entityIri u.id i) (j :: i :: [0, k]) i p.info = some vs ∧
        g ∈ vs) := by
    intro g hg
    rcases (hmem g).1 hg with ⟨s, k, i, es, hs, hi, hes, ht⟩ | ht
    · obtain ⟨u, hu, rfl⟩ := hinfo s (zip_mem hs).1
      obtain ⟨he1, _⟩ := entity_mem hes
      have htype : (⟨entityIri u.id i, rdfType, .iri u.id⟩ : GTriple) ∈ ts :=
        (hmem _).2 (Or.inl ⟨_, k, i, es, hs, hi, hes, (he1 _).2 (Or.inl rfl)⟩)
      rcases (he1 g).1 ht with rfl | ⟨p, j, vs, hp, hv, hgv⟩
      · exact ⟨u, hu, k, i, hs, htype, rfl, Or.inl rfl⟩
      · have hpp : p ∈ u.info.props := (selected_sub hR (zip_mem hp).1).1
        obtain ⟨q, hq, rfl⟩ := List.mem_map.1 hpp
        refine ⟨u, hu, k, i, hs, htype, ?_, Or.inr ⟨q, hq, j, vs, hp, hv, hgv⟩⟩
        obtain ⟨dt, _, e, e', _⟩ := (hsimple u hu).datatype q hq
        simp only [propValues, UProp.info, e, (noShape e').1, Option.bind_eq_some_iff] at hv
        obtain ⟨n, _, hv⟩ := hv
        obtain ⟨vals, _, rfl⟩ := literals_mem hv
        obtain ⟨v, _, rfl⟩ := List.mem_map.1 hgv
        rfl
    · cases ht
  have hlit : ∀ u ∈ us, ∀ p ∈ u.props, ∀ k i j vs,
      propValues R st (cfg u.id) pim (us.map UShape.info) (entityIri u.id i) (j :: i :: [0, k]) i p.info = some vs →
      ∃ dt ∈ keptDatatypes, ∃ vals : List Str,
        (∀ v ∈ vals, ∀ types, ∀ c ∈ p.constraints, evalConstraint O types c (.lit v dt) = true) ∧
        vs = vals.map (fun v => ⟨entityIri u.id i, p.iri, .lit v dt⟩) ∧ ∀ m, p.max = some m → vals.length ≤ m := by
    intro u hu p hp k i j vs hv
    obtain ⟨dt, hk, e, e', hval⟩ := (hsimple u hu).datatype p hp
    refine ⟨dt, hk, ?_⟩
    obtain ⟨n, hn, hv⟩ := Option.bind_eq_some_iff.1 hv
    have e1 : p.info.shapeRef = none := (noShape e').1
    have e2 : p.info.datatype = some dt := e
    simp only [e1, e2] at hv
    obtain ⟨vals, hf, rfl⟩ := literals_mem hv
    refine ⟨vals, ?_, ?_, ?_⟩
    · intro v hv types c hc
      obtain ⟨a, _, ha⟩ := forall₂_back hf hv
      exact hval types _ v ha c hc
    · simp only [typed, if_pos hk]
      rfl
    · intro m hm
      rw [← hf.length_eq, List.length_range]
      exact count_max hR hn hm ((hsimple u hu).bounds p hp m hm)
  have hpos : ∀ u ∈ us, ∀ u' ∈ us, ∀ k k', (u.info, k) ∈ (us.map UShape.info).zipIdx →
      (u'.info, k') ∈ (us.map UShape.info).zipIdx → u.id = u'.id → u = u' ∧ k = k' := by
    intro u hu u' hu' k k' hk hk' e
    have : u = u' := List.inj_on_of_nodup_map hnames hu hu' e
    subst this
    refine ⟨rfl, zip_unique ?_ hk hk'⟩
    refine List.Nodup.of_map (fun s : ShapeInfo UConstraint => s.id) ?_
    rw [List.map_map]
    exact hnames
  have hmodel : ∀ u ∈ us, (us.find? fun v => decide (v.id = u.id)) = some u := fun u hu => find_unique hnames hu
  have htypes : ∀ u ∈ us, ∀ i, (⟨entityIri u.id i, rdfType, .iri u.id⟩ : GTriple) ∈ ts →
      subjectType uts (.iri (entityIri u.id i)) = some u.id := by
    intro u hu i ht
    refine subjectType_eq ((huts _).2 ⟨_, ht, rfl⟩) ?_
    intro t' ht' hsub hp
    obtain ⟨g, hg, rfl⟩ := (huts _).1 ht'
    obtain ⟨u', hu', k', i', hk', _, hs', hr⟩ := hmade g hg
    simp only [GTriple.lift, UTerm.iri.injEq] at hsub
    rw [hs'] at hsub
    obtain ⟨e, rfl⟩ := entityIri_inj hsub
    rcases hr with rfl | ⟨p, hpp, j, vs, _, hv, hgv⟩
    · simp only [GTriple.lift, GTerm.lift, e]
    · obtain ⟨dt, _, vals, _, rfl, _⟩ := hlit u' hu' p hpp k' i' j vs hv
      obtain ⟨v, _, rfl⟩ := List.mem_map.1 hgv
      exact absurd hp ((hsimple u' hu').notType p hpp)
  rw [validTriples, List.length_filter_eq_length_iff]
  intro t ht
  obtain ⟨g, hg, rfl⟩ := (huts _).1 ht
  obtain ⟨u, hu, k, i, hk, htype, hsub, hr⟩ := hmade g hg
  rcases hr with rfl | ⟨p, hp, j, vs, hj, hv, hgv⟩
  · simp only [countsValid, GTriple.lift, GTerm.lift, if_true, hmodel u hu, Option.isSome_some]
  · obtain ⟨dt, hkept, vals, hc, rfl, hmax⟩ := hlit u hu p hp k i j vs hv
    obtain ⟨v, hvv, rfl⟩ := List.mem_map.1 hgv
    have hpt := (hsimple u hu).notType p hp
    simp only [countsValid, GTriple.lift, GTerm.lift, if_neg hpt, validTriple, htypes u hu i htype, Option.bind_some,
      hmodel u hu]
    have hq : ∀ q, (∃ f : UProp → Bool, u.props.find? f = some q ∧ ∀ q, f q = true → q.iri = p.iri) → q = p := by
      rintro q ⟨f, hf, he⟩
      exact List.inj_on_of_nodup_map (hsimple u hu).distinct (List.mem_of_find?_eq_some hf) hp (he q (List.find?_some hf))
    split
    · rename_i hf
      exact absurd (by simp) (List.find?_eq_none.1 hf p hp)
    rename_i q hf
    obtain rfl := hq q ⟨_, hf, fun q h => of_decide_eq_true h⟩
    have hall : (q.constraints.all fun c => evalConstraint O (subjectType uts) c (.lit v dt)) = true :=
      List.all_eq_true.2 fun c hcm => hc v hvv (subjectType uts) c hcm
    rw [hall, Bool.and_true]
    cases hm : q.max with
    | none => rfl
    | some m =>
      refine decide_eq_true ?_
      show outgoingCount uts (.iri (entityIri u.id i)) q.iri ≤ m
      rw [outgoing_eq _ _ _ hpt]
      have hsubset : valuesOf uts (.iri (entityIri u.id i)) q.iri ⊆ vals.map fun v => UTerm.lit v dt := by
        intro o ho
        obtain ⟨g', hg', e⟩ := (huts _).1 (mem_valuesOf.1 ho)
        obtain ⟨u', hu', k', i', hk', _, hs', hr⟩ := hmade g' hg'
        simp only [GTriple.lift, UTriple.mk.injEq, UTerm.iri.injEq] at e
        obtain ⟨e1, e2, e3⟩ := e
        rw [hs'] at e1
        obtain ⟨e0, rfl⟩ := entityIri_inj e1
        obtain ⟨rfl, rfl⟩ := hpos u' hu' u hu k' k hk' hk e0
        rcases hr with rfl | ⟨p', hp', j', vs', hj', hv', hgv'⟩
        · exact absurd e2.symm hpt
        · obtain ⟨dt', _, vals', _, rfl, _⟩ := hlit u' hu' p' hp' k' i' j' vs' hv'
          obtain ⟨v', hv'', rfl⟩ := List.mem_map.1 hgv'
          have : p' = q := List.inj_on_of_nodup_map (hsimple u' hu').distinct hp' hp e2
          subst this
          have hnodup : (selected R (cfg u'.id) (i' :: [0, k']) u'.info).Nodup := by
            refine selected_nodup hR ?_
            refine List.Nodup.of_map (fun p : PropInfo UConstraint => p.iri) ?_
            simp only [UShape.info, List.map_map]
            exact (hsimple u' hu').distinct
          have hjj : j = j' := zip_unique hnodup hj hj'
          subst hjj
          rw [hv] at hv'
          have := Option.some.inj hv'
          have hmem' : (⟨entityIri u'.id i', p'.iri, .lit v' dt'⟩ : GTriple) ∈
              vals.map fun v => (⟨entityIri u'.id i', p'.iri, .lit v dt⟩ : GTriple) := by
            rw [this]
            exact hgv'
          obtain ⟨w, hw, e⟩ := List.mem_map.1 hmem'
          simp only [GTriple.mk.injEq, GTerm.lit.injEq, true_and] at e
          rw [← e3]
          exact List.mem_map.2 ⟨w, hw, by simp [GTerm.lift, e.1, e.2]⟩
      have hnd' := valuesOf_nodup hnd (.iri (entityIri u.id i)) q.iri
      have := (List.subperm_of_subset hnd' hsubset).length_le
      rw [List.length_map] at this
      exact this.trans (hmax m hm)

/-- Draws without a choice, with unified constraints. -/
def exDraws' : Draws UConstraint where
  keep := fun _ => true
  target := fun _ n => n
  shuffle := fun _ l => l
  range := fun _ lo _ => lo
  field := fun _ _ _ _ => some ['t']
  weighted := fun _ => 1

/-- Two shapes that are simple, of which data are made. -/
example (O : Outside F) :
    let us : List UShape :=
      [⟨['S'], [⟨['p'], [.datatype xsdString], some 1, some 3⟩]⟩, ⟨['T'], [⟨['q'], [.datatype xsdString], none, none⟩]⟩]
    ∃ ts, generateData exDraws' .maximum (fun _ => ⟨false, 0, .all, []⟩) false .equal 4 (us.map UShape.info) = some ts ∧
      ts.length = 12 ∧ ∀ u ∈ us, u.Simple O exDraws' := by
  refine ⟨_, rfl, rfl, ?_⟩
  have hk : xsdString ∈ keptDatatypes := by decide
  have hp : (['p'] : Str) ≠ rdfType := by decide
  have hq : (['q'] : Str) ≠ rdfType := by decide
  intro u hu
  simp only [List.mem_cons, List.not_mem_nil, or_false] at hu
  rcases hu with rfl | rfl
  · exact ⟨by simp, by simp [hp], by simpa [UConstraint.datatype?, evalConstraint] using hk, by simp⟩
  · exact ⟨by simp, by simp [hq], by simpa [UConstraint.datatype?, evalConstraint] using hk, by simp⟩

end Gen

import Verif.Gen.Props

/-!
# Properties: data made from schemas conform to them (C131)
-/

namespace Gen

section
variable {C : Type} {R : Draws C} {st : Strategy}

/-! ## Which triples are made -/

theorem generate_mem {cfg : Str → Config} {pim : Bool} {d : Distribution} {total : Nat} {shapes : List (ShapeInfo C)}
    {ts : List GTriple} (h : generateData R st cfg pim d total shapes = some ts) :
    ∃ rs, allRelations R st shapes (countOf shapes (share R d total shapes.length)) = some rs ∧
    (∀ t, t ∈ ts ↔ (∃ s k i es, (s, k) ∈ shapes.zipIdx ∧ i < share R d total shapes.length k s.id ∧
      entity R st cfg pim shapes s [0, k] i = some es ∧ t ∈ es) ∨ t ∈ rs) ∧
    ∀ s k i, (s, k) ∈ shapes.zipIdx → i < share R d total shapes.length k s.id →
      ∃ es, entity R st cfg pim shapes s [0, k] i = some es := by
  simp only [generateData, Option.bind_eq_some_iff, Option.map_eq_some_iff] at h
  obtain ⟨es, he, rs, hr, rfl⟩ := h
  obtain ⟨h1, h2⟩ := collect_mem he
  refine ⟨rs, hr, ?_, ?_⟩
  · intro t
    rw [List.mem_append, h1]
    refine or_congr ⟨?_, ?_⟩ Iff.rfl
    · rintro ⟨⟨s, k⟩, hsk, bs, hb, ht⟩
      obtain ⟨i, hi, es, hes, hte⟩ := ((collect_mem hb).1 t).1 ht
      exact ⟨s, k, i, es, hsk, List.mem_range.1 hi, hes, hte⟩
    · rintro ⟨s, k, i, es, hsk, hi, hes, hte⟩
      obtain ⟨bs, hb⟩ := h2 (s, k) hsk
      exact ⟨(s, k), hsk, bs, hb, ((collect_mem hb).1 t).2 ⟨i, List.mem_range.2 hi, es, hes, hte⟩⟩
  · intro s k i hsk hi
    obtain ⟨bs, hb⟩ := h2 (s, k) hsk
    exact (collect_mem hb).2 i (List.mem_range.2 hi)

theorem entity_mem {cfg : Str → Config} {pim : Bool} {shapes : List (ShapeInfo C)} {s : ShapeInfo C} {place : List Nat}
    {i : Nat} {es : List GTriple} (h : entity R st cfg pim shapes s place i = some es) :
    (∀ t, t ∈ es ↔ t = ⟨entityIri s.id i, rdfType, .iri s.id⟩ ∨ ∃ p k vs,
      (p, k) ∈ (selected R (cfg s.id) (i :: place) s).zipIdx ∧
      propValues R st (cfg s.id) pim shapes (entityIri s.id i) (k :: i :: place) i p = some vs ∧ t ∈ vs) ∧
    ∀ p k, (p, k) ∈ (selected R (cfg s.id) (i :: place) s).zipIdx → ∃ vs,
      propValues R st (cfg s.id) pim shapes (entityIri s.id i) (k :: i :: place) i p = some vs := by
  simp only [entity, Option.map_eq_some_iff] at h
  obtain ⟨bs, hb, rfl⟩ := h
  obtain ⟨h1, h2⟩ := collect_mem hb
  refine ⟨?_, fun p k hpk => h2 (p, k) hpk⟩
  intro t
  rw [List.mem_cons, h1]
  refine or_congr Iff.rfl ⟨?_, ?_⟩
  · rintro ⟨⟨p, k⟩, hpk, vs, hv, ht⟩
    exact ⟨p, k, vs, hpk, hv, ht⟩
  · rintro ⟨p, k, vs, hpk, hv, ht⟩
    exact ⟨(p, k), hpk, vs, hv, ht⟩

theorem literals_mem {subj : Str} {place : List Nat} {p : PropInfo C} {dt : Str} {cs : List C} {n : Nat}
    {vs : List GTriple} (h : literals R subj place p dt cs n = some vs) :
    ∃ vals : List Str, List.Forall₂ (fun i v => R.field (i :: place) p.iri dt cs = some v) (List.range n) vals ∧
      vs = vals.map fun v => ⟨subj, p.iri, typed v dt⟩ := by
  replace h := mapM_forall₂ h
  generalize List.range n = l at h
  induction h with
  | nil => exact ⟨[], .nil, rfl⟩
  | cons hab _ ih =>
    obtain ⟨vals, h1, rfl⟩ := ih
    obtain ⟨v, hv, rfl⟩ := Option.map_eq_some_iff.1 hab
    exact ⟨v :: vals, .cons hv h1, rfl⟩

theorem forall₂_back {α β : Type} {r : α → β → Prop} {l : List α} {m : List β} (h : List.Forall₂ r l m) {b : β}
    (hb : b ∈ m) : ∃ a ∈ l, r a b := by
  induction h with
  | nil => cases hb
  | cons hcd _ ih =>
    rcases List.mem_cons.1 hb with rfl | hb
    · exact ⟨_, List.mem_cons_self, hcd⟩
    · obtain ⟨a', ha', h⟩ := ih hb
      exact ⟨a', List.mem_cons_of_mem _ ha', h⟩

theorem forall₂_nodup {α β : Type} {r : α → β → Prop} (hr : ∀ a a' b, r a b → r a' b → a = a') {l : List α} {m : List β}
    (h : List.Forall₂ r l m) (hl : l.Nodup) : m.Nodup := by
  induction h with
  | nil => exact List.nodup_nil
  | cons hab hrest ih =>
    obtain ⟨h1, h2⟩ := List.nodup_cons.1 hl
    refine List.nodup_cons.2 ⟨?_, ih h2⟩
    intro hb
    obtain ⟨a', ha', hr'⟩ := forall₂_back hrest hb
    exact h1 (hr _ _ _ hab hr' ▸ ha')

theorem selected_nodup (hR : R.Lawful) {cfg : Config} {place : List Nat} {s : ShapeInfo C} (h : s.props.Nodup) :
    (selected R cfg place s).Nodup := by
  have hs : ∀ b, (split cfg s b).Nodup := fun b => h.filter _
  have hk : (keepSome R place (split cfg s false)).Nodup := by
    have : (keepSome R place (split cfg s false)).Sublist (split cfg s false) := by
      have h1 : ((split cfg s false).zipIdx.filter fun pk => R.keep (pk.2 :: place)).Sublist (split cfg s false).zipIdx :=
        List.filter_sublist
      have h2 := h1.map Prod.fst
      rwa [List.zipIdx_map_fst] at h2
    exact this.nodup (hs false)
  have hmem : ∀ p, p ∈ chosen R cfg place s → p ∈ split cfg s false := by
    intro p hp
    have hk : p ∈ keepSome R place (split cfg s false) → p ∈ split cfg s false := by
      intro hp
      obtain ⟨pk, hpk, rfl⟩ := List.mem_map.1 hp
      exact (zip_mem (List.mem_of_mem_filter hpk)).1
    rw [chosen] at hp
    cases hsel : cfg.selection <;> rw [hsel] at hp <;> simp only at hp
    · exact hk hp
    · exact (hR.shuffle _ _).mem_iff.1 (List.mem_of_mem_take hp)
    · exact hk hp
  have hc : (chosen R cfg place s).Nodup := by
    rw [chosen]
    cases hsel : cfg.selection <;> simp only
    · exact hk
    · exact (List.take_sublist _ _).nodup ((hR.shuffle _ _).nodup_iff.2 (hs false))
    · exact hk
  have hboth : (chosen R cfg place s ++ split cfg s true).Nodup := by
    refine List.nodup_append.2 ⟨hc, hs true, ?_⟩
    rintro a ha b hb rfl
    have h1 := (of_decide_eq_true (List.mem_filter.1 (hmem a ha)).2).2
    have h2 := (of_decide_eq_true (List.mem_filter.1 hb).2).2
    rw [h1] at h2
    cases h2
  simp only [selected]
  split
  · exact (List.take_sublist _ _).nodup ((hR.shuffle _ _).nodup_iff.2 hboth)
  · exact hboth

theorem zip_unique {α : Type} {l : List α} (h : l.Nodup) {a : α} {j k : Nat} (hj : (a, j) ∈ l.zipIdx)
    (hk : (a, k) ∈ l.zipIdx) : j = k := by
  have h1 := List.mk_mem_zipIdx_iff_getElem?.1 hj
  have h2 := List.mk_mem_zipIdx_iff_getElem?.1 hk
  obtain ⟨hj', e1⟩ := List.getElem?_eq_some_iff.1 h1
  obtain ⟨hk', e2⟩ := List.getElem?_eq_some_iff.1 h2
  exact (List.Nodup.getElem_inj_iff h).1 (e1.trans e2.symm)

theorem typed_inj {a b dt : Str} (h : typed a dt = typed b dt) : a = b := by
  simp only [typed, GTerm.lit.injEq] at h
  exact h.1

/-- In a schema without references, the values of a property come from this property only. -/
theorem flat_values (hR : R.Lawful) {cfg : Str → Config} {pim : Bool} {d : Distribution} {total : Nat}
    {shapes : List (ShapeInfo C)} {ts : List GTriple} (h : generateData R st cfg pim d total shapes = some ts)
    (hnames : (shapes.map (·.id)).Nodup) (hflat : ∀ s ∈ shapes, s.deps = [] ∧ ∀ p ∈ s.props, p.shapeRef = none)
    {s : ShapeInfo C} {k i : Nat} (hs : (s, k) ∈ shapes.zipIdx) (hi : i < share R d total shapes.length k s.id)
    (hprops : (s.props.map (·.iri)).Nodup) {p : PropInfo C} (hp : p ∈ s.props) (hp1 : p.iri ≠ rdfType) :
    (∀ o, (⟨entityIri s.id i, p.iri, o⟩ : GTriple) ∈ ts ↔ ∃ j vs,
      (p, j) ∈ (selected R (cfg s.id) (i :: [0, k]) s).zipIdx ∧
      propValues R st (cfg s.id) pim shapes (entityIri s.id i) (j :: i :: [0, k]) i p = some vs ∧
      (⟨entityIri s.id i, p.iri, o⟩ : GTriple) ∈ vs) ∧
    ∀ q j, (q, j) ∈ (selected R (cfg s.id) (i :: [0, k]) s).zipIdx → ∃ vs,
      propValues R st (cfg s.id) pim shapes (entityIri s.id i) (j :: i :: [0, k]) i q = some vs := by
  obtain ⟨rs, hrs, hmem, hall⟩ := generate_mem h
  have hrs0 : rs = [] := by
    rw [List.eq_nil_iff_forall_not_mem]
    intro t ht
    obtain ⟨⟨s', k'⟩, hs', bs, hb, htb⟩ := ((collect_mem hrs).1 t).1 ht
    obtain ⟨⟨d', j⟩, hd, _⟩ := ((collect_mem hb).1 t).1 htb
    have := (zip_mem hd).1
    rw [(hflat s' (zip_mem hs').1).1] at this
    cases this
  subst hrs0
  have hpos : ∀ s' k', (s', k') ∈ shapes.zipIdx → s'.id = s.id → s' = s ∧ k' = k := by
    intro s' k' hs' e
    have h1 := List.mk_mem_zipIdx_iff_getElem?.1 hs'
    have h2 := List.mk_mem_zipIdx_iff_getElem?.1 hs
    obtain ⟨hk', e1⟩ := List.getElem?_eq_some_iff.1 h1
    obtain ⟨hk, e2⟩ := List.getElem?_eq_some_iff.1 h2
    have : k' = k := by
      refine (List.Nodup.getElem_inj_iff hnames (hi := by simpa using hk') (hj := by simpa using hk)).1 ?_
      simp only [List.getElem_map, e1, e2, e]
    subst this
    exact ⟨e1.symm.trans e2, rfl⟩
  obtain ⟨es, hes⟩ := hall s k i hs hi
  obtain ⟨he1, he2⟩ := entity_mem hes
  have hvals : ∀ (s' : ShapeInfo C), s' ∈ shapes → ∀ place i' q j vs,
      (q, j) ∈ (selected R (cfg s'.id) (i' :: place) s').zipIdx →
      propValues R st (cfg s'.id) pim shapes (entityIri s'.id i') (j :: i' :: place) i' q = some vs →
      ∀ t ∈ vs, t.subj = entityIri s'.id i' ∧ t.pred = q.iri := by
    intro s' hs' place i' q j vs hq hv t ht
    have hq := (selected_sub hR (zip_mem hq).1).1
    have hnone := (hflat s' hs').2 q hq
    simp only [propValues, hnone, Option.bind_eq_some_iff] at hv
    obtain ⟨n, _, hv⟩ := hv
    cases hdt : q.datatype with
    | none => rw [hdt] at hv; cases hv; cases ht
    | some dt' =>
      rw [hdt] at hv
      obtain ⟨vals, _, rfl⟩ := literals_mem hv
      obtain ⟨v, _, rfl⟩ := List.mem_map.1 ht
      exact ⟨rfl, rfl⟩
  refine ⟨?_, he2⟩
  intro o
  rw [hmem]
  constructor
  · rintro (⟨s', k', i', es', hs', hi', hes', ht⟩ | ht)
    · rcases ((entity_mem hes').1 _).1 ht with ht | ⟨q, j, vs, hq, hv, ht⟩
      · simp only [GTriple.mk.injEq] at ht
        exact absurd ht.2.1 hp1
      · obtain ⟨e1, e2⟩ := hvals s' (zip_mem hs').1 [0, k'] i' q j vs hq hv _ ht
        obtain ⟨e3, rfl⟩ := entityIri_inj e1
        obtain ⟨rfl, rfl⟩ := hpos s' k' hs' e3.symm
        have hqp : q ∈ s'.props := (selected_sub hR (zip_mem hq).1).1
        have : p = q := List.inj_on_of_nodup_map hprops hp hqp e2
        subst this
        exact ⟨j, vs, hq, hv, ht⟩
    · cases ht
  · rintro ⟨j, vs, hq, hv, ht⟩
    exact Or.inl ⟨s, k, i, es, hs, hi, hes, (he1 _).2 (Or.inr ⟨p, j, vs, hq, hv, ht⟩)⟩

/-! ## C131 -/

/-- **C131** (partial). In a schema without references, each entity has for each property a number of values that the
bounds allow, all of them literals of its datatype: with every strategy and distribution, all random numbers, and every way
to select properties that need not be there.

The conditions: names are different; the property has its own predicate, a minimum and a datatype that is kept; the numbers
are those of C130; nothing is left out by the configuration; and the texts that are made for the property are different.

Missing: references, which get too many values (`C131_references_refuted`); texts that are made twice, of which the graph
has one (`C131_texts_refuted`); alternatives, of which all are made (`C131_oneOf_refuted`); values that are not of a
datatype (`C131_kinds_refuted`). -/
theorem C131_data_partial (hR : R.Lawful) (cfg : Str → Config) (pim : Bool) (d : Distribution) (total : Nat)
    (shapes : List (ShapeInfo C)) (ts : List GTriple) (h : generateData R st cfg pim d total shapes = some ts)
    (hnames : (shapes.map (·.id)).Nodup) (hflat : ∀ s ∈ shapes, s.deps = [] ∧ ∀ p ∈ s.props, p.shapeRef = none)
    (s : ShapeInfo C) (k i : Nat) (hs : (s, k) ∈ shapes.zipIdx) (hi : i < share R d total shapes.length k s.id)
    (hprops : (s.props.map (·.iri)).Nodup) (p : PropInfo C) (hp : p ∈ s.props) (hp1 : p.iri ≠ rdfType)
    (lo : Int) (hp2 : p.min = some lo) (dt : Str) (hp3 : p.datatype = some dt) (hp4 : dt ∈ keptDatatypes)
    (hp5 : (p.max = some (-1) ∧ lo ≤ 5) ∨ (0 ≤ p.max.getD 1 ∧ lo ≤ p.max.getD 1))
    (hcfg : (cfg s.id).ignoreMin = false ∧ (cfg s.id).maxProps = 0 ∧ p.iri ∉ (cfg s.id).excluded)
    (htexts : ∀ place a b v, R.field (a :: place) p.iri dt p.constraints = some v →
      R.field (b :: place) p.iri dt p.constraints = some v → a = b) :
    (∃ n, Count ts (entityIri s.id i) p.iri n ∧ Within p.min p.max n) ∧
    ∀ o, ⟨entityIri s.id i, p.iri, o⟩ ∈ ts → ∃ v, o = .lit v dt := by
  have hsmem := (zip_mem hs).1
  obtain ⟨hkey, he2⟩ := flat_values hR h hnames hflat hs hi hprops hp hp1
  have hsel := selected_nodup (cfg := cfg s.id) (place := i :: [0, k]) hR (hprops.of_map (f := fun p : PropInfo C => p.iri))
  by_cases hin : p ∈ selected R (cfg s.id) (i :: [0, k]) s
  · obtain ⟨j, hj⟩ := mem_zip hin
    obtain ⟨vs, hv⟩ := he2 p j hj
    have hkey : ∀ o, (⟨entityIri s.id i, p.iri, o⟩ : GTriple) ∈ ts ↔ (⟨entityIri s.id i, p.iri, o⟩ : GTriple) ∈ vs := by
      intro o
      rw [hkey o]
      constructor
      · rintro ⟨j', vs', hj', hv', ht⟩
        obtain rfl := zip_unique hsel hj hj'
        rw [hv] at hv'
        cases hv'
        exact ht
      · intro ht
        exact ⟨j, vs, hj, hv, ht⟩
    simp only [propValues, (hflat s hsmem).2 p hp, hp3, Option.bind_eq_some_iff] at hv
    obtain ⟨n, hn, hv⟩ := hv
    obtain ⟨vals, hvals', rfl⟩ := literals_mem hv
    have hnd : vals.Nodup := forall₂_nodup (r := fun i' v => R.field (i' :: j :: i :: [0, k]) p.iri dt p.constraints = some v)
      (fun a b v ha hb => htexts _ a b v ha hb) hvals' List.nodup_range
    have hlen : vals.length = n := by rw [← hvals'.length_eq, List.length_range]
    obtain ⟨n', hn', hw⟩ := C130_counts_partial hR st (j :: i :: [0, k]) p i (by
      rw [hp2, Option.getD_some]; exact hp5)
    rw [hcfg.1, hn'] at hn
    cases hn
    refine ⟨⟨n, ⟨vals.map fun v => typed v dt, ?_, by simp [hlen], ?_⟩, hw⟩, ?_⟩
    · exact hnd.map fun a b e => typed_inj e
    · intro o
      rw [hkey]
      simp only [List.mem_map, GTriple.mk.injEq, true_and]
    · intro o ho
      rw [hkey] at ho
      obtain ⟨v, _, e⟩ := List.mem_map.1 ho
      simp only [GTriple.mk.injEq, true_and] at e
      exact ⟨v, by rw [← e, typed, if_pos hp4]⟩
  · have hno : ∀ o, (⟨entityIri s.id i, p.iri, o⟩ : GTriple) ∉ ts := by
      intro o ho
      obtain ⟨j, vs, hj, _⟩ := (hkey o).1 ho
      exact hin (zip_mem hj).1
    have hlo : lo ≤ 0 := by
      by_contra hlo
      exact hin (selected_mandatory hp hcfg.2.2 hcfg.2.1 hcfg.1 (by rw [hp2]; simpa using hlo))
    refine ⟨⟨0, ⟨[], List.nodup_nil, rfl, fun o => by simpa using hno o⟩, ?_, ?_⟩, fun o ho => absurd ho (hno o)⟩
    · rw [hp2]; simpa using hlo
    · rcases hp5 with h5 | h5
      · exact Or.inl h5.1
      · exact Or.inr (by simpa using h5.1)

/-- **C131** is false of the code for references. A property with exactly one value, which is a reference to a shape that
has entities, gets two values in every entity: a nested one, and one of these entities. -/
theorem C131_references_refuted (cfg : Str → Config) (pim : Bool) (d : Distribution) (total : Nat)
    (shapes : List (ShapeInfo C)) (ts : List GTriple) (h : generateData R st cfg pim d total shapes = some ts)
    (s : ShapeInfo C) (k i : Nat) (hs : (s, k) ∈ shapes.zipIdx) (hi : i < share R d total shapes.length k s.id)
    (hnames : (shapes.map (·.id)).Nodup)
    (p : PropInfo C) (hp : p ∈ s.props) (target : Str) (hp1 : p.shapeRef = some target) (hp2 : p.min = some 1)
    (hp3 : p.max = some 1) (hd : ⟨target, p.iri, some 1, some 1⟩ ∈ s.deps)
    (t : ShapeInfo C) (j : Nat) (ht : (t, j) ∈ shapes.zipIdx) (htid : t.id = target)
    (hj : 0 < share R d total shapes.length j t.id)
    (hcfg : (cfg s.id).ignoreMin = false ∧ (cfg s.id).maxProps = 0 ∧ p.iri ∉ (cfg s.id).excluded) :
    ∃ a b, a ≠ b ∧ ⟨entityIri s.id i, p.iri, .iri a⟩ ∈ ts ∧ ⟨entityIri s.id i, p.iri, .iri b⟩ ∈ ts := by
  subst htid
  obtain ⟨rs, hrs, hmem, hall⟩ := generate_mem h
  obtain ⟨es, hes⟩ := hall s k i hs hi
  obtain ⟨he1, he2⟩ := entity_mem hes
  have hin : p ∈ selected R (cfg s.id) (i :: [0, k]) s :=
    selected_mandatory hp hcfg.2.2 hcfg.2.1 hcfg.1 (by rw [hp2]; simp)
  obtain ⟨l, hl⟩ := mem_zip hin
  obtain ⟨vs, hv⟩ := he2 p l hl
  have hone : ∀ place, valueCount R st place p i (cfg s.id).ignoreMin = some 1 := by
    intro place
    rw [hcfg.1, valueCount, hp2, hp3]
    cases st <;> rfl
  have hlink : (⟨entityIri s.id i, p.iri, .iri (nestedIri t.id i 0)⟩ : GTriple) ∈ vs := by
    simp only [propValues, hone, hp1, Option.bind_some] at hv
    obtain ⟨h1, h2⟩ := collect_mem hv
    rw [h1]
    obtain ⟨bs, hb⟩ := h2 0 (by simp)
    refine ⟨0, by simp, bs, hb, ?_⟩
    cases hf : shapes.find? fun s : ShapeInfo C => s.id = t.id with
    | none =>
      rw [hf] at hb
      cases hb
      simp
    | some t' =>
      rw [hf] at hb
      obtain ⟨x, _, rfl⟩ := Option.map_eq_some_iff.1 hb
      simp
  have hcount : ∀ (t : ShapeInfo C) (j : Nat), (t, j) ∈ shapes.zipIdx →
      countOf shapes (share R d total shapes.length) t.id = some (share R d total shapes.length j t.id) := by
    intro t j ht
    have hsome : (shapes.zipIdx.find? fun sk => decide (sk.1.id = t.id)).isSome := by
      rw [List.find?_isSome]
      exact ⟨(t, j), ht, by simp⟩
    obtain ⟨⟨t', j'⟩, hf⟩ := Option.isSome_iff_exists.1 hsome
    have h1 := List.mem_of_find?_eq_some hf
    have h2 : t'.id = t.id := by simpa using List.find?_some hf
    have h3 := List.mk_mem_zipIdx_iff_getElem?.1 h1
    have h4 := List.mk_mem_zipIdx_iff_getElem?.1 ht
    obtain ⟨hk', e1⟩ := List.getElem?_eq_some_iff.1 h3
    obtain ⟨hk, e2⟩ := List.getElem?_eq_some_iff.1 h4
    have : j' = j := by
      refine (List.Nodup.getElem_inj_iff hnames (hi := by simpa using hk') (hj := by simpa using hk)).1 ?_
      simp only [List.getElem_map, e1, e2, h2]
    subst this
    simp only [countOf, hf, Option.map_some]
  refine ⟨nestedIri t.id i 0, entityIri t.id (i % share R d total shapes.length j t.id), nested_ne _ _ _ _, ?_, ?_⟩
  · exact (hmem _).2 (Or.inl ⟨s, k, i, es, hs, hi, hes, (he1 _).2 (Or.inr ⟨p, l, vs, hl, hv, hlink⟩)⟩)
  · refine (hmem _).2 (Or.inr ?_)
    obtain ⟨r1, r2⟩ := collect_mem hrs
    obtain ⟨bs, hb⟩ := r2 (s, k) hs
    refine (r1 _).2 ⟨(s, k), hs, bs, hb, ?_⟩
    obtain ⟨d1, d2⟩ := collect_mem hb
    obtain ⟨m, hm⟩ := mem_zip hd
    obtain ⟨cs, hc⟩ := d2 _ hm
    refine (d1 _).2 ⟨_, hm, cs, hc, ?_⟩
    simp only [hcount s k hs, hcount t j ht, relations] at hc
    have hne : names t.id (share R d total shapes.length j t.id) ≠ [] := by
      intro e
      have := congrArg List.length e
      simp [names] at this
      omega
    rw [if_neg hne] at hc
    obtain ⟨f1, f2⟩ := collect_mem hc
    have hfi : (entityIri s.id i, i) ∈ (names s.id (share R d total shapes.length k s.id)).zipIdx := by
      rw [List.mk_mem_zipIdx_iff_getElem?]
      simp [names, List.getElem?_range, hi]
    obtain ⟨xs, hx⟩ := f2 _ hfi
    refine (f1 _).2 ⟨_, hfi, xs, hx, ?_⟩
    have hlen : (names t.id (share R d total shapes.length j t.id)).length = share R d total shapes.length j t.id := by
      simp [names]
    simp only [relationsOf, hlen] at hx
    have hb1 : relBounds (some 1) (some 1) (share R d total shapes.length j t.id) = (1, 1) := by
      have e : Nat.min 1 (share R d total shapes.length j t.id) = 1 := Nat.min_eq_left hj
      have e1 : asUsize 1 = 1 := by decide
      simp only [relBounds, Option.getD_some, e1]
      rw [if_neg (by decide), e]
      rfl
    rw [hb1] at hx
    have hch : ∀ dr, choose st i 1 1 dr = some 1 := by intro dr; cases st <;> rfl
    rw [hch] at hx
    simp only [Option.map_some, Option.some.injEq] at hx
    subst hx
    rw [List.mem_filterMap]
    refine ⟨0, by simp, ?_⟩
    have hlt := Nat.mod_lt i hj
    simp [names, List.getElem?_range, hlt]

/-- **C131** is false of the code for datatypes that are not kept: all values of the property are then of `xsd:string`. A
constraint without a datatype, such as one for IRIs, gets values of `xsd:string` too (see `extractOne`). -/
theorem C131_kinds_refuted (hR : R.Lawful) (cfg : Str → Config) (pim : Bool) (d : Distribution) (total : Nat)
    (shapes : List (ShapeInfo C)) (ts : List GTriple) (h : generateData R st cfg pim d total shapes = some ts)
    (hnames : (shapes.map (·.id)).Nodup) (hflat : ∀ s ∈ shapes, s.deps = [] ∧ ∀ p ∈ s.props, p.shapeRef = none)
    (s : ShapeInfo C) (k i : Nat) (hs : (s, k) ∈ shapes.zipIdx) (hi : i < share R d total shapes.length k s.id)
    (hprops : (s.props.map (·.iri)).Nodup) (p : PropInfo C) (hp : p ∈ s.props) (hp1 : p.iri ≠ rdfType)
    (dt : Str) (hp3 : p.datatype = some dt) (hp4 : dt ∉ keptDatatypes) :
    ∀ o, ⟨entityIri s.id i, p.iri, o⟩ ∈ ts → ∃ v, o = .lit v xsdString := by
  intro o ho
  obtain ⟨j, vs, _, hv, ht⟩ := ((flat_values hR h hnames hflat hs hi hprops hp hp1).1 o).1 ho
  simp only [propValues, (hflat s (zip_mem hs).1).2 p hp, hp3, Option.bind_eq_some_iff] at hv
  obtain ⟨n, _, hv⟩ := hv
  obtain ⟨vals, _, rfl⟩ := literals_mem hv
  obtain ⟨v, _, e⟩ := List.mem_map.1 ht
  simp only [GTriple.mk.injEq, true_and] at e
  exact ⟨v, by rw [← e, typed, if_neg hp4]⟩

/-- **C131** is false of the code when texts are few: an entity has at most as many values of a property as there are texts
for it, such as two for truth values, whatever its bounds say. -/
theorem C131_texts_refuted (hR : R.Lawful) (cfg : Str → Config) (pim : Bool) (d : Distribution) (total : Nat)
    (shapes : List (ShapeInfo C)) (ts : List GTriple) (h : generateData R st cfg pim d total shapes = some ts)
    (hnames : (shapes.map (·.id)).Nodup) (hflat : ∀ s ∈ shapes, s.deps = [] ∧ ∀ p ∈ s.props, p.shapeRef = none)
    (s : ShapeInfo C) (k i : Nat) (hs : (s, k) ∈ shapes.zipIdx) (hi : i < share R d total shapes.length k s.id)
    (hprops : (s.props.map (·.iri)).Nodup) (p : PropInfo C) (hp : p ∈ s.props) (hp1 : p.iri ≠ rdfType)
    (dt : Str) (hp3 : p.datatype = some dt) (texts : List Str)
    (htexts : ∀ place v, R.field place p.iri dt p.constraints = some v → v ∈ texts) (n : Nat)
    (hn : Count ts (entityIri s.id i) p.iri n) : n ≤ texts.length := by
  obtain ⟨l, hl, rfl, hl2⟩ := hn
  have hsub : ∀ o ∈ l, o ∈ texts.map fun v => typed v dt := by
    intro o ho
    obtain ⟨j, vs, _, hv, ht⟩ := ((flat_values hR h hnames hflat hs hi hprops hp hp1).1 o).1 ((hl2 o).1 ho)
    simp only [propValues, (hflat s (zip_mem hs).1).2 p hp, hp3, Option.bind_eq_some_iff] at hv
    obtain ⟨n, _, hv⟩ := hv
    obtain ⟨vals, hvals, rfl⟩ := literals_mem hv
    obtain ⟨v, hv', e⟩ := List.mem_map.1 ht
    simp only [GTriple.mk.injEq, true_and] at e
    obtain ⟨a, _, ha⟩ := forall₂_back hvals hv'
    exact List.mem_map.2 ⟨v, htexts _ _ ha, e⟩
  have := (List.subperm_of_subset hl hsub).length_le
  simpa using this

/-- The triple constraints of an expression, from left to right. -/
inductive Leaves : TExpr → List (Str × Option ValueExpr × Option Int × Option Int) → Prop
  | constraint (p v min max) : Leaves (.constraint p v min max) [(p, v, min, max)]
  | ref (l) : Leaves (.ref l) []
  | eachOf {es ls} (h : List.Forall₂ Leaves es ls) : Leaves (.eachOf es) ls.flatten
  | oneOf {es ls} (h : List.Forall₂ Leaves es ls) : Leaves (.oneOf es) ls.flatten

/-- A dependency is for a constraint: it leads to the shape that the constraint refers to, with its predicate and its
bounds, which are one and one if both are missing. -/
def DepFor (c : Str × Option ValueExpr × Option Int × Option Int) (d : Dep) : Prop :=
  c.2.1 = some (.ref d.target) ∧ d.property = c.1 ∧
  ((c.2.2 = (none, none) ∧ d.min = some 1 ∧ d.max = some 1) ∨ (c.2.2 ≠ (none, none) ∧ (d.min, d.max) = c.2.2))

/-- The dependencies are those of the constraints that refer to shapes, in their order, and there is a property for each
constraint. -/
theorem extractOne_leaf (p : Str) (v : Option ValueExpr) (min max : Option Int) :
    ((∃ d, (extractOne (C := C) p v min max).1 = [d] ∧ DepFor (p, v, min, max) d) ∨
      ((extractOne (C := C) p v min max).1 = [] ∧ ¬∃ d, DepFor (p, v, min, max) d)) ∧
    ((extractOne (C := C) p v min max).2.map (·.iri)) = [p] := by
  match v with
  | none => exact ⟨Or.inr ⟨rfl, by rintro ⟨d, h, -⟩; cases h⟩, rfl⟩
  | some .other => exact ⟨Or.inr ⟨rfl, by rintro ⟨d, h, -⟩; cases h⟩, rfl⟩
  | some (.node _) => exact ⟨Or.inr ⟨rfl, by rintro ⟨d, h, -⟩; cases h⟩, rfl⟩
  | some (.ref l) =>
    refine ⟨Or.inl ⟨_, rfl, rfl, rfl, ?_⟩, rfl⟩
    by_cases hm : min = none ∧ max = none
    · obtain ⟨rfl, rfl⟩ := hm
      exact Or.inl ⟨rfl, rfl, rfl⟩
    · refine Or.inr ⟨by simpa using hm, ?_⟩
      simp [hm]

theorem extract_leaves_aux : ∀ n : Nat, (∀ e, sizeOf e < n → ∃ ls, Leaves e ls ∧
      (∀ d, d ∈ (extract (C := C) e).1 ↔ ∃ c ∈ ls, DepFor c d) ∧ (extract (C := C) e).2.map (·.iri) = ls.map (·.1)) ∧
    ∀ es, sizeOf es < n → ∃ ls, List.Forall₂ Leaves es ls ∧
      (∀ d, d ∈ (extractList (C := C) es).1 ↔ ∃ c ∈ ls.flatten, DepFor c d) ∧
      (extractList (C := C) es).2.map (·.iri) = ls.flatten.map (·.1) := by
  intro n
  induction n with
  | zero => exact ⟨fun _ h => absurd h (Nat.not_lt_zero _), fun _ h => absurd h (Nat.not_lt_zero _)⟩
  | succ n ih =>
    constructor
    · intro e he
      match e with
      | .ref l => exact ⟨[], .ref l, by simp [extract], by simp [extract]⟩
      | .eachOf es =>
        obtain ⟨ls, h1, h2⟩ := ih.2 es (by simp at he; omega)
        exact ⟨_, .eachOf h1, by rw [extract]; exact h2⟩
      | .oneOf es =>
        obtain ⟨ls, h1, h2⟩ := ih.2 es (by simp at he; omega)
        exact ⟨_, .oneOf h1, by rw [extract]; exact h2⟩
      | .constraint p v min max =>
        obtain ⟨h1, h2⟩ := extractOne_leaf (C := C) p v min max
        refine ⟨_, .constraint p v min max, ?_, by rw [extract, h2]; rfl⟩
        intro d
        rw [extract]
        simp only [List.mem_singleton, exists_eq_left]
        rcases h1 with ⟨d', hd, hf⟩ | ⟨hd, hf⟩
        · rw [hd, List.mem_singleton]
          refine ⟨fun h => h ▸ hf, fun h => ?_⟩
          obtain ⟨a1, a2, a3⟩ := hf
          obtain ⟨b1, b2, b3⟩ := h
          have ht : d.target = d'.target := by
            have := b1.symm.trans a1
            simpa using this
          have hb : (d.min, d.max) = (d'.min, d'.max) := by
            rcases a3 with ⟨x, y, z⟩ | ⟨x, y⟩ <;> rcases b3 with ⟨x', y', z'⟩ | ⟨x', y'⟩
            · rw [y, z, y', z']
            · exact absurd x x'
            · exact absurd x' x
            · rw [y, y']
          cases d; cases d'
          simp_all
        · rw [hd]
          exact ⟨fun h => absurd h (List.not_mem_nil), fun h => absurd ⟨d, h⟩ hf⟩
    · intro es hes
      match es with
      | [] => exact ⟨[], .nil, by simp [extractList], by simp [extractList]⟩
      | e :: es =>
        obtain ⟨l, h1, h2, h3⟩ := ih.1 e (by simp at hes; omega)
        obtain ⟨ls, k1, k2, k3⟩ := ih.2 es (by simp at hes; omega)
        refine ⟨l :: ls, .cons h1 k1, ?_, ?_⟩
        · intro d
          rw [extractList]
          simp only [List.mem_append, h2, k2, List.flatten_cons, or_and_right, exists_or]
        · rw [extractList]
          simp [h3, k3]

/-- **C131** (what is taken from a shape). The dependencies of a shape are those of the triple constraints in its
expression that refer to shapes, with their predicates and bounds, and it has a property for each constraint, from left
to right. -/
theorem C131_extracted (e : TExpr) : ∃ ls, Leaves e ls ∧
    (∀ d, d ∈ (extract (C := C) e).1 ↔ ∃ c ∈ ls, DepFor c d) ∧ (extract (C := C) e).2.map (·.iri) = ls.map (·.1) :=
  (extract_leaves_aux (sizeOf e + 1)).1 e (Nat.lt_succ_self _)

example : ((extract (C := Unit) (.eachOf [.constraint ['p'] (some (.ref ['T'])) none none,
      .oneOf [.constraint ['q'] (some (.node none)) none none, .constraint ['r'] (some (.ref ['U'])) (some 0) none]])).1.map
    fun d => (d.target, d.property, d.min, d.max)) =
    [(['T'], ['p'], some 1, some 1), (['U'], ['r'], some 0, none)] := by decide +kernel

/-- **C131** is false of the code for alternatives: an entity of a shape that is one of two constraints gets values for
both, so that it is not valid. -/
theorem C131_oneOf_refuted (hR : R.Lawful) (cfg : Str → Config) (pim : Bool) (d : Distribution) (total : Nat)
    (id p q : Str) (hpq : p ≠ q) (hp1 : p ≠ rdfType) (hq1 : q ≠ rdfType) (ts : List GTriple)
    (h : generateData R st cfg pim d total
      [⟨id, (extract (C := C) (.oneOf [.constraint p (some (.node none)) none none, .constraint q (some (.node none)) none none])).1,
        (extract (C := C) (.oneOf [.constraint p (some (.node none)) none none, .constraint q (some (.node none)) none none])).2⟩]
      = some ts)
    (hcfg : (cfg id).ignoreMin = false ∧ (cfg id).maxProps = 0 ∧ p ∉ (cfg id).excluded ∧ q ∉ (cfg id).excluded)
    (i : Nat) (hi : i < share R d total 1 0 id) :
    (∃ o, ⟨entityIri id i, p, o⟩ ∈ ts) ∧ ∃ o, ⟨entityIri id i, q, o⟩ ∈ ts := by
  let a : PropInfo C := ⟨p, some xsdString, none, some 1, some 1, []⟩
  let b : PropInfo C := ⟨q, some xsdString, none, some 1, some 1, []⟩
  let s : ShapeInfo C := ⟨id, [], [a, b]⟩
  replace h : generateData R st cfg pim d total [s] = some ts := h
  have hprops : (s.props.map (·.iri)).Nodup := by simp [s, a, b, hpq]
  have hone : ∀ x ∈ s.props, x.iri ≠ rdfType → x.iri ∉ (cfg id).excluded → ∃ o, (⟨entityIri id i, x.iri, o⟩ : GTriple) ∈ ts := by
    intro x hx hx1 hx2
    obtain ⟨hkey, hall⟩ := flat_values (s := s) (k := 0) hR h (by simp)
      (by simp [s, a, b]) (by simp) hi hprops hx hx1
    have hmin : x.min = some 1 ∧ x.max = some 1 ∧ x.shapeRef = none ∧ x.datatype = some xsdString := by
      simp only [s, List.mem_cons, List.not_mem_nil, or_false] at hx
      rcases hx with rfl | rfl <;> exact ⟨rfl, rfl, rfl, rfl⟩
    have hin : x ∈ selected R (cfg s.id) (i :: [0, 0]) s :=
      selected_mandatory hx hx2 hcfg.2.1 hcfg.1 (by rw [hmin.1]; simp)
    obtain ⟨j, hj⟩ := mem_zip hin
    obtain ⟨vs, hv⟩ := hall x j hj
    have hv' := hv
    have hcnt : ∀ place, valueCount R st place x i (cfg s.id).ignoreMin = some 1 := by
      intro place
      rw [show (cfg s.id).ignoreMin = false from hcfg.1, valueCount, hmin.1, hmin.2.1]
      cases st <;> rfl
    simp only [propValues, hcnt, hmin, Option.bind_some] at hv
    obtain ⟨vals, hvals, rfl⟩ := literals_mem hv
    cases hvals with
    | @cons _ v _ _ hab _ =>
      exact ⟨typed v xsdString, (hkey _).2 ⟨j, _, hj, hv', by simp⟩⟩
  exact ⟨hone a (by simp [s]) hp1 hcfg.2.2.1, hone b (by simp [s]) hq1 hcfg.2.2.2⟩

end

/-! ## Examples -/

/-- An outcome of the random numbers: all is kept, the least is drawn, and texts tell values apart. -/
def exDraws : Draws Unit where
  keep := fun _ => true
  target := fun _ n => n
  shuffle := fun _ l => l
  range := fun _ lo _ => lo
  field := fun place _ _ _ => some (digits place.head!)
  weighted := fun _ => 1

theorem exDraws_lawful : exDraws.Lawful := ⟨fun _ _ => .refl _, fun _ _ _ h => ⟨Nat.le_refl _, h⟩⟩

/-- A configuration that leaves nothing out. -/
def exConfig : Str → Config := fun _ => ⟨false, 0, .all, []⟩

/-- A property with two or three values. -/
def exProp : PropInfo Unit := ⟨['p'], some xsdString, none, some 2, some 3, []⟩

/-- A property with values of a datatype that is not kept. -/
def exYear : PropInfo Unit := ⟨['y'], some ['g', 'Y'], none, some 1, some 1, []⟩

/-- A shape without references. -/
def exFlat : List (ShapeInfo Unit) := [⟨['S'], [], [exProp, exYear]⟩]

/-- A shape with one reference. -/
def exRef : List (ShapeInfo Unit) :=
  [⟨['S'], [⟨['T'], ['r'], some 1, some 1⟩], [⟨['r'], none, some ['T'], some 1, some 1, []⟩]⟩, ⟨['T'], [], [exProp]⟩]

example : (generateData exDraws .maximum exConfig false .equal 2 exFlat).isSome = true := by decide +kernel

/-- The hypotheses of `C131_data_partial` hold of the example. -/
example (ts : List GTriple) (h : generateData exDraws .maximum exConfig false .equal 2 exFlat = some ts) :
    ∃ n, Count ts (entityIri ['S'] 1) ['p'] n ∧ Within (some 2) (some 3) n := by
  exact (C131_data_partial exDraws_lawful exConfig false .equal 2 exFlat ts h (by decide) (by simp [exFlat, exProp, exYear])
    ⟨['S'], [], [exProp, exYear]⟩ 0 1 (by simp [exFlat]) (by decide) (by decide) exProp (by simp) (by decide) 2 rfl xsdString rfl
    (by decide +kernel) (Or.inr (by decide)) ⟨rfl, rfl, by simp [exConfig]⟩
    (fun place a b v h1 h2 => by
      simp only [exDraws, List.head!_cons, Option.some.injEq] at h1 h2
      exact digits_inj (h1.trans h2.symm))).1

/-- And those of `C131_kinds_refuted`. -/
example (ts : List GTriple) (h : generateData exDraws .maximum exConfig false .equal 2 exFlat = some ts) (o : GTerm)
    (ho : ⟨entityIri ['S'] 1, ['y'], o⟩ ∈ ts) : ∃ v, o = .lit v xsdString :=
  C131_kinds_refuted exDraws_lawful exConfig false .equal 2 exFlat ts h (by decide) (by simp [exFlat, exProp, exYear])
    ⟨['S'], [], [exProp, exYear]⟩ 0 1 (by simp [exFlat]) (by decide) (by decide) exYear (by simp) (by decide) ['g', 'Y'] rfl
    (by decide +kernel) o ho

example : (generateData exDraws .balanced exConfig false .equal 4 exRef).isSome = true := by decide +kernel

/-- And those of `C131_references_refuted`. -/
example (ts : List GTriple) (h : generateData exDraws .balanced exConfig false .equal 4 exRef = some ts) :
    ∃ a b, a ≠ b ∧ ⟨entityIri ['S'] 1, ['r'], .iri a⟩ ∈ ts ∧ ⟨entityIri ['S'] 1, ['r'], .iri b⟩ ∈ ts :=
  C131_references_refuted exConfig false .equal 4 exRef ts h _ 0 1 (List.mem_cons_self ..) (by decide) (by decide)
    ⟨['r'], none, some ['T'], some 1, some 1, []⟩ (by simp) ['T'] rfl rfl rfl (by simp) ⟨['T'], [], [exProp]⟩ 1
    (by simp [exRef]) rfl (by decide) ⟨rfl, rfl, by simp [exConfig]⟩

/-- Truth values only: three are asked for, there are at most two. -/
example (ts : List GTriple) (R : Draws Unit) (hR : R.Lawful)
    (hb : ∀ place v, R.field place ['p'] xsdString [] = some v → v ∈ ["true".toList, "false".toList])
    (h : generateData R .minimum exConfig false .equal 1 [⟨['S'], [], [⟨['p'], some xsdString, none, some 3, some 3, []⟩]⟩]
      = some ts) (n : Nat) (hn : Count ts (entityIri ['S'] 0) ['p'] n) : ¬ Within (some 3) (some 3) n := by
  have := C131_texts_refuted hR exConfig false .equal 1 _ ts h (by decide) (by simp) _ 0 0 (List.mem_cons_self ..)
    (Nat.zero_lt_one) (by decide) _ (List.mem_cons_self ..) (by decide) xsdString rfl _ hb n hn
  rintro ⟨h3, _⟩
  simp at this h3
  omega

/-- And those of `C131_oneOf_refuted`. -/
example (ts : List GTriple) (h : generateData exDraws .random exConfig false .equal 1
    [⟨['S'], (extract (C := Unit) (.oneOf [.constraint ['p'] (some (.node none)) none none,
        .constraint ['q'] (some (.node none)) none none])).1,
      (extract (.oneOf [.constraint ['p'] (some (.node none)) none none,
        .constraint ['q'] (some (.node none)) none none])).2⟩] = some ts) :
    (∃ o, ⟨entityIri ['S'] 0, ['p'], o⟩ ∈ ts) ∧ ∃ o, ⟨entityIri ['S'] 0, ['q'], o⟩ ∈ ts :=
  C131_oneOf_refuted exDraws_lawful exConfig false .equal 1 ['S'] ['p'] ['q'] (by decide) (by decide) (by decide) ts h
    ⟨rfl, rfl, by simp [exConfig], by simp [exConfig]⟩ 0 (by decide)

/-- C130: the bounds of the example, and links to two of three entities. -/
example : ∃ k, valueCount exDraws .balanced [] exProp 7 false = some k ∧ Within (some 2) (some 3) k :=
  C130_counts_partial exDraws_lawful .balanced [] exProp 7 (Or.inr (by decide))

example : relationsOf exDraws .maximum [] ⟨['T'], ['r'], some 1, some 2⟩ ['f'] [['a'], ['b'], ['c']] 2 =
    some [⟨['f'], ['r'], .iri ['c']⟩, ⟨['f'], ['r'], .iri ['a']⟩] := by decide +kernel

example : (List.range 3).map (fun i => share exDraws .equal 8 3 i ['S']) = [3, 3, 2] := by decide

end Gen

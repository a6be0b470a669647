import Verif.Conv.Lemmas

/-!
# C113: the conversion of SHACL shapes to ShEx

When there is a conversion, what the converted shapes mean, and when that is what the SHACL shapes mean.
-/

namespace Conv

open Shexc (SE TE NC Value ObjVal IriRef Label Str)
open Spec

namespace Spec

/-- The node shapes of a schema, in its order. -/
def nodeShapes (S : Schema) : List NodeShape :=
  S.labels.filterMap fun i => match S.shape i with
    | some (.node s) => some s
    | _ => none

/-- Every index is that of a shape, and the node shapes are such that there is code for them. -/
def Convertible (b : Bool) (S : Schema) : Prop :=
  ∀ i ∈ S.labels, ∃ sh, S.shape i = some sh ∧ ∀ s, sh = .node s → ∃ l ps, NodeOk b S s l ps

/-- What is answered with an error that is not a panic. -/
structure NoErrors (b : Bool) (S : Schema) : Prop where
  ids : ∀ s ∈ nodeShapes S, s.id ≠ .literal
  props : ∀ s ∈ nodeShapes S, ∀ i ∈ s.props, ∀ n, S.shape i ≠ some (.node n)
  targets : b = true → ∀ s ∈ nodeShapes S, ∀ c, .cls c ∈ s.targets → (∃ i, c = .iri i) ∨ c = .triple

/-- Property shapes that the conversion does not lose anything of: different paths, and one component at most. -/
structure Plain (ps : List PropShape) : Prop where
  paths : (ps.map PropShape.path).Nodup
  comps : ∀ s ∈ ps, s.comps = [] ∨ (∃ c, s.comps = [.cls (.iri c)]) ∨ ∃ d, s.comps = [.datatype d]

end Spec

/-! ## Helpers -/

theorem convertAt_ok {b : Bool} {S : Schema} {i : Nat} {o : Option (Label × SE × Bool)} (h : convertAt b S i = .ok o) :
    (∃ s, S.shape i = some (.prop s) ∧ o = none) ∨ ∃ s d, S.shape i = some (.node s) ∧ o = some d ∧ convertShape b S s = .ok d := by
  unfold convertAt at h
  split at h
  · cases h
  · next s hs =>
    obtain ⟨d, hd, h⟩ := bind_ok.1 h
    cases h
    exact .inr ⟨s, d, hs, rfl, hd⟩
  · next s hs => cases h; exact .inl ⟨s, hs, rfl⟩

theorem convert_forall2 {b : Bool} {S : Schema} {is : List Nat} {os : List (Option (Label × SE × Bool))}
    (h : List.Forall₂ (fun i o => convertAt b S i = .ok o) is os) :
    List.Forall₂ (fun s d => convertShape b S s = .ok d) (nodeShapes { S with labels := is }) (os.filterMap id) := by
  unfold nodeShapes
  induction h with
  | nil => exact .nil
  | cons h _ ih =>
    rcases convertAt_ok h with ⟨s, hs, rfl⟩ | ⟨s, d, hs, rfl, hd⟩
    · simpa [hs] using ih
    · simp only [List.filterMap_cons, hs, id]
      exact .cons hd ih

theorem convert_ok {b : Bool} {S : Schema} {ds : List (Label × SE × Bool)} (h : convert b S = .ok ds) :
    List.Forall₂ (fun s d => convertShape b S s = .ok d) (nodeShapes S) ds := by
  obtain ⟨os, hos, h⟩ := bind_ok.1 h
  cases h
  exact convert_forall2 (mapOut_ok.1 hos)

theorem mapOut_ne_error {α β : Type} {f : α → Out β} : ∀ {as : List α}, (∀ a ∈ as, f a ≠ .error) → mapOut f as ≠ .error
  | [], _ => nofun
  | a :: as, h => by
    have h1 := h a (by simp)
    have h2 := mapOut_ne_error fun a' ha => h a' (List.mem_cons_of_mem _ ha)
    rw [mapOut]
    cases ha : f a with
    | error => exact absurd ha h1
    | panic => nofun
    | ok b =>
      cases has : mapOut f as with
      | error => exact absurd has h2
      | panic => simp [Out.bind]
      | ok bs => simp [Out.bind]

theorem bind_ne_error {α β : Type} {x : Out α} {f : α → Out β} (h : x ≠ .error) (hf : ∀ a, f a ≠ .error) :
    x.bind f ≠ .error := by
  cases x with
  | error => exact absurd rfl h
  | panic => nofun
  | ok a => exact hf a

theorem component_ne_error (c : Comp) : component c ≠ .error := by
  cases c with
  | cls o => cases o <;> nofun
  | _ => nofun

theorem property_ne_error (s : PropShape) : property s ≠ .error := by
  unfold property
  split
  · nofun
  · exact bind_ne_error (bind_ne_error (mapOut_ne_error fun c _ => component_ne_error c) nofun) nofun

theorem merge_ne_error (t u : TE) : merge t u ≠ .error := by
  unfold merge
  split <;> nofun

theorem convertShape_ne_error {b : Bool} {S : Schema} {s : NodeShape} (h1 : s.id ≠ .literal)
    (h2 : ∀ i ∈ s.props, ∀ n, S.shape i ≠ some (.node n))
    (h3 : b = true → ∀ c, .cls c ∈ s.targets → (∃ i, c = .iri i) ∨ c = .triple) : convertShape b S s ≠ .error := by
  refine bind_ne_error ?_ fun l => bind_ne_error ?_ nofun
  · cases h : s.id with
    | literal => exact absurd h h1
    | _ => nofun
  · refine bind_ne_error (mapOut_ne_error fun i hi => ?_) fun ts => ?_
    · unfold propertyAt
      split
      · nofun
      · exact property_ne_error _
      · next n hn => exact absurd hn (h2 i hi n)
    · cases b with
      | false => nofun
      | true =>
        refine bind_ne_error (bind_ne_error (mapOut_ne_error fun t ht => ?_) nofun) fun t => ?_
        · cases t with
          | cls c =>
            rcases h3 rfl c ht with ⟨i, rfl⟩ | rfl <;> nofun
          | _ => nofun
        · cases eachOpt ts with
          | none => nofun
          | some u => exact bind_ne_error (merge_ne_error u t) nofun

theorem perm_cons_of_mem {α : Type} {a : α} {l : List α} (h : a ∈ l) : ∃ r, (a :: r).Perm l := by
  obtain ⟨s, t, rfl⟩ := List.append_of_mem h
  exact ⟨s ++ t, List.perm_middle.symm⟩

/-- The values of the properties, if each property has one. -/
theorem gather {T : Type} : ∀ {ps : List PropShape} {arcs : List (Str × T)}, (ps.map PropShape.path).Nodup →
    (∀ s ∈ ps, ∃ p y rest, s.path = some p ∧ ((p, y) :: rest).Perm arcs ∧ ∀ a ∈ rest, a.1 ≠ p) →
    ∃ l rest, (l ++ rest).Perm arcs ∧ List.Forall₂ (fun s a => s.path = some a.1) ps l ∧
      ∀ a ∈ rest, ∀ s ∈ ps, s.path ≠ some a.1
  | [], arcs, _, _ => ⟨[], arcs, .refl _, .nil, by simp⟩
  | s :: ps, arcs, hn, h => by
    rw [List.map_cons, List.nodup_cons] at hn
    obtain ⟨p, y, r, hp, hperm, hr⟩ := h s (by simp)
    obtain ⟨l, rest, h1, h2, h3⟩ := gather (ps := ps) (arcs := r) hn.2 (by
      intro s' hs'
      obtain ⟨p', y', r', hp', hperm', hr'⟩ := h s' (List.mem_cons_of_mem _ hs')
      have hne : p ≠ p' := by
        rintro rfl
        exact hn.1 (List.mem_map.2 ⟨s', hs', by rw [hp, hp']⟩)
      have hmem : (p', y') ∈ r := by
        have : (p', y') ∈ (p, y) :: r := hperm.symm.subset (hperm'.subset (by simp))
        rcases List.mem_cons.1 this with h | h
        · cases h; exact absurd rfl hne
        · exact h
      obtain ⟨r'', hr''⟩ := perm_cons_of_mem hmem
      refine ⟨p', y', r'', hp', hr'', fun a ha => hr' a ?_⟩
      have e1 : ((p, y) :: (p', y') :: r'').Perm ((p', y') :: r') := ((hr''.cons _).trans hperm).trans hperm'.symm
      have e2 : ((p, y) :: r'').Perm r' := ((List.Perm.swap _ _ _).trans e1).cons_inv
      exact e2.subset (List.mem_cons_of_mem _ ha))
    refine ⟨(p, y) :: l, rest, (h1.cons _).trans hperm, .cons hp h2, fun a ha s' hs' he => ?_⟩
    rcases List.mem_cons.1 hs' with rfl | hs'
    · rw [hp] at he
      exact hr a (h1.subset (List.mem_append_right _ ha)) (Option.some.inj he).symm
    · exact h3 a ha s' hs' he

theorem forall2_and_mem {α β : Type} {R Q : α → β → Prop} {as : List α} {bs : List β} (h : List.Forall₂ R as bs)
    (hq : ∀ a ∈ as, ∀ b ∈ bs, R a b → Q a b) : List.Forall₂ Q as bs := by
  induction h with
  | nil => exact .nil
  | cons h _ ih =>
    exact .cons (hq _ (by simp) _ (by simp) h)
      (ih fun a ha b hb => hq a (List.mem_cons_of_mem _ ha) b (List.mem_cons_of_mem _ hb))

theorem forall2_right {α β : Type} {R : α → β → Prop} {as : List α} {bs : List β} (h : List.Forall₂ R as bs) :
    ∀ b ∈ bs, ∃ a ∈ as, R a b := by
  intro b hb
  obtain ⟨a, ha, hr⟩ := forall2_left h.flip b hb
  exact ⟨a, ha, hr⟩

theorem inj_of_nodup {α β : Type} {f : α → β} : ∀ {l : List α}, (l.map f).Nodup → ∀ {a b}, a ∈ l → b ∈ l → f a = f b → a = b
  | [], _, _, _, h, _, _ => nomatch h
  | c :: l, hn, a, b, ha, hb, he => by
    rw [List.map_cons, List.nodup_cons] at hn
    rcases List.mem_cons.1 ha with rfl | ha' <;> rcases List.mem_cons.1 hb with rfl | hb'
    · rfl
    · exact absurd (List.mem_map.2 ⟨b, hb', he.symm⟩) hn.1
    · exact absurd (List.mem_map.2 ⟨a, ha', he⟩) hn.1
    · exact inj_of_nodup hn.2 ha' hb' he

theorem instance_iff {T : Type} {W : World T} (ht : ∀ y t rest, ((rdfType, t) :: rest).Perm (W.arcs y) → ∀ a ∈ rest, a.1 ≠ rdfType)
    (hc : ∀ y, ∀ a ∈ W.arcs y, a.1 ≠ subClassOf) (c : Str) (x : T) : OnlyType W (W.isIri c) x ↔ Instance W c x := by
  constructor
  · rintro ⟨t, rest, hp, hi, _⟩
    exact ⟨t, t, hp.subset (by simp), .refl, hi⟩
  · rintro ⟨t, u, hm, hs, hi⟩
    have : u = t := by
      rcases Relation.ReflTransGen.cases_tail hs with h | ⟨v, _, h⟩
      · exact h
      · exact absurd rfl (hc v _ h)
    subst this
    obtain ⟨r, hr⟩ := perm_cons_of_mem hm
    exact ⟨u, r, hr, hi, ht x u r hr⟩

theorem firstHolds_iff {T : Type} {W : World T} {ps : List PropShape} {x : T} (hw : Single W ps x) (hp : Plain ps)
    {s : PropShape} (hs : s ∈ ps) (y : T) : FirstHolds W s.comps y ↔ ∀ c ∈ s.comps, CompHolds W c y := by
  rcases hp.comps s hs with h | ⟨c, h⟩ | ⟨d, h⟩ <;> rw [h]
  · simp [FirstHolds]
  · simp only [FirstHolds, instance_iff hw.types hw.classes, List.mem_singleton, forall_eq]
    exact ⟨.cls, fun h => by cases h; assumption⟩
  · simp only [FirstHolds, List.mem_singleton, forall_eq]
    exact ⟨.datatype, fun h => by cases h; assumption⟩

/-! ## The properties -/

/-- **C113** There is a conversion exactly if there is code for all of the schema: the ids of the node shapes are IRIs
or blank nodes, the properties are property shapes whose path is a predicate and whose components are classes that are
IRIs, datatypes and disjunctions, and, if target classes are added, no target is wrong and the target classes are
IRIs. -/
theorem C113_converts_iff (b : Bool) (S : Schema) : (∃ ds, convert b S = .ok ds) ↔ Convertible b S := by
  unfold convert Convertible
  constructor
  · rintro ⟨ds, h⟩ i hi
    obtain ⟨os, hos, _⟩ := bind_ok.1 h
    obtain ⟨o, _, ho⟩ := forall2_left (mapOut_ok.1 hos) i hi
    rcases convertAt_ok ho with ⟨s, hs, _⟩ | ⟨s, d, hs, _, hd⟩
    · exact ⟨_, hs, nofun⟩
    · refine ⟨_, hs, fun s' he => ?_⟩
      cases he
      obtain ⟨_, ps, h, _⟩ := convertShape_ok hd
      exact ⟨_, ps, h⟩
  · intro h
    obtain ⟨os, hos⟩ := forall2_exists (R := fun i o => convertAt b S i = .ok o) (as := S.labels) (by
      intro i hi
      obtain ⟨sh, hsh, hn⟩ := h i hi
      unfold convertAt
      rw [hsh]
      cases sh with
      | prop s => exact ⟨_, rfl⟩
      | node s =>
        obtain ⟨l, ps, hok⟩ := hn s rfl
        obtain ⟨d, hd⟩ := convertShape_of hok
        exact ⟨_, bind_ok.2 ⟨d, hd, rfl⟩⟩)
    exact ⟨_, bind_ok.2 ⟨os, mapOut_ok.2 hos, rfl⟩⟩

/-- **C113** Without literals as ids, node shapes as properties and target classes that are blank nodes or literals,
the conversion answers no error: whatever there is no code for is a panic. -/
theorem C113_panics (b : Bool) (S : Schema) (hS : NoErrors b S) : convert b S = .panic ↔ ¬ Convertible b S := by
  rw [← C113_converts_iff]
  have hne : convert b S ≠ .error := by
    refine bind_ne_error (mapOut_ne_error fun i hi => ?_) nofun
    unfold convertAt
    split
    · nofun
    · next s hs =>
      have hmem : s ∈ nodeShapes S := List.mem_filterMap.2 ⟨i, hi, by rw [hs]⟩
      exact bind_ne_error (convertShape_ne_error (hS.ids s hmem) (hS.props s hmem) fun hb => hS.targets hb s hmem) nofun
    · nofun
  cases h : convert b S with
  | ok ds => simp
  | error => exact absurd h hne
  | panic => simp

/-- **C113** What is converted: one declaration, which is not abstract, for each node shape, in the order of the
schema, with its label; and which nodes conform to it. Each property shape asks for exactly one value, and only the
first of its components is asked of it; a class is the only `rdf:type` of the value; a disjunction asks for nothing. -/
theorem C113_meaning (b : Bool) (S : Schema) (ds : List (Label × SE × Bool)) (h : convert b S = .ok ds) :
    List.Forall₂ (fun s d => d.2.2 = false ∧ ∃ ps, NodeOk b S s d.1 ps ∧
      ∀ (T : Type) (W : World T) (x : T), Sat W d.2.1 x ↔ Meaning W b s.targets ps x) (nodeShapes S) ds :=
  (convert_ok h).imp fun _ _ => convertShape_ok

/-- **C113** If target classes are added and a node shape has none, no node conforms to the converted shape. -/
theorem C113_no_target (S : Schema) (ds : List (Label × SE × Bool)) (h : convert true S = .ok ds) :
    List.Forall₂ (fun s d => (∀ c, ¬ targetClasses s.targets c) →
      ∀ (T : Type) (W : World T) (x : T), ¬ Sat W d.2.1 x) (nodeShapes S) ds := by
  refine (C113_meaning true S ds h).imp ?_
  rintro s d ⟨_, ps, _, hm⟩ hc T W x hs
  obtain ⟨l, m, rest, _, _, h, _⟩ := (hm T W x).1 hs
  simp only [if_true] at h
  obtain ⟨t, c, _, h, _⟩ := h
  exact hc c h

/-- **C113** The converted shape accepts the nodes that conform to the SHACL shape. Partial: for property shapes with
different paths and one component at most, none of them a disjunction; for nodes with exactly one value for each path;
for data where no node has two types and no class a superclass. `C113_refuted` shows that each of these is needed. -/
theorem C113_preserved_partial (S : Schema) (ds : List (Label × SE × Bool)) (h : convert false S = .ok ds) :
    List.Forall₂ (fun s d => ∃ ps, List.Forall₂ (PropAt S) s.props ps ∧ (Plain ps →
      ∀ (T : Type) (W : World T) (x : T), Single W ps x → (Sat W d.2.1 x ↔ Conforms W ps x))) (nodeShapes S) ds := by
  refine (C113_meaning false S ds h).imp ?_
  rintro s d ⟨_, ps, hok, hm⟩
  refine ⟨ps, hok.2.1, fun hp T W x hw => ?_⟩
  rw [hm T W x]
  constructor
  · rintro ⟨l, m, rest, hperm, hl, hm, hr⟩ s' hs' p hpath y hy c hc
    simp only [Bool.false_eq_true, if_false] at hm
    subst hm
    have hmem := hperm.symm.subset hy
    simp only [List.append_nil, List.mem_append] at hmem
    rcases hmem with hmem | hmem
    · obtain ⟨s'', hs'', h1, h2⟩ := forall2_right hl _ hmem
      have : s'' = s' := inj_of_nodup hp.paths hs'' hs' (by rw [h1, hpath])
      subst this
      exact (firstHolds_iff hw hp hs' y).1 h2 c hc
    · exact absurd hpath ((hr _ hmem).1 s' hs')
  · intro hc
    obtain ⟨l, rest, h1, h2, h3⟩ := gather (arcs := W.arcs x) hp.paths (by
      intro s' hs'
      obtain ⟨i, _, hi⟩ := forall2_right hok.2.1 s' hs'
      cases hpath : s'.path with
      | none => exact absurd hpath hi.2.1
      | some p =>
        obtain ⟨y, r, hy, hr⟩ := hw.one s' hs' p hpath
        exact ⟨p, y, r, rfl, hy, hr⟩)
    refine ⟨l, [], rest, by simpa using h1, forall2_and_mem h2 ?_, by simp, fun a ha => ⟨h3 a ha, by simp⟩⟩
    intro s' hs' a ha hpath
    exact ⟨hpath, (firstHolds_iff hw hp hs' a.2).2 (hc s' hs' a.1 hpath a.2 (h1.subset (List.mem_append_left _ ha)))⟩

/-! ## Where the conversion changes the meaning -/

namespace Ex

/-- A predicate. -/
def p : Str := "p".toList
/-- A datatype. -/
def dt : IriRef := .iri "d".toList
/-- A class. -/
def cl : Str := "C".toList

/-- A schema with one node shape and property shapes. -/
def sch (ps : List PropShape) : Schema :=
  { labels := [0], shape := fun
      | 0 => some (.node { id := .iri "S".toList, props := (List.range ps.length).map (· + 1), targets := [] })
      | i + 1 => ps[i]?.map .prop }

/-- Data: node `0` has the values `vs` for `p`; `10` is a literal of the datatype; `11` is one of the class; `12` is
one of a subclass; `13` is one of the class and of another one; the class is `20` and the subclass is `21`. -/
def W (vs : List Nat) : World Nat :=
  { arcs := fun
      | 0 => vs.map fun v => (p, v)
      | 11 => [(rdfType, 20)]
      | 12 => [(rdfType, 21)]
      | 13 => [(rdfType, 20), (rdfType, 22)]
      | 21 => [(subClassOf, 20)]
      | _ => []
    datatype := fun d x => d = dt ∧ x = 10
    isIri := fun i x => i = cl ∧ x = 20 }

/-- The converted shape accepts node `0`. -/
def Accepts (b : Bool) (ps : List PropShape) (vs : List Nat) : Prop :=
  ∃ d, convert b (sch ps) = .ok [d] ∧ Sat (W vs) d.2.1 0

/-- The property shape for `p`. -/
def onP (cs : List Comp) : PropShape := { path := some p, comps := cs }

theorem accepts_iff {b : Bool} {qs ps : List PropShape} {vs : List Nat} {d : Label × SE × Bool}
    (h : convert b (sch qs) = .ok [d]) (hp : ∀ ps', List.Forall₂ (PropAt (sch qs)) ((List.range qs.length).map (· + 1)) ps' → ps' = ps) :
    Accepts b qs vs ↔ Meaning (W vs) b [] ps 0 := by
  have hm := C113_meaning b _ _ h
  change List.Forall₂ _ [_] [d] at hm
  cases hm with
  | cons hm _ =>
    obtain ⟨_, ps', hok, hm⟩ := hm
    cases hp ps' hok.2.1
    unfold Accepts
    constructor
    · rintro ⟨d', hd', hs⟩
      rw [h] at hd'
      cases hd'
      exact (hm _ _ _).1 hs
    · exact fun hs => ⟨d, h, (hm _ _ _).2 hs⟩

theorem one_iff {cs : List Comp} {vs : List Nat} {d : Label × SE × Bool} (h : convert false (sch [onP cs]) = .ok [d]) :
    Accepts false [onP cs] vs ↔ ∃ v, vs = [v] ∧ FirstHolds (W vs) cs v := by
  rw [accepts_iff h (ps := [onP cs])]
  · constructor
    · rintro ⟨l, m, rest, hp, hl, hm, hr⟩
      simp only [Bool.false_eq_true, if_false] at hm
      subst hm
      cases hl with
      | @cons _ a _ _ ha hl =>
        cases hl
        have hrest : rest = [] := by
          cases rest with
          | nil => rfl
          | cons r rest =>
            have h1 := (hr r (by simp)).1 (onP cs) (by simp)
            have h2 : r ∈ (W vs).arcs 0 := hp.subset (by simp)
            obtain ⟨v, _, rfl⟩ := List.mem_map.1 h2
            exact absurd rfl h1
        subst hrest
        have := (List.singleton_perm.1 hp)
        change [a] = vs.map (fun v => (p, v)) at this
        cases vs with
        | nil => cases this
        | cons v vs =>
          cases vs with
          | nil => cases this; exact ⟨v, rfl, ha.2⟩
          | cons _ _ => cases this
    · rintro ⟨v, rfl, hv⟩
      exact ⟨[(p, v)], [], [], .refl _, .cons ⟨rfl, hv⟩ .nil, by simp, by simp⟩
  · intro ps' hps
    cases hps with
    | cons h1 h2 =>
      cases h2
      have := h1.1
      change some (Shape.prop (onP cs)) = _ at this
      cases this
      rfl

end Ex

open Ex in
/-- **C113** What the conversion changes: a node without the property and a node with two values conform to the SHACL
shape and not to the converted one; a node whose value does not satisfy the second component conforms to the converted
shape and not to the SHACL one; a value of a subclass, or with a second type, satisfies `sh:class` and not the converted
shape; two property shapes for one path are satisfied by one value in SHACL and not by any one in ShEx. -/
theorem C113_refuted :
    (Conforms (W []) [onP [.datatype dt]] 0 ∧ ¬ Accepts false [onP [.datatype dt]] []) ∧
    (Conforms (W [10, 10]) [onP [.datatype dt]] 0 ∧ ¬ Accepts false [onP [.datatype dt]] [10, 10]) ∧
    (¬ Conforms (W [10]) [onP [.datatype dt, .cls (.iri cl)]] 0 ∧ Accepts false [onP [.datatype dt, .cls (.iri cl)]] [10]) ∧
    (Conforms (W [12]) [onP [.cls (.iri cl)]] 0 ∧ ¬ Accepts false [onP [.cls (.iri cl)]] [12]) ∧
    (Conforms (W [13]) [onP [.cls (.iri cl)]] 0 ∧ ¬ Accepts false [onP [.cls (.iri cl)]] [13]) ∧
    (Conforms (W [10]) [onP [], onP [.datatype dt]] 0 ∧ ¬ Accepts false [onP [], onP [.datatype dt]] [10]) := by
  have hne : subClassOf ≠ rdfType := by decide
  refine ⟨⟨?_, ?_⟩, ⟨?_, ?_⟩, ⟨?_, ?_⟩, ⟨?_, ?_⟩, ⟨?_, ?_⟩, ?_, ?_⟩
  · intro s _ q _ y hy
    cases hy
  · rw [one_iff rfl]
    rintro ⟨v, h, _⟩
    cases h
  · intro s hs q hq y hy c hc
    rw [List.mem_singleton.1 hs] at hc
    rw [List.mem_singleton.1 hc]
    obtain ⟨v, hv, he⟩ := List.mem_map.1 hy
    cases he
    refine .datatype ⟨rfl, ?_⟩
    simpa using hv
  · rw [one_iff rfl]
    rintro ⟨v, h, _⟩
    cases h
  · intro h
    have := h (onP [.datatype dt, .cls (.iri cl)]) (by simp) p rfl 10 (by simp [W]) (.cls (.iri cl)) (by simp [onP])
    cases this with
    | cls h =>
      obtain ⟨t, u, hm, _⟩ := h
      cases hm
  · rw [one_iff rfl]
    exact ⟨10, rfl, rfl, rfl⟩
  · intro s hs q hq y hy c hc
    rw [List.mem_singleton.1 hs] at hc
    rw [List.mem_singleton.1 hc]
    obtain ⟨v, hv, he⟩ := List.mem_map.1 hy
    cases he
    rw [List.mem_singleton.1 hv]
    exact .cls ⟨21, 20, by simp [W], .single (by simp [W]), rfl, rfl⟩
  · rw [one_iff rfl]
    rintro ⟨v, h, t, rest, hp, hi, _⟩
    cases h
    have hm : (rdfType, t) ∈ [(rdfType, 21)] := hp.subset (by simp)
    have := hi.2
    subst this
    simp at hm
  · intro s hs q hq y hy c hc
    rw [List.mem_singleton.1 hs] at hc
    rw [List.mem_singleton.1 hc]
    obtain ⟨v, hv, he⟩ := List.mem_map.1 hy
    cases he
    rw [List.mem_singleton.1 hv]
    exact .cls ⟨20, 20, by simp [W], .refl, rfl, rfl⟩
  · rw [one_iff rfl]
    rintro ⟨v, h, t, rest, hp, hi, hr⟩
    cases h
    have hl := hp.length_eq
    change rest.length + 1 = 2 at hl
    obtain ⟨a, rfl⟩ := List.length_eq_one_iff.1 (Nat.succ.inj hl)
    have hm : a ∈ [(rdfType, 20), (rdfType, 22)] := hp.subset (by simp)
    have : a.1 = rdfType := by
      simp only [List.mem_cons, List.not_mem_nil, or_false] at hm
      rcases hm with rfl | rfl <;> rfl
    exact hr a (by simp) this
  · intro s hs q hq y hy c hc
    simp only [List.mem_cons, List.not_mem_nil, or_false] at hs
    rcases hs with rfl | rfl
    · cases hc
    · rw [List.mem_singleton.1 hc]
      obtain ⟨v, hv, he⟩ := List.mem_map.1 hy
      cases he
      exact .datatype ⟨rfl, by simpa using hv⟩
  · rw [accepts_iff rfl (ps := [onP [], onP [.datatype dt]])]
    · rintro ⟨l, m, rest, hp, hl, hm, _⟩
      have h1 := hl.length_eq
      have h2 := hp.length_eq
      simp only [List.length_append] at h2
      change _ = 1 at h2
      change 2 = _ at h1
      omega
    · intro ps' hps
      cases hps with
      | cons h1 h2 =>
        cases h2 with
        | cons h2 h3 =>
          cases h3
          have e1 := h1.1
          have e2 := h2.1
          change some (Shape.prop (onP [])) = _ at e1
          change some (Shape.prop (onP [.datatype dt])) = _ at e2
          cases e1
          cases e2
          rfl

open Ex in
example : ∃ ds, convert true (sch [onP [.cls (.iri cl), .datatype dt], onP [.or]]) = .ok ds := ⟨_, rfl⟩

open Ex in
example : ¬ Convertible false (sch [onP [.other]]) ∧ NoErrors false (sch [onP [.other]]) ∧
    convert false (sch [onP [.other]]) = .panic := by
  refine ⟨?_, ⟨?_, ?_, nofun⟩, rfl⟩
  · rw [← C113_converts_iff]
    rintro ⟨ds, h⟩
    cases h
  · intro s hs
    rw [List.mem_singleton.1 hs]
    nofun
  · intro s hs i hi n
    rw [List.mem_singleton.1 hs] at hi
    rw [List.mem_singleton.1 hi]
    nofun

/-- Data where every node has one arc at most. -/
def Ex.W1 : World Nat :=
  { arcs := fun
      | 0 => [(Ex.p, 11)]
      | 11 => [(rdfType, 20)]
      | _ => []
    datatype := fun _ _ => False
    isIri := fun i x => i = Ex.cl ∧ x = 20 }

open Ex in
example : Plain [onP [.cls (.iri cl)]] ∧ Single W1 [onP [.cls (.iri cl)]] 0 ∧ Conforms W1 [onP [.cls (.iri cl)]] 0 := by
  have hne : rdfType ≠ subClassOf := by decide
  have hp : p ≠ subClassOf := by decide
  refine ⟨⟨by simp, by simp [onP]⟩, ⟨?_, ?_, ?_⟩, ?_⟩
  · intro s hs q hq
    rw [List.mem_singleton.1 hs] at hq
    cases hq
    exact ⟨11, [], .refl _, by simp⟩
  · intro y t rest h a ha
    have hl := h.length_eq
    have : (W1.arcs y).length ≤ 1 := by
      unfold W1
      dsimp only
      split <;> simp
    rw [← hl, List.length_cons] at this
    cases rest with
    | nil => cases ha
    | cons _ _ => simp at this
  · intro y a ha
    unfold W1 at ha
    dsimp only at ha
    split at ha
    · rw [List.mem_singleton.1 ha]; exact hp
    · rw [List.mem_singleton.1 ha]; exact hne
    · cases ha
  · intro s hs q hq y hy c hc
    rw [List.mem_singleton.1 hs] at hc
    rw [List.mem_singleton.1 hc]
    cases List.mem_singleton.1 hy
    exact .cls ⟨20, 20, List.mem_singleton.2 rfl, .refl, rfl, rfl⟩

open Ex in
example : (∃ d, convert true (sch [onP []]) = .ok [d]) ∧ ∀ s ∈ nodeShapes (sch [onP []]), ∀ c, ¬ targetClasses s.targets c := by
  refine ⟨⟨_, rfl⟩, fun s hs c h => ?_⟩
  rw [List.mem_singleton.1 hs] at h
  cases h

end Conv

import Verif.Rd.LemSchema

/-!
# C118, C119: shapes and schemas are read as the graph says
-/

namespace Rd

section
variable {L C : Type} [DecidableEq L] {g : Gr L} {E : Ext L C}

/-! ## Components -/

/-- The components read at a node without ignored properties are exactly those that the node declares; something
malformed is an error; a bad language tag is a panic; and nothing else is. Missing: nodes with ignored properties
(`C118_ignored`, `C118_refuted`). -/
theorem C118_components_partial (hg : g.Orders) (hn : g.Neat) (s : St L) (ht : s.focus.isLit = false)
    (hl : g.Lacks s.focus .ignoredProperties) :
    (∀ cs s', components g E s = (.ok cs, s') → s'.focus = s.focus ∧ Covers cs (Declared g E s.focus)) ∧
    ((∃ cs s', components g E s = (.ok cs, s')) ↔ (∀ k, ¬ Malformed g E s.focus k) ∧ ¬ BadTag g E s.focus) ∧
    ((components g E s).1 = .err → ∃ k, Malformed g E s.focus k) ∧
    ((components g E s).1 = .panic → BadTag g E s.focus) ∧ (components g E s).1 ≠ .loop := by
  have h := run_components (E := E) hg hn ht hl
  unfold Run at h
  rcases hr : components g E s with ⟨r, s'⟩
  rw [hr] at h
  cases r with
  | ok cs =>
    refine ⟨?_, ⟨fun _ => ⟨h.2.1, h.2.2.1⟩, fun _ => ⟨_, _, rfl⟩⟩, nofun, nofun, nofun⟩
    rintro _ _ ⟨⟩
    exact ⟨h.1, h.2.2.2⟩
  | err => exact ⟨nofun, ⟨nofun, fun h' => let ⟨k, hk⟩ := h; (h'.1 k hk).elim⟩, fun _ => h, nofun, nofun⟩
  | panic => exact ⟨nofun, ⟨nofun, fun h' => (h'.2 h).elim⟩, nofun, fun _ => h, nofun⟩
  | loop => exact h.elim

/-- If the node has a well-formed list of ignored properties, the last four kinds of components are those that
`rdf:nil` declares and not those of the node, as the focus stays at the end of the list. -/
theorem C118_ignored (hg : g.Orders) (hn : g.Neat) (s : St L) (ht : s.focus.isLit = false) {v : Tm L}
    {xs : List (Tm L)} (hv : g.Has s.focus .ignoredProperties v) (hx : g.IsList v xs) (cs : List (Comp C)) (s' : St L)
    (h : components g E s = (.ok cs, s')) :
    s'.focus = nilT ∧ Covers cs fun c =>
      Declared g E (if c.key ∈ [Key.hasValue, .isIn, .sparql, .deactivated] then nilT else s.focus) c := by
  have hp : ∀ k, place s.focus nilT k =
      if k ∈ [Key.hasValue, .isIn, .sparql, .deactivated] then nilT else s.focus := by
    intro k
    cases k <;> simp [place]
  have hr : Run (components g E) s _ _ _ :=
    components_run (E := E) hg hn ht (t' := nilT) rfl (key_closed_list hg hn hv hx) s rfl
  unfold Run at hr
  rw [h] at hr
  obtain ⟨h1, -, -, h4, h5⟩ := hr
  refine ⟨h1, fun c hc => ?_, fun c hc => h5 c ⟨?_, mem_keys _⟩⟩
  · have := (h4 c hc).1
    rwa [hp] at this
  · rw [hp]
    exact hc

/-! ## Schemas -/

/-- What is read has an entry for each node that is an instance of a class of shapes, has a target, or is used as a
shape, and for no other; and the entry of each good node is the shape that the node says. -/
theorem C119_schema (hg : g.Orders) (hn : g.Neat) {n : Nat} {s s' : St L} {r : List (Tm L × Shape C)}
    (h : parse g E n s = (.ok r, s')) :
    (r.map Prod.fst).Nodup ∧ (∀ t, t ∈ r.map Prod.fst ↔ Candidate g t) ∧ ∀ e ∈ r, Good g E e.1 → Says g E e.1 e.2 := by
  obtain ⟨l, s1, h1, h2⟩ := bind_ok_iff.1 h
  have hr := run_candidates (s := s) hg hn
  unfold Run at hr
  rw [h1] at hr
  obtain ⟨h3, h4, h5⟩ := parseAll_ok _ _ _ _ _ (by simp) h2
  have hk : ∀ t, t ∈ r.map Prod.fst ↔ Candidate g t := fun t => (h4 t).trans (by simp [hr.1])
  refine ⟨h3, hk, fun e he hgd => ?_⟩
  rcases h5 e he with h | ⟨k, s'', h'⟩
  · cases h
  · exact good_says hg hn (candidate_subject hn hr.2.2 ((hk _).1 (List.mem_map_of_mem he))) hgd h'

/-- If all these nodes are good and what should be a list of shapes is one, the graph is read. -/
theorem C119_reads (hg : g.Orders) (hn : g.Neat) (hb : ∀ p ∈ [Voc.and, .or, .xone], ¬ BadList g p)
    (hgd : ∀ t, Candidate g t → Good g E t) :
    ∃ N, ∀ n, N ≤ n → ∀ s, ∃ r s', parse g E n s = (.ok r, s') := by
  have hc : ∀ s : St L, ∃ l s', candidates g s = (.ok l, s') ∧ ∀ t, t ∈ l ↔ Candidate g t := by
    intro s
    have hr := run_candidates (s := s) hg hn
    unfold Run at hr
    rcases h : candidates g s with ⟨r, s'⟩
    rw [h] at hr
    cases r with
    | ok l => exact ⟨l, s', rfl, hr.1⟩
    | err => exact let ⟨p, hp, h⟩ := hr; (hb p hp h).elim
    | panic => exact hr.elim
    | loop => exact hr.elim
  obtain ⟨l, _, -, hl⟩ := hc ⟨nilT, 0⟩
  obtain ⟨N, hN⟩ := uniform (P := fun n t => ∀ k, ∃ r s', shapeP g E n ⟨t, k⟩ = (.ok r, s')) l fun t ht => by
    obtain ⟨N, hN⟩ := good_reads hg hn (candidate_subject hn hb ((hl t).1 ht)) (hgd t ((hl t).1 ht))
    exact ⟨N, fun n hn k => let ⟨r, s', h, _⟩ := hN n hn k; ⟨r, s', h⟩⟩
  refine ⟨N, fun n hn s => ?_⟩
  obtain ⟨l', s1, h1, h2⟩ := hc s
  obtain ⟨r, s', h⟩ := parseAll_reads (g := g) (E := E) (n := n) l'.reverse [] s1 fun t ht =>
    hN n hn t ((hl t).2 ((h2 t).1 (List.mem_reverse.1 ht)))
  exact ⟨r, s', (bind_ok h1).trans h⟩

/-- A list of shapes that is none is an error. A property shape with anything malformed, a bad language tag, or a path
that is none, is not passed over: nothing is then read. Missing: the same of node shapes, which is false
(`C119_refuted`). -/
theorem C119_rejects_partial (hg : g.Orders) (hn : g.Neat) (n : Nat) (s : St L) :
    ((∃ p ∈ [Voc.and, .or, .xone], BadList g p) → (parse g E n s).1 = .err) ∧
    ∀ t v, Candidate g t → t.isLit = false → g.Has t .path v →
      ((∃ q, g.IsPath v q) ∧ g.Lacks t .ignoredProperties ∧ (¬ WellFormed g E t ∨ BadTag g E t)) ∨
        (g.Tidy ∧ ¬ ∃ q, g.IsPath v q) →
      ∀ r s', parse g E n s ≠ (.ok r, s') := by
  refine ⟨fun ⟨p, hp, hb⟩ => ?_, fun t v hc ht hv hbad => parse_not_ok hg hn hc (fun k r s' hr => ?_) s⟩
  · have hr := run_candidates (s := s) hg hn
    unfold Run at hr
    rcases h : candidates g s with ⟨r, s'⟩
    rw [h] at hr
    cases r with
    | ok l => exact (hr.2.2 p hp hb).elim
    | err => rw [parse, bind_err h]
    | panic => exact hr.elim
    | loop => exact hr.elim
  · rcases hbad with ⟨⟨q, hq⟩, hl, hbad⟩ | ⟨htd, hq⟩
    · obtain ⟨N, hN⟩ := isPath_reads hg hq
      have := shape_prop (E := E) hg hn ht hv (hN (N + n) (by omega)) hl k
      unfold Run at this
      rw [shape_mono (by omega : n ≤ N + n) _ (by rw [hr]; nofun), hr] at this
      rcases hbad with h | h
      · exact h this.2.1
      · exact this.2.2 h
    · rw [shape_path hg (s := ⟨t, k⟩) hv] at hr
      obtain ⟨p, s1, h1, -⟩ := bind_ok_iff.1 hr
      rw [propShapeP, getFocus_bind] at h1
      obtain ⟨_, s2, h2, h1⟩ := bind_ok_iff.1 h1
      have hs2 : s2.focus = t := by
        unfold lift at h2
        split at h2 <;> cases h2
        rfl
      obtain ⟨v', s3, h3, h1⟩ := bind_ok_iff.1 h1
      have h3' := Run.single (p := .path) (s := s2) (Pa := False) hg
      unfold Run at h3'
      rw [h3, hs2] at h3'
      obtain rfl := hn.one _ .path (by simp [singles]) _ _ hv h3'.2
      obtain ⟨q, s4, h4, -⟩ := bind_ok_iff.1 h1
      exact hq ⟨q, (tidy_sound hg htd n v s3 s4 _ h4).1 q rfl⟩

end

/-! ## Examples and what is false -/

/-- Literals that are numbers: 0 and 1 are also Booleans, all but 7 are language tags. -/
def nums : Ext Int Int where
  conc := some
  int := some
  bool n := if n = 0 then some false else if n = 1 then some true else none
  text n := if n = 7 then "" else "en"
  tag s := if s = "" then none else some s
  isTrue n := decide (n = 1)

/-- A graph with literals; sets in the order of the triples. -/
def onto (ts : List (Tm Int × Iri × Tm Int)) : Gr Int := ⟨ts, fun _ l => l⟩

theorem onto_orders (ts : List (Tm Int × Iri × Tm Int)) : (onto ts).Orders := fun _ l => .refl l

theorem onto_neat {ts : List (Tm Int × Iri × Tm Int)} (h : ∀ x ∈ ts, x.1.isLit = false)
    (h1 : ∀ x ∈ ts, ∀ y ∈ ts, x.1 = y.1 → x.2.1 = y.2.1 → x.2.1 ∈ singles.map Iri.v → x.2.2 = y.2.2) :
    (onto ts).Neat :=
  ⟨h, fun _ k hk _ _ ho ho' => h1 _ ho.2 _ ho'.2 rfl rfl (List.mem_map_of_mem hk)⟩

def nm (s : String) : Tm Int := .iri (.o s)

/-- A closed shape that ignores no property and is deactivated. -/
def asleep : List (Tm Int × Iri × Tm Int) :=
  [(nm "S", .v .closed, .lit 1), (nm "S", .v .ignoredProperties, nilT), (nm "S", .v .deactivated, .lit 1)]

/-- A shape with the language 7. -/
def babel : List (Tm Int × Iri × Tm Int) :=
  [(nm "S", .v .languageIn, .bnode "l"), (.bnode "l", .v .first, .lit 7), (.bnode "l", .v .rest, nilT)]

/-- With ignored properties, declared components are lost: a shape that is deactivated is not read so. And there is a
graph at which the reader panics. -/
theorem C118_refuted :
    ¬ (∀ (g : Gr Int) (E : Ext Int Int), g.Orders → g.Neat → ∀ s cs s', s.focus.isLit = false →
      components g E s = (.ok cs, s') → Covers cs (Declared g E s.focus)) ∧
    (∃ (g : Gr Int) (E : Ext Int Int), g.Orders ∧ g.Neat ∧ ∃ s, (components g E s).1 = .panic) := by
  refine ⟨fun h => ?_, onto babel, nums, onto_orders _, onto_neat (by decide) (by decide +kernel), ⟨nm "S", 0⟩, by decide +kernel⟩
  have h1 : (components (onto asleep) nums ⟨nm "S", 0⟩).1 = .ok [.closed true []] := by decide +kernel
  rcases hr : components (onto asleep) nums ⟨nm "S", 0⟩ with ⟨r, s'⟩
  rw [hr] at h1
  cases h1
  obtain ⟨c, hc, hs⟩ := (h (onto asleep) nums (onto_orders _) (onto_neat (by decide) (by decide +kernel)) ⟨nm "S", 0⟩
    [.closed true []] s' rfl hr).2 (.deactivated true)
    (.deactivated (x := .lit 1) ⟨rfl, by decide⟩ ⟨1, rfl, rfl⟩)
  simp only [List.mem_singleton] at hc
  subst hc
  cases hs

/-- A node of which only a constraint is said. -/
def alone : List (Tm Int × Iri × Tm Int) := [(nm "S", .v .cls, nm "C")]

/-- A shape that has a blank node as value; the blank node has a path. -/
def leak : List (Tm Int × Iri × Tm Int) :=
  [(nm "S", .v .type, .iri (.v .NodeShape)), (nm "S", .v .hasValue, .bnode "b"), (.bnode "b", .v .path, nm "p")]

/-- A schema with one entry, a property shape at `S` that is named by the blank node. -/
def strayed : Res (List (Tm Int × Shape Int)) → Bool
  | .ok [(t, .prop p)] => decide (t = nm "S") && decide (p.id = .bnode "b")
  | _ => false

/-- A schema without entries. -/
def blank : Res (List (Tm Int × Shape Int)) → Bool
  | .ok [] => true
  | _ => false

/-- Not all is read: a node of which only constraints are said is a shape (SHACL 2.1), but not read. And as the focus
is not put back when a node shape cannot be read, another node's property shape may be read in its place: the entry of
`S` is a property shape whose name is the blank node. -/
theorem C119_refuted :
    (∃ g : Gr Int, g.Orders ∧ g.Neat ∧ (∃ t c, Declared g nums t c) ∧ ∃ n s s', parse g nums n s = (.ok [], s')) ∧
    (∃ g : Gr Int, g.Orders ∧ g.Neat ∧ ∃ n s p s', parse g nums n s = (.ok [(nm "S", .prop p)], s') ∧
      p.id = .bnode "b" ∧ ¬ Says g nums (nm "S") (.prop p)) := by
  refine ⟨⟨onto alone, onto_orders _, onto_neat (by decide) (by decide +kernel),
    ⟨nm "S", .cls (.iri (.o "C")), .cls ⟨rfl, by decide⟩ .iri⟩, 5, ⟨nilT, 0⟩, ?_⟩,
    onto leak, onto_orders _, onto_neat (by decide) (by decide +kernel), 5, ⟨nilT, 0⟩, ?_⟩
  · have h : blank (parse (onto alone) nums 5 ⟨nilT, 0⟩).1 = true := by decide +kernel
    rcases hr : parse (onto alone) nums 5 ⟨nilT, 0⟩ with ⟨r, s'⟩
    rw [hr] at h
    unfold blank at h
    split at h
    · rename_i he
      cases he
      exact ⟨s', rfl⟩
    · cases h
  · have h : strayed (parse (onto leak) nums 5 ⟨nilT, 0⟩).1 = true := by decide +kernel
    rcases hr : parse (onto leak) nums 5 ⟨nilT, 0⟩ with ⟨r, s'⟩
    rw [hr] at h
    unfold strayed at h
    split at h
    · rename_i t p he
      cases he
      simp only [Bool.and_eq_true, decide_eq_true_eq] at h
      obtain ⟨rfl, h⟩ := h
      refine ⟨p, s', rfl, h, ?_⟩
      rintro ⟨⟨v, hv, -⟩, -⟩
      have := hv.2
      simp [onto, leak, nm] at this
    · cases h

/-- A node shape with a target and a property shape. -/
def person : List (Tm Int × Iri × Tm Int) :=
  [(nm "S", .v .type, .iri (.v .NodeShape)), (nm "S", .v .targetClass, nm "C"), (nm "S", .v .closed, .lit 0),
    (nm "S", .v .property, .bnode "p"), (.bnode "p", .v .path, nm "name"), (.bnode "p", .v .minCount, .lit 1),
    (.bnode "p", .v .severity, .iri (.v .Warning))]

theorem person_neat : (onto person).Neat := onto_neat (by decide) (by decide +kernel)

theorem person_has {t o : Tm Int} {p : Voc} (h : (onto person).Has t p o) : (t, Iri.v p, o) ∈ person := h.2

theorem person_candidates {t : Tm Int} (h : Candidate (onto person) t) : t = nm "S" ∨ t = .bnode "p" := by
  cases h with
  | type hv h =>
    have := person_has h
    simp [person, nm] at this
    exact .inl this.1
  | target hv h =>
    have := person_has h
    simp only [List.mem_cons, List.not_mem_nil, or_false] at hv
    rcases hv with rfl | rfl | rfl | rfl <;> simp [person, nm] at this
    exact .inl this.1
  | value hv h =>
    have := person_has h
    simp only [List.mem_cons, List.not_mem_nil, or_false] at hv
    rcases hv with rfl | rfl | rfl | rfl | rfl <;> simp [person, nm] at this
    exact .inr this.2
  | member hv h =>
    have := person_has h
    simp only [List.mem_cons, List.not_mem_nil, or_false] at hv
    rcases hv with rfl | rfl | rfl <;> simp [person, nm] at this

theorem person_good (t : Tm Int) : Good (onto person) nums t where
  plain o h := by
    have := person_has h
    simp [person] at this
  well := {
    comps := by
      intro k h
      cases h with
      | minCount h1 h2 =>
        have := person_has h1
        simp [person] at this
        rw [this.2] at h2
        exact h2 1 ⟨1, rfl, rfl⟩
      | property _ h1 =>
        have := person_has h1
        simp [person] at this
      | qualifiedDisjoint h1 =>
        have := person_has h1
        simp [person] at this
      | cousin _ h1 =>
        have := person_has h1
        simp [person] at this
      | _ h1 =>
        have := person_has h1
        simp [person] at this
    iris := by
      intro p hp x h
      have := person_has h
      simp only [List.mem_cons, List.not_mem_nil, or_false] at hp
      rcases hp with rfl | rfl | rfl <;> simp [person] at this
      exact ⟨_, this.2⟩
    objs := by
      intro p hp x h
      have := person_has h
      simp only [List.mem_cons, List.not_mem_nil, or_false] at hp
      rcases hp with rfl | rfl <;> simp [person] at this
      rw [this.2]
      exact ⟨_, .bnode⟩ }
  tags := by
    rintro ⟨v, xs, x, h, -⟩
    have := person_has h
    simp [person] at this
  path v h := by
    have := person_has h
    simp [person] at this
    rw [this.2]
    exact ⟨_, .pred⟩

/-- `C119_reads` and `C119_schema` are about this graph. -/
example : ∃ N, ∀ n, N ≤ n → ∀ s, ∃ r s', parse (onto person) nums n s = (.ok r, s') :=
  C119_reads (onto_orders _) person_neat
    (by
      rintro p hp ⟨s, v, h, -⟩
      have := person_has h
      simp only [List.mem_cons, List.not_mem_nil, or_false] at hp
      rcases hp with rfl | rfl | rfl <;> simp [person] at this)
    fun t _ => person_good t

/-- `C118_components_partial`: the components at `S`, and those of a shape with a bad count. -/
example : ∃ cs s', components (onto person) nums ⟨nm "S", 0⟩ = (.ok cs, s') :=
  (C118_components_partial (onto_orders _) person_neat _ rfl (person_good _).plain).2.1.2
    ⟨(person_good _).well.comps, (person_good _).tags⟩

example : (components (onto [(nm "S", .v .minCount, nm "C")]) nums ⟨nm "S", 0⟩).1 = .err := by decide +kernel

/-- `C118_ignored` is about `asleep`. -/
example : ∃ v xs, (onto asleep).Has (nm "S") .ignoredProperties v ∧ (onto asleep).IsList v xs ∧
    (components (onto asleep) nums ⟨nm "S", 0⟩).1 = .ok [.closed true []] :=
  ⟨nilT, [], ⟨rfl, by decide⟩, .nil, by decide +kernel⟩

/-- `C119_rejects_partial`: a property shape with a bad count. -/
example : ∀ n s r s', parse (onto [(nm "S", .v .targetNode, nm "x"), (nm "S", .v .path, nm "p"),
    (nm "S", .v .minCount, nm "C")]) nums n s ≠ (.ok r, s') := fun n s =>
  (C119_rejects_partial (onto_orders _) (onto_neat (by decide) (by decide +kernel)) n s).2 (nm "S") (nm "p")
    (.target (p := .targetNode) (x := nm "x") (by decide) ⟨rfl, by decide⟩) rfl ⟨rfl, by decide⟩
    (.inl ⟨⟨_, .pred⟩, fun o h => by have := h.2; simp [onto] at this,
      .inl fun h => h.comps .minCount (.minCount (x := nm "C") ⟨rfl, by decide⟩ (by rintro _ ⟨_, h, _⟩; cases h))⟩)

end Rd

import Verif.Rd.LemAll

/-!
# Lemmas: how shapes and schemas are read
-/

namespace Rd

section
variable {L A B C : Type} {g : Gr L} {E : Ext L C} [DecidableEq L]

theorem toSev_iff {i : Iri} {s : Sev} : toSev i = s ↔ IsSev i s := by
  constructor
  · rintro rfl
    unfold toSev
    split
    any_goals exact .inl ⟨_, rfl, by decide⟩
    · rename_i h1 h2 h3 h4 h5
      refine .inr ⟨rfl, ?_⟩
      rintro v s' rfl hm
      simp [sevs] at hm
      rcases hm with ⟨rfl, -⟩ | ⟨rfl, -⟩ | ⟨rfl, -⟩ | ⟨rfl, -⟩ | ⟨rfl, -⟩
      · exact h1 rfl
      · exact h2 rfl
      · exact h3 rfl
      · exact h4 rfl
      · exact h5 rfl
  · rintro (⟨v, rfl, hm⟩ | ⟨rfl, h⟩)
    · simp [sevs] at hm
      rcases hm with ⟨rfl, rfl⟩ | ⟨rfl, rfl⟩ | ⟨rfl, rfl⟩ | ⟨rfl, rfl⟩ | ⟨rfl, rfl⟩ <;> rfl
    · unfold toSev
      split
      · exact absurd (by decide) (h .Violation .violation rfl)
      · exact absurd (by decide) (h .Warning .warning rfl)
      · exact absurd (by decide) (h .Info .info rfl)
      · exact absurd (by decide) (h .Debug .debug rfl)
      · exact absurd (by decide) (h .Trace .trace rfl)
      rfl

/-- Targets: what is wrong, and what is read. -/
theorem run_targets (hg : g.Orders) (hn : g.Neat) {s : St L} :
    Run (targets g E) s (fun ts s' => s'.focus = s.focus ∧ (∀ x, x ∈ ts ↔ TargetOf g E s.focus x) ∧
        (∀ p ∈ [Voc.targetClass, .targetSubjectsOf, .targetObjectsOf], ∀ x, g.Has s.focus p x → ∃ i, x = .iri i) ∧
        ∀ x, g.Has s.focus .targetNode x → ∃ o, E.Means x o)
      (¬ WellFormed g E s.focus) False := by
  have hiri : ∀ p ∈ [Voc.targetClass, .targetSubjectsOf, .targetObjectsOf], ∀ s1 : St L, s1.focus = s.focus →
      Run (allOf g p toIri) s1 (fun is s' => s'.focus = s.focus ∧ (∀ i, i ∈ is ↔ g.Has s.focus p (.iri i)) ∧
        ∀ x, g.Has s.focus p x → ∃ i, x = .iri i) (¬ WellFormed g E s.focus) False := by
    intro p hp s1 hs1
    refine (Run.allOf hg).mono ?_ ?_ id
    · rintro is s2 ⟨hs2, h1, h2, -⟩
      rw [hs1] at hs2 h1 h2
      refine ⟨hs2, fun i => (h1 i).trans ?_, fun x hx => ?_⟩
      · constructor
        · rintro ⟨x, hx, h⟩
          rwa [toIri_iff.1 h] at hx
        · exact fun h => ⟨_, h, rfl⟩
      · obtain ⟨i, hi⟩ := Option.ne_none_iff_exists'.1 (h2 x hx)
        exact ⟨i, toIri_iff.1 hi⟩
    · rintro ⟨x, hx, h⟩ hw
      rw [hs1] at hx
      obtain ⟨i, rfl⟩ := hw.iris p hp x hx
      cases h
  refine Run.bind (hiri .targetClass (by simp) s rfl) ?_
  rintro a s1 ⟨hs1, ha, ha'⟩
  refine Run.bind (Q := fun os s' => s'.focus = s.focus ∧ (∀ o, o ∈ os ↔ ∃ x, g.Has s.focus .targetNode x ∧ E.Means x o) ∧
      ∀ x, g.Has s.focus .targetNode x → ∃ o, E.Means x o) ((Run.allOf hg).mono ?_ ?_ id) ?_
  · rintro os s2 ⟨hs2, h1, h2, -⟩
    rw [hs1] at hs2 h1 h2
    refine ⟨hs2, fun o => (h1 o).trans ⟨?_, ?_⟩, fun x hx => ?_⟩
    · exact fun ⟨x, hx, h⟩ => ⟨x, hx, obj_iff.1 h⟩
    · exact fun ⟨x, hx, h⟩ => ⟨x, hx, obj_iff.2 h⟩
    · obtain ⟨i, hi⟩ := Option.ne_none_iff_exists'.1 (h2 x hx)
      exact ⟨i, obj_iff.1 hi⟩
  · rintro ⟨x, hx, h⟩ hw
    rw [hs1] at hx
    obtain ⟨o, ho⟩ := hw.objs .targetNode (by simp) x hx
    exact obj_none.1 h o ho
  rintro b s2 ⟨hs2, hb, hb'⟩
  refine Run.bind (Q := fun ts s' => s'.focus = s.focus ∧ ∀ x, x ∈ ts ↔ ∃ v o, g.Has s.focus .type (.iri (.v .rdfsClass)) ∧
      v ∈ [Voc.NodeShape, .PropertyShape] ∧ g.Has s.focus .type (.iri (.v v)) ∧ E.Means s.focus o ∧
      x = Tgt.implicit o) ?_ ?_
  · refine Run.bind Run.get ?_
    rintro t s3 ⟨rfl, rfl⟩
    have hl : ∀ x, x ∈ ((g.subs .type (.iri (.v .rdfsClass))).filter fun x =>
        (decide (x ∈ g.subs .type (.iri (.v .PropertyShape))) || decide (x ∈ g.subs .type (.iri (.v .NodeShape)))) &&
          decide (x = s3.focus)) ↔ x = s.focus ∧ g.Has s.focus .type (.iri (.v .rdfsClass)) ∧
          ∃ v ∈ [Voc.NodeShape, .PropertyShape], g.Has s.focus .type (.iri (.v v)) := by
      intro x
      simp only [List.mem_filter, has_subs hn, Bool.and_eq_true, Bool.or_eq_true, decide_eq_true_eq, hs2]
      constructor
      · rintro ⟨h1, h2 | h2, rfl⟩
        · exact ⟨rfl, h1, .PropertyShape, by simp, h2⟩
        · exact ⟨rfl, h1, .NodeShape, by simp, h2⟩
      · rintro ⟨rfl, h1, v, hv, h2⟩
        simp only [List.mem_cons, List.not_mem_nil, or_false] at hv
        rcases hv with rfl | rfl
        · exact ⟨h1, .inr h2, rfl⟩
        · exact ⟨h1, .inl h2, rfl⟩
    refine Run.bind (Q := fun os s' => s'.focus = s.focus ∧ List.Forall₂ E.Means _ os)
      ((Run.each (I := fun s' => s'.focus = s.focus) (R := E.Means) (Er := fun _ => False) (Pa := fun _ => False) _ hs2
        ?_).mono (fun _ _ h => ⟨h.1, h.2.1⟩) (by rintro ⟨_, _, h⟩; exact h.elim) (by rintro ⟨_, _, h⟩; exact h)) ?_
    · intro x hx s4 hs4
      refine Run.lift.mono ?_ ?_ id
      · rintro o _ ⟨ho, rfl⟩
        exact ⟨hs4, obj_iff.1 ho, not_false, not_false⟩
      · intro h
        obtain ⟨rfl, ⟨hl', -⟩, -⟩ := (hl x).1 hx
        cases hf : s.focus with
        | lit l => rw [hf] at hl'; cases hl'
        | iri i => rw [hf] at h; cases h
        | bnode i => rw [hf] at h; cases h
    · rintro os s4 ⟨hs4, hF⟩
      refine ⟨hs4, fun x => ?_⟩
      rw [List.mem_map]
      constructor
      · rintro ⟨o, ho, rfl⟩
        obtain ⟨n, hn', rfl⟩ := List.getElem_of_mem ho
        have hlen : n < ((g.subs .type (.iri (.v .rdfsClass))).filter fun x =>
          (decide (x ∈ g.subs .type (.iri (.v .PropertyShape))) || decide (x ∈ g.subs .type (.iri (.v .NodeShape)))) &&
          decide (x = s3.focus)).length := by rw [hF.length_eq]; exact hn'
        obtain ⟨h0, h1, v, hv, h2⟩ := (hl _).1 (List.getElem_mem hlen)
        have := hF.get hlen hn'
        simp only [List.get_eq_getElem] at this
        rw [h0] at this
        exact ⟨v, _, h1, hv, h2, this, rfl⟩
      · rintro ⟨v, o, h1, hv, h2, hm, rfl⟩
        obtain ⟨n, hn', he⟩ := List.getElem_of_mem ((hl s.focus).2 ⟨rfl, h1, v, hv, h2⟩)
        have := hF.get hn' (by rw [← hF.length_eq]; exact hn')
        simp only [List.get_eq_getElem] at this
        rw [he] at this
        rw [means_unique hm this]
        exact ⟨_, List.getElem_mem _, rfl⟩
  rintro c s3 ⟨hs3, hc⟩
  refine Run.bind (hiri .targetSubjectsOf (by simp) s3 hs3) ?_
  rintro d s4 ⟨hs4, hd, hd'⟩
  refine Run.bind (hiri .targetObjectsOf (by simp) s4 hs4) ?_
  rintro e s5 ⟨hs5, he, he'⟩
  refine ⟨hs5, fun x => ?_, ?_, hb'⟩
  · simp only [List.mem_append, List.mem_map]
    constructor
    · rintro ((((⟨i, h, rfl⟩ | ⟨o, h, rfl⟩) | h) | ⟨i, h, rfl⟩) | ⟨i, h, rfl⟩)
      · exact .cls ((ha i).1 h)
      · obtain ⟨y, h1, h2⟩ := (hb o).1 h
        exact .node h1 h2
      · obtain ⟨v, o, h1, h2, h3, h4, rfl⟩ := (hc x).1 h
        exact .implicit h1 h2 h3 h4
      · exact .subjectsOf ((hd i).1 h)
      · exact .objectsOf ((he i).1 h)
    · intro h
      cases h with
      | cls h => exact .inl (.inl (.inl (.inl ⟨_, (ha _).2 h, rfl⟩)))
      | node h1 h2 => exact .inl (.inl (.inl (.inr ⟨_, (hb _).2 ⟨_, h1, h2⟩, rfl⟩)))
      | implicit h1 h2 h3 h4 => exact .inl (.inl (.inr ((hc _).2 ⟨_, _, h1, h2, h3, h4, rfl⟩)))
      | subjectsOf h => exact .inl (.inr ⟨_, (hd _).2 h, rfl⟩)
      | objectsOf h => exact .inr ⟨_, (he _).2 h, rfl⟩
  · intro p hp
    simp only [List.mem_cons, List.not_mem_nil, or_false] at hp
    rcases hp with rfl | rfl | rfl
    · exact ha'
    · exact hd'
    · exact he'

theorem mem_keys (k : Key) : k ∈ keys := by cases k <;> decide

/-- Components of a node without ignored properties. -/
theorem run_components (hg : g.Orders) (hn : g.Neat) {s : St L} (ht : s.focus.isLit = false)
    (hl : g.Lacks s.focus .ignoredProperties) :
    Run (components g E) s (fun cs s' => s'.focus = s.focus ∧ (∀ k, ¬ Malformed g E s.focus k) ∧ ¬ BadTag g E s.focus ∧
        Covers cs (Declared g E s.focus))
      (∃ k, Malformed g E s.focus k) (BadTag g E s.focus) := by
  have hw : ∀ k, place s.focus s.focus k = s.focus := by intro k; cases k <;> rfl
  refine (components_run hg hn ht ht (key_closed_none hg hn hl) s rfl).mono ?_ ?_ ?_
  · rintro cs s' ⟨h1, h2, h3, h4, h5⟩
    refine ⟨h1, fun k => by simpa [hw] using h2 k (mem_keys k), by simpa [hw] using h3 (mem_keys _), fun c hc => ?_,
      fun c hc => ?_⟩
    · simpa [hw] using (h4 c hc).1
    · exact h5 c ⟨by rw [hw]; exact hc, mem_keys _⟩
  · rintro ⟨k, -, h⟩
    rw [hw] at h
    exact ⟨k, h⟩
  · rintro ⟨-, h⟩
    rwa [hw] at h

/-- The part that node shapes and property shapes share. -/
theorem run_body (hg : g.Orders) (hn : g.Neat) {s : St L} (ht : s.focus.isLit = false)
    (hl : g.Lacks s.focus .ignoredProperties) :
    Run (do
      let ts ← targets g E
      let ps ← allOf g .property E.obj
      let cs ← components g E
      ret (ts, ps, cs)) s (fun r s' => s'.focus = s.focus ∧ (∀ x, x ∈ r.1 ↔ TargetOf g E s.focus x) ∧
        (∀ o, o ∈ r.2.1 ↔ ∃ x, g.Has s.focus .property x ∧ E.Means x o) ∧ Covers r.2.2 (Declared g E s.focus) ∧
        WellFormed g E s.focus ∧ ¬ BadTag g E s.focus)
      (¬ WellFormed g E s.focus) (BadTag g E s.focus) := by
  refine Run.bind ((run_targets hg hn).mono (fun _ _ h => h) id False.elim) ?_
  rintro ts s1 ⟨hs1, h1, h2, h3⟩
  refine Run.bind (Q := fun os s' => s'.focus = s.focus ∧ (∀ o, o ∈ os ↔ ∃ x, g.Has s.focus .property x ∧ E.Means x o) ∧
      ∀ x, g.Has s.focus .property x → ∃ o, E.Means x o) ((Run.allOf hg).mono ?_ ?_ id) ?_
  · rintro os s2 ⟨hs2, h1, h2, -⟩
    rw [hs1] at hs2 h1 h2
    refine ⟨hs2, fun o => (h1 o).trans ⟨?_, ?_⟩, fun x hx => ?_⟩
    · exact fun ⟨x, hx, h⟩ => ⟨x, hx, obj_iff.1 h⟩
    · exact fun ⟨x, hx, h⟩ => ⟨x, hx, obj_iff.2 h⟩
    · obtain ⟨i, hi⟩ := Option.ne_none_iff_exists'.1 (h2 x hx)
      exact ⟨i, obj_iff.1 hi⟩
  · rintro ⟨x, hx, h⟩ hw
    rw [hs1] at hx
    obtain ⟨o, ho⟩ := hw.objs .property (by simp) x hx
    exact obj_none.1 h o ho
  rintro ps s2 ⟨hs2, h4, h5⟩
  refine Run.bind ((run_components hg hn (by rw [hs2]; exact ht) (by rw [hs2]; exact hl)).mono (fun _ _ h => h) ?_ ?_) ?_
  · rintro ⟨k, h⟩ hw
    rw [hs2] at h
    exact hw.comps k h
  · rw [hs2]
    exact id
  rintro cs s3 ⟨hs3, h6, h7, h8⟩
  rw [hs2] at hs3 h6 h7 h8
  refine ⟨hs3, h1, h4, h8, ⟨h6, h2, ?_⟩, h7⟩
  intro p hp
  simp only [List.mem_cons, List.not_mem_nil, or_false] at hp
  rcases hp with rfl | rfl
  · exact h3
  · exact h5

theorem run_severity (hg : g.Orders) (hn : g.Neat) {s : St L} {Er Pa : Prop} :
    Run (Rd.optional (oneOf g .severity toIri)) s (fun o s' => s'.focus = s.focus ∧
      Opt (fun v => ∃ i, g.Has s.focus .severity (.iri i) ∧ IsSev i v) (o.map toSev)) Er Pa := by
  refine (Run.optOne hg (P := fun x i => x = .iri i) (fun _ _ => toIri_iff)
    (hn.one _ .severity (by simp [singles]))).mono ?_ id id
  rintro o s' ⟨hs, ho⟩
  refine ⟨hs, ?_⟩
  cases o with
  | none =>
    rintro v ⟨i, h, -⟩
    exact ho i ⟨_, h, rfl⟩
  | some i =>
    obtain ⟨x, hx, rfl⟩ := ho
    exact ⟨i, hx, toSev_iff.1 rfl⟩

theorem run_nodeShape (hg : g.Orders) (hn : g.Neat) {s : St L} (ht : s.focus.isLit = false)
    (hp : g.Lacks s.focus .path) (hl : g.Lacks s.focus .ignoredProperties) :
    Run (nodeShapeP g E) s (fun r _ => IsShape g E s.focus r ∧ WellFormed g E s.focus ∧ ¬ BadTag g E s.focus)
      (¬ WellFormed g E s.focus) (BadTag g E s.focus) := by
  refine Run.bind (Q := fun _ s' => s'.focus = s.focus) ?_ ?_
  · have hv : g.ord s.reads (g.objs s.focus (.v .path)) = [] := by
      rw [objs_lacks hp]
      exact List.perm_nil.1 (hg _ _)
    simp [Run, notP, nonEmpty, Rd.values, Bind.bind, andThen, hv, fail]
  rintro _ s1 hs1
  refine Run.bind Run.get ?_
  rintro t s2 ⟨rfl, rfl⟩
  rw [← hs1] at ht hp hl ⊢
  refine Run.bind (Q := fun o s' => s' = s2 ∧ E.Means s2.focus o) (Run.lift.mono ?_ ?_ id) ?_
  · rintro o _ ⟨ho, rfl⟩
    exact ⟨rfl, obj_iff.1 ho⟩
  · intro h
    cases hf : s2.focus with
    | lit l => rw [hf] at ht; cases ht
    | iri i => rw [hf] at h; cases h
    | bnode i => rw [hf] at h; cases h
  rintro id s3 ⟨rfl, hid⟩
  refine Run.bind (run_severity hg hn) ?_
  rintro sev s4 ⟨hs4, hsev⟩
  have hb := run_body (E := E) hg hn (s := s4) (by rw [hs4]; exact ht) (by rw [hs4]; exact hl)
  rw [hs4] at hb
  have : (targets g E >>= fun ts => allOf g .property E.obj >>= fun ps => components g E >>= fun cs =>
      ret (⟨id, sev.map toSev, ts, ps, cs⟩ : NodeShape C)) = ((do
      let ts ← targets g E
      let ps ← allOf g .property E.obj
      let cs ← components g E
      ret (ts, ps, cs)) >>= fun r => ret ⟨id, sev.map toSev, r.1, r.2.1, r.2.2⟩) := by
    funext s
    simp only [Bind.bind, andThen]
    rcases targets g E s with ⟨_ | _ | _ | _, s1⟩ <;> try rfl
    dsimp only
    rcases allOf g .property E.obj s1 with ⟨_ | _ | _ | _, s2⟩ <;> try rfl
    dsimp only
    rcases components g E s2 with ⟨_ | _ | _ | _, s3⟩ <;> rfl
  change Run (targets g E >>= fun ts => allOf g .property E.obj >>= fun ps => components g E >>= fun cs =>
      ret (⟨id, sev.map toSev, ts, ps, cs⟩ : NodeShape C)) s4 _ _ _
  rw [this]
  refine Run.bind hb ?_
  rintro ⟨ts, ps, cs⟩ s5 ⟨-, h1, h2, h3, h4, h5⟩
  exact ⟨⟨hid, hsev, h1, h2, h3⟩, h4, h5⟩

end

end Rd

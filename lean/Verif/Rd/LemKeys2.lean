import Verif.Rd.LemKeys

/-!
# Lemmas: closed shapes, qualified value shapes, and all components together
-/

namespace Rd

section
variable {L A B C : Type} {g : Gr L} {E : Ext L C} [DecidableEq L]

theorem opt_unique {P : A → Prop} (hP : ∀ a b, P a → P b → a = b) {o o' : Option A} (h : Opt P o) (h' : Opt P o') :
    o = o' := by
  cases o with
  | none =>
    cases o' with
    | none => rfl
    | some b => exact absurd h' (h b)
  | some a =>
    cases o' with
    | none => exact absurd h (h' a)
    | some b => rw [hP a b h h']

theorem isBool_unique {x : Tm L} {b b' : Bool} (h : E.IsBool x b) (h' : E.IsBool x b') : b = b' := by
  rw [← toBool_iff] at h h'
  exact Option.some.inj (h.symm.trans h')

theorem isInt_unique {x : Tm L} {b b' : Int} (h : E.IsInt x b) (h' : E.IsInt x b') : b = b' := by
  rw [← toInt_iff] at h h'
  exact Option.some.inj (h.symm.trans h')

theorem isConc_unique {x : Tm L} {b b' : C} (h : E.IsConc x b) (h' : E.IsConc x b') : b = b' := by
  rw [← toConc_iff] at h h'
  exact Option.some.inj (h.symm.trans h')

theorem closed_opt (hn : g.Neat) {t : Tm L} {b b' : Bool} {x : Tm L} (h : g.Has t .closed x) (hx : E.IsBool x b)
    (h' : ∃ x, g.Has t .closed x ∧ E.IsBool x b') : b = b' := by
  obtain ⟨y, hy, hb⟩ := h'
  rw [hn.one _ .closed (by simp [singles]) _ _ h hy] at hx
  exact isBool_unique hx hb

theorem run_ignored_none (hg : g.Orders) {s : St L} (hl : g.Lacks s.focus .ignoredProperties) {Er Pa : Prop} :
    Run (Rd.optional (oneList g .ignoredProperties)) s (fun o s' => o = none ∧ s'.focus = s.focus) Er Pa := by
  have he : ErrAt (oneList g .ignoredProperties) s fun s' => s'.focus = s.focus := by
    intro s' h
    rcases bind_err_iff.1 h with h | ⟨a, s1, h, -⟩
    · exact single_err h
    · have := Run.single hg (p := .ignoredProperties) (s := s) (Pa := False)
      unfold Run at this
      rw [h] at this
      exact absurd this.2 (hl a)
  refine (Run.optional_at (Q := fun _ _ => False) (Er := True) (Pa := Pa) ?_ he ?_ ?_).mono (fun _ _ h => h)
    False.elim id
  · refine Run.bind (Q := fun _ _ => False)
      ((Run.single hg).mono (fun v _ h => (hl v h.2).elim) (fun _ => trivial) id) ?_
    exact fun _ _ h => h.elim
  · exact fun _ _ h => h.elim
  · exact fun s' _ h => ⟨rfl, h⟩

theorem run_ignored_some (hg : g.Orders) (hn : g.Neat) {s : St L} {v : Tm L} (hv : g.Has s.focus .ignoredProperties v)
    {xs : List (Tm L)} (hx : g.IsList v xs) {Er Pa : Prop} :
    Run (Rd.optional (oneList g .ignoredProperties)) s (fun o s' => o = some xs ∧ s'.focus = nilT) Er Pa := by
  refine (Run.optional (Q := fun ys s' => ys = xs ∧ s'.focus = nilT) (Er := False) (Pa := Pa) ?_ ?_ ?_).mono
    (fun _ _ h => h) False.elim id
  · refine Run.bind ((Run.single hg).mono (fun _ _ h => h) (fun h => h v hv) id) ?_
    rintro w s1 ⟨hs1, hw⟩
    cases hn.one _ .ignoredProperties (by simp [singles]) _ _ hv hw
    refine Run.bind Run.set ?_
    rintro _ s2 rfl
    refine (Run.list hg hn).mono ?_ (fun h => h xs hx) id
    rintro ys s3 ⟨hy, hs3⟩
    exact ⟨isList_unique hy hx, hs3⟩
  · rintro ys s' ⟨rfl, h⟩
    exact ⟨rfl, h⟩
  · exact False.elim

theorem key_closed_none (hg : g.Orders) (hn : g.Neat) {t : Tm L} (hl : g.Lacks t .ignoredProperties) :
    KeyRun g E (closedP g E) .closed t t := by
  rintro s rfl
  refine Run.bind (Run.optOne hg (P := E.IsBool) (fun _ _ => toBool_iff) (hn.one _ .closed (by simp [singles]))) ?_
  rintro o s1 ⟨hs1, ho⟩
  refine Run.bind (run_ignored_none hg (hs1 ▸ hl)) ?_
  rintro _ s2 ⟨rfl, hs2⟩
  have hm : ¬ Malformed g E s.focus .closed := by
    rintro ⟨⟩
    exact hl _ ‹_›
  refine Run.bind (Q := fun is s' => is = [] ∧ s'.focus = s2.focus) ⟨rfl, rfl⟩ ?_
  rintro _ s3 ⟨rfl, hs3⟩
  cases o with
  | none =>
    refine ⟨hs3.trans (hs2.trans hs1), hm, nofun, by simp, ?_⟩
    rintro c ⟨h, hk⟩
    cases h <;> simp [Comp.key] at hk
    · rename_i x b v is h1 h2 h3 h4
      exact absurd ⟨x, h1, h2⟩ (ho b)
    · rename_i x b h1 h2 h3
      exact absurd ⟨x, h1, h2⟩ (ho b)
  | some b =>
    refine ⟨hs3.trans (hs2.trans hs1), hm, nofun, ?_, ?_⟩
    · intro c hc
      simp only [List.mem_singleton] at hc
      subst hc
      obtain ⟨x, h1, h2⟩ := ho
      exact ⟨.justClosed h1 h2 hl, rfl⟩
    · rintro c ⟨h, hk⟩
      cases h <;> simp [Comp.key] at hk
      · rename_i x b v is h1 h2 h3 h4
        exact absurd h3 (hl _)
      · rename_i x b' h1 h2 h3
        rw [closed_opt hn h1 h2 ho]
        exact ⟨_, List.mem_singleton.2 rfl, .refl⟩

theorem key_closed_list (hg : g.Orders) (hn : g.Neat) {t v : Tm L} (hv : g.Has t .ignoredProperties v)
    {xs : List (Tm L)} (hx : g.IsList v xs) : KeyRun g E (closedP g E) .closed t nilT := by
  rintro s rfl
  refine Run.bind (Run.optOne hg (P := E.IsBool) (fun _ _ => toBool_iff) (hn.one _ .closed (by simp [singles]))) ?_
  rintro o s1 ⟨hs1, ho⟩
  refine Run.bind (run_ignored_some hg hn (hs1 ▸ hv) hx) ?_
  rintro _ s2 ⟨rfl, hs2⟩
  refine Run.bind (Q := fun is s' => xs = is.map .iri ∧ s'.focus = nilT) ?_ ?_
  · refine (Run.each (I := fun s' => s'.focus = nilT) (R := fun x i => x = .iri i) (Er := fun x => ∀ i, x ≠ .iri i)
      (Pa := fun _ => False) xs hs2 ?_).mono ?_ ?_ ?_
    · intro x _ s3 hs3
      refine Run.lift.mono ?_ ?_ id
      · rintro i _ ⟨hi, rfl⟩
        exact ⟨hs3, toIri_iff.1 hi, fun h => h i (toIri_iff.1 hi), not_false⟩
      · intro h i hi
        rw [← toIri_iff, h] at hi
        cases hi
    · rintro is s3 ⟨hs3, hR, -⟩
      refine ⟨?_, hs3⟩
      clear hx
      induction hR with
      | nil => rfl
      | cons h _ ih => rw [List.map_cons, h, ih]
    · rintro ⟨x, hm, h⟩
      exact .ignored hv hx hm h
    · rintro ⟨_, _, h⟩
      exact h.elim
  · rintro is s3 ⟨his, hs3⟩
    subst his
    have hm : ¬ Malformed g E s.focus .closed := by
      rintro ⟨⟩
      rename_i w ys y h1 h2 h3 h4
      cases hn.one _ .ignoredProperties (by simp [singles]) _ _ hv h1
      cases isList_unique hx h2
      obtain ⟨i, -, rfl⟩ := List.mem_map.1 h3
      exact h4 i rfl
    cases o with
    | none =>
      refine ⟨hs3, hm, nofun, by simp, ?_⟩
      rintro c ⟨h, hk⟩
      cases h <;> simp [Comp.key] at hk
      · rename_i x b v is h1 h2 h3 h4
        exact absurd ⟨x, h1, h2⟩ (ho b)
      · rename_i x b h1 h2 h3
        exact absurd ⟨x, h1, h2⟩ (ho b)
    | some b =>
      refine ⟨hs3, hm, nofun, ?_, ?_⟩
      · intro c hc
        simp only [List.mem_singleton] at hc
        subst hc
        obtain ⟨x, h1, h2⟩ := ho
        exact ⟨.closed h1 h2 hv hx, rfl⟩
      · rintro c ⟨h, hk⟩
        cases h <;> simp [Comp.key] at hk
        · rename_i x b' w is' h1 h2 h3 h4
          cases hn.one _ .ignoredProperties (by simp [singles]) _ _ hv h3
          have : is' = is := by
            have := isList_unique hx h4
            exact (List.map_injective_iff.2 (fun a b h => by cases h; rfl) this).symm
          rw [closed_opt hn h1 h2 ho, this]
          exact ⟨_, List.mem_singleton.2 rfl, .refl⟩
        · rename_i x b' h1 h2 h3
          exact absurd hv (h3 v)

/-! ## Qualified value shapes -/

theorem has_subs (hn : g.Neat) {p : Voc} {s o : Tm L} : s ∈ g.subs p o ↔ g.Has s p o := by
  simp only [Gr.subs, List.mem_dedup, List.mem_map, List.mem_filter, decide_eq_true_eq, Gr.Has]
  constructor
  · rintro ⟨⟨a, b, c⟩, ⟨h, rfl, rfl⟩, rfl⟩
    exact ⟨hn.rdf _ h, h⟩
  · rintro ⟨-, h⟩
    exact ⟨_, ⟨h, rfl, rfl⟩, rfl⟩

theorem run_cousins (hg : g.Orders) {t : Tm L} {s : St L} (ht : t.isLit = false) :
    Run (cousins g t) s (fun xs s' => s'.focus = s.focus ∧
        (∀ x, x ∈ xs ↔ ∃ p, g.Has t .property p ∧ g.Has p .qualifiedValueShape x) ∧
        ∀ l, ¬ g.Has t .property (.lit l))
      (∃ l, g.Has t .property (.lit l)) False := by
  refine Run.bind ((Run.objsFor hg).mono (fun _ _ h => h) (fun h => by simp [ht] at h) id) ?_
  rintro ps s1 ⟨hs1, hps, -⟩
  refine Run.bind (Q := fun os s' => s'.focus = s.focus ∧
      List.Forall₂ (fun p xs => ∀ x, x ∈ xs ↔ g.Has p .qualifiedValueShape x) ps os ∧ ∀ p ∈ ps, ¬ p.isLit = true)
    ((Run.each (I := fun s' => s'.focus = s.focus) (Er := fun p => p.isLit = true) (Pa := fun _ => False) ps hs1 ?_).mono
      (fun _ _ h => ⟨h.1, h.2.1, h.2.2.1⟩) ?_ ?_) ?_
  · intro p _ s2 hs2
    refine (Run.objsFor hg).mono ?_ id id
    rintro xs s3 ⟨hs3, hx, hl⟩
    exact ⟨hs3.trans hs2, hx, by simp [hl], not_false⟩
  · rintro ⟨p, hp, h⟩
    cases p with
    | lit l => exact ⟨l, (hps _).1 hp⟩
    | iri _ => cases h
    | bnode _ => cases h
  · rintro ⟨_, _, h⟩
    exact h
  · rintro os s2 ⟨hs2, hR, hl⟩
    refine ⟨hs2, fun x => ?_, fun l h => hl _ ((hps _).2 h) rfl⟩
    rw [List.mem_flatten]
    constructor
    · rintro ⟨xs, hxs, hx⟩
      obtain ⟨n, hn, rfl⟩ := List.getElem_of_mem hxs
      exact ⟨_, (hps _).1 (List.getElem_mem (by rw [hR.length_eq]; exact hn)),
        (hR.get (by rw [hR.length_eq]; exact hn) hn x).1 hx⟩
    · rintro ⟨p, hp, hx⟩
      obtain ⟨n, hn, rfl⟩ := List.getElem_of_mem ((hps p).2 hp)
      exact ⟨_, List.getElem_mem (by rw [← hR.length_eq]; exact hn),
        (hR.get hn (by rw [← hR.length_eq]; exact hn) x).2 hx⟩

/-- What may be wrong with siblings. -/
def BadSiblings (g : Gr L) (E : Ext L C) (t : Tm L) : Prop :=
  (∃ x, g.Has t .qualifiedValueShapesDisjoint x ∧ ∀ o, ¬ E.Means x o) ∨
  (Disjoint g E t ∧ (∃ q, g.Has t .qualifiedValueShape q) ∧
    ((∃ s l, g.Has s .property t ∧ g.Has s .property (.lit l)) ∨ ∃ x, Cousin g t x ∧ ∀ o, ¬ E.Means x o))

theorem run_siblings (hg : g.Orders) (hn : g.Neat) {s : St L} (ht : s.focus.isLit = false) :
    Run (siblings g E) s (fun os s' => s'.focus = s.focus ∧ ¬ BadSiblings g E s.focus ∧
        ∀ o, o ∈ os ↔ Sibling g E s.focus o)
      (BadSiblings g E s.focus) False := by
  refine Run.bind Run.get ?_
  rintro t s0 ⟨rfl, rfl⟩
  generalize hte : s0.focus = t at *
  refine Run.bind ((Run.objsFor hg).mono (fun _ _ h => h) (fun h => by simp [ht] at h) id) ?_
  rintro ds s1 ⟨hs1, hds, -⟩
  rw [hte] at hs1
  have h1 := hn.one t .qualifiedValueShapesDisjoint (by simp [singles])
  cases ds with
  | nil =>
    have hno : ∀ x, ¬ g.Has t .qualifiedValueShapesDisjoint x := fun x h => by simpa using (hds x).2 h
    refine ⟨hs1, ?_, fun o => ?_⟩
    · rintro (⟨x, h, -⟩ | ⟨⟨x, _, h, -⟩, -⟩) <;> exact hno x h
    · simp only [List.not_mem_nil, false_iff]
      rintro ⟨⟨x, _, h, -⟩, -⟩
      exact hno x h
  | cons d ds =>
    have hd : g.Has t .qualifiedValueShapesDisjoint d := (hds d).1 (by simp)
    refine Run.bind (Run.lift.mono (fun _ _ h => h) (fun h => .inl ⟨d, hd, obj_none.1 h⟩) id) ?_
    rintro od s2 ⟨hod, rfl⟩
    have hod := obj_iff.1 hod
    have hnot : (¬ Disjoint g E t) → s2.focus = t ∧ ¬ BadSiblings g E t ∧ ∀ o, o ∈ ([] : List (Ob C)) ↔ Sibling g E t o := by
      refine fun h => ⟨hs1, ?_, fun o => ?_⟩
      · rintro (⟨x, hx, hx'⟩ | ⟨hD, -⟩)
        · cases h1 _ _ hd hx
          exact hx' _ hod
        · exact h hD
      · simp only [List.not_mem_nil, false_iff]
        exact fun hS => h hS.1
    have hdis : ∀ c, E.IsConc d c → E.isTrue c = false → ¬ Disjoint g E t := by
      rintro c hc hf ⟨x, c', hx, hc', ht'⟩
      cases h1 _ _ hd hx
      cases isConc_unique hc hc'
      rw [hf] at ht'
      cases ht'
    cases hod with
    | iri =>
      refine hnot ?_
      rintro ⟨x, c', hx, ⟨l, rfl, -⟩, -⟩
      cases h1 _ _ hd hx
    | bnode =>
      refine hnot ?_
      rintro ⟨x, c', hx, ⟨l, rfl, -⟩, -⟩
      cases h1 _ _ hd hx
    | @lit l c hc =>
      change Run (if E.isTrue c then _ else ret []) s2 _ _ _
      by_cases hT : E.isTrue c = true
      · rw [if_pos hT]
        have hD : Disjoint g E t := ⟨_, c, hd, ⟨l, rfl, hc⟩, hT⟩
        refine Run.bind ((Run.objsFor hg).mono (fun _ _ h => h) (fun h => by simp [ht] at h) id) ?_
        rintro qs s3 ⟨hs3, hqs, -⟩
        by_cases hq : qs = []
        · rw [if_pos hq]
          have hnq : ∀ q, ¬ g.Has t .qualifiedValueShape q := fun q h => by simpa [hq] using (hqs q).2 h
          refine ⟨hs3.trans hs1, ?_, fun o => ?_⟩
          · rintro (⟨x, hx, hx'⟩ | ⟨-, ⟨q, h⟩, -⟩)
            · cases h1 _ _ hd hx
              exact hx' _ (.lit hc)
            · exact hnq q h
          · simp only [List.not_mem_nil, false_iff]
            rintro ⟨-, ⟨q, h⟩, -⟩
            exact hnq q h
        · rw [if_neg hq]
          have hqe : ∃ q, g.Has t .qualifiedValueShape q := by
            obtain ⟨q, hq⟩ := List.exists_mem_of_ne_nil _ hq
            exact ⟨q, (hqs q).1 hq⟩
          refine Run.bind (Q := fun ss s' => s'.focus = t ∧ List.Forall₂ (fun p xs => ∀ x, x ∈ xs ↔
              ∃ q, g.Has p .property q ∧ g.Has q .qualifiedValueShape x) (g.subs .property t) ss ∧
              ∀ p ∈ g.subs .property t, ¬ ∃ l, g.Has p .property (.lit l))
            ((Run.each (I := fun s' => s'.focus = t) (Er := fun p => ∃ l, g.Has p .property (.lit l))
              (Pa := fun _ => False) _ (hs3.trans hs1) ?_).mono (fun _ _ h => ⟨h.1, h.2.1, h.2.2.1⟩) ?_ ?_) ?_
          · intro p hp s4 hs4
            refine (run_cousins hg ((has_subs hn).1 hp).1).mono ?_ id id
            rintro xs s5 ⟨hs5, hx, hl⟩
            exact ⟨hs5.trans hs4, hx, fun ⟨l, h⟩ => hl l h, not_false⟩
          · rintro ⟨p, hp, l, h⟩
            exact .inr ⟨hD, hqe, .inl ⟨p, l, (has_subs hn).1 hp, h⟩⟩
          · rintro ⟨_, _, h⟩
            exact h.elim
          · rintro ss s4 ⟨hs4, hR, hl⟩
            have hc' : ∀ x, x ∈ ss.flatten.filter (fun s => decide (s ∉ qs)) ↔ Cousin g t x := by
              intro x
              simp only [List.mem_filter, List.mem_flatten, decide_eq_true_eq, hqs]
              constructor
              · rintro ⟨⟨xs, hxs, hx⟩, hnx⟩
                obtain ⟨n, hn', rfl⟩ := List.getElem_of_mem hxs
                obtain ⟨q, h1, h2⟩ := (hR.get (by rw [hR.length_eq]; exact hn') hn' x).1 hx
                exact ⟨_, q, (has_subs hn).1 (List.getElem_mem (by rw [hR.length_eq]; exact hn')), h1, h2, hnx⟩
              · rintro ⟨p, q, h1, h2, h3, h4⟩
                obtain ⟨n, hn', rfl⟩ := List.getElem_of_mem ((has_subs hn).2 h1)
                exact ⟨⟨_, List.getElem_mem (by rw [← hR.length_eq]; exact hn'),
                  (hR.get hn' (by rw [← hR.length_eq]; exact hn') x).2 ⟨q, h2, h3⟩⟩, h4⟩
            refine (Run.each (I := fun s' => s'.focus = t) (R := E.Means) (Er := fun x => ∀ o, ¬ E.Means x o)
              (Pa := fun _ => False) _ hs4 ?_).mono ?_ ?_ ?_
            · intro x _ s5 hs5
              refine Run.lift.mono ?_ obj_none.1 id
              rintro o _ ⟨ho, rfl⟩
              exact ⟨hs5, obj_iff.1 ho, fun h => h o (obj_iff.1 ho), not_false⟩
            · rintro os s5 ⟨hs5, hF, hE, -⟩
              refine ⟨hs5, ?_, fun o => ⟨fun ho => ?_, ?_⟩⟩
              · rintro (⟨x, hx, hx'⟩ | ⟨-, -, ⟨p, l, h1, h2⟩ | ⟨x, hx, hx'⟩⟩)
                · cases h1 _ _ hd hx
                  exact hx' _ (.lit hc)
                · exact hl p ((has_subs hn).2 h1) ⟨l, h2⟩
                · exact hE x ((hc' x).2 hx) hx'
              · obtain ⟨n, hn', rfl⟩ := List.getElem_of_mem ho
                exact ⟨hD, hqe, _, (hc' _).1 (List.getElem_mem (by rw [hF.length_eq]; exact hn')),
                  hF.get (by rw [hF.length_eq]; exact hn') hn'⟩
              · rintro ⟨-, -, x, hx, hm⟩
                obtain ⟨n, hn', rfl⟩ := List.getElem_of_mem ((hc' x).2 hx)
                have := hF.get hn' (by rw [← hF.length_eq]; exact hn')
                rw [means_unique hm this]
                exact List.getElem_mem _
            · rintro ⟨x, hx, h⟩
              exact .inr ⟨hD, hqe, .inr ⟨x, (hc' x).1 hx, h⟩⟩
            · rintro ⟨_, _, h⟩
              exact h
      · rw [if_neg hT]
        exact hnot (hdis c ⟨l, rfl, hc⟩ (by simpa using hT))

theorem malformed_qualified {t : Tm L} : Malformed g E t .qualified ↔
    (∃ x, g.Has t .qualifiedValueShape x ∧ ∀ o, ¬ E.Means x o) ∨ BadSiblings g E t := by
  constructor
  · intro h
    cases h with
    | qualified h1 h2 => exact .inl ⟨_, h1, h2⟩
    | qualifiedDisjoint h1 h2 => exact .inr (.inl ⟨_, h1, h2⟩)
    | property h1 h2 h3 h4 => exact .inr (.inr ⟨h1, ⟨_, h2⟩, .inl ⟨_, _, h3, h4⟩⟩)
    | cousin h1 h2 h3 h4 => exact .inr (.inr ⟨h1, ⟨_, h2⟩, .inr ⟨_, h3, h4⟩⟩)
  · rintro (⟨x, h1, h2⟩ | ⟨x, h1, h2⟩ | ⟨h1, ⟨q, h2⟩, ⟨s, l, h3, h4⟩ | ⟨x, h3, h4⟩⟩)
    · exact .qualified h1 h2
    · exact .qualifiedDisjoint h1 h2
    · exact .property h1 h2 h3 h4
    · exact .cousin h1 h2 h3 h4

theorem key_qualified (hg : g.Orders) (hn : g.Neat) {t : Tm L} (ht : t.isLit = false) :
    KeyRun g E (qualifiedP g E) .qualified t t := by
  rintro s rfl
  refine Run.bind ((Run.allOf hg).mono (fun _ _ h => h) ?_ id) ?_
  · rintro ⟨x, hx, h⟩
    exact .qualified hx (obj_none.1 h)
  rintro qs s1 ⟨hs1, hqs, hqn, -⟩
  rw [← hs1] at ht hqs hqn ⊢
  refine Run.bind (Run.optOne hg (P := E.IsBool) (fun _ _ => toBool_iff)
    (hn.one _ .qualifiedValueShapesDisjoint (by simp [singles]))) ?_
  rintro d s2 ⟨hs2, hd⟩
  rw [← hs2] at ht hqs hqn hd ⊢
  refine Run.bind (Run.optOne hg (P := E.IsInt) (fun _ _ => toInt_iff)
    (hn.one _ .qualifiedMinCount (by simp [singles]))) ?_
  rintro mn s3 ⟨hs3, hmn⟩
  rw [← hs3] at ht hqs hqn hd hmn ⊢
  refine Run.bind (Run.optOne hg (P := E.IsInt) (fun _ _ => toInt_iff)
    (hn.one _ .qualifiedMaxCount (by simp [singles]))) ?_
  rintro mx s4 ⟨hs4, hmx⟩
  rw [← hs4] at ht hqs hqn hd hmn hmx ⊢
  refine Run.bind ((run_siblings hg hn ht).mono (fun _ _ h => h) (fun h => malformed_qualified.2 (.inr h)) False.elim) ?_
  rintro ss s5 ⟨hs5, hb, hss⟩
  refine ⟨hs5, fun h => ?_, nofun, fun c hc => ?_, ?_⟩
  · rcases malformed_qualified.1 h with ⟨x, hx, h⟩ | h
    · exact hqn x hx (obj_none.2 h)
    · exact hb h
  · obtain ⟨q, hq, rfl⟩ := List.mem_map.1 hc
    obtain ⟨x, hx, h⟩ := (hqs q).1 hq
    exact ⟨.qualified hx (obj_iff.1 h) hmn hmx hd hss, rfl⟩
  · rintro c ⟨h, hk⟩
    cases h <;> simp [Comp.key] at hk
    rename_i x o mn' mx' d' ss' h1 h2 h3 h4 h5 h6
    refine ⟨_, List.mem_map.2 ⟨o, (hqs o).2 ⟨x, h1, obj_iff.2 h2⟩, rfl⟩, ?_⟩
    have e1 : mn = mn' := opt_unique (fun a b ⟨x, hx, ha⟩ ⟨y, hy, hb⟩ => by
      cases hn.one _ .qualifiedMinCount (by simp [singles]) _ _ hx hy
      exact isInt_unique ha hb) hmn h3
    have e2 : mx = mx' := opt_unique (fun a b ⟨x, hx, ha⟩ ⟨y, hy, hb⟩ => by
      cases hn.one _ .qualifiedMaxCount (by simp [singles]) _ _ hx hy
      exact isInt_unique ha hb) hmx h4
    have e3 : d = d' := opt_unique (fun a b ⟨x, hx, ha⟩ ⟨y, hy, hb⟩ => by
      cases hn.one _ .qualifiedValueShapesDisjoint (by simp [singles]) _ _ hx hy
      exact isBool_unique ha hb) hd h5
    rw [e1, e2, e3]
    exact .qualified fun s => (hss s).trans (h6 s).symm

end

end Rd

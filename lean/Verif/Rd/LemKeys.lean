import Verif.Rd.LemComp

/-!
# Lemmas: all kinds of components
-/

namespace Rd

section
variable {L A B C : Type} {g : Gr L} {E : Ext L C} [DecidableEq L]

theorem key_iri (hg : g.Orders) {key : Key} {t : Tm L} {p : Voc} {mk : Iri → Comp C}
    (hd : ∀ c, (Declared g E t c ∧ c.key = key) ↔ ∃ i, g.Has t p (.iri i) ∧ c = mk i)
    (hm : Malformed g E t key ↔ ∃ x, g.Has t p x ∧ ∀ i, x ≠ .iri i) (hk : key ≠ .languageIn) :
    KeyRun g E (do let l ← allOf g p toIri; ret (l.map mk)) key t t := by
  refine key_all hg (P := fun x i => x = .iri i) (fun _ _ => toIri_iff) (fun c => (hd c).trans ⟨?_, ?_⟩) hm hk
  · rintro ⟨i, h, rfl⟩
    exact ⟨_, i, h, rfl, rfl⟩
  · rintro ⟨_, i, h, rfl, rfl⟩
    exact ⟨i, h, rfl⟩

theorem key_pattern (hg : g.Orders) (hn : g.Neat) (t : Tm L) : KeyRun g E (patternP g E) .pattern t t := by
  rintro s rfl
  refine Run.bind (Run.optOne hg (P := E.IsText) (fun _ _ => toText_iff) (hn.one _ .flags (by simp [singles]))) ?_
  rintro f s1 ⟨hs1, hf⟩
  refine Run.bind ((Run.allOf hg).mono (fun _ _ h => h) ?_ id) ?_
  · rintro ⟨x, hx, h⟩
    rw [hs1] at hx
    exact .pattern hx ((none_iff (f := E.toText) (P := E.IsText) fun _ _ => toText_iff).1 h)
  · rintro ps s2 ⟨hs2, hp, hnone, vs, hvn, hv, hl⟩
    rw [hs1] at hs2 hp hnone hv
    have hx : ∀ x, g.Has s.focus .pattern x → ∃ t, E.IsText x t := by
      intro x hx
      obtain ⟨t, ht⟩ := Option.ne_none_iff_exists'.1 (hnone x hx)
      exact ⟨t, toText_iff.1 ht⟩
    have hp' : ∀ b, b ∈ ps ↔ ∃ x, g.Has s.focus .pattern x ∧ E.IsText x b := fun b =>
      (hp b).trans ⟨fun ⟨x, h1, h2⟩ => ⟨x, h1, toText_iff.1 h2⟩, fun ⟨x, h1, h2⟩ => ⟨x, h1, toText_iff.2 h2⟩⟩
    rcases ps with _ | ⟨p, _ | ⟨q, ps⟩⟩
    · refine ⟨hs2, ?_, nofun, by simp, ?_⟩
      · intro h
        cases h with
        | pattern h1 h2 =>
          obtain ⟨b, hb⟩ := hx _ h1
          exact h2 b hb
        | patterns h1 h2 h3 =>
          obtain ⟨b, hb⟩ := hx _ h1
          simpa using (hp' b).2 ⟨_, h1, hb⟩
      · rintro c ⟨h, hk⟩
        cases h <;> simp [Comp.key] at hk
        rename_i x b f' h1 h2 h3
        simpa using (hp' b).2 ⟨x, h1, h2⟩
    · rcases vs with _ | ⟨v, _ | ⟨w, vs⟩⟩ <;> simp at hl
      have hvv : ∀ x, g.Has s.focus .pattern x ↔ x = v := fun x => by rw [← hv]; simp
      have hpv : E.IsText v p := by
        obtain ⟨x, h1, h2⟩ := (hp' p).1 (by simp)
        rwa [(hvv x).1 h1] at h2
      refine ⟨hs2, ?_, nofun, ?_, ?_⟩
      · intro h
        cases h with
        | pattern h1 h2 =>
          obtain ⟨b, hb⟩ := hx _ h1
          exact h2 b hb
        | patterns h1 h2 h3 => exact h3 (((hvv _).1 h1).trans ((hvv _).1 h2).symm)
      · intro c hc
        simp only [List.mem_singleton] at hc
        subst hc
        exact ⟨.pattern ((hvv v).2 rfl) hpv hf, rfl⟩
      · rintro c ⟨h, hk⟩
        cases h <;> simp [Comp.key] at hk
        rename_i x b f' h1 h2 h3
        rw [(hvv x).1 h1] at h2
        have hb : b = p := by
          obtain ⟨l, rfl, rfl⟩ := h2
          obtain ⟨l', hl', rfl⟩ := hpv
          cases hl'
          rfl
        have hff : f' = f := by
          have hu : ∀ a a', (∃ x, g.Has s.focus .flags x ∧ E.IsText x a) →
              (∃ x, g.Has s.focus .flags x ∧ E.IsText x a') → a = a' := by
            rintro a a' ⟨y, hy, l, rfl, rfl⟩ ⟨z, hz, l', rfl, rfl⟩
            have := hn.one _ .flags (by simp [singles]) _ _ hy hz
            cases this
            rfl
          cases f with
          | none =>
            cases f' with
            | none => rfl
            | some a => exact absurd h3 (hf a)
          | some a =>
            cases f' with
            | none => exact absurd hf (h3 a)
            | some b => rw [hu _ _ hf h3]
        exact ⟨.pattern p f, by simp, by rw [hb, hff]; exact .refl⟩
    · rcases vs with _ | ⟨v, _ | ⟨w, vs⟩⟩ <;> simp at hl
      refine .patterns ((hv v).1 (by simp)) ((hv w).1 (by simp)) ?_
      intro h
      simp [h] at hvn

theorem key_languageIn (hg : g.Orders) (hn : g.Neat) (t : Tm L) :
    KeyRun g E (mapProp g .languageIn (do let ts ← listP g; let l ← langs E ts; ret (.languageIn l)))
      .languageIn t t := by
  refine key_map hg (R := fun v c => ∃ xs ts, g.IsList v xs ∧ E.Tags xs ts ∧ c = .languageIn ts)
    (Er := fun v => ∀ xs, ¬ g.IsList v xs) (Pa := fun v => ∃ xs, g.IsList v xs ∧ ∃ x ∈ xs, NoTag E x) ?_ ?_ ?_ ?_ ?_
  · rintro v _ s rfl
    refine Run.bind (Run.list hg hn) ?_
    rintro xs s1 ⟨hx, -⟩
    refine Run.bind ((run_langs xs s1).mono (fun _ _ h => h) id fun h => ⟨xs, hx, h⟩) ?_
    rintro ts s2 ⟨ht, hb⟩
    refine ⟨⟨xs, ts, hx, ht, rfl⟩, fun h => h xs hx, ?_⟩
    rintro ⟨xs', hx', x, hm, hN⟩
    cases isList_unique hx hx'
    exact hb x hm hN
  · rintro v c c' ⟨xs, ts, h1, h2, rfl⟩ ⟨xs', ts', h1', h2', rfl⟩
    cases isList_unique h1 h1'
    rw [tags_unique h2 h2']
  · intro c
    constructor
    · rintro ⟨h, hk⟩
      cases h <;> simp [Comp.key] at hk
      exact ⟨_, by assumption, _, _, by assumption, by assumption, rfl⟩
    · rintro ⟨x, h, xs, ts, h1, h2, rfl⟩
      exact ⟨.languageIn h h1 h2, rfl⟩
  · constructor
    · rintro ⟨⟩
      exact ⟨_, by assumption, by assumption⟩
    · rintro ⟨x, h1, h2⟩
      exact .languageIn h1 h2
  · constructor
    · rintro ⟨-, v, xs, x, h1, h2, h3, h4⟩
      exact ⟨v, h1, xs, h2, x, h3, h4⟩
    · rintro ⟨v, h1, xs, h2, x, h3, h4⟩
      exact ⟨rfl, v, xs, x, h1, h2, h3, h4⟩

theorem key_isIn (hg : g.Orders) (hn : g.Neat) (t : Tm L) :
    KeyRun g E (mapProp g .isIn (do let ts ← listP g; ret (.isIn (ts.filterMap E.toValue)))) .isIn t t := by
  refine key_map hg (R := fun v c => ∃ xs os, g.IsList v xs ∧ E.Values xs os ∧ c = .isIn os)
    (Er := fun v => ∀ xs, ¬ g.IsList v xs) (Pa := fun _ => False) ?_ ?_ ?_ ?_ (by simp)
  · rintro v _ s rfl
    refine Run.bind (Run.list hg hn) ?_
    rintro xs s1 ⟨hx, -⟩
    exact ⟨⟨xs, _, hx, values_filterMap xs, rfl⟩, fun h => h xs hx, not_false⟩
  · rintro v c c' ⟨xs, ts, h1, h2, rfl⟩ ⟨xs', ts', h1', h2', rfl⟩
    cases isList_unique h1 h1'
    rw [values_unique h2 h2']
  · intro c
    constructor
    · rintro ⟨h, hk⟩
      cases h <;> simp [Comp.key] at hk
      exact ⟨_, by assumption, _, _, by assumption, by assumption, rfl⟩
    · rintro ⟨x, h, xs, ts, h1, h2, rfl⟩
      exact ⟨.isIn h h1 h2, rfl⟩
  · constructor
    · rintro ⟨⟩
      exact ⟨_, by assumption, by assumption⟩
    · rintro ⟨x, h1, h2⟩
      exact .isIn h1 h2

theorem key_term (hg : g.Orders) {key : Key} {t : Tm L} {p : Voc} {f : Tm L → Option B} {mk : B → Comp C}
    {P : Tm L → B → Prop} (hf : ∀ x b, f x = some b ↔ P x b)
    (hd : ∀ c, (Declared g E t c ∧ c.key = key) ↔ ∃ x, g.Has t p x ∧ ∃ b, P x b ∧ c = mk b)
    (hm : Malformed g E t key ↔ ∃ x, g.Has t p x ∧ ∀ b, ¬ P x b) (hk : key ≠ .languageIn) :
    KeyRun g E (mapProp g p (do let t ← getFocus; let o ← lift (f t); ret (mk o))) key t t := by
  refine key_map hg (fun v _ s1 hs => run_term hf hs) ?_ hd hm (by simp [hk])
  rintro v c c' ⟨b, hb, rfl⟩ ⟨b', hb', rfl⟩
  rw [← hf] at hb hb'
  rw [Option.some.inj (hb.symm.trans hb')]

theorem key_sparql (hg : g.Orders) (hn : g.Neat) (t : Tm L) : KeyRun g E (sparqlP g E) .sparql t t := by
  rintro s rfl
  refine Run.bind Run.get ?_
  rintro t s0 ⟨rfl, rfl⟩
  refine Run.bind (Run.values hg) ?_
  rintro vs s1 ⟨hs1, hv, -⟩
  have huniq : ∀ (v : Tm L) (d d' : Option Bool), Opt (fun b => ∃ x, g.Has v .deactivated x ∧ E.IsBool x b) d →
      Opt (fun b => ∃ x, g.Has v .deactivated x ∧ E.IsBool x b) d' → d = d' := by
    intro v d d' h h'
    cases d with
    | none =>
      cases d' with
      | none => rfl
      | some b => exact absurd h' (h b)
    | some a =>
      cases d' with
      | none => exact absurd h (h' a)
      | some b =>
        obtain ⟨x, hx, l, rfl, hb⟩ := h
        obtain ⟨y, hy, l', rfl, hb'⟩ := h'
        cases hn.one _ .deactivated (by simp [singles]) _ _ hx hy
        rw [hb] at hb'
        exact hb'
  refine Run.bind (Q := fun cs _ => List.Forall₂ (fun v c => ∃ x t d, g.Has v .select x ∧ E.IsText x t ∧
      Opt (fun b => ∃ x, g.Has v .deactivated x ∧ E.IsBool x b) d ∧ c = Comp.sparql t d) vs cs ∧
      ∀ v ∈ vs, ¬ ∀ x t, g.Has v .select x → ¬ E.IsText x t)
    ((Run.each (I := fun _ => True) (Pa := fun _ => False) vs trivial ?_).mono
      (fun _ _ h => ⟨h.2.1, h.2.2.1⟩) ?_ ?_) ?_
  · rintro v hv' s2 -
    refine Run.bind Run.set ?_
    rintro _ s3 rfl
    refine Run.bind (Q := fun t s' => s'.focus = s3.focus ∧ ∃ x, g.Has s3.focus .select x ∧ E.IsText x t) ?_ ?_
    · refine Run.bind ((Run.single hg).mono (fun _ _ h => h) (fun h x t hx => absurd hx (h x)) id) ?_
      rintro x s4 ⟨hs4, hx⟩
      refine Run.lift.mono ?_ ?_ id
      · rintro b _ ⟨hb, rfl⟩
        exact ⟨hs4, x, hx, toText_iff.1 hb⟩
      · intro h y t hy
        cases hn.one _ .select (by simp [singles]) _ _ hx hy
        rw [← toText_iff, h]
        nofun
    · rintro t s4 ⟨hs4, x, hx, ht⟩
      refine Run.bind (Run.optOne hg (P := E.IsBool) (fun _ _ => toBool_iff)
        (hn.one _ .deactivated (by simp [singles]))) ?_
      rintro d s5 ⟨hs5, hd⟩
      rw [hs4] at hd
      exact ⟨trivial, ⟨x, t, d, hx, ht, hd, rfl⟩, fun h => h x t hx ht, not_false⟩
  · rintro ⟨v, hv', h⟩
    exact .sparql ((hv v).1 hv') h
  · rintro ⟨_, _, h⟩
    exact h.elim
  · rintro cs s2 ⟨hR, hE⟩
    refine Run.bind Run.set ?_
    intro _ s3 hs3
    refine ⟨hs3, ?_, nofun, ?_, ?_⟩
    · rintro ⟨⟩
      rename_i v h1 h2
      exact hE v ((hv v).2 h1) h2
    · intro c hc
      obtain ⟨n, hn, rfl⟩ := List.getElem_of_mem hc
      obtain ⟨x, t, d, h1, h2, h3, h4⟩ := hR.get (by rw [hR.length_eq]; exact hn) hn
      simp only [List.get_eq_getElem] at h4
      rw [h4]
      exact ⟨.sparql ((hv _).1 (List.getElem_mem _)) h1 h2 h3, rfl⟩
    · rintro c ⟨h, hk⟩
      cases h <;> simp [Comp.key] at hk
      rename_i v x t d h1 h2 h3 h4
      obtain ⟨n, hl, rfl⟩ := List.getElem_of_mem ((hv v).2 h1)
      obtain ⟨x', t', d', h1', h2', h3', h4'⟩ := hR.get hl (by rw [← hR.length_eq]; exact hl)
      refine ⟨_, List.getElem_mem (by rw [← hR.length_eq]; exact hl), ?_⟩
      simp only [List.get_eq_getElem] at h4' h1' h3'
      rw [h4', huniq _ _ _ h4 h3']
      cases hn.one _ .select (by simp [singles]) _ _ h2 h1'
      obtain ⟨l, rfl, rfl⟩ := h3
      obtain ⟨l', hl', rfl⟩ := h2'
      cases hl'
      exact .refl

end

end Rd

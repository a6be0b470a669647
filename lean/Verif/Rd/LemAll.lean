import Verif.Rd.LemKeys2

/-!
# Lemmas: components together
-/

namespace Rd

section
variable {L A B C : Type} {g : Gr L} {E : Ext L C} [DecidableEq L]

/-- Each kind of component but closed leaves the focus where it is. -/
theorem key_run (hg : g.Orders) (hn : g.Neat) {t : Tm L} (ht : t.isLit = false) (key : Key) (hk : key ≠ .closed) :
    KeyRun g E (compP g E key) key t t := by
  cases key with
  | cls =>
    refine key_all hg (P := E.Means) (fun _ _ => obj_iff) (fun c => ⟨?_, ?_⟩) ⟨?_, ?_⟩ (by decide)
    · rintro ⟨h, hk⟩
      cases h <;> simp [Comp.key] at hk
      exact ⟨_, _, by assumption, by assumption, rfl⟩
    · rintro ⟨x, b, h1, h2, rfl⟩
      exact ⟨.cls h1 h2, rfl⟩
    · rintro ⟨⟩
      exact ⟨_, by assumption, by assumption⟩
    · rintro ⟨x, h1, h2⟩
      exact .cls h1 h2
  | nodeKind =>
    refine key_some hg (P := fun x k => ∃ v, x = .iri (.v v) ∧ (v, k) ∈ kinds) (fun _ _ => toKind_iff)
      (fun c => ⟨?_, ?_⟩) nofun (by decide)
    · rintro ⟨h, hk⟩
      cases h <;> simp [Comp.key] at hk
      exact ⟨_, _, by assumption, ⟨_, rfl, by assumption⟩, rfl⟩
    · rintro ⟨x, b, h1, ⟨v, rfl, h2⟩, rfl⟩
      exact ⟨.nodeKind h1 h2, rfl⟩
  | datatype =>
    refine key_iri hg (fun c => ⟨?_, ?_⟩) ⟨?_, ?_⟩ (by decide)
    · rintro ⟨h, hk⟩
      cases h <;> simp [Comp.key] at hk
      exact ⟨_, by assumption, rfl⟩
    · rintro ⟨i, h, rfl⟩
      exact ⟨.datatype h, rfl⟩
    · rintro ⟨⟩
      exact ⟨_, by assumption, by assumption⟩
    · rintro ⟨x, h1, h2⟩
      exact .datatype h1 h2
  | minCount =>
    refine key_all hg (P := E.IsInt) (fun _ _ => toInt_iff) (fun c => ⟨?_, ?_⟩) ⟨?_, ?_⟩ (by decide)
    · rintro ⟨h, hk⟩
      cases h <;> simp [Comp.key] at hk
      exact ⟨_, _, by assumption, by assumption, rfl⟩
    · rintro ⟨x, b, h1, h2, rfl⟩
      exact ⟨.minCount h1 h2, rfl⟩
    · rintro ⟨⟩
      exact ⟨_, by assumption, by assumption⟩
    · rintro ⟨x, h1, h2⟩
      exact .minCount h1 h2
  | maxCount =>
    refine key_all hg (P := E.IsInt) (fun _ _ => toInt_iff) (fun c => ⟨?_, ?_⟩) ⟨?_, ?_⟩ (by decide)
    · rintro ⟨h, hk⟩
      cases h <;> simp [Comp.key] at hk
      exact ⟨_, _, by assumption, by assumption, rfl⟩
    · rintro ⟨x, b, h1, h2, rfl⟩
      exact ⟨.maxCount h1 h2, rfl⟩
    · rintro ⟨⟩
      exact ⟨_, by assumption, by assumption⟩
    · rintro ⟨x, h1, h2⟩
      exact .maxCount h1 h2
  | minInclusive =>
    refine key_all hg (P := E.IsConc) (fun _ _ => toConc_iff) (fun c => ⟨?_, ?_⟩) ⟨?_, ?_⟩ (by decide)
    · rintro ⟨h, hk⟩
      cases h <;> simp [Comp.key] at hk
      exact ⟨_, _, by assumption, by assumption, rfl⟩
    · rintro ⟨x, b, h1, h2, rfl⟩
      exact ⟨.minInclusive h1 h2, rfl⟩
    · rintro ⟨⟩
      exact ⟨_, by assumption, by assumption⟩
    · rintro ⟨x, h1, h2⟩
      exact .minInclusive h1 h2
  | minExclusive =>
    refine key_all hg (P := E.IsConc) (fun _ _ => toConc_iff) (fun c => ⟨?_, ?_⟩) ⟨?_, ?_⟩ (by decide)
    · rintro ⟨h, hk⟩
      cases h <;> simp [Comp.key] at hk
      exact ⟨_, _, by assumption, by assumption, rfl⟩
    · rintro ⟨x, b, h1, h2, rfl⟩
      exact ⟨.minExclusive h1 h2, rfl⟩
    · rintro ⟨⟩
      exact ⟨_, by assumption, by assumption⟩
    · rintro ⟨x, h1, h2⟩
      exact .minExclusive h1 h2
  | maxInclusive =>
    refine key_all hg (P := E.IsConc) (fun _ _ => toConc_iff) (fun c => ⟨?_, ?_⟩) ⟨?_, ?_⟩ (by decide)
    · rintro ⟨h, hk⟩
      cases h <;> simp [Comp.key] at hk
      exact ⟨_, _, by assumption, by assumption, rfl⟩
    · rintro ⟨x, b, h1, h2, rfl⟩
      exact ⟨.maxInclusive h1 h2, rfl⟩
    · rintro ⟨⟩
      exact ⟨_, by assumption, by assumption⟩
    · rintro ⟨x, h1, h2⟩
      exact .maxInclusive h1 h2
  | maxExclusive =>
    refine key_all hg (P := E.IsConc) (fun _ _ => toConc_iff) (fun c => ⟨?_, ?_⟩) ⟨?_, ?_⟩ (by decide)
    · rintro ⟨h, hk⟩
      cases h <;> simp [Comp.key] at hk
      exact ⟨_, _, by assumption, by assumption, rfl⟩
    · rintro ⟨x, b, h1, h2, rfl⟩
      exact ⟨.maxExclusive h1 h2, rfl⟩
    · rintro ⟨⟩
      exact ⟨_, by assumption, by assumption⟩
    · rintro ⟨x, h1, h2⟩
      exact .maxExclusive h1 h2
  | minLength =>
    refine key_all hg (P := E.IsInt) (fun _ _ => toInt_iff) (fun c => ⟨?_, ?_⟩) ⟨?_, ?_⟩ (by decide)
    · rintro ⟨h, hk⟩
      cases h <;> simp [Comp.key] at hk
      exact ⟨_, _, by assumption, by assumption, rfl⟩
    · rintro ⟨x, b, h1, h2, rfl⟩
      exact ⟨.minLength h1 h2, rfl⟩
    · rintro ⟨⟩
      exact ⟨_, by assumption, by assumption⟩
    · rintro ⟨x, h1, h2⟩
      exact .minLength h1 h2
  | maxLength =>
    refine key_all hg (P := E.IsInt) (fun _ _ => toInt_iff) (fun c => ⟨?_, ?_⟩) ⟨?_, ?_⟩ (by decide)
    · rintro ⟨h, hk⟩
      cases h <;> simp [Comp.key] at hk
      exact ⟨_, _, by assumption, by assumption, rfl⟩
    · rintro ⟨x, b, h1, h2, rfl⟩
      exact ⟨.maxLength h1 h2, rfl⟩
    · rintro ⟨⟩
      exact ⟨_, by assumption, by assumption⟩
    · rintro ⟨x, h1, h2⟩
      exact .maxLength h1 h2
  | pattern => exact key_pattern hg hn t
  | languageIn => exact key_languageIn hg hn t
  | uniqueLang =>
    refine key_some hg (P := E.IsBool) (fun _ _ => toBool_iff) (fun c => ⟨?_, ?_⟩) nofun (by decide)
    · rintro ⟨h, hk⟩
      cases h <;> simp [Comp.key] at hk
      exact ⟨_, _, by assumption, by assumption, rfl⟩
    · rintro ⟨x, b, h1, h2, rfl⟩
      exact ⟨.uniqueLang h1 h2, rfl⟩
  | equals =>
    refine key_iri hg (fun c => ⟨?_, ?_⟩) ⟨?_, ?_⟩ (by decide)
    · rintro ⟨h, hk⟩
      cases h <;> simp [Comp.key] at hk
      exact ⟨_, by assumption, rfl⟩
    · rintro ⟨i, h, rfl⟩
      exact ⟨.equals h, rfl⟩
    · rintro ⟨⟩
      exact ⟨_, by assumption, by assumption⟩
    · rintro ⟨x, h1, h2⟩
      exact .equals h1 h2
  | disjoint =>
    refine key_iri hg (fun c => ⟨?_, ?_⟩) ⟨?_, ?_⟩ (by decide)
    · rintro ⟨h, hk⟩
      cases h <;> simp [Comp.key] at hk
      exact ⟨_, by assumption, rfl⟩
    · rintro ⟨i, h, rfl⟩
      exact ⟨.disjoint h, rfl⟩
    · rintro ⟨⟩
      exact ⟨_, by assumption, by assumption⟩
    · rintro ⟨x, h1, h2⟩
      exact .disjoint h1 h2
  | lessThan =>
    refine key_iri hg (fun c => ⟨?_, ?_⟩) ⟨?_, ?_⟩ (by decide)
    · rintro ⟨h, hk⟩
      cases h <;> simp [Comp.key] at hk
      exact ⟨_, by assumption, rfl⟩
    · rintro ⟨i, h, rfl⟩
      exact ⟨.lessThan h, rfl⟩
    · rintro ⟨⟩
      exact ⟨_, by assumption, by assumption⟩
    · rintro ⟨x, h1, h2⟩
      exact .lessThan h1 h2
  | lessThanOrEquals =>
    refine key_iri hg (fun c => ⟨?_, ?_⟩) ⟨?_, ?_⟩ (by decide)
    · rintro ⟨h, hk⟩
      cases h <;> simp [Comp.key] at hk
      exact ⟨_, by assumption, rfl⟩
    · rintro ⟨i, h, rfl⟩
      exact ⟨.lessThanOrEquals h, rfl⟩
    · rintro ⟨⟩
      exact ⟨_, by assumption, by assumption⟩
    · rintro ⟨x, h1, h2⟩
      exact .lessThanOrEquals h1 h2
  | not =>
    refine key_term hg (P := E.Means) (fun _ _ => obj_iff) (fun c => ⟨?_, ?_⟩) ⟨?_, ?_⟩ (by decide)
    · rintro ⟨h, hk⟩
      cases h <;> simp [Comp.key] at hk
      exact ⟨_, by assumption, _, by assumption, rfl⟩
    · rintro ⟨x, h1, b, h2, rfl⟩
      exact ⟨.not h1 h2, rfl⟩
    · rintro ⟨⟩
      exact ⟨_, by assumption, by assumption⟩
    · rintro ⟨x, h1, h2⟩
      exact .not h1 h2
  | and =>
    refine key_nodeList hg hn (fun c => ⟨?_, ?_⟩) ⟨?_, ?_⟩ (by decide)
    · rintro ⟨h, hk⟩
      cases h <;> simp [Comp.key] at hk
      exact ⟨_, by assumption, _, _, by assumption, by assumption, rfl⟩
    · rintro ⟨x, h1, xs, os, h2, h3, rfl⟩
      exact ⟨.and h1 h2 h3, rfl⟩
    · rintro ⟨⟩
      exact ⟨_, by assumption, by assumption⟩
    · rintro ⟨x, h1, h2⟩
      exact .and h1 h2
  | or =>
    refine key_nodeList hg hn (fun c => ⟨?_, ?_⟩) ⟨?_, ?_⟩ (by decide)
    · rintro ⟨h, hk⟩
      cases h <;> simp [Comp.key] at hk
      exact ⟨_, by assumption, _, _, by assumption, by assumption, rfl⟩
    · rintro ⟨x, h1, xs, os, h2, h3, rfl⟩
      exact ⟨.or h1 h2 h3, rfl⟩
    · rintro ⟨⟩
      exact ⟨_, by assumption, by assumption⟩
    · rintro ⟨x, h1, h2⟩
      exact .or h1 h2
  | xone =>
    refine key_nodeList hg hn (fun c => ⟨?_, ?_⟩) ⟨?_, ?_⟩ (by decide)
    · rintro ⟨h, hk⟩
      cases h <;> simp [Comp.key] at hk
      exact ⟨_, by assumption, _, _, by assumption, by assumption, rfl⟩
    · rintro ⟨x, h1, xs, os, h2, h3, rfl⟩
      exact ⟨.xone h1 h2 h3, rfl⟩
    · rintro ⟨⟩
      exact ⟨_, by assumption, by assumption⟩
    · rintro ⟨x, h1, h2⟩
      exact .xone h1 h2
  | node =>
    refine key_term hg (P := E.Means) (fun _ _ => obj_iff) (fun c => ⟨?_, ?_⟩) ⟨?_, ?_⟩ (by decide)
    · rintro ⟨h, hk⟩
      cases h <;> simp [Comp.key] at hk
      exact ⟨_, by assumption, _, by assumption, rfl⟩
    · rintro ⟨x, h1, b, h2, rfl⟩
      exact ⟨.node h1 h2, rfl⟩
    · rintro ⟨⟩
      exact ⟨_, by assumption, by assumption⟩
    · rintro ⟨x, h1, h2⟩
      exact .node h1 h2
  | qualified => exact key_qualified hg hn ht
  | closed => exact absurd rfl hk
  | hasValue =>
    refine key_term hg (P := E.IsValue) (fun _ _ => toValue_iff) (fun c => ⟨?_, ?_⟩) ⟨?_, ?_⟩ (by decide)
    · rintro ⟨h, hk⟩
      cases h <;> simp [Comp.key] at hk
      exact ⟨_, by assumption, _, by assumption, rfl⟩
    · rintro ⟨x, h1, b, h2, rfl⟩
      exact ⟨.hasValue h1 h2, rfl⟩
    · rintro ⟨⟩
      exact ⟨_, by assumption, by assumption⟩
    · rintro ⟨x, h1, h2⟩
      exact .hasValue h1 h2
  | isIn => exact key_isIn hg hn t
  | sparql => exact key_sparql hg hn t
  | deactivated =>
    refine key_some hg (P := E.IsBool) (fun _ _ => toBool_iff) (fun c => ⟨?_, ?_⟩) nofun (by decide)
    · rintro ⟨h, hk⟩
      cases h <;> simp [Comp.key] at hk
      exact ⟨_, _, by assumption, by assumption, rfl⟩
    · rintro ⟨x, b, h1, h2, rfl⟩
      exact ⟨.deactivated h1 h2, rfl⟩

/-- How the parsers of several kinds run one after the other, each at its place. -/
def CombRun (g : Gr L) (E : Ext L C) (w : Key → Tm L) (ks : List Key) (t t' : Tm L) : Prop :=
  ∀ s, s.focus = t → Run (combine (compP g E) ks) s (fun cs s' => s'.focus = t' ∧
      (∀ k ∈ ks, ¬ Malformed g E (w k) k) ∧ (.languageIn ∈ ks → ¬ BadTag g E (w .languageIn)) ∧
      Covers cs fun c => Declared g E (w c.key) c ∧ c.key ∈ ks)
    (∃ k ∈ ks, Malformed g E (w k) k) (.languageIn ∈ ks ∧ BadTag g E (w .languageIn))

theorem comb_nil {w : Key → Tm L} {t : Tm L} : CombRun g E w [] t t := fun _ hs =>
  ⟨hs, by simp, by simp, by simp, fun _ h => by simp at h⟩

theorem comb_cons {w : Key → Tm L} {k : Key} {ks : List Key} {t u t' : Tm L} (hw : w k = t)
    (h : KeyRun g E (compP g E k) k t u) (hs : CombRun g E w ks u t') : CombRun g E w (k :: ks) t t' := by
  intro s hst
  subst hw
  refine Run.bind ((h s hst).mono (fun _ _ h => h) (fun h => ⟨k, by simp, h⟩) ?_) ?_
  · rintro ⟨rfl, h⟩
    exact ⟨by simp, h⟩
  rintro a s1 ⟨hs1, hm, hb, hc⟩
  refine Run.bind ((hs s1 hs1).mono (fun _ _ h => h) ?_ ?_) ?_
  · exact fun ⟨k', hk', h⟩ => ⟨k', by simp [hk'], h⟩
  · exact fun ⟨h1, h2⟩ => ⟨by simp [h1], h2⟩
  rintro b s2 ⟨hs2, hm2, hb2, hc2⟩
  refine ⟨hs2, by simpa using ⟨hm, hm2⟩, fun h => ?_, fun c hcm => ?_, ?_⟩
  · rcases List.mem_cons.1 h with h | h
    · rw [← h] at hb
      exact hb rfl
    · exact hb2 h
  · rcases List.mem_append.1 hcm with h | h
    · obtain ⟨h1, h2⟩ := hc.1 c h
      exact ⟨by rw [h2]; exact h1, by simp [h2]⟩
    · obtain ⟨h1, h2⟩ := hc2.1 c h
      exact ⟨h1, by simp [h2]⟩
  · rintro c ⟨hd, hk⟩
    rcases List.mem_cons.1 hk with h | h
    · obtain ⟨c', h1, h2⟩ := hc.2 c ⟨by rw [← h]; exact hd, h⟩
      exact ⟨c', by simp [h1], h2⟩
    · obtain ⟨c', h1, h2⟩ := hc2.2 c ⟨hd, h⟩
      exact ⟨c', by simp [h1], h2⟩

/-- Where the components are read: the last four at another place. -/
def place (t t' : Tm L) : Key → Tm L
  | .hasValue | .isIn | .sparql | .deactivated => t'
  | _ => t

theorem components_run (hg : g.Orders) (hn : g.Neat) {t t' : Tm L} (ht : t.isLit = false) (ht' : t'.isLit = false)
    (hc : KeyRun g E (closedP g E) .closed t t') : CombRun g E (place t t') keys t t' :=
  comb_cons rfl (key_run hg hn ht .cls (by decide)) <|
  comb_cons rfl (key_run hg hn ht .nodeKind (by decide)) <|
  comb_cons rfl (key_run hg hn ht .datatype (by decide)) <|
  comb_cons rfl (key_run hg hn ht .minCount (by decide)) <|
  comb_cons rfl (key_run hg hn ht .maxCount (by decide)) <|
  comb_cons rfl (key_run hg hn ht .minInclusive (by decide)) <|
  comb_cons rfl (key_run hg hn ht .minExclusive (by decide)) <|
  comb_cons rfl (key_run hg hn ht .maxInclusive (by decide)) <|
  comb_cons rfl (key_run hg hn ht .maxExclusive (by decide)) <|
  comb_cons rfl (key_run hg hn ht .minLength (by decide)) <|
  comb_cons rfl (key_run hg hn ht .maxLength (by decide)) <|
  comb_cons rfl (key_run hg hn ht .pattern (by decide)) <|
  comb_cons rfl (key_run hg hn ht .languageIn (by decide)) <|
  comb_cons rfl (key_run hg hn ht .uniqueLang (by decide)) <|
  comb_cons rfl (key_run hg hn ht .equals (by decide)) <|
  comb_cons rfl (key_run hg hn ht .disjoint (by decide)) <|
  comb_cons rfl (key_run hg hn ht .lessThan (by decide)) <|
  comb_cons rfl (key_run hg hn ht .lessThanOrEquals (by decide)) <|
  comb_cons rfl (key_run hg hn ht .not (by decide)) <|
  comb_cons rfl (key_run hg hn ht .and (by decide)) <|
  comb_cons rfl (key_run hg hn ht .or (by decide)) <|
  comb_cons rfl (key_run hg hn ht .xone (by decide)) <|
  comb_cons rfl (key_run hg hn ht .node (by decide)) <|
  comb_cons rfl (key_run hg hn ht .qualified (by decide)) <|
  comb_cons rfl hc <|
  comb_cons rfl (key_run hg hn ht' .hasValue (by decide)) <|
  comb_cons rfl (key_run hg hn ht' .isIn (by decide)) <|
  comb_cons rfl (key_run hg hn ht' .sparql (by decide)) <|
  comb_cons rfl (key_run hg hn ht' .deactivated (by decide)) <|
  comb_nil

end

end Rd

import Verif.Rd.LemRun

/-!
# Lemmas: how each kind of component is read
-/

namespace Rd

section
variable {L A B C : Type} {g : Gr L} {E : Ext L C}

theorem obj_iff {x : Tm L} {o : Ob C} : E.obj x = some o ↔ E.Means x o := by
  constructor
  · intro h
    cases x with
    | iri i => cases h; exact .iri
    | bnode b => cases h; exact .bnode
    | lit l =>
      obtain ⟨c, hc, rfl⟩ := Option.map_eq_some_iff.1 h
      exact .lit hc
  · rintro (_ | _ | h)
    · rfl
    · rfl
    · simp [Ext.obj, h]

theorem means_unique {x : Tm L} {o o' : Ob C} (h : E.Means x o) (h' : E.Means x o') : o = o' := by
  rw [← obj_iff] at h h'
  exact Option.some.inj (h.symm.trans h')

theorem toValue_iff {x : Tm L} {o : Ob C} : E.toValue x = some o ↔ E.IsValue x o := by
  unfold Ext.IsValue
  rw [← obj_iff]
  cases x <;> simp [Ext.toValue, Ext.obj]

theorem toIri_iff {x : Tm L} {i : Iri} : toIri x = some i ↔ x = .iri i := by cases x <;> simp [toIri]

theorem toInt_iff {x : Tm L} {n : Int} : E.toInt x = some n ↔ E.IsInt x n := by cases x <;> simp [Ext.toInt, Ext.IsInt]

theorem toBool_iff {x : Tm L} {b : Bool} : E.toBool x = some b ↔ E.IsBool x b := by
  cases x <;> simp [Ext.toBool, Ext.IsBool]

theorem toText_iff {x : Tm L} {s : String} : E.toText x = some s ↔ E.IsText x s := by
  cases x <;> simp [Ext.toText, Ext.IsText]

theorem toConc_iff {x : Tm L} {c : C} : E.toConc x = some c ↔ E.IsConc x c := by
  cases x <;> simp [Ext.toConc, Ext.IsConc]

theorem toKind_iff {x : Tm L} {k : Kind} : toKind x = some k ↔ ∃ v, x = .iri (.v v) ∧ (v, k) ∈ kinds := by
  constructor
  · intro h
    unfold toKind at h
    split at h <;> simp at h <;> subst h <;> exact ⟨_, rfl, by decide⟩
  · rintro ⟨v, rfl, h⟩
    simp [kinds] at h
    rcases h with ⟨rfl, rfl⟩ | ⟨rfl, rfl⟩ | ⟨rfl, rfl⟩ | ⟨rfl, rfl⟩ | ⟨rfl, rfl⟩ | ⟨rfl, rfl⟩ <;> rfl

theorem none_iff {f : A → Option B} {P : A → B → Prop} (hf : ∀ x b, f x = some b ↔ P x b) {x : A} :
    f x = none ↔ ∀ b, ¬ P x b := by
  rw [Option.eq_none_iff_forall_ne_some]
  exact forall_congr' fun b => not_congr (hf x b)

theorem obj_none {x : Tm L} : E.obj x = none ↔ ∀ o, ¬ E.Means x o :=
  none_iff (f := E.obj) (P := E.Means) fun _ _ => obj_iff

theorem toValue_none {x : Tm L} : E.toValue x = none ↔ ∀ o, ¬ E.IsValue x o :=
  none_iff (f := E.toValue) (P := E.IsValue) fun _ _ => toValue_iff

/-- How the parser of a kind of component should run. -/
def KeyRun (g : Gr L) (E : Ext L C) (p : Pr L (List (Comp C))) (key : Key) (t t' : Tm L) : Prop :=
  ∀ s, s.focus = t → Run p s (fun cs s' => s'.focus = t' ∧ ¬ Malformed g E t key ∧
      (key = .languageIn → ¬ BadTag g E t) ∧ Covers cs fun c => Declared g E t c ∧ c.key = key)
    (Malformed g E t key) (key = .languageIn ∧ BadTag g E t)

variable [DecidableEq L]

theorem key_all (hg : g.Orders) {key : Key} {t : Tm L} {p : Voc} {f : Tm L → Option B} {mk : B → Comp C}
    {P : Tm L → B → Prop} (hf : ∀ x b, f x = some b ↔ P x b)
    (hd : ∀ c, (Declared g E t c ∧ c.key = key) ↔ ∃ x b, g.Has t p x ∧ P x b ∧ c = mk b)
    (hm : Malformed g E t key ↔ ∃ x, g.Has t p x ∧ ∀ b, ¬ P x b) (hk : key ≠ .languageIn) :
    KeyRun g E (do let l ← allOf g p f; ret (l.map mk)) key t t := by
  rintro s rfl
  refine Run.bind ((Run.allOf hg).mono (fun _ _ h => h) ?_ id) ?_
  · rintro ⟨x, hx, hn⟩
    exact hm.2 ⟨x, hx, (none_iff hf).1 hn⟩
  · rintro bs s' ⟨hs, hb, hn, -⟩
    refine ⟨hs, fun h => ?_, fun h => absurd h hk, fun c hc => ?_, fun c hc => ?_⟩
    · obtain ⟨x, hx, h⟩ := hm.1 h
      exact hn x hx ((none_iff hf).2 h)
    · obtain ⟨b, hb', rfl⟩ := List.mem_map.1 hc
      obtain ⟨x, hx, h⟩ := (hb b).1 hb'
      exact (hd _).2 ⟨x, b, hx, (hf _ _).1 h, rfl⟩
    · obtain ⟨x, b, hx, h, rfl⟩ := (hd c).1 hc
      exact ⟨_, List.mem_map.2 ⟨b, (hb b).2 ⟨x, hx, (hf _ _).2 h⟩, rfl⟩, .refl⟩

theorem key_some (hg : g.Orders) {key : Key} {t : Tm L} {p : Voc} {f : Tm L → Option B} {mk : B → Comp C}
    {P : Tm L → B → Prop} (hf : ∀ x b, f x = some b ↔ P x b)
    (hd : ∀ c, (Declared g E t c ∧ c.key = key) ↔ ∃ x b, g.Has t p x ∧ P x b ∧ c = mk b)
    (hm : ¬ Malformed g E t key) (hk : key ≠ .languageIn) :
    KeyRun g E (do let l ← someOf g p f; ret (l.map mk)) key t t := by
  rintro s rfl
  refine Run.bind (Run.someOf hg) ?_
  rintro bs s' ⟨hs, hb⟩
  refine ⟨hs, hm, fun h => absurd h hk, fun c hc => ?_, fun c hc => ?_⟩
  · obtain ⟨b, hb', rfl⟩ := List.mem_map.1 hc
    obtain ⟨x, hx, h⟩ := (hb b).1 hb'
    exact (hd _).2 ⟨x, b, hx, (hf _ _).1 h, rfl⟩
  · obtain ⟨x, b, hx, h, rfl⟩ := (hd c).1 hc
    exact ⟨_, List.mem_map.2 ⟨b, (hb b).2 ⟨x, hx, (hf _ _).2 h⟩, rfl⟩, .refl⟩

/-- Values parsed at their own node. -/
theorem key_map (hg : g.Orders) {key : Key} {t : Tm L} {p : Voc} {q : Pr L (Comp C)} {R : Tm L → Comp C → Prop}
    {Er Pa : Tm L → Prop}
    (hq : ∀ v, g.Has t p v → ∀ s1, s1.focus = v → Run q s1 (fun b _ => R v b ∧ ¬ Er v ∧ ¬ Pa v) (Er v) (Pa v))
    (hR : ∀ v c c', R v c → R v c' → c = c')
    (hd : ∀ c, (Declared g E t c ∧ c.key = key) ↔ ∃ x, g.Has t p x ∧ R x c)
    (hm : Malformed g E t key ↔ ∃ x, g.Has t p x ∧ Er x)
    (hp : (key = .languageIn ∧ BadTag g E t) ↔ ∃ x, g.Has t p x ∧ Pa x) :
    KeyRun g E (mapProp g p q) key t t := by
  rintro s rfl
  refine (Run.mapProp hg hq).mono ?_ hm.2 hp.2
  rintro bs s' ⟨hs, h1, h2, h3, h4⟩
  refine ⟨hs, fun h => ?_, fun h hb => ?_, fun c hc => ?_, fun c hc => ?_⟩
  · obtain ⟨x, hx, h⟩ := hm.1 h
    exact h3 x hx h
  · obtain ⟨x, hx, h⟩ := hp.1 ⟨h, hb⟩
    exact h4 x hx h
  · obtain ⟨x, hx, h⟩ := h1 c hc
    exact (hd _).2 ⟨x, hx, h⟩
  · obtain ⟨x, hx, h⟩ := (hd c).1 hc
    obtain ⟨b, hb, hr⟩ := h2 x hx
    exact ⟨b, hb, hR x b c hr h ▸ .refl⟩

/-- One term converted. -/
theorem run_term {f : Tm L → Option B} {P : Tm L → B → Prop} (hf : ∀ x b, f x = some b ↔ P x b) {mk : B → Comp C}
    {v : Tm L} {s : St L} (hs : s.focus = v) :
    Run (do let t ← getFocus; let o ← lift (f t); ret (mk o)) s
      (fun c _ => (∃ b, P v b ∧ c = mk b) ∧ ¬ (∀ b, ¬ P v b) ∧ ¬ False) (∀ b, ¬ P v b) False := by
  refine Run.bind Run.get ?_
  rintro t s0 ⟨rfl, rfl⟩
  refine Run.bind (Run.lift.mono (fun _ _ h => h) (fun h => by rw [hs] at h; exact (none_iff hf).1 h) id) ?_
  rintro b s1 ⟨hb, rfl⟩
  rw [hs] at hb
  have := (hf _ _).1 hb
  exact ⟨⟨b, this, rfl⟩, fun h => h b this, not_false⟩

theorem forall2_unique {R : A → B → Prop} (hR : ∀ a b b', R a b → R a b' → b = b') : ∀ {l : List A} {m m' : List B},
    List.Forall₂ R l m → List.Forall₂ R l m' → m = m'
  | _, _, _, .nil, .nil => rfl
  | _, _, _, .cons h hs, .cons h' hs' => by rw [hR _ _ _ h h', forall2_unique hR hs hs']

theorem run_nodeList (hg : g.Orders) (hn : g.Neat) {mk : List (Ob C) → Comp C} {v : Tm L} {s : St L} (hs : s.focus = v) :
    Run (nodeList g E mk) s
      (fun c _ => (∃ xs os, g.IsList v xs ∧ List.Forall₂ E.Means xs os ∧ c = mk os) ∧
        ¬ (∀ xs os, g.IsList v xs → ¬ List.Forall₂ E.Means xs os) ∧ ¬ False)
      (∀ xs os, g.IsList v xs → ¬ List.Forall₂ E.Means xs os) False := by
  subst hs
  refine Run.bind ((Run.list hg hn).mono (fun _ _ h => h) (fun h xs _ hx => absurd hx (h xs)) id) ?_
  rintro xs s1 ⟨hx, -⟩
  refine Run.bind (Q := fun os _ => List.Forall₂ E.Means xs os)
    ((Run.each (I := fun _ => True) (R := E.Means) (Er := fun x => ∀ o, ¬ E.Means x o) (Pa := fun _ => False) xs trivial
      ?_).mono ?_ ?_ ?_) ?_
  · intro x _ s2 _
    refine Run.lift.mono ?_ obj_none.1 id
    rintro o _ ⟨ho, rfl⟩
    exact ⟨trivial, obj_iff.1 ho, fun h => h o (obj_iff.1 ho), not_false⟩
  · exact fun _ _ h => h.2.1
  · rintro ⟨x, hxm, h⟩ xs' os hx' hf
    cases isList_unique hx hx'
    obtain ⟨n, hn, rfl⟩ := List.getElem_of_mem hxm
    exact h _ (hf.get hn (by rw [← hf.length_eq]; exact hn))
  · rintro ⟨_, _, h⟩
    exact h
  · intro os s2 h
    exact ⟨⟨xs, os, hx, h, rfl⟩, fun hh => hh _ _ hx h, not_false⟩

theorem key_nodeList (hg : g.Orders) (hn : g.Neat) {key : Key} {t : Tm L} {p : Voc} {mk : List (Ob C) → Comp C}
    (hd : ∀ c, (Declared g E t c ∧ c.key = key) ↔
      ∃ x, g.Has t p x ∧ ∃ xs os, g.IsList x xs ∧ List.Forall₂ E.Means xs os ∧ c = mk os)
    (hm : Malformed g E t key ↔ ∃ x, g.Has t p x ∧ ∀ xs os, g.IsList x xs → ¬ List.Forall₂ E.Means xs os)
    (hk : key ≠ .languageIn) : KeyRun g E (mapProp g p (nodeList g E mk)) key t t := by
  refine key_map hg (fun v _ s1 hs => run_nodeList hg hn hs) ?_ hd hm (by simp [hk])
  rintro v c c' ⟨xs, os, hx, hf, rfl⟩ ⟨xs', os', hx', hf', rfl⟩
  cases isList_unique hx hx'
  rw [forall2_unique (R := E.Means) (fun _ _ _ => means_unique) hf hf']

/-! ## Lists of values and of languages -/

theorem values_filterMap : ∀ xs : List (Tm L), E.Values xs (xs.filterMap E.toValue)
  | [] => .nil
  | x :: xs => by
    cases h : E.toValue x with
    | none =>
      rw [List.filterMap_cons_none h]
      exact .skip (toValue_none.1 h) (values_filterMap xs)
    | some o =>
      rw [List.filterMap_cons_some h]
      exact .keep (toValue_iff.1 h) (values_filterMap xs)

theorem values_unique {xs : List (Tm L)} {os os' : List (Ob C)} (h : E.Values xs os) (h' : E.Values xs os') : os = os' := by
  induction h generalizing os' with
  | nil => cases h'; rfl
  | keep h _ ih =>
    cases h' with
    | keep h1 h2 => rw [means_unique h.1 h1.1, ih h2]
    | skip h1 _ => exact absurd h (h1 _)
  | skip h _ ih =>
    cases h' with
    | keep h1 _ => exact absurd h1 (h _)
    | skip _ h2 => exact ih h2

theorem tags_unique {xs : List (Tm L)} {ts ts' : List String} (h : E.Tags xs ts) (h' : E.Tags xs ts') : ts = ts' := by
  induction h generalizing ts' with
  | nil => cases h'; rfl
  | tag h _ ih =>
    cases h' with
    | tag h1 h2 => rw [Option.some.inj (h.symm.trans h1), ih h2]
  | skip _ ih =>
    cases h' with
    | skip h2 => exact ih h2

/-- A member that is not a language tag. -/
def NoTag (E : Ext L C) (x : Tm L) : Prop := (∃ i, x = .iri i) ∨ ∃ l, x = .lit l ∧ E.tag (E.text l) = none

theorem run_langs : ∀ (xs : List (Tm L)) (s : St L) {Er : Prop},
    Run (langs E xs) s (fun ts _ => E.Tags xs ts ∧ ∀ x ∈ xs, ¬ NoTag E x) Er (∃ x ∈ xs, NoTag E x)
  | [], s, Er => ⟨.nil, by simp⟩
  | .bnode b :: xs, s, Er => by
    refine (run_langs xs s).mono ?_ id ?_
    · rintro ts s' ⟨h1, h2⟩
      refine ⟨.skip h1, ?_⟩
      simp only [List.mem_cons, forall_eq_or_imp]
      exact ⟨by simp [NoTag], h2⟩
    · rintro ⟨x, hx, h⟩
      exact ⟨x, by simp [hx], h⟩
  | .iri i :: xs, s, Er => ⟨_, by simp, .inl ⟨i, rfl⟩⟩
  | .lit l :: xs, s, Er => by
    rw [langs]
    split
    · rename_i t ht
      refine Run.bind ((run_langs xs s (Er := Er)).mono (fun _ _ h => h) id ?_) ?_
      · rintro ⟨x, hx, h⟩
        exact ⟨x, by simp [hx], h⟩
      · rintro ts s' ⟨h1, h2⟩
        refine ⟨.tag ht h1, ?_⟩
        simp only [List.mem_cons, forall_eq_or_imp]
        exact ⟨by simp [NoTag, ht], h2⟩
    · rename_i ht
      exact ⟨_, by simp, .inr ⟨l, rfl, ht⟩⟩

end

end Rd

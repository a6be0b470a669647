import Verif.Rbe.LemmasDiag

/-!
# Helper lemmas: the language of the conditioned matcher in full
-/

set_option linter.unusedSectionVars false

namespace Rbe

open Expr

section
variable {A : Type} [DecidableEq A]

theorem unloopList_eq (vs : List (Expr A)) : unloopList vs = vs.map unloop := by
  induction vs with
  | nil => rfl
  | cons v vs ih => simp [unloopList, ih]

theorem unloop_fail_iff (e : Expr A) : unloop e = .fail ↔ e = .fail := by
  cases e <;> simp [unloop]

theorem notFail_unloop (e : Expr A) : notFail (unloop e) = (notFail e).map unloop := by
  cases e <;> simp [unloop, notFail]

theorem loopFree_unloop (e : Expr A) (h : LoopFree e) : unloop e = e := by
  induction e using Expr.ind with
  | hfail => rfl
  | hempty => rfl
  | hsym v c => rfl
  | hand vs ih =>
    have := (loopFreeList_iff vs).1 h
    rw [unloop, unloopList_eq, List.map_congr_left fun v hv => ih v hv (this v hv), List.map_id']
  | hor vs ih =>
    have := (loopFreeList_iff vs).1 h
    rw [unloop, unloopList_eq, List.map_congr_left fun v hv => ih v hv (this v hv), List.map_id']
  | hstar v ih => cases h
  | hplus v ih => cases h
  | hrep v c ih => rw [unloop, ih h]

theorem derivN_map {T U : Type} (f : T → U) (ps : List (T × Option T)) (pre : List T) :
    (derivN pre ps).map (List.map f) = derivN (pre.map f) (ps.map fun p => (f p.1, p.2.map f)) := by
  induction ps generalizing pre with
  | nil => rfl
  | cons p ps ih =>
    obtain ⟨t, o⟩ := p
    have := ih (pre ++ [t])
    rw [List.map_append, List.map_cons, List.map_nil] at this
    cases o with
    | none => exact this
    | some d =>
      simp only [derivN, List.map_cons, List.map_append, List.map_map, Function.comp_def, Option.map_some, this]

theorem unloop_orOfAnds (vss : List (List (Expr A))) :
    unloop (orOfAnds vss) = orOfAnds (vss.map (List.map unloop)) := by
  match vss with
  | [] => rfl
  | [vs] => simp [orOfAnds, unloop, unloopList_eq]
  | vs :: ws :: vss => simp [orOfAnds, unloop, unloopList_eq, Function.comp_def]

/-- The quotient lemma for sequences, for any list of elements with their derivatives. -/
theorem langAll_derivN_pairs (ok : A → Prop) (ps : List (Expr A × Expr A))
    (ih : ∀ p ∈ ps, ∀ s, Lang p.2 s ↔ ∃ a, ok a ∧ Lang p.1 (a ::ₘ s)) :
    ∀ (pre : List (Expr A)) (s : Multiset A),
      (∃ ws ∈ derivN pre (ps.map fun p => (p.1, notFail p.2)), LangAll ws s) ↔
        ∃ a, ok a ∧ ∃ t u, s = t + u ∧ LangAll pre t ∧ LangAll (ps.map Prod.fst) (a ::ₘ u) := by
  induction ps with
  | nil => intro pre s; simp [derivN, LangAll]
  | cons p ps ihv =>
    obtain ⟨v, d⟩ := p
    intro pre s
    have hv := ih (v, d) (by simp)
    have hvs := ihv (fun w hw => ih w (by simp [hw]))
    have hsplit : (∃ a, ok a ∧ ∃ t u, s = t + u ∧ LangAll pre t ∧ LangAll (v :: ps.map Prod.fst) (a ::ₘ u)) ↔
        LangAll (pre ++ d :: ps.map Prod.fst) s ∨
          ∃ a, ok a ∧ ∃ t u, s = t + u ∧ LangAll (pre ++ [v]) t ∧ LangAll (ps.map Prod.fst) (a ::ₘ u) := by
      constructor
      · rintro ⟨a, ha, t, u, rfl, ht, p, q, hpq, hp, hq⟩
        rcases cons_eq_add hpq with ⟨p', rfl, rfl⟩ | ⟨q', rfl, rfl⟩
        · left
          exact langAll_append.2 ⟨t, p' + q, rfl, ht, p', q, rfl, (hv _).2 ⟨a, ha, hp⟩, hq⟩
        · right
          refine ⟨a, ha, t + p, q', by rw [add_assoc], ?_, hq⟩
          exact langAll_append.2 ⟨t, p, rfl, ht, langAll_singleton.2 hp⟩
      · rintro (h | ⟨a, ha, t, u, rfl, ht, hu⟩)
        · obtain ⟨t, u, rfl, ht, p, q, rfl, hp, hq⟩ := langAll_append.1 h
          obtain ⟨a, ha, hp⟩ := (hv _).1 hp
          exact ⟨a, ha, t, p + q, rfl, ht, a ::ₘ p, q, by simp, hp, hq⟩
        · obtain ⟨t1, t2, rfl, ht1, ht2⟩ := langAll_append.1 ht
          refine ⟨a, ha, t1, t2 + u, by rw [add_assoc], ht1, t2, a ::ₘ u, by simp, ?_, hu⟩
          exact langAll_singleton.1 ht2
    simp only [List.map_cons]
    rw [hsplit, ← hvs (pre ++ [v]) s]
    cases hn : notFail d with
    | none =>
      simp only [derivN]
      have hf := notFail_none hn
      constructor
      · intro h; exact Or.inr h
      · rintro (h | h)
        · exfalso
          obtain ⟨_, _, _, _, p, q, _, hp, _⟩ := langAll_append.1 h
          rw [hf] at hp
          simp [Lang] at hp
        · exact h
    | some d' =>
      have hd := lang_notFail hn
      subst hd
      simp only [derivN, List.mem_cons, exists_eq_or_imp, List.map_map, Function.comp_def]

theorem unloop_mkAnd (e1 e2 : Expr A) (s : Multiset A) :
    Lang (unloop (mkAnd e1 e2)) s ↔ ∃ t u, s = t + u ∧ Lang (unloop e1) t ∧ Lang (unloop e2) u := by
  have h : unloop (mkAnd e1 e2) = mkAnd (unloop e1) (unloop e2) := by
    cases e1 <;> cases e2 <;> simp [mkAnd, unloop, unloopList]
  rw [h, lang_mkAnd]
  simp only [LangAll]
  constructor
  · rintro ⟨t, _, rfl, ht, u, _, rfl, hu, rfl⟩
    exact ⟨t, u, by simp, ht, hu⟩
  · rintro ⟨t, u, rfl, ht, hu⟩
    exact ⟨t, u, rfl, ht, u, 0, by simp, hu, rfl⟩

theorem unloop_mkRange (e : Expr A) (c : Card) (s : Multiset A) (he : e ≠ .fail) :
    Lang (unloop (mkRange e c)) s ↔ Lang (.repeat (unloop e) c) s := by
  have h : unloop (mkRange e c) = mkRange (unloop e) c := by
    unfold mkRange
    split_ifs
    · rfl
    · rfl
    · rfl
    · cases e <;> simp [unloop]
  rw [h, lang_mkRange _ _ _ (fun hh => he ((unloop_fail_iff e).1 hh))]

theorem unloop_mkOr (e1 e2 : Expr A) (s : Multiset A) :
    Lang (unloop (mkOr e1 e2)) s ↔ Lang (unloop e1) s ∨ Lang (unloop e2) s := by
  unfold mkOr
  split
  · simp [Lang, unloop]
  · simp [Lang, unloop]
  · split
    · rename_i h
      rw [beq_eq _ _ h, or_self]
    · simp [unloop, unloopList, Lang, LangSome]

theorem unloop_foldl (vs : List (Expr A)) (acc : Expr A) (s : Multiset A) :
    Lang (unloop (vs.foldl mkOr acc)) s ↔ Lang (unloop acc) s ∨ ∃ v ∈ vs, Lang (unloop v) s := by
  induction vs generalizing acc with
  | nil => simp
  | cons v vs ih =>
    simp only [List.foldl_cons, ih, unloop_mkOr, List.mem_cons, exists_eq_or_imp, or_assoc]

theorem condNullableAll_map (f : Expr A → Expr A) (vs : List (Expr A))
    (h : ∀ v ∈ vs, condNullable (f v) = condNullable v) : condNullableAll (vs.map f) = condNullableAll vs := by
  induction vs with
  | nil => rfl
  | cons v vs ih => simp [condNullableAll, h v, ih fun w hw => h w (by simp [hw])]

theorem condNullableAny_map (f : Expr A → Expr A) (vs : List (Expr A))
    (h : ∀ v ∈ vs, condNullable (f v) = condNullable v) : condNullableAny (vs.map f) = condNullableAny vs := by
  induction vs with
  | nil => rfl
  | cons v vs ih => simp [condNullableAny, h v, ih fun w hw => h w (by simp [hw])]

theorem condNullable_unloop (e : Expr A) : condNullable (unloop e) = condNullable e := by
  induction e using Expr.ind with
  | hfail => rfl
  | hempty => rfl
  | hsym v c => rfl
  | hand vs ih => simp only [unloop, unloopList_eq, condNullable, condNullableAll_map unloop vs ih]
  | hor vs ih => simp only [unloop, unloopList_eq, condNullable, condNullableAny_map unloop vs ih]
  | hstar v ih => simp [unloop, condNullable, condNullableAny]
  | hplus v ih => simp [unloop, condNullable, condNullableAny, condNullableAll, ih]
  | hrep v c ih => simp only [unloop, condNullable, ih]

theorem wf_unloop (e : Expr A) (h : WF e) : WF (unloop e) := by
  induction e using Expr.ind with
  | hfail => trivial
  | hempty => trivial
  | hsym v c => trivial
  | hand vs ih =>
    have hvs : ∀ v ∈ vs, WF v := wfList_iff.1 h
    simp only [unloop, unloopList_eq, WF, wfList_iff, List.mem_map]
    rintro _ ⟨v, hv, rfl⟩
    exact ih v hv (hvs v hv)
  | hor vs ih =>
    have hvs : ∀ v ∈ vs, WF v := wfList_iff.1 h.2
    simp only [unloop, unloopList_eq, WF, wfList_iff, List.mem_map]
    refine ⟨fun hh => h.1 (List.map_eq_nil_iff.1 hh), ?_⟩
    rintro _ ⟨v, hv, rfl⟩
    exact ih v hv (hvs v hv)
  | hstar v ih => exact ⟨by simp, trivial, ⟨ih h, ih h, trivial⟩, trivial⟩
  | hplus v ih => exact ⟨by simp, ih h, ⟨ih h, ih h, ih h, trivial⟩, trivial⟩
  | hrep v c ih => exact ⟨h.1, h.2.1, ih h.2.2⟩

end

section
variable {K Q W : Type} [DecidableEq K] [DecidableEq Q]

theorem lang_star_loop {A : Type} (v : Expr A) (s : Multiset A) :
    Lang (unloop (.star v)) s ↔ s = 0 ∨ ∃ t u, s = t + u ∧ Lang (unloop v) t ∧ Lang (unloop v) u := by
  simp only [unloop, Lang, LangSome, LangAll, or_false]
  refine or_congr_right ?_
  constructor
  · rintro ⟨t, _, rfl, ht, u, _, rfl, hu, rfl⟩
    exact ⟨t, u, by simp, ht, hu⟩
  · rintro ⟨t, u, rfl, ht, hu⟩
    exact ⟨t, u, rfl, ht, u, 0, by simp, hu, rfl⟩

theorem lang_plus_loop {A : Type} (v : Expr A) (s : Multiset A) :
    Lang (unloop (.plus v)) s ↔ Lang (unloop v) s ∨
      ∃ t u w, s = t + (u + w) ∧ Lang (unloop v) t ∧ Lang (unloop v) u ∧ Lang (unloop v) w := by
  simp only [unloop, Lang, LangSome, LangAll, or_false]
  refine or_congr_right ?_
  constructor
  · rintro ⟨t, _, rfl, ht, u, _, rfl, hu, w, _, rfl, hw, rfl⟩
    exact ⟨t, u, w, by simp, ht, hu, hw⟩
  · rintro ⟨t, u, w, rfl, ht, hu, hw⟩
    exact ⟨t, u + w, rfl, ht, u, w, rfl, hu, w, 0, by simp, hw, rfl⟩

/-- The quotient lemma for the language that the conditioned matcher gives to expressions with loops. -/
theorem lang_unloop_derivC (sat : Q → W → Bool) (ctl : List K) (k : K) (w : W) (e : Expr (K × Q))
    (hwf : WF e) (s : Multiset (K × Q)) :
    Lang (unloop (derivC sat false ctl k w 1 e)) s ↔ ∃ a, Fits sat (k, w) a ∧ Lang (unloop e) (a ::ₘ s) := by
  induction e using Expr.ind generalizing s with
  | hfail => simp [derivC, Lang, unloop]
  | hempty => simp [derivC, Lang, unloop]
  | hsym v c =>
    rw [loopFree_unloop _ (loopFree_derivC sat false ctl k w 1 (.symbol v c) trivial)]
    exact lang_derivC sat ctl k w (.symbol v c) trivial trivial s
  | hand vs ih =>
    have hvs : ∀ v ∈ vs, WF v := wfList_iff.1 hwf
    simp only [derivC, derivPairsC_eq, unloop_orOfAnds, lang_orOfAnds]
    have hm : (derivN [] (vs.map fun v => (v, notFail (derivC sat false ctl k w 1 v)))).map (List.map unloop) =
        derivN [] ((vs.map fun v => (unloop v, unloop (derivC sat false ctl k w 1 v))).map
          fun p => (p.1, notFail p.2)) := by
      rw [derivN_map]
      simp only [List.map_map, List.map_nil, Function.comp_def, notFail_unloop]
    rw [hm, langAll_derivN_pairs (Fits sat (k, w)) _ (by
      intro p hp s
      obtain ⟨v, hv, rfl⟩ := List.mem_map.1 hp
      exact ih v hv (hvs v hv) s) [] s]
    simp only [unloop, unloopList_eq, LangAll, Lang, List.map_map, Function.comp_def]
    constructor
    · rintro ⟨a, ha, _, u, rfl, rfl, h⟩; exact ⟨a, ha, by simpa using h⟩
    · rintro ⟨a, ha, h⟩; exact ⟨a, ha, 0, s, by simp, rfl, h⟩
  | hor vs ih =>
    have hvs : ∀ v ∈ vs, WF v := wfList_iff.1 hwf.2
    simp only [derivC, derivListC_eq, mkOrValues, unloop_foldl, unloop, unloopList_eq, Lang, false_or, langSome_iff,
      List.mem_map]
    constructor
    · rintro ⟨_, ⟨v, hv, rfl⟩, h⟩
      obtain ⟨a, ha, h⟩ := (ih v hv (hvs v hv) s).1 h
      exact ⟨a, ha, _, ⟨v, hv, rfl⟩, h⟩
    · rintro ⟨a, ha, _, ⟨v, hv, rfl⟩, h⟩
      exact ⟨_, ⟨v, hv, rfl⟩, (ih v hv (hvs v hv) s).2 ⟨a, ha, h⟩⟩
  | hstar v ih =>
    simp only [derivC, unloop_mkAnd, lang_star_loop]
    constructor
    · rintro ⟨t, u, rfl, ht, hu⟩
      obtain ⟨a, ha, ht⟩ := (ih hwf t).1 ht
      exact ⟨a, ha, Or.inr ⟨a ::ₘ t, u, by simp, ht, hu⟩⟩
    · rintro ⟨a, ha, h | ⟨t, u, h, ht, hu⟩⟩
      · simp at h
      · rcases cons_eq_add h with ⟨t', rfl, rfl⟩ | ⟨u', rfl, rfl⟩
        · exact ⟨t', u, rfl, (ih hwf t').2 ⟨a, ha, ht⟩, hu⟩
        · exact ⟨u', t, add_comm _ _, (ih hwf u').2 ⟨a, ha, hu⟩, ht⟩
  | hplus v ih =>
    simp only [derivC, unloop_mkAnd, lang_plus_loop]
    constructor
    · rintro ⟨t, u, rfl, ht, hu⟩
      obtain ⟨a, ha, ht⟩ := (ih hwf t).1 ht
      rcases (lang_star_loop v u).1 hu with rfl | ⟨x, y, rfl, hx, hy⟩
      · exact ⟨a, ha, Or.inl (by simpa using ht)⟩
      · exact ⟨a, ha, Or.inr ⟨a ::ₘ t, x, y, by simp, ht, hx, hy⟩⟩
    · rintro ⟨a, ha, h | ⟨t, u, z, h, ht, hu, hz⟩⟩
      · exact ⟨s, 0, by simp, (ih hwf s).2 ⟨a, ha, h⟩, (lang_star_loop v 0).2 (Or.inl rfl)⟩
      · have two : ∀ p q, Lang (unloop v) p → Lang (unloop v) q → Lang (unloop (.star v)) (p + q) :=
          fun p q hp hq => (lang_star_loop v _).2 (Or.inr ⟨p, q, rfl, hp, hq⟩)
        rcases cons_eq_add h with ⟨t', rfl, rfl⟩ | ⟨q', hq', rfl⟩
        · exact ⟨t', u + z, rfl, (ih hwf t').2 ⟨a, ha, ht⟩, two u z hu hz⟩
        · rcases cons_eq_add hq'.symm with ⟨u', rfl, rfl⟩ | ⟨z', rfl, rfl⟩
          · exact ⟨u', t + z, add_left_comm _ _ _, (ih hwf u').2 ⟨a, ha, hu⟩, two t z ht hz⟩
          · exact ⟨z', t + u, by rw [← add_assoc, add_comm], (ih hwf z').2 ⟨a, ha, hz⟩, two t u ht hu⟩
  | hrep v c ih =>
    obtain ⟨hc, hm, hv⟩ := hwf
    have h00 : c.is00 = false := by
      simp only [Card.is00, Bool.and_eq_false_iff, beq_eq_false_iff_ne]
      exact Or.inr hm
    simp only [derivC, h00, Bool.false_eq_true, if_false, unloop_mkAnd, unloop]
    by_cases hf : v = .fail
    · subst hf
      simp only [derivC, unloop, Lang]
      constructor
      · rintro ⟨_, _, _, h, _⟩; exact h.elim
      · rintro ⟨a, _, k, _, hk⟩
        obtain ⟨j, rfl, t, u, rfl, ht, hu⟩ := sumOf_cons.1 hk
        exact ht.elim
    · have hmr := fun s => unloop_mkRange v (c.minus 1) s hf
      simp only [hmr]
      simp only [Lang, Card.holds_minus_one hm]
      constructor
      · rintro ⟨t, u, rfl, ht, k, hk, hs⟩
        obtain ⟨a, ha, ht⟩ := (ih hv _).1 ht
        exact ⟨a, ha, k + 1, hk, sumOf_cons.2 ⟨k, rfl, t, u, by simp, ht, hs⟩⟩
      · rintro ⟨a, ha, k, hk, hs⟩
        obtain ⟨j, rfl, t, u, rfl, ht, hu⟩ := sumOf_cons.1 hs
        exact ⟨t, u, rfl, (ih hv _).2 ⟨a, ha, ht⟩, j, hk, hu⟩

theorem matchesC_unloop (sat : Q → W → Bool) (ctl : List K) (l : List (K × W)) (e : Expr (K × Q)) (hwf : WF e) :
    matchesC sat false ctl e l = true ↔ LangC sat (unloop e) l := by
  induction l generalizing e with
  | nil =>
    have hw := wf_unloop e hwf
    rw [matchesC_nullable, derivAllC, ← condNullable_unloop, condNullable_iff _ (minMax_of_sane _ (sane_of_wf _ hw))]
    simp [LangC]
  | cons x l ih =>
    obtain ⟨k, w⟩ := x
    rw [matchesC_cons, ih _ (wf_derivC sat false ctl k w 1 e hwf)]
    simp only [LangC, lang_unloop_derivC sat ctl k w e hwf]
    constructor
    · rintro ⟨as, h1, a, ha, h⟩
      exact ⟨a :: as, .cons ha h1, by rwa [← Multiset.cons_coe]⟩
    · rintro ⟨as, h1, h2⟩
      match as, h1 with
      | a :: as, .cons ha h1 => exact ⟨as, h1, a, ha, by rwa [← Multiset.cons_coe] at h2⟩

end

end Rbe

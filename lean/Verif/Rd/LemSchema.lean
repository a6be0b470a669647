import Verif.Rd.LemEnds
import Verif.Rd.LemShape

/-!
# Lemmas: how property shapes and schemas are read
-/

namespace Rd

section
variable {L A B C : Type} {g : Gr L} {E : Ext L C} [DecidableEq L]

theorem run_tail (hg : g.Orders) (hn : g.Neat) {s : St L} (ht : s.focus.isLit = false)
    (hl : g.Lacks s.focus .ignoredProperties) {f : List (Tgt C) → List (Ob C) → List (Comp C) → A}
    {Q : A → St L → Prop}
    (h : ∀ ts ps cs s', (∀ x, x ∈ ts ↔ TargetOf g E s.focus x) →
      (∀ o, o ∈ ps ↔ ∃ x, g.Has s.focus .property x ∧ E.Means x o) → Covers cs (Declared g E s.focus) →
      WellFormed g E s.focus → ¬ BadTag g E s.focus → Q (f ts ps cs) s') :
    Run (targets g E >>= fun ts => allOf g .property E.obj >>= fun ps => components g E >>= fun cs =>
      ret (f ts ps cs)) s Q (¬ WellFormed g E s.focus) (BadTag g E s.focus) := by
  have : (targets g E >>= fun ts => allOf g .property E.obj >>= fun ps => components g E >>= fun cs =>
      ret (f ts ps cs)) = ((do
      let ts ← targets g E
      let ps ← allOf g .property E.obj
      let cs ← components g E
      ret (ts, ps, cs)) >>= fun r => ret (f r.1 r.2.1 r.2.2)) := by
    funext s
    simp only [Bind.bind, andThen]
    rcases targets g E s with ⟨_ | _ | _ | _, s1⟩ <;> try rfl
    dsimp only
    rcases allOf g .property E.obj s1 with ⟨_ | _ | _ | _, s2⟩ <;> try rfl
    dsimp only
    rcases components g E s2 with ⟨_ | _ | _ | _, s3⟩ <;> rfl
  rw [this]
  refine Run.bind (run_body hg hn ht hl) ?_
  rintro ⟨ts, ps, cs⟩ s5 ⟨-, h1, h2, h3, h4, h5⟩
  exact h _ _ _ _ h1 h2 h3 h4 h5

theorem run_reifier (hg : g.Orders) (hn : g.Neat) {s : St L} {Er Pa : Prop} :
    Run (reifierP g E) s (fun r s' => s'.focus = s.focus ∧ IsReifier g E s.focus r) Er Pa := by
  refine Run.bind (Run.values hg) ?_
  rintro vs s1 ⟨hs1, hv, -⟩
  refine Run.bind (Run.optOne hg (P := E.IsBool) (fun _ _ => toBool_iff)
    (hn.one _ .reificationRequired (by simp [singles]))) ?_
  rintro o s2 ⟨hs2, ho⟩
  rw [hs1] at hs2 ho
  by_cases he : vs = []
  · rw [if_pos he]
    subst he
    exact ⟨hs2, fun x hx => by simpa using (hv x).2 hx⟩
  · rw [if_neg he]
    obtain ⟨v, hv'⟩ := List.exists_mem_of_ne_nil _ he
    refine ⟨hs2, ⟨v, (hv v).1 hv'⟩, fun o => ?_, ?_⟩
    · simp only [List.mem_filterMap, hv, obj_iff]
    · cases o with
      | none => simpa using fun x hx => fun hb => ho true ⟨x, hx, hb⟩
      | some b =>
        constructor
        · rintro (rfl : b = true)
          exact ho
        · rintro ⟨x, hx, hb⟩
          obtain ⟨y, hy, hb'⟩ := ho
          rw [hn.one _ .reificationRequired (by simp [singles]) _ _ hx hy] at hb
          obtain ⟨l, rfl, hl⟩ := hb
          obtain ⟨l', he', hl'⟩ := hb'
          cases he'
          rw [hl] at hl'
          exact (Option.some.inj hl').symm

theorem run_propShape (hg : g.Orders) (hn : g.Neat) {s : St L} (ht : s.focus.isLit = false) {v : Tm L}
    {q : Shacl.Path Iri} {n : Nat} (hv : g.Has s.focus .path v) (hq : ∀ s, ∃ s', pathP g n v s = (.ok q, s'))
    (hl : g.Lacks s.focus .ignoredProperties) :
    Run (propShapeP g E n) s (fun r _ => (IsShape g E s.focus r.toNodeShape ∧ r.path = q ∧ IsReifier g E s.focus r.reifier) ∧
        WellFormed g E s.focus ∧ ¬ BadTag g E s.focus)
      (¬ WellFormed g E s.focus) (BadTag g E s.focus) := by
  refine Run.bind Run.get ?_
  rintro t s2 ⟨rfl, rfl⟩
  refine Run.bind (Q := fun o s' => s' = s2 ∧ E.Means s2.focus o) (Run.lift.mono ?_ ?_ id) ?_
  · rintro o _ ⟨ho, rfl⟩
    exact ⟨rfl, obj_iff.1 ho⟩
  · intro h
    cases hf : s2.focus with
    | lit l => rw [hf] at ht; cases ht
    | iri i => rw [hf] at h; cases h
    | bnode i => rw [hf] at h; cases h
  rintro id s3 ⟨rfl, hid⟩
  refine Run.bind ((Run.single hg).mono (fun _ _ h => h) (fun h => (h v hv).elim) fun h => h) ?_
  rintro v' s4 ⟨hs4, hv'⟩
  obtain rfl := hn.one _ .path (by simp [singles]) _ _ hv hv'
  refine Run.bind (Q := fun a _ => a = q) ?_ ?_
  · obtain ⟨s', h⟩ := hq s4
    simp [Run, h]
  rintro q s5 rfl
  refine Run.bind (Run.set (t := s3.focus)) ?_
  intro _ s6 hs6
  refine Run.bind (run_severity hg hn) ?_
  rintro sev s7 ⟨hs7, hsev⟩
  rw [hs6] at hs7 hsev
  refine Run.bind (run_reifier hg hn) ?_
  rintro r s8 ⟨hs8, hr⟩
  rw [hs7] at hs8 hr
  have := run_tail (E := E) hg hn (s := s8) (by rw [hs8]; exact ht) (by rw [hs8]; exact hl)
    (f := fun ts ps cs => (⟨⟨id, sev.map toSev, ts, ps, cs⟩, q, r⟩ : PropShape C))
    (Q := fun r _ => (IsShape g E s3.focus r.toNodeShape ∧ r.path = q ∧ IsReifier g E s3.focus r.reifier) ∧
        WellFormed g E s3.focus ∧ ¬ BadTag g E s3.focus) (by
      rw [hs8]
      intro ts ps cs s' h1 h2 h3 h4 h5
      exact ⟨⟨⟨hid, hsev, h1, h2, h3⟩, rfl, hr⟩, h4, h5⟩)
  rw [hs8] at this
  exact this

/-- A node shape fails at once if there is a path, and the focus stays. -/
theorem nodeShape_path (hg : g.Orders) {s : St L} {v : Tm L} (hv : g.Has s.focus .path v) :
    nodeShapeP g E s = (.err, ⟨s.focus, s.reads + 1⟩) := by
  refine bind_err ?_
  have hm : v ∈ g.ord s.reads (g.objs s.focus (.v .path)) := by rw [(hg _ _).mem_iff, mem_objs]; exact hv
  cases hl : g.ord s.reads (g.objs s.focus (.v .path)) with
  | nil => rw [hl] at hm; cases hm
  | cons a l => simp [notP, nonEmpty, Rd.values, Bind.bind, andThen, hl, ret]

theorem shape_path (hg : g.Orders) {s : St L} {v : Tm L} (hv : g.Has s.focus .path v) (n : Nat) :
    shapeP g E n s = (propShapeP g E n >>= fun r => ret (Shape.prop r)) ⟨s.focus, s.reads + 1⟩ :=
  orElse_err (bind_err (nodeShape_path hg hv))

/-- Node shapes that are well-formed. -/
theorem shape_node (hg : g.Orders) (hn : g.Neat) {t : Tm L} (ht : t.isLit = false) (hp : g.Lacks t .path)
    (hl : g.Lacks t .ignoredProperties) (hw : WellFormed g E t) (hb : ¬ BadTag g E t) (n k : Nat) :
    ∃ r s', shapeP g E n ⟨t, k⟩ = (.ok (.node r), s') ∧ IsShape g E t r := by
  have := run_nodeShape (E := E) hg hn (s := ⟨t, k⟩) ht hp hl
  unfold Run at this
  rcases hr : nodeShapeP g E ⟨t, k⟩ with ⟨r, s'⟩
  rw [hr] at this
  cases r with
  | ok a => exact ⟨a, s', orElse_ok (bind_ok hr), this.1⟩
  | err => exact absurd hw this
  | panic => exact absurd this hb
  | loop => exact this.elim

theorem shape_prop (hg : g.Orders) (hn : g.Neat) {t : Tm L} (ht : t.isLit = false) {v : Tm L} {q : Shacl.Path Iri}
    {n : Nat} (hv : g.Has t .path v) (hq : ∀ s, ∃ s', pathP g n v s = (.ok q, s'))
    (hl : g.Lacks t .ignoredProperties) (k : Nat) :
    Run (shapeP g E n) ⟨t, k⟩ (fun r _ => (∃ p, r = .prop p ∧ IsShape g E t p.toNodeShape ∧ p.path = q ∧
      IsReifier g E t p.reifier) ∧ WellFormed g E t ∧ ¬ BadTag g E t) (¬ WellFormed g E t) (BadTag g E t) := by
  unfold Run
  rw [shape_path hg (s := ⟨t, k⟩) hv]
  refine Run.bind (run_propShape hg hn (s := ⟨t, k + 1⟩) ht hv hq hl) ?_
  rintro a s' ⟨h1, h2⟩
  exact ⟨⟨a, rfl, h1⟩, h2⟩

/-! ## Candidates -/

theorem mem_range {p : Voc} {x : Tm L} (hn : g.Neat) : x ∈ g.range p ↔ (∃ s, g.Has s p x) ∧ x.isLit = false := by
  simp only [Gr.range, List.mem_dedup, List.mem_map, List.mem_filter, Bool.and_eq_true, decide_eq_true_eq, Gr.Has]
  constructor
  · rintro ⟨⟨a, b, c⟩, ⟨h, rfl, h2⟩, rfl⟩
    exact ⟨⟨a, hn.rdf _ h, h⟩, by simpa using h2⟩
  · rintro ⟨⟨s, -, h⟩, h2⟩
    exact ⟨_, ⟨h, rfl, by simpa using h2⟩, rfl⟩

theorem mem_domain {p : Voc} {x : Tm L} (hn : g.Neat) : x ∈ g.domain p ↔ ∃ o, g.Has x p o := by
  simp only [Gr.domain, List.mem_dedup, List.mem_map, List.mem_filter, decide_eq_true_eq, Gr.Has]
  constructor
  · rintro ⟨⟨a, b, c⟩, ⟨h, rfl⟩, rfl⟩
    exact ⟨c, hn.rdf _ h, h⟩
  · rintro ⟨o, -, h⟩
    exact ⟨_, ⟨h, rfl⟩, rfl⟩

theorem isList_lit {l : L} {xs : List (Tm L)} : ¬ g.IsList (.lit l) xs := by
  intro h
  cases h with
  | cons _ hf _ _ =>
    have := ((hf _).2 rfl).1
    cases this

theorem run_listMembers (hg : g.Orders) (hn : g.Neat) {p : Voc} {s : St L} :
    Run (listMembers g p) s (fun ms _ => (∀ t, t ∈ ms ↔ ∃ s v xs, g.Has s p v ∧ g.IsList v xs ∧ t ∈ xs) ∧ ¬ BadList g p)
      (BadList g p) False := by
  refine Run.bind (Q := fun os _ => ∀ x, x ∈ os ↔ (∃ s, g.Has s p x) ∧ x.isLit = false) ?_ ?_
  · exact fun x => by rw [(hg _ _).mem_iff, mem_range hn]
  intro os s1 ho
  refine Run.bind (Q := fun ms _ => List.Forall₂ g.IsList os ms ∧
      ∀ v ∈ os, ¬ ∀ xs, g.IsList v xs → ∃ x ∈ xs, x.isLit = true)
    ((Run.each (I := fun _ => True) (R := g.IsList)
      (Er := fun v => ∀ xs, g.IsList v xs → ∃ x ∈ xs, x.isLit = true) (Pa := fun _ => False) os trivial ?_).mono
      (fun _ _ h => ⟨h.2.1, h.2.2.1⟩) ?_ (by rintro ⟨_, _, h⟩; exact h)) ?_
  · intro v hv s2 _
    refine Run.bind Run.set ?_
    rintro _ s3 rfl
    refine Run.bind ((Run.list hg hn).mono (fun _ _ h => h) (fun h xs hx => (h xs hx).elim) id) ?_
    rintro xs s4 ⟨hx, -⟩
    refine (Run.each (I := fun _ => True) (R := Eq) (Er := fun x : Tm L => x.isLit = true) (Pa := fun _ => False) xs
      trivial ?_).mono ?_ ?_ (by rintro ⟨_, _, h⟩; exact h)
    · intro x _ s5 _
      by_cases h : x.isLit
      · rw [if_pos h]; exact h
      · rw [if_neg h]; exact ⟨trivial, rfl, h, not_false⟩
    · rintro ys s5 ⟨-, h1, h2, -⟩
      obtain rfl : xs = ys := List.forall₂_eq_eq_eq ▸ h1
      refine ⟨trivial, hx, fun h => ?_, not_false⟩
      obtain ⟨x, h3, h4⟩ := h xs hx
      exact h2 x h3 h4
    · rintro ⟨x, h1, h2⟩ ys hy
      rw [isList_unique hy hx]
      exact ⟨x, h1, h2⟩
  · rintro ⟨v, hv, h⟩
    obtain ⟨⟨s, hs⟩, hl⟩ := (ho v).1 hv
    exact ⟨s, v, hs, hl, h⟩
  · rintro ms s2 ⟨hF, hE⟩
    refine ⟨fun t => ?_, ?_⟩
    · rw [List.mem_flatten]
      constructor
      · rintro ⟨xs, hm, ht⟩
        obtain ⟨n, hn', rfl⟩ := List.getElem_of_mem hm
        have hlen : n < os.length := by rw [hF.length_eq]; exact hn'
        obtain ⟨⟨s, hs⟩, -⟩ := (ho _).1 (List.getElem_mem hlen)
        exact ⟨s, _, _, hs, hF.get hlen hn', ht⟩
      · rintro ⟨s, v, xs, hs, hx, ht⟩
        have hl : v.isLit = false := by
          cases v with
          | lit l => exact (isList_lit hx).elim
          | _ => rfl
        obtain ⟨n, hn', rfl⟩ := List.getElem_of_mem ((ho v).2 ⟨⟨s, hs⟩, hl⟩)
        have := hF.get hn' (by rw [← hF.length_eq]; exact hn')
        simp only [List.get_eq_getElem] at this
        rw [isList_unique hx this] at ht
        exact ⟨_, List.getElem_mem _, ht⟩
    · rintro ⟨s, v, hs, hl, h⟩
      exact hE v ((ho v).2 ⟨⟨s, hs⟩, hl⟩) h

theorem run_candidates (hg : g.Orders) (hn : g.Neat) {s : St L} :
    Run (candidates g) s (fun l _ => (∀ t, t ∈ l ↔ Candidate g t) ∧ l.Nodup ∧ ∀ p ∈ [Voc.and, .or, .xone], ¬ BadList g p)
      (∃ p ∈ [Voc.and, .or, .xone], BadList g p) False := by
  refine Run.bind ((run_listMembers hg hn).mono (fun _ _ h => h) (fun h => ⟨.and, by simp, h⟩) id) ?_
  rintro a s1 ⟨ha, ha'⟩
  refine Run.bind ((run_listMembers hg hn).mono (fun _ _ h => h) (fun h => ⟨.or, by simp, h⟩) id) ?_
  rintro o s2 ⟨ho, ho'⟩
  refine Run.bind ((run_listMembers hg hn).mono (fun _ _ h => h) (fun h => ⟨.xone, by simp, h⟩) id) ?_
  rintro x s3 ⟨hx, hx'⟩
  refine ⟨fun t => ?_, (hg _ _).nodup_iff.2 (List.nodup_dedup _), ?_⟩
  · rw [(hg _ _).mem_iff]
    simp only [List.mem_dedup, List.mem_append, has_subs hn, mem_domain hn, mem_range hn, ha, ho, hx]
    constructor
    · rintro ((((((((((((((h | h) | h) | ⟨_, h⟩) | ⟨_, h⟩) | ⟨_, h⟩) | ⟨_, h⟩) | ⟨_, _, _, h, h1, h2⟩) |
        ⟨_, _, _, h, h1, h2⟩) | ⟨⟨_, h⟩, hl⟩) | ⟨⟨_, h⟩, hl⟩) | ⟨⟨_, h⟩, hl⟩) | ⟨⟨_, h⟩, hl⟩) |
        ⟨_, _, _, h, h1, h2⟩) | ⟨⟨_, h⟩, hl⟩)
      · exact .type (by decide) h
      · exact .type (by decide) h
      · exact .type (by decide) h
      · exact .target (by decide) h
      · exact .target (by decide) h
      · exact .target (by decide) h
      · exact .target (by decide) h
      · exact .member (by decide) h h1 h2
      · exact .member (by decide) h h1 h2
      · exact .value (by decide) h hl
      · exact .value (by decide) h hl
      · exact .value (by decide) h hl
      · exact .value (by decide) h hl
      · exact .member (by decide) h h1 h2
      · exact .value (by decide) h hl
    · intro h
      cases h with
      | type hv h =>
        simp only [List.mem_cons, List.not_mem_nil, or_false] at hv
        rcases hv with rfl | rfl | rfl <;> simp [h]
      | target hv h =>
        have h' := Exists.intro _ h
        simp only [List.mem_cons, List.not_mem_nil, or_false] at hv
        rcases hv with rfl | rfl | rfl | rfl <;> simp [h']
      | value hv h hl =>
        have h' : ∃ s, g.Has s _ t := ⟨_, h⟩
        simp only [List.mem_cons, List.not_mem_nil, or_false] at hv
        rcases hv with rfl | rfl | rfl | rfl | rfl <;> simp only [h', hl, true_or, or_true, and_self]
      | member hv h h1 h2 =>
        have h' : ∃ s v xs, g.Has s _ v ∧ g.IsList v xs ∧ t ∈ xs := ⟨_, _, _, h, h1, h2⟩
        simp only [List.mem_cons, List.not_mem_nil, or_false] at hv
        rcases hv with rfl | rfl | rfl <;> simp only [h', true_or, or_true]
  · intro p hp
    simp only [List.mem_cons, List.not_mem_nil, or_false] at hp
    rcases hp with rfl | rfl | rfl <;> assumption

/-! ## The loop -/

theorem parseAll_ok {n : Nat} : ∀ (l : List (Tm L)) (done r : List (Tm L × Shape C)) (s s' : St L),
    (done.map Prod.fst).Nodup → parseAll g E n l done s = (.ok r, s') →
    (r.map Prod.fst).Nodup ∧ (∀ t, t ∈ r.map Prod.fst ↔ t ∈ done.map Prod.fst ∨ t ∈ l) ∧
    ∀ e ∈ r, e ∈ done ∨ ∃ k s'', shapeP g E n ⟨e.1, k⟩ = (.ok e.2, s'') := by
  intro l
  induction l with
  | nil =>
    intro done r s s' hd h
    cases h
    exact ⟨hd, by simp, fun e he => .inl he⟩
  | cons t l ih =>
    intro done r s s' hd h
    rw [parseAll] at h
    split at h
    · rename_i hm
      obtain ⟨h1, h2, h3⟩ := ih _ _ _ _ hd h
      refine ⟨h1, fun x => (h2 x).trans ?_, h3⟩
      simp only [List.mem_cons]
      constructor
      · rintro (h | h)
        · exact .inl h
        · exact .inr (.inr h)
      · rintro (h | rfl | h)
        · exact .inl h
        · exact .inl hm
        · exact .inr h
    · rename_i hm
      rw [setFocus_bind] at h
      obtain ⟨a, s1, h1, h2⟩ := bind_ok_iff.1 h
      obtain ⟨h3, h4, h5⟩ := ih _ _ _ _ (by
        rw [List.map_append, List.nodup_append]
        refine ⟨hd, by simp, ?_⟩
        rintro x hx y hy rfl
        simp only [List.map_cons, List.map_nil, List.mem_singleton] at hy
        exact hm (hy ▸ hx)) h2
      refine ⟨h3, fun x => (h4 x).trans ?_, fun e he => ?_⟩
      · simp [or_assoc]
      · rcases h5 e he with h | h
        · rcases List.mem_append.1 h with h | h
          · exact .inl h
          · rw [List.mem_singleton] at h
            subst h
            exact .inr ⟨_, _, h1⟩
        · exact .inr h

theorem parseAll_reads {n : Nat} : ∀ (l : List (Tm L)) (done : List (Tm L × Shape C)) (s : St L),
    (∀ t ∈ l, ∀ k, ∃ r s', shapeP g E n ⟨t, k⟩ = (.ok r, s')) → ∃ r s', parseAll g E n l done s = (.ok r, s') := by
  intro l
  induction l with
  | nil => exact fun done s _ => ⟨done, s, rfl⟩
  | cons t l ih =>
    intro done s h
    rw [parseAll]
    split
    · exact ih _ _ fun t ht => h t (by simp [ht])
    · obtain ⟨r, s', hr⟩ := h t (by simp) s.reads
      rw [setFocus_bind, bind_ok hr]
      exact ih _ _ fun t ht => h t (by simp [ht])

theorem uniform {P : Nat → A → Prop} : ∀ l : List A, (∀ a ∈ l, ∃ N, ∀ n, N ≤ n → P n a) → ∃ N, ∀ n, N ≤ n → ∀ a ∈ l, P n a
  | [], _ => ⟨0, by simp⟩
  | a :: l, h => by
    obtain ⟨N, hN⟩ := h a (by simp)
    obtain ⟨M, hM⟩ := uniform l fun a ha => h a (by simp [ha])
    refine ⟨N + M, fun n hn b hb => ?_⟩
    rcases List.mem_cons.1 hb with rfl | hb
    · exact hN n (by omega)
    · exact hM n (by omega) b hb

end

end Rd

namespace Rd

section
variable {L A B C : Type} {g : Gr L} {E : Ext L C} [DecidableEq L]

theorem propShape_mono {n m : Nat} (h : n ≤ m) : Extends (propShapeP g E n) (propShapeP g E m) :=
  ext_bind (ext_refl _) fun _ => ext_bind (ext_refl _) fun _ => ext_bind (ext_refl _) fun v =>
    ext_bind (fun s => pathP_mono h v s) fun _ => ext_refl _

theorem shape_mono {n m : Nat} (h : n ≤ m) : Extends (shapeP g E n) (shapeP g E m) :=
  ext_orElse (ext_refl _) (ext_bind (propShape_mono h) fun _ => ext_refl _)

theorem candidate_subject (hn : g.Neat) (hb : ∀ p ∈ [Voc.and, .or, .xone], ¬ BadList g p) {t : Tm L}
    (h : Candidate g t) : t.isLit = false := by
  cases h with
  | type _ h => exact h.1
  | target _ h => exact h.1
  | value _ _ h => exact h
  | member hp h h1 h2 =>
    rename_i s p v xs
    by_contra hl
    refine hb p hp ⟨s, v, h, ?_, fun ys hy => ⟨t, by rwa [isList_unique hy h1], by simpa using hl⟩⟩
    cases v with
    | lit l => exact (isList_lit h1).elim
    | _ => rfl

theorem good_reads (hg : g.Orders) (hn : g.Neat) {t : Tm L} (ht : t.isLit = false) (h : Good g E t) :
    ∃ N, ∀ n, N ≤ n → ∀ k, ∃ r s', shapeP g E n ⟨t, k⟩ = (.ok r, s') ∧ Says g E t r := by
  by_cases hp : g.Lacks t .path
  · refine ⟨0, fun n _ k => ?_⟩
    obtain ⟨r, s', h1, h2⟩ := shape_node hg hn ht hp h.plain h.well h.tags n k
    exact ⟨_, s', h1, hp, h2⟩
  · obtain ⟨v, hv⟩ := not_lacks.1 hp
    obtain ⟨q, hq⟩ := h.path v hv
    obtain ⟨N, hN⟩ := isPath_reads hg hq
    refine ⟨N, fun n hn' k => ?_⟩
    have := shape_prop (E := E) hg hn ht hv (hN n hn') h.plain k
    unfold Run at this
    rcases hr : shapeP g E n ⟨t, k⟩ with ⟨r, s'⟩
    rw [hr] at this
    cases r with
    | ok a =>
      obtain ⟨⟨p, rfl, h1, rfl, h3⟩, -⟩ := this
      exact ⟨_, s', rfl, ⟨v, hv, hq⟩, h1, h3⟩
    | err => exact absurd h.well this
    | panic => exact absurd this h.tags
    | loop => exact this.elim

theorem good_says (hg : g.Orders) (hn : g.Neat) {t : Tm L} (ht : t.isLit = false) (h : Good g E t) {n k : Nat}
    {r : Shape C} {s' : St L} (hr : shapeP g E n ⟨t, k⟩ = (.ok r, s')) : Says g E t r := by
  obtain ⟨N, hN⟩ := good_reads hg hn ht h
  obtain ⟨r', s1, h1, h2⟩ := hN (N + n) (by omega) k
  rw [shape_mono (by omega : n ≤ N + n) _ (by rw [hr]; nofun), hr] at h1
  cases h1
  exact h2

/-- A candidate that is not read spoils all. -/
theorem parse_not_ok (hg : g.Orders) (hn : g.Neat) {t : Tm L} (hc : Candidate g t) {n : Nat}
    (h : ∀ k r s', shapeP g E n ⟨t, k⟩ ≠ (.ok r, s')) (s : St L) (r : List (Tm L × Shape C)) (s' : St L) :
    parse g E n s ≠ (.ok r, s') := by
  intro hp
  obtain ⟨l, s1, h1, h2⟩ := bind_ok_iff.1 hp
  have hr := run_candidates (s := s) hg hn
  unfold Run at hr
  rw [h1] at hr
  obtain ⟨-, h4, h5⟩ := parseAll_ok _ _ _ _ _ (by simp) h2
  have hm := (h4 t).2 (.inr (by rw [List.mem_reverse]; exact (hr.1 t).2 hc))
  obtain ⟨⟨t', sh⟩, he, rfl⟩ := List.mem_map.1 hm
  rcases h5 _ he with h | ⟨k, s'', h'⟩
  · cases h
  · exact h k _ _ h'

end

end Rd

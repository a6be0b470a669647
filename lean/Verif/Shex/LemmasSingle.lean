import Verif.Shex.LemmasSelection

/-!
# Lemmas: parents with a single alternative
-/

namespace Shex
open Rbe

variable {N P : Type} [DecidableEq N] [DecidableEq P]

/-! ## The closure of the ancestors -/

theorem filter_flatMap_key (f : Nat → List Nat) (ks : List Nat) (hn : ks.Nodup) (x : Nat) :
    (((ks.flatMap fun k => (f k).map fun e => (k, e)).filter fun e => decide (e.1 = x)).map Prod.snd) =
      if x ∈ ks then f x else [] := by
  induction ks with
  | nil => simp
  | cons k ks ih =>
    obtain ⟨hk, hn⟩ := List.nodup_cons.1 hn
    rw [List.flatMap_cons, List.filter_append, List.map_append, ih hn]
    by_cases h : k = x
    · subst h
      rw [if_neg hk, if_pos (by simp), List.append_nil, List.filter_map, List.map_map]
      simp [Function.comp_def]
    · have : List.filter (fun e : Nat × Nat => decide (e.1 = x)) ((f k).map fun e => (k, e)) = [] := by
        rw [List.filter_eq_nil_iff]
        intro a ha
        obtain ⟨e, _, rfl⟩ := List.mem_map.1 ha
        simp [h]
      rw [this]
      simp [Ne.symm h]

omit [DecidableEq N] [DecidableEq P] in
theorem mainExtends_absent {sch : Schema N P} {x : Nat} (h : sch.find x = none) :
    sch.mainExtends x = [] := by
  have hd : sch.deref x = x := by
    simp [Schema.deref, derefGo, h]
  simp [Schema.mainExtends, Schema.mainShape, hd, h]

omit [DecidableEq N] [DecidableEq P] in
theorem mainShape_shape {sch : Schema N P} {x : Nat} {s : Shape N P} (h : sch.At x (.shape s)) :
    sch.mainShape x = some ([], some s, []) := by
  have h : sch.find x = some (.shape s) := h
  have hd : sch.deref x = x := by
    simp [Schema.deref, derefGo, h]
  simp [Schema.mainShape, hd, h]

omit [DecidableEq N] [DecidableEq P] in
theorem mainExtends_shape {sch : Schema N P} {x : Nat} {s : Shape N P} (h : sch.At x (.shape s)) :
    sch.mainExtends x = s.extends := by
  simp [Schema.mainExtends, mainShape_shape h]

omit [DecidableEq N] [DecidableEq P] in
theorem dfs_nodup (succ : Nat → List Nat) (n : Nat) (stack seen : List Nat) (h : seen.Nodup) :
    (dfs succ n stack seen).Nodup := by
  induction n generalizing stack seen with
  | zero => exact h
  | succ n ih =>
    cases stack with
    | nil => exact h
    | cons x stack =>
      simp only [dfs]
      split
      · exact ih _ _ h
      · rename_i hx
        refine ih _ _ ?_
        rw [List.nodup_append]
        refine ⟨h, by simp, ?_⟩
        rintro a ha b hb rfl
        rw [List.mem_singleton] at hb
        subst hb
        exact hx ha

omit [DecidableEq N] [DecidableEq P] in
theorem extendsClosure_iff {sch : Schema N P} (hk : (sch.shapes.map Prod.fst).Nodup)
    (roots : List Nat) (d : Nat) :
    d ∈ sch.extendsClosure roots ↔
      ∃ r ∈ roots, Relation.ReflTransGen (fun a b => b ∈ sch.mainExtends a) r d := by
  have hsucc : sch.mainExtends = fun x =>
      ((((sch.shapes.map Prod.fst).flatMap fun k => (sch.mainExtends k).map fun e => (k, e)).filter
        fun e => decide (e.1 = x)).map Prod.snd) := by
    funext x
    rw [filter_flatMap_key _ _ hk]
    split
    · rfl
    · rename_i hx
      refine mainExtends_absent ?_
      by_contra hc
      exact hx (find_mem_keys hc)
  constructor
  · intro h
    refine dfs_sound sch.mainExtends
      (fun x => ∃ r ∈ roots, Relation.ReflTransGen (fun a b => b ∈ sch.mainExtends a) r x) ?_ _ _ []
      ?_ (by simp) d h
    · rintro x ⟨r, hr, hx⟩ y hy
      exact ⟨r, hr, hx.tail hy⟩
    · intro x hx
      exact ⟨x, List.mem_reverse.1 hx, .refl⟩
  · rintro ⟨r, hr, h⟩
    obtain ⟨h1, _, h3⟩ := dfs_complete
      ((sch.shapes.map Prod.fst).flatMap fun k => (sch.mainExtends k).map fun e => (k, e))
      Prod.fst Prod.snd
      (roots.length + (sch.shapes.map fun x => (sch.mainExtends x.1).length).sum + 1)
      roots.reverse [] (by
        have := List.length_filter_le (fun e : Nat × Nat => decide (e.1 ∉ ([] : List Nat)))
          ((sch.shapes.map Prod.fst).flatMap fun k => (sch.mainExtends k).map fun e => (k, e))
        simp only [List.length_flatMap, List.length_map, List.map_map, Function.comp_def] at this
        simp only [List.length_reverse]
        omega) (by simp)
    rw [← hsucc] at h1 h3
    unfold Schema.extendsClosure
    induction h with
    | refl => exact h1 r (List.mem_reverse.2 hr)
    | @tail b c _ hbc ih =>
      refine h3 (b, c) ?_ ih
      rw [List.mem_flatMap]
      refine ⟨b, ?_, List.mem_map.2 ⟨c, hbc, rfl⟩⟩
      by_contra hc
      have : sch.find b = none := by
        by_contra hf
        exact hc (find_mem_keys hf)
      rw [mainExtends_absent this] at hbc
      simp at hbc

omit [DecidableEq N] [DecidableEq P] in
theorem at_iff_mem {sch : Schema N P} (hk : (sch.shapes.map Prod.fst).Nodup) (i : Nat)
    (se : ShapeExpr N P) : (i, se) ∈ sch.shapes ↔ sch.At i se :=
  ⟨fun h => alookup_mem hk h, fun h => mem_of_alookup h⟩

omit [DecidableEq N] [DecidableEq P] in
/-- The closure of the parents of a shape lists its ancestors, which are shapes. -/
theorem closure_extends {sch : Schema N P} (hk : (sch.shapes.map Prod.fst).Nodup)
    (hx : ShapeParents sch) {i : Nat} {s : Shape N P} (hs : sch.At i (.shape s)) (d : Nat) :
    (d ∈ sch.extendsClosure s.extends ↔ Extends sch i d) ∧
      (Extends sch i d → ∃ s', sch.At d (.shape s')) := by
  have hat : ∀ d, Extends sch i d → ∃ s', sch.At d (.shape s') := by
    intro d h
    unfold Extends at h
    induction h with
    | single h =>
      obtain ⟨s', h', he⟩ := h
      exact hx _ s' ((at_iff_mem hk _ _).1 h') _ he
    | tail _ h _ =>
      obtain ⟨s', h', he⟩ := h
      exact hx _ s' ((at_iff_mem hk _ _).1 h') _ he
  refine ⟨?_, hat d⟩
  rw [extendsClosure_iff hk]
  constructor
  · rintro ⟨r, hr, h⟩
    induction h with
    | refl => exact .single ⟨s, (at_iff_mem hk _ _).2 hs, hr⟩
    | @tail b c _ hbc ih =>
      obtain ⟨sb, hb⟩ := hat b ih
      rw [mainExtends_shape hb] at hbc
      exact .tail ih ⟨sb, (at_iff_mem hk _ _).2 hb, hbc⟩
  · intro h
    unfold Extends at h
    induction h with
    | single h =>
      obtain ⟨s', h', he⟩ := h
      have e := ((at_iff_mem hk _ _).1 h').symm.trans hs
      simp only [Option.some.injEq, ShapeExpr.shape.injEq] at e
      subst e
      exact ⟨_, he, .refl⟩
    | @tail b c _ hbc ih =>
      obtain ⟨r, hr, h⟩ := ih
      obtain ⟨sb, hb, he⟩ := hbc
      refine ⟨r, hr, h.tail ?_⟩
      rw [mainExtends_shape ((at_iff_mem hk _ _).1 hb)]
      exact he

theorem predsExtends_iff {sch : Schema N P} (hk : (sch.shapes.map Prod.fst).Nodup)
    (hx : ShapeParents sch) {i : Nat} {s : Shape N P} (hs : sch.At i (.shape s)) (p : Pred P) :
    p ∈ sch.predsExtends i ↔ p ∈ s.preds ∨ ∃ d b, Extends sch i d ∧ sch.At d (.shape b) ∧ p ∈ b.preds := by
  have hfi : sch.find i = some (.shape s) := hs
  simp only [Schema.predsExtends, hfi, predsOf, List.mem_append, List.mem_flatMap, parents_iff]
  refine or_congr_right' fun hnp => ?_
  constructor
  · rintro ⟨d, ⟨_, hd⟩, hp⟩
    obtain ⟨b, hb⟩ := (closure_extends hk hx hs d).2 hd
    have hfd : sch.find d = some (.shape b) := hb
    rw [hfd] at hp
    exact ⟨d, b, hd, hb, by simpa [predsOf] using hp⟩
  · rintro ⟨d, b, hd, hb, hp⟩
    have hfd : sch.find d = some (.shape b) := hb
    refine ⟨d, ⟨?_, hd⟩, by rw [hfd]; simpa [predsOf] using hp⟩
    rintro rfl
    have e := hb.symm.trans hs
    simp only [Option.some.injEq, ShapeExpr.shape.injEq] at e
    subst e
    exact hnp hp

/-! ## Buckets of the ancestors -/

theorem ancestorBuckets_shapes {E : Env N P} (node : N) (as : List Nat)
    (h : ∀ a ∈ as, ∃ s, E.schema.At a (.shape s)) :
    E.ancestorBuckets node as = some (as.filterMap (fun b =>
      match E.schema.find b with
      | some (.shape bs) => some (some b, [bs.expr])
      | _ => none), []) := by
  induction as with
  | nil => rfl
  | cons a as ih =>
    obtain ⟨s, hs⟩ := h a (by simp)
    have hf : E.schema.find a = some (.shape s) := hs
    have ih := ih fun x hx => h x (by simp [hx])
    simp only [Env.ancestorBuckets, mainShape_shape hs, List.foldl_nil, List.all_nil, if_true, ih,
      Option.map_some, Option.toList_some, List.map_cons, List.map_nil, List.isEmpty_nil,
      List.filterMap_cons, hf]
    rfl

omit [DecidableEq N] [DecidableEq P] in
theorem collectOver_sound (go : Nat → List Nat → List (TExpr N P) × List Nat) (Q : TExpr N P → Prop)
    (es : List Nat) (h : ∀ e ∈ es, ∀ vis, ∀ t ∈ (go e vis).1, Q t) (vis : List Nat) :
    ∀ t ∈ (collectOver go es vis).1, Q t := by
  induction es generalizing vis with
  | nil => simp [collectOver]
  | cons e es ih =>
    intro t ht
    simp only [collectOver, List.mem_append] at ht
    rcases ht with ht | ht
    · exact h e (by simp) _ t ht
    · exact ih (fun x hx => h x (by simp [hx])) _ t ht

omit [DecidableEq N] [DecidableEq P] in
theorem collectExprs_sound {sch : Schema N P} (n : Nat) (D : Nat → Prop)
    (hD : ∀ d, D d → ∃ s, sch.At d (.shape s) ∧ ∀ e ∈ s.extends, D e) (i : Nat) (hi : D i)
    (vis : List Nat) :
    ∀ t ∈ (collectExprs sch n i vis).1, ∃ d b, D d ∧ sch.At d (.shape b) ∧ t = b.expr := by
  induction n generalizing i vis with
  | zero => simp [collectExprs]
  | succ n ih =>
    obtain ⟨s, hs, he⟩ := hD i hi
    have hf : sch.find i = some (.shape s) := hs
    intro t ht
    simp only [collectExprs, hf] at ht
    split at ht
    · simp at ht
    · rcases List.mem_cons.1 ht with rfl | ht
      · exact ⟨i, s, hi, hs, rfl⟩
      · exact collectOver_sound _ _ _ (fun e hm vis => ih e (he e hm) vis) _ t ht

theorem arcs_congr (g : Graph N P) (node : N) {p q : List (Pred P)} (h : ∀ x, x ∈ p ↔ x ∈ q) :
    g.arcs node p = g.arcs node q ∧ g.remainder node p = g.remainder node q := by
  simp only [Graph.arcs, Graph.remainder, h, and_self]

theorem any_of_condSat {t : TExpr N P} {x : Neigh N P}
    (h : ((components t).any fun c => decide (c.1 = x.1) && (c.2.matches x.2.1 x.2.2).isSome) = true) :
    matchesAnyLeaf t x = true := by
  unfold matchesAnyLeaf
  rw [List.any_eq_true] at h ⊢
  obtain ⟨c, hc, h⟩ := h
  refine ⟨c, hc, ?_⟩
  simp only [Bool.and_eq_true] at h ⊢
  exact ⟨h.1, by simp [h.2]⟩

/-- For parents that are shapes, the path for single alternatives is the check of the selection of all
ancestors, after the shortcut over the main shapes. -/
theorem checkSingle_eq {E : Env N P} (S : Search N P) (hk : (E.schema.shapes.map Prod.fst).Nodup)
    (hx : ShapeParents E.schema) {i : Nat} {s : Shape N P} (hs : E.schema.At i (.shape s)) (ext : Ext N P)
    (node : N) (T : N × Nat → Bool) :
    E.checkSingle S node i s T =
      ((s.extends.all fun e => E.checkMainShape node T (E.schema.shapes.length + 1) s e) &&
        E.checkSelection S ext node s T ⟨E.schema.extendsClosure s.extends, []⟩) := by
  have hcl := fun d => closure_extends hk hx hs d
  have hshape : ∀ a ∈ E.schema.extendsClosure s.extends, ∃ s, E.schema.At a (.shape s) :=
    fun a ha => (hcl a).2 ((hcl a).1.1 ha)
  have hpreds : ∀ p, p ∈ addPreds (E.schema.predsExtends i) s.extra ↔
      p ∈ selectionPreds E.schema s ⟨E.schema.extendsClosure s.extends, []⟩ := by
    intro p
    rw [mem_addPreds, mem_selectionPreds, predsExtends_iff hk hx hs]
    refine or_congr_left ?_
    simp only [InSelection]
    constructor
    · rintro (h | ⟨d, b, hd, hb, hp⟩)
      · exact ⟨none, s, Or.inl ⟨rfl, rfl⟩, h⟩
      · exact ⟨some d, b, Or.inr ⟨d, (hcl d).1.2 hd, rfl, hb⟩, hp⟩
    · rintro ⟨l, b, ⟨_, rfl⟩ | ⟨d, hd, _, hb⟩, hp⟩
      · exact Or.inl hp
      · exact Or.inr ⟨d, b, (hcl d).1.1 hd, hb, hp⟩
  have hne : E.neighs node (addPreds (E.schema.predsExtends i) s.extra) =
      E.neighs node (selectionPreds E.schema s ⟨E.schema.extendsClosure s.extends, []⟩) := by
    rw [Env.neighs, Env.neighs, (arcs_congr E.graph node hpreds).1]
  have hre := (arcs_congr E.graph node hpreds).2
  have hbu : ((none, [s.expr]) :: (E.schema.extendsClosure s.extends).filterMap fun b =>
      match E.schema.find b with
      | some (.shape bs) => some (some b, [bs.expr])
      | _ => none) = selectionBuckets E.schema s ⟨E.schema.extendsClosure s.extends, []⟩ := rfl
  have hval : ∀ arcs : List (Pred P × N), ((withCtx node arcs).filter fun x =>
        matchesSomeBucket (selectionBuckets E.schema s ⟨E.schema.extendsClosure s.extends, []⟩) x ||
          (decide (x.1 ∉ s.extra) &&
            !(((collectOver (collectExprs E.schema (E.schema.shapes.length + 1))
              (((E.schema.extendsClosure s.extends).filterMap fun b =>
                match E.schema.find b with
                | some (.shape bs) => some (some b, [bs.expr])
                | _ => none).filterMap Prod.fst) []).1 ++ [s.expr]).any fun t =>
                (components t).any fun c =>
                  decide (c.1 = x.1) && (c.2.matches x.2.1 x.2.2).isSome))) =
      (withCtx node arcs).filter fun x =>
        matchesSomeBucket (selectionBuckets E.schema s ⟨E.schema.extendsClosure s.extends, []⟩) x ||
          decide (x.1 ∉ s.extra) := by
    intro arcs
    refine List.filter_congr fun x _ => ?_
    by_cases hm : matchesSomeBucket
        (selectionBuckets E.schema s ⟨E.schema.extendsClosure s.extends, []⟩) x = true
    · simp [hm]
    · rw [Bool.not_eq_true] at hm
      rw [hm, Bool.false_or, Bool.false_or]
      have : (((collectOver (collectExprs E.schema (E.schema.shapes.length + 1))
              (((E.schema.extendsClosure s.extends).filterMap fun b =>
                match E.schema.find b with
                | some (.shape bs) => some (some b, [bs.expr])
                | _ => none).filterMap Prod.fst) []).1 ++ [s.expr]).any fun t =>
                (components t).any fun c =>
                  decide (c.1 = x.1) && (c.2.matches x.2.1 x.2.2).isSome) = false := by
        by_contra hc
        rw [Bool.not_eq_false, List.any_eq_true] at hc
        obtain ⟨t, ht, hc⟩ := hc
        have hleaf := any_of_condSat hc
        have : matchesSomeBucket
            (selectionBuckets E.schema s ⟨E.schema.extendsClosure s.extends, []⟩) x = true := by
          unfold matchesSomeBucket
          rw [List.any_eq_true]
          rcases List.mem_append.1 ht with ht | ht
          · obtain ⟨d, b, hd, hb, rfl⟩ := collectOver_sound _
              (fun t => ∃ d b, Extends E.schema i d ∧ E.schema.At d (.shape b) ∧ t = b.expr) _
              (by
                intro e he vis
                refine collectExprs_sound _ (Extends E.schema i) ?_ e ?_ vis
                · intro d hd
                  obtain ⟨b, hb⟩ := (hcl d).2 hd
                  exact ⟨b, hb, fun e he => .tail hd ⟨b, (at_iff_mem hk _ _).2 hb, he⟩⟩
                · obtain ⟨⟨l, ts⟩, hy, hl⟩ := List.mem_filterMap.1 he
                  obtain ⟨a, ha, hay⟩ := List.mem_filterMap.1 hy
                  have : l = some a := by
                    split at hay
                    · simp only [Option.some.injEq, Prod.mk.injEq] at hay
                      exact hay.1.symm
                    · cases hay
                  simp only at hl
                  rw [this] at hl
                  cases hl
                  exact (hcl _).1.1 ha) _ t ht
            refine ⟨(some d, [b.expr]), (mem_selectionBuckets _ _).2
              ⟨b, Or.inr ⟨d, (hcl d).1.2 hd, rfl, hb⟩, rfl⟩, by simpa using hleaf⟩
          · rw [List.mem_singleton] at ht
            subst ht
            exact ⟨(none, [s.expr]), (mem_selectionBuckets _ _).2 ⟨s, Or.inl ⟨rfl, rfl⟩, rfl⟩,
              by simpa using hleaf⟩
        rw [hm] at this
        cases this
      rw [this]
      simp
  unfold Env.checkSingle Env.checkSelection
  simp only [ancestorBuckets_shapes node _ hshape, Env.splitConstraints, hne, hre, hbu, hval]
  generalize searchPartitions S E.enum _ _ _ T = sp
  generalize hgu : guardOk (selectionBuckets E.schema s ⟨E.schema.extendsClosure s.extends, []⟩) _ = gu
  clear hgu
  generalize (s.extends.all fun e => E.checkMainShape node T (E.schema.shapes.length + 1) s e) = ma
  generalize List.isEmpty _ = em
  cases s.closed <;> cases em <;> cases ma <;> cases gu <;> simp

/-! ## The shortcut over main shapes -/

theorem anyMatch_iff {t : TExpr N P} (ht : t.Made) (x : Neigh N P) :
    ((components t).any fun c => decide (c.1 = x.1) && (c.2.matches x.2.1 x.2.2).isSome) = true ↔
      ∃ c, t.Takes x c := by
  rw [List.any_eq_true]
  constructor
  · rintro ⟨⟨p, cond⟩, hm, h⟩
    simp only [Bool.and_eq_true, decide_eq_true_eq] at h
    obtain ⟨rfl, h⟩ := h
    obtain ⟨c, hk, hc⟩ := (mem_components ht _ _).1 hm
    exact ⟨c, hk, cond, hc, (matches_isSome _ _ _).1 h⟩
  · rintro ⟨c, hk, cond, hc, h⟩
    refine ⟨(x.1, cond), (mem_components ht _ _).2 ⟨c, hk, hc⟩, ?_⟩
    simp only [decide_true, Bool.true_and]
    exact (matches_isSome _ _ _).2 h

/-- When no two shapes share a predicate, the share of an ancestor is what its shortcut looks at. -/
theorem shortcut_of_shared {E : Env N P} (he : Enumerates E.enum) (hsh : E.Shuffles)
    (hp : ∀ i s, E.schema.At i (.shape s) → Plain s.expr)
    (hcov : ∀ i s, E.schema.At i (.shape s) → CoversKeys s) {s : Shape N P} (hs : Plain s.expr) {σ : Alt}
    (hdis : DisjointPreds E.schema s σ) (node : N) (T : N × Nat → Bool)
    {splits : List (List Nat × List (TExpr N P))}
    (hS : Shared (selectionBuckets E.schema s σ) splits (E.selectionValues node s σ)
      (fun x => T x = true)) {d : Nat} {m : Shape N P} (hd : d ∈ σ.buckets) (hm : E.schema.At d (.shape m)) :
    checkExprNeigh E.enum m.expr ((withCtx node (E.neighs node m.preds)).filter fun x =>
      (components m.expr).any fun c =>
        decide (c.1 = x.1) && (c.2.matches x.2.1 x.2.2).isSome) T = true := by
  have hpm := hp d m hm
  obtain ⟨hnd, hvs⟩ := selectionValues_spec hsh (fun i s h => (hp i s h).made) hs.made σ node
  obtain ⟨share, dropped, h1, h2, h3, h4, _⟩ := hS
  have hin : InSelection E.schema s σ (some d) m := Or.inr ⟨d, hd, rfl, hm⟩
  have hmem : (some d, [m.expr]) ∈ selectionBuckets E.schema s σ :=
    (mem_selectionBuckets _ _).2 ⟨m, hin, rfl⟩
  set V := (withCtx node (E.neighs node m.preds)).filter fun x =>
      (components m.expr).any fun c =>
        decide (c.1 = x.1) && (c.2.matches x.2.1 x.2.2).isSome with hV
  have hVmem : ∀ x ∈ V, x ∈ share (some d) ∧ ∃ c, m.expr.Takes x c := by
    intro x hx
    rw [hV, List.mem_filter, anyMatch_iff hpm.made] at hx
    obtain ⟨hx, c, hc⟩ := hx
    obtain ⟨⟨p, v⟩, hpv, rfl⟩ := List.mem_map.1 hx
    have hpv := (mem_neighs hsh _ _ _ _).1 hpv
    have hxv : (p, v, (node, some (p, v))) ∈ E.selectionValues node s σ := by
      rw [hvs]
      refine ⟨rfl, hpv.1, Or.inl ⟨some d, m, hin, hpv.2⟩, fun _ => ⟨some d, m, hin, ?_⟩⟩
      obtain ⟨hk, cond, hcd, hsat⟩ := hc
      exact ⟨cond, ⟨c, hk, hcd⟩, Or.inr hsat⟩
    refine ⟨?_, c, hc⟩
    rcases List.mem_append.1 (h1.mem_iff.1 hxv) with hx | hx
    · obtain ⟨⟨l, ts⟩, hb, hx⟩ := List.mem_flatMap.1 hx
      by_cases hl : l = some d
      · rw [hl] at hx
        exact hx
      · obtain ⟨b, hb', rfl⟩ := (mem_selectionBuckets _ _).1 hb
        obtain ⟨t, ht, c', hc'⟩ := (h4 _ hb).1 _ hx
        rw [List.mem_singleton] at ht
        subst ht
        exact absurd hc' (hdis _ _ _ _ hin hb' (Ne.symm hl) c c' _ hc.1)
    · exact absurd ⟨m.expr, by simp, c, hc.1⟩ (h2 _ hx _ hmem)
  rw [checkExprNeigh_accepts he hpm]
  rcases (h4 _ hmem).2 m.expr (by simp) with ⟨cs, ha, hT⟩ | ⟨hu, hl⟩
  · have hperm : (share (some d)).Perm V := by
      refine (List.perm_ext_iff_of_nodup ?_ ?_).2 fun x => ⟨fun hx => ?_, fun hx => (hVmem x hx).1⟩
      · have hsub := share_subperm h1 hmem
        obtain ⟨l, hl, hls⟩ := hsub
        exact hl.nodup_iff.1 (hls.nodup hnd)
      · refine List.Nodup.filter _ (List.Nodup.map ?_ ((hsh _).nodup_iff.2 (nodup_arcs _ _ _)))
        rintro ⟨a, b⟩ ⟨a', b'⟩ h
        simp only [Prod.mk.injEq] at h ⊢
        exact ⟨h.1, h.2.1⟩
      · have htk : ∀ (vs : List (Neigh N P)) cs, List.Forall₂ m.expr.Takes vs cs → ∀ x ∈ vs,
            ∃ c, m.expr.Takes x c := by
          intro vs cs hf
          induction hf with
          | nil => simp
          | cons h _ ih =>
            intro x hx
            rcases List.mem_cons.1 hx with rfl | hx
            · exact ⟨_, h⟩
            · exact ih x hx
        obtain ⟨c, hc⟩ := htk _ _ ha.1 x hx
        have hxv : x ∈ E.selectionValues node s σ :=
          (share_subperm h1 hmem).subset hx
        obtain ⟨hctx, harc, _⟩ := (hvs x).1 hxv
        rw [hV, List.mem_filter, anyMatch_iff hpm.made]
        refine ⟨List.mem_map.2 ⟨(x.1, x.2.1), (mem_neighs hsh _ _ _ _).2
          ⟨harc, hcov d m hm c _ hc.1⟩, ?_⟩, c, hc⟩
        obtain ⟨p, v, ctx⟩ := x
        simp only at hctx
        simp [hctx]
    exact accepts_perm hperm (Or.inl ⟨cs, ha, hT⟩)
  · have hVnil : V = [] := by
      rw [List.eq_nil_iff_forall_not_mem]
      intro x hx
      obtain ⟨hxs, c, hc⟩ := hVmem x hx
      rcases hu x hxs with h | ⟨_, h⟩
      · exact h c hc.1
      · exact h c hc
    rw [hVnil]
    exact Or.inr ⟨by simp, hl⟩

theorem checkMainShape_of_shared {E : Env N P} (he : Enumerates E.enum) (hsh : E.Shuffles)
    {rank : Nat → Nat} (hg : ∀ i s, E.schema.At i (.shape s) → ∀ e ∈ s.extends, rank e < rank i)
    (hx : ShapeParents E.schema)
    (hp : ∀ i s, E.schema.At i (.shape s) → Plain s.expr)
    (hcov : ∀ i s, E.schema.At i (.shape s) → CoversKeys s) {s : Shape N P} (hs : Plain s.expr) {σ : Alt}
    (hdis : DisjointPreds E.schema s σ) (node : N) (T : N × Nat → Bool)
    {splits : List (List Nat × List (TExpr N P))}
    (hS : Shared (selectionBuckets E.schema s σ) splits (E.selectionValues node s σ)
      (fun x => T x = true))
    (hcl : ∀ d m, d ∈ σ.buckets → E.schema.At d (.shape m) → ∀ e ∈ m.extends, e ∈ σ.buckets)
    (n : Nat) (child : Shape N P) (d : Nat) (hd : d ∈ σ.buckets) (hdm : ∃ m, E.schema.At d (.shape m))
    (seen : List Nat) (hn : seen.Nodup)
    (hseen : ∀ x ∈ seen, E.schema.find x ≠ none ∧ rank d < rank x)
    (hl : seen.length + n = E.schema.shapes.length + 1) :
    E.checkMainShape node T n child d = true := by
  induction n generalizing child d seen with
  | zero =>
    have := length_found hn fun x hx => (hseen x hx).1
    omega
  | succ n ih =>
    obtain ⟨m, hm⟩ := hdm
    have hfd : E.schema.find d = some (.shape m) := hm
    have hdn : d ∉ seen := fun h => Nat.lt_irrefl _ (hseen d h).2
    have hrec : (m.extends.all fun e => E.checkMainShape node T n m e) = true := by
      rw [List.all_eq_true]
      intro e hee
      refine ih m e (hcl d m hd hm e hee) (hx d m hm e hee) (d :: seen)
        (List.nodup_cons.2 ⟨hdn, hn⟩) ?_ (by simp; omega)
      have hlt := hg d m hm e hee
      intro x hxm
      rcases List.mem_cons.1 hxm with rfl | hxm
      · exact ⟨by simp [hfd], hlt⟩
      · exact ⟨(hseen x hxm).1, Nat.lt_trans hlt (hseen x hxm).2⟩
    have hsc := shortcut_of_shared he hsh hp hcov hs hdis node T hS hd hm
    simp only [Env.checkMainShape, mainShape_shape hm, hrec, List.all_nil, Bool.and_true]
    split
    · exact hsc
    · rfl

omit [DecidableEq N] [DecidableEq P] in
theorem lineage_closure {sch : Schema N P} (hk : (sch.shapes.map Prod.fst).Nodup)
    (hx : ShapeParents sch) {i : Nat} {s : Shape N P} (hs : sch.At i (.shape s)) :
    Lineage sch i ⟨sch.extendsClosure s.extends, []⟩ :=
  ⟨rfl, dfs_nodup _ _ _ _ List.nodup_nil, fun d => (closure_extends hk hx hs d).1⟩

/-- The bucket sets decide a selection without constraints. -/
theorem selectionSat_lineage {E : Env N P} {T : N × Nat → Prop} {node : N} {s : Shape N P} {i : Nat}
    {σ σ' : Alt} (h : Lineage E.schema i σ) (h' : Lineage E.schema i σ') :
    SelectionSat E T node s σ ↔ SelectionSat E T node s σ' := by
  have hin : ∀ l b, InSelection E.schema s σ l b ↔ InSelection E.schema s σ' l b := by
    intro l b
    simp only [InSelection, h.2.2, h'.2.2]
  simp only [SelectionSat, SelectionBound, hin, h.1, h'.1]

theorem checkSingle_iff {E : Env N P} (he : Enumerates E.enum) (hsh : E.Shuffles) {S : Search N P}
    (hS : S.Fair) {rank : Nat → Nat}
    (hg : ∀ i s, E.schema.At i (.shape s) → ∀ e ∈ s.extends, rank e < rank i)
    (hk : (E.schema.shapes.map Prod.fst).Nodup) (hx : ShapeParents E.schema)
    (hp : ∀ i s, E.schema.At i (.shape s) → Plain s.expr) {i : Nat} {s : Shape N P}
    (hs : E.schema.At i (.shape s)) {σ : Alt} (hσ : Lineage E.schema i σ) (node : N) (T : N × Nat → Bool) :
    (E.checkSingle S node i s T = true → SelectionSat E (fun x => T x = true) node s σ) ∧
      ((∀ i s, E.schema.At i (.shape s) → CoversKeys s) → DisjointPreds E.schema s σ →
        SelectionSat E (fun x => T x = true) node s σ → E.checkSingle S node i s T = true) := by
  have hlin := lineage_closure hk hx hs
  rw [checkSingle_eq S hk hx hs (fun _ _ _ _ => false), Bool.and_eq_true,
    checkSelection_iff_nil he hsh hS hp (hp i s hs) hlin.2.1 rfl,
    selectionSat_lineage hlin hσ]
  refine ⟨fun h => h.2, fun hcov hdis hsat => ⟨?_, hsat⟩⟩
  have hsat' := (selectionSat_lineage hlin hσ).2 hsat
  have hdis' : DisjointPreds E.schema s ⟨E.schema.extendsClosure s.extends, []⟩ := by
    intro l l' b b' h h'
    refine hdis l l' b b' ?_ ?_
    · simpa only [InSelection, hlin.2.2, hσ.2.2] using h
    · simpa only [InSelection, hlin.2.2, hσ.2.2] using h'
  have hcheck := (checkSelection_iff_nil he hsh hS hp (hp i s hs) hlin.2.1 rfl
    (fun _ _ _ _ => false) node T).2 hsat'
  obtain ⟨_, bs, vs, splits, hb1, hb2, hv1, hv2, hf, hshared⟩ := hsat'
  obtain ⟨hnv, hvs⟩ := selectionValues_spec hsh (fun i s h => (hp i s h).made) (hp i s hs).made
    ⟨E.schema.extendsClosure s.extends, []⟩ node
  have hshared := shared_values ((List.perm_ext_iff_of_nodup hv1 hnv).2 fun x => by rw [hv2, hvs])
    (shared_perm ((List.perm_ext_iff_of_nodup (List.Nodup.of_map _ hb1)
      (List.Nodup.of_map _ (nodup_selectionBuckets hlin.2.1))).2 fun x => by
        obtain ⟨l, ts⟩ := x
        rw [hb2, mem_selectionBuckets]) hshared)
  rw [List.all_eq_true]
  intro e hee
  have hext : Extends E.schema i e := .single ⟨s, (at_iff_mem hk _ _).2 hs, hee⟩
  refine checkMainShape_of_shared he hsh hg hx hp hcov (hp i s hs) hdis' node T hshared ?_ _ s e
    ((hlin.2.2 e).2 hext) (hx i s hs e hee) [] List.nodup_nil (by simp) (by simp)
  intro d m hd hm e' he'
  rw [hlin.2.2] at hd ⊢
  exact hd.tail ⟨m, (at_iff_mem hk _ _).2 hm, he'⟩

end Shex

import Verif.Shex.LemmasAltsSpec
import Verif.Shex.LemmasExtends

/-!
# Lemmas: one selection
-/

namespace Shex
open Rbe

variable {N P : Type} [DecidableEq N] [DecidableEq P]

/-! ## Constraints -/

/-- The fold over conjuncts in `trySplit`. -/
def splitFold (f : Nat → Option (Option (List (TExpr N P)))) (es : List Nat)
    (a : Option (Option (List (TExpr N P)))) : Option (Option (List (TExpr N P))) :=
  es.foldl (fun acc e =>
    match acc with
    | some (some tes) =>
      match f e with
      | some (some tes') => some (some (tes ++ tes'))
      | r => r
    | r => r) a

theorem splitFold_none (f : Nat → Option (Option (List (TExpr N P)))) (es : List Nat) :
    splitFold f es (some none) = some none := by
  induction es with
  | nil => rfl
  | cons e es ih => exact ih

theorem splitFold_spec {sch : Schema N P} {node : N} (f : Nat → Option (Option (List (TExpr N P))))
    (es : List Nat) (h : ∀ e ∈ es, f e ≠ none ∧ ∀ ts, f e = some (some ts) ↔ Parts sch node e ts)
    (acc : List (TExpr N P)) :
    splitFold f es (some (some acc)) ≠ none ∧
      ∀ ts, splitFold f es (some (some acc)) = some (some ts) ↔
        ∃ ts', PartsAll sch node es ts' ∧ ts = acc ++ ts' := by
  induction es generalizing acc with
  | nil =>
    refine ⟨by simp [splitFold], fun ts => ?_⟩
    simp only [splitFold, List.foldl_nil, Option.some.injEq]
    constructor
    · rintro rfl; exact ⟨[], .nil, by simp⟩
    · rintro ⟨ts', h, rfl⟩
      cases h
      simp
  | cons e es ih =>
    obtain ⟨h1, h2⟩ := h e (by simp)
    have ih := ih fun x hx => h x (by simp [hx])
    cases hf : f e with
    | none => exact absurd hf h1
    | some r =>
      cases r with
      | none =>
        have : splitFold f (e :: es) (some (some acc)) = some none := by
          show splitFold f es _ = _
          beta_reduce
          rw [hf]
          exact splitFold_none f es
        rw [this]
        refine ⟨by simp, fun ts => ⟨by simp, ?_⟩⟩
        rintro ⟨_, h, _⟩
        cases h with
        | cons h _ =>
          have := (h2 _).2 h
          rw [hf] at this
          simp at this
      | some ts0 =>
        have : splitFold f (e :: es) (some (some acc)) = splitFold f es (some (some (acc ++ ts0))) := by
          show splitFold f es _ = _
          beta_reduce
          rw [hf]
        rw [this]
        obtain ⟨g1, g2⟩ := ih (acc ++ ts0)
        refine ⟨g1, fun ts => ?_⟩
        rw [g2]
        constructor
        · rintro ⟨ts', h, rfl⟩
          exact ⟨ts0 ++ ts', .cons ((h2 _).1 hf) h, by simp⟩
        · rintro ⟨ts', h, rfl⟩
          cases h with
          | cons h hs =>
            have := (h2 _).2 h
            rw [hf] at this
            simp only [Option.some.injEq] at this
            subst this
            exact ⟨_, hs, by simp⟩

theorem flatAll_mem {sch : Schema N P} {es : List Nat} (h : FlatAll sch es) : ∀ e ∈ es, FlatExpr sch e := by
  intro e he
  induction es with
  | nil => simp at he
  | cons a es ih =>
    cases h with
    | cons h hs =>
      rcases List.mem_cons.1 he with rfl | he
      · exact h
      · exact ih hs he

theorem trySplit_spec {sch : Schema N P} {rank : Nat → Nat} (hg : Grounded sch rank) (node : N)
    (n : Nat) (i : Nat) (hf : FlatExpr sch i) (seen : List Nat) (hn : seen.Nodup)
    (hs : ∀ x ∈ seen, sch.find x ≠ none ∧ rank i < rank x)
    (hl : seen.length + n = sch.shapes.length + 1) :
    trySplit sch node n i ≠ none ∧
      ∀ ts, trySplit sch node n i = some (some ts) ↔ Parts sch node i ts := by
  induction n generalizing i seen with
  | zero =>
    have := length_found hn fun x hx => (hs x hx).1
    omega
  | succ n ih =>
    have hi : i ∉ seen := fun h => Nat.lt_irrefl _ (hs i h).2
    have hstep : sch.find i ≠ none → ∀ e, rank e < rank i → FlatExpr sch e →
        trySplit sch node n e ≠ none ∧
          ∀ ts, trySplit sch node n e = some (some ts) ↔ Parts sch node e ts := by
      intro hfi e he hfe
      refine ih e hfe (i :: seen) (List.nodup_cons.2 ⟨hi, hn⟩) ?_ (by simp; omega)
      intro x hx
      rcases List.mem_cons.1 hx with rfl | hx
      · exact ⟨hfi, he⟩
      · exact ⟨(hs x hx).1, Nat.lt_trans he (hs x hx).2⟩
    cases hf with
    | @shape _ s h he =>
      have hfi : sch.find i = some (.shape s) := h
      simp only [trySplit, hfi, he, List.isEmpty_nil, if_true]
      refine ⟨by simp, fun ts => ?_⟩
      constructor
      · simp only [Option.some.injEq]
        rintro rfl
        exact .shape h he
      · intro hp
        cases hp with
        | shape h' _ =>
          have e := h.symm.trans h'
          simp only [Option.some.injEq, ShapeExpr.shape.injEq] at e
          rw [e]
        | nodeConstraint h' _ => exact absurd (h.symm.trans h') (by simp)
        | ref h' _ => exact absurd (h.symm.trans h') (by simp)
        | and h' _ => exact absurd (h.symm.trans h') (by simp)
    | @nodeConstraint _ c h =>
      have hfi : sch.find i = some (.nodeConstraint c) := h
      simp only [trySplit, hfi]
      refine ⟨by simp, fun ts => ?_⟩
      have hsat := matches_isSome node (node, none) c
      constructor
      · intro hts
        split at hts
        · rename_i hc
          simp only [Option.some.injEq] at hts
          subst hts
          exact .nodeConstraint h (hsat.1 hc)
        · simp at hts
      · intro hp
        cases hp with
        | nodeConstraint h' hc =>
          have e := h.symm.trans h'
          simp only [Option.some.injEq, ShapeExpr.nodeConstraint.injEq] at e
          subst e
          rw [if_pos (hsat.2 hc)]
        | shape h' _ => exact absurd (h.symm.trans h') (by simp)
        | ref h' _ => exact absurd (h.symm.trans h') (by simp)
        | and h' _ => exact absurd (h.symm.trans h') (by simp)
    | @ref _ j h hj =>
      have hfi : sch.find i = some (.ref j) := h
      simp only [trySplit, hfi]
      obtain ⟨g1, g2⟩ := hstep (by simp [hfi]) j (hg.ref i j h) hj
      refine ⟨g1, fun ts => (g2 ts).trans ⟨.ref h, fun hp => ?_⟩⟩
      cases hp with
      | ref h' hp =>
        have e := h.symm.trans h'
        simp only [Option.some.injEq, ShapeExpr.ref.injEq] at e
        rw [e]
        exact hp
      | nodeConstraint h' _ => exact absurd (h.symm.trans h') (by simp)
      | shape h' _ => exact absurd (h.symm.trans h') (by simp)
      | and h' _ => exact absurd (h.symm.trans h') (by simp)
    | @and _ es h hes =>
      have hfi : sch.find i = some (.and es) := h
      simp only [trySplit, hfi]
      obtain ⟨g1, g2⟩ := splitFold_spec (sch := sch) (node := node) (trySplit sch node n) es
        (fun e he => hstep (by simp [hfi]) e (hg.and i es h e he) (flatAll_mem hes e he)) []
      refine ⟨g1, fun ts => (g2 ts).trans ?_⟩
      constructor
      · rintro ⟨ts', hp, rfl⟩
        exact .and h hp
      · intro hp
        cases hp with
        | and h' hp =>
          have e := h.symm.trans h'
          simp only [Option.some.injEq, ShapeExpr.and.injEq] at e
          subst e
          exact ⟨ts, hp, rfl⟩
        | nodeConstraint h' _ => exact absurd (h.symm.trans h') (by simp)
        | shape h' _ => exact absurd (h.symm.trans h') (by simp)
        | ref h' _ => exact absurd (h.symm.trans h') (by simp)

/-- The constraints left for the partitions are those with expressions. -/
theorem splitConstraints_spec {E : Env N P} {rank : Nat → Nat} (hg : Grounded E.schema rank)
    (ext : Ext N P) (node : N) (T : N × Nat → Bool) (cs : List (Nat × List Nat))
    (hf : ∀ c ∈ cs, FlatExpr E.schema c.1) (splits : List (List Nat × List (TExpr N P))) :
    E.splitConstraints ext node T cs = some splits ↔
      ∃ full, List.Forall₂ (fun c sp => sp.1 = c.2 ∧ Parts E.schema node c.1 sp.2) cs full ∧
        splits = full.filter fun sp => !sp.2.isEmpty := by
  induction cs generalizing splits with
  | nil =>
    simp only [Env.splitConstraints, Option.some.injEq]
    constructor
    · rintro rfl; exact ⟨[], .nil, rfl⟩
    · rintro ⟨_, h, rfl⟩; cases h; rfl
  | cons c cs ih =>
    obtain ⟨g1, g2⟩ := trySplit_spec hg node (E.schema.shapes.length + 1) c.1 (hf c (by simp)) []
      List.nodup_nil (by simp) (by simp)
    have ih := ih fun x hx => hf x (by simp [hx])
    simp only [Env.splitConstraints]
    cases ht : trySplit E.schema node (E.schema.shapes.length + 1) c.1 with
    | none => exact absurd ht g1
    | some r =>
      cases r with
      | none =>
        simp only [reduceCtorEq, false_iff]
        rintro ⟨_, h, _⟩
        cases h with
        | cons h _ =>
          have := (g2 _).2 h.2
          rw [ht] at this
          simp at this
      | some tes =>
        simp only [Option.map_eq_some_iff]
        constructor
        · rintro ⟨r, hr, rfl⟩
          obtain ⟨full, h1, rfl⟩ := (ih r).1 hr
          refine ⟨(c.2, tes) :: full, .cons ⟨rfl, (g2 _).1 ht⟩ h1, ?_⟩
          by_cases he : tes.isEmpty <;> simp [he]
        · rintro ⟨full, h1, rfl⟩
          cases h1 with
          | @cons _ sp _ full h h1 =>
            refine ⟨_, (ih _).2 ⟨full, h1, rfl⟩, ?_⟩
            obtain ⟨a, b⟩ := sp
            obtain ⟨e1, h⟩ := h
            simp only at e1 h
            subst e1
            have := (g2 _).2 h
            rw [ht] at this
            simp only [Option.some.injEq] at this
            subst this
            by_cases he : tes.isEmpty <;> simp [he]

theorem parts_plain {sch : Schema N P} (hp : ∀ i s, sch.At i (.shape s) → Plain s.expr) {node : N}
    {i : Nat} {ts : List (TExpr N P)} (h : Parts sch node i ts) : ∀ t ∈ ts, Plain t := by
  refine Parts.rec (motive_1 := fun i ts _ => ∀ t ∈ ts, Plain t)
    (motive_2 := fun es ts _ => ∀ t ∈ ts, Plain t) ?_ ?_ ?_ ?_ ?_ ?_ h
  · intro i s h _ t ht
    rw [List.mem_singleton] at ht
    subst ht
    exact hp i s h
  · simp
  · exact fun _ _ ih => ih
  · exact fun _ _ ih => ih
  · simp
  · intro _ _ _ _ _ _ ih1 ih2 t ht
    rcases List.mem_append.1 ht with ht | ht
    · exact ih1 t ht
    · exact ih2 t ht

/-! ## Sharing -/

theorem shared_values {bs : List (Option Nat × List (TExpr N P))}
    {splits : List (List Nat × List (TExpr N P))} {vs vs' : List (Neigh N P)} (h : vs.Perm vs')
    {T : N × Nat → Prop} (hs : Shared bs splits vs T) : Shared bs splits vs' T := by
  obtain ⟨share, dropped, h1, h2, h3, h4, h5⟩ := hs
  exact ⟨share, dropped, h.symm.trans h1, h2, h3, h4, h5⟩

theorem shared_splits {bs : List (Option Nat × List (TExpr N P))}
    (full : List (List Nat × List (TExpr N P))) {vs : List (Neigh N P)} {T : N × Nat → Prop} :
    Shared bs (full.filter fun sp => !sp.2.isEmpty) vs T ↔ Shared bs full vs T := by
  unfold Shared
  refine exists_congr fun share => exists_congr fun dropped => ?_
  refine and_congr_right fun _ => and_congr_right fun _ => and_congr_right fun _ =>
    and_congr_right fun _ => ?_
  constructor
  · intro h c hc t ht
    refine h c (List.mem_filter.2 ⟨hc, ?_⟩) t ht
    have : c.2 ≠ [] := List.ne_nil_of_mem ht
    simpa using this
  · exact fun h c hc => h c (List.mem_filter.1 hc).1

theorem share_subperm {bs : List (Option Nat × List (TExpr N P))}
    {share : Option Nat → List (Neigh N P)} {dropped vs : List (Neigh N P)}
    (h : vs.Perm ((bs.flatMap fun b => share b.1) ++ dropped)) {b : Option Nat × List (TExpr N P)}
    (hb : b ∈ bs) : (share b.1).Subperm vs := by
  have h1 : (share b.1).Sublist (bs.flatMap fun b => share b.1) := by
    rw [List.flatMap_def]
    exact List.sublist_flatten_of_mem (List.mem_map.2 ⟨b, hb, rfl⟩)
  exact ((h1.trans (List.sublist_append_left _ dropped)).subperm).trans h.symm.subperm

theorem guard_of_shared {enum : List Nat → List (Nat × Nat)} (he : Enumerates enum)
    {bs : List (Option Nat × List (TExpr N P))} (hp : ∀ b ∈ bs, ∀ t ∈ b.2, Plain t)
    {splits : List (List Nat × List (TExpr N P))} {vs : List (Neigh N P)} {T : N × Nat → Bool}
    (h : Shared bs splits vs (fun x => T x = true)) : guardOk bs vs = true := by
  obtain ⟨share, dropped, h1, _, _, h4, _⟩ := h
  unfold guardOk
  rw [List.all_eq_true]
  intro b hb
  rw [List.all_eq_true]
  intro t ht
  by_contra hc
  have hpl := hp b hb t ht
  obtain ⟨p, hpi⟩ := accepts_item hpl he ((h4 b hb).2 t ht)
  exact C11_precheck_never_hides_match t hpl.made (sane_of_wf _ hpl.wf) (fun _ => hpl.wf) enum he vs
    (share b.1) (share_subperm h1 hb) (by simpa using hc) p hpi

/-! ## The selection -/

theorem mem_selectionBuckets {sch : Schema N P} {s : Shape N P} {σ : Alt} (l : Option Nat)
    (ts : List (TExpr N P)) :
    (l, ts) ∈ selectionBuckets sch s σ ↔ ∃ b, InSelection sch s σ l b ∧ ts = [b.expr] := by
  simp only [selectionBuckets, List.mem_cons, Prod.mk.injEq, List.mem_filterMap, InSelection]
  constructor
  · rintro (⟨rfl, rfl⟩ | ⟨i, hi, h⟩)
    · exact ⟨s, Or.inl ⟨rfl, rfl⟩, rfl⟩
    · split at h
      · rename_i bs hf
        simp only [Option.some.injEq, Prod.mk.injEq] at h
        obtain ⟨rfl, rfl⟩ := h
        exact ⟨bs, Or.inr ⟨i, hi, rfl, hf⟩, rfl⟩
      · cases h
  · rintro ⟨b, ⟨rfl, rfl⟩ | ⟨i, hi, rfl, hf⟩, rfl⟩
    · exact Or.inl ⟨rfl, rfl⟩
    · have hf : sch.find i = some (.shape b) := hf
      exact Or.inr ⟨i, hi, by rw [hf]⟩

theorem nodup_selectionBuckets {sch : Schema N P} {s : Shape N P} {σ : Alt} (hn : σ.buckets.Nodup) :
    ((selectionBuckets sch s σ).map Prod.fst).Nodup := by
  unfold selectionBuckets
  rw [List.map_cons, List.nodup_cons]
  generalize σ.buckets = bs at hn
  induction bs with
  | nil => simp
  | cons b bs ih =>
    obtain ⟨hb, hn⟩ := List.nodup_cons.1 hn
    obtain ⟨h1, h2⟩ := ih hn
    rw [List.filterMap_cons]
    split
    · exact ⟨h1, h2⟩
    · rename_i x hx
      split at hx
      · simp only [Option.some.injEq] at hx
        subst hx
        refine ⟨by simpa using h1, ?_⟩
        rw [List.map_cons, List.nodup_cons]
        refine ⟨?_, h2⟩
        intro hm
        obtain ⟨y, hy, he⟩ := List.mem_map.1 hm
        obtain ⟨c, hc, hcy⟩ := List.mem_filterMap.1 hy
        split at hcy
        · simp only [Option.some.injEq] at hcy
          subst hcy
          simp only [Option.some.injEq] at he
          subst he
          exact hb hc
        · cases hcy
      · cases hx

theorem mem_selectionPreds {sch : Schema N P} {s : Shape N P} {σ : Alt} (p : Pred P) :
    p ∈ selectionPreds sch s σ ↔ (∃ l b, InSelection sch s σ l b ∧ p ∈ b.preds) ∨ p ∈ s.extra := by
  have key : ∀ (bs : List Nat) (acc : List (Pred P)),
      p ∈ bs.foldl (fun acc b =>
        match sch.find b with
        | some (.shape bs) => addPreds acc bs.preds
        | _ => acc) acc ↔ p ∈ acc ∨ ∃ i ∈ bs, ∃ b, sch.At i (.shape b) ∧ p ∈ b.preds := by
    intro bs
    induction bs with
    | nil => simp
    | cons i bs ih =>
      intro acc
      rw [List.foldl_cons, ih]
      simp only [List.mem_cons, exists_eq_or_imp, Schema.At]
      cases hf : sch.find i with
      | none => simp
      | some se =>
        cases se with
        | shape b =>
          simp only [mem_addPreds, Option.some.injEq, ShapeExpr.shape.injEq]
          constructor
          · rintro ((h | h) | h)
            · exact Or.inl h
            · exact Or.inr (Or.inl ⟨b, rfl, h⟩)
            · exact Or.inr (Or.inr h)
          · rintro (h | ⟨b', rfl, h⟩ | h)
            · exact Or.inl (Or.inl h)
            · exact Or.inl (Or.inr h)
            · exact Or.inr h
        | _ => simp
  rw [selectionPreds, mem_addPreds]
  refine (or_congr_left (key _ _)).trans (or_congr_left ?_)
  simp only [InSelection]
  constructor
  · rintro (h | ⟨i, hi, b, hb, hp⟩)
    · exact ⟨none, s, Or.inl ⟨rfl, rfl⟩, h⟩
    · exact ⟨some i, b, Or.inr ⟨i, hi, rfl, hb⟩, hp⟩
  · rintro ⟨l, b, ⟨_, rfl⟩ | ⟨i, hi, _, hb⟩, hp⟩
    · exact Or.inl hp
    · exact Or.inr ⟨i, hi, b, hb, hp⟩

theorem matchesSomeBucket_iff {sch : Schema N P} (hm : ∀ i s, sch.At i (.shape s) → s.expr.Made)
    {s : Shape N P} (hs : s.expr.Made) {σ : Alt} (node : N) (p : Pred P) (v : N) :
    matchesSomeBucket (selectionBuckets sch s σ) (p, v, (node, some (p, v))) = true ↔
      ∃ l b, InSelection sch s σ l b ∧ b.MayMatch node p v := by
  have hmade : ∀ l b, InSelection sch s σ l b → b.expr.Made := by
    rintro l b (⟨_, rfl⟩ | ⟨i, _, _, hb⟩)
    · exact hs
    · exact hm i b hb
  unfold matchesSomeBucket
  rw [List.any_eq_true]
  constructor
  · rintro ⟨⟨l, ts⟩, h1, h2⟩
    obtain ⟨b, hb, rfl⟩ := (mem_selectionBuckets _ _).1 h1
    simp only [List.any_cons, List.any_nil, Bool.or_false] at h2
    exact ⟨l, b, hb, (matchesAnyLeaf_iff (hmade l b hb) _ _ _).1 h2⟩
  · rintro ⟨l, b, hb, h⟩
    refine ⟨(l, [b.expr]), (mem_selectionBuckets _ _).2 ⟨b, hb, rfl⟩, ?_⟩
    simp only [List.any_cons, List.any_nil, Bool.or_false]
    exact (matchesAnyLeaf_iff (hmade l b hb) _ _ _).2 h

/-- The values of `checkSelection`. -/
def Env.selectionValues (E : Env N P) (node : N) (s : Shape N P) (σ : Alt) : List (Neigh N P) :=
  (withCtx node (E.neighs node (selectionPreds E.schema s σ))).filter fun x =>
    matchesSomeBucket (selectionBuckets E.schema s σ) x || decide (x.1 ∉ s.extra)

theorem selectionValues_spec {E : Env N P} (hsh : E.Shuffles)
    (hm : ∀ i s, E.schema.At i (.shape s) → s.expr.Made) {s : Shape N P} (hs : s.expr.Made) (σ : Alt)
    (node : N) : (E.selectionValues node s σ).Nodup ∧ ∀ x : Neigh N P, x ∈ E.selectionValues node s σ ↔
      x.2.2 = (node, some (x.1, x.2.1)) ∧ SelectionBound E s σ node x.1 x.2.1 := by
  constructor
  · refine List.Nodup.filter _ ?_
    refine List.Nodup.map ?_ ((hsh _).nodup_iff.2 (nodup_arcs _ _ _))
    rintro ⟨a, b⟩ ⟨a', b'⟩ h
    simp only [Prod.mk.injEq] at h ⊢
    exact ⟨h.1, h.2.1⟩
  · rintro ⟨p, v, ctx⟩
    simp only [Env.selectionValues, List.mem_filter, withCtx, List.mem_map, SelectionBound,
      Bool.or_eq_true, decide_eq_true_eq]
    constructor
    · rintro ⟨⟨⟨q, o⟩, hmem, heq⟩, hf⟩
      simp only [Prod.mk.injEq] at heq
      obtain ⟨rfl, rfl, rfl⟩ := heq
      rw [mem_neighs hsh, mem_selectionPreds] at hmem
      refine ⟨rfl, hmem.1, hmem.2, fun he => ?_⟩
      rcases hf with hf | hf
      · exact (matchesSomeBucket_iff hm hs _ _ _).1 hf
      · exact absurd he hf
    · rintro ⟨rfl, h1, h2, h3⟩
      refine ⟨⟨(p, v), (mem_neighs hsh _ _ _ _).2 ⟨h1, mem_selectionPreds _ |>.2 h2⟩, rfl⟩, ?_⟩
      by_cases he : p ∈ s.extra
      · exact Or.inl ((matchesSomeBucket_iff hm hs _ _ _).2 (h3 he))
      · exact Or.inr he

theorem checkSelection_core {E : Env N P} (he : Enumerates E.enum) (hsh : E.Shuffles)
    {S : Search N P} (hS : S.Fair)
    (hp : ∀ i s, E.schema.At i (.shape s) → Plain s.expr) {s : Shape N P} (hs : Plain s.expr)
    {σ : Alt} (hn : σ.buckets.Nodup)
    (ext : Ext N P) (node : N) (T : N × Nat → Bool)
    (hsp : ∀ splits, E.splitConstraints ext node T σ.constraints = some splits ↔
      ∃ full, List.Forall₂ (fun c sp => sp.1 = c.2 ∧ Parts E.schema node c.1 sp.2) σ.constraints full ∧
        splits = full.filter fun sp => !sp.2.isEmpty) :
    E.checkSelection S ext node s T σ = true ↔ SelectionSat E (fun x => T x = true) node s σ := by
  have hlab := nodup_selectionBuckets (sch := E.schema) (s := s) hn
  have hbp : ∀ b ∈ selectionBuckets E.schema s σ, ∀ t ∈ b.2, Plain t := by
    rintro ⟨l, ts⟩ hb t ht
    obtain ⟨b, hin, rfl⟩ := (mem_selectionBuckets _ _).1 hb
    rw [List.mem_singleton] at ht
    subst ht
    rcases hin with ⟨_, rfl⟩ | ⟨i, _, _, hb⟩
    · exact hs
    · exact hp i b hb
  have hvs := selectionValues_spec hsh (fun i s h => (hp i s h).made) hs.made σ node
  have hrem : (E.graph.remainder node (selectionPreds E.schema s σ)).isEmpty = true ↔
      ∀ p v, E.graph.Arc node ⟨p, true⟩ v →
        (∃ l b, InSelection E.schema s σ l b ∧ ⟨p, true⟩ ∈ b.preds) ∨ ⟨p, true⟩ ∈ s.extra := by
    rw [List.isEmpty_iff, List.eq_nil_iff_forall_not_mem]
    constructor
    · intro h p v hv
      by_contra hc
      exact h p ((mem_remainder _ _ _ _).2 ⟨v, hv, fun hm => hc ((mem_selectionPreds _).1 hm)⟩)
    · intro h p hp
      obtain ⟨v, hv, hn⟩ := (mem_remainder _ _ _ _).1 hp
      exact hn ((mem_selectionPreds _).2 (h p v hv))
  have hplain : ∀ full : List (List Nat × List (TExpr N P)), List.Forall₂ (fun c sp => sp.1 = c.2 ∧ Parts E.schema node c.1 sp.2)
      σ.constraints full → ∀ sp ∈ full, ∀ t ∈ sp.2, Plain t := by
    intro full hf
    generalize σ.constraints = cs at hf
    induction hf with
    | nil => simp
    | cons h _ ih =>
      intro sp hsp
      rcases List.mem_cons.1 hsp with rfl | hsp
      · exact parts_plain hp h.2
      · exact ih sp hsp
  have hcore : E.checkSelection S ext node s T σ = true ↔
      (s.closed = true → (E.graph.remainder node (selectionPreds E.schema s σ)).isEmpty = true) ∧
      guardOk (selectionBuckets E.schema s σ) (E.selectionValues node s σ) = true ∧
      ∃ splits, E.splitConstraints ext node T σ.constraints = some splits ∧
        searchPartitions S E.enum (selectionBuckets E.schema s σ) splits
          (E.selectionValues node s σ) T = true := by
    unfold Env.checkSelection
    simp only
    rw [show ((withCtx node (E.neighs node (selectionPreds E.schema s σ))).filter fun x =>
      matchesSomeBucket (selectionBuckets E.schema s σ) x || decide (x.1 ∉ s.extra)) =
        E.selectionValues node s σ from rfl]
    generalize guardOk (selectionBuckets E.schema s σ) (E.selectionValues node s σ) = gu
    generalize (E.graph.remainder node (selectionPreds E.schema s σ)).isEmpty = em
    cases E.splitConstraints ext node T σ.constraints <;> cases s.closed <;> cases em <;> cases gu <;>
      simp
  rw [hcore, hrem]
  unfold SelectionSat
  refine and_congr_right fun _ => ?_
  constructor
  · rintro ⟨_, splits, h1, h2⟩
    obtain ⟨full, hf, rfl⟩ := (hsp _).1 h1
    rw [search_iff hS he hlab hbp (fun c hc => hplain full hf c (List.mem_filter.1 hc).1),
      shared_splits] at h2
    exact ⟨_, _, full, hlab, fun l ts => mem_selectionBuckets l ts, hvs.1, hvs.2, hf, h2⟩
  · rintro ⟨bs, vs, full, hb1, hb2, hv1, hv2, hf, h⟩
    have hperm : bs.Perm (selectionBuckets E.schema s σ) :=
      (List.perm_ext_iff_of_nodup (List.Nodup.of_map _ hb1) (List.Nodup.of_map _ hlab)).2 fun x => by
        obtain ⟨l, ts⟩ := x
        rw [hb2, mem_selectionBuckets]
    have hvp : vs.Perm (E.selectionValues node s σ) :=
      (List.perm_ext_iff_of_nodup hv1 hvs.1).2 fun x => by rw [hv2, hvs.2]
    have h := shared_values hvp (shared_perm hperm h)
    refine ⟨guard_of_shared he hbp h, _, (hsp _).2 ⟨full, hf, rfl⟩, ?_⟩
    rw [search_iff hS he hlab hbp (fun c hc => hplain full hf c (List.mem_filter.1 hc).1),
      shared_splits]
    exact h

theorem checkSelection_iff {E : Env N P} (he : Enumerates E.enum) (hsh : E.Shuffles)
    {S : Search N P} (hS : S.Fair) {rank : Nat → Nat} (hg : Grounded E.schema rank)
    (hp : ∀ i s, E.schema.At i (.shape s) → Plain s.expr) {s : Shape N P} (hs : Plain s.expr)
    {σ : Alt} (hn : σ.buckets.Nodup) (hc : ∀ c ∈ σ.constraints, FlatExpr E.schema c.1)
    (ext : Ext N P) (node : N) (T : N × Nat → Bool) :
    E.checkSelection S ext node s T σ = true ↔ SelectionSat E (fun x => T x = true) node s σ :=
  checkSelection_core he hsh hS hp hs hn ext node T
    (splitConstraints_spec hg ext node T σ.constraints hc)

theorem checkSelection_iff_nil {E : Env N P} (he : Enumerates E.enum) (hsh : E.Shuffles)
    {S : Search N P} (hS : S.Fair)
    (hp : ∀ i s, E.schema.At i (.shape s) → Plain s.expr) {s : Shape N P} (hs : Plain s.expr)
    {σ : Alt} (hn : σ.buckets.Nodup) (hc : σ.constraints = [])
    (ext : Ext N P) (node : N) (T : N × Nat → Bool) :
    E.checkSelection S ext node s T σ = true ↔ SelectionSat E (fun x => T x = true) node s σ := by
  refine checkSelection_core he hsh hS hp hs hn ext node T fun splits => ?_
  rw [hc]
  simp only [Env.splitConstraints, Option.some.injEq]
  constructor
  · rintro rfl; exact ⟨[], .nil, rfl⟩
  · rintro ⟨_, h, rfl⟩; cases h; rfl

end Shex

import Verif.Shex.SpecShape
import Verif.Shex.LemmasEngine
import Verif.Rbe.PropsTable

/-!
# Helper lemmas: shape expressions
-/

namespace Shex
open Rbe

variable {N P : Type} [DecidableEq N] [DecidableEq P]

/-! ## Conditions -/

theorem refInSome_iff (r : Nat) (cs : List (VCond N P)) : RefInSome r cs ↔ ∃ c ∈ cs, RefIn r c := by
  induction cs with
  | nil => simp [RefInSome]
  | cons c cs ih => simp [RefInSome, ih]

theorem settledAll_iff (cs : List (VCond N P)) : SettledAll cs ↔ ∀ c ∈ cs, Settled c := by
  induction cs with
  | nil => simp [SettledAll]
  | cons c cs ih => simp [SettledAll, ih]

theorem depsAny_iff (v : N) (ctx : Ctx N P) (w : N) (r : Nat) (cs : List (VCond N P)) :
    Cond.DepsAny v ctx w r cs ↔ ∃ c ∈ cs, Cond.Deps v ctx w r c := by
  induction cs with
  | nil => simp [Cond.DepsAny]
  | cons c cs ih => simp [Cond.DepsAny, ih]

theorem deps_refIn (v : N) (ctx : Ctx N P) (w : N) (r : Nat) (c : VCond N P) (hs : Settled c)
    (h : Cond.Deps v ctx w r c) : w = v ∧ RefIn r c := by
  induction c using Cond.ind with
  | hs k =>
    cases k with
    | none => simp [Cond.Deps] at h
    | some kind =>
      obtain ⟨p, hp, hd⟩ := h
      rw [hs v ctx p hp] at hd
      obtain ⟨rs, ks, hm, _⟩ := hd
      simp [Pending.empty] at hm
  | hr r' => exact h
  | ha cs ih =>
    simp only [Cond.Deps, depsAny_iff] at h
    obtain ⟨c, hc, hd⟩ := h
    simp only [Settled, settledAll_iff] at hs
    obtain ⟨h1, h2⟩ := ih c hc (hs c hc) hd
    exact ⟨h1, by simp only [RefIn, refInSome_iff]; exact ⟨c, hc, h2⟩⟩

theorem condsHaveRef_iff (cs : List (VCond N P)) : condsHaveRef cs = true ↔ ∃ c ∈ cs, condHasRef c = true := by
  induction cs with
  | nil => simp [condsHaveRef]
  | cons c cs ih => simp [condsHaveRef, ih]

theorem condHasRef_iff (c : VCond N P) : condHasRef c = true ↔ ∃ r, RefIn r c := by
  induction c using Cond.ind with
  | hs k => simp [condHasRef, RefIn]
  | hr r' => simp [condHasRef, RefIn]
  | ha cs ih =>
    simp only [condHasRef, condsHaveRef_iff, RefIn, refInSome_iff]
    constructor
    · rintro ⟨c, hc, h⟩
      obtain ⟨r, hr⟩ := (ih c hc).1 h
      exact ⟨r, c, hc, hr⟩
    · rintro ⟨r, c, hc, h⟩
      exact ⟨c, hc, (ih c hc).2 ⟨r, h⟩⟩

theorem mem_components {t : TExpr N P} (ht : t.Made) (p : Pred P) (cond : VCond N P) :
    (p, cond) ∈ components t ↔ HasConstraint t p cond := by
  have hi := Table.inv_of_made ht
  simp only [components, List.mem_filterMap, List.mem_range, HasConstraint]
  constructor
  · rintro ⟨c, _, h⟩
    split at h
    · rename_i k cd hk hc
      simp only [Option.some.injEq, Prod.mk.injEq] at h
      obtain ⟨rfl, rfl⟩ := h
      exact ⟨c, hk, hc⟩
    · cases h
  · rintro ⟨c, hk, hc⟩
    refine ⟨c, ?_, by rw [hk, hc]⟩
    by_contra hlt
    have := hi.fresh c (by omega)
    rw [this] at hk
    cases hk

/-! ## Scanning the items -/

theorem pendingOk_iff (T : N × Nat → Bool) (p : Pending (Pred P) N Nat) :
    pendingOk T p = true ↔ ∀ w r, p.Dep w r → T (w, r) = true := by
  simp only [pendingOk, List.all_eq_true, Pending.Dep]
  constructor
  · rintro h w r ⟨rs, ks, h1, h2⟩
    exact h (w, rs) h1 (r, ks) h2
  · intro h e he f hf
    exact h e.1 f.1 ⟨e.2, f.2, he, hf⟩

theorem scan_iff (T : N × Nat → Bool) (l : List (Option (Pending (Pred P) N Nat)))
    (hl : none ∈ l → ∀ p, some p ∉ l) :
    scan T l = true ↔ ∃ p, some p ∈ l ∧ ∀ w r, p.Dep w r → T (w, r) = true := by
  induction l with
  | nil => simp [scan]
  | cons a l ih =>
    cases a with
    | none =>
      simp only [scan, Bool.false_eq_true, false_iff]
      rintro ⟨p, hp, _⟩
      exact hl (by simp) p hp
    | some q =>
      have ih := ih fun hn p hp => hl (by simp [hn]) p (by simp [hp])
      simp only [scan]
      by_cases hq : pendingOk T q = true
      · rw [if_pos hq]
        simp only [true_iff]
        exact ⟨q, by simp, (pendingOk_iff T q).1 hq⟩
      · rw [if_neg hq, ih]
        constructor
        · rintro ⟨p, hp, h⟩
          exact ⟨p, by simp [hp], h⟩
        · rintro ⟨p, hp, h⟩
          rcases List.mem_cons.1 hp with he | hp
          · rw [Option.some.injEq] at he
            subst he
            exact absurd ((pendingOk_iff T p).2 h) hq
          · exact ⟨p, hp, h⟩

theorem checkExprNeigh_iff_item {enum : List Nat → List (Nat × Nat)} {t : TExpr N P} (ht : t.Made)
    (vs : List (Neigh N P)) (T : N × Nat → Bool) :
    checkExprNeigh enum t vs T = true ↔
      ∃ p, some p ∈ t.items enum vs ∧ ∀ w r, p.Dep w r → T (w, r) = true :=
  scan_iff T _ fun hn p => C13_error_item_excludes_success t ht enum vs hn p

/-- Whatever an item leaves pending comes from a reference in a constraint for an arc. -/
theorem dep_of_item {enum : List Nat → List (Nat × Nat)} {t : TExpr N P} (ht : t.Made)
    (vs : List (Neigh N P)) (p : Pending (Pred P) N Nat) (hp : some p ∈ t.items enum vs)
    (w : N) (r : Nat) (hd : p.Dep w r) :
    ∃ x ∈ vs, ∃ cond, HasConstraint t x.1 cond ∧ cond.Deps x.2.1 x.2.2 w r := by
  have hi := Table.inv_of_made ht
  rw [items_eq] at hp
  split at hp
  · simp only [Table.emptyItems, List.mem_singleton] at hp
    split at hp
    · rw [Option.some.injEq] at hp
      subst hp
      exact absurd hd (dep_empty w r)
    · cases hp
  · rw [mem_items_product hi] at hp
    obtain ⟨cands, hm, he, _⟩ := hp
    have hsat : ∀ x ∈ cands, x.cond.Sat x.value x.ctx := by
      by_contra hc
      rw [(evalCands_spec cands Pending.empty).2 hc] at he
      cases he
    obtain ⟨q, hq, hqd, _⟩ := (evalCands_spec cands Pending.empty).1 hsat
    rw [he, Option.some.injEq] at hq
    subst hq
    rcases (hqd w r).1 hd with h | ⟨a, ha, hda⟩
    · exact absurd h (dep_empty w r)
    · have : ∀ (vs : List (Neigh N P)) (cands : List (Cand (Pred P) N (Ctx N P) Nat)),
          List.Forall₂ (fun v l => v ∈ l) cands (vs.map t.candidates) → a ∈ cands →
          ∃ x ∈ vs, a ∈ t.candidates x := by
        intro vs
        induction vs with
        | nil => intro cands h ha; cases h; simp at ha
        | cons x vs ih =>
          intro cands h ha
          cases h with
          | cons hx hxs =>
            rcases List.mem_cons.1 ha with rfl | ha
            · exact ⟨x, by simp, hx⟩
            · obtain ⟨y, hy, hay⟩ := ih _ hxs ha
              exact ⟨y, by simp [hy], hay⟩
      obtain ⟨x, hx, hax⟩ := this vs cands hm ha
      obtain ⟨h1, h2, h3, h4, h5, _⟩ := (mem_candidates hi x a).1 hax
      refine ⟨x, hx, a.cond, ⟨a.comp, h4, h5⟩, ?_⟩
      rw [← h2, ← h3]
      exact hda

/-! ## Neighbourhoods -/

theorem mem_arcs (g : Graph N P) (node : N) (preds : List (Pred P)) (p : Pred P) (v : N) :
    (p, v) ∈ g.arcs node preds ↔ g.Arc node p v ∧ p ∈ preds := by
  obtain ⟨iri, d⟩ := p
  simp only [Graph.arcs, List.mem_dedup, List.mem_append, List.mem_filterMap, Graph.Arc]
  constructor
  · rintro (h | ⟨⟨s, q, o⟩, ht, h⟩)
    · split at h
      · rename_i hs
        rw [List.mem_filterMap] at h
        obtain ⟨⟨s, q, o⟩, ht, h⟩ := h
        split at h
        · rename_i hc
          simp only [Option.some.injEq, Prod.mk.injEq, Pred.mk.injEq] at h hc
          obtain ⟨⟨rfl, rfl⟩, rfl⟩ := h
          obtain ⟨rfl, hc⟩ := hc
          exact ⟨Or.inl ⟨rfl, hs, ht⟩, hc⟩
        · cases h
      · simp at h
    · split at h
      · rename_i hc
        simp only [Option.some.injEq, Prod.mk.injEq, Pred.mk.injEq] at h hc
        obtain ⟨⟨rfl, rfl⟩, rfl⟩ := h
        obtain ⟨rfl, hc⟩ := hc
        exact ⟨Or.inr ⟨rfl, ht⟩, hc⟩
      · cases h
  · rintro ⟨⟨hd, hs, ht⟩ | ⟨hd, ht⟩, hp⟩
    · subst hd
      left
      rw [if_pos hs, List.mem_filterMap]
      exact ⟨(node, iri, v), ht, by simp [hp]⟩
    · right
      subst hd
      exact ⟨(v, iri, node), ht, by simp [hp]⟩

theorem nodup_arcs (g : Graph N P) (node : N) (preds : List (Pred P)) : (g.arcs node preds).Nodup :=
  List.nodup_dedup _

theorem mem_neighs {E : Env N P} (hs : E.Shuffles) (node : N) (preds : List (Pred P)) (p : Pred P)
    (v : N) : (p, v) ∈ E.neighs node preds ↔ E.graph.Arc node p v ∧ p ∈ preds := by
  rw [Env.neighs, (hs _).mem_iff, mem_arcs]

theorem mem_remainder (g : Graph N P) (node : N) (preds : List (Pred P)) (p : P) :
    p ∈ g.remainder node preds ↔ ∃ v, g.Arc node ⟨p, true⟩ v ∧ (⟨p, true⟩ : Pred P) ∉ preds := by
  simp only [Graph.remainder, Graph.Arc]
  split
  · rename_i hs
    simp only [List.mem_map, List.mem_filter, decide_eq_true_eq]
    constructor
    · rintro ⟨⟨s, q, o⟩, ⟨ht, rfl, hn⟩, rfl⟩
      exact ⟨o, Or.inl ⟨trivial, hs, ht⟩, hn⟩
    · rintro ⟨v, h | h, hn⟩
      · exact ⟨(node, p, v), ⟨h.2.2, rfl, hn⟩, rfl⟩
      · simp at h
  · rename_i hs
    simp only [List.not_mem_nil, false_iff]
    rintro ⟨v, h | h, _⟩
    · exact hs h.2.1
    · simp at h

theorem mem_addPreds (preds extra : List (Pred P)) (p : Pred P) :
    p ∈ addPreds preds extra ↔ p ∈ preds ∨ p ∈ extra := by
  unfold addPreds
  induction extra generalizing preds with
  | nil => simp
  | cons q extra ih =>
    rw [List.foldl_cons, ih]
    split
    · rename_i h
      constructor
      · rintro (h' | h')
        · exact Or.inl h'
        · exact Or.inr (by simp [h'])
      · rintro (h' | h')
        · exact Or.inl h'
        · rcases List.mem_cons.1 h' with rfl | h'
          · exact Or.inl h
          · exact Or.inr h'
    · simp only [List.mem_append, List.mem_singleton, List.mem_cons]
      tauto

theorem matchesAnyLeaf_iff {s : Shape N P} (ht : s.expr.Made) (node : N) (p : Pred P) (v : N) :
    matchesAnyLeaf s.expr (p, v, (node, some (p, v))) = true ↔ s.MayMatch node p v := by
  simp only [matchesAnyLeaf, List.any_eq_true, Shape.MayMatch, Bool.and_eq_true, decide_eq_true_eq,
    Bool.or_eq_true, condHasRef_iff]
  constructor
  · rintro ⟨⟨k, cond⟩, hm, rfl, h⟩
    refine ⟨cond, (mem_components ht _ _).1 hm, ?_⟩
    rcases h with h | h
    · exact Or.inl h
    · exact Or.inr ((matches_isSome _ _ _).1 h)
  · rintro ⟨cond, hm, h⟩
    refine ⟨(p, cond), (mem_components ht _ _).2 hm, rfl, ?_⟩
    rcases h with h | h
    · exact Or.inl h
    · exact Or.inr ((matches_isSome _ _ _).2 h)

/-- The values handed to the triple expression. -/
def Env.bound (E : Env N P) (node : N) (s : Shape N P) : List (Neigh N P) :=
  (withCtx node (E.neighs node (addPreds s.preds s.extra))).filter fun x =>
    if x.1 ∉ s.extra then true else matchesAnyLeaf s.expr x

theorem bound_lists {E : Env N P} (hs : E.Shuffles) {s : Shape N P} (ht : s.expr.Made) (node : N) :
    Lists s E.graph node (E.bound node s) := by
  constructor
  · refine List.Nodup.filter _ ?_
    refine List.Nodup.map ?_ ((hs _).nodup_iff.2 (nodup_arcs _ _ _))
    rintro ⟨a, b⟩ ⟨a', b'⟩ h
    simp only [Prod.mk.injEq] at h ⊢
    exact ⟨h.1, h.2.1⟩
  · rintro ⟨p, v, ctx⟩
    simp only [Env.bound, List.mem_filter, withCtx, List.mem_map, Shape.Bound, Shape.Mentions]
    constructor
    · rintro ⟨⟨⟨q, o⟩, hm, heq⟩, hf⟩
      simp only [Prod.mk.injEq] at heq
      obtain ⟨rfl, rfl, rfl⟩ := heq
      rw [mem_neighs hs, mem_addPreds] at hm
      refine ⟨rfl, hm.1, hm.2, fun he => ?_⟩
      rw [if_neg (by simpa using he)] at hf
      exact (matchesAnyLeaf_iff ht _ _ _).1 hf
    · rintro ⟨rfl, h1, h2, h3⟩
      refine ⟨⟨(p, v), (mem_neighs hs _ _ _ _).2 ⟨h1, (mem_addPreds _ _ _).2 h2⟩, rfl⟩, ?_⟩
      by_cases he : p ∈ s.extra
      · rw [if_neg (by simpa using he)]
        exact (matchesAnyLeaf_iff ht _ _ _).2 (h3 he)
      · rw [if_pos he]

theorem checkShape_eq (E : Env N P) (node : N) (s : Shape N P) (T : N × Nat → Bool) :
    E.checkShape node s T = true ↔
      (s.closed = true → ∀ p v, E.graph.Arc node ⟨p, true⟩ v → s.Mentions ⟨p, true⟩) ∧
        checkExprNeigh E.enum s.expr (E.bound node s) T = true := by
  have hrem : (E.graph.remainder node (addPreds s.preds s.extra)).isEmpty = true ↔
      ∀ p v, E.graph.Arc node ⟨p, true⟩ v → s.Mentions ⟨p, true⟩ := by
    rw [List.isEmpty_iff, List.eq_nil_iff_forall_not_mem]
    constructor
    · intro h p v hv
      by_contra hc
      exact h p ((mem_remainder _ _ _ _).2 ⟨v, hv, fun hm => hc ((mem_addPreds _ _ _).1 hm)⟩)
    · intro h p hp
      obtain ⟨v, hv, hn⟩ := (mem_remainder _ _ _ _).1 hp
      exact hn ((mem_addPreds _ _ _).2 (h p v hv))
  unfold Env.checkShape
  simp only [Env.bound]
  by_cases hc : s.closed = true
  · simp only [hc, Bool.true_and, true_implies, ← hrem]
    cases (E.graph.remainder node (addPreds s.preds s.extra)).isEmpty <;> simp
  · simp [hc]

/-! ## Monotonicity and dependencies -/

theorem checkShape_mono {E : Env N P} {s : Shape N P} (ht : s.expr.Made) (node : N)
    (T T' : N × Nat → Bool)
    (h : ∀ x ∈ E.bound node s, ∀ cond, HasConstraint s.expr x.1 cond → ∀ w r,
      cond.Deps x.2.1 x.2.2 w r → T (w, r) = true → T' (w, r) = true)
    (hc : E.checkShape node s T = true) : E.checkShape node s T' = true := by
  rw [checkShape_eq] at hc ⊢
  refine ⟨hc.1, ?_⟩
  rw [checkExprNeigh_iff_item ht] at hc ⊢
  obtain ⟨p, hp, hT⟩ := hc.2
  refine ⟨p, hp, fun w r hd => ?_⟩
  obtain ⟨x, hx, cond, hcd, hdd⟩ := dep_of_item ht _ p hp w r hd
  exact h x hx cond hcd w r hdd (hT w r hd)

theorem valueRefs_mem {s : Shape N P} (ht : s.expr.Made) (p : Pred P) (r : Nat) :
    (p, r) ∈ s.valueRefs ↔ HasConstraint s.expr p (.ref r) := by
  rw [← mem_components ht]
  simp only [Shape.valueRefs, List.mem_filterMap]
  constructor
  · rintro ⟨⟨k, cond⟩, hm, h⟩
    split at h
    · rename_i r' hr
      simp only at hr
      simp only [Option.some.injEq, Prod.mk.injEq] at h
      obtain ⟨rfl, rfl⟩ := h
      rw [← hr]; exact hm
    · cases h
  · intro h
    exact ⟨_, h, rfl⟩

theorem refsOver_sound (sch : Schema N P)
    (go : ShapeExpr N P → List Nat → List (Pred P × Nat) × List Nat) (Q : Nat → Prop)
    (hgo : ∀ e se vis, Q e → sch.find e = some se → ∀ x ∈ (go se vis).1, Q x.2)
    (es : List Nat) (hes : ∀ e ∈ es, Q e) (vis : List Nat) :
    ∀ x ∈ (refsOver sch go es vis).1, Q x.2 := by
  induction es generalizing vis with
  | nil => simp [refsOver]
  | cons e es ih =>
    simp only [refsOver]
    split
    · exact ih (fun e' he => hes e' (by simp [he])) vis
    · intro x hx
      simp only [List.mem_append] at hx
      rcases hx with hx | hx
      · cases hf : sch.find e with
        | none => rw [hf] at hx; simp at hx
        | some se =>
          rw [hf] at hx
          exact hgo e se _ (hes e (by simp)) hf x hx
      · exact ih (fun e' he => hes e' (by simp [he])) _ x hx

theorem refsVisited_sound {sch : Schema N P} (hm : ∀ i s, sch.At i (.shape s) → s.expr.Made)
    (dflt : Pred P) (n : Nat) (i : Nat) (se : ShapeExpr N P) (hi : sch.At i se) (vis : List Nat) :
    ∀ x ∈ (refsVisited sch dflt n se vis).1, DependsOn sch i x.2 := by
  induction n generalizing i se vis with
  | zero => simp [refsVisited]
  | succ n ih =>
    have hgo : ∀ es : List Nat, (∀ e ∈ es, Uses sch i e ∨ Negates sch i e) → ∀ vis,
        ∀ x ∈ (refsOver sch (refsVisited sch dflt n) es vis).1, DependsOn sch i x.2 := by
      intro es hes vis
      refine refsOver_sound sch _ (DependsOn sch i) ?_ es ?_ vis
      · intro e se vis he hf x hx
        exact he.trans (ih e se hf vis x hx)
      · intro e he
        exact Relation.ReflTransGen.single (hes e he)
    cases se with
    | or es => exact hgo es (fun e he => Or.inl (.or hi he)) vis
    | and es => exact hgo es (fun e he => Or.inl (.and hi he)) vis
    | not e => exact hgo [e] (fun e' he => by simp at he; subst he; exact Or.inr hi) vis
    | shape s =>
      intro x hx
      simp only [refsVisited, List.mem_append] at hx
      rcases hx with hx | hx
      · have := (valueRefs_mem (hm i s hi) x.1 x.2).1 hx
        exact Relation.ReflTransGen.single (Or.inl (.value hi this rfl))
      · exact hgo s.extends (fun e he => Or.inl (.parent hi he)) vis x hx
    | ref e =>
      intro x hx
      simp only [refsVisited, List.mem_cons] at hx
      rcases hx with rfl | hx
      · exact Relation.ReflTransGen.single (Or.inl (.ref hi))
      · exact hgo [e] (fun e' he => by simp at he; subst he; exact Or.inl (.ref hi)) vis x hx
    | nodeConstraint c => simp [refsVisited]
    | external => simp [refsVisited]
    | empty => simp [refsVisited]

theorem dep_sound {E : Env N P} (hm : ∀ i s, E.schema.At i (.shape s) → s.expr.Made)
    (x : N × Nat) (ds : List (N × Nat)) (h : E.dep x = some ds) :
    ∀ y ∈ ds, DependsOn E.schema x.2 y.2 := by
  unfold Env.dep at h
  split at h
  · cases h
  · rename_i se hf
    simp only [Option.some.injEq] at h
    subst h
    intro y hy
    rw [List.mem_append] at hy
    rcases hy with hy | hy
    · simp only [List.mem_map] at hy
      obtain ⟨j, hj, rfl⟩ := hy
      refine Relation.ReflTransGen.single ?_
      cases se with
      | or es => exact Or.inl (.or hf hj)
      | and es => exact Or.inl (.and hf hj)
      | not e => simp [ShapeExpr.directRefs] at hj; subst hj; exact Or.inr hf
      | ref e => simp [ShapeExpr.directRefs] at hj; subst hj; exact Or.inl (.ref hf)
      | shape s => simp [ShapeExpr.directRefs] at hj
      | nodeConstraint c => simp [ShapeExpr.directRefs] at hj
      | external => simp [ShapeExpr.directRefs] at hj
      | empty => simp [ShapeExpr.directRefs] at hj
    · simp only [List.mem_flatMap, List.mem_map, List.mem_filter] at hy
      obtain ⟨a, _, r, ⟨hr, _⟩, rfl⟩ := hy
      exact refsVisited_sound hm _ _ x.2 se hf _ r hr

/-- Whatever the check of a pair may ask of the typing is among its dependencies. -/
theorem bound_dep {E : Env N P} (hs : E.Shuffles) (hp : PlainRefs E.schema) {i : Nat}
    {s : Shape N P} (hi : E.schema.At i (.shape s)) (node : N) (ds : List (N × Nat))
    (hds : E.dep (node, i) = some ds) (x : Neigh N P) (hx : x ∈ E.bound node s) (cond : VCond N P)
    (hc : HasConstraint s.expr x.1 cond) (w : N) (r : Nat) (hd : cond.Deps x.2.1 x.2.2 w r) :
    (w, r) ∈ ds := by
  have ht := hp.made i s hi
  obtain ⟨rfl, hr⟩ := deps_refIn _ _ w r cond (hp.settled i s hi _ _ hc) hd
  have := hp.plain i s hi _ _ hc r hr
  subst this
  have hb := ((bound_lists hs ht node).2 x).1 hx
  unfold Env.dep at hds
  have hf : E.schema.find (node, i).2 = some (.shape s) := hi
  rw [hf] at hds
  simp only [Option.some.injEq] at hds
  subst hds
  rw [List.mem_append]
  right
  have href : (x.1, r) ∈ E.references (.shape s) := by
    simp only [Env.references, refsVisited, List.mem_append]
    exact Or.inl ((valueRefs_mem ht _ _).2 hc)
  simp only [List.mem_flatMap, List.mem_map, List.mem_filter]
  refine ⟨(x.1, x.2.1), ?_, (x.1, r), ⟨href, by simp⟩, rfl⟩
  rw [mem_neighs hs]
  refine ⟨hb.2.1, List.mem_map.2 ⟨_, href, rfl⟩⟩

/-! ## Reachability in the inheritance graph -/

theorem dfs_sound (succ : Nat → List Nat) (Q : Nat → Prop) (hsucc : ∀ x, Q x → ∀ y ∈ succ x, Q y)
    (n : Nat) (stack seen : List Nat) (h1 : ∀ x ∈ stack, Q x) (h2 : ∀ x ∈ seen, Q x) :
    ∀ x ∈ dfs succ n stack seen, Q x := by
  induction n generalizing stack seen with
  | zero => exact h2
  | succ n ih =>
    cases stack with
    | nil => exact h2
    | cons a stack =>
      simp only [dfs]
      split
      · exact ih _ _ (fun x hx => h1 x (by simp [hx])) h2
      · refine ih _ _ ?_ ?_
        · intro x hx
          rw [List.mem_append, List.mem_reverse] at hx
          rcases hx with hx | hx
          · exact hsucc a (h1 a (by simp)) x hx
          · exact h1 x (by simp [hx])
        · intro x hx
          rw [List.mem_append, List.mem_singleton] at hx
          rcases hx with hx | rfl
          · exact h2 x hx
          · exact h1 x (by simp)

theorem alookup_mem {X Y : Type} [DecidableEq X] {l : List (X × Y)} (hn : (l.map Prod.fst).Nodup)
    {x : X} {y : Y} (h : (x, y) ∈ l) : Rbe.alookup x l = some y := by
  induction l with
  | nil => simp at h
  | cons a l ih =>
    obtain ⟨b, z⟩ := a
    simp only [List.map_cons, List.nodup_cons] at hn
    simp only [Rbe.alookup]
    rcases List.mem_cons.1 h with h | h
    · simp only [Prod.mk.injEq] at h
      rw [if_pos h.1.symm, h.2]
    · rw [if_neg, ih hn.2 h]
      rintro rfl
      exact hn.1 (List.mem_map.2 ⟨_, h, rfl⟩)

theorem mem_of_alookup {X Y : Type} [DecidableEq X] {l : List (X × Y)}
    {x : X} {y : Y} (h : Rbe.alookup x l = some y) : (x, y) ∈ l := by
  induction l with
  | nil => simp [Rbe.alookup] at h
  | cons a l ih =>
    obtain ⟨b, z⟩ := a
    simp only [Rbe.alookup] at h
    split at h
    · rename_i hb
      simp only [Option.some.injEq] at h
      subst hb; subst h; simp
    · simp [ih h]

/-! ## Matching is exact -/

theorem unplaceable_not {s : Shape N P} (hs : s.Exact) (hl : Lang s.expr.rbe.rbe 0) (g : Graph N P)
    (node : N) (x : Neigh N P) (hx : s.Bound g node x.1 x.2.1) : ¬ s.expr.Unplaceable x := by
  rintro (h | ⟨⟨c, d, hne, hc, hd⟩, _⟩)
  · rcases hx.2.1 with hp | hp
    · obtain ⟨c, hc⟩ := hs.some hl x.1 hp
      exact h c hc
    · obtain ⟨cond, ⟨c, hc, _⟩, _⟩ := hx.2.2 hp
      exact h c hc
  · exact hne (hs.one hl _ c d hc hd)

theorem checkExprNeigh_iff {E : Env N P} (he : Enumerates E.enum) {s : Shape N P} (hs : s.Exact)
    (g : Graph N P) (node : N) (vs : List (Neigh N P)) (hvs : ∀ x ∈ vs, s.Bound g node x.1 x.2.1)
    (T : N × Nat → Bool) :
    checkExprNeigh E.enum s.expr vs T = true ↔
      ∃ cs, s.expr.Assignment vs cs ∧ ∀ w r, s.expr.Requires vs cs w r → T (w, r) = true := by
  rw [checkExprNeigh_iff_item hs.made]
  constructor
  · rintro ⟨p, hp, hT⟩
    have hpl : vs = [] ∨ ∃ x ∈ vs, ¬ s.expr.Unplaceable x := by
      by_contra hc
      push Not at hc
      obtain ⟨hne, hun⟩ := hc
      have hi := Table.inv_of_made hs.made
      have hp' := hp
      rw [items_eq, if_pos fun x hx => (candidates_nil_iff hi x).2 (hun x hx)] at hp'
      simp only [Table.emptyItems, condNullable_map, List.mem_singleton] at hp'
      split at hp'
      · rename_i hn
        have hl := (condNullable_iff _ (minMax_of_sane _ (sane_of_wf _ hs.wf))).1 hn
        obtain ⟨x, hx⟩ := List.exists_mem_of_ne_nil vs hne
        exact unplaceable_not hs hl g node x (hvs x hx) (hun x hx)
      · cases hp'
    obtain ⟨cs, ha, hc⟩ := C12_success_from_assignment_partial s.expr hs.made hs.wf hs.flat E.enum he
      vs hpl p hp
    exact ⟨cs, ha, fun w r hr => hT w r ((hc.1 w r).2 hr)⟩
  · rintro ⟨cs, ha, hT⟩
    obtain ⟨p, hp, hc⟩ := C12_every_assignment_found s.expr hs.made hs.wf hs.flat E.enum he vs cs ha
    exact ⟨p, hp, fun w r hd => hT w r ((hc.1 w r).1 hd)⟩

theorem lists_perm {s : Shape N P} {g : Graph N P} {node : N} {vs vs' : List (Neigh N P)}
    (h : Lists s g node vs) (h' : Lists s g node vs') : vs.Perm vs' :=
  (List.perm_ext_iff_of_nodup h.1 h'.1).2 fun x => by rw [h.2, h'.2]

/-- Assignments follow the triples when these are reordered. -/
theorem assignment_perm (t : TExpr N P) {vs vs' : List (Neigh N P)} (h : vs.Perm vs')
    (cs : List Nat) (hf : List.Forall₂ t.Takes vs cs) :
    ∃ cs', List.Forall₂ t.Takes vs' cs' ∧ cs'.Perm cs ∧ (vs'.zip cs').Perm (vs.zip cs) := by
  induction h generalizing cs with
  | nil => cases hf; exact ⟨[], .nil, List.Perm.refl _, List.Perm.refl _⟩
  | cons x _ ih =>
    cases hf with
    | cons hx hf =>
      obtain ⟨cs', h1, h2, h3⟩ := ih _ hf
      exact ⟨_ :: cs', .cons hx h1, h2.cons _, h3.cons _⟩
  | swap x y l =>
    cases hf with
    | cons hx hf =>
      cases hf with
      | cons hy hf =>
        exact ⟨_ :: _ :: _, .cons hy (.cons hx hf), List.Perm.swap _ _ _, List.Perm.swap _ _ _⟩
  | trans _ _ ih1 ih2 =>
    obtain ⟨c1, h1, h2, h3⟩ := ih1 cs hf
    obtain ⟨c2, g1, g2, g3⟩ := ih2 c1 h1
    exact ⟨c2, g1, g2.trans h2, g3.trans h3⟩

theorem assignment_reorder (t : TExpr N P) {vs vs' : List (Neigh N P)} (h : vs.Perm vs')
    (T : N × Nat → Prop) :
    (∃ cs, t.Assignment vs cs ∧ ∀ w r, t.Requires vs cs w r → T (w, r)) →
      ∃ cs, t.Assignment vs' cs ∧ ∀ w r, t.Requires vs' cs w r → T (w, r) := by
  rintro ⟨cs, ⟨h1, h2⟩, h3⟩
  obtain ⟨cs', g1, g2, g3⟩ := assignment_perm t h cs h1
  refine ⟨cs', ⟨g1, ?_⟩, ?_⟩
  · rw [Multiset.coe_eq_coe.2 g2]; exact h2
  · rintro w r ⟨x, c, hm, rest⟩
    exact h3 w r ⟨x, c, g3.mem_iff.1 hm, rest⟩

theorem checkShape_iff {E : Env N P} (he : Enumerates E.enum) (hsh : E.Shuffles) {s : Shape N P}
    (hs : s.Exact) (node : N) (T : N × Nat → Bool) :
    E.checkShape node s T = true ↔ ShapeSat E.graph (fun x => T x = true) node s := by
  have hl := bound_lists hsh hs.made node
  rw [checkShape_eq, checkExprNeigh_iff he hs E.graph node _ (fun x hx => ((hl.2 x).1 hx).2)]
  unfold ShapeSat
  refine and_congr_right fun _ => ?_
  constructor
  · rintro ⟨cs, h1, h2⟩
    exact ⟨_, cs, hl, h1, h2⟩
  · rintro ⟨vs, cs, hl', h1, h2⟩
    exact assignment_reorder s.expr (lists_perm hl' hl) (fun x => T x = true) ⟨cs, h1, h2⟩

theorem checkExpr_iff {E : Env N P} (he : Enumerates E.enum) (hsh : E.Shuffles)
    (hr : Regular E.schema) (hni : NoInheritance E.schema) (ext : Ext N P) (node : N) (i : Nat)
    (se : ShapeExpr N P) (hi : E.schema.At i se) (T : N × Nat → Bool) :
    E.checkExpr ext node i se T = true ↔ ExprSat E (fun x => T x = true) node i se := by
  cases se with
  | or es => simp [Env.checkExpr, ExprSat]
  | and es => simp [Env.checkExpr, ExprSat]
  | not e => simp [Env.checkExpr, ExprSat]
  | nodeConstraint c => exact matches_isSome _ _ _
  | shape s =>
    simp only [Env.checkExpr, hni.noExtends i s hi, List.isEmpty_nil, if_true, ExprSat]
    exact checkShape_iff he hsh (hr i s hi) node T
  | external => simp [Env.checkExpr, ExprSat]
  | ref e => simp [Env.checkExpr, ExprSat]
  | empty => simp [Env.checkExpr, ExprSat]

/-! ## Inheritance -/

theorem mem_extendsEdges (sch : Schema N P) (d i : Nat) :
    (d, i) ∈ sch.extendsEdges ↔ ∃ s, (d, ShapeExpr.shape s) ∈ sch.shapes ∧ i ∈ s.extends := by
  simp only [Schema.extendsEdges, List.mem_flatMap]
  constructor
  · rintro ⟨⟨k, se⟩, hm, h⟩
    cases se with
    | shape s =>
      simp only [List.mem_map, Prod.mk.injEq] at h
      obtain ⟨e, he, rfl, rfl⟩ := h
      exact ⟨s, hm, he⟩
    | _ => simp at h
  · rintro ⟨s, hm, h⟩
    exact ⟨_, hm, by simpa using h⟩

theorem descendants_sound (sch : Schema N P) (i d : Nat) (h : d ∈ sch.descendants i) :
    Extends sch d i := by
  simp only [Schema.descendants, List.mem_filter, decide_eq_true_eq] at h
  obtain ⟨h, hne⟩ := h
  have := dfs_sound _ (fun x => x = i ∨ Extends sch x i) ?_ _ [i] [] (by simp) (by simp) d h
  · exact this.resolve_left hne
  · intro x hx y hy
    simp only [List.mem_map, List.mem_filter, decide_eq_true_eq] at hy
    obtain ⟨⟨a, b⟩, ⟨hm, rfl⟩, rfl⟩ := hy
    have hs := (mem_extendsEdges sch a b).1 hm
    right
    rcases hx with rfl | hx
    · exact Relation.TransGen.single hs
    · exact Relation.TransGen.head hs hx

theorem descendants_nil {sch : Schema N P} (hk : (sch.shapes.map Prod.fst).Nodup)
    (hni : NoInheritance sch) (i : Nat) : sch.descendants i = [] := by
  rw [List.eq_nil_iff_forall_not_mem]
  intro d hd
  have := descendants_sound sch i d hd
  have key : ∀ a b, Extends sch a b → False := by
    intro a b h
    have aux : ∀ c e, (∃ s, (c, ShapeExpr.shape s) ∈ sch.shapes ∧ e ∈ s.extends) → False := by
      rintro c e ⟨s, hm, he⟩
      have := hni.noExtends c s (alookup_mem hk hm)
      rw [this] at he
      simp at he
    induction h with
    | single h => exact aux _ _ h
    | tail _ h _ => exact aux _ _ h
  exact key _ _ this

theorem dependsOn_of_extends {sch : Schema N P} (hk : (sch.shapes.map Prod.fst).Nodup) {d i : Nat}
    (h : Extends sch d i) : DependsOn sch i d := by
  unfold Extends at h
  induction h with
  | single h =>
    obtain ⟨s, hm, he⟩ := h
    exact Relation.ReflTransGen.single (Or.inl (.child (alookup_mem hk hm) he))
  | tail _ h ih =>
    obtain ⟨s, hm, he⟩ := h
    exact Relation.ReflTransGen.head (Or.inl (.child (alookup_mem hk hm) he)) ih

/-! ## Ranks -/

theorem respects_dependsOn {sch : Schema N P} {rank : Nat → Nat} (hr : Respects sch rank) {i j : Nat}
    (h : DependsOn sch i j) : rank j ≤ rank i := by
  unfold DependsOn at h
  induction h with
  | refl => exact Nat.le_refl _
  | tail _ h ih =>
    rcases h with h | h
    · exact Nat.le_trans (hr.uses _ _ h) ih
    · exact Nat.le_trans (Nat.le_of_lt (hr.negates _ _ h)) ih

open Classical in
theorem respects_exists {sch : Schema N P} (hn : NoNegCycle sch) : ∃ rank, Respects sch rank := by
  refine ⟨fun i => ((sch.shapes.map Prod.fst).filter fun k => decide (DependsOn sch i k)).length,
    ?_, ?_⟩
  · intro i j h
    refine List.Sublist.length_le (List.monotone_filter_right _ ?_)
    intro k hk
    simp only [decide_eq_true_eq] at hk ⊢
    exact Relation.ReflTransGen.head (Or.inl h) hk
  · intro i j h
    refine length_filter_lt (y := i) ?_ ?_ ?_ ?_
    · exact List.mem_map.2 ⟨_, mem_of_alookup h, rfl⟩
    · intro k hk
      simp only [decide_eq_true_eq] at hk ⊢
      exact Relation.ReflTransGen.head (Or.inr h) hk
    · simp only [decide_eq_true_eq]; exact Relation.ReflTransGen.refl
    · simp only [decide_eq_false_iff_not]; exact hn i j h

theorem sys_ranked {E : Env N P} (hk : (E.schema.shapes.map Prod.fst).Nodup) (hsh : E.Shuffles)
    (hp : PlainRefs E.schema) {ext : Ext N P} (hx : ExtRespects E ext) {rank : Nat → Nat}
    (hr : Respects E.schema rank) (order : Nat → List (N × Nat) → List (N × Nat)) :
    Ranked (E.sys ext order) (fun x => rank x.2) where
  dep := fun x ds h y hy => respects_dependsOn hr (dep_sound hp.made x ds h y hy)
  desc := by
    intro x y hy
    simp only [Env.sys, List.mem_map] at hy
    obtain ⟨d, hd, rfl⟩ := hy
    exact respects_dependsOn hr (dependsOn_of_extends hk (descendants_sound _ _ _ hd))
  mono := by
    rintro ⟨node, i⟩ ds h T T' hlt heq hc
    simp only [Env.sys] at h hc ⊢
    cases hf : E.schema.find i with
    | none => rw [hf] at hc; simp at hc
    | some se =>
      rw [hf] at hc
      simp only [Option.map_some, Option.some.injEq] at hc ⊢
      have hdirect : ∀ j ∈ se.directRefs, (node, j) ∈ ds := by
        intro j hj
        simp only [Env.dep, hf, Option.some.injEq] at h
        subst h
        simp [hj]
      have hle : ∀ y ∈ ds, rank y.2 ≤ rank i := fun y hy =>
        respects_dependsOn hr (dep_sound hp.made _ ds h y hy)
      have hup : ∀ y ∈ ds, T y = true → T' y = true := by
        intro y hy hT
        rcases Nat.lt_or_eq_of_le (hle y hy) with hl | he
        · rw [← hlt y hy hl]; exact hT
        · exact heq y hy he hT
      cases se with
      | or es =>
        simp only [Env.checkExpr, List.any_eq_true] at hc ⊢
        obtain ⟨e, he, hT⟩ := hc
        exact ⟨e, he, hup _ (hdirect e he) hT⟩
      | and es =>
        simp only [Env.checkExpr, List.all_eq_true] at hc ⊢
        exact fun e he => hup _ (hdirect e he) (hc e he)
      | not e =>
        simp only [Env.checkExpr] at hc ⊢
        rw [← hlt (node, e) (hdirect e (by simp [ShapeExpr.directRefs])) (hr.negates _ _ hf)]
        exact hc
      | nodeConstraint c => exact hc
      | shape s =>
        simp only [Env.checkExpr] at hc ⊢
        by_cases he : s.extends.isEmpty = true
        · rw [if_pos he] at hc ⊢
          refine checkShape_mono (hp.made i s hf) node T T' ?_ hc
          intro x hx cond hcd w r hd
          exact hup _ (bound_dep hsh hp hf node ds h x hx cond hcd w r hd)
        · rw [if_neg he] at hc ⊢
          exact hx i s hf (by simpa using he) node ds h T T' hup hc
      | external => exact hc
      | ref e =>
        simp only [Env.checkExpr] at hc ⊢
        exact hup _ (hdirect e (by simp [ShapeExpr.directRefs])) hc
      | empty => exact hc

theorem extRespects_of_none {E : Env N P} (hni : NoInheritance E.schema) (ext : Ext N P) :
    ExtRespects E ext := fun i s hi hne => absurd (hni.noExtends i s hi) hne

theorem holds_sys_iff {E : Env N P} (he : Enumerates E.enum) (hsh : E.Shuffles)
    (hk : (E.schema.shapes.map Prod.fst).Nodup)
    (hr : Regular E.schema) (hni : NoInheritance E.schema) (ext : Ext N P)
    (order : Nat → List (N × Nat) → List (N × Nat)) (T : N × Nat → Prop) (x : N × Nat) :
    Holds (E.sys ext order) T x ↔ ∃ se, E.schema.At x.2 se ∧ ExprSat E T x.1 x.2 se := by
  classical
  have habs : E.schema.isAbstract x.2 = false := by simp [Schema.isAbstract, hni.noAbstract]
  unfold Holds
  simp only [Env.sys, descendants_nil hk hni, List.map_nil, List.not_mem_nil, false_and,
    exists_false, or_false, habs, true_and]
  constructor
  · rintro ⟨_, h⟩
    cases hf : E.schema.find x.2 with
    | none => rw [hf] at h; simp at h
    | some se =>
      rw [hf] at h
      simp only [Option.map_some, Option.some.injEq] at h
      refine ⟨se, hf, ?_⟩
      have := (checkExpr_iff he hsh hr hni ext x.1 x.2 se hf _).1 h
      simpa using this
  · rintro ⟨se, hf, h⟩
    have hf' : E.schema.find x.2 = some se := hf
    refine ⟨by simp [Env.dep, hf'], ?_⟩
    rw [hf']
    simp only [Option.map_some, Option.some.injEq]
    refine (checkExpr_iff he hsh hr hni ext x.1 x.2 se hf _).2 ?_
    simpa using h

theorem dfs_weight (edges : List (Nat × Nat)) (key : Nat × Nat → Nat) (seen : List Nat) (x : Nat)
    (hx : x ∉ seen) :
    (edges.filter fun e => decide (key e ∉ seen ++ [x])).length +
      (edges.filter fun e => decide (key e = x)).length =
    (edges.filter fun e => decide (key e ∉ seen)).length := by
  induction edges with
  | nil => rfl
  | cons e edges ih =>
    by_cases h1 : key e = x
    · have h2 : key e ∉ seen := by rw [h1]; exact hx
      simp [h1, hx] at ih ⊢
      omega
    · by_cases h2 : key e ∈ seen
      · simp [h1, h2] at ih ⊢
        omega
      · simp [h1, h2] at ih ⊢
        omega

/-- With enough fuel the search ends with a set that is closed and holds the start. -/
theorem dfs_complete (edges : List (Nat × Nat)) (key val : Nat × Nat → Nat) (n : Nat)
    (stack seen : List Nat)
    (hn : stack.length + (edges.filter fun e => decide (key e ∉ seen)).length + 1 ≤ n)
    (hc : ∀ e ∈ edges, key e ∈ seen → val e ∈ seen ∨ val e ∈ stack) :
    let R := dfs (fun x => (edges.filter fun e => decide (key e = x)).map val) n stack seen
    (∀ x ∈ stack, x ∈ R) ∧ (∀ x ∈ seen, x ∈ R) ∧ ∀ e ∈ edges, key e ∈ R → val e ∈ R := by
  induction n generalizing stack seen with
  | zero => omega
  | succ n ih =>
    cases stack with
    | nil =>
      refine ⟨by simp, fun x hx => hx, fun e he h => ?_⟩
      rcases hc e he h with h | h
      · exact h
      · simp at h
    | cons a stack =>
      simp only [dfs]
      by_cases ha : a ∈ seen
      · rw [if_pos ha]
        simp only [List.length_cons] at hn
        obtain ⟨h1, h2, h3⟩ := ih stack seen (by omega) (by
          intro e he hk
          rcases hc e he hk with h | h
          · exact Or.inl h
          · rcases List.mem_cons.1 h with h | h
            · rw [h]; exact Or.inl ha
            · exact Or.inr h)
        refine ⟨fun x hx => ?_, h2, h3⟩
        rcases List.mem_cons.1 hx with rfl | hx
        · exact h2 _ ha
        · exact h1 x hx
      · rw [if_neg ha]
        have hw := dfs_weight edges key seen a ha
        obtain ⟨h1, h2, h3⟩ := ih
          (((edges.filter fun e => decide (key e = a)).map val).reverse ++ stack) (seen ++ [a]) (by
            simp only [List.length_append, List.length_reverse, List.length_map, List.length_cons]
              at hn ⊢
            omega) (by
          intro e he hk
          rw [List.mem_append, List.mem_singleton] at hk
          rcases hk with hk | hk
          · rcases hc e he hk with h | h
            · exact Or.inl (by simp [h])
            · rcases List.mem_cons.1 h with h | h
              · exact Or.inl (by simp [h])
              · exact Or.inr (by simp [h])
          · right
            rw [List.mem_append, List.mem_reverse]
            exact Or.inl (List.mem_map.2 ⟨e, List.mem_filter.2 ⟨he, by simp [hk]⟩, rfl⟩))
        refine ⟨fun x hx => ?_, fun x hx => h2 x (by simp [hx]), h3⟩
        rcases List.mem_cons.1 hx with rfl | hx
        · exact h2 _ (by simp)
        · exact h1 x (by simp [hx])

theorem dfsFuel_enough (edges : List (Nat × Nat)) (key : Nat × Nat → Nat) (i : Nat) :
    [i].length + (edges.filter fun e => decide (key e ∉ ([] : List Nat))).length + 1 ≤
      dfsFuel edges := by
  have := List.length_filter_le (fun e => decide (key e ∉ ([] : List Nat))) edges
  simp only [dfsFuel, List.length_singleton]
  omega

theorem descendants_iff (sch : Schema N P) (i d : Nat) :
    d ∈ sch.descendants i ↔ d ≠ i ∧ Extends sch d i := by
  constructor
  · intro h
    refine ⟨?_, descendants_sound sch i d h⟩
    simp only [Schema.descendants, List.mem_filter, decide_eq_true_eq] at h
    exact h.2
  · rintro ⟨hne, h⟩
    simp only [Schema.descendants, List.mem_filter, decide_eq_true_eq]
    refine ⟨?_, hne⟩
    obtain ⟨h1, _, h3⟩ := dfs_complete sch.extendsEdges Prod.snd Prod.fst (dfsFuel sch.extendsEdges)
      [i] [] (dfsFuel_enough _ _ _) (by simp)
    have h0 := h1 i (by simp)
    unfold Extends at h
    clear hne h1
    induction h using Relation.TransGen.head_induction_on with
    | single h => exact h3 _ ((mem_extendsEdges sch _ _).2 h) h0
    | head h _ ih => exact h3 _ ((mem_extendsEdges sch _ _).2 h) ih

theorem parents_iff (sch : Schema N P) (i d : Nat) :
    d ∈ sch.parents i ↔ d ≠ i ∧ Extends sch i d := by
  simp only [Schema.parents, List.mem_filter, decide_eq_true_eq]
  rw [and_comm]
  refine and_congr_right fun hne => ?_
  constructor
  · intro h
    have := dfs_sound _ (fun x => x = i ∨ Extends sch i x) ?_ _ [i] [] (by simp) (by simp) d h
    · exact this.resolve_left hne
    · intro x hx y hy
      simp only [List.mem_map, List.mem_filter, decide_eq_true_eq] at hy
      obtain ⟨⟨a, b⟩, ⟨hm, rfl⟩, rfl⟩ := hy
      have hs := (mem_extendsEdges sch a b).1 hm
      right
      rcases hx with rfl | hx
      · exact Relation.TransGen.single hs
      · exact Relation.TransGen.tail hx hs
  · intro h
    obtain ⟨h1, _, h3⟩ := dfs_complete sch.extendsEdges Prod.fst Prod.snd (dfsFuel sch.extendsEdges)
      [i] [] (dfsFuel_enough _ _ _) (by simp)
    have h0 := h1 i (by simp)
    unfold Extends at h
    clear hne h1
    induction h with
    | single h => exact h3 _ ((mem_extendsEdges sch _ _).2 h) h0
    | tail _ h ih => exact h3 _ ((mem_extendsEdges sch _ _).2 h) ih

end Shex

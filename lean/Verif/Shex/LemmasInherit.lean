import Verif.Shex.LemmasSingle

/-!
# Lemmas: validation of hierarchies of shapes
-/

namespace Shex
open Rbe

variable {N P : Type} [DecidableEq N] [DecidableEq P]

/-! ## References of ancestors -/

/-- The shapes not visited yet. -/
def unseen (sch : Schema N P) (vis : List Nat) : Nat :=
  ((sch.shapes.map Prod.fst).filter fun k => decide (k ∉ vis)).length

omit [DecidableEq N] [DecidableEq P] in
theorem unseen_mono (sch : Schema N P) {vis vis' : List Nat} (h : ∀ x ∈ vis, x ∈ vis') :
    unseen sch vis' ≤ unseen sch vis := by
  refine List.Sublist.length_le (List.monotone_filter_right _ fun k hk => ?_)
  simp only [decide_eq_true_eq] at hk ⊢
  exact fun hc => hk (h k hc)

omit [DecidableEq N] [DecidableEq P] in
theorem unseen_lt (sch : Schema N P) {vis : List Nat} {e : Nat} (he : e ∉ vis)
    (hf : sch.find e ≠ none) : unseen sch (e :: vis) < unseen sch vis :=
  length_filter_lt (y := e) (find_mem_keys hf) (fun k hk => by
    simp only [decide_eq_true_eq, List.mem_cons, not_or] at hk ⊢
    exact hk.2) (by simpa using he) (by simp)

/-- What a traversal has to bring: it keeps the visited shapes, and every shape it visits brings its
references and gets its parents visited. -/
def Brings (sch : Schema N P) (vis : List Nat) (r : List (Pred P × Nat) × List Nat) : Prop :=
  (∀ x ∈ vis, x ∈ r.2) ∧ ∀ j ∈ r.2, j ∉ vis → ∀ s, sch.At j (.shape s) →
    (∀ y ∈ s.valueRefs, y ∈ r.1) ∧ ∀ e ∈ s.extends, e ∈ r.2

omit [DecidableEq N] [DecidableEq P] in
theorem refsOver_cons (sch : Schema N P)
    (go : ShapeExpr N P → List Nat → List (Pred P × Nat) × List Nat) (e : Nat) (es vis : List Nat)
    (hm : e ∉ vis) : ∃ r, refsOver sch go (e :: es) vis =
        (r.1 ++ (refsOver sch go es r.2).1, (refsOver sch go es r.2).2) ∧
      (sch.find e = none → r = ([], e :: vis)) ∧
      ∀ se, sch.find e = some se → r = go se (e :: vis) := by
  cases hf : sch.find e with
  | none => exact ⟨([], e :: vis), by simp [refsOver, hm, hf], fun _ => rfl, by simp⟩
  | some se =>
    refine ⟨go se (e :: vis), by simp [refsOver, hm, hf], by simp, fun se' h => ?_⟩
    rw [Option.some.inj h]

omit [DecidableEq N] [DecidableEq P] in
theorem refsOver_brings (sch : Schema N P) (n : Nat)
    (go : ShapeExpr N P → List Nat → List (Pred P × Nat) × List Nat)
    (hgo : ∀ se vis, unseen sch vis < n → Brings sch vis (go se vis) ∧ ∀ s, se = .shape s →
      (∀ y ∈ s.valueRefs, y ∈ (go se vis).1) ∧ ∀ e ∈ s.extends, e ∈ (go se vis).2)
    (es : List Nat) (vis : List Nat) (hv : unseen sch vis ≤ n) :
    Brings sch vis (refsOver sch go es vis) ∧ ∀ e ∈ es, e ∈ (refsOver sch go es vis).2 := by
  induction es generalizing vis with
  | nil => exact ⟨⟨fun x hx => hx, fun j hj hn => absurd hj hn⟩, by simp⟩
  | cons e es ih =>
    by_cases hm : e ∈ vis
    · have heq : refsOver sch go (e :: es) vis = refsOver sch go es vis := by simp [refsOver, hm]
      rw [heq]
      obtain ⟨h1, h2⟩ := ih vis hv
      refine ⟨h1, fun x hx => ?_⟩
      rcases List.mem_cons.1 hx with rfl | hx
      · exact h1.1 _ hm
      · exact h2 x hx
    · obtain ⟨r, hre, hrn, hrs⟩ := refsOver_cons sch go e es vis hm
      rw [hre]
      have key : Brings sch (e :: vis) r ∧ ∀ s, sch.At e (.shape s) →
          (∀ y ∈ s.valueRefs, y ∈ r.1) ∧ ∀ x ∈ s.extends, x ∈ r.2 := by
        cases hf : sch.find e with
        | none =>
          have hr := hrn hf
          subst hr
          refine ⟨⟨fun x hx => hx, fun j hj hn => absurd hj hn⟩, fun s hs => ?_⟩
          simp [Schema.At, hf] at hs
        | some se =>
          have hr := hrs se hf
          subst hr
          have hlt := unseen_lt sch hm (by simp [hf] : sch.find e ≠ none)
          obtain ⟨g1, g2⟩ := hgo se (e :: vis) (by omega)
          refine ⟨g1, fun s hs => g2 s ?_⟩
          exact Option.some.inj (hf.symm.trans hs)
      have hsub : ∀ x ∈ vis, x ∈ r.2 := fun x hx => key.1.1 x (by simp [hx])
      obtain ⟨h1, h2⟩ := ih r.2 (Nat.le_trans (unseen_mono sch hsub) hv)
      refine ⟨⟨fun x hx => h1.1 x (hsub x hx), ?_⟩, fun x hx => ?_⟩
      · intro j hj hn s hs
        by_cases hjr : j ∈ r.2
        · have : (∀ y ∈ s.valueRefs, y ∈ r.1) ∧ ∀ x ∈ s.extends, x ∈ r.2 := by
            by_cases hje : j = e
            · subst hje
              exact key.2 s hs
            · exact key.1.2 j hjr (by simp [hje, hn]) s hs
          exact ⟨fun y hy => List.mem_append_left _ (this.1 y hy), fun x hx => h1.1 x (this.2 x hx)⟩
        · obtain ⟨g1, g2⟩ := h1.2 j hj hjr s hs
          exact ⟨fun y hy => List.mem_append_right _ (g1 y hy), g2⟩
      · rcases List.mem_cons.1 hx with rfl | hx
        · exact h1.1 _ (key.1.1 _ (by simp))
        · exact h2 x hx

omit [DecidableEq N] [DecidableEq P] in
theorem refsVisited_brings (sch : Schema N P) (dflt : Pred P) (n : Nat) (se : ShapeExpr N P)
    (vis : List Nat) (hv : unseen sch vis < n) :
    Brings sch vis (refsVisited sch dflt n se vis) ∧ ∀ s, se = .shape s →
      (∀ y ∈ s.valueRefs, y ∈ (refsVisited sch dflt n se vis).1) ∧
        ∀ e ∈ s.extends, e ∈ (refsVisited sch dflt n se vis).2 := by
  induction n generalizing se vis with
  | zero => omega
  | succ n ih =>
    have hov := fun es => refsOver_brings sch n (refsVisited sch dflt n) (fun se vis h => ih se vis h) es
      vis (by omega)
    have hid : Brings sch vis (([], vis) : List (Pred P × Nat) × List Nat) :=
      ⟨fun x hx => hx, fun j hj hn => absurd hj hn⟩
    cases se with
    | or es => exact ⟨(hov es).1, by simp⟩
    | and es => exact ⟨(hov es).1, by simp⟩
    | not e => exact ⟨(hov [e]).1, by simp⟩
    | shape s =>
      obtain ⟨h1, h2⟩ := hov s.extends
      simp only [refsVisited]
      refine ⟨⟨h1.1, fun j hj hn t ht => ?_⟩, ?_⟩
      · obtain ⟨g1, g2⟩ := h1.2 j hj hn t ht
        exact ⟨fun y hy => List.mem_append_right _ (g1 y hy), g2⟩
      · intro t ht
        have := ShapeExpr.shape.inj ht
        subst this
        exact ⟨fun y hy => List.mem_append_left _ hy, h2⟩
    | ref i =>
      obtain ⟨h1, h2⟩ := hov [i]
      simp only [refsVisited]
      refine ⟨⟨h1.1, fun j hj hn t ht => ?_⟩, by simp⟩
      obtain ⟨g1, g2⟩ := h1.2 j hj hn t ht
      exact ⟨fun y hy => List.mem_cons_of_mem _ (g1 y hy), g2⟩
    | nodeConstraint c => exact ⟨hid, by simp⟩
    | external => exact ⟨hid, by simp⟩
    | empty => exact ⟨hid, by simp⟩

/-- The references of a shape include those of its ancestors. -/
theorem references_ancestors {E : Env N P} (hk : (E.schema.shapes.map Prod.fst).Nodup) {i : Nat}
    {s : Shape N P} (hi : E.schema.At i (.shape s)) {d : Nat} (hd : Extends E.schema i d)
    {b : Shape N P} (hb : E.schema.At d (.shape b)) : ∀ y ∈ b.valueRefs, y ∈ E.references (.shape s) := by
  obtain ⟨hbr, hself⟩ := refsVisited_brings E.schema E.defaultPred (E.schema.shapes.length + 1)
    (.shape s) [] (by
      have := List.length_filter_le (fun k => decide (k ∉ ([] : List Nat))) (E.schema.shapes.map Prod.fst)
      simp only [List.length_map] at this
      unfold unseen
      omega)
  have hvis : ∀ d, Extends E.schema i d →
      d ∈ (refsVisited E.schema E.defaultPred (E.schema.shapes.length + 1) (.shape s) []).2 := by
    intro d hd
    unfold Extends at hd
    induction hd with
    | single h =>
      obtain ⟨s', hm, he⟩ := h
      have e := ((at_iff_mem hk _ _).1 hm).symm.trans hi
      simp only [Option.some.injEq, ShapeExpr.shape.injEq] at e
      subst e
      exact (hself _ rfl).2 _ he
    | tail _ h ih =>
      obtain ⟨s', hm, he⟩ := h
      exact (hbr.2 _ ih (by simp) s' ((at_iff_mem hk _ _).1 hm)).2 _ he
  exact (hbr.2 d (hvis d hd) (by simp) b hb).1

/-- Whatever the share of an ancestor may ask of the typing is among the dependencies. -/
theorem lineage_dep {E : Env N P} (hk : (E.schema.shapes.map Prod.fst).Nodup) (hs : E.Shuffles)
    (hp : PlainRefs E.schema) {i : Nat} {s : Shape N P} (hi : E.schema.At i (.shape s)) (node : N)
    (ds : List (N × Nat)) (hds : E.dep (node, i) = some ds) {σ : Alt} (hσ : Lineage E.schema i σ)
    {l : Option Nat} {b : Shape N P} (hb : InSelection E.schema s σ l b) (x : Neigh N P)
    (hx : E.graph.Arc node x.1 x.2.1) (cond : VCond N P) (hc : HasConstraint b.expr x.1 cond) (w : N)
    (r : Nat) (hd : cond.Deps x.2.1 x.2.2 w r) : (w, r) ∈ ds := by
  obtain ⟨j, hj, href⟩ : ∃ j, E.schema.At j (.shape b) ∧
      ∀ y ∈ b.valueRefs, y ∈ E.references (.shape s) := by
    rcases hb with ⟨_, rfl⟩ | ⟨d, hd', _, hb⟩
    · refine ⟨i, hi, fun y hy => ?_⟩
      simp only [Env.references, refsVisited, List.mem_append]
      exact Or.inl hy
    · exact ⟨d, hb, references_ancestors hk hi ((hσ.2.2 d).1 hd') hb⟩
  obtain ⟨rfl, hr⟩ := deps_refIn _ _ w r cond (hp.settled j b hj _ _ hc) hd
  have := hp.plain j b hj _ _ hc r hr
  subst this
  have href := href _ ((valueRefs_mem (hp.made j b hj) _ _).2 hc)
  unfold Env.dep at hds
  have hf : E.schema.find (node, i).2 = some (.shape s) := hi
  rw [hf] at hds
  simp only [Option.some.injEq] at hds
  subst hds
  rw [List.mem_append]
  right
  simp only [List.mem_flatMap, List.mem_map, List.mem_filter]
  refine ⟨(x.1, x.2.1), ?_, (x.1, r), ⟨href, by simp⟩, rfl⟩
  rw [mem_neighs hs]
  exact ⟨hx, List.mem_map.2 ⟨_, href, rfl⟩⟩

/-! ## Monotonicity -/

theorem accepts_mono {t : TExpr N P} {vs : List (Neigh N P)} {T T' : N × Nat → Prop}
    (h : ∀ x ∈ vs, ∀ cond, HasConstraint t x.1 cond → ∀ w r, cond.Deps x.2.1 x.2.2 w r →
      T (w, r) → T' (w, r)) (ha : Accepts t vs T) : Accepts t vs T' := by
  rcases ha with ⟨cs, ha, hT⟩ | h'
  · refine Or.inl ⟨cs, ha, fun w r hr => ?_⟩
    obtain ⟨x, c, hm, cond, hcd, hd⟩ := id hr
    have htk : ∀ (vs : List (Neigh N P)) cs, List.Forall₂ t.Takes vs cs → ∀ x c, (x, c) ∈ vs.zip cs →
        t.Takes x c := by
      intro vs cs hf
      induction hf with
      | nil => simp
      | cons h _ ih =>
        intro x c hxc
        rcases List.mem_cons.1 hxc with hxc | hxc
        · simp only [Prod.mk.injEq] at hxc
          obtain ⟨rfl, rfl⟩ := hxc
          exact h
        · exact ih x c hxc
    exact h x (List.of_mem_zip hm).1 cond ⟨c, (htk _ _ ha.1 x c hm).1, hcd⟩ w r hd (hT w r hr)
  · exact Or.inr h'

theorem selectionSat_mono {E : Env N P} (hk : (E.schema.shapes.map Prod.fst).Nodup) (hs : E.Shuffles)
    (hp : PlainRefs E.schema) {i : Nat} {s : Shape N P} (hi : E.schema.At i (.shape s)) (node : N)
    (ds : List (N × Nat)) (hds : E.dep (node, i) = some ds) {σ : Alt} (hσ : Lineage E.schema i σ)
    {T T' : N × Nat → Prop} (h : ∀ y ∈ ds, T y → T' y) (hsat : SelectionSat E T node s σ) :
    SelectionSat E T' node s σ := by
  obtain ⟨hc, bs, vs, splits, hb1, hb2, hv1, hv2, hf, share, dropped, h1, h2, h3, h4, h5⟩ := hsat
  have hsplits : splits = [] := by
    rw [hσ.1] at hf
    cases hf
    rfl
  subst hsplits
  refine ⟨hc, bs, vs, [], hb1, hb2, hv1, hv2, hf, share, dropped, h1, h2, h3, fun b hb => ⟨(h4 b hb).1, ?_⟩,
    by simp⟩
  intro t ht
  refine accepts_mono ?_ ((h4 b hb).2 t ht)
  intro x hx cond hcd w r hd
  obtain ⟨l, ts⟩ := b
  obtain ⟨b', hin, rfl⟩ := (hb2 l ts).1 hb
  rw [List.mem_singleton] at ht
  subst ht
  have hxv := (share_subperm h1 hb).subset hx
  exact h _ (lineage_dep hk hs hp hi node ds hds hσ hin x ((hv2 x).1 hxv).2.1 cond hcd w r hd)

theorem checkMainShape_indep {E : Env N P} (hx : ShapeParents E.schema) (hp : PlainRefs E.schema)
    (node : N) (T T' : N × Nat → Bool) (n : Nat) (child : Shape N P) (d : Nat) (m : Shape N P)
    (hm : E.schema.At d (.shape m)) (h : E.checkMainShape node T n child d = true) :
    E.checkMainShape node T' n child d = true := by
  induction n generalizing child d m with
  | zero => simp [Env.checkMainShape] at h
  | succ n ih =>
    simp only [Env.checkMainShape, mainShape_shape hm, List.all_nil, Bool.and_true, Bool.and_eq_true]
      at h ⊢
    obtain ⟨h1, h2⟩ := h
    refine ⟨?_, ?_⟩
    · split at h1
      · rename_i hg
        simp only [Bool.and_eq_true, List.all_eq_true, Bool.not_eq_eq_eq_not, Bool.not_true] at hg
        rw [if_pos (by simpa using hg)]
        rw [checkExprNeigh_iff_item (hp.made d m hm)] at h1 ⊢
        obtain ⟨p, hpi, _⟩ := h1
        refine ⟨p, hpi, fun w r hd => ?_⟩
        obtain ⟨x, hx, cond, hcd, hdd⟩ := dep_of_item (hp.made d m hm) _ p hpi w r hd
        obtain ⟨_, hr⟩ := deps_refIn _ _ w r cond (hp.settled d m hm _ _ hcd) hdd
        have := hg.1.2 _ ((mem_components (hp.made d m hm) _ _).2 hcd)
        exact absurd ((condHasRef_iff cond).2 ⟨r, hr⟩) (by simp [this])
      · rename_i hg
        rw [if_neg hg]
    · rw [List.all_eq_true] at h2 ⊢
      intro e he
      obtain ⟨m', hm'⟩ := hx d m hm e he
      exact ih m e m' hm' (h2 e he)

omit [DecidableEq N] [DecidableEq P] in
theorem altsRec_single {sch : Schema N P} (hx : ShapeParents sch) (n : Nat) (path : List Nat) (i : Nat)
    (s : Shape N P) (hs : sch.At i (.shape s)) : (altsRec sch n path i).length = 1 := by
  induction n generalizing path i s with
  | zero => rfl
  | succ n ih =>
    have hf : sch.find i = some (.shape s) := hs
    have hd : sch.deref i = i := by simp [Schema.deref, derefGo, hf]
    simp only [altsRec, hd]
    split
    · rfl
    · simp only [hf]
      have : ∀ (es : List Nat) (acc : List Alt), (∀ e ∈ es, ∃ s', sch.At e (.shape s')) → acc.length = 1 →
          (es.foldl (fun acc p => crossMerge acc (altsRec sch n (i :: path) p)) acc).length = 1 := by
        intro es
        induction es with
        | nil => exact fun _ _ h => h
        | cons e es ihe =>
          intro acc hes hacc
          obtain ⟨s', hs'⟩ := hes e (by simp)
          refine ihe _ (fun x hx => hes x (by simp [hx])) ?_
          have h1 := ih (i :: path) e s' hs'
          obtain ⟨a, rfl⟩ := List.length_eq_one_iff.1 hacc
          obtain ⟨b, hb⟩ := List.length_eq_one_iff.1 h1
          beta_reduce
          rw [hb]
          rfl
      exact this _ _ (hx i s hs) rfl

theorem checkExtends_single {E : Env N P} (S : Search N P) (hx : ShapeParents E.schema) (n : Nat) (node : N)
    {i : Nat} {s : Shape N P} (hs : E.schema.At i (.shape s)) (T : N × Nat → Bool) :
    E.checkExtends S (n + 1) node i s T = E.checkSingle S node i s T := by
  simp only [Env.checkExtends]
  rw [if_neg]
  rw [Bool.not_eq_true, List.any_eq_false]
  intro alts ha
  obtain ⟨e, he, rfl⟩ := List.mem_map.1 ha
  obtain ⟨s', hs'⟩ := hx i s hs e he
  have := altsRec_single hx (E.schema.shapes.length + 1) [] e s' hs'
  simp [Schema.alternatives, this]

theorem extRespects_hierarchy {E : Env N P} (he : Enumerates E.enum) (hsh : E.Shuffles) {S : Search N P}
    (hS : S.Fair) (hk : (E.schema.shapes.map Prod.fst).Nodup) (hp : PlainRefs E.schema)
    (hpl : ∀ i s, E.schema.At i (.shape s) → Plain s.expr) (hx : ShapeParents E.schema) (n : Nat) :
    ExtRespects E (E.checkExtends S (n + 1)) := by
  intro i s hi _ node ds hds T T' hT h
  have hlin := lineage_closure hk hx hi
  rw [checkExtends_single S hx n node hi, checkSingle_eq S hk hx hi (fun _ _ _ _ => false),
    Bool.and_eq_true, checkSelection_iff_nil he hsh hS hpl (hpl i s hi) hlin.2.1 rfl] at h ⊢
  refine ⟨?_, selectionSat_mono hk hsh hp hi node ds hds hlin hT h.2⟩
  rw [List.all_eq_true] at h ⊢
  intro e hee
  obtain ⟨m, hm⟩ := hx i s hi e hee
  exact checkMainShape_indep hx hp node T T' _ s e m hm (h.1 e hee)

/-- The parents of a shape satisfy the condition of C52. -/
theorem checkExpr_inherit {E : Env N P} (he : Enumerates E.enum) (hsh : E.Shuffles) {S : Search N P}
    (hS : S.Fair) (hk : (E.schema.shapes.map Prod.fst).Nodup) (hr : Regular E.schema)
    (hh : Hierarchy E.schema) (n : Nat) (node : N) (i : Nat) (se : ShapeExpr N P) (hi : E.schema.At i se)
    (T : N × Nat → Bool) :
    E.checkExpr (E.checkExtends S (n + 1)) node i se T = true ↔
      InheritSat E (fun x => T x = true) node i se := by
  have hpl : ∀ i s, E.schema.At i (.shape s) → Plain s.expr := fun i s h =>
    ⟨(hr i s h).made, (hr i s h).wf, (hr i s h).flat⟩
  have hother : (∀ s, se ≠ .shape s) → (E.checkExpr (E.checkExtends S (n + 1)) node i se T = true ↔
      ExprSat E (fun x => T x = true) node i se) := by
    intro hns
    cases se with
    | and es => simp [Env.checkExpr, ExprSat]
    | or es => simp [Env.checkExpr, ExprSat]
    | not e => simp [Env.checkExpr, ExprSat]
    | nodeConstraint c => simp only [Env.checkExpr, ExprSat]; exact matches_isSome _ _ _
    | shape s => exact absurd rfl (hns s)
    | external => simp [Env.checkExpr, ExprSat]
    | ref e => simp [Env.checkExpr, ExprSat]
    | empty => simp [Env.checkExpr, ExprSat]
  by_cases hshape : ∃ s, se = .shape s
  · obtain ⟨s, rfl⟩ := hshape
    simp only [Env.checkExpr, InheritSat, ShapeExpr.shape.injEq]
    by_cases hex : s.extends = []
    · rw [if_pos (by simp [hex]), checkShape_iff he hsh (hr i s hi)]
      constructor
      · exact fun h => Or.inr ⟨fun s' e => by rw [← e]; exact hex, h⟩
      · rintro (⟨s', σ, rfl, hne, _⟩ | ⟨_, h⟩)
        · exact absurd hex hne
        · exact h
    · rw [if_neg (by simpa using hex), checkExtends_single S hh.parents n node hi]
      obtain ⟨rank, hrank⟩ := hh.acyclic
      have key := fun σ hσ => checkSingle_iff he hsh hS hrank hk hh.parents hpl hi (σ := σ) hσ node T
      constructor
      · intro h
        have hlin := lineage_closure hk hh.parents hi
        exact Or.inl ⟨s, _, rfl, hex, hlin, (key _ hlin).1 h⟩
      · rintro (⟨s', σ, rfl, _, hσ, h⟩ | ⟨h, _⟩)
        · exact (key σ hσ).2 hh.covers (hh.disjoint i _ σ hi hσ) h
        · exact absurd (h s rfl) hex
  · have hns : ∀ s, se ≠ .shape s := fun s h => hshape ⟨s, h⟩
    rw [hother hns]
    unfold InheritSat
    constructor
    · exact fun h => Or.inr ⟨fun s e => absurd e (hns s), h⟩
    · rintro (⟨s, _, e, _⟩ | ⟨_, h⟩)
      · exact absurd e (hns s)
      · exact h

theorem holds_sys_inherit {E : Env N P} (he : Enumerates E.enum) (hsh : E.Shuffles) {S : Search N P}
    (hS : S.Fair) (hk : (E.schema.shapes.map Prod.fst).Nodup) (hr : Regular E.schema)
    (hh : Hierarchy E.schema) (n : Nat) (order : Nat → List (N × Nat) → List (N × Nat))
    (T : N × Nat → Prop) (x : N × Nat) :
    Holds (E.sys (E.checkExtends S (n + 1)) order) T x ↔ Justified E T x := by
  classical
  unfold Holds Justified
  have hdesc : (∃ d ∈ (E.schema.descendants x.2).map fun d => (x.1, d), T d) ↔
      ∃ d, d ≠ x.2 ∧ Extends E.schema d x.2 ∧ T (x.1, d) := by
    constructor
    · rintro ⟨_, hd, hT⟩
      obtain ⟨d, hd', rfl⟩ := List.mem_map.1 hd
      exact ⟨d, ((descendants_iff _ _ _).1 hd').1, ((descendants_iff _ _ _).1 hd').2, hT⟩
    · rintro ⟨d, h1, h2, hT⟩
      exact ⟨_, List.mem_map.2 ⟨d, (descendants_iff _ _ _).2 ⟨h1, h2⟩, rfl⟩, hT⟩
  simp only [Env.sys, hdesc]
  constructor
  · rintro ⟨hdep, h⟩
    cases hf : E.schema.find x.2 with
    | none => simp [Env.dep, hf] at hdep
    | some se =>
      refine ⟨se, hf, ?_⟩
      rcases h with ⟨ha, h⟩ | h
      · rw [hf] at h
        simp only [Option.map_some, Option.some.injEq] at h
        refine Or.inl ⟨by simpa [Schema.isAbstract] using ha, ?_⟩
        have := (checkExpr_inherit he hsh hS hk hr hh n x.1 x.2 se hf _).1 h
        simpa using this
      · exact Or.inr h
  · rintro ⟨se, hf, h⟩
    have hf' : E.schema.find x.2 = some se := hf
    refine ⟨by simp [Env.dep, hf'], ?_⟩
    rcases h with ⟨ha, h⟩ | h
    · refine Or.inl ⟨by simpa [Schema.isAbstract] using ha, ?_⟩
      rw [hf']
      simp only [Option.map_some, Option.some.injEq]
      refine (checkExpr_inherit he hsh hS hk hr hh n x.1 x.2 se hf _).2 ?_
      simpa using h
    · exact Or.inr h

end Shex

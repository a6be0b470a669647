import Verif.Shex.SpecDeps
import Verif.Shex.LemmasShape

/-!
# Helper lemmas: the dependency graph
-/

namespace Shex
open Rbe Relation

/-- Operands of a shape expression, with the change of polarity. -/
def Skel.ops : Skel → List Nat
  | .or es => es
  | .and es => es
  | .not e => [e]
  | _ => []

/-- Change of polarity at a shape expression. -/
def Skel.flip : Skel → Bool → Bool
  | .not _, q => !q
  | _, q => q

/-- The references of the shape expression itself. -/
def Skel.own : Skel → List Nat
  | .ref i => [i]
  | .shape refs _ _ _ => refs
  | _ => []

theorem refers_own (c : Skel) (r : Nat) : c.Refers r ↔ r ∈ c.own := by
  cases c <;> simp [Skel.Refers, Skel.own]

theorem step_iff (sch : DepSchema) (q q' : Bool) (c c' : Skel) :
    SkelStep sch (q, c) (q', c') ↔ q' = c.flip q ∧ ∃ e ∈ c.ops, alookup e sch = some c' := by
  constructor
  · intro h
    cases h with
    | or he hc => exact ⟨rfl, _, he, hc⟩
    | and he hc => exact ⟨rfl, _, he, hc⟩
    | not hc => exact ⟨rfl, _, by simp [Skel.ops], hc⟩
  · rintro ⟨rfl, e, he, hc⟩
    cases c with
    | or es => exact .or he hc
    | and es => exact .and he hc
    | not e' => simp [Skel.ops] at he; subst he; exact .not hc
    | shape _ _ _ _ => simp [Skel.ops] at he
    | ref _ => simp [Skel.ops] at he
    | other _ => simp [Skel.ops] at he

theorem addEdges_succ (sch : DepSchema) (src n : Nat) (q : Bool) (c : Skel) (vis : List Skel) :
    addEdges sch src (n + 1) q c vis =
      ((c.own.map fun r => (src, r, q)) ++
        (addOver sch (addEdges sch src n (c.flip q)) c.ops vis).1,
       (addOver sch (addEdges sch src n (c.flip q)) c.ops vis).2) := by
  cases c <;> simp [addEdges, Skel.own, Skel.ops, Skel.flip, addOver]

/-- Contents of the schema not visited yet. -/
def fresh (sch : DepSchema) (vis : List Skel) : Nat :=
  (sch.filter fun x => decide (x.2 ∉ vis)).length

theorem fresh_lt {sch : DepSchema} {vis : List Skel} {c : Skel} {e : Nat}
    (he : alookup e sch = some c) (hc : c ∉ vis) : fresh sch (vis ++ [c]) < fresh sch vis := by
  refine length_filter_lt (y := (e, c)) (mem_of_alookup he) ?_ (by simpa using hc) (by simp)
  intro z hz
  simp only [decide_eq_true_eq, List.mem_append, not_or] at hz ⊢
  exact hz.1

theorem fresh_mono {sch : DepSchema} {vis vis' : List Skel} (h : ∀ c ∈ vis, c ∈ vis') :
    fresh sch vis' ≤ fresh sch vis := by
  refine List.Sublist.length_le (List.monotone_filter_right _ ?_)
  intro z hz
  simp only [decide_eq_true_eq] at hz ⊢
  exact fun hm => hz (h _ hm)

/-- What a traversal guarantees: `W` is the relation "the walk from the root reaches". -/
structure Trav (sch : DepSchema) (src : Nat) (W : Bool → Skel → Prop) (vis : List Skel)
    (r : List DepEdge × List Skel) : Prop where
  grow : ∀ c ∈ vis, c ∈ r.2
  closed : ∀ c ∈ r.2, c ∉ vis → (∀ e ∈ c.ops, ∀ c', alookup e sch = some c' → c' ∈ r.2) ∧
    ∃ q, W q c ∧ ∀ x ∈ c.own, (src, x, q) ∈ r.1
  sound : ∀ x ∈ r.1, x.1 = src ∧ ∃ c, W x.2.2 c ∧ x.2.1 ∈ c.own

theorem addOver_trav {sch : DepSchema} {src : Nat} {W : Bool → Skel → Prop} (q : Bool)
    (go : Skel → List Skel → List DepEdge × List Skel) (N : Nat)
    (hgo : ∀ e c vis, alookup e sch = some c → W q c → fresh sch vis < N →
      Trav sch src W vis (go c vis) ∧ (∀ e ∈ c.ops, ∀ c', alookup e sch = some c' → c' ∈ (go c vis).2) ∧
      ∀ x ∈ c.own, (src, x, q) ∈ (go c vis).1)
    (es : List Nat) (hW : ∀ e ∈ es, ∀ c, alookup e sch = some c → W q c)
    (vis : List Skel) (hf : fresh sch vis ≤ N) :
    Trav sch src W vis (addOver sch go es vis) ∧
      ∀ e ∈ es, ∀ c', alookup e sch = some c' → c' ∈ (addOver sch go es vis).2 := by
  induction es generalizing vis with
  | nil =>
    exact ⟨⟨fun c h => h, fun c h h' => (h' h).elim, by simp [addOver]⟩, by simp⟩
  | cons e es ih =>
    simp only [addOver]
    have hW' : ∀ e ∈ es, ∀ c, alookup e sch = some c → W q c := fun e he => hW e (by simp [he])
    cases he : alookup e sch with
    | none =>
      simp only
      obtain ⟨h1, h2⟩ := ih hW' vis hf
      refine ⟨h1, fun e' he' c' hc' => ?_⟩
      rcases List.mem_cons.1 he' with rfl | he'
      · rw [he] at hc'; cases hc'
      · exact h2 e' he' c' hc'
    | some c =>
      simp only
      by_cases hv : c ∈ vis
      · rw [if_pos hv]
        obtain ⟨h1, h2⟩ := ih hW' vis hf
        refine ⟨h1, fun e' he' c' hc' => ?_⟩
        rcases List.mem_cons.1 he' with rfl | he'
        · rw [he] at hc'; cases hc'; exact h1.grow _ hv
        · exact h2 e' he' c' hc'
      · rw [if_neg hv]
        have hWc := hW e (by simp) c he
        obtain ⟨t1, t2, t3⟩ := hgo e c (vis ++ [c]) he hWc (Nat.lt_of_lt_of_le (fresh_lt he hv) hf)
        have hf' : fresh sch (go c (vis ++ [c])).2 ≤ N :=
          Nat.le_trans (fresh_mono fun x hx => t1.grow x (by simp [hx])) hf
        obtain ⟨h1, h2⟩ := ih hW' _ hf'
        refine ⟨⟨?_, ?_, ?_⟩, ?_⟩
        · intro x hx
          exact h1.grow x (t1.grow x (by simp [hx]))
        · intro x hx hnx
          by_cases hx1 : x ∈ (go c (vis ++ [c])).2
          · by_cases hxc : x = c
            · subst hxc
              exact ⟨fun e he c' hc' => h1.grow _ (t2 e he c' hc'), q, hWc, fun y hy => by
                simp [t3 y hy]⟩
            · obtain ⟨a, q', b, d⟩ := t1.closed x hx1 (by simp [hnx, hxc])
              exact ⟨fun e he c' hc' => h1.grow _ (a e he c' hc'), q', b, fun y hy => by
                simp [d y hy]⟩
          · obtain ⟨a, q', b, d⟩ := h1.closed x hx hx1
            exact ⟨a, q', b, fun y hy => by simp [d y hy]⟩
        · intro x hx
          rcases List.mem_append.1 hx with hx | hx
          · exact t1.sound x hx
          · exact h1.sound x hx
        · intro e' he' c' hc'
          rcases List.mem_cons.1 he' with rfl | he'
          · rw [he] at hc'; cases hc'
            exact h1.grow _ (t1.grow _ (by simp))
          · exact h2 e' he' c' hc'

theorem addEdges_trav {sch : DepSchema} {src : Nat} {W : Bool → Skel → Prop}
    (hW : ∀ q c, W q c → ∀ q' c', SkelStep sch (q, c) (q', c') → W q' c')
    (n : Nat) (q : Bool) (c : Skel) (hc : W q c) (vis : List Skel) (hf : fresh sch vis < n) :
    Trav sch src W vis (addEdges sch src n q c vis) ∧
      (∀ e ∈ c.ops, ∀ c', alookup e sch = some c' → c' ∈ (addEdges sch src n q c vis).2) ∧
      ∀ x ∈ c.own, (src, x, q) ∈ (addEdges sch src n q c vis).1 := by
  induction n generalizing q c vis with
  | zero => omega
  | succ n ih =>
    rw [addEdges_succ]
    obtain ⟨h1, h2⟩ := addOver_trav (W := W) (src := src) (c.flip q)
      (addEdges sch src n (c.flip q)) n
      (fun e c' vis _ hWc' hlt => ih (c.flip q) c' hWc' vis hlt) c.ops
      (fun e he c' hc' => hW q c hc _ _ ((step_iff sch _ _ _ _).2 ⟨rfl, e, he, hc'⟩)) vis (by omega)
    refine ⟨⟨h1.grow, ?_, ?_⟩, h2, ?_⟩
    · intro x hx hnx
      obtain ⟨a, q', b, d⟩ := h1.closed x hx hnx
      exact ⟨a, q', b, fun y hy => List.mem_append.2 (Or.inr (d y hy))⟩
    · intro x hx
      rcases List.mem_append.1 hx with hx | hx
      · obtain ⟨r, hr, rfl⟩ := List.mem_map.1 hx
        exact ⟨rfl, c, hc, hr⟩
      · exact h1.sound x hx
    · intro x hx
      exact List.mem_append.2 (Or.inl (List.mem_map.2 ⟨x, hx, rfl⟩))

/-- The edges of one shape: sound, and complete up to polarity. -/
theorem edgesFrom_spec (sch : DepSchema) (i : Nat) (c0 : Skel) (hi : alookup i sch = some c0) :
    (∀ x ∈ edgesFrom sch (i, c0), x.1 = i ∧ Refers sch i x.2.2 x.2.1) ∧
      ∀ neg r, Refers sch i neg r → ∃ q, (i, r, q) ∈ edgesFrom sch (i, c0) := by
  have hf : fresh sch [] < sch.length + 1 :=
    Nat.lt_succ_of_le (List.length_filter_le _ _)
  obtain ⟨h1, h2, h3⟩ := addEdges_trav (sch := sch) (src := i)
    (W := fun q c => ReflTransGen (SkelStep sch) (false, c0) (q, c))
    (fun q c h q' c' hs => h.tail hs) (sch.length + 1) false c0 ReflTransGen.refl [] hf
  constructor
  · intro x hx
    obtain ⟨ha, c, hc, hr⟩ := h1.sound x hx
    exact ⟨ha, c0, c, hi, hc, (refers_own _ _).2 hr⟩
  · rintro neg r ⟨c0', c, hi', hw, hr⟩
    rw [hi] at hi'
    cases hi'
    have key : ∀ x : Bool × Skel, ReflTransGen (SkelStep sch) (false, c0) x →
        x.2 = c0 ∨ x.2 ∈ (addEdges sch i (sch.length + 1) false c0 []).2 := by
      intro x hx
      induction hx with
      | refl => exact Or.inl rfl
      | tail _ hs ih =>
        rename_i y z _
        obtain ⟨q, c⟩ := y
        obtain ⟨q', c'⟩ := z
        obtain ⟨_, e, he, hc'⟩ := (step_iff sch _ _ _ _).1 hs
        right
        rcases ih with h | h
        · simp only at h; subst h; exact h2 e he c' hc'
        · exact (h1.closed c h (by simp)).1 e he c' hc'
    rcases key _ hw with h | h
    · simp only at h; subst h
      exact ⟨false, h3 r ((refers_own _ _).1 hr)⟩
    · obtain ⟨_, q, _, hq⟩ := h1.closed c h (by simp)
      exact ⟨q, hq r ((refers_own _ _).1 hr)⟩

/-! ## The graph -/

theorem upsert_keys {X Y : Type} [DecidableEq X] (x : X) (d : Y) (f : Y → Y) (l : List (X × Y))
    (h : (l.map Prod.fst).Nodup) :
    ((upsert x d f l).map Prod.fst).Nodup ∧ ∀ k, k ∈ (upsert x d f l).map Prod.fst ↔
      k = x ∨ k ∈ l.map Prod.fst := by
  induction l with
  | nil => simp [upsert]
  | cons a l ih =>
    obtain ⟨y, v⟩ := a
    simp only [List.map_cons, List.nodup_cons] at h
    obtain ⟨ih1, ih2⟩ := ih h.2
    simp only [upsert]
    split
    · rename_i hy
      subst hy
      simp only [List.map_cons, List.nodup_cons, List.mem_cons]
      exact ⟨h, fun k => by tauto⟩
    · rename_i hy
      simp only [List.map_cons, List.nodup_cons, List.mem_cons, ih2]
      refine ⟨⟨?_, ih1⟩, fun k => by tauto⟩
      rintro (h' | h')
      · exact hy h'
      · exact h.1 h'

/-- Weight of the last edge added between two nodes. -/
def lastWeight (k : Nat × Nat) : List DepEdge → Option Bool → Option Bool
  | [], w => w
  | e :: es, w => lastWeight k es (if (e.1, e.2.1) = k then some e.2.2 else w)

theorem foldl_addEdge (es : List DepEdge) (g : DepGraph) (hg : (g.map Prod.fst).Nodup) :
    ((es.foldl DepGraph.addEdge g).map Prod.fst).Nodup ∧
      ∀ k, alookup k (es.foldl DepGraph.addEdge g) = lastWeight k es (alookup k g) := by
  induction es generalizing g with
  | nil => exact ⟨hg, fun k => rfl⟩
  | cons e es ih =>
    obtain ⟨h1, h2⟩ := ih (g.addEdge e) (upsert_keys _ _ _ _ hg).1
    refine ⟨h1, fun k => ?_⟩
    rw [List.foldl_cons, h2]
    simp only [lastWeight, DepGraph.addEdge, alookup_upsert]
    congr 1
    by_cases hk : (e.1, e.2.1) = k
    · subst hk; simp
    · have : ¬ k = (e.1, e.2.1) := fun h => hk h.symm
      simp [hk, this]

theorem lastWeight_mem (k : Nat × Nat) (es : List DepEdge) (w0 : Option Bool) (w : Bool)
    (h : lastWeight k es w0 = some w) : w0 = some w ∨ (k.1, k.2, w) ∈ es := by
  induction es generalizing w0 with
  | nil => exact Or.inl h
  | cons e es ih =>
    rcases ih _ h with h1 | h1
    · by_cases hk : (e.1, e.2.1) = k
      · rw [if_pos hk] at h1
        subst hk
        cases h1
        exact Or.inr (by simp)
      · rw [if_neg hk] at h1
        exact Or.inl h1
    · exact Or.inr (by simp [h1])

theorem lastWeight_some (k : Nat × Nat) (es : List DepEdge) (w0 : Option Bool) (w : Bool)
    (h : (k.1, k.2, w) ∈ es) : ∃ w', lastWeight k es w0 = some w' := by
  induction es generalizing w0 with
  | nil => simp at h
  | cons e es ih =>
    rcases List.mem_cons.1 h with h | h
    · subst h
      simp only [lastWeight, if_true]
      have : ∀ (es : List DepEdge) w, ∃ w', lastWeight k es (some w) = some w' := by
        intro es
        induction es with
        | nil => intro w; exact ⟨w, rfl⟩
        | cons e es ih =>
          intro w
          simp only [lastWeight]
          split
          · exact ih _
          · exact ih _
      exact this es w
    · exact ih _ h

theorem buildDeps_nodup (sch : DepSchema) : ((buildDeps sch).map Prod.fst).Nodup :=
  (foldl_addEdge _ [] (by simp)).1

theorem buildDeps_sound (sch : DepSchema) (hk : (sch.map Prod.fst).Nodup) (a b : Nat) (w : Bool)
    (h : ((a, b), w) ∈ buildDeps sch) : Refers sch a w b := by
  have hl := alookup_mem (buildDeps_nodup sch) h
  have := (foldl_addEdge (sch.flatMap (edgesFrom sch)) [] (by simp)).2 (a, b)
  unfold buildDeps at hl
  rw [this] at hl
  rcases lastWeight_mem _ _ _ _ hl with h | h
  · simp [alookup] at h
  · obtain ⟨⟨i, c⟩, hm, he⟩ := List.mem_flatMap.1 h
    obtain ⟨h1, h2⟩ := (edgesFrom_spec sch i c (alookup_mem hk hm)).1 _ he
    simp only at h1 h2
    subst h1
    exact h2

theorem buildDeps_complete (sch : DepSchema) (a b : Nat) (neg : Bool)
    (h : Refers sch a neg b) : ∃ w, ((a, b), w) ∈ buildDeps sch := by
  obtain ⟨c0, _, hi, _⟩ := id h
  obtain ⟨q, hq⟩ := (edgesFrom_spec sch a c0 hi).2 neg b h
  obtain ⟨w, hw⟩ := lastWeight_some (a, b) (sch.flatMap (edgesFrom sch)) (alookup (a, b) []) q
    (List.mem_flatMap.2 ⟨(a, c0), mem_of_alookup hi, hq⟩)
  have := (foldl_addEdge (sch.flatMap (edgesFrom sch)) [] (by simp)).2 (a, b)
  exact ⟨w, mem_of_alookup (by unfold buildDeps; rw [this]; exact hw)⟩

theorem hasNegCycle_iff {g : DepGraph} {scc : List (List Nat)} (h : IsScc g scc) :
    hasNegCycle g scc = true ↔ ∃ a b, ((a, b), true) ∈ g ∧ ReflTransGen g.succ b a := by
  have h0 : hasNegCycle g scc = true ↔
      ∃ comp ∈ scc, ∃ a ∈ comp, ∃ b ∈ comp, ((a, b), true) ∈ g := by
    simp only [hasNegCycle, Bool.not_eq_true', List.isEmpty_eq_false_iff, ne_eq, negCycles]
    rw [← ne_eq, ← List.length_pos_iff_ne_nil, List.length_pos_iff_exists_mem]
    constructor
    · rintro ⟨l, hl⟩
      simp only [List.mem_filter, List.mem_map] at hl
      obtain ⟨⟨comp, hc, rfl⟩, hne⟩ := hl
      simp only [Bool.not_eq_true', List.isEmpty_eq_false_iff] at hne
      obtain ⟨x, hx⟩ := List.exists_mem_of_ne_nil _ hne
      simp only [List.mem_filterMap, Option.map_eq_some_iff] at hx
      obtain ⟨a, ha, ⟨⟨⟨p, b⟩, w⟩, he, rfl⟩⟩ := hx
      have hm := List.mem_of_find?_eq_some he
      have hp := List.find?_some he
      simp only [Bool.and_eq_true, decide_eq_true_eq] at hp
      obtain ⟨⟨rfl, hb⟩, rfl⟩ := hp
      exact ⟨comp, hc, p, ha, b, hb, hm⟩
    · rintro ⟨comp, hc, a, ha, b, hb, he⟩
      refine ⟨_, List.mem_filter.2 ⟨List.mem_map.2 ⟨comp, hc, rfl⟩, ?_⟩⟩
      simp only [Bool.not_eq_true', List.isEmpty_eq_false_iff]
      intro hnil
      rw [List.filterMap_eq_nil_iff] at hnil
      have := hnil a ha
      rw [Option.map_eq_none_iff, List.find?_eq_none] at this
      exact this _ he (by simp [hb])
  rw [h0]
  constructor
  · rintro ⟨comp, hc, a, ha, b, hb, he⟩
    exact ⟨a, b, he, h.linked comp hc b hb a ha⟩
  · rintro ⟨a, b, he, hr⟩
    obtain ⟨comp, hc, ha, hall⟩ := h.whole a b ⟨true, he⟩
    exact ⟨comp, hc, a, ha, b, hall b (ReflTransGen.single ⟨true, he⟩) hr, he⟩

/-! ## Relation to the schema of the engine -/

section Bridge
variable {N P : Type} [DecidableEq N] [DecidableEq P]

/-- The dependency view of a schema. -/
def Schema.skel (sch : Schema N P) (rest : ShapeExpr N P → Nat) (refsOf : Shape N P → List Nat) :
    DepSchema := sch.shapes.map fun x => (x.1, x.2.skel rest refsOf)

theorem alookup_skel (sch : Schema N P) (rest : ShapeExpr N P → Nat) (refsOf : Shape N P → List Nat)
    (i : Nat) : alookup i (sch.skel rest refsOf) = (sch.find i).map (ShapeExpr.skel rest refsOf) := by
  unfold Schema.skel Schema.find
  induction sch.shapes with
  | nil => rfl
  | cons x l ih =>
    simp only [List.map_cons, alookup]
    split
    · rfl
    · exact ih

/-- A walk between contents is a path between indices; it crosses a negation if its flag ends up
set. -/
theorem refers_depends {sch : Schema N P} (hm : ∀ i s, sch.At i (.shape s) → s.expr.Made)
    (rest : ShapeExpr N P → Nat) (refsOf : Shape N P → List Nat) (i : Nat) (neg : Bool) (r : Nat)
    (h : Refers (sch.skel rest refsOf) i neg r) :
    DependsOn sch i r ∧ (neg = true → ∃ a b, DependsOn sch i a ∧ Negates sch a b ∧ DependsOn sch b r) := by
  obtain ⟨c0, c, hi, hw, hr⟩ := h
  have hlast : ∀ k c, alookup k (sch.skel rest refsOf) = some c → c.Refers r →
      ∃ j, Uses sch k j ∧ j = r := by
    intro k c hk hr
    rw [alookup_skel] at hk
    cases hf : sch.find k with
    | none => rw [hf] at hk; simp at hk
    | some se =>
      rw [hf] at hk
      simp only [Option.map_some, Option.some.injEq] at hk
      subst hk
      cases se with
      | shape s =>
        simp only [ShapeExpr.skel, Skel.Refers, List.mem_map] at hr
        obtain ⟨⟨p, r'⟩, hv, rfl⟩ := hr
        exact ⟨r', .value hf ((valueRefs_mem (hm k s hf) p r').1 hv) rfl, rfl⟩
      | ref j => simp only [ShapeExpr.skel, Skel.Refers] at hr; subst hr; exact ⟨_, .ref hf, rfl⟩
      | or _ => simp [ShapeExpr.skel, Skel.Refers] at hr
      | and _ => simp [ShapeExpr.skel, Skel.Refers] at hr
      | not _ => simp [ShapeExpr.skel, Skel.Refers] at hr
      | nodeConstraint _ => simp [ShapeExpr.skel, Skel.Refers] at hr
      | external => simp [ShapeExpr.skel, Skel.Refers] at hr
      | empty => simp [ShapeExpr.skel, Skel.Refers] at hr
  have key : ∀ x : Bool × Skel, ReflTransGen (SkelStep (sch.skel rest refsOf)) (false, c0) x →
      ∃ k, alookup k (sch.skel rest refsOf) = some x.2 ∧ DependsOn sch i k ∧
        (x.1 = true → ∃ a b, DependsOn sch i a ∧ Negates sch a b ∧ DependsOn sch b k) := by
    intro x hx
    induction hx with
    | refl => exact ⟨i, hi, ReflTransGen.refl, by simp⟩
    | tail _ hs ih =>
      rename_i y z _
      obtain ⟨q, c⟩ := y
      obtain ⟨q', c'⟩ := z
      obtain ⟨k, hk, hd, hn⟩ := ih
      obtain ⟨rfl, e, he, hc'⟩ := (step_iff _ _ _ _ _).1 hs
      refine ⟨e, hc', ?_⟩
      simp only at hk
      rw [alookup_skel] at hk
      cases hf : sch.find k with
      | none => rw [hf] at hk; simp at hk
      | some se =>
        rw [hf] at hk
        simp only [Option.map_some, Option.some.injEq] at hk
        subst hk
        cases se with
        | or es =>
          have hu : Uses sch k e := .or hf he
          refine ⟨hd.tail (Or.inl hu), fun hq => ?_⟩
          obtain ⟨a, b, h1, h2, h3⟩ := hn hq
          exact ⟨a, b, h1, h2, h3.tail (Or.inl hu)⟩
        | and es =>
          have hu : Uses sch k e := .and hf he
          refine ⟨hd.tail (Or.inl hu), fun hq => ?_⟩
          obtain ⟨a, b, h1, h2, h3⟩ := hn hq
          exact ⟨a, b, h1, h2, h3.tail (Or.inl hu)⟩
        | not j =>
          simp only [ShapeExpr.skel, Skel.ops, List.mem_singleton] at he
          subst he
          exact ⟨hd.tail (Or.inr hf), fun _ => ⟨k, e, hd, hf, ReflTransGen.refl⟩⟩
        | shape s => simp [ShapeExpr.skel, Skel.ops] at he
        | ref j => simp [ShapeExpr.skel, Skel.ops] at he
        | nodeConstraint _ => simp [ShapeExpr.skel, Skel.ops] at he
        | external => simp [ShapeExpr.skel, Skel.ops] at he
        | empty => simp [ShapeExpr.skel, Skel.ops] at he
  obtain ⟨k, hk, hd, hn⟩ := key _ hw
  obtain ⟨j, hu, rfl⟩ := hlast k c hk hr
  refine ⟨hd.tail (Or.inl hu), fun hq => ?_⟩
  obtain ⟨a, b, h1, h2, h3⟩ := hn hq
  exact ⟨a, b, h1, h2, h3.tail (Or.inl hu)⟩

end Bridge

end Shex

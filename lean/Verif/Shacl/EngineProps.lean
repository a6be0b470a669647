import Verif.Shacl.EngineRun

/-!
# Properties C36, C37, C38, C66 and C67: validation, its cache and its workers
-/

namespace Shacl

variable {T O P Q : Type} [DecidableEq T] [DecidableEq O] [DecidableEq P] [DecidableEq Q]

/-- The cache at the start. -/
def fresh0 : Cache O P Q := fun _ => none

/-- The cache after validating shapes on sets of nodes, one after the other. -/
def history (W : World T O P Q) (d : Nat) : List (Nat × List T) → Cache O P Q → Cache O P Q
  | [], c => c
  | (i, l) :: hs, c => history W d hs (run (W.validate d i l) c).2

/-- A call of `validate`: an existing shape, a set of nodes, depth enough for its references. -/
def Call (W : World T O P Q) (rank : Nat → Nat) (d : Nat) (e : Nat × List T) : Prop :=
  (W.shape e.1).isSome ∧ rank e.1 < d ∧ e.2.Nodup

section
variable {W : World T O P Q} {rank : Nat → Nat}

theorem good_fresh0 (E : Key O → List (Res O P Q) → Prop) : Good E fresh0 := by
  intro k v h; cases h

theorem run_call (hR : Ranked W rank) (hc : Cacheable W) {V : Verdict T O P Q} (hV : Meaning W V) {d : Nat}
    {e : Nat × List T} (he : Call W rank d e) {c : Cache O P Q} (hg : Good (Entry W V) c) :
    ∃ r c', run (W.validate d e.1 e.2) c = (.ret r, c') ∧
      (r : Multiset (Res O P Q)) = (e.2.map (V e.1)).sum ∧ Good (Entry W V) c' :=
  run_sound hg ((validate_sound hR hc hV d e.1 he.2.1 he.1).2 e.2 _ he.2.2)

theorem good_history (hR : Ranked W rank) (hc : Cacheable W) {V : Verdict T O P Q} (hV : Meaning W V) {d : Nat} :
    ∀ (hs : List (Nat × List T)) (c : Cache O P Q), (∀ e ∈ hs, Call W rank d e) → Good (Entry W V) c →
      Good (Entry W V) (history W d hs c) := by
  intro hs
  induction hs with
  | nil => intro c _ hg; exact hg
  | cons e hs ih =>
    intro c h hg
    obtain ⟨r, c', h1, _, h3⟩ := run_call hR hc hV (h e List.mem_cons_self) hg
    refine ih _ (fun e he => h e (List.mem_cons_of_mem _ he)) ?_
    rw [h1]; exact h3

/-- **C66** (partial). The results that validation reports for a shape on a set of nodes, after any history of
validations, are those defined by the shapes: the sum over the nodes of the results of the components and of
the nested property shapes, where references mean the results of the shapes referred to.

Missing: property shapes with property shapes of their own, and terms with equal objects (`C36_refuted`). -/
theorem C66_meaning_partial (hR : Ranked W rank) (hc : Cacheable W) (d : Nat) :
    ∃ V, Meaning W V ∧ ∀ hs, (∀ e ∈ hs, Call W rank d e) → ∀ i l, Call W rank d (i, l) →
      ∃ r, (run (W.validate d i l) (history W d hs fresh0)).1 = .ret r ∧
        (r : Multiset (Res O P Q)) = (l.map (V i)).sum := by
  obtain ⟨V, hV⟩ := meaning_exists hR
  refine ⟨V, hV, fun hs h i l he => ?_⟩
  obtain ⟨r, c', h1, h2, _⟩ := run_call hR hc hV he (good_history hR hc hV hs fresh0 h (good_fresh0 _))
  exact ⟨r, by rw [h1], h2⟩

/-- **C36** (partial). After any history of validations, a shape reports on a set of nodes what it reports when
validated first, up to order.

Missing: property shapes with property shapes of their own, and terms with equal objects (`C36_refuted`,
`C36_refuted_objects`). -/
theorem C36_cached_results_partial (hR : Ranked W rank) (hc : Cacheable W) (d : Nat) (hs : List (Nat × List T))
    (h : ∀ e ∈ hs, Call W rank d e) (i : Nat) (l : List T) (he : Call W rank d (i, l)) :
    ∃ r r0, (run (W.validate d i l) (history W d hs fresh0)).1 = .ret r ∧
      (run (W.validate d i l) fresh0).1 = .ret r0 ∧ r.Perm r0 := by
  obtain ⟨V, hV⟩ := meaning_exists hR
  obtain ⟨r, c', h1, h2, _⟩ := run_call hR hc hV he (good_history hR hc hV hs fresh0 h (good_fresh0 _))
  obtain ⟨r0, c0, h3, h4, _⟩ := run_call hR hc hV he (good_fresh0 (Entry W V))
  exact ⟨r, r0, by rw [h1], by rw [h3], Multiset.coe_eq_coe.1 (h2.trans h4.symm)⟩

end

/-- A world for examples: arcs `0 -7-> 5`, `1 -7-> 5`, one constraint, violated by every focus node but `9`. -/
def sample (shape : Nat → Option (Shape Nat Unit)) (obj : Nat → Nat) : World Nat Nat Nat Unit where
  shape := shape
  graph := ⟨[(0, 7, 5), (1, 7, 5)], fun _ => true⟩
  obj := obj
  prim := fun q i x _ => some (if x = 9 then [] else [⟨obj x, .prim q, none, none, i⟩])
  ord := id

/-- Shape 0 is a node shape, shape 1 a property shape, shape 2 refers to both. -/
def flatShapes : Nat → Option (Shape Nat Unit)
  | 0 => some ⟨none, [.prim ()], [], false⟩
  | 1 => some ⟨some (.pred 7), [.node 0], [], false⟩
  | 2 => some ⟨none, [.xone [0, 1], .not 0], [1], false⟩
  | _ => none

/-- The assumptions hold of a schema with a node shape, a property shape and one that refers to both. -/
theorem flat_ranked : Ranked (sample flatShapes id) id := by
  refine ⟨fun l => List.Perm.refl l, ?_, ?_⟩
  · intro i sh h j hj
    match i, h with
    | 0, h => cases h; simp [Shape.refs, Comp.refs] at hj
    | 1, h => cases h; simp [Shape.refs, Comp.refs] at hj; subst hj; exact ⟨rfl, by decide⟩
    | 2, h =>
      cases h; simp [Shape.refs, Comp.refs] at hj
      have : j = 0 ∨ j = 1 := by tauto
      rcases this with rfl | rfl <;> exact ⟨rfl, by decide⟩
    | n + 3, h => cases h
  · intro i sh _ q _ x vs
    refine ⟨_, rfl, ?_⟩
    intro a ha
    split at ha
    · cases ha
    · rw [List.mem_singleton] at ha; rw [ha]; rfl

theorem flat_cacheable : Cacheable (sample flatShapes id) := by
  refine ⟨fun _ _ h => h, fun i sh h hp => ?_⟩
  match i, h with
  | 0, h => cases h; exact absurd rfl hp
  | 1, h => cases h; rfl
  | 2, h => cases h; exact absurd rfl hp
  | n + 3, h => cases h

/-- C36 and C66 apply, with results to report: the second validation of shape 2 is answered from the cache. -/
example : (run ((sample flatShapes id).validate 3 2 [0, 9]) (history (sample flatShapes id) 3 [(2, [0]), (0, [9])] fresh0)).1 =
    .ret [⟨0, .xone, some 0, none, 2⟩, ⟨0, .node, some 5, none, 1⟩, ⟨9, .xone, some 9, none, 2⟩,
      ⟨9, .not, some 9, none, 2⟩] := by
  decide

/-- Property shape 1 with path 7 has property shape 2; node shapes 3 and 4 refer to it by `sh:node`. -/
def nestedShapes : Nat → Option (Shape Nat Unit)
  | 1 => some ⟨some (.pred 7), [], [2], false⟩
  | 2 => some ⟨some (.pred 7), [.prim ()], [], false⟩
  | 3 => some ⟨none, [.node 1], [], false⟩
  | 4 => some ⟨none, [.node 1], [], false⟩
  | _ => none

/-- **C36** is false of the code: the results of a nested property shape have another focus node, so they are
not recorded under the focus node of the outer property shape; the second validation reports nothing. -/
theorem C36_refuted : ∃ W : World Nat Nat Nat Unit, ∃ rank, Ranked W rank ∧ Function.Injective W.obj ∧
    (run (W.validate 2 1 [0]) fresh0).1 = .ret [⟨5, .prim (), none, none, 2⟩] ∧
    (run (W.validate 2 1 [0]) (history W 2 [(1, [0])] fresh0)).1 = .ret [] := by
  refine ⟨sample nestedShapes id, fun i => if i = 2 then 0 else if i = 1 then 1 else 2, ?_, fun _ _ h => h, by decide, by decide⟩
  refine ⟨fun l => List.Perm.refl l, ?_, ?_⟩
  · intro i sh h j hj
    match i, h with
    | 1, h => cases h; simp [Shape.refs] at hj; subst hj; exact ⟨rfl, by decide⟩
    | 2, h => cases h; simp [Shape.refs, Comp.refs] at hj
    | 3, h => cases h; simp [Shape.refs, Comp.refs] at hj; subst hj; exact ⟨rfl, by decide⟩
    | 4, h => cases h; simp [Shape.refs, Comp.refs] at hj; subst hj; exact ⟨rfl, by decide⟩
    | n + 5, h => cases h
  · intro i sh _ q _ x vs
    refine ⟨_, rfl, ?_⟩
    intro a ha
    split at ha
    · cases ha
    · rw [List.mem_singleton] at ha; rw [ha]; rfl

/-- **C36** is false of the code also for terms with equal objects, such as the integers `1` and `01`: here the
terms `8` and `9` have the same object, the constraint of shape 0 tells them apart (as `sh:pattern` does), and
the verdict for one is reported for the other. -/
theorem C36_refuted_objects : ∃ W : World Nat Nat Nat Unit, ∃ rank, Ranked W rank ∧
    (∀ i sh, W.shape i = some sh → sh.path ≠ none → sh.props = []) ∧
    (run (W.validate 1 0 [8]) fresh0).1 = .ret [⟨8, .prim (), none, none, 0⟩] ∧
    (run (W.validate 1 0 [8]) (history W 1 [(0, [9])] fresh0)).1 = .ret [] := by
  refine ⟨sample flatShapes fun x => if x = 9 then 8 else x, id, ?_, ?_, by decide, by decide⟩
  · refine ⟨fun l => List.Perm.refl l, flat_ranked.refs, ?_⟩
    intro i sh _ q _ x vs
    refine ⟨_, rfl, ?_⟩
    intro a ha
    split at ha
    · cases ha
    · rw [List.mem_singleton] at ha; rw [ha]; rfl
  · exact flat_cacheable.flat

/-! ## Workers -/

section
variable {W : World T O P Q} {rank : Nat → Nat}

/-- The shapes of a level can be validated on their targets. -/
def LevelOk (W : World T O P Q) (rank : Nat → Nat) (d : Nat) (targets : Nat → List T) (level : List Nat) : Prop :=
  ∀ i ∈ level, Call W rank d (i, targets i)

theorem workers_sound (hR : Ranked W rank) (hc : Cacheable W) {V : Verdict T O P Q} (hV : Meaning W V) {d : Nat}
    {targets : Nat → List T} {level : List Nat} (hl : LevelOk W rank d targets level) (H : Key O → Prop) (t : Nat)
    (p : VProg O P Q (List (Res O P Q))) (hp : (W.workers d targets level)[t]? = some p) :
    Sound (Entry W V) p H fun r => ∃ i, level[t]? = some i ∧
      (r : Multiset (Res O P Q)) = ((targets i).map (V i)).sum := by
  unfold World.workers at hp
  rw [List.getElem?_map, Option.map_eq_some_iff] at hp
  obtain ⟨i, hi, hp⟩ := hp
  obtain ⟨h1, h2, h3⟩ := hl i (List.mem_of_getElem? hi)
  obtain ⟨sh, hs⟩ := Option.isSome_iff_exists.1 h1
  simp only [hs] at hp
  subst hp
  exact ((validate_sound hR hc hV d i h2 h1).2 _ H h3).mono (fun _ => id) fun r hr => ⟨i, hi, hr⟩

theorem flatten_sum {V : Verdict T O P Q} {targets : Nat → List T} : ∀ (rs : List (List (Res O P Q))) (level : List Nat),
    rs.length = level.length → (∀ (t : Nat) (r : List (Res O P Q)), rs[t]? = some r → ∃ i, level[t]? = some i ∧
      (r : Multiset (Res O P Q)) = ((targets i).map (V i)).sum) →
    (rs.flatten : Multiset (Res O P Q)) = (level.map fun i => ((targets i).map (V i)).sum).sum := by
  intro rs
  induction rs with
  | nil => intro level h _; cases level <;> simp_all
  | cons r rs ih =>
    intro level h hr
    cases level with
    | nil => simp at h
    | cons i level =>
      obtain ⟨i', h1, h2⟩ := hr 0 r rfl
      simp only [List.getElem?_cons_zero, Option.some.injEq] at h1
      subst h1
      rw [List.flatten_cons, ← Multiset.coe_add, h2, List.map_cons, List.sum_cons,
        ih level (by simpa using h) fun t r ht => by simpa using hr (t + 1) r (by simpa using ht)]

theorem levels_sound (hR : Ranked W rank) (hc : Cacheable W) {V : Verdict T O P Q} (hV : Meaning W V) {d : Nat}
    {targets : Nat → List T} : ∀ (ls : List (List Nat × List Nat)) (c : Cache O P Q),
    (∀ e ∈ ls, LevelOk W rank d targets e.1) → Good (Entry W V) c → ∀ r c', W.levels d targets ls c = some (r, c') →
      (r : Multiset (Res O P Q)) =
        (((ls.map Prod.fst).flatten).map fun i => ((targets i).map (V i)).sum).sum ∧ Good (Entry W V) c' := by
  intro ls
  induction ls with
  | nil => intro c _ hg r c' h; simp only [World.levels, Option.some.injEq, Prod.mk.injEq] at h; rw [← h.1, ← h.2]; exact ⟨by simp, hg⟩
  | cons e ls ih =>
    obtain ⟨level, sched⟩ := e
    intro c hl hg r c' h
    simp only [World.levels] at h
    obtain ⟨h1, h2, h3⟩ := exec_sound (E := Entry W V) (fun (t : Nat) (r : List (Res O P Q)) => ∃ i, level[t]? = some i ∧
      (r : Multiset (Res O P Q)) = ((targets i).map (V i)).sum) sched (W.workers d targets level) c hg
      (fun t p hp => workers_sound hR hc hV (hl _ List.mem_cons_self) _ t p hp)
    generalize exec sched (W.workers d targets level) c = ex at h h1 h2 h3
    cases hrs : returns ex.1 with
    | none => rw [hrs] at h; cases h
    | some rs =>
      rw [hrs] at h
      simp only [Option.map_eq_some_iff] at h
      obtain ⟨⟨r', c''⟩, hrec, he⟩ := h
      simp only [Prod.mk.injEq] at he
      have hps := returns_some ex.1 rs hrs
      obtain ⟨g1, g2⟩ := ih ex.2 (fun e he => hl e (List.mem_cons_of_mem _ he)) h1 r' c'' hrec
      rw [← he.1, ← he.2]
      refine ⟨?_, g2⟩
      rw [← Multiset.coe_add, g1, List.map_cons, List.flatten_cons, List.map_append, List.sum_append]
      congr 1
      refine flatten_sum rs level ?_ ?_
      · have : ex.1.length = rs.length := by rw [hps, List.length_map]
        rw [← this, h2]; simp [World.workers]
      · intro t r ht
        have : ex.1[t]? = some (.ret r) := by rw [hps, List.getElem?_map, ht]; rfl
        exact h3 t _ this

/-- **C37** (partial). Whatever the schedules of the workers in every level, the report has the same results.

Missing: property shapes with property shapes of their own, and terms with equal objects (`C37_refuted`). -/
theorem C37_schedules_partial (hR : Ranked W rank) (hc : Cacheable W) (d : Nat) (targets : Nat → List T)
    (ls ls' : List (List Nat × List Nat)) (hl : ∀ e ∈ ls, LevelOk W rank d targets e.1)
    (hsame : ls.map Prod.fst = ls'.map Prod.fst) (r r' : List (Res O P Q)) (c c' : Cache O P Q)
    (h : W.levels d targets ls fresh0 = some (r, c)) (h' : W.levels d targets ls' fresh0 = some (r', c')) :
    r.Perm r' := by
  obtain ⟨V, hV⟩ := meaning_exists hR
  have hl' : ∀ e ∈ ls', LevelOk W rank d targets e.1 := by
    intro e he
    have : e.1 ∈ ls.map Prod.fst := by rw [hsame]; exact List.mem_map_of_mem he
    obtain ⟨e', h1, h2⟩ := List.mem_map.1 this
    rw [← h2]; exact hl e' h1
  have g1 := (levels_sound hR hc hV ls fresh0 hl (good_fresh0 _) r c h).1
  have g2 := (levels_sound hR hc hV ls' fresh0 hl' (good_fresh0 _) r' c' h').1
  rw [hsame] at g1
  exact Multiset.coe_eq_coe.1 (g1.trans g2.symm)

/-- **C37** (partial, the grouping in levels does not matter either). Two runs over different groupings of the same
shapes report the same results. -/
theorem C37_groupings_partial (hR : Ranked W rank) (hc : Cacheable W) (d : Nat) (targets : Nat → List T)
    (ls ls' : List (List Nat × List Nat)) (hl : ∀ e ∈ ls, LevelOk W rank d targets e.1)
    (hsame : (ls.map Prod.fst).flatten.Perm (ls'.map Prod.fst).flatten) (r r' : List (Res O P Q)) (c c' : Cache O P Q)
    (h : W.levels d targets ls fresh0 = some (r, c)) (h' : W.levels d targets ls' fresh0 = some (r', c')) :
    r.Perm r' := by
  obtain ⟨V, hV⟩ := meaning_exists hR
  have hl' : ∀ e ∈ ls', LevelOk W rank d targets e.1 := by
    intro e he i hi
    have h1 : i ∈ (ls'.map Prod.fst).flatten := List.mem_flatten.2 ⟨e.1, List.mem_map_of_mem he, hi⟩
    obtain ⟨l, h2, h3⟩ := List.mem_flatten.1 (hsame.mem_iff.2 h1)
    obtain ⟨e', h4, rfl⟩ := List.mem_map.1 h2
    exact hl e' h4 i h3
  have g1 := (levels_sound hR hc hV ls fresh0 hl (good_fresh0 _) r c h).1
  have g2 := (levels_sound hR hc hV ls' fresh0 hl' (good_fresh0 _) r' c' h').1
  rw [(hsame.map _).sum_eq] at g1
  exact Multiset.coe_eq_coe.1 (g1.trans g2.symm)

/-- **C37** (partial, progress). After any completed levels, every schedule that gives each worker of the next level
its turn again and again brings all of them to return. -/
theorem C37_progress_partial (hR : Ranked W rank) (hc : Cacheable W) (d : Nat) (targets : Nat → List T)
    (ls : List (List Nat × List Nat)) (hl : ∀ e ∈ ls, LevelOk W rank d targets e.1) (r : List (Res O P Q))
    (c : Cache O P Q) (h : W.levels d targets ls fresh0 = some (r, c)) (level : List Nat)
    (hlev : LevelOk W rank d targets level) (σ : Nat → Nat)
    (hσ : ∀ t < level.length, ∀ n, ∃ m, n ≤ m ∧ σ m = t) :
    ∃ N, ∀ n, N ≤ n → (returns (exec (upto σ n) (W.workers d targets level) c).1).isSome := by
  obtain ⟨V, hV⟩ := meaning_exists hR
  have hg := (levels_sound hR hc hV ls fresh0 hl (good_fresh0 _) r c h).2
  obtain ⟨N, hN⟩ := fair_ends (W.workers d targets level) σ c (by simpa [World.workers] using hσ)
  refine ⟨N, fun n hn => ?_⟩
  obtain ⟨_, _, h3⟩ := exec_sound (E := Entry W V) (fun _ _ => True) (upto σ n) (W.workers d targets level) c hg
    (fun t p hp => (workers_sound hR hc hV hlev _ t p hp).mono (fun _ => id) fun _ _ => trivial)
  have hend := hN n hn
  generalize (exec (upto σ n) (W.workers d targets level) c) = ex at h3 hend
  obtain ⟨ps, c'⟩ := ex
  simp only at h3 hend ⊢
  have : ∀ p ∈ ps, ∃ a, p = .ret a := by
    intro p hp
    obtain ⟨t, ht⟩ := List.mem_iff_getElem?.1 hp
    have hs := h3 t p ht
    have he := hend p hp
    cases p with
    | ret a => exact ⟨a, rfl⟩
    | fail => exact absurd hs id
    | loop => exact absurd hs id
    | _ => cases he
  clear h3 hend
  induction ps with
  | nil => rfl
  | cons p ps ih =>
    obtain ⟨a, rfl⟩ := this p List.mem_cons_self
    have := ih fun p hp => this p (List.mem_cons_of_mem _ hp)
    simpa [returns] using this

end

/-- C37 applies: two schedules of two workers and then one. -/
example : ((sample flatShapes id).levels 3 (fun i => if i = 2 then [0] else [0, 5])
      [([0, 1], [0, 1, 0, 1, 0, 1, 0, 1, 0, 1, 0, 1, 0, 1]), ([2], List.replicate 20 0)] fresh0).map Prod.fst =
    some [⟨0, .prim (), none, none, 0⟩, ⟨5, .prim (), none, none, 0⟩, ⟨0, .node, some 5, none, 1⟩,
      ⟨0, .xone, some 0, none, 2⟩, ⟨0, .node, some 5, none, 1⟩] ∧
    ((sample flatShapes id).levels 3 (fun i => if i = 2 then [0] else [0, 5])
      [([0, 1], List.replicate 10 1 ++ List.replicate 10 0), ([2], List.replicate 20 0)] fresh0).map Prod.fst =
    some [⟨5, .prim (), none, none, 0⟩, ⟨0, .prim (), none, none, 0⟩, ⟨0, .node, some 5, none, 1⟩,
      ⟨0, .xone, some 0, none, 2⟩, ⟨0, .node, some 5, none, 1⟩] := by
  decide

/-- **C37** is false of the code: shapes 3 and 4 of one level refer to a property shape with a nested property
shape. If one worker is done before the other starts, the node is reported once; if both look at the cache
first, it is reported twice. -/
theorem C37_refuted : ∃ W : World Nat Nat Nat Unit, ∃ s s' : List Nat,
    (W.levels 3 (fun _ => [0]) [([3, 4], s)] fresh0).map Prod.fst = some [⟨0, .node, some 0, none, 3⟩] ∧
    (W.levels 3 (fun _ => [0]) [([3, 4], s')] fresh0).map Prod.fst =
      some [⟨0, .node, some 0, none, 3⟩, ⟨0, .node, some 0, none, 4⟩] := by
  refine ⟨sample nestedShapes id, List.replicate 10 0 ++ List.replicate 10 1,
    [0, 1, 0, 1, 0, 1, 0, 1, 0, 1, 0, 1, 0, 1, 0, 1], by decide, by decide⟩

end Shacl

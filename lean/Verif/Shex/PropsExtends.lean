import Verif.Shex.PropsShape
import Verif.Shex.LemmasInherit
import Verif.Shex.LemmasAltsSpec
import Verif.Part.PropsClass

/-!
# Properties: shapes that extend others (C26, C52, C53, C54)
-/

namespace Shex
open Rbe

/-! ## C26 -/

/-- **C26**. When every parent has an alternative, the loop over the selections ends. It only tries
combinations of one alternative per parent; it succeeds exactly when some combination passes; and it
fails only after every combination was tried, in as many turns as there are combinations. -/
theorem C26_every_combination (check : Alt → Bool) (parents : List (List Alt))
    (hne : ∀ alts ∈ parents, alts ≠ []) :
    ∃ v tried, checkSelections check parents = some (v, tried) ∧
      (∀ choice ∈ tried, Choice parents choice) ∧
      (v = true ↔ ∃ choice, Choice parents choice ∧ check (mergeAll choice) = true) ∧
      (v = false → (∀ choice, Choice parents choice → choice ∈ tried) ∧
        tried.length = (parents.map List.length).prod) := by
  have hstart : (parents.map fun alts => (alts.length, 0)).map Prod.snd =
      List.replicate parents.length 0 := by
    rw [List.map_map]
    exact List.map_const' ..
  obtain ⟨v, tried, h1, h2, h3, h4⟩ := trySelections_spec check parents (orbit_positions parents hne)
    (positions_spec parents) ((parents.map List.length).prod + 1) (by
      rw [length_positions]; omega)
  rw [hstart] at h1
  have hch : ∀ choice ∈ tried, Choice parents choice := by
    intro c hc
    obtain ⟨st, hst, hsel⟩ := List.mem_filterMap.1 (h2.subset hc)
    obtain ⟨hlen, _⟩ := positions_spec parents st hst
    refine selected_mem parents _ c ?_ hsel
    have := congrArg List.length hlen
    simpa using this
  have hall : v = false → ∀ choice, Choice parents choice → choice ∈ tried := by
    intro hv c hc
    obtain ⟨st, hst, hsel⟩ := positions_complete parents c hc
    rw [(h4 hv).1]
    exact List.mem_filterMap.2 ⟨st, hst, hsel⟩
  refine ⟨v, tried, h1, hch, ⟨fun hv => ?_, fun ⟨c, hc, hck⟩ => ?_⟩, fun hv => ⟨hall hv, ?_⟩⟩
  · obtain ⟨c, hc, hck⟩ := h3 hv
    exact ⟨c, hch c hc, hck⟩
  · cases hv : v with
    | true => rfl
    | false =>
      have := (h4 hv).2 c (hall hv c hc)
      rw [this] at hck
      cases hck
  · rw [(h4 hv).1, ← length_positions]
    generalize hL : positions parents = L
    have hs : ∀ st ∈ L, ∃ as, selected parents (st.map Prod.snd) = some as := fun st h =>
      (positions_spec parents st (hL ▸ h)).2
    clear hL
    induction L with
    | nil => rfl
    | cons st L ih =>
      obtain ⟨as, has⟩ := hs st (by simp)
      simp only [List.filterMap_cons, has, List.length_cons]
      rw [ih fun x hx => hs x (by simp [hx])]

/-- **C26** (what is checked). The merged selection has exactly the buckets of the chosen
alternatives, each once, and exactly their constraints, each once and with the union of the
scopes. -/
theorem C26_merge (choice : List Alt) :
    (mergeAll choice).buckets.Nodup ∧
      (∀ b, b ∈ (mergeAll choice).buckets ↔ ∃ a ∈ choice, b ∈ a.buckets) ∧
      ((mergeAll choice).constraints.map Prod.fst).Nodup ∧
      (∀ c, c ∈ (mergeAll choice).constraints.map Prod.fst ↔
        ∃ a ∈ choice, c ∈ a.constraints.map Prod.fst) ∧
      ∀ c s, (∃ scope, (c, scope) ∈ (mergeAll choice).constraints ∧ s ∈ scope) ↔
        ∃ a ∈ choice, ∃ scope, (c, scope) ∈ a.constraints ∧ s ∈ scope := by
  obtain ⟨h1, h2, h3, h4, h5⟩ := mergeAll_spec choice Alt.dflt
  refine ⟨h2 (by simp [Alt.dflt]), fun b => ?_, h4 (by simp [Alt.dflt]), fun c => ?_, fun c s => ?_⟩
  · simpa [Alt.dflt, mergeAll] using h1 b
  · simpa [Alt.dflt, mergeAll] using h3 c
  · simpa [Alt.dflt, mergeAll, ScopeIn] using h5 c s

section
variable {N P : Type}

/-- **C26** (hypothesis). In a schema without empty disjunctions every parent has an alternative. -/
theorem C26_alternatives_nonempty (sch : Schema N P) (h : NoEmptyOr sch) (i : Nat) :
    sch.alternatives i ≠ [] :=
  altsRec_ne h _ _ _

/-! ## C53 -/

/-- **C53**. In a schema whose references, operands and parents are not cyclic, the alternatives of a
parent are the choices of one branch for every disjunction met on the way: each alternative carries
the buckets of one choice, and the buckets of each choice are carried by an alternative. -/
theorem C53_alternatives (sch : Schema N P) (rank : Nat → Nat) (hg : Grounded sch rank)
    (hne : NoEmptyOr sch) (i : Nat) :
    (∀ a ∈ sch.alternatives i, ∃ B, Buckets sch i B ∧ ∀ b, b ∈ a.buckets ↔ B b) ∧
      ∀ B, Buckets sch i B → ∃ a ∈ sch.alternatives i, ∀ b, b ∈ a.buckets ↔ B b :=
  altsRec_spec hg hne _ [] i List.nodup_nil (by simp) (by simp)

end

/-! ## C52 -/

section
variable {N P : Type} [DecidableEq N] [DecidableEq P]

/-- **C52** (search). The search over the partitions succeeds exactly when the triples can be shared
out among the buckets. -/
theorem C52_partition_search (S : Search N P) (hS : S.Fair) (enum : List Nat → List (Nat × Nat))
    (he : Enumerates enum) (buckets : List (Option Nat × List (TExpr N P)))
    (hlab : (buckets.map Prod.fst).Nodup) (hb : ∀ b ∈ buckets, ∀ t ∈ b.2, Plain t)
    (splits : List (List Nat × List (TExpr N P))) (hc : ∀ c ∈ splits, ∀ t ∈ c.2, Plain t)
    (values : List (Neigh N P)) (T : N × Nat → Bool) :
    searchPartitions S enum buckets splits values T = true ↔
      Shared buckets splits values (fun x => T x = true) :=
  search_iff hS he hlab hb hc values T

/-- **C52** (several alternatives). When some parent has several alternatives, a shape holds exactly
when for one alternative of each parent the neighbourhood can be shared out. -/
theorem C52_several_alternatives (E : Env N P) (he : Enumerates E.enum) (hsh : E.Shuffles)
    (S : Search N P) (hS : S.Fair) (rank : Nat → Nat) (hg : Grounded E.schema rank)
    (hne : NoEmptyOr E.schema) (hp : ∀ i s, E.schema.At i (.shape s) → Plain s.expr)
    (i : Nat) (s : Shape N P) (hi : E.schema.At i (.shape s))
    (hseveral : ∃ e ∈ s.extends, (E.schema.alternatives e).length > 1)
    (hc : ∀ e ∈ s.extends, ∀ a ∈ E.schema.alternatives e, ∀ c ∈ a.constraints, FlatExpr E.schema c.1)
    (n : Nat) (node : N) (T : N × Nat → Bool) :
    E.checkExtends S (n + 1) node i s T = true ↔
      ∃ choice, Choice (s.extends.map E.schema.alternatives) choice ∧
        SelectionSat E (fun x => T x = true) node s (mergeAll choice) := by
  simp only [Env.checkExtends]
  rw [if_pos (by simpa using hseveral)]
  obtain ⟨v, tried, h1, _, h3, _⟩ := C26_every_combination
    (E.checkSelection S (E.checkExtends S n) node s T) (s.extends.map E.schema.alternatives) (by
      intro alts ha
      obtain ⟨e, _, rfl⟩ := List.mem_map.1 ha
      exact C26_alternatives_nonempty _ hne e)
  rw [h1]
  simp only [Option.map_some, Option.getD_some]
  rw [h3]
  refine exists_congr fun choice => and_congr_right fun hch => ?_
  obtain ⟨m1, _, _, m4, _⟩ := C26_merge choice
  refine checkSelection_iff he hsh hS hg hp (hp i s hi) m1 (fun c hcm => ?_) _ node T
  obtain ⟨a, ha, hca⟩ := (m4 c.1).1 (List.mem_map.2 ⟨c, hcm, rfl⟩)
  obtain ⟨c', hc', he'⟩ := List.mem_map.1 hca
  have hex : ∀ (es : List Nat) (choice : List Alt), Choice (es.map E.schema.alternatives) choice →
      ∀ a ∈ choice, ∃ e ∈ es, a ∈ E.schema.alternatives e := by
    intro es
    induction es with
    | nil => intro choice h; cases h; simp
    | cons e es ih =>
      intro choice h
      cases h with
      | cons h hs =>
        intro a ha
        rcases List.mem_cons.1 ha with rfl | ha
        · exact ⟨e, by simp, h⟩
        · obtain ⟨e', he', h'⟩ := ih _ hs a ha
          exact ⟨e', by simp [he'], h'⟩
  obtain ⟨e, hee, hae⟩ := hex _ _ hch a ha
  rw [← he']
  exact hc e hee a hae c' hc'

/-- **C52** (one alternative per parent), the part that holds. When all parents are shapes, a shape
that passes lets the neighbourhood be shared out among it and its ancestors; the converse holds when
no two of them have constraints for the same predicate. Missing: the converse for overlapping
predicates and conjunctions as parents, which is false of the code (`C52_refuted_overlap`,
`C52_refuted_conjunction`). -/
theorem C52_single_alternative_partial (E : Env N P) (he : Enumerates E.enum) (hsh : E.Shuffles)
    (S : Search N P) (hS : S.Fair) (rank : Nat → Nat)
    (hg : ∀ i s, E.schema.At i (.shape s) → ∀ e ∈ s.extends, rank e < rank i)
    (hk : (E.schema.shapes.map Prod.fst).Nodup) (hx : ShapeParents E.schema)
    (hp : ∀ i s, E.schema.At i (.shape s) → Plain s.expr)
    (i : Nat) (s : Shape N P) (hi : E.schema.At i (.shape s)) (σ : Alt) (hσ : Lineage E.schema i σ)
    (n : Nat) (node : N) (T : N × Nat → Bool) :
    (E.checkExtends S (n + 1) node i s T = true → SelectionSat E (fun x => T x = true) node s σ) ∧
      ((∀ i s, E.schema.At i (.shape s) → CoversKeys s) → DisjointPreds E.schema s σ →
        SelectionSat E (fun x => T x = true) node s σ →
          E.checkExtends S (n + 1) node i s T = true) := by
  rw [checkExtends_single S hx n node hi]
  exact checkSingle_iff he hsh hS hg hk hx hp hi hσ node T

/-! ## C54 -/

/-- **C54**. In a hierarchy of shapes without negation, validation succeeds exactly on the pairs of
the greatest typing. -/
theorem C54_hierarchy_greatest (E : Env N P) (hk : (E.schema.shapes.map Prod.fst).Nodup)
    (hsh : E.Shuffles) (he : Enumerates E.enum) (hp : PlainRefs E.schema) (hr : Regular E.schema)
    (hh : Hierarchy E.schema) (hpos : Positive E.schema) (S : Search N P) (hS : S.Fair) (d : Nat)
    (order : Nat → List (N × Nat) → List (N × Nat))
    (ho : SameElements (E.sys (E.checkExtends S (d + 1)) order))
    (n : Nat) (x : N × Nat) (b : Bool) (s' : St (N × Nat))
    (h : prove (E.sys (E.checkExtends S (d + 1)) order) n x [] St.init = .ok (b, s')) :
    b = true ↔ GreatestInheritTyping E x := by
  have hpl : ∀ i s, E.schema.At i (.shape s) → Plain s.expr := fun i s h =>
    ⟨(hr i s h).made, (hr i s h).wf, (hr i s h).flat⟩
  have hres : Respects E.schema (fun _ => 0) := ⟨fun _ _ _ => Nat.le_refl _, fun i j hn => (hpos i j hn).elim⟩
  have R := sys_ranked hk hsh hp (extRespects_hierarchy he hsh hS hk hp hpl hh.parents d) hres order
  have hm : Monotone (E.sys (E.checkExtends S (d + 1)) order) := fun x ds hd T T' hT =>
    R.mono x ds hd T T' (fun y _ hlt => (Nat.lt_irrefl _ hlt).elim) (fun y hy _ => hT y hy)
  rw [C20_prove_iff_greatest _ hm ho n x b s' h]
  unfold Greatest GreatestInheritTyping
  simp only [holds_sys_inherit he hsh hS hk hr hh]

/-- **C54** (stratified negation). When no shape depends on itself through a negation, a ranking
exists; for every ranking there is exactly one stratified typing, and validation succeeds exactly on
its pairs. -/
theorem C54_hierarchy_stratified (E : Env N P) (hk : (E.schema.shapes.map Prod.fst).Nodup)
    (hsh : E.Shuffles) (he : Enumerates E.enum) (hp : PlainRefs E.schema) (hr : Regular E.schema)
    (hh : Hierarchy E.schema) (hneg : NoNegCycle E.schema) (S : Search N P) (hS : S.Fair) (d : Nat)
    (order : Nat → List (N × Nat) → List (N × Nat))
    (ho : SameElements (E.sys (E.checkExtends S (d + 1)) order)) :
    (∃ rank, Respects E.schema rank) ∧ ∀ rank, Respects E.schema rank →
      ∃ W, StratifiedInheritTyping E rank W ∧
        (∀ W', StratifiedInheritTyping E rank W' → ∀ x, W' x ↔ W x) ∧
        ∀ n x b s', prove (E.sys (E.checkExtends S (d + 1)) order) n x [] St.init = .ok (b, s') →
          (b = true ↔ W x) := by
  have hpl : ∀ i s, E.schema.At i (.shape s) → Plain s.expr := fun i s h =>
    ⟨(hr i s h).made, (hr i s h).wf, (hr i s h).flat⟩
  refine ⟨respects_exists hneg, fun rank hres => ?_⟩
  have R := sys_ranked hk hsh hp (extRespects_hierarchy he hsh hS hk hp hpl hh.parents d) hres order
  obtain ⟨W, h1, h2, h3⟩ := C20_prove_iff_stratified _ _ R ho
  have key : ∀ V, Stratified (E.sys (E.checkExtends S (d + 1)) order) (fun x => rank x.2) V ↔
      StratifiedInheritTyping E rank V := by
    intro V
    unfold Stratified StratifiedInheritTyping
    simp only [holds_sys_inherit he hsh hS hk hr hh]
  exact ⟨W, (key W).1 h1, fun W' h' => h2 W' ((key W').2 h'), h3⟩

end

/-! ## Cases -/

/-- A search with the orders left as they are and a constant bound. -/
def exSearch (n : Nat) : Search Nat Nat := ⟨fun l => l, fun l => l, fun _ _ => n⟩

/-- A fair search exists: C18 bounds the turns. -/
theorem exFair_exists : ∃ S : Search Nat Nat, S.Fair ∧ S.bucketOrder = (fun l => l) ∧
    S.classOrder = (fun l => l) := by
  have hex : ∀ (tables : List (List (TExpr Nat Nat))) (values : List (Neigh Nat Nat)), ∃ n,
      Part.drain Part.CIter.step n (Part.classPartitions (fun l => l) tables values) ≠ none := by
    intro tables values
    obtain ⟨_, outs, h, _⟩ := Part.class_partitions (fun l => l) (fun l => List.Perm.refl l)
      (Part.eligible tables) (fun x => List.nodup_range.filter _) (tables.map Part.bucketFeasible)
      values _ rfl
    obtain ⟨n, hn⟩ := Part.drain_of_drains h
    exact ⟨n, by simp [Part.classPartitions, hn]⟩
  classical
  exact ⟨⟨fun l => l, fun l => l, fun t v => (hex t v).choose⟩,
    ⟨fun l => List.Perm.refl l, fun l => List.Perm.refl l, fun t v => (hex t v).choose_spec⟩, rfl, rfl⟩

/-- What a bounded search accepts, a fair one accepts. -/
theorem exSearch_fair {S : Search Nat Nat} (hS : S.Fair) (hb : S.bucketOrder = fun l => l)
    (hc : S.classOrder = fun l => l) (n : Nat) (E : Env Nat Nat) (ext : Ext Nat Nat) (node : Nat)
    (s : Shape Nat Nat) (T : Nat × Nat → Bool) (σ : Alt)
    (h : E.checkSelection (exSearch n) ext node s T σ = true) :
    E.checkSelection S ext node s T σ = true := by
  have key : ∀ bs sp vs, searchPartitions (exSearch n) E.enum bs sp vs T = true →
      searchPartitions S E.enum bs sp vs T = true := by
    intro bs sp vs h
    have hf := hS.turns (bs.map Prod.snd) vs
    simp only [searchPartitions, exSearch, hb, hc] at h hf ⊢
    cases h1 : Part.drain Part.CIter.step n (Part.classPartitions (fun l => l) (bs.map Prod.snd) vs) with
    | none => rw [h1] at h; cases h
    | some o =>
      cases h2 : Part.drain Part.CIter.step (S.turns (bs.map Prod.snd) vs)
          (Part.classPartitions (fun l => l) (bs.map Prod.snd) vs) with
      | none => exact absurd h2 hf
      | some o' =>
        rw [h1] at h
        rw [(Part.drains_of_drain h2).unique (Part.drains_of_drain h1)]
        exact h
  unfold Env.checkSelection at h ⊢
  simp only at h ⊢
  split at h
  · cases h
  · rename_i h1
    rw [if_neg h1]
    split at h
    · cases h
    · rename_i h2
      rw [if_neg h2]
      cases h3 : E.splitConstraints ext node T σ.constraints with
      | none => rw [h3] at h; cases h
      | some sp => rw [h3] at h; exact key _ _ _ h

theorem exOne_plain (p : Nat) (cond : VCond Nat Nat) (min : Nat) (max : Mx) :
    Plain (exOne p cond min max) :=
  ⟨(exShape_exact p cond min max []).made, (exShape_exact p cond min max []).wf,
    (exShape_exact p cond min max []).flat⟩

/-- A shape with one constraint and parents. -/
def exKid (p : Nat) (cond : VCond Nat Nat) (min : Nat) (max : Mx) (parents : List Nat) :
    Shape Nat Nat :=
  { exShape p cond min max [] with «extends» := parents }

/-- The value set `[1 2]`. -/
def exTwo : VCond Nat Nat :=
  .single (some fun v _ => if v = 1 ∨ v = 2 then some Pending.empty else none)

/-! ### Several combinations -/

/-- C26: two parents with two and three alternatives; the last combination is found, and six are tried
when none passes. -/
example : (∀ alts ∈ [[Alt.withBucket 0, Alt.withBucket 1], [Alt.withBucket 2, Alt.withBucket 3,
    Alt.withBucket 4]], alts ≠ []) ∧
    ((checkSelections (fun a => a.buckets == [1, 4]) [[Alt.withBucket 0, Alt.withBucket 1],
      [Alt.withBucket 2, Alt.withBucket 3, Alt.withBucket 4]]).map fun r => (r.1, r.2.length)) =
      some (true, 6) ∧
    ((checkSelections (fun _ => false) [[Alt.withBucket 0, Alt.withBucket 1],
      [Alt.withBucket 2, Alt.withBucket 3, Alt.withBucket 4]]).map fun r => (r.1, r.2.length)) =
      some (false, 6) := by
  decide

/-- The hypothesis of C26 is needed: an empty disjunction has no alternatives, and beside a parent
with two the index is out of bounds, so validation panics. -/
theorem C26_empty_disjunction_panics :
    let sch : Schema Nat Nat := ⟨[(0, .or []), (1, .or [2, 3]), (2, .empty), (3, .empty)], []⟩
    sch.alternatives 0 = [] ∧ (sch.alternatives 1).length = 2 ∧
      ∀ check, checkSelections check [sch.alternatives 0, sch.alternatives 1] = none := by
  refine ⟨by decide, by decide, fun check => ?_⟩
  rfl

/-- `<0> { :1 [1] }`, `<1> { :2 [2] }`, `<2> @<0> OR @<1>`, `<3> EXTENDS @<2> { :3 . * }`. -/
def exAlts : Env Nat Nat :=
  exEnv [(0, .shape (exShape 1 (exVal 1) 1 (.intMax 1) [])),
    (1, .shape (exShape 2 (exVal 2) 1 (.intMax 1) [])), (2, .or [0, 1]),
    (3, .shape (exKid 3 exAny 0 .unbounded [2]))]
    [(10, 2, 2), (10, 3, 7), (11, 3, 7)]

theorem exAlts_cases (i : Nat) (se : ShapeExpr Nat Nat) (h : exAlts.schema.At i se) :
    (i = 0 ∧ se = .shape (exShape 1 (exVal 1) 1 (.intMax 1) [])) ∨
      (i = 1 ∧ se = .shape (exShape 2 (exVal 2) 1 (.intMax 1) [])) ∨ (i = 2 ∧ se = .or [0, 1]) ∨
      (i = 3 ∧ se = .shape (exKid 3 exAny 0 .unbounded [2])) := by
  have := mem_of_alookup h
  simpa [exAlts, exEnv] using this

/-- C52 (several alternatives) and C53 apply: the second branch lets node 10 pass, node 11 fails. -/
example : Grounded exAlts.schema (fun i => i) ∧ NoEmptyOr exAlts.schema ∧
    (∀ i s, exAlts.schema.At i (.shape s) → Plain s.expr) ∧
    (exAlts.schema.alternatives 2).map Alt.buckets = [[0], [1]] ∧
    (∀ a ∈ exAlts.schema.alternatives 2, a.constraints = []) ∧
    exAlts.checkExtends (exSearch 50) 3 10 3 (exKid 3 exAny 0 .unbounded [2]) (fun _ => false) = true ∧
    exAlts.checkExtends (exSearch 50) 3 11 3 (exKid 3 exAny 0 .unbounded [2]) (fun _ => false) =
      false := by
  refine ⟨⟨?_, ?_, ?_, ?_⟩, ?_, ?_, by decide, by decide, by decide, by decide⟩
  · intro i j h
    rcases exAlts_cases i _ h with ⟨_, h⟩ | ⟨_, h⟩ | ⟨_, h⟩ | ⟨_, h⟩ <;> cases h
  · intro i es h e he
    rcases exAlts_cases i _ h with ⟨_, h⟩ | ⟨_, h⟩ | ⟨hi, h⟩ | ⟨_, h⟩ <;> cases h
    simp only [List.mem_cons, List.not_mem_nil, or_false] at he
    omega
  · intro i es h
    rcases exAlts_cases i _ h with ⟨_, h⟩ | ⟨_, h⟩ | ⟨_, h⟩ | ⟨_, h⟩ <;> cases h
  · intro i s h e he
    rcases exAlts_cases i _ h with ⟨_, h⟩ | ⟨_, h⟩ | ⟨_, h⟩ | ⟨hi, h⟩ <;> cases h
    · simp [exShape] at he
    · simp [exShape] at he
    · simp only [exKid, List.mem_singleton] at he
      omega
  · intro i es h
    rcases exAlts_cases i _ h with ⟨_, h⟩ | ⟨_, h⟩ | ⟨_, h⟩ | ⟨_, h⟩ <;> cases h
    simp
  · intro i s h
    rcases exAlts_cases i _ h with ⟨_, h⟩ | ⟨_, h⟩ | ⟨_, h⟩ | ⟨_, h⟩ <;> cases h <;>
      exact exOne_plain _ _ _ _

/-! ### Siblings with overlapping predicates -/

/-- `<0> { :1 [1] }`, `<1> { :1 [1 2] }`, `<2> EXTENDS @<0> @<1> { :3 . * }`, and a node with the
values 1 and 2 for `:1`. -/
def exOverlap : Env Nat Nat :=
  exEnv [(0, .shape (exShape 1 (exVal 1) 1 (.intMax 1) [])),
    (1, .shape (exShape 1 exTwo 1 (.intMax 1) [])), (2, .shape (exKid 3 exAny 0 .unbounded [0, 1]))]
    [(10, 1, 1), (10, 1, 2)]

theorem exOverlap_cases (i : Nat) (se : ShapeExpr Nat Nat) (h : exOverlap.schema.At i se) :
    (i = 0 ∧ se = .shape (exShape 1 (exVal 1) 1 (.intMax 1) [])) ∨
      (i = 1 ∧ se = .shape (exShape 1 exTwo 1 (.intMax 1) [])) ∨
      (i = 2 ∧ se = .shape (exKid 3 exAny 0 .unbounded [0, 1])) := by
  have := mem_of_alookup h
  simpa [exOverlap, exEnv] using this

theorem exOverlap_parents : ShapeParents exOverlap.schema := by
  intro i s h e he
  rcases exOverlap_cases i _ h with ⟨_, h⟩ | ⟨_, h⟩ | ⟨_, h⟩ <;> cases h
  · simp [exShape] at he
  · simp [exShape] at he
  · simp only [exKid, List.mem_cons, List.not_mem_nil, or_false] at he
    rcases he with rfl | rfl <;> exact ⟨_, rfl⟩

theorem exOverlap_plain (i : Nat) (s : Shape Nat Nat) (h : exOverlap.schema.At i (.shape s)) :
    Plain s.expr := by
  rcases exOverlap_cases i _ h with ⟨_, h⟩ | ⟨_, h⟩ | ⟨_, h⟩ <;> cases h <;> exact exOne_plain _ _ _ _

/-- **C52** is false of the code for parents with overlapping predicates: the value 1 can go to the
first parent and 2 to the second, but the second parent is first checked alone against all the values
it matches, and rejects two. -/
theorem C52_refuted_overlap :
    ShapeParents exOverlap.schema ∧ (∀ i s, exOverlap.schema.At i (.shape s) → Plain s.expr) ∧
      (∃ σ, Lineage exOverlap.schema 2 σ ∧
        SelectionSat exOverlap (fun _ => False) 10 (exKid 3 exAny 0 .unbounded [0, 1]) σ) ∧
      ∀ S n, exOverlap.checkExtends S (n + 1) 10 2 (exKid 3 exAny 0 .unbounded [0, 1])
        (fun _ => false) = false := by
  have hat : exOverlap.schema.At 2 (.shape (exKid 3 exAny 0 .unbounded [0, 1])) := rfl
  have hk : (exOverlap.schema.shapes.map Prod.fst).Nodup := by decide
  have hlin := lineage_closure hk exOverlap_parents hat
  refine ⟨exOverlap_parents, exOverlap_plain, ⟨_, hlin, ?_⟩, fun S n => ?_⟩
  · obtain ⟨S, hS, hb, hc⟩ := exFair_exists
    have h := exSearch_fair hS hb hc 50 exOverlap (fun _ _ _ _ => false) 10
      (exKid 3 exAny 0 .unbounded [0, 1]) (fun _ => false) _
      (by decide : exOverlap.checkSelection (exSearch 50) (fun _ _ _ _ => false) 10
        (exKid 3 exAny 0 .unbounded [0, 1]) (fun _ => false)
        ⟨exOverlap.schema.extendsClosure (exKid 3 exAny 0 .unbounded [0, 1]).extends, []⟩ = true)
    simpa using (checkSelection_iff_nil enumDedup_enumerates (fun _ => List.Perm.refl _) hS
      exOverlap_plain (exOne_plain _ _ _ _) hlin.2.1 rfl _ _ _).1 h
  · rw [checkExtends_single S exOverlap_parents n 10 hat,
      checkSingle_eq S hk exOverlap_parents hat (fun _ _ _ _ => false)]
    have : ((exKid 3 exAny 0 .unbounded [0, 1]).extends.all fun e => exOverlap.checkMainShape 10
        (fun _ => false) (exOverlap.schema.shapes.length + 1) (exKid 3 exAny 0 .unbounded [0, 1]) e) =
        false := by decide
    rw [this]
    rfl

/-! ### Ancestors behind a conjunction -/

/-- `<0> { :1 [1] }`, `<1> EXTENDS @<0> { :2 . }`, `<3> @<1> AND <2>` where `<2>` accepts every node,
`<4> EXTENDS @<3> { :3 . * }`. -/
def exBehind : Env Nat Nat :=
  exEnv [(0, .shape (exShape 1 (exVal 1) 1 (.intMax 1) [])),
    (1, .shape (exKid 2 exAny 1 (.intMax 1) [0])), (2, .nodeConstraint exAny), (3, .and [1, 2]),
    (4, .shape (exKid 3 exAny 0 .unbounded [3]))]
    [(10, 1, 1), (10, 2, 7)]

theorem exBehind_cases (i : Nat) (se : ShapeExpr Nat Nat) (h : exBehind.schema.At i se) :
    (i = 0 ∧ se = .shape (exShape 1 (exVal 1) 1 (.intMax 1) [])) ∨
      (i = 1 ∧ se = .shape (exKid 2 exAny 1 (.intMax 1) [0])) ∨ (i = 2 ∧ se = .nodeConstraint exAny) ∨
      (i = 3 ∧ se = .and [1, 2]) ∨ (i = 4 ∧ se = .shape (exKid 3 exAny 0 .unbounded [3])) := by
  have := mem_of_alookup h
  simpa [exBehind, exEnv] using this

theorem exBehind_grounded : Grounded exBehind.schema (fun i => i) where
  ref := by
    intro i j h
    rcases exBehind_cases i _ h with ⟨_, h⟩ | ⟨_, h⟩ | ⟨_, h⟩ | ⟨_, h⟩ | ⟨_, h⟩ <;> cases h
  or := by
    intro i j h
    rcases exBehind_cases i _ h with ⟨_, h⟩ | ⟨_, h⟩ | ⟨_, h⟩ | ⟨_, h⟩ | ⟨_, h⟩ <;> cases h
  and := by
    intro i es h e he
    rcases exBehind_cases i _ h with ⟨_, h⟩ | ⟨_, h⟩ | ⟨_, h⟩ | ⟨hi, h⟩ | ⟨_, h⟩ <;> cases h
    simp only [List.mem_cons, List.not_mem_nil, or_false] at he
    omega
  shape := by
    intro i s h e he
    rcases exBehind_cases i _ h with ⟨_, h⟩ | ⟨hi, h⟩ | ⟨_, h⟩ | ⟨_, h⟩ | ⟨hi, h⟩ <;> cases h
    · simp [exShape] at he
    · simp only [exKid, List.mem_singleton] at he
      omega
    · simp only [exKid, List.mem_singleton] at he
      omega

theorem exBehind_plain (i : Nat) (s : Shape Nat Nat) (h : exBehind.schema.At i (.shape s)) :
    Plain s.expr := by
  rcases exBehind_cases i _ h with ⟨_, h⟩ | ⟨_, h⟩ | ⟨_, h⟩ | ⟨_, h⟩ | ⟨_, h⟩ <;> cases h <;>
    exact exOne_plain _ _ _ _

/-- **C52** is false of the code for a parent that is a conjunction: the predicates of what its shape
extends are not read from the graph, so a node with all the triples asked for is rejected. -/
theorem C52_refuted_conjunction :
    Grounded exBehind.schema (fun i => i) ∧
      (∀ i s, exBehind.schema.At i (.shape s) → Plain s.expr) ∧
      (∃ choice, Choice ((exKid 3 exAny 0 .unbounded [3]).extends.map exBehind.schema.alternatives)
          choice ∧
        SelectionSat exBehind (fun _ => False) 10 (exKid 3 exAny 0 .unbounded [3])
          (mergeAll choice)) ∧
      ∀ S n, exBehind.checkExtends S (n + 1) 10 4 (exKid 3 exAny 0 .unbounded [3])
        (fun _ => false) = false := by
  refine ⟨exBehind_grounded, exBehind_plain, ⟨[⟨[1, 0], [(2, [1, 0])]⟩], ?_, ?_⟩, fun S n => rfl⟩
  · exact .cons (by decide) .nil
  · obtain ⟨S, hS, hb, hc⟩ := exFair_exists
    have h := exSearch_fair hS hb hc 50 exBehind (fun _ _ _ _ => false) 10
      (exKid 3 exAny 0 .unbounded [3]) (fun _ => false) (mergeAll [⟨[1, 0], [(2, [1, 0])]⟩]) (by decide)
    have hfl : ∀ c ∈ (mergeAll [⟨[1, 0], [(2, [1, 0])]⟩]).constraints, FlatExpr exBehind.schema c.1 := by
      intro c hcm
      have : c = (2, [1, 0]) := by simpa [mergeAll, Alt.merge, Alt.dflt, pushConstraint] using hcm
      subst this
      exact .nodeConstraint rfl
    simpa using (checkSelection_iff enumDedup_enumerates (fun _ => List.Perm.refl _) hS
      exBehind_grounded exBehind_plain (exOne_plain _ _ _ _) (C26_merge _).1 hfl _ _ _).1 h

/-! ### A hierarchy -/

/-- `<0> { :1 [1] }`, `<1> EXTENDS @<0> { :2 @<1> * }`, `<2> { :4 @<0> }`, on a graph with a cycle. -/
def exFamily : Env Nat Nat :=
  exEnv [(0, .shape (exShape 1 (exVal 1) 1 (.intMax 1) [])),
    (1, .shape (exKid 2 (.ref 1) 0 .unbounded [0])), (2, .shape (exShape 4 (.ref 0) 1 (.intMax 1) []))]
    [(10, 1, 1), (10, 2, 11), (11, 1, 1), (11, 2, 10), (12, 1, 1), (12, 2, 13), (14, 4, 10)]

theorem exFamily_cases (i : Nat) (se : ShapeExpr Nat Nat) (h : exFamily.schema.At i se) :
    (i = 0 ∧ se = .shape (exShape 1 (exVal 1) 1 (.intMax 1) [])) ∨
      (i = 1 ∧ se = .shape (exKid 2 (.ref 1) 0 .unbounded [0])) ∨
      (i = 2 ∧ se = .shape (exShape 4 (.ref 0) 1 (.intMax 1) [])) := by
  have := mem_of_alookup h
  simpa [exFamily, exEnv] using this

/-- The one key of `exOne`. -/
theorem exOne_key {p : Nat} {cond : VCond Nat Nat} {min : Nat} {max : Mx} {c : Nat} {q : Pred Nat}
    (h : (exOne p cond min max).getKey c = some q) : q = ⟨p, true⟩ := by
  simp only [exOne, Table.withRbe, Table.addComponent, Table.new, Table.getKey, upsert, alookup] at h
  split at h
  · exact (Option.some.inj h).symm
  · cases h

theorem exFamily_extends {i d : Nat} (h : Extends exFamily.schema i d) : i = 1 ∧ d = 0 := by
  have hk : (exFamily.schema.shapes.map Prod.fst).Nodup := by decide
  have step : ∀ a b, (∃ s, (a, ShapeExpr.shape s) ∈ exFamily.schema.shapes ∧ b ∈ s.extends) →
      a = 1 ∧ b = 0 := by
    rintro a b ⟨s, hm, hb⟩
    rcases exFamily_cases a _ ((at_iff_mem hk _ _).1 hm) with ⟨_, h⟩ | ⟨ha, h⟩ | ⟨_, h⟩ <;> cases h
    · simp [exShape] at hb
    · simp only [exKid, List.mem_singleton] at hb
      exact ⟨ha, hb⟩
    · simp [exShape] at hb
  unfold Extends at h
  induction h with
  | single h => exact step _ _ h
  | tail _ h ih =>
    obtain ⟨h1, h2⟩ := step _ _ h
    omega

theorem exFamily_hierarchy : Hierarchy exFamily.schema where
  parents := by
    intro i s h e he
    rcases exFamily_cases i _ h with ⟨_, h⟩ | ⟨_, h⟩ | ⟨_, h⟩ <;> cases h
    · simp [exShape] at he
    · simp only [exKid, List.mem_singleton] at he
      subst he
      exact ⟨_, rfl⟩
    · simp [exShape] at he
  acyclic := by
    refine ⟨fun i => i, fun i s h e he => ?_⟩
    rcases exFamily_cases i _ h with ⟨_, h⟩ | ⟨hi, h⟩ | ⟨_, h⟩ <;> cases h
    · simp [exShape] at he
    · simp only [exKid, List.mem_singleton] at he
      subst he hi
      decide
    · simp [exShape] at he
  covers := by
    intro i s h c p hp
    rcases exFamily_cases i _ h with ⟨_, h⟩ | ⟨_, h⟩ | ⟨_, h⟩ <;> cases h <;>
      simp [exOne_key hp, exShape, exKid]
  disjoint := by
    intro i s σ h hσ l l' b b' hb hb' hne c c' p hp hp'
    have hanc : ∀ j ∈ σ.buckets, i = 1 ∧ j = 0 := fun j hj => exFamily_extends ((hσ.2.2 j).1 hj)
    have hself : ∀ t, exFamily.schema.At 0 (.shape t) → t = exShape 1 (exVal 1) 1 (.intMax 1) [] := by
      intro t ht
      rcases exFamily_cases 0 _ ht with ⟨_, h⟩ | ⟨h, _⟩ | ⟨h, _⟩
      · cases h; rfl
      · cases h
      · cases h
    have hone : ∀ t, exFamily.schema.At 1 (.shape t) → t = exKid 2 (.ref 1) 0 .unbounded [0] := by
      intro t ht
      rcases exFamily_cases 1 _ ht with ⟨h, _⟩ | ⟨_, h⟩ | ⟨h, _⟩
      · cases h
      · cases h; rfl
      · cases h
    rcases hb with ⟨rfl, rfl⟩ | ⟨j, hj, rfl, hbj⟩ <;> rcases hb' with ⟨rfl, rfl⟩ | ⟨j', hj', rfl, hbj'⟩
    · exact hne rfl
    · obtain ⟨rfl, rfl⟩ := hanc j' hj'
      rw [hself _ hbj'] at hp'
      rw [hone _ h] at hp
      cases (exOne_key hp).symm.trans (exOne_key hp')
    · obtain ⟨rfl, rfl⟩ := hanc j hj
      rw [hself _ hbj] at hp
      rw [hone _ h] at hp'
      cases (exOne_key hp).symm.trans (exOne_key hp')
    · exact hne (by rw [(hanc j hj).2, (hanc j' hj').2])

theorem exFamily_plain : PlainRefs exFamily.schema where
  made := by
    intro i s h
    rcases exFamily_cases i _ h with ⟨_, h⟩ | ⟨_, h⟩ | ⟨_, h⟩ <;> cases h <;> exact exOne_made _ _ _ _
  settled := by
    intro i s h p cond hc
    rcases exFamily_cases i _ h with ⟨_, h⟩ | ⟨_, h⟩ | ⟨_, h⟩ <;> cases h
    · rw [((exOne_constraint _ _ _ _ _ _).1 hc).2]
      intro v c p hp
      simp only at hp
      split at hp <;> cases hp
      rfl
    · rw [((exOne_constraint _ _ _ _ _ _).1 hc).2]; trivial
    · rw [((exOne_constraint _ _ _ _ _ _).1 hc).2]; trivial
  plain := by
    intro i s h p cond hc r hr
    rcases exFamily_cases i _ h with ⟨_, h⟩ | ⟨_, h⟩ | ⟨_, h⟩ <;> cases h
    all_goals
      obtain ⟨_, rfl⟩ := (exOne_constraint _ _ _ _ _ _).1 hc
      cases hr
    all_goals rfl

theorem exFamily_regular : Regular exFamily.schema := by
  intro i s h
  rcases exFamily_cases i _ h with ⟨_, h⟩ | ⟨_, h⟩ | ⟨_, h⟩ <;> cases h
  · exact exShape_exact _ _ _ _ _
  · have := exShape_exact 2 (.ref 1) 0 .unbounded []
    exact ⟨this.made, this.wf, this.flat, this.one, this.some⟩
  · exact exShape_exact _ _ _ _ _

/-- C54 applies to a hierarchy with recursion, and C52 to its shape with a parent. -/
example : (exFamily.schema.shapes.map Prod.fst).Nodup ∧ exFamily.Shuffles ∧ Enumerates exFamily.enum ∧
    PlainRefs exFamily.schema ∧ Regular exFamily.schema ∧ Hierarchy exFamily.schema ∧
    Positive exFamily.schema ∧ ∃ S : Search Nat Nat, S.Fair := by
  refine ⟨by decide, fun _ => List.Perm.refl _, enumDedup_enumerates, exFamily_plain, exFamily_regular,
    exFamily_hierarchy, ?_, ?_⟩
  · intro i j h
    rcases exFamily_cases i _ h with ⟨_, h⟩ | ⟨_, h⟩ | ⟨_, h⟩ <;> cases h
  · obtain ⟨S, hS, _⟩ := exFair_exists
    exact ⟨S, hS⟩

/-- Nodes 10 and 11 of the cycle conform to the extended shape, 12 does not (13 lacks `:1`), and 14
refers to a node that conforms to `<0>` only through `<1>`. -/
example : verdicts (queries (exFamily.sys (exFamily.checkExtends (exSearch 50) 3) fun _ l => l) 20
    [(10, 1), (12, 1), (14, 2)] St.init) = some [true, false, true] := by decide

#print axioms C26_every_combination
#print axioms C26_merge
#print axioms C26_alternatives_nonempty
#print axioms C26_empty_disjunction_panics
#print axioms C52_partition_search
#print axioms C52_several_alternatives
#print axioms C52_single_alternative_partial
#print axioms C52_refuted_overlap
#print axioms C52_refuted_conjunction
#print axioms C53_alternatives
#print axioms C54_hierarchy_greatest
#print axioms C54_hierarchy_stratified

end Shex

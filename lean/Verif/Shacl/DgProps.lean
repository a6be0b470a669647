import Verif.Shacl.DgBuild
import Verif.Shacl.EngineProps2

/-!
# Properties C35, C67, C68 and C69: levels, recursion of shapes
-/

namespace Shacl

/-- **C35**. The levels are computed without a count going below zero. Node `n` is in level `i` exactly if the longest
chain of references from `n` has `i` references; so a shape comes strictly after all shapes it refers to. No node is
listed twice, and a node is not listed exactly if it can reach a cycle. -/
theorem C35_levels (g : Dg) (hg : g.WF) : ∃ ls, g.levels = some ls ∧ ls.flatten.Nodup ∧
    (∀ (i n : Nat), (∃ l, ls[i]? = some l ∧ n ∈ l) ↔
      n ∈ g.nodes ∧ Chain g.Edge n i ∧ ∀ k, Chain g.Edge n k → k ≤ i) ∧
    (∀ n ∈ g.nodes, n ∉ ls.flatten ↔ ReachesCycle g.Edge n) ∧
    (∀ (i : Nat) (l : List Nat) (n m : Nat), ls[i]? = some l → n ∈ l → g.Edge n m → ∃ (j : Nat) (l' : List Nat), j < i ∧ ls[j]? = some l' ∧ m ∈ l') := by
  obtain ⟨k, h1, h2, h3⟩ := levels_spec hg
  have hlayer : ∀ i n, n ∈ layer g i ↔ n ∈ g.nodes ∧ Chain g.Edge n i ∧ ∀ k, Chain g.Edge n k → k ≤ i := by
    intro i n
    rw [mem_layer, below_iff]
    refine and_congr_right fun _ => ?_
    rw [Bool.eq_false_iff, ne_eq, below_iff]
    constructor
    · rintro ⟨h4, h5⟩
      push Not at h5
      obtain ⟨j, h6, h7⟩ := h5
      exact ⟨h6.shorten i h7, fun k hk => by have := h4 k hk; omega⟩
    · rintro ⟨h4, h5⟩
      exact ⟨fun k hk => by have := h5 k hk; omega, fun h => by have := h i h4; omega⟩
  have hget : ∀ i n, (∃ l, ((List.range k).map (layer g))[i]? = some l ∧ n ∈ l) ↔ n ∈ layer g i := by
    intro i n
    by_cases hi : i < k
    · simp [hi]
    · rw [h3 i (by omega)]
      simp [hi]
  refine ⟨_, h1, ?_, fun i n => by rw [hget, hlayer], ?_, ?_⟩
  · rw [List.nodup_flatten]
    refine ⟨fun l hl => ?_, ?_⟩
    · obtain ⟨i, _, rfl⟩ := List.mem_map.1 hl
      exact layer_nodup hg i
    · rw [List.pairwise_map]
      refine (List.pairwise_lt_range (n := k)).imp fun {i j} hij => ?_
      intro n hi hj
      have a := (hlayer i n).1 hi
      have b := (hlayer j n).1 hj
      have := a.2.2 j b.2.1
      omega
  · intro n hn
    have hmem : n ∈ ((List.range k).map (layer g)).flatten ↔ ∃ i, n ∈ layer g i := by
      rw [List.mem_flatten]
      constructor
      · rintro ⟨l, hl, hnl⟩
        obtain ⟨i, _, rfl⟩ := List.mem_map.1 hl
        exact ⟨i, hnl⟩
      · rintro ⟨i, hi⟩
        obtain ⟨l, h4, h5⟩ := (hget i n).2 hi
        exact ⟨l, List.mem_of_getElem? h4, h5⟩
    rw [hmem]
    have hends : ∀ a b, g.Edge a b → a ∈ g.nodes ∧ b ∈ g.nodes := fun a b ⟨c, hc⟩ => hg.ends _ hc
    constructor
    · intro h
      by_contra hc
      have hb : ∀ j, Chain g.Edge n j → j ≤ g.nodes.length := by
        intro j hj
        by_contra hlt
        exact hc (cycle_of_long g.nodes hends hj (by omega))
      -- a longest chain
      have : ∀ d, Chain g.Edge n (g.nodes.length - d) → d ≤ g.nodes.length → ∃ i, n ∈ layer g i := by
        intro d
        induction d with
        | zero =>
          intro hch _
          exact ⟨g.nodes.length, (hlayer _ n).2 ⟨hn, by simpa using hch, hb⟩⟩
        | succ d ih =>
          intro hch hd
          by_cases h' : Chain g.Edge n (g.nodes.length - d)
          · exact ih h' (by omega)
          · refine ⟨g.nodes.length - (d + 1), (hlayer _ n).2 ⟨hn, hch, fun j hj => ?_⟩⟩
            by_contra hlt
            exact h' (hj.shorten _ (by omega))
      exact h (this g.nodes.length (by rw [Nat.sub_self]; exact .nil n) (Nat.le_refl _))
    · rintro ⟨m, h4, h5⟩ ⟨i, hi⟩
      obtain ⟨_, _, h6⟩ := (hlayer i n).1 hi
      obtain ⟨k', h7, h8⟩ := chain_of_reach h4 (chain_of_cycle h5 (i + 1))
      have := h6 k' h8
      omega
  · intro i l n m hl hnl he
    have hn : n ∈ layer g i := (hget i n).1 ⟨l, hl, hnl⟩
    obtain ⟨h4, h5, h6⟩ := (mem_layer i n).1 hn
    simp only [below, List.all_eq_true] at h5
    have hb : below g i m = true := h5 m ((mem_out n m).2 he)
    have hmn : m ∈ g.nodes := edge_node hg ((mem_out n m).2 he)
    have : ∀ i, below g i m = true → ∃ j, j < i ∧ m ∈ layer g j := by
      intro i
      induction i with
      | zero => intro h; cases h
      | succ i ih =>
        intro h
        by_cases hi : below g i m = true
        · obtain ⟨j, h7, h8⟩ := ih hi; exact ⟨j, by omega, h8⟩
        · exact ⟨i, by omega, (mem_layer i m).2 ⟨hmn, h, by simpa using hi⟩⟩
    obtain ⟨j, h7, h8⟩ := this i hb
    obtain ⟨l', h9, h10⟩ := (hget j m).2 h8
    exact ⟨j, l', h7, h9, h10⟩

/-- C35 applies: 0 refers to 1 and 2, 1 to 2; 3 and 4 refer to each other, 5 to 3. -/
example : (⟨[0, 1, 2, 3, 4, 5], [(0, 1, true), (0, 2, true), (1, 2, false), (3, 4, true), (4, 3, true), (5, 3, true)]⟩ : Dg).levels =
    some [[2], [1], [0]] := by decide

/-- **C35**, the levels used for validation. Every shape with targets is in exactly one level, once, whether it is in
the graph or not, and a shape that does not reach a cycle comes in a later level than every shape with targets it
refers to. -/
theorem C35_target_levels (g : Dg) (hg : g.WF) (idxs : List Nat) (hidx : idxs.Nodup) (hsub : ∀ n ∈ g.nodes, n ∈ idxs)
    (tg : Nat → Bool) : ∃ ls, g.levels = some ls ∧ (targetLevels ls idxs tg).flatten.Nodup ∧
    (∀ n, n ∈ (targetLevels ls idxs tg).flatten ↔ n ∈ idxs ∧ tg n = true) ∧
    (∀ n m, tg n = true → tg m = true → g.Edge n m → ¬ ReachesCycle g.Edge n →
      ∃ a b l, targetLevels ls idxs tg = a ++ l :: b ∧ n ∈ l ∧ m ∈ a.flatten) := by
  obtain ⟨ls, h1, h2, h3, h4, h5⟩ := C35_levels g hg
  have hin : ∀ n, n ∈ ls.flatten → n ∈ idxs := by
    intro n hn
    obtain ⟨l, hl, hnl⟩ := List.mem_flatten.1 hn
    obtain ⟨i, hi⟩ := List.mem_iff_getElem?.1 hl
    exact hsub n ((h3 i n).1 ⟨l, hi, hnl⟩).1
  have hflat : (targetLevels ls idxs tg).flatten =
      ((idxs.filter fun i => !(ls.flatten.contains i) && tg i).insertionSort (· ≤ ·)) ++ ls.flatten.filter tg := by
    unfold targetLevels
    rw [List.flatten_filter_not_isEmpty]
    cases ls with
    | nil => simp
    | cons l ls =>
      rw [List.flatten_cons, List.append_assoc, List.headD_cons, List.drop_one, List.tail_cons, List.flatten_cons,
        List.filter_append, List.filter_flatten]
  refine ⟨ls, h1, ?_, ?_, ?_⟩
  · rw [hflat, List.nodup_append]
    refine ⟨(List.perm_insertionSort _ _).nodup_iff.2 (hidx.filter _), h2.filter _, ?_⟩
    intro a ha b hb
    rintro rfl
    rw [(List.perm_insertionSort _ _).mem_iff] at ha
    simp at ha hb
    obtain ⟨l, hl, hal, _⟩ := hb
    exact ha.2.1 l hl hal
  · intro n
    rw [hflat, List.mem_append, (List.perm_insertionSort _ _).mem_iff]
    have := hin n
    simp only [List.mem_filter, Bool.and_eq_true, Bool.not_eq_true', List.contains_eq_mem, decide_eq_false_iff_not]
    tauto
  · intro n m hn hm he hc
    have hnn : n ∈ g.nodes := by obtain ⟨b, hb⟩ := he; exact (hg.ends _ hb).1
    have hnl : n ∈ ls.flatten := by
      by_contra h
      exact hc ((h4 n hnn).1 h)
    obtain ⟨l, hl, hnl2⟩ := List.mem_flatten.1 hnl
    obtain ⟨i, hi⟩ := List.mem_iff_getElem?.1 hl
    obtain ⟨j, l', hj, hl', hml'⟩ := h5 i l n m hi hnl2 he
    -- split the levels at level i, which is not the first
    obtain ⟨i, rfl⟩ : ∃ i', i = i' + 1 := ⟨i - 1, by omega⟩
    cases ls with
    | nil => simp at hl
    | cons l0 ls =>
      rw [List.getElem?_cons_succ] at hi
      obtain ⟨hlen, hget⟩ := List.getElem?_eq_some_iff.1 hi
      have hsplit : ls = ls.take i ++ l :: ls.drop (i + 1) := by
        rw [← hget, List.getElem_cons_drop, List.take_append_drop]
      have hlt : n ∈ l.filter tg := List.mem_filter.2 ⟨hnl2, hn⟩
      generalize hl0 : ((idxs.filter fun i => !((l0 :: ls).flatten.contains i) && tg i).insertionSort (· ≤ ·)) ++
        l0.filter tg = level0
      refine ⟨(level0 :: (ls.take i).map fun l => l.filter tg).filter fun l => !l.isEmpty,
        ((ls.drop (i + 1)).map fun l => l.filter tg).filter fun l => !l.isEmpty, l.filter tg, ?_, hlt, ?_⟩
      · unfold targetLevels
        rw [List.headD_cons, hl0, List.drop_one, List.tail_cons]
        have hne : (!(l.filter tg).isEmpty) = true := by
          cases h : l.filter tg with
          | nil => rw [h] at hlt; cases hlt
          | cons a b => rfl
        conv_lhs => rw [hsplit]
        show List.filter _ _ = _
        rw [List.map_append, List.map_cons, ← List.cons_append, List.filter_append,
          List.filter_cons_of_pos (p := fun l : List Nat => !l.isEmpty) hne]
      · rw [List.flatten_filter_not_isEmpty, List.flatten_cons, List.mem_append, ← hl0]
        cases j with
        | zero =>
          left
          simp only [List.getElem?_cons_zero, Option.some.injEq] at hl'
          subst hl'
          exact List.mem_append_right _ (List.mem_filter.2 ⟨hml', hm⟩)
        | succ j =>
          right
          rw [List.getElem?_cons_succ] at hl'
          rw [List.mem_flatten]
          refine ⟨l'.filter tg, List.mem_map.2 ⟨l', ?_, rfl⟩, List.mem_filter.2 ⟨hml', hm⟩⟩
          exact List.mem_of_getElem? (i := j) (by rw [List.getElem?_take_of_lt (by omega)]; exact hl')

/-- C35 for validation applies: shapes 0, 2, 3, 5 and 7 have targets, 7 is not in the graph, 3 is in a cycle. -/
example : targetLevels [[2], [1], [0]] [0, 1, 2, 3, 4, 5, 6, 7] (fun n => n ∈ [0, 2, 3, 5, 7]) = [[3, 5, 7, 2], [0]] := by
  decide

/-! ## Recursion -/

section
variable {P Q : Type}

/-- A component mentions a shape; sibling shapes are not mentioned. -/
def Mentions : Comp Q → Nat → Prop
  | .prim _, _ => False
  | .and l, j => j ∈ l
  | .or l, j => j ∈ l
  | .not k, j => j = k
  | .xone l, j => j ∈ l
  | .node k, j => j = k
  | .qual k _ _ _, j => j = k

/-- A shape refers to another: in a component or as a property shape. -/
def Refers (S : Nat → Option (Shape P Q)) (a b : Nat) : Prop :=
  ∃ sh, S a = some sh ∧ ((∃ c ∈ sh.comps, Mentions c b) ∨ b ∈ sh.props)

theorem mentions_iff (c : Comp Q) (b : Nat) : Mentions c b ↔ ∃ a ∈ c.arcs, a.target = b := by
  cases c <;> simp [Mentions, Comp.arcs, eq_comm]

theorem refers_iff (S : Nat → Option (Shape P Q)) (a b : Nat) :
    Refers S a b ↔ ∃ sh, S a = some sh ∧ ∃ arc ∈ sh.arcs, arc.target = b := by
  refine exists_congr fun sh => and_congr_right fun _ => ?_
  unfold Shape.arcs
  simp only [List.mem_append, List.mem_flatMap, List.mem_map, mentions_iff]
  constructor
  · rintro (⟨c, hc, arc, h1, h2⟩ | h)
    · exact ⟨arc, Or.inl ⟨c, hc, h1⟩, h2⟩
    · exact ⟨_, Or.inr ⟨b, h, rfl⟩, rfl⟩
  · rintro ⟨arc, ⟨c, hc, h1⟩ | ⟨j, h1, rfl⟩, h2⟩
    · exact Or.inl ⟨c, hc, arc, h1, h2⟩
    · exact Or.inr (h2 ▸ h1)

theorem seen_refers {S : Nat → Option (Shape P Q)} {a b : Nat} (h : Seen S a b) : Refers S a b := by
  obtain ⟨sh, h1, arc, h2, h3, _⟩ := h
  exact (refers_iff S a b).2 ⟨sh, h1, arc, h2, h3⟩

theorem refers_seen {S : Nat → Option (Shape P Q)} {a b : Nat} (h : Refers S a b) (hb : (S b).isSome) : Seen S a b := by
  obtain ⟨sh, h1, arc, h2, h3⟩ := (refers_iff S a b).1 h
  exact ⟨sh, h1, arc, h2, h3, fun _ => hb⟩

theorem refers_cycle (S : Nat → Option (Shape P Q)) (n : Nat) :
    Relation.TransGen (Seen S) n n ↔ Relation.TransGen (Refers S) n n := by
  constructor
  · intro h
    have mono : Relation.TransGen (Seen S) ≤ Relation.TransGen (Refers S) :=
      Relation.TransGen.mono fun _ _ h => seen_refers h
    exact mono n n h
  · intro h
    have hsome : ∀ a b, Refers S a b → (S a).isSome := fun a b ⟨sh, h, _⟩ => by rw [h]; rfl
    have hn : (S n).isSome := by
      obtain ⟨b, h1, _⟩ := Relation.TransGen.head'_iff.1 h
      exact hsome n b h1
    have : ∀ a, Relation.TransGen (Refers S) a n → Relation.TransGen (Seen S) a n := by
      intro a ha
      induction ha using Relation.TransGen.head_induction_on with
      | single h => exact .single (refers_seen h hn)
      | @head a c h1 h2 ih =>
        refine .head (refers_seen h1 ?_) ih
        obtain ⟨b, h3, _⟩ := Relation.TransGen.head'_iff.1 h2
        exact hsome c b h3
    exact this n h

/-- `has_cycles` (DG 54-56): `is_cyclic_directed` of petgraph by its contract. -/
def Dg.HasCycle (g : Dg) : Prop := ∃ n, Relation.TransGen g.Edge n n

/-- `has_neg_cycle` (DG 23-47, 63-66): some negative edge inside a strongly connected component; `tarjan_scc` by its
contract. -/
def Dg.HasNegCycle (g : Dg) : Prop := ∃ a b, (a, b, false) ∈ g.edges ∧ Relation.ReflTransGen g.Edge b a

/-- **C68**. The dependency graph can be built, and it has a cycle, so that the schema is rejected, exactly if some shape
can come back to itself through property shapes and shapes mentioned in components (siblings aside). -/
theorem C68_recursion_rejected (S : Nat → Option (Shape P Q)) (idxs : List Nat) (hidx : ∀ i, (S i).isSome → i ∈ idxs)
    (n : Nat) (hn : idxs.length < n) :
    ∃ g, buildDg S n idxs = some g ∧ (g.HasCycle ↔ ∃ i, Relation.TransGen (Refers S) i i) := by
  obtain ⟨g, h1, _, h3⟩ := buildDg_spec idxs hidx n hn
  refine ⟨g, h1, exists_congr fun i => ?_⟩
  have : g.Edge = Seen S := by funext a b; exact propext (h3 a b)
  rw [this, refers_cycle]

end

/-- C68 applies: 0 mentions 1 under a qualified shape, 1 has property shape 2, 2 denies 0. -/
def recShapes : Nat → Option (Shape Nat Unit)
  | 0 => some ⟨none, [.qual 1 none none []], [], false⟩
  | 1 => some ⟨none, [], [2], false⟩
  | 2 => some ⟨some (.pred 7), [.not 0], [], false⟩
  | _ => none

example : buildDg recShapes 4 [0, 1, 2] = some ⟨[0, 1, 2], [(0, 1, false), (1, 2, true), (2, 0, false)]⟩ := by decide

/-- Shape 0 denies shape 1, which has shape 0 as a node shape. -/
def negShapes : Nat → Option (Shape Nat Unit)
  | 0 => some ⟨none, [.not 1], [], false⟩
  | 1 => some ⟨none, [.node 0], [], false⟩
  | _ => none

/-- **C69** is false of the code: with shape 0 denying shape 1 and shape 1 referring to shape 0, the graph ends with
only positive edges, because shape 0 is met again under negation and its edge is overwritten; the recursion
through `sh:not` is reported as positive. -/
theorem C69_refuted : ∃ g, buildDg negShapes 3 [0, 1] = some g ∧ g.HasCycle ∧ ¬ g.HasNegCycle := by
  refine ⟨⟨[0, 1], [(0, 1, true), (1, 0, true)]⟩, by decide, ⟨0, ?_⟩, ?_⟩
  · exact .head (b := 1) ⟨true, by decide⟩ (.single ⟨true, by decide⟩)
  · rintro ⟨a, b, h, _⟩
    simp at h

/-- The schema of `C69_refuted` with its two shapes exchanged. -/
def swapShapes : Nat → Option (Shape Nat Unit)
  | 0 => some ⟨none, [.node 1], [], false⟩
  | 1 => some ⟨none, [.not 0], [], false⟩
  | _ => none

/-- A shape that denies itself. -/
def selfShapes : Nat → Option (Shape Nat Unit)
  | 0 => some ⟨none, [.not 0], [], false⟩
  | _ => none

/-- **C69** is false of the code in another way: the verdict depends on the numbering of the shapes. With the two
shapes of `C69_refuted` exchanged the recursion is reported as negative. A shape that denies itself is reported as
positive. -/
theorem C69_numbering_refuted : (∃ g, buildDg swapShapes 3 [0, 1] = some g ∧ g.HasNegCycle) ∧
    (∃ g, buildDg negShapes 3 [0, 1] = some g ∧ ¬ g.HasNegCycle) ∧
    ∃ g, buildDg selfShapes 2 [0] = some g ∧ g.HasCycle ∧ ¬ g.HasNegCycle := by
  refine ⟨⟨⟨[0, 1], [(0, 1, false), (1, 0, false)]⟩, by decide, 0, 1, by decide, .single ⟨false, by decide⟩⟩, ?_, ?_⟩
  · obtain ⟨g, h1, _, h3⟩ := C69_refuted
    exact ⟨g, h1, h3⟩
  · refine ⟨⟨[0], [(0, 0, true)]⟩, by decide, ⟨0, .single ⟨true, by decide⟩⟩, ?_⟩
    rintro ⟨a, b, h, _⟩
    simp at h

section
variable {P Q : Type} {S : Nat → Option (Shape P Q)}

/-- No edge is negative. -/
def AllPos (g : Dg) : Prop := ∀ e ∈ g.edges, e.2.2 = true

theorem allPos_addEdge {g : Dg} (h : AllPos g) (i j : Nat) : AllPos (g.addEdge i j true) := by
  intro e he
  simp only [Dg.addEdge] at he
  split at he
  · rw [List.mem_map] at he
    obtain ⟨e', h1, h2⟩ := he
    split at h2
    · rw [← h2]
    · rw [← h2]; exact h e' h1
  · rw [List.mem_append, List.mem_singleton] at he
    rcases he with he | rfl
    · exact h e he
    · rfl

theorem allPos_addEdges (hS : ∀ i sh, S i = some sh → ∀ a ∈ sh.arcs, a.flips = false) : ∀ (n i : Nat)
    (st st' : Dg × List Nat), AllPos st.1 → addEdges S n i true st = some st' → AllPos st'.1 := by
  intro n
  induction n with
  | zero => intro i st st' _ h; cases h
  | succ n ih =>
    intro i st st' hp h
    simp only [addEdges] at h
    cases hi : S i with
    | none => rw [hi] at h; injection h with h; rw [← h]; exact hp
    | some sh =>
      rw [hi] at h
      simp only at h
      have loop : ∀ (as : List Arc), (∀ a ∈ as, a.flips = false) → ∀ st : Dg × List Nat, AllPos st.1 →
          arcsLoop S (addEdges S n) i true as st = some st' → AllPos st'.1 := by
        intro as
        induction as with
        | nil => intro _ st hp h; injection h with h; rw [← h]; exact hp
        | cons a as ihas =>
          intro has st hp h
          obtain ⟨g, seen⟩ := st
          have has' := fun a h => has a (List.mem_cons_of_mem _ h)
          have hpol : (true != a.flips) = true := by rw [has a List.mem_cons_self]; rfl
          simp only [arcsLoop, hpol] at h
          split at h
          · exact ihas has' _ hp h
          · split at h
            · rw [Option.bind_eq_some_iff] at h
              obtain ⟨st1, h1, h2⟩ := h
              exact ihas has' st1 (ih _ _ st1 (allPos_addEdge hp _ _) h1) h2
            · exact ihas has' _ (allPos_addEdge hp _ _) h
      exact loop sh.arcs (hS i sh hi) st hp h

/-- **C69** (partial). A schema whose shapes use no `sh:not` is never reported to have negative cycles.

Missing: that recursion through `sh:not` is reported as negative (`C69_refuted`), and that schemas with `sh:not`
outside the recursion are not. -/
theorem C69_negative_cycles_partial (S : Nat → Option (Shape P Q)) (hS : ∀ i sh, S i = some sh → ∀ j, .not j ∉ sh.comps)
    (n : Nat) (idxs : List Nat) (g : Dg) (h : buildDg S n idxs = some g) : ¬ g.HasNegCycle := by
  have hflip : ∀ i sh, S i = some sh → ∀ a ∈ sh.arcs, a.flips = false := by
    intro i sh hi a ha
    unfold Shape.arcs at ha
    simp only [List.mem_append, List.mem_flatMap, List.mem_map] at ha
    rcases ha with ⟨c, hc, ha⟩ | ⟨j, _, rfl⟩
    · cases c with
      | not j => exact absurd hc (hS i sh hi j)
      | prim q => simp [Comp.arcs] at ha
      | node j => simp [Comp.arcs] at ha; rw [ha]
      | qual j => simp [Comp.arcs] at ha; rw [ha]
      | _ => simp only [Comp.arcs, List.mem_map] at ha; obtain ⟨j, _, rfl⟩ := ha; rfl
    · rfl
  have hpos : ∀ (is : List Nat) (st st' : Dg × List Nat), AllPos st.1 → buildLoop S n is st = some st' → AllPos st'.1 := by
    intro is
    induction is with
    | nil => intro st st' hp h; injection h with h; rw [← h]; exact hp
    | cons i is ih =>
      intro st st' hp h
      simp only [buildLoop, Option.bind_eq_some_iff] at h
      obtain ⟨st1, h1, h2⟩ := h
      exact ih st1 st' (allPos_addEdges hflip n i st st1 hp h1) h2
  unfold buildDg at h
  rw [Option.map_eq_some_iff] at h
  obtain ⟨st, h1, rfl⟩ := h
  rintro ⟨a, b, h2, _⟩
  have := hpos idxs _ st (fun e he => by cases he) h1 _ h2
  cases this

end

/-- C69 applies: positive recursion. -/
example : buildDg (fun i => if i < 2 then some (⟨none, [.node (1 - i)], [], false⟩ : Shape Nat Unit) else none) 3 [0, 1] =
    some ⟨[0, 1], [(0, 1, true), (1, 0, true)]⟩ := by decide

end Shacl

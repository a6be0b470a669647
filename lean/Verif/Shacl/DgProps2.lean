import Verif.Shacl.DgProps

/-!
# Property C67: validation of accepted schemas terminates
-/

namespace Shacl

section
variable {T O P Q : Type} [DecidableEq T] [DecidableEq O] [DecidableEq P] [DecidableEq Q]

/-- No qualified shape has siblings (`sh:qualifiedValueShapesDisjoint` is not used). -/
def NoSiblings (S : Nat → Option (Shape P Q)) : Prop :=
  ∀ i sh, S i = some sh → ∀ j mn mx sib, .qual j mn mx sib ∈ sh.comps → sib = []

theorem refs_refers {S : Nat → Option (Shape P Q)} (hS : NoSiblings S) {i : Nat} {sh : Shape P Q} (hi : S i = some sh)
    {j : Nat} (hj : j ∈ sh.refs) : Refers S i j := by
  refine ⟨sh, hi, ?_⟩
  unfold Shape.refs at hj
  rw [List.mem_append, List.mem_flatMap] at hj
  rcases hj with ⟨c, hc, hj⟩ | hj
  · refine Or.inl ⟨c, hc, ?_⟩
    cases c with
    | qual k mn mx sib =>
      have := hS i sh hi k mn mx sib hc
      subst this
      simpa [Comp.refs, Mentions] using hj
    | _ => simpa [Comp.refs, Mentions] using hj
  · exact Or.inr hj

/-- **C67** (partial). Validation of an accepted schema, one whose dependency graph has no cycle, ends on all data,
with whatever is in the cache: calls are not nested deeper than two more than the number of nodes of the graph.

Missing: qualified shapes with siblings, whose references are not in the graph (`C67_refuted`). -/
theorem C67_accepted_terminates_partial (W : World T O P Q) (idxs : List Nat) (n : Nat) (g : Dg)
    (hidx : ∀ i, (W.shape i).isSome → i ∈ idxs) (hn : idxs.length < n) (hg : buildDg W.shape n idxs = some g)
    (hacc : ¬ g.HasCycle) (hS : NoSiblings W.shape) (i : Nat) (l : List T) (c : Cache O P Q) :
    (run (W.validate (g.nodes.length + 2) i l) c).1 ≠ .loop := by
  obtain ⟨g', h1, hwf, hedge⟩ := buildDg_spec idxs hidx n hn
  rw [hg] at h1
  injection h1 with h1
  subst h1
  have hb : ∀ m, below g (g.nodes.length + 1) m = true := by
    intro m
    rw [below_iff]
    intro k hk
    by_contra hlt
    obtain ⟨m', _, h2⟩ := cycle_of_long g.nodes (fun a b ⟨c, hc⟩ => hwf.ends _ hc) hk (by omega)
    exact hacc ⟨m', h2⟩
  -- the rank: longest chain, with missing shapes at the bottom
  classical
  have hex : ∀ m, ∃ i, below g i m = true := fun m => ⟨_, hb m⟩
  let rk : Nat → Nat := fun m => Nat.find (hex m)
  have hrk : ∀ m, below g (rk m) m = true := fun m => Nat.find_spec (hex m)
  have hle : ∀ m, rk m ≤ g.nodes.length + 1 := fun m => Nat.find_min' (hex m) (hb m)
  let rank : Nat → Nat := fun m => if (W.shape m).isSome then rk m else 0
  have hR : ∀ i sh, W.shape i = some sh → ∀ j ∈ sh.refs, rank j < rank i := by
    intro i sh hi j hj
    have href := refs_refers hS hi hj
    have hpos : 0 < rk i := by
      by_contra h0
      have := hrk i
      rw [show rk i = 0 by omega] at this
      cases this
    have hri : rank i = rk i := by simp [rank, hi]
    rw [hri]
    by_cases hs : (W.shape j).isSome
    · have : rank j = rk j := by simp [rank, hs]
      rw [this]
      have he : g.Edge i j := (hedge i j).2 (refers_seen href hs)
      obtain ⟨r, hr⟩ : ∃ r, rk i = r + 1 := ⟨rk i - 1, by omega⟩
      have hbi := hrk i
      rw [hr] at hbi
      simp only [below, List.all_eq_true] at hbi
      have : rk j ≤ r := Nat.find_min' (hex j) (hbi j ((mem_out i j).2 he))
      omega
    · have : rank j = 0 := by simp [rank, hs]
      rw [this]; exact hpos
  refine run_noLoop c (validate_noLoop hR _ i l ?_)
  by_cases hs : (W.shape i).isSome
  · have := hle i
    simp only [rank, hs, if_true]; omega
  · have : rank i = 0 := by simp [rank, hs]
    rw [this]; omega

theorem run_bind {A B : Type} (p : VProg O P Q A) (f : A → VProg O P Q B) : ∀ c, run (p.bind f) c =
    match run p c with
    | (.ret a, c') => run (f a) c'
    | (.fail, c') => (.fail, c')
    | (.loop, c') => (.loop, c') := by
  induction p with
  | ret a => intro c; rfl
  | fail => intro c; rfl
  | loop => intro c; rfl
  | look k f ih => intro c; exact ih _ c
  | has k f ih => intro c; exact ih _ c
  | record k v p ih => intro c; exact ih _

theorem run_attempt {A : Type} (p : VProg O P Q A) : ∀ c, run p.attempt c =
    match run p c with
    | (.ret a, c') => (.ret (some a), c')
    | (.fail, c') => (.ret none, c')
    | (.loop, c') => (.loop, c') := by
  induction p with
  | ret a => intro c; rfl
  | fail => intro c; rfl
  | loop => intro c; rfl
  | look k f ih => intro c; exact ih _ c
  | has k f ih => intro c; exact ih _ c
  | record k v p ih => intro c; exact ih _

theorem run_bind_loop {A B : Type} {p : VProg O P Q A} {f : A → VProg O P Q B} {c : Cache O P Q}
    (h : (run p c).1 = .loop) : (run (p.bind f) c).1 = .loop := by
  rw [run_bind]
  generalize run p c = r at h
  obtain ⟨a, c'⟩ := r
  simp only at h
  subst h
  rfl

theorem run_attempt_loop {A : Type} {p : VProg O P Q A} {c : Cache O P Q}
    (h : (run p c).1 = .loop) : (run p.attempt c).1 = .loop := by
  rw [run_attempt]
  generalize run p c = r at h
  obtain ⟨a, c'⟩ := r
  simp only at h
  subst h
  rfl

end

/-- Shape 0 has the property shapes 1 and 2, each with a qualified shape, 3 and 4, that is the other's sibling; shape
4 has property shape 1. -/
def siblingShapes : Nat → Option (Shape Nat Unit)
  | 0 => some ⟨none, [], [1, 2], false⟩
  | 1 => some ⟨some (.pred 7), [.qual 3 (some 1) none [4]], [], false⟩
  | 2 => some ⟨some (.pred 7), [.qual 4 (some 1) none [3]], [], false⟩
  | 3 => some ⟨none, [], [], false⟩
  | 4 => some ⟨none, [], [1], false⟩
  | _ => none

/-- A node with an arc to itself. -/
def siblingWorld : World Nat Nat Nat Unit where
  shape := siblingShapes
  graph := ⟨[(0, 7, 0)], fun _ => true⟩
  obj := id
  prim := fun _ _ _ _ => some []
  ord := id

/-- The cache while the recursion goes on: nothing, or that the node conforms to shape 3. -/
def siblingCache : Cache Nat Nat Unit := fun k => if k = (0, 3) then some [] else none

theorem run_bind_ret {A B : Type} {p : VProg Nat Nat Unit A} {f : A → VProg Nat Nat Unit B} {c c' : Cache Nat Nat Unit}
    {a : A} (h : run p c = (.ret a, c')) : run (p.bind f) c = run (f a) c' := by
  rw [run_bind, h]

/-- Validation of shape 4 calls that of shape 1. -/
theorem sibling_four (d : Nat) (h : (run (siblingWorld.validate d 1 [0]) siblingCache).1 = .loop) :
    (run (siblingWorld.validate (d + 1) 4 [0]) siblingCache).1 = .loop := by
  show (run (siblingWorld.body (siblingWorld.validate d) 4 ⟨none, [], [1], false⟩ [0]) siblingCache).1 = _
  unfold World.body
  rw [if_neg (by decide)]
  rw [run_bind_ret (c' := siblingCache) (a := ([], [0])) (by rfl), if_neg (by decide)]
  rw [run_bind_ret (c' := siblingCache) (a := []) (by rfl)]
  exact run_bind_loop (run_bind_loop (run_bind_loop h))

/-- Validation of shape 1 calls that of shape 4, as a sibling of shape 3. -/
theorem sibling_one (d : Nat) (h : (run (siblingWorld.validate (d + 1) 4 [0]) siblingCache).1 = .loop)
    (c : Cache Nat Nat Unit) (hc : c = fresh0 ∨ c = siblingCache) :
    (run (siblingWorld.validate (d + 2) 1 [0]) c).1 = .loop := by
  show (run (siblingWorld.body (siblingWorld.validate (d + 1)) 1
    ⟨some (.pred 7), [.qual 3 (some 1) none [4]], [], false⟩ [0]) c).1 = _
  have hsplit : run (siblingWorld.split 1 (siblingWorld.ord [0])) c = (.ret ([], [0]), c) := by
    rcases hc with rfl | rfl <;> rfl
  have hthree : run (siblingWorld.conforms (siblingWorld.validate (d + 1)) 3 0) c = (.ret true, siblingCache) := by
    rcases hc with rfl | rfl <;> rfl
  have hfour : (run (siblingWorld.someSibling (siblingWorld.validate (d + 1)) [4] 0) siblingCache).1 = .loop :=
    run_bind_loop (run_bind_loop (run_attempt_loop h))
  have hcount : (run (siblingWorld.countQualified (siblingWorld.validate (d + 1)) 3 [4] [0]) c).1 = .loop := by
    unfold World.countQualified
    rw [run_bind_ret hthree, if_pos rfl]
    exact run_bind_loop (run_bind_loop hfour)
  unfold World.body
  rw [if_neg (by decide), run_bind_ret hsplit, if_neg (by decide)]
  exact run_bind_loop (run_bind_loop (run_bind_loop (run_bind_loop hcount)))

theorem sibling_loops : ∀ d, ∀ c, (c = fresh0 ∨ c = siblingCache) → (run (siblingWorld.validate d 1 [0]) c).1 = .loop := by
  intro d
  induction d using Nat.strong_induction_on with
  | _ d ih =>
    match d with
    | 0 => intro c _; rfl
    | 1 => rintro c (rfl | rfl) <;> rfl
    | d + 2 => exact sibling_one d (sibling_four d (ih d (by omega) _ (Or.inr rfl)))

/-- **C67** is false of the code: the references to siblings are not in the dependency graph. The graph of this schema
has no cycle, so it is accepted, but validation of shape 1 on a node that has itself as a value calls itself
without end, through its sibling. -/
theorem C67_refuted : ∃ (W : World Nat Nat Nat Unit) (g : Dg), buildDg W.shape 6 [0, 1, 2, 3, 4] = some g ∧
    ¬ g.HasCycle ∧ ∀ d, (run (W.validate d 1 [0]) fresh0).1 = .loop := by
  obtain ⟨g, h1, h2, h3⟩ := buildDg_spec (S := siblingShapes) [0, 1, 2, 3, 4] (by
    intro i hi
    match i, hi with
    | 0, _ => decide
    | 1, _ => decide
    | 2, _ => decide
    | 3, _ => decide
    | 4, _ => decide
    | n + 5, hi => cases hi) 6 (by decide)
  refine ⟨siblingWorld, g, h1, ?_, fun d => sibling_loops d _ (Or.inl rfl)⟩
  have hg : g = ⟨[0, 1, 3, 2, 4], [(0, 1, true), (1, 3, true), (0, 2, true), (2, 4, true), (4, 1, true)]⟩ := by
    have : buildDg siblingShapes 6 [0, 1, 2, 3, 4] =
        some ⟨[0, 1, 3, 2, 4], [(0, 1, true), (1, 3, true), (0, 2, true), (2, 4, true), (4, 1, true)]⟩ := by decide
    rw [h1] at this
    injection this
  subst hg
  rintro ⟨n, hn⟩
  -- a chain has at most four edges
  have := (below_iff (g := ⟨[0, 1, 3, 2, 4], [(0, 1, true), (1, 3, true), (0, 2, true), (2, 4, true), (4, 1, true)]⟩) 6 n).1 ?_ 6
    (chain_of_cycle hn 6)
  · omega
  · have hm : n ∈ [0, 1, 3, 2, 4] := by
      obtain ⟨b, ⟨c, hc⟩, _⟩ := Relation.TransGen.head'_iff.1 hn
      exact (h2.ends _ hc).1
    simp only [List.mem_cons, List.not_mem_nil, or_false] at hm
    rcases hm with rfl | rfl | rfl | rfl | rfl <;> decide

/-- C67 applies to a schema without siblings. -/
example : buildDg flatShapes 4 [0, 1, 2] = some ⟨[1, 0, 2], [(1, 0, true), (2, 0, false), (2, 1, true)]⟩ := by decide

#print axioms C35_levels
#print axioms C35_target_levels
#print axioms C67_accepted_terminates_partial
#print axioms C67_refuted
#print axioms C68_recursion_rejected
#print axioms C69_refuted
#print axioms C69_negative_cycles_partial

end Shacl

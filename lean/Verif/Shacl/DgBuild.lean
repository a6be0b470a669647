import Verif.Shacl.DgLemmas

/-!
# Lemmas: the edges of the dependency graph
-/

namespace Shacl

theorem mem_addNode (l : List Nat) (n m : Nat) : m ∈ addNode l n ↔ m ∈ l ∨ m = n := by
  unfold addNode
  split
  · rename_i h; constructor
    · exact Or.inl
    · rintro (h' | rfl) <;> assumption
  · simp

theorem addNode_nodup {l : List Nat} (h : l.Nodup) (n : Nat) : (addNode l n).Nodup := by
  unfold addNode
  split
  · exact h
  · rename_i hn
    rw [List.nodup_append]
    refine ⟨h, List.nodup_singleton n, ?_⟩
    intro a ha b hb
    rw [List.mem_singleton] at hb
    subst hb
    rintro rfl
    exact hn ha

theorem edge_addEdge (g : Dg) (i j : Nat) (p : Bool) (a b : Nat) :
    (g.addEdge i j p).Edge a b ↔ g.Edge a b ∨ (a = i ∧ b = j) := by
  unfold Dg.addEdge Dg.Edge
  simp only
  split
  · rename_i h
    constructor
    · rintro ⟨c, hc⟩
      rw [List.mem_map] at hc
      obtain ⟨e, h1, h2⟩ := hc
      split at h2
      · simp only [Prod.mk.injEq] at h2; exact Or.inr ⟨h2.1.symm, h2.2.1.symm⟩
      · exact Or.inl ⟨c, h2 ▸ h1⟩
    · intro h1
      by_cases hij : a = i ∧ b = j
      · rw [List.mem_map] at h
        obtain ⟨e, h2, h3⟩ := h
        exact ⟨p, List.mem_map.2 ⟨e, h2, by rw [if_pos h3, hij.1, hij.2]⟩⟩
      · obtain ⟨c, hc⟩ := h1.resolve_right hij
        refine ⟨c, List.mem_map.2 ⟨(a, b, c), hc, if_neg ?_⟩⟩
        simpa using hij
  · constructor
    · rintro ⟨c, hc⟩
      rw [List.mem_append] at hc
      rcases hc with hc | hc
      · exact Or.inl ⟨c, hc⟩
      · rw [List.mem_singleton] at hc
        simp only [Prod.mk.injEq] at hc
        exact Or.inr ⟨hc.1, hc.2.1⟩
    · rintro (⟨c, hc⟩ | ⟨rfl, rfl⟩)
      · exact ⟨c, List.mem_append_left _ hc⟩
      · exact ⟨p, List.mem_append_right _ (List.mem_singleton.2 rfl)⟩

theorem addEdge_wf {g : Dg} (hg : g.WF) (i j : Nat) (p : Bool) : (g.addEdge i j p).WF := by
  refine ⟨addNode_nodup (addNode_nodup hg.nodes i) j, ?_, ?_⟩
  · simp only [Dg.addEdge]
    split
    · rename_i h
      rw [List.map_map]
      have : ((fun e : Nat × Nat × Bool => (e.1, e.2.1)) ∘ fun e : Nat × Nat × Bool => if (e.1, e.2.1) = (i, j) then (i, j, p) else e) =
          fun e => (e.1, e.2.1) := by
        funext e
        simp only [Function.comp]
        split
        · rename_i h'; rw [h']
        · rfl
      rw [this]
      exact hg.pairs
    · rename_i h
      rw [List.map_append, List.nodup_append]
      refine ⟨hg.pairs, List.nodup_singleton _, ?_⟩
      intro a ha b hb
      simp only [List.map_cons, List.map_nil, List.mem_singleton] at hb
      subst hb
      rintro rfl
      exact h ha
  · rintro ⟨a, b, c⟩ he
    have : (g.addEdge i j p).Edge a b := ⟨c, he⟩
    rw [edge_addEdge] at this
    simp only [Dg.addEdge, mem_addNode]
    rcases this with ⟨c', h⟩ | ⟨rfl, rfl⟩
    · have := hg.ends _ h
      exact ⟨Or.inl (Or.inl this.1), Or.inl (Or.inl this.2)⟩
    · exact ⟨Or.inl (Or.inr rfl), Or.inr rfl⟩

section
variable {P Q : Type} {S : Nat → Option (Shape P Q)}

/-- A reference of a shape that `add_edges` sees. -/
def Seen (S : Nat → Option (Shape P Q)) (a b : Nat) : Prop :=
  ∃ sh, S a = some sh ∧ ∃ arc ∈ sh.arcs, arc.target = b ∧ (arc.follows = true → (S b).isSome)

/-- The state grows by edges for references. -/
structure Grows (S : Nat → Option (Shape P Q)) (st st' : Dg × List Nat) : Prop where
  wf : st'.1.WF
  seen : ∀ n ∈ st.2, n ∈ st'.2
  old : ∀ a b, st.1.Edge a b → st'.1.Edge a b
  new : ∀ a b, st'.1.Edge a b → st.1.Edge a b ∨ Seen S a b

theorem Grows.trans {a b c : Dg × List Nat} (h1 : Grows S a b) (h2 : Grows S b c) : Grows S a c :=
  ⟨h2.wf, fun n hn => h2.seen n (h1.seen n hn), fun x y h => h2.old x y (h1.old x y h),
    fun x y h => (h2.new x y h).elim (h1.new x y) Or.inr⟩

theorem Grows.refl {a : Dg × List Nat} (h : a.1.WF) : Grows S a a :=
  ⟨h, fun _ => id, fun _ _ => id, fun _ _ => Or.inl⟩

/-- The shapes that have not been met. -/
def unmet (L seen : List Nat) : Nat := L.countP fun n => !(seen.contains n)

theorem unmet_mono {L seen seen' : List Nat} (h : ∀ n ∈ seen, n ∈ seen') : unmet L seen' ≤ unmet L seen := by
  apply List.countP_mono_left
  intro n _ hn
  simp only [Bool.not_eq_true', List.contains_eq_mem, decide_eq_false_iff_not] at hn ⊢
  exact fun h' => hn (h n h')

theorem unmet_cons {L seen : List Nat} {n : Nat} (h : n ∈ L) (hn : n ∉ seen) : unmet L (n :: seen) < unmet L seen := by
  obtain ⟨a, b, rfl⟩ := List.append_of_mem h
  unfold unmet
  rw [List.countP_append, List.countP_append, List.countP_cons, List.countP_cons]
  have h1 := unmet_mono (L := a) (seen := seen) (seen' := n :: seen) fun m hm => List.mem_cons_of_mem _ hm
  have h2 := unmet_mono (L := b) (seen := seen) (seen' := n :: seen) fun m hm => List.mem_cons_of_mem _ hm
  unfold unmet at h1 h2
  simp [hn]
  simp at h1 h2
  omega

theorem addEdges_spec (L : List Nat) (hL : ∀ i, (S i).isSome → i ∈ L) : ∀ (n i : Nat) (pol : Bool) (st : Dg × List Nat),
    unmet L st.2 < n → st.1.WF → ∃ st', addEdges S n i pol st = some st' ∧ Grows S st st' ∧
      ∀ b, Seen S i b → st'.1.Edge i b := by
  intro n
  induction n with
  | zero => intro i pol st h; omega
  | succ n ih =>
    intro i pol st hn hwf
    simp only [addEdges]
    cases hi : S i with
    | none => exact ⟨st, rfl, .refl hwf, fun b ⟨sh, h, _⟩ => by rw [hi] at h; cases h⟩
    | some sh =>
      simp only
      have loop : ∀ (as : List Arc), (∀ a ∈ as, a ∈ sh.arcs) → ∀ st : Dg × List Nat, unmet L st.2 < n + 1 → st.1.WF →
          ∃ st', arcsLoop S (addEdges S n) i pol as st = some st' ∧ Grows S st st' ∧
            ∀ a ∈ as, (a.follows = true → (S a.target).isSome) → st'.1.Edge i a.target := by
        intro as
        induction as with
        | nil => intro _ st _ hwf; exact ⟨st, rfl, .refl hwf, fun a h => by cases h⟩
        | cons a as ihas =>
          intro has st hst hwf
          obtain ⟨g, seen⟩ := st
          simp only at hst hwf
          simp only [arcsLoop]
          have has' : ∀ a ∈ as, a ∈ sh.arcs := fun a h => has a (List.mem_cons_of_mem _ h)
          by_cases hmiss : (a.follows && (S a.target).isNone) = true
          · rw [if_pos hmiss]
            obtain ⟨st', h1, h2, h3⟩ := ihas has' (g, seen) hst hwf
            refine ⟨st', h1, h2, fun b hb hb' => ?_⟩
            rcases List.mem_cons.1 hb with rfl | hb
            · rw [Bool.and_eq_true] at hmiss
              have h4 := hb' hmiss.1
              rw [Option.isNone_iff_eq_none] at hmiss
              rw [hmiss.2] at h4
              cases h4
            · exact h3 b hb hb'
          · rw [if_neg hmiss]
            have hseen : Seen S i a.target := by
              refine ⟨sh, hi, a, has a List.mem_cons_self, rfl, fun hf => ?_⟩
              rw [hf, Bool.true_and] at hmiss
              cases h : S a.target with
              | none => rw [h] at hmiss; exact absurd rfl hmiss
              | some _ => rfl
            have hwf' := addEdge_wf hwf i a.target (pol != a.flips)
            have hg1 : ∀ seen', (∀ n ∈ seen, n ∈ seen') →
                Grows S (g, seen) (g.addEdge i a.target (pol != a.flips), seen') := by
              intro seen' hs
              refine ⟨hwf', hs, fun x y h => (edge_addEdge ..).2 (Or.inl h), fun x y h => ?_⟩
              rcases (edge_addEdge ..).1 h with h | ⟨rfl, rfl⟩
              · exact Or.inl h
              · exact Or.inr hseen
            have hedge : (g.addEdge i a.target (pol != a.flips)).Edge i a.target :=
              (edge_addEdge ..).2 (Or.inr ⟨rfl, rfl⟩)
            by_cases hrec : (a.follows && !(decide (a.target ∈ seen))) = true
            · rw [if_pos hrec]
              rw [Bool.and_eq_true] at hrec
              have hns : a.target ∉ seen := by simpa using hrec.2
              have hsome : (S a.target).isSome := by
                obtain ⟨_, _, a', _, _, _⟩ := hseen
                rw [hrec.1, Bool.true_and] at hmiss
                cases h : S a.target with
                | none => rw [h] at hmiss; exact absurd rfl hmiss
                | some _ => rfl
              have hlt := unmet_cons (hL _ hsome) hns
              obtain ⟨st1, h1, h2, _⟩ := ih a.target (pol != a.flips)
                (g.addEdge i a.target (pol != a.flips), a.target :: seen) (by simp only; omega) hwf'
              rw [h1, Option.bind_some]
              have hgr := (hg1 (a.target :: seen) fun n h => List.mem_cons_of_mem _ h).trans h2
              obtain ⟨st2, h3, h4, h5⟩ := ihas has' st1
                (by have := unmet_mono (L := L) hgr.seen
                    simp only at this
                    omega) h2.wf
              refine ⟨st2, h3, hgr.trans h4, fun b hb hb' => ?_⟩
              rcases List.mem_cons.1 hb with rfl | hb
              · exact h4.old _ _ (h2.old _ _ hedge)
              · exact h5 b hb hb'
            · rw [if_neg hrec]
              obtain ⟨st2, h3, h4, h5⟩ := ihas has' (g.addEdge i a.target (pol != a.flips), seen) hst hwf'
              refine ⟨st2, h3, (hg1 seen fun _ => id).trans h4, fun b hb hb' => ?_⟩
              rcases List.mem_cons.1 hb with rfl | hb
              · exact h4.old _ _ hedge
              · exact h5 b hb hb'
      obtain ⟨st', h1, h2, h3⟩ := loop sh.arcs (fun _ => id) st hn hwf
      refine ⟨st', h1, h2, ?_⟩
      rintro b ⟨sh', h4, a, h5, rfl, h6⟩
      rw [hi] at h4
      injection h4 with h4
      subst h4
      exact h3 a h5 h6

theorem buildLoop_spec (L : List Nat) (hL : ∀ i, (S i).isSome → i ∈ L) (n : Nat) (hn : L.length < n) :
    ∀ (is : List Nat) (st : Dg × List Nat), st.1.WF → ∃ st', buildLoop S n is st = some st' ∧ Grows S st st' ∧
      ∀ i ∈ is, ∀ b, Seen S i b → st'.1.Edge i b := by
  intro is
  induction is with
  | nil => intro st h; exact ⟨st, rfl, .refl h, fun i hi => by cases hi⟩
  | cons i is ih =>
    intro st h
    have hle : unmet L st.2 ≤ L.length := List.countP_le_length
    obtain ⟨st1, h1, h2, h3⟩ := addEdges_spec L hL n i true st (by omega) h
    obtain ⟨st2, h4, h5, h6⟩ := ih st1 h2.wf
    refine ⟨st2, by simp only [buildLoop, h1, Option.bind_some]; exact h4, h2.trans h5, ?_⟩
    intro j hj b hb
    rcases List.mem_cons.1 hj with rfl | hj
    · exact h5.old _ _ (h3 b hb)
    · exact h6 j hj b hb

/-- The graph is built, and its edges are exactly the references. -/
theorem buildDg_spec (idxs : List Nat) (hidx : ∀ i, (S i).isSome → i ∈ idxs) (n : Nat) (hn : idxs.length < n) :
    ∃ g, buildDg S n idxs = some g ∧ g.WF ∧ ∀ a b, g.Edge a b ↔ Seen S a b := by
  obtain ⟨st, h1, h2, h3⟩ := buildLoop_spec (S := S) idxs hidx n hn idxs (⟨[], []⟩, [])
    ⟨List.nodup_nil, List.nodup_nil, fun e he => by cases he⟩
  refine ⟨st.1, by simp [buildDg, h1], h2.wf, fun a b => ⟨fun h => ?_, fun h => ?_⟩⟩
  · exact (h2.new a b h).resolve_left (by rintro ⟨c, hc⟩; cases hc)
  · have : a ∈ idxs := by
      obtain ⟨sh, hs, _⟩ := h
      exact hidx a (by rw [hs]; rfl)
    exact h3 a this b h

end

end Shacl

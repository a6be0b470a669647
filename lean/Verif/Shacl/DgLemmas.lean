import Verif.Shacl.DgSpec
import Mathlib.Data.List.Count
import Mathlib.Algebra.Order.BigOperators.Group.List

/-!
# Lemmas: levels of the dependency graph
-/

namespace Shacl

theorem countDown_spec : ∀ (D : List Nat) (cnt : Nat → Nat) (next : List Nat), (∀ n, D.count n ≤ cnt n) →
    ∃ extra : List Nat, countDown D (cnt, next) = some (fun n => cnt n - D.count n, next ++ extra) ∧
      extra.Nodup ∧ ∀ n, n ∈ extra ↔ n ∈ D ∧ cnt n = D.count n := by
  intro D
  induction D with
  | nil => intro cnt next _; exact ⟨[], by simp [countDown], List.nodup_nil, by simp⟩
  | cons n D ih =>
    intro cnt next h
    have hn := h n
    rw [List.count_cons_self] at hn
    have hne : cnt n ≠ 0 := by omega
    have hd : ∀ m, D.count m ≤ (fun m => if m = n then cnt n - 1 else cnt m) m := by
      intro m
      by_cases hm : m = n
      · subst hm; simp only [if_true]; omega
      · have := h m
        rw [List.count_cons_of_ne (Ne.symm hm)] at this
        simpa [hm] using this
    simp only [countDown, if_neg hne, if_true]
    have hcnt : (fun m => (if m = n then cnt n - 1 else cnt m) - D.count m) =
        fun m => cnt m - (n :: D).count m := by
      funext m
      by_cases hm : m = n
      · subst hm; rw [if_pos rfl, List.count_cons_self]; omega
      · rw [if_neg hm, List.count_cons_of_ne (Ne.symm hm)]
    by_cases h0 : cnt n - 1 = 0
    · rw [if_pos h0]
      obtain ⟨extra, h1, h2, h3⟩ := ih _ (next ++ [n]) hd
      refine ⟨n :: extra, ?_, ?_, ?_⟩
      · rw [h1, hcnt, List.append_assoc]; rfl
      · rw [List.nodup_cons]
        refine ⟨fun hm => ?_, h2⟩
        obtain ⟨h4, h5⟩ := (h3 n).1 hm
        simp only [if_true] at h5
        have := List.count_pos_iff.2 h4
        omega
      · intro m
        rw [List.mem_cons, h3 m]
        by_cases hm : m = n
        · subst hm
          simp only [true_or, List.mem_cons, true_and, true_iff, List.count_cons_self]
          omega
        · rw [List.count_cons_of_ne (Ne.symm hm)]
          simp [hm]
    · rw [if_neg h0]
      obtain ⟨extra, h1, h2, h3⟩ := ih _ next hd
      refine ⟨extra, by rw [h1, hcnt], h2, ?_⟩
      intro m
      rw [h3 m]
      by_cases hm : m = n
      · subst hm
        simp only [if_true, List.mem_cons, true_or, true_and, List.count_cons_self]
        constructor
        · rintro ⟨_, h⟩; omega
        · intro h
          have : 0 < D.count m := by omega
          exact ⟨List.count_pos_iff.1 this, by omega⟩
      · rw [List.count_cons_of_ne (Ne.symm hm)]
        simp [hm]

section
variable {g : Dg}

theorem mem_out (n m : Nat) : m ∈ g.out n ↔ g.Edge n m := by
  unfold Dg.out Dg.Edge
  simp only [List.mem_map, List.mem_filter, beq_iff_eq]
  constructor
  · rintro ⟨⟨a, b, c⟩, ⟨h1, h2⟩, h3⟩
    simp only at h2 h3
    subst h2; subst h3
    exact ⟨c, h1⟩
  · rintro ⟨b, h⟩; exact ⟨(n, m, b), ⟨h, rfl⟩, rfl⟩

theorem out_nodup (hg : g.WF) (n : Nat) : (g.out n).Nodup := by
  have h1 : (g.edges.filter fun e => e.1 == n).Nodup := (List.Nodup.of_map _ hg.pairs).filter _
  unfold Dg.out
  refine List.Nodup.map_on ?_ h1
  intro a ha b hb he
  simp only [List.mem_filter, beq_iff_eq] at ha hb
  exact List.inj_on_of_nodup_map hg.pairs ha.1 hb.1 (by rw [ha.2, hb.2, he])

theorem out_empty (hg : g.WF) {n : Nat} (h : n ∉ g.nodes) : g.out n = [] := by
  rw [List.eq_nil_iff_forall_not_mem]
  intro m hm
  obtain ⟨b, hb⟩ := (mem_out n m).1 hm
  exact h (hg.ends _ hb).1

theorem count_replicate_part (n k : Nat) (l : List Nat) :
    (l.map fun _ => k).count n = if k = n then l.length else 0 := by
  rw [List.map_const', List.count_replicate]
  by_cases h : k = n <;> simp [h]

theorem count_dependents (hg : g.WF) (d n : Nat) : (g.dependents d).count n = (g.out n).count d := by
  unfold Dg.dependents
  by_cases hn : n ∈ g.nodes
  · have hnd := hg.nodes
    revert hn hnd
    induction g.nodes with
    | nil => intro h; cases h
    | cons k ks ih =>
      intro hn hnd
      rw [List.nodup_cons] at hnd
      rw [List.flatMap_cons, List.count_append, count_replicate_part]
      have zero : ∀ ks : List Nat, n ∉ ks →
          (ks.flatMap fun k => ((g.out k).filter fun m => m == d).map fun _ => k).count n = 0 := by
        intro ks hks
        rw [List.count_eq_zero]
        intro h
        rw [List.mem_flatMap] at h
        obtain ⟨k, h1, h2⟩ := h
        rw [List.mem_map] at h2
        obtain ⟨_, _, h3⟩ := h2
        exact hks (h3 ▸ h1)
      rcases List.mem_cons.1 hn with rfl | h
      · rw [if_pos rfl, zero ks hnd.1, Nat.add_zero, ← List.countP_eq_length_filter]; rfl
      · rw [if_neg (fun hk : k = n => hnd.1 (hk ▸ h)), ih h hnd.2, Nat.zero_add]
  · rw [out_empty hg hn, List.count_nil, List.count_eq_zero]
    intro h
    rw [List.mem_flatMap] at h
    obtain ⟨k, h1, h2⟩ := h
    rw [List.mem_map] at h2
    obtain ⟨_, _, h3⟩ := h2
    exact hn (h3 ▸ h1)

theorem count_flatMap_dependents (hg : g.WF) (n : Nat) : ∀ (cur : List Nat), cur.Nodup →
    (cur.flatMap g.dependents).count n = (g.out n).countP fun m => m ∈ cur := by
  intro cur
  induction cur with
  | nil => intro _; simp
  | cons d cur ih =>
    intro hnd
    rw [List.nodup_cons] at hnd
    rw [List.flatMap_cons, List.count_append, count_dependents hg, ih hnd.2]
    have : ∀ l : List Nat, l.count d + l.countP (fun m => m ∈ cur) = l.countP fun m => m ∈ d :: cur := by
      intro l
      induction l with
      | nil => rfl
      | cons m l ihl =>
        rw [List.count_cons, List.countP_cons, List.countP_cons, ← ihl]
        by_cases hm : m = d
        · subst hm
          simp [hnd.1]; omega
        · simp [hm]; omega
    exact this _

/-- All chains from the node have fewer than `i` edges. -/
def below (g : Dg) : Nat → Nat → Bool
  | 0, _ => false
  | i + 1, n => (g.out n).all (below g i)

theorem below_mono : ∀ (i n : Nat), below g i n = true → below g (i + 1) n = true := by
  intro i
  induction i with
  | zero => intro n h; cases h
  | succ i ih =>
    intro n h
    simp only [below, List.all_eq_true] at h ⊢
    intro m hm
    have := ih m (h m hm)
    simpa only [below, List.all_eq_true] using this

theorem below_le {i j : Nat} (h : i ≤ j) (n : Nat) (hb : below g i n = true) : below g j n = true := by
  induction h with
  | refl => exact hb
  | step _ ih => exact below_mono _ _ ih

/-- The nodes of level `i`. -/
def layer (g : Dg) (i : Nat) : List Nat :=
  (g.nodes.filter fun n => below g (i + 1) n && !below g i n).insertionSort (· ≤ ·)

theorem mem_layer (i n : Nat) : n ∈ layer g i ↔ n ∈ g.nodes ∧ below g (i + 1) n = true ∧ below g i n = false := by
  unfold layer
  rw [(List.perm_insertionSort _ _).mem_iff]
  simp

theorem layer_nodup (hg : g.WF) (i : Nat) : (layer g i).Nodup :=
  (List.perm_insertionSort _ _).nodup_iff.2 (hg.nodes.filter _)

theorem sort_eq {l l' : List Nat} (h1 : l.Nodup) (h2 : l'.Nodup) (h : ∀ n, n ∈ l ↔ n ∈ l') :
    l.insertionSort (· ≤ ·) = l'.insertionSort (· ≤ ·) := by
  have hp : l.Perm l' := (List.perm_ext_iff_of_nodup h1 h2).2 h
  have h3 := List.pairwise_insertionSort (· ≤ ·) l
  have h4 := List.pairwise_insertionSort (· ≤ ·) l'
  exact List.Perm.eq_of_pairwise (fun a b _ _ hab hba => Nat.le_antisymm hab hba) h3 h4
    ((List.perm_insertionSort _ l).trans (hp.trans (List.perm_insertionSort _ l').symm))

/-- The targets of a node that are not done before level `i`. -/
def pending (g : Dg) (i n : Nat) : Nat := (g.out n).countP fun m => !below g i m

theorem pending_zero (i n : Nat) : pending g i n = 0 ↔ below g (i + 1) n = true := by
  unfold pending
  rw [List.countP_eq_zero]
  simp [below]

theorem edge_node (hg : g.WF) {n m : Nat} (h : m ∈ g.out n) : m ∈ g.nodes := by
  obtain ⟨b, hb⟩ := (mem_out n m).1 h
  exact (hg.ends _ hb).2

theorem pending_step (hg : g.WF) (i n : Nat) :
    pending g i n = pending g (i + 1) n + (g.out n).countP fun m => m ∈ layer g i := by
  unfold pending
  have : ∀ l : List Nat, (∀ m ∈ l, m ∈ g.nodes) → (l.countP fun m => !below g i m) =
      (l.countP fun m => !below g (i + 1) m) + l.countP fun m => m ∈ layer g i := by
    intro l
    induction l with
    | nil => intro _; rfl
    | cons m l ih =>
      intro hl
      rw [List.countP_cons, List.countP_cons, List.countP_cons, ih fun m hm => hl m (List.mem_cons_of_mem _ hm)]
      have hm := mem_layer (g := g) i m
      have hmn := hl m List.mem_cons_self
      have hmono := below_mono (g := g) i m
      by_cases h1 : below g i m = true
      · have h2 := hmono h1
        have : m ∉ layer g i := by rw [hm]; simp [h1]
        simp [h1, h2, this]
      · have h1' : below g i m = false := by simpa using h1
        by_cases h2 : below g (i + 1) m = true
        · have : m ∈ layer g i := by rw [hm]; exact ⟨hmn, h2, h1'⟩
          simp [h1', h2, this]; omega
        · have h2' : below g (i + 1) m = false := by simpa using h2
          have : m ∉ layer g i := by rw [hm]; simp [h2']
          simp [h1', h2', this]; omega
  exact this _ fun m hm => edge_node hg hm

theorem mem_dependents (hg : g.WF) (n : Nat) (cur : List Nat) (hc : cur.Nodup) :
    n ∈ cur.flatMap g.dependents ↔ ∃ m ∈ g.out n, m ∈ cur := by
  rw [← List.count_pos_iff, count_flatMap_dependents hg n cur hc, List.countP_pos_iff]
  simp

/-- The nodes that are not done before level `i`. -/
def left (g : Dg) (i : Nat) : Nat := g.nodes.countP fun n => !below g i n

theorem left_lt (i : Nat) (h : layer g i ≠ []) : left g (i + 1) < left g i := by
  obtain ⟨n, hn⟩ := List.exists_mem_of_ne_nil _ h
  obtain ⟨h1, h2, h3⟩ := (mem_layer i n).1 hn
  unfold left
  have mono : ∀ l : List Nat, l.countP (fun n => !below g (i + 1) n) ≤ l.countP fun n => !below g i n := by
    intro l
    apply List.countP_mono_left
    intro m _ hm
    simp only [Bool.not_eq_true'] at hm ⊢
    by_contra hc
    rw [below_mono i m (by simpa using hc)] at hm
    cases hm
  obtain ⟨a, b, hab⟩ := List.append_of_mem h1
  rw [hab, List.countP_append, List.countP_append, List.countP_cons, List.countP_cons]
  have := mono a
  have := mono b
  simp [h2, h3]
  omega

theorem layers_end {k : Nat} (hg : g.WF) (h : layer g k = []) : ∀ j, k ≤ j → layer g j = [] := by
  have same : ∀ j, k ≤ j → ∀ n ∈ g.nodes, below g j n = below g k n := by
    intro j hj
    induction hj with
    | refl => intro n _; rfl
    | @step j hj ih =>
      intro n hn
      have hk : below g (k + 1) n = below g k n := by
        by_cases h1 : below g k n = true
        · rw [h1, below_mono k n h1]
        · by_contra hne
          have h1' : below g k n = false := by simpa using h1
          have h2 : below g (k + 1) n = true := by rw [h1'] at hne; simpa using hne
          have : n ∈ layer g k := (mem_layer k n).2 ⟨hn, h2, h1'⟩
          rw [h] at this; cases this
      rw [← hk]
      simp only [below]
      rw [Bool.eq_iff_iff, List.all_eq_true, List.all_eq_true]
      exact forall_congr' fun m => imp_congr_right fun hm => by rw [ih m (edge_node hg hm)]
  intro j hj
  rw [List.eq_nil_iff_forall_not_mem]
  intro n hn
  obtain ⟨h1, h2, h3⟩ := (mem_layer j n).1 hn
  rw [same (j + 1) (by omega) n h1] at h2
  rw [same j hj n h1, h2] at h3
  cases h3

theorem levelLoop_spec (hg : g.WF) : ∀ (f i : Nat) (cnt : Nat → Nat), left g i < f → (∀ n, cnt n = pending g i n) →
    ∃ k, levelLoop g f cnt (layer g i) = some ((List.range' i k).map (layer g)) ∧
      (∀ j, i ≤ j → j < i + k → layer g j ≠ []) ∧ layer g (i + k) = [] := by
  intro f
  induction f with
  | zero => intro i cnt h; omega
  | succ f ih =>
    intro i cnt hf hcnt
    simp only [levelLoop]
    by_cases he : layer g i = []
    · rw [if_pos (by rw [he]; rfl)]
      exact ⟨0, rfl, fun j h1 h2 => by omega, by simpa using he⟩
    · rw [if_neg (by simpa using he)]
      have hnd := layer_nodup hg i
      have hD : ∀ n, ((layer g i).flatMap g.dependents).count n ≤ cnt n := by
        intro n
        rw [count_flatMap_dependents hg n _ hnd, hcnt n, pending_step hg i n]
        omega
      obtain ⟨extra, h1, h2, h3⟩ := countDown_spec _ cnt [] hD
      rw [h1]
      simp only [Option.bind_some, List.nil_append]
      have hnext : extra.insertionSort (· ≤ ·) = layer g (i + 1) := by
        refine sort_eq h2 (hg.nodes.filter _) fun n => ?_
        rw [h3 n, mem_dependents hg n _ hnd, count_flatMap_dependents hg n _ hnd, hcnt n, pending_step hg i n]
        simp only [List.mem_filter, Bool.and_eq_true, Bool.not_eq_true']
        have hp := pending_zero (g := g) (i + 1) n
        have hp0 := pending_zero (g := g) i n
        have hs := pending_step hg i n
        have hpos : (∃ m ∈ g.out n, m ∈ layer g i) ↔ 0 < (g.out n).countP fun m => m ∈ layer g i := by
          rw [List.countP_pos_iff]; simp
        rw [hpos]
        constructor
        · rintro ⟨h4, h5⟩
          refine ⟨?_, hp.1 (by omega), ?_⟩
          · by_contra hn
            rw [out_empty hg hn] at h4
            simp at h4
          · by_contra hne
            have := hp0.2 (by simpa using hne)
            omega
        · rintro ⟨_, h4, h5⟩
          have h6 := hp.2 h4
          have h7 : pending g i n ≠ 0 := by
            intro h7
            rw [hp0.1 h7] at h5
            cases h5
          omega
      rw [hnext]
      obtain ⟨k, h4, h5, h6⟩ := ih (i + 1) (fun n => cnt n - ((layer g i).flatMap g.dependents).count n)
        (by have := left_lt i he; omega) (fun n => by
          show cnt n - _ = _
          rw [count_flatMap_dependents hg n _ hnd, hcnt n, pending_step hg i n]; omega)
      refine ⟨k + 1, ?_, ?_, ?_⟩
      · rw [h4]; rfl
      · intro j hj1 hj2
        by_cases hji : j = i
        · subst hji; exact he
        · exact h5 j (by omega) (by omega)
      · rw [← h6]; congr 1; omega

/-- The levels are the layers, up to the first empty one. -/
theorem levels_spec (hg : g.WF) : ∃ k, g.levels = some ((List.range k).map (layer g)) ∧
    (∀ j, j < k → layer g j ≠ []) ∧ ∀ j, k ≤ j → layer g j = [] := by
  have h0 : (g.nodes.filter fun n => (g.out n).length == 0).insertionSort (· ≤ ·) = layer g 0 := by
    refine sort_eq (hg.nodes.filter _) (hg.nodes.filter _) fun n => ?_
    simp only [List.mem_filter, beq_iff_eq, below, Bool.not_false, Bool.and_true]
    refine and_congr_right fun _ => ?_
    rw [List.length_eq_zero_iff]
    cases g.out n <;> simp
  unfold Dg.levels
  rw [h0]
  obtain ⟨k, h1, h2, h3⟩ := levelLoop_spec hg (g.nodes.length + 1) 0 (fun n => (g.out n).length)
    (by have : left g 0 ≤ g.nodes.length := List.countP_le_length
        omega)
    (fun n => by simp [pending, below])
  refine ⟨k, ?_, fun j hj => h2 j (by omega) (by omega), layers_end hg (by simpa using h3)⟩
  rw [h1, List.range_eq_range']

/-! ## Chains -/

theorem below_iff : ∀ (i n : Nat), below g i n = true ↔ ∀ k, Chain g.Edge n k → k < i := by
  intro i
  induction i with
  | zero =>
    intro n
    simp only [below, Bool.false_eq_true, false_iff]
    intro h
    exact absurd (h 0 (.nil n)) (by omega)
  | succ i ih =>
    intro n
    simp only [below, List.all_eq_true]
    constructor
    · intro h k hk
      cases hk with
      | nil => omega
      | @cons _ m k hm hk => have := (ih m).1 (h m ((mem_out n m).2 hm)) k hk; omega
    · intro h m hm
      rw [ih m]
      intro k hk
      have := h (k + 1) (.cons ((mem_out n m).1 hm) hk)
      omega

theorem Chain.shorten {R : Nat → Nat → Prop} {n k : Nat} (h : Chain R n k) : ∀ j ≤ k, Chain R n j := by
  induction h with
  | nil n => intro j hj; obtain rfl : j = 0 := by omega
             exact .nil n
  | cons hm _ ih =>
    intro j hj
    cases j with
    | zero => exact .nil _
    | succ j => exact .cons hm (ih j (by omega))

theorem chain_of_reach {R : Nat → Nat → Prop} {n m k : Nat} (h : Relation.ReflTransGen R n m) (hc : Chain R m k) :
    ∃ k', k ≤ k' ∧ Chain R n k' := by
  induction h using Relation.ReflTransGen.head_induction_on with
  | refl => exact ⟨k, Nat.le_refl k, hc⟩
  | head h _ ih => obtain ⟨k', h1, h2⟩ := ih; exact ⟨k' + 1, by omega, .cons h h2⟩

theorem chain_of_cycle {R : Nat → Nat → Prop} {m : Nat} (h : Relation.TransGen R m m) : ∀ k, Chain R m k := by
  intro k
  have : ∃ k', k ≤ k' ∧ Chain R m k' := by
    induction k with
    | zero => exact ⟨0, Nat.le_refl 0, .nil m⟩
    | succ k ih =>
      obtain ⟨k', h1, h2⟩ := ih
      obtain ⟨b, h3, h4⟩ := Relation.TransGen.head'_iff.1 h
      obtain ⟨k2, h5, h6⟩ := chain_of_reach h4 h2
      exact ⟨k2 + 1, by omega, .cons h3 h6⟩
  obtain ⟨k', h1, h2⟩ := this
  exact h2.shorten k h1

/-- The nodes along a chain. -/
theorem chain_nodes {R : Nat → Nat → Prop} {n k : Nat} (h : Chain R n k) :
    ∃ l : List Nat, l.length = k + 1 ∧ l.head? = some n ∧ l.IsChain R := by
  induction h with
  | nil n => exact ⟨[n], rfl, rfl, List.IsChain.singleton n⟩
  | @cons n m k hm _ ih =>
    obtain ⟨l, h1, h2, h3⟩ := ih
    refine ⟨n :: l, by simp [h1], rfl, ?_⟩
    cases l with
    | nil => cases h2
    | cons a l =>
      simp only [List.head?_cons, Option.some.injEq] at h2
      subst h2
      exact List.IsChain.cons_cons hm h3

theorem isChain_reach {R : Nat → Nat → Prop} : ∀ {l : List Nat} {a : Nat}, (a :: l).IsChain R → ∀ b ∈ l,
    Relation.TransGen R a b := by
  intro l
  induction l with
  | nil => intro a _ b hb; cases hb
  | cons c l ih =>
    intro a h b hb
    rw [List.isChain_cons_cons] at h
    rcases List.mem_cons.1 hb with rfl | hb
    · exact .single h.1
    · exact .head h.1 (ih h.2 b hb)

/-- A chain longer than the number of nodes meets a node twice. -/
theorem cycle_of_long {R : Nat → Nat → Prop} {n k : Nat} (nodes : List Nat) (hR : ∀ a b, R a b → a ∈ nodes ∧ b ∈ nodes)
    (h : Chain R n k) (hk : nodes.length < k) : ReachesCycle R n := by
  obtain ⟨l, h1, h2, h3⟩ := chain_nodes h
  obtain ⟨a, l', rfl⟩ : ∃ a l', l = a :: l' := by
    cases l with
    | nil => cases h2
    | cons a l' => exact ⟨a, l', rfl⟩
  simp only [List.head?_cons, Option.some.injEq] at h2
  subst h2
  have hmem : ∀ {l : List Nat} {a : Nat}, (a :: l).IsChain R → ∀ b ∈ l, b ∈ nodes := by
    intro l
    induction l with
    | nil => intro a _ b hb; cases hb
    | cons c l ih =>
      intro a h b hb
      rw [List.isChain_cons_cons] at h
      rcases List.mem_cons.1 hb with rfl | hb
      · exact (hR _ _ h.1).2
      · exact ih h.2 b hb
  have hdup : ¬ l'.Nodup := by
    intro hnd
    have := (List.subperm_of_subset hnd (hmem h3)).length_le
    simp only [List.length_cons] at h1
    omega
  -- two equal nodes on the chain
  have find : ∀ {l : List Nat} {a : Nat}, (a :: l).IsChain R → ¬ l.Nodup → ∃ b ∈ l, Relation.TransGen R b b := by
    intro l
    induction l with
    | nil => intro a _ h; exact absurd List.nodup_nil h
    | cons c l ih =>
      intro a h hn
      rw [List.isChain_cons_cons] at h
      rw [List.nodup_cons] at hn
      by_cases hc : c ∈ l
      · exact ⟨c, List.mem_cons_self, isChain_reach h.2 c hc⟩
      · obtain ⟨b, h4, h5⟩ := ih h.2 (fun h6 => hn ⟨hc, h6⟩)
        exact ⟨b, List.mem_cons_of_mem _ h4, h5⟩
  obtain ⟨b, h4, h5⟩ := find h3 hdup
  exact ⟨b, (isChain_reach h3 b h4).to_reflTransGen, h5⟩

end

end Shacl

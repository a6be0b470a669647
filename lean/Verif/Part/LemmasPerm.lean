import Verif.Part.LemmasIter
import Mathlib.Data.List.Permutation
import Mathlib.Data.Finset.Card
import Mathlib.Data.List.Lex
import Mathlib.Order.RelClasses

/-!
# Helper lemmas: lexicographic permutation stepping
-/

namespace Part

theorem getD_eq_getElem {l : List Nat} {i : Nat} (h : i < l.length) : l.getD i 0 = l[i] := by
  simp [List.getD_eq_getElem?_getD, h]

theorem pivot_some {a : List Nat} {i p : Nat} (h : pivot a i = some p) :
    p ≤ i ∧ a.getD p 0 < a.getD (p + 1) 0 ∧
      ∀ q, p < q → q ≤ i → a.getD (q + 1) 0 ≤ a.getD q 0 := by
  induction i with
  | zero =>
    simp only [pivot] at h
    split at h
    · cases h; rename_i h1; exact ⟨le_rfl, h1, fun q h1 h2 => by omega⟩
    · cases h
  | succ i ih =>
    simp only [pivot] at h
    split at h
    · cases h; rename_i h1; exact ⟨le_rfl, h1, fun q h1 h2 => by omega⟩
    · rename_i h1
      obtain ⟨h2, h3, h4⟩ := ih h
      refine ⟨by omega, h3, fun q hq1 hq2 => ?_⟩
      by_cases hq : q = i + 1
      · subst hq; exact Nat.le_of_not_lt h1
      · exact h4 q hq1 (by omega)

theorem pivot_none {a : List Nat} {i : Nat} (h : pivot a i = none) :
    ∀ q ≤ i, a.getD (q + 1) 0 ≤ a.getD q 0 := by
  induction i with
  | zero =>
    simp only [pivot] at h
    split at h
    · cases h
    · intro q hq
      have : q = 0 := by omega
      subst this; rename_i h1; exact Nat.le_of_not_lt h1
  | succ i ih =>
    simp only [pivot] at h
    split at h
    · cases h
    · rename_i h1
      intro q hq
      by_cases hq' : q = i + 1
      · subst hq'; exact Nat.le_of_not_lt h1
      · exact ih h q (by omega)

theorem lastAbove_spec {a : List Nat} {x : Nat} {i n : Nat} (hi : i ≤ n) (h0 : 0 < i)
    (hx : x < a.getD i 0) :
    i ≤ lastAbove a x n ∧ lastAbove a x n ≤ n ∧ x < a.getD (lastAbove a x n) 0 ∧
      ∀ q, lastAbove a x n < q → q ≤ n → a.getD q 0 ≤ x := by
  induction n with
  | zero => omega
  | succ n ih =>
    simp only [lastAbove]
    split
    · rename_i h
      have hin : i ≤ n := by
        by_contra hc
        have : i = n + 1 := by omega
        subst this; omega
      obtain ⟨h1, h2, h3, h4⟩ := ih hin
      refine ⟨h1, by omega, h3, fun q hq1 hq2 => ?_⟩
      by_cases hq : q = n + 1
      · subst hq; exact h
      · exact h4 q hq1 (by omega)
    · rename_i h
      exact ⟨hi, le_rfl, by omega, fun q h1 h2 => by omega⟩

/-- Adjacent comparisons give a sorted tail. -/
theorem pairwise_ge_of_adjacent (l : List Nat)
    (h : ∀ q, q + 1 < l.length → l.getD (q + 1) 0 ≤ l.getD q 0) : l.Pairwise (· ≥ ·) := by
  induction l with
  | nil => exact .nil
  | cons x l ih =>
    have ih := ih (fun q hq => by
      have := h (q + 1) (by simpa using hq)
      simpa using this)
    cases l with
    | nil => simp
    | cons y l =>
      have h0 := h 0 (by simp)
      simp only [List.getD_cons_succ, List.getD_cons_zero] at h0
      refine .cons ?_ ih
      intro z hz
      rcases List.mem_cons.1 hz with rfl | hz
      · exact h0
      · have := (List.pairwise_cons.1 ih).1 z hz
        omega

theorem nextPermutation_none {a : List Nat} (h : nextPermutation a = none) :
    a.Pairwise (· ≥ ·) := by
  simp only [nextPermutation] at h
  split at h
  · rename_i hl
    match a, hl with
    | [], _ => exact .nil
    | [x], _ => simp
  · rename_i hl
    split at h
    · rename_i hp
      have := pivot_none hp
      exact pairwise_ge_of_adjacent a (fun q hq => this q (by omega))
    · cases h

theorem nextPermutation_some {a b : List Nat} (h : nextPermutation a = some b) :
    ∃ pre x s1 y s2, a = pre ++ x :: (s1 ++ y :: s2) ∧ (s1 ++ y :: s2).Pairwise (· ≥ ·) ∧
      x < y ∧ (∀ z ∈ s2, z ≤ x) ∧ b = pre ++ y :: (s1 ++ x :: s2).reverse := by
  simp only [nextPermutation] at h
  split at h
  · cases h
  · rename_i hl
    split at h
    · cases h
    · rename_i i hp
      obtain ⟨h1, h2, h3⟩ := pivot_some hp
      have hi1 : i + 1 < a.length := by omega
      obtain ⟨j1, j2, j3, j4⟩ := lastAbove_spec (a := a) (x := a.getD i 0) (i := i + 1)
        (n := a.length - 1) (by omega) (by omega) h2
      generalize lastAbove a (a.getD i 0) (a.length - 1) = j at *
      have hj : j < a.length := by omega
      -- decomposition of `a`
      have ha : a = a.take i ++ a[i] :: a.drop (i + 1) := by
        rw [← List.drop_eq_getElem_cons (by omega), List.take_append_drop]
      have hs : a.drop (i + 1) = (a.drop (i + 1)).take (j - (i + 1)) ++ a[j] :: a.drop (j + 1) := by
        conv_lhs => rw [← List.take_append_drop (j - (i + 1)) (a.drop (i + 1))]
        rw [List.drop_drop, show i + 1 + (j - (i + 1)) = j by omega,
          List.drop_eq_getElem_cons hj]
      refine ⟨a.take i, a[i], (a.drop (i + 1)).take (j - (i + 1)), a[j], a.drop (j + 1),
        by rw [← hs]; exact ha, ?_, ?_, ?_, ?_⟩
      · rw [← hs]
        apply pairwise_ge_of_adjacent
        intro q hq
        have := h3 (i + 1 + q) (by omega) (by simp at hq; omega)
        simp only [List.getD_eq_getElem?_getD, List.getElem?_drop]
        simpa only [List.getD_eq_getElem?_getD, Nat.add_assoc] using this
      · rw [getD_eq_getElem (by omega), getD_eq_getElem hj] at j3
        exact j3
      · intro z hz
        rw [List.mem_iff_getElem] at hz
        obtain ⟨q, hq, rfl⟩ := hz
        simp only [List.length_drop] at hq
        have := j4 (j + 1 + q) (by omega) (by omega)
        rw [getD_eq_getElem (by omega), getD_eq_getElem (by omega)] at this
        simpa using this
      · simp only [Option.some.injEq] at h
        rw [← h, getD_eq_getElem hj, getD_eq_getElem (show i < a.length by omega)]
        have hset : (a.set i a[j]).set j a[i] =
            a.take i ++ a[j] :: ((a.drop (i + 1)).take (j - (i + 1)) ++ a[i] :: a.drop (j + 1)) := by
          have e1 : a.set i a[j] = a.take i ++ a[j] :: a.drop (i + 1) := by
            rw [List.set_eq_take_append_cons_drop, if_pos (by omega)]
          have hlen : (a.take i).length = i := by simp; omega
          rw [e1, List.set_append_right _ _ (by omega), hlen,
            show j - i = (j - (i + 1)) + 1 by omega, List.set_cons_succ]
          congr 2
          rw [List.set_eq_take_append_cons_drop, if_pos (by simp; omega), List.drop_drop,
            show i + 1 + (j - (i + 1) + 1) = j + 1 by omega]
        rw [hset]
        have hlen : (a.take i ++ [a[j]]).length = i + 1 := by simp; omega
        generalize (a.drop (i + 1)).take (j - (i + 1)) ++ a[i] :: a.drop (j + 1) = t
        have e2 : a.take i ++ a[j] :: t = (a.take i ++ [a[j]]) ++ t := by simp
        rw [e2, List.take_left' hlen, List.drop_left' hlen]
        simp

/-! ## Lexicographic order -/

theorem desc_max {l c : List Nat} (h : l.Pairwise (· ≥ ·)) (hp : c.Perm l) : ¬ l < c := by
  induction l generalizing c with
  | nil => have := hp.eq_nil; subst this; simp
  | cons x l ih =>
    cases c with
    | nil => simp
    | cons y c =>
      intro hlt
      rw [List.cons_lt_cons_iff] at hlt
      rcases hlt with hlt | ⟨rfl, hlt⟩
      · have : y ∈ x :: l := hp.subset (by simp)
        rcases List.mem_cons.1 this with rfl | hy
        · omega
        · have := (List.pairwise_cons.1 h).1 y hy
          omega
      · exact ih (List.pairwise_cons.1 h).2 (hp.cons_inv) hlt

theorem asc_min {l c : List Nat} (h : l.Pairwise (· ≤ ·)) (hp : c.Perm l) : ¬ c < l := by
  induction l generalizing c with
  | nil => have := hp.eq_nil; subst this; simp
  | cons x l ih =>
    cases c with
    | nil => exact absurd hp.symm.eq_nil (by simp)
    | cons y c =>
      intro hlt
      rw [List.cons_lt_cons_iff] at hlt
      rcases hlt with hlt | ⟨rfl, hlt⟩
      · have : y ∈ x :: l := hp.subset (by simp)
        rcases List.mem_cons.1 this with rfl | hy
        · omega
        · have := (List.pairwise_cons.1 h).1 y hy
          omega
      · exact ih (List.pairwise_cons.1 h).2 (hp.cons_inv) hlt

theorem nextPermutation_perm {a b : List Nat} (h : nextPermutation a = some b) : b.Perm a := by
  obtain ⟨pre, x, s1, y, s2, rfl, _, _, _, rfl⟩ := nextPermutation_some h
  refine List.Perm.append_left pre ?_
  refine (List.Perm.cons y (List.reverse_perm _)).trans ?_
  refine (List.Perm.cons y List.perm_middle).trans ?_
  refine (List.Perm.swap x y _).trans ?_
  exact List.Perm.cons x List.perm_middle.symm

theorem append_lt_append (pre : List Nat) {s t : List Nat} (h : s < t) : pre ++ s < pre ++ t := by
  induction pre with
  | nil => exact h
  | cons x pre ih => exact List.cons_lt_cons_iff.2 (Or.inr ⟨rfl, ih⟩)

theorem nextPermutation_lt {a b : List Nat} (h : nextPermutation a = some b) : a < b := by
  obtain ⟨pre, x, s1, y, s2, rfl, _, hxy, _, rfl⟩ := nextPermutation_some h
  exact append_lt_append pre (List.cons_lt_cons_iff.2 (Or.inl hxy))

/-- Nothing lies strictly between an arrangement and its successor. -/
theorem nextPermutation_succ {a b c : List Nat} (h : nextPermutation a = some b) (hp : c.Perm a)
    (hlt : a < c) : ¬ c < b := by
  obtain ⟨pre, x, s1, y, s2, rfl, hd, hxy, hs2, rfl⟩ := nextPermutation_some h
  clear h
  induction pre generalizing c with
  | nil =>
    simp only [List.nil_append] at *
    cases c with
    | nil => simp at hlt
    | cons z c =>
      rw [List.cons_lt_cons_iff] at hlt ⊢
      rcases hlt with hlt | ⟨rfl, hlt⟩
      · have hz : z ∈ x :: (s1 ++ y :: s2) := hp.subset (by simp)
        have hzy : y ≤ z := by
          rcases List.mem_cons.1 hz with rfl | hz
          · omega
          · rcases List.mem_append.1 hz with hz | hz
            · exact (List.pairwise_append.1 hd).2.2 z hz y (by simp)
            · rcases List.mem_cons.1 hz with rfl | hz
              · exact le_rfl
              · have := hs2 z hz; omega
        rintro (h1 | ⟨rfl, h1⟩)
        · omega
        · refine asc_min ?_ ?_ h1
          · rw [List.pairwise_reverse]
            rw [List.pairwise_append, List.pairwise_cons] at hd ⊢
            obtain ⟨d1, ⟨d2, d3⟩, d4⟩ := hd
            refine ⟨d1, ⟨fun w hw => hs2 w hw, d3⟩, fun u hu w hw => ?_⟩
            rcases List.mem_cons.1 hw with rfl | hw
            · have := d4 u hu z (by simp); show w ≤ u; omega
            · exact d4 u hu w (by simp [hw])
          · refine List.Perm.trans ?_ (List.reverse_perm _).symm
            have h2 : (z :: c).Perm (z :: (s1 ++ x :: s2)) := by
              refine hp.trans ?_
              refine (List.Perm.cons x List.perm_middle).trans ?_
              refine (List.Perm.swap z x _).trans ?_
              exact List.Perm.cons z List.perm_middle.symm
            exact h2.cons_inv
      · exact absurd hlt (desc_max hd hp.cons_inv)
  | cons p pre ih =>
    cases c with
    | nil => simp at hlt
    | cons z c =>
      simp only [List.cons_append, List.cons_lt_cons_iff] at hlt ⊢
      rcases hlt with hlt | ⟨rfl, hlt⟩
      · rintro (h1 | ⟨h1, _⟩) <;> omega
      · rintro (h1 | ⟨_, h1⟩)
        · omega
        · exact ih hp.cons_inv hlt h1

theorem lt_trichotomy' (a b : List Nat) : a < b ∨ a = b ∨ b < a := lt_trichotomy a b

/-- From any arrangement, stepping visits that arrangement and all greater ones, in order. -/
theorem orbit_nextPermutation (a : List Nat) :
    ∃ L, Orbit nextPermutation a L ∧ L.Pairwise (· < ·) ∧
      ∀ c, c ∈ L ↔ c.Perm a ∧ (c = a ∨ a < c) := by
  classical
  induction hn : ((a.permutations.toFinset.filter fun c => a < c).card) using
    Nat.strong_induction_on generalizing a with
  | _ n ih =>
    cases h : nextPermutation a with
    | none =>
      refine ⟨[a], .last h, by simp, fun c => ?_⟩
      rw [List.mem_singleton]
      constructor
      · rintro rfl; exact ⟨List.Perm.refl _, Or.inl rfl⟩
      · rintro ⟨hp, h1 | h1⟩
        · exact h1
        · exact absurd h1 (desc_max (nextPermutation_none h) hp)
    | some b =>
      have hlt := nextPermutation_lt h
      have hperm := nextPermutation_perm h
      have hcard : (b.permutations.toFinset.filter fun c => b < c).card < n := by
        rw [← hn]
        apply Finset.card_lt_card
        rw [Finset.ssubset_iff_of_subset]
        · refine ⟨b, ?_, ?_⟩
          · simp [List.mem_permutations, hperm, hlt]
          · simp
        · intro c hc
          simp only [Finset.mem_filter, List.mem_toFinset, List.mem_permutations] at hc ⊢
          exact ⟨hc.1.trans hperm, lt_trans hlt hc.2⟩
      obtain ⟨L, ho, hsort, hmem⟩ := ih _ hcard b rfl
      refine ⟨a :: L, .next h ho, ?_, fun c => ?_⟩
      · refine .cons ?_ hsort
        intro c hc
        rcases ((hmem c).1 hc).2 with rfl | h2
        · exact hlt
        · exact lt_trans hlt h2
      · rw [List.mem_cons, hmem]
        constructor
        · rintro (rfl | ⟨hp, h1⟩)
          · exact ⟨List.Perm.refl _, Or.inl rfl⟩
          · refine ⟨hp.trans hperm, Or.inr ?_⟩
            rcases h1 with rfl | h1
            · exact hlt
            · exact lt_trans hlt h1
        · rintro ⟨hp, rfl | h1⟩
          · exact Or.inl rfl
          · right
            refine ⟨hp.trans hperm.symm, ?_⟩
            rcases lt_trichotomy' c b with h2 | h2 | h2
            · exact absurd h2 (nextPermutation_succ h hp h1)
            · exact Or.inl h2
            · exact Or.inr h2

theorem orbit_sorted (l : List Nat) :
    ∃ L, Orbit nextPermutation (l.insertionSort (· ≤ ·)) L ∧ L.Pairwise (· < ·) ∧
      ∀ c, c ∈ L ↔ c.Perm l := by
  obtain ⟨L, h1, h2, h3⟩ := orbit_nextPermutation (l.insertionSort (· ≤ ·))
  refine ⟨L, h1, h2, fun c => ?_⟩
  rw [h3]
  have hp := List.perm_insertionSort (· ≤ ·) l
  constructor
  · rintro ⟨h, _⟩; exact h.trans hp
  · intro h
    refine ⟨h.trans hp.symm, ?_⟩
    rcases lt_trichotomy' c (l.insertionSort (· ≤ ·)) with h4 | h4 | h4
    · exact absurd h4 (asc_min (List.pairwise_insertionSort _ l) (h.trans hp.symm))
    · exact Or.inl h4
    · exact Or.inr h4

end Part

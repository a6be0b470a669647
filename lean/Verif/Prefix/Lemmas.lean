import Verif.Prefix.Spec
import Mathlib.Data.List.Basic
import Mathlib.Data.List.Nodup
import Mathlib.Data.List.Perm.Basic

/-!
# Lemmas: prefix maps
-/

namespace Prefix

/-! ## Strings -/

theorem blen_append (a b : Str) : blen (a ++ b) = blen a + blen b := by simp [blen]

theorem utf8Size_pos (c : Char) : 0 < c.utf8Size := Char.utf8Size_pos c

theorem length_le_blen (s : Str) : s.length ≤ blen s := by
  induction s with
  | nil => simp
  | cons c s ih =>
    have := utf8Size_pos c
    simp only [blen, List.map_cons, List.sum_cons, List.length_cons] at ih ⊢
    omega

theorem stripPrefix_iff (p s r : Str) : stripPrefix p s = some r ↔ s = p ++ r := by
  induction p generalizing s with
  | nil => simp [stripPrefix, eq_comm]
  | cons x p ih =>
    cases s with
    | nil => simp [stripPrefix]
    | cons c s =>
      simp only [stripPrefix]
      split
      · rename_i h; subst h; simp [ih]
      · rename_i h
        simp only [List.cons_append, List.cons.injEq, reduceCtorEq, false_iff, not_and]
        exact fun hc => absurd hc.symm h

theorem rsplitOnce_some (c : Char) (s a b : Str) :
    rsplitOnce c s = some (a, b) ↔ s = a ++ c :: b ∧ c ∉ b := by
  have hnone : ∀ s, rsplitOnce c s = none ↔ c ∉ s := by
    intro s
    induction s with
    | nil => simp [rsplitOnce]
    | cons x s ih =>
      simp only [rsplitOnce, List.mem_cons, not_or]
      cases h : rsplitOnce c s with
      | some r =>
        obtain ⟨a, b⟩ := r
        simp only [reduceCtorEq, false_iff, not_and]
        intro _ hc
        rw [ih.2 hc] at h
        cases h
      | none =>
        have := ih.1 h
        by_cases hx : x = c
        · simp [hx]
        · simp [hx, this, Ne.symm hx]
  induction s generalizing a with
  | nil => simp [rsplitOnce]
  | cons x s ih =>
    simp only [rsplitOnce]
    cases h : rsplitOnce c s with
    | some r =>
      obtain ⟨a', b'⟩ := r
      simp only [Option.some.injEq, Prod.mk.injEq]
      constructor
      · rintro ⟨rfl, rfl⟩
        obtain ⟨h1, h2⟩ := (ih a').1 h
        exact ⟨by rw [h1]; rfl, h2⟩
      · rintro ⟨h1, h2⟩
        cases a with
        | nil =>
          simp only [List.nil_append, List.cons.injEq] at h1
          rw [h1.2, (hnone b).2 h2] at h
          cases h
        | cons y a =>
          simp only [List.cons_append, List.cons.injEq] at h1
          obtain ⟨rfl, h1⟩ := h1
          rw [(ih a).2 ⟨h1, h2⟩] at h
          simp only [Option.some.injEq, Prod.mk.injEq] at h
          exact ⟨by rw [h.1], h.2.symm⟩
    | none =>
      have hn := (hnone s).1 h
      by_cases hx : x = c
      · subst hx
        simp only [if_true, Option.some.injEq, Prod.mk.injEq]
        constructor
        · rintro ⟨rfl, rfl⟩; exact ⟨rfl, hn⟩
        · rintro ⟨h1, _⟩
          cases a with
          | nil => simp only [List.nil_append, List.cons.injEq, true_and] at h1; exact ⟨rfl, h1⟩
          | cons y a =>
            simp only [List.cons_append, List.cons.injEq] at h1
            exact absurd (by rw [h1.2]; simp) hn
      · simp only [hx, if_false, reduceCtorEq, false_iff, not_and]
        intro h1
        cases a with
        | nil => simp only [List.nil_append, List.cons.injEq] at h1; exact absurd h1.1 hx
        | cons y a =>
          simp only [List.cons_append, List.cons.injEq] at h1
          exact absurd (by rw [h1.2]; simp) hn

theorem rsplitOnce_none (c : Char) (s : Str) : rsplitOnce c s = none ↔ c ∉ s := by
  constructor
  · intro h hc
    have : ∃ a b, s = a ++ c :: b ∧ c ∉ b := by
      clear h
      induction s with
      | nil => simp at hc
      | cons x s ih =>
        by_cases hs : c ∈ s
        · obtain ⟨a, b, h1, h2⟩ := ih hs
          exact ⟨x :: a, b, by rw [h1]; rfl, h2⟩
        · rcases List.mem_cons.1 hc with rfl | h
          · exact ⟨[], s, rfl, hs⟩
          · exact absurd h hs
    obtain ⟨a, b, hab⟩ := this
    rw [(rsplitOnce_some c s a b).2 hab] at h
    cases h
  · intro h
    cases hr : rsplitOnce c s with
    | none => rfl
    | some r =>
      obtain ⟨a, b⟩ := r
      have := ((rsplitOnce_some c s a b).1 hr).1
      exact absurd (by rw [this]; simp) h

theorem maxByKey_none {A : Type} (key : A → Nat) (l : List A) : maxByKey key l = none ↔ l = [] := by
  cases l <;> simp [maxByKey]

theorem maxByKey_some {A : Type} (key : A → Nat) (l : List A) (a : A) (h : maxByKey key l = some a) :
    a ∈ l ∧ ∀ b ∈ l, key b ≤ key a := by
  cases l with
  | nil => cases h
  | cons x xs =>
    simp only [maxByKey, Option.some.injEq] at h
    subst h
    have key' : ∀ (xs : List A) (x : A),
        (xs.foldl (fun best y => if key best ≤ key y then y else best) x) ∈ x :: xs ∧
        ∀ b ∈ x :: xs, key b ≤ key (xs.foldl (fun best y => if key best ≤ key y then y else best) x) := by
      intro xs
      induction xs with
      | nil => simp
      | cons y ys ih =>
        intro x
        simp only [List.foldl_cons]
        obtain ⟨h1, h2⟩ := ih (if key x ≤ key y then y else x)
        refine ⟨?_, fun b hb => ?_⟩
        · rcases List.mem_cons.1 h1 with h | h
          · rw [h]; split <;> simp
          · simp [h]
        · have h0 := h2 _ (List.mem_cons_self ..)
          simp only [List.mem_cons] at hb
          rcases hb with rfl | rfl | hb
          · refine Nat.le_trans ?_ h0; split <;> omega
          · refine Nat.le_trans ?_ h0; split <;> omega
          · exact h2 b (by simp [hb])
    exact key' xs x

/-! ## IndexMap -/

section
variable {K V : Type} [DecidableEq K]

theorem imGet_insert (k k' : K) (v : V) (m : List (K × V)) :
    imGet k' (imInsert k v m) = if k' = k then some v else imGet k' m := by
  induction m with
  | nil => simp only [imInsert, imGet]; by_cases h : k' = k <;> simp [h, eq_comm (a := k)]
  | cons e m ih =>
    by_cases h1 : e.1 = k
    · simp only [imInsert, h1, if_true, imGet]
      by_cases h2 : k' = k
      · simp [h2]
      · simp [h2, Ne.symm h2]
    · simp only [imInsert, h1, if_false, imGet, ih]
      by_cases h3 : e.1 = k'
      · have : k' ≠ k := h3 ▸ h1
        simp [h3, this]
      · simp [h3]

theorem imInsert_keys (k : K) (v : V) (m : List (K × V)) :
    (imInsert k v m).map Prod.fst = if k ∈ m.map Prod.fst then m.map Prod.fst else m.map Prod.fst ++ [k] := by
  induction m with
  | nil => simp [imInsert]
  | cons e m ih =>
    by_cases h1 : e.1 = k
    · simp [imInsert, h1]
    · simp only [imInsert, h1, if_false, List.map_cons, ih, List.mem_cons, Ne.symm h1, false_or]
      split <;> simp

theorem imInsert_nodup (k : K) (v : V) {m : List (K × V)} (h : (m.map Prod.fst).Nodup) :
    ((imInsert k v m).map Prod.fst).Nodup := by
  rw [imInsert_keys]
  split
  · exact h
  · rename_i hk
    rw [List.nodup_append]
    exact ⟨h, by simp, fun a ha b hb => by rw [List.mem_singleton] at hb; subst hb; rintro rfl; exact hk ha⟩

theorem imGet_none (k : K) (m : List (K × V)) : imGet k m = none ↔ k ∉ m.map Prod.fst := by
  induction m with
  | nil => simp [imGet]
  | cons e m ih =>
    by_cases h : e.1 = k
    · simp [imGet, h]
    · simp only [imGet, h, if_false, ih, List.map_cons, List.mem_cons, Ne.symm h, false_or]

theorem imGet_mem {m : List (K × V)} (h : (m.map Prod.fst).Nodup) (k : K) (v : V) :
    imGet k m = some v ↔ (k, v) ∈ m := by
  induction m with
  | nil => simp [imGet]
  | cons e m ih =>
    obtain ⟨k', v'⟩ := e
    simp only [List.map_cons, List.nodup_cons] at h
    simp only [imGet, List.mem_cons, Prod.mk.injEq]
    by_cases hk : k' = k
    · subst hk
      simp only [if_true, Option.some.injEq, true_and]
      constructor
      · exact fun h => Or.inl h.symm
      · rintro (h' | h')
        · exact h'.symm
        · exact absurd (List.mem_map.2 ⟨_, h', rfl⟩) h.1
    · simp [hk, Ne.symm hk, ih h.2]

theorem imRemove_eq {m : List (K × V)} (h : (m.map Prod.fst).Nodup) (k : K) :
    imRemove k m = m.filter fun e => decide (e.1 ≠ k) := by
  induction m with
  | nil => rfl
  | cons e m ih =>
    simp only [List.map_cons, List.nodup_cons] at h
    by_cases hk : e.1 = k
    · simp only [imRemove, hk, if_true, ne_eq, not_true_eq_false, decide_false, Bool.false_eq_true,
        not_false_eq_true, List.filter_cons_of_neg]
      rw [eq_comm, List.filter_eq_self]
      intro x hx
      simp only [decide_eq_true_eq]
      rintro hxk
      exact h.1 (by rw [hk, ← hxk]; exact List.mem_map.2 ⟨x, hx, rfl⟩)
    · simp [imRemove, hk, ih h.2]

theorem imRemove_nodup {m : List (K × V)} (h : (m.map Prod.fst).Nodup) (k : K) :
    ((imRemove k m).map Prod.fst).Nodup := by
  rw [imRemove_eq h]
  exact h.sublist (List.filter_sublist.map _)

theorem imGet_remove {m : List (K × V)} (h : (m.map Prod.fst).Nodup) (k k' : K) :
    imGet k' (imRemove k m) = if k' = k then none else imGet k' m := by
  apply Option.ext
  intro v
  rw [imGet_mem (imRemove_nodup h k), imRemove_eq h]
  by_cases hk : k' = k
  · simp [hk]
  · simp [hk, imGet_mem h]

theorem foldl_insert_nodup (l : List (K × V)) {m : List (K × V)} (h : (m.map Prod.fst).Nodup) :
    ((l.foldl (fun m e => imInsert e.1 e.2 m) m).map Prod.fst).Nodup := by
  induction l generalizing m with
  | nil => exact h
  | cons e l ih => exact ih (imInsert_nodup _ _ h)

theorem imGet_foldl {l : List (K × V)} (hl : (l.map Prod.fst).Nodup) (m : List (K × V)) (k : K) :
    imGet k (l.foldl (fun m e => imInsert e.1 e.2 m) m) = (imGet k l).or (imGet k m) := by
  induction l generalizing m with
  | nil => simp [imGet]
  | cons e l ih =>
    simp only [List.map_cons, List.nodup_cons] at hl
    rw [List.foldl_cons, ih hl.2, imGet_insert]
    simp only [imGet]
    by_cases hk : e.1 = k
    · have : imGet k l = none := (imGet_none k l).2 (hk ▸ hl.1)
      simp [hk, this]
    · simp [hk, Ne.symm hk]

theorem foldl_insert_append {l m : List (K × V)} (h : ((m ++ l).map Prod.fst).Nodup) :
    l.foldl (fun m e => imInsert e.1 e.2 m) m = m ++ l := by
  induction l generalizing m with
  | nil => simp
  | cons e l ih =>
    have hins : ∀ m : List (K × V), e.1 ∉ m.map Prod.fst → imInsert e.1 e.2 m = m ++ [e] := by
      intro m hm
      induction m with
      | nil => rfl
      | cons x m ihm =>
        simp only [List.map_cons, List.mem_cons, not_or] at hm
        simp [imInsert, Ne.symm hm.1, ihm hm.2]
    have hne : e.1 ∉ m.map Prod.fst := by
      simp only [List.map_append, List.map_cons] at h
      rw [List.nodup_append] at h
      exact fun hc => h.2.2 _ hc _ (List.mem_cons_self ..) rfl
    rw [List.foldl_cons, hins m hne, ih (by simpa using h)]
    simp

theorem imEq_iff [DecidableEq V] {m n : List (K × V)} (hm : (m.map Prod.fst).Nodup)
    (hn : (n.map Prod.fst).Nodup) : imEq m n = true ↔ m.Perm n := by
  simp only [imEq, Bool.and_eq_true, decide_eq_true_eq, List.all_eq_true]
  constructor
  · rintro ⟨hl, hsub⟩
    have : m ⊆ n := fun e he => (imGet_mem hn e.1 e.2).1 (hsub e he)
    exact (List.subperm_of_subset (List.Nodup.of_map _ hm) this).perm_of_length_le (by omega)
  · intro h
    exact ⟨h.length_eq, fun e he => (imGet_mem hn e.1 e.2).2 (h.subset he)⟩

end

/-! ## Maps -/

theorem mergeGo_eq (n : Nat) (m other : PrefixMap) (h : other.map.length < n) :
    PrefixMap.mergeGo n m other =
      { m with map := other.map.foldl (fun m e => imInsert e.1 e.2 m) m.map } := by
  induction n generalizing m other with
  | zero => omega
  | succ n ih =>
    obtain ⟨l, hy⟩ := other
    cases l with
    | nil => simp [PrefixMap.mergeGo, PrefixMap.next]
    | cons e l =>
      simp only [PrefixMap.mergeGo, PrefixMap.next]
      rw [ih _ _ (by simp only [List.length_cons] at h; simpa using Nat.lt_of_succ_lt_succ h)]
      rfl

theorem merge_eq (m other : PrefixMap) :
    m.merge other = { m with map := other.map.foldl (fun m e => imInsert e.1 e.2 m) m.map } :=
  mergeGo_eq _ _ _ (Nat.lt_succ_self _)

theorem built_nodup {m : PrefixMap} (h : Built m) : (m.map.map Prod.fst).Nodup := by
  induction h with
  | new => simp [PrefixMap.new]
  | change op _ ih =>
    cases op with
    | declare a i => exact imInsert_nodup _ _ ih
    | remove a => exact imRemove_nodup ih a
  | merge _ _ ih _ => rw [merge_eq]; exact foldl_insert_nodup _ ih
  | read entries => exact foldl_insert_nodup _ (by simp)
  | @next m e m' _ hn ih =>
    obtain ⟨l, hy⟩ := m
    cases l with
    | nil => simp [PrefixMap.next] at hn
    | cons x l =>
      simp only [PrefixMap.next, Option.some.injEq, Prod.mk.injEq] at hn
      rw [← hn.2]
      simp only [List.map_cons, List.nodup_cons] at ih
      exact ih.2
  | hyperlink b _ ih => exact ih

theorem longestMatch_none {m : PrefixMap} (hm : (m.map.map Prod.fst).Nodup) (iri : Str) :
    m.longestMatch iri = none ↔ ∀ al ns rest, ¬ Matches m iri al ns rest := by
  unfold PrefixMap.longestMatch
  rw [maxByKey_none, List.filterMap_eq_nil_iff]
  constructor
  · rintro h al ns rest ⟨h1, h2⟩
    have := h _ ((imGet_mem hm al ns).1 h1)
    rw [(stripPrefix_iff ns iri rest).2 h2] at this
    cases this
  · rintro h ⟨al, ns⟩ he
    cases hs : stripPrefix ns iri with
    | none => simp [hs]
    | some rest =>
      exact absurd ⟨(imGet_mem hm al ns).2 he, (stripPrefix_iff _ _ _).1 hs⟩ (h al ns rest)

theorem longestMatch_some {m : PrefixMap} (hm : (m.map.map Prod.fst).Nodup) {iri al rest : Str}
    (h : m.longestMatch iri = some (al, rest)) :
    ∃ ns, Matches m iri al ns rest ∧ Longest m iri ns := by
  obtain ⟨h1, h2⟩ := maxByKey_some _ _ _ h
  obtain ⟨⟨a, ns⟩, he, hs⟩ := List.mem_filterMap.1 h1
  simp only [Option.map_eq_some_iff, Prod.mk.injEq] at hs
  obtain ⟨r, hr, rfl, rfl⟩ := hs
  have hiri := (stripPrefix_iff _ _ _).1 hr
  refine ⟨ns, ⟨(imGet_mem hm a ns).2 he, hiri⟩, ?_⟩
  rintro a' ns' rest' ⟨h3, h4⟩
  have hk := h2 (a', rest') (List.mem_filterMap.2 ⟨(a', ns'), (imGet_mem hm a' ns').1 h3, by
    simp [(stripPrefix_iff _ _ _).2 h4]⟩)
  simp only at hk
  have e1 : blen iri = blen ns + blen r := by rw [hiri, blen_append]
  have e2 : blen iri = blen ns' + blen rest' := by rw [h4, blen_append]
  have hle : blen ns' ≤ blen ns := by omega
  have heq : ns ++ r = ns' ++ rest' := hiri ▸ h4
  rcases List.append_eq_append_iff.1 heq with ⟨t, ht, _⟩ | ⟨t, ht, _⟩
  · have : blen t = 0 := by rw [ht, blen_append] at hle; omega
    have := length_le_blen t
    have : t = [] := List.length_eq_zero_iff.1 (by omega)
    subst this
    exact ⟨[], by simpa using ht.symm⟩
  · exact ⟨t, ht⟩

end Prefix

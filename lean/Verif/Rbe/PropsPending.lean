import Verif.Rbe.LemmasPending

/-!
# Properties: pending maps (C88)
-/

namespace Rbe
open Pending
variable {K V R : Type} [DecidableEq K] [DecidableEq V] [DecidableEq R]

/-- **C88**: the queries of a pending map answer by its content. -/
theorem C88_queries (p : Pending K V R) (a : Pend K V R) (h : Pending.Built p a) :
    (∀ v r, p.contains v r = true ↔ (v, r) ∈ a.pairs) ∧
    (∀ v, p.get v = none ↔ ∀ r, (v, r) ∉ a.pairs) ∧
    (∀ v rs, p.get v = some rs → rs.Nodup ∧ ∀ r, r ∈ rs ↔ (v, r) ∈ a.pairs) ∧
    p.len = a.pairs.card ∧ (p.isEmpty = true ↔ a.pairs = ∅) := by
  obtain ⟨hg, hD, hT⟩ := built_repr h
  have dep : ∀ v r rs, (v, rs) ∈ p → (p.Dep v r ↔ ∃ ks, (r, ks) ∈ rs) := by
    intro v r rs hm
    rw [dep_iff]
    constructor
    · rintro ⟨rs', hm', hk⟩
      have h1 := (alookup_mem v rs p hg.1).2 hm
      have h2 := (alookup_mem v rs' p hg.1).2 hm'
      rw [h1] at h2
      cases h2
      exact hk
    · intro hk; exact ⟨rs, hm, hk⟩
  have nodep : ∀ v r, alookup v p = none → ¬ p.Dep v r := by
    intro v r hn hd
    rw [dep_iff] at hd
    obtain ⟨rs, hm, _⟩ := hd
    exact (alookup_none v p).1 hn rs hm
  refine ⟨?_, ?_, ?_, ?_, ?_⟩
  · intro v r
    rw [hD]
    unfold contains
    cases hl : alookup v p with
    | none => simpa using nodep v r hl
    | some rs =>
      have hm := (alookup_mem v rs p hg.1).1 hl
      rw [dep v r rs hm]
      simp only
      cases hr : alookup r rs with
      | none => simpa using (alookup_none r rs).1 hr
      | some ks => simpa using ⟨ks, (alookup_mem r ks rs (hg.2 _ hm).2.1).1 hr⟩
  · intro v
    simp only [hD]
    unfold Pending.get
    cases hl : alookup v p with
    | none => simpa using fun r => nodep v r hl
    | some rs =>
      have hm := (alookup_mem v rs p hg.1).1 hl
      simp only [Option.map_some, reduceCtorEq, false_iff, not_forall, not_not]
      obtain ⟨f, hf⟩ := List.exists_mem_of_ne_nil _ (hg.2 _ hm).1
      exact ⟨f.1, (dep v f.1 rs hm).2 ⟨f.2, hf⟩⟩
  · intro v rs hv
    unfold Pending.get at hv
    cases hl : alookup v p with
    | none => simp [hl] at hv
    | some rs' =>
      have hm := (alookup_mem v rs' p hg.1).1 hl
      simp only [hl, Option.map_some, Option.some.injEq] at hv
      subst hv
      refine ⟨(hg.2 _ hm).2.1, ?_⟩
      intro r
      rw [hD, dep v r rs' hm]
      simp
  · rw [len_pairList, ← List.toFinset_card_of_nodup (nodup_pairList p hg)]
    congr 1
    ext ⟨v, r⟩
    rw [List.mem_toFinset, mem_pairList, hD]
  · unfold isEmpty
    cases p with
    | nil =>
      simp only [List.isEmpty_nil, true_iff]
      ext ⟨v, r⟩
      simp [hD, dep_iff]
    | cons e p =>
      simp only [List.isEmpty_cons, Bool.false_eq_true, false_iff]
      obtain ⟨f, hf⟩ := List.exists_mem_of_ne_nil _ (hg.2 e (by simp)).1
      intro he
      have : (e.1, f.1) ∈ a.pairs := (hD _ _).2 ((dep_iff _ _ _).2 ⟨e.2, by simp, f.2, hf⟩)
      simp [he] at this

/-- **C88**: the iterator ends, without panic, after yielding every triple once; `iter_vr` yields
every pair once, with its keys. -/
theorem C88_iterators (p : Pending K V R) (a : Pend K V R) (h : Pending.Built p a) :
    (∃ n items, (∀ fuel, n ≤ fuel → Iter.collect fuel p.iter = some items) ∧ items.Nodup ∧
      ∀ x, x ∈ items ↔ x ∈ a.triples) ∧
    (p.iterVr.map fun x => (x.1, x.2.1)).Nodup ∧
    (∀ v r, (∃ ks, (v, r, ks) ∈ p.iterVr) ↔ (v, r) ∈ a.pairs) ∧
    ∀ v r ks, (v, r, ks) ∈ p.iterVr → ks.Nodup ∧ ∀ k, k ∈ ks ↔ (v, r, k) ∈ a.triples := by
  obtain ⟨hg, hD, hT⟩ := built_repr h
  have mem : ∀ v r ks, (v, r, ks) ∈ p.iterVr ↔ ∃ rs, (v, rs) ∈ p ∧ (r, ks) ∈ rs := by
    intro v r ks
    simp only [iterVr, List.mem_flatMap, List.mem_map, Prod.mk.injEq, Prod.exists]
    constructor
    · rintro ⟨_, rs, h1, _, ks', h2, rfl, rfl, rfl⟩
      exact ⟨rs, h1, h2⟩
    · rintro ⟨rs, h1, h2⟩
      exact ⟨_, rs, h1, _, ks, h2, rfl, rfl, rfl⟩
  refine ⟨⟨p.iter.size + 1, p.iter.todo, ?_, nodup_todo_iter p hg, ?_⟩, ?_, ?_, ?_⟩
  · intro fuel hf
    exact collect_todo _ (by simp [Iter.Ok, iter]) _ (by omega)
  · rintro ⟨v, r, k⟩
    rw [mem_todo_iter, hT]
  · have : (p.iterVr.map fun x => (x.1, x.2.1)) = p.pairList := by
      simp [iterVr, pairList, List.map_flatMap, Function.comp_def]
    rw [this]
    exact nodup_pairList p hg
  · intro v r
    simp only [mem, hD, dep_iff]
    constructor
    · rintro ⟨ks, rs, h1, h2⟩; exact ⟨rs, h1, ks, h2⟩
    · rintro ⟨rs, h1, ks, h2⟩; exact ⟨ks, rs, h1, h2⟩
  · intro v r ks hm
    obtain ⟨rs, h1, h2⟩ := (mem _ _ _).1 hm
    refine ⟨(hg.2 _ h1).2.2 _ h2, ?_⟩
    intro k
    rw [hT, key_iff]
    constructor
    · intro hk; exact ⟨rs, h1, ks, h2, hk⟩
    · rintro ⟨rs', h1', ks', h2', hk⟩
      have e1 := (alookup_mem v rs p hg.1).2 h1
      rw [(alookup_mem v rs' p hg.1).2 h1'] at e1
      obtain rfl : rs' = rs := by simpa using e1
      have e2 := (alookup_mem r ks rs' (hg.2 _ h1).2.1).2 h2
      rw [(alookup_mem r ks' rs' (hg.2 _ h1).2.1).2 h2'] at e2
      cases e2
      exact hk

/-- **C88**: `pop` yields a triple of the map (the map that is left is without it, see `Built`), and
yields nothing only if there is nothing. If every pair has a key it does not panic. -/
theorem C88_pop_partial (p : Pending K V R) (a : Pend K V R) (h : Pending.Built p a) :
    (∀ v r k q, p.pop = .item v r k q → (v, r, k) ∈ a.triples) ∧
    (p.pop = .nothing ↔ a.pairs = ∅) ∧
    (a.Keyed → p.pop ≠ .panic) := by
  have hr := built_repr h
  obtain ⟨hg, hD, hT⟩ := hr
  refine ⟨?_, ?_, ?_⟩
  · intro v r k q hq
    obtain ⟨rs0, ks0, rest, rfl, -⟩ := pop_item hq
    rw [hT, key_iff]
    exact ⟨_, List.mem_cons_self, ks0 ++ [k], by simp, by simp⟩
  · rw [← (C88_queries p a h).2.2.2.2]
    unfold pop isEmpty
    cases p with
    | nil => simp
    | cons e p =>
      obtain ⟨v, rs⟩ := e
      simp only [List.isEmpty_cons, Bool.false_eq_true, iff_false]
      cases rs.getLast? with
      | none => simp
      | some f =>
        obtain ⟨r, ks⟩ := f
        simp only
        cases ks.getLast? <;> simp
  · intro hk hp
    unfold pop at hp
    cases p with
    | nil => simp at hp
    | cons e p =>
      obtain ⟨v, rs⟩ := e
      have hrs := hg.2 (v, rs) (by simp)
      obtain ⟨rs0, ⟨r, ks⟩, rfl⟩ : ∃ l x, rs = l ++ [x] := by
        induction rs using List.reverseRecOn with
        | nil => exact absurd rfl hrs.1
        | append_singleton l x _ => exact ⟨l, x, rfl⟩
      obtain ⟨k, hkk⟩ := hk v r ((hD _ _).2 ((dep_iff _ _ _).2 ⟨_, List.mem_cons_self, ks, by simp⟩))
      rw [hT, key_iff] at hkk
      obtain ⟨rs', h1', ks', h2', hmem⟩ := hkk
      have e1 := (alookup_mem v _ _ hg.1).2 h1'
      simp only [alookup, if_true, Option.some.injEq] at e1
      subst e1
      have e2 := (alookup_mem r ks' _ hrs.2.1).2 h2'
      rw [(alookup_mem r ks _ hrs.2.1).2 (by simp)] at e2
      cases e2
      simp only [List.getLast?_append, List.getLast?_singleton, Option.some_or] at hp
      cases hl : ks.getLast? with
      | none => rw [List.getLast?_eq_none_iff] at hl; simp [hl] at hmem
      | some x => simp [hl] at hp

theorem keyed_remove (a : Pend K V R) (h : a.Keyed) (v : V) (r : R) (k : K) : (a.remove v r k).Keyed := by
  intro v' r' hm
  simp only [Pend.remove, Finset.mem_filter] at hm ⊢
  obtain ⟨k', hk'⟩ := h v' r' hm.1
  by_cases he : (v', r') = (v, r)
  · rcases hm.2 with h' | ⟨⟨x, y, z⟩, ht, hx, hy⟩
    · exact absurd he h'
    · cases he
      simp only at hx hy
      subst hx; subst hy
      exact ⟨z, ht⟩
  · exact ⟨k', by
      rw [Finset.mem_erase]
      refine ⟨?_, hk'⟩
      rintro ⟨⟩
      exact he rfl⟩

/-- **C88**: popping until there is nothing yields every triple once, if every pair has a key. -/
theorem C88_drain_partial (p : Pending K V R) (a : Pend K V R) (h : Pending.Built p a) (hk : a.Keyed) :
    ∃ items, drain (a.triples.card + 1) p = some items ∧ items.Nodup ∧ ∀ x, x ∈ items ↔ x ∈ a.triples := by
  generalize hn : a.triples.card = n
  induction n generalizing p a with
  | zero =>
    have he : a.triples = ∅ := Finset.card_eq_zero.1 hn
    have hp : a.pairs = ∅ := by
      ext ⟨v, r⟩
      simp only [Finset.notMem_empty, iff_false]
      intro hm
      obtain ⟨k, hk'⟩ := hk v r hm
      simp [he] at hk'
    have := (C88_pop_partial p a h).2.1.2 hp
    exact ⟨[], by simp [drain, this], by simp, by simp [he]⟩
  | succ n ih =>
    obtain ⟨h1, h2, h3⟩ := C88_pop_partial p a h
    cases hp : p.pop with
    | nothing =>
      have he := h2.1 hp
      obtain ⟨⟨v, r, k⟩, hx⟩ : a.triples.Nonempty := Finset.card_pos.1 (by omega)
      have : (v, r) ∈ a.pairs := by
        have hr := built_repr h
        rw [hr.pairs, dep_iff]
        rw [hr.triples, key_iff] at hx
        obtain ⟨rs, h4, ks, h5, _⟩ := hx
        exact ⟨rs, h4, ks, h5⟩
      simp [he] at this
    | panic => exact absurd hp (h3 hk)
    | item v r k q =>
      have hm := h1 v r k q hp
      obtain ⟨items, hd, hnd, hmem⟩ := ih q (a.remove v r k) (.pop v r k q h hp) (keyed_remove a hk v r k)
        (by simp [Pend.remove, Finset.card_erase_of_mem hm, hn])
      refine ⟨(v, r, k) :: items, ?_, ?_, ?_⟩
      · simp [drain, hp] at hd ⊢
        exact hd
      · simp only [List.nodup_cons, hnd, and_true, hmem]
        simp [Pend.remove]
      · intro x
        simp only [List.mem_cons, hmem, Pend.remove, Finset.mem_erase]
        by_cases hx : x = (v, r, k)
        · simp [hx, hm]
        · simp [hx]

/-- A map of the interface: two keys for one pair, one for another, one pair merged in and stamped. -/
example : Pending.Built (((((Pending.empty : Pending Nat Nat Nat).insertWithKey 1 2 3).insertWithKey 1 2 4).merge
      (Pending.empty.insert 5 6)).annotateKey 7)
    ((((Pend.none.addTriple 1 2 3).addTriple 1 2 4).union (Pend.none.addPair 5 6)).stamp 7) ∧
    Pend.Keyed ((((Pend.none.addTriple 1 2 3).addTriple 1 2 4).union (Pend.none.addPair 5 6)).stamp 7) := by
  refine ⟨.annotate 7 (.merge (.insertWithKey 1 2 4 (.insertWithKey 1 2 3 .empty)) (.insert 5 6 .empty)), ?_⟩
  intro v r hm
  exact ⟨7, by
    simp only [Pend.stamp, Finset.mem_union, Finset.mem_image, Prod.mk.injEq, Prod.exists]
    exact Or.inr ⟨v, r, hm, rfl, rfl, trivial⟩⟩

/-- **C88**, the statement without the condition on keys: `pop` does not panic. It is false of the
code: see `C88_pop_refuted`. -/
def PopNeverPanics (K V R : Type) [DecidableEq K] [DecidableEq V] [DecidableEq R] : Prop :=
  ∀ (p : Pending K V R) (a : Pend K V R), Pending.Built p a → p.pop ≠ .panic

/-- **C88**, refuted: `from_pair`, which conditions on references use, makes a map on which `pop`
panics. -/
theorem C88_pop_refuted : ¬ PopNeverPanics Nat Nat Nat :=
  fun h => h (Pending.fromPair 1 2) _ (.insert 1 2 .empty) rfl

end Rbe

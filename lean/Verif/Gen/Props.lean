import Verif.Gen.Lemmas
import Mathlib.Data.Nat.ModEq

/-!
# Properties: data made from schemas

C130: how many values, relationships and entities are made. C131: whether the data conform to the shapes.
-/

namespace Gen

/-! ## Specification -/

/-- The numbers that the bounds of a triple constraint allow: without bounds exactly one, and -1 is no upper bound. -/
def Within (min max : Option Int) (k : Nat) : Prop := min.getD 1 ≤ k ∧ (max = some (-1) ∨ (k : Int) ≤ max.getD 1)

/-- A node has exactly `k` values of a property. -/
def Count (ts : List GTriple) (s p : Str) (k : Nat) : Prop :=
  ∃ l : List GTerm, l.Nodup ∧ l.length = k ∧ ∀ o, o ∈ l ↔ ⟨s, p, o⟩ ∈ ts

/-! ## C130 -/

section
variable {C : Type} {R : Draws C}

/-- **C130** (partial), values. With every strategy and all random numbers the number of values that are made is one that
the bounds allow.

Missing: at least six values without an upper bound, or more than one without any maximum (`C130_counts_refuted`). -/
theorem C130_counts_partial (hR : R.Lawful) (st : Strategy) (place : List Nat) (p : PropInfo C) (index : Nat)
    (h : (p.max = some (-1) ∧ p.min.getD 1 ≤ 5) ∨ (0 ≤ p.max.getD 1 ∧ p.min.getD 1 ≤ p.max.getD 1)) :
    ∃ k, valueCount R st place p index false = some k ∧ Within p.min p.max k := by
  have hb : (valueBounds p.min p.max false).1 ≤ (valueBounds p.min p.max false).2 := by
    simp only [valueBounds]
    cases hm : p.max with
    | none => simp only [hm] at h; simp at h; simp; omega
    | some m =>
      by_cases h1 : m = -1
      · subst h1
        rcases h with h | h
        · simp; omega
        · simp [hm] at h
      · simp [h1]
  obtain ⟨k, hk⟩ := choose_some (st := st) (index := index) (d := R.range place (valueBounds p.min p.max false).1
    (valueBounds p.min p.max false).2) hb
  have hw := choose_within (fun _ => hR.range _ _ _ hb) hb hk
  refine ⟨k, hk, ?_⟩
  simp only [valueBounds] at hw
  cases hm : p.max with
  | none =>
    simp only [hm] at h hw
    simp at h hw
    exact ⟨by omega, Or.inr (by simp; omega)⟩
  | some m =>
    by_cases h1 : m = -1
    · subst h1
      simp only [hm] at hw
      simp at hw
      exact ⟨by omega, Or.inl rfl⟩
    · simp only [hm] at h hw
      simp only [h1, if_false, Bool.false_eq_true] at hw
      rcases h with h | h
      · simp [h1] at h
      · simp only [Option.getD_some] at h
        have hu : asUsize m = m.toNat := by simp [asUsize, h.1]
        rw [hu] at hw
        have h2 : Nat.max m.toNat (p.min.getD 1).toNat = m.toNat := by
          apply Nat.max_eq_left; omega
        rw [h2] at hw
        exact ⟨by omega, Or.inr (by simp; omega)⟩

/-- **C130** is false of the code for at least seven values: at most five are made, or there is a panic. So it is for at
least three without a maximum, as SHACL shapes have it. -/
theorem C130_counts_refuted (place : List Nat) (index : Nat) (C : Type) (R : Draws C) :
    let p : PropInfo C := ⟨['p'], some xsdString, none, some 7, some (-1), []⟩
    let q : PropInfo C := ⟨['p'], some xsdString, none, some 3, none, []⟩
    valueCount R .maximum place p index false = some 5 ∧ ¬ Within p.min p.max 5 ∧
    valueCount R .random place p index false = none ∧ valueCount R .balanced place p index false = none ∧
    valueCount R .maximum place q index false = some 1 ∧ valueCount R .random place q index false = none ∧
    valueCount R .balanced place q index false = none := by
  refine ⟨rfl, ?_, rfl, rfl, rfl, rfl, rfl⟩
  rintro ⟨h, _⟩
  simp at h

/-- **C130**, entities. With equal shares each shape gets the same number of entities, up to one, and all together get the
number that was asked for. -/
theorem C130_shares (R : Draws C) (total n : Nat) (hn : 0 < n) (id : Nat → Str) :
    ((List.range n).map fun i => share R .equal total n i (id i)).sum = total ∧
    ∀ i, share R .equal total n i (id i) = total / n ∨ share R .equal total n i (id i) = total / n + 1 := by
  have key : ∀ m, ((List.range m).map fun i => share R .equal total n i (id i)).sum =
      m * (total / n) + Nat.min m (total % n) := by
    intro m
    induction m with
    | zero => simp
    | succ m ih =>
      rw [List.range_succ, List.map_append, List.sum_append, ih]
      simp only [List.map_cons, List.map_nil, List.sum_cons, List.sum_nil, share]
      rw [Nat.add_mul]
      split
      · rename_i h
        rw [show Nat.min m (total % n) = m from Nat.min_eq_left (by omega),
          show Nat.min (m + 1) (total % n) = m + 1 from Nat.min_eq_left (by omega)]
        omega
      · rename_i h
        rw [show Nat.min m (total % n) = total % n from Nat.min_eq_right (by omega),
          show Nat.min (m + 1) (total % n) = total % n from Nat.min_eq_right (by omega)]
        omega
  constructor
  · rw [key, show Nat.min n (total % n) = total % n from Nat.min_eq_right (Nat.le_of_lt (Nat.mod_lt _ hn))]
    exact Nat.div_add_mod total n
  · intro i
    simp only [share]
    split <;> simp

theorem relation_mem {ts : List Str} (h0 : ts ≠ []) (index : Nat) (d : Dep) (f : Str) (n : Nat) (t : GTriple) :
    t ∈ ((List.range n).filterMap fun i => ts[(index + i) % ts.length]?.map fun t =>
      (⟨f, d.property, .iri t⟩ : GTriple)) ↔
    ∃ i, i < n ∧ ∃ h : (index + i) % ts.length < ts.length, t = ⟨f, d.property, .iri ts[(index + i) % ts.length]⟩ := by
  have hl : 0 < ts.length := List.length_pos_iff.2 h0
  simp only [List.mem_filterMap, List.mem_range]
  constructor
  · rintro ⟨i, hi, e⟩
    have hlt := Nat.mod_lt (index + i) hl
    rw [List.getElem?_eq_getElem hlt] at e
    simp only [Option.map_some, Option.some.injEq] at e
    exact ⟨i, hi, hlt, e.symm⟩
  · rintro ⟨i, hi, hlt, rfl⟩
    exact ⟨i, hi, by rw [List.getElem?_eq_getElem hlt]; rfl⟩

/-- **C130**, relationships. From an entity there are links to entities of the target shape only, in the number that is
chosen, or to all of them if there are not so many. The number is within the bounds. -/
theorem C130_relations (hR : R.Lawful) (st : Strategy) (place : List Nat) (d : Dep) (f : Str) (targets : List Str)
    (h0 : targets ≠ []) (hn : targets.Nodup) (index : Nat) :
    ∃ ts, ∃ k : Nat, relationsOf R st place d f targets index = some ts ∧
      (∀ t ∈ ts, t.subj = f ∧ t.pred = d.property ∧ ∃ x ∈ targets, t.obj = .iri x) ∧
      (d.min.getD 1 ≤ k ∧ (k ≤ targets.length ∨ (k : Int) ≤ d.min.getD 1) ∧
        ∀ m, 0 ≤ m → d.max = some m → d.min.getD 1 ≤ m → (k : Int) ≤ m) ∧
      Count ts f d.property (Nat.min k targets.length) := by
  have hl : 0 < targets.length := List.length_pos_iff.2 h0
  have hb : (relBounds d.min d.max targets.length).1 ≤ (relBounds d.min d.max targets.length).2 := by
    simp only [relBounds]
    exact Nat.le_max_right _ _
  obtain ⟨k, hk⟩ := choose_some (st := st) (index := index) (d := R.range place (relBounds d.min d.max targets.length).1
    (relBounds d.min d.max targets.length).2) hb
  have hw := choose_within (fun _ => hR.range _ _ _ hb) hb hk
  refine ⟨_, k, by simp only [relationsOf, hk, Option.map_some]; rfl, ?_, ?_, ?_⟩
  · intro t ht
    obtain ⟨i, _, hlt, rfl⟩ := (relation_mem h0 index d f k t).1 ht
    exact ⟨rfl, rfl, _, List.getElem_mem hlt, rfl⟩
  · have hhi : (relBounds d.min d.max targets.length).2 ≤ Nat.max targets.length (d.min.getD 1).toNat := by
      simp only [relBounds]
      refine Nat.max_le.2 ⟨Nat.le_trans ?_ (Nat.le_max_left _ _), Nat.le_max_right _ _⟩
      cases d.max with
      | none => exact Nat.min_le_right _ _
      | some m =>
        simp only
        split
        · exact Nat.min_le_left _ _
        · exact Nat.min_le_right _ _
    have hlo : (relBounds d.min d.max targets.length).1 = (d.min.getD 1).toNat := rfl
    rw [hlo] at hw
    refine ⟨by omega, ?_, ?_⟩
    rotate_left
    · intro m h0 hm hmin
      have : (relBounds d.min d.max targets.length).2 ≤ m.toNat := by
        simp only [relBounds, hm, show m ≠ -1 by omega, if_false]
        have hu : asUsize m = m.toNat := by simp [asUsize, h0]
        rw [hu]
        exact Nat.max_le.2 ⟨Nat.min_le_left _ _, by omega⟩
      omega
    rcases Nat.le_total (d.min.getD 1).toNat targets.length with h | h
    · rw [show Nat.max targets.length (d.min.getD 1).toNat = targets.length from Nat.max_eq_left h] at hhi
      exact Or.inl (by omega)
    · rw [show Nat.max targets.length (d.min.getD 1).toNat = (d.min.getD 1).toNat from Nat.max_eq_right h] at hhi
      exact Or.inr (by omega)
  · have hlt : ∀ i, (index + i) % targets.length < targets.length := fun i => Nat.mod_lt _ hl
    refine ⟨(List.range (Nat.min k targets.length)).map fun i => GTerm.iri (targets[(index + i) % targets.length]'(hlt i)),
      ?_, by simp, ?_⟩
    · refine List.Nodup.map_on ?_ List.nodup_range
      intro i hi j hj e
      simp only [GTerm.iri.injEq] at e
      have e := (List.Nodup.getElem_inj_iff hn).1 e
      have hi' : i < targets.length := Nat.lt_of_lt_of_le (List.mem_range.1 hi) (Nat.min_le_right _ _)
      have hj' : j < targets.length := Nat.lt_of_lt_of_le (List.mem_range.1 hj) (Nat.min_le_right _ _)
      have : i ≡ j [MOD targets.length] := Nat.ModEq.add_left_cancel' index e
      exact Nat.ModEq.eq_of_lt_of_lt this hi' hj'
    · intro o
      rw [relation_mem h0]
      simp only [List.mem_map, List.mem_range, GTriple.mk.injEq, true_and]
      constructor
      · rintro ⟨i, hi, rfl⟩
        exact ⟨i, Nat.lt_of_lt_of_le hi (Nat.min_le_left _ _), hlt i, rfl⟩
      · rintro ⟨i, hi, _, rfl⟩
        have e : (index + i % targets.length) % targets.length = (index + i) % targets.length := by simp
        refine ⟨i % targets.length, Nat.lt_min.2 ⟨Nat.lt_of_le_of_lt (Nat.mod_le _ _) hi, Nat.mod_lt _ hl⟩, ?_⟩
        congr 1
        simp only [e]

end

end Gen

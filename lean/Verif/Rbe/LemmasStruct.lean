import Verif.Rbe.LemmasInterval

/-!
# Helper lemmas: the bookkeeping of `RbeStruct`
-/

set_option linter.unusedSectionVars false

namespace Rbe
variable {A : Type} [DecidableEq A]

/-- Number of symbol sets holding `a`. -/
def hits (a : A) : List (List A) → Nat
  | [] => 0
  | s :: ss => (if a ∈ s then 1 else 0) + hits a ss

theorem overlap_false (ss : List (List A)) (seen : List A) :
    Struct.overlap seen ss = false ↔ ∀ a, (if a ∈ seen then 1 else 0) + hits a ss ≤ 1 := by
  induction ss generalizing seen with
  | nil =>
    simp only [Struct.overlap, hits, true_iff]
    intro a; split <;> omega
  | cons s ss ih =>
    simp only [Struct.overlap, Struct.overlapItem, hits]
    by_cases h : (s.any fun x => decide (x ∈ seen)) = true
    · rw [if_pos h]
      simp only [Bool.true_eq_false, false_iff, not_forall]
      rw [List.any_eq_true] at h
      obtain ⟨a, ha, hs⟩ := h
      refine ⟨a, ?_⟩
      rw [decide_eq_true_eq] at hs
      simp [ha, hs]
      omega
    · rw [if_neg h]
      have h' : ∀ a, a ∈ s → a ∉ seen := by
        intro a ha hs
        exact h (List.any_eq_true.2 ⟨a, ha, by simpa using hs⟩)
      simp only [ih]
      refine forall_congr' fun a => ?_
      by_cases h1 : a ∈ s
      · simp [h1, h' a h1]
      · simp [h1]

/-- What `RbeStruct` promises about its fields. -/
def Truthful (s : Struct A) : Prop :=
  (∀ a, a ∈ s.symbols ↔ 0 < occ a s.rbe) ∧ (s.hasRepeats = false ↔ SingleOcc s.rbe) ∧ NoFail s.rbe

theorem hits_le (l : List (Struct A)) (h : ∀ s ∈ l, Truthful s) (a : A) :
    hits a (l.map Struct.symbols) ≤ occList a (l.map Struct.rbe) := by
  induction l with
  | nil => simp [hits, occList]
  | cons s l ih =>
    have := ih (fun t ht => h t (by simp [ht]))
    have hs := (h s (by simp)).1 a
    simp only [List.map_cons, hits, occList]
    split
    · rename_i ha
      have := hs.1 ha
      omega
    · omega

theorem hits_eq (l : List (Struct A)) (h : ∀ s ∈ l, Truthful s) (h1 : ∀ s ∈ l, SingleOcc s.rbe)
    (a : A) : hits a (l.map Struct.symbols) = occList a (l.map Struct.rbe) := by
  induction l with
  | nil => simp [hits, occList]
  | cons s l ih =>
    have := ih (fun t ht => h t (by simp [ht])) (fun t ht => h1 t (by simp [ht]))
    have hs := (h s (by simp)).1 a
    have ho := h1 s (by simp) a
    simp only [List.map_cons, hits, occList]
    split
    · rename_i ha
      have := hs.1 ha
      omega
    · rename_i ha
      have : ¬ 0 < occ a s.rbe := fun h => ha (hs.2 h)
      omega

theorem singleOcc_list (l : List (Struct A)) (h : ∀ s ∈ l, Truthful s) :
    (l.any Struct.hasRepeats || Struct.overlap [] (l.map Struct.symbols)) = false ↔
      SingleOccList (l.map Struct.rbe) := by
  rw [Bool.or_eq_false_iff, overlap_false, List.any_eq_false]
  simp only [List.not_mem_nil, if_false, Nat.zero_add, Bool.not_eq_true]
  constructor
  · rintro ⟨h1, h2⟩ a
    rw [← hits_eq l h (fun s hs => (h s hs).2.1.1 (h1 s hs))]
    exact h2 a
  · intro h1
    refine ⟨fun s hs => (h s hs).2.1.2 (h1.mem s.rbe (List.mem_map.2 ⟨s, hs, rfl⟩)), fun a => ?_⟩
    exact le_trans (hits_le l h a) (h1 a)

theorem symbols_list (l : List (Struct A)) (h : ∀ s ∈ l, Truthful s) (a : A) :
    a ∈ l.flatMap Struct.symbols ↔ 0 < occList a (l.map Struct.rbe) := by
  rw [List.mem_flatMap, occList_pos]
  simp only [List.mem_map, exists_exists_and_eq_and]
  constructor
  · rintro ⟨s, hs, ha⟩; exact ⟨s, hs, ((h s hs).1 a).1 ha⟩
  · rintro ⟨s, hs, ha⟩; exact ⟨s, hs, ((h s hs).1 a).2 ha⟩

theorem noFail_list (l : List (Struct A)) (h : ∀ s ∈ l, Truthful s) :
    NoFailList (l.map Struct.rbe) := by
  rw [noFailList_iff]
  intro v hv
  obtain ⟨s, hs, rfl⟩ := List.mem_map.1 hv
  exact (h s hs).2.2

theorem truthful_empty : Truthful (Struct.empty : Struct A) :=
  ⟨by simp [Struct.empty, occ], by simp [Struct.empty, SingleOcc, occ], trivial⟩

theorem truthful_symbol (x : A) (c : Card) : Truthful (⟨.symbol x c, [x], false⟩ : Struct A) := by
  refine ⟨fun a => ?_, ?_, trivial⟩
  · simp only [List.mem_singleton, occ]
    split <;> simp_all [eq_comm]
  · simp only [true_iff]
    intro a
    simp only [occ]
    split <;> omega

theorem truthful_or (l : List (Struct A)) (h : ∀ s ∈ l, Truthful s) : Truthful (Struct.or l) :=
  ⟨symbols_list l h, singleOcc_list l h, noFail_list l h⟩

theorem truthful_and (l : List (Struct A)) (h : ∀ s ∈ l, Truthful s) : Truthful (Struct.and l) :=
  ⟨symbols_list l h, singleOcc_list l h, noFail_list l h⟩

theorem truthful_opt (s : Struct A) (h : Truthful s) : Truthful s.opt := by
  refine ⟨fun a => ?_, ?_, ⟨h.2.2, trivial, trivial⟩⟩
  · simpa [Struct.opt, occ, occList] using h.1 a
  · simpa [Struct.opt, occ, occList, SingleOcc] using h.2.1

theorem ofExprs_eq (vs : List (Expr A)) : Struct.ofExprs vs = vs.map Struct.ofExpr := by
  induction vs with
  | nil => rfl
  | cons v vs ih => simp [Struct.ofExprs, ih]

theorem truthful_ofExpr (e : Expr A) : Truthful (Struct.ofExpr e) := by
  induction e using Expr.ind with
  | hfail => exact truthful_empty
  | hempty => exact truthful_empty
  | hsym v c => exact truthful_symbol v c
  | hand vs ih =>
    simp only [Struct.ofExpr, ofExprs_eq]
    apply truthful_and
    intro s hs
    obtain ⟨v, hv, rfl⟩ := List.mem_map.1 hs
    exact ih v hv
  | hor vs ih =>
    simp only [Struct.ofExpr, ofExprs_eq]
    apply truthful_or
    intro s hs
    obtain ⟨v, hv, rfl⟩ := List.mem_map.1 hs
    exact ih v hv
  | hstar v ih => exact ih
  | hplus v ih => exact ih
  | hrep v c ih => exact ih

theorem truthful_of_built {s : Struct A} (h : Built s) : Truthful s := by
  induction h with
  | empty => exact truthful_empty
  | symbol x min max => exact truthful_symbol x ⟨min, max⟩
  | or l h ih => exact truthful_or l ih
  | and l h ih => exact truthful_and l ih
  | opt s h ih => exact truthful_opt s ih
  | plus s h ih => exact ih
  | star s h ih => exact ih
  | «repeat» s min max h ih => exact ih
  | ofExpr e => exact truthful_ofExpr e

/-! ## Bags as entry lists -/

theorem bagCount_eq (bag : List (A × Nat)) :
    Expr.bagCount bag = fun a => (bagOf bag).count a := by
  funext a
  induction bag with
  | nil => simp [Expr.bagCount, bagOf]
  | cons p bag ih =>
    obtain ⟨x, k⟩ := p
    have : bagOf ((x, k) :: bag) = Multiset.replicate k x + bagOf bag := by simp [bagOf]
    rw [this, Multiset.count_add, Multiset.count_replicate, ← ih]
    rfl

theorem mem_bagOf (bag : List (A × Nat)) (h1 : ∀ p ∈ bag, 0 < p.2) (a : A) :
    a ∈ bagOf bag ↔ ∃ k, (a, k) ∈ bag := by
  induction bag with
  | nil => simp [bagOf]
  | cons p bag ih =>
    obtain ⟨x, k⟩ := p
    have hb : bagOf ((x, k) :: bag) = Multiset.replicate k x + bagOf bag := by simp [bagOf]
    have ih' := ih (fun p hp => h1 p (by simp [hp]))
    rw [hb, Multiset.mem_add, ih', Multiset.mem_replicate]
    have hk := h1 (x, k) (by simp)
    simp only at hk
    simp only [List.mem_cons, Prod.mk.injEq]
    constructor
    · rintro (⟨_, rfl⟩ | ⟨j, hj⟩)
      · exact ⟨k, Or.inl ⟨rfl, rfl⟩⟩
      · exact ⟨j, Or.inr hj⟩
    · rintro ⟨j, ⟨rfl, rfl⟩ | hj⟩
      · exact Or.inl ⟨by omega, rfl⟩
      · exact Or.inr ⟨j, hj⟩

theorem noExtra_iff (s : Struct A) (hs : Truthful s) (bag : List (A × Nat)) (h : ValidBag bag) :
    s.noExtraSymbols bag = true ↔ proj (Expr.symbols s.rbe) (bagOf bag) = bagOf bag := by
  simp only [Struct.noExtraSymbols, List.all_eq_true, decide_eq_true_eq, proj,
    Multiset.filter_eq_self, mem_bagOf bag h.1, mem_symbols_iff, ← hs.1]
  constructor
  · rintro h a ⟨k, hk⟩; exact h (a, k) hk
  · rintro h ⟨a, k⟩ hp; exact h a ⟨k, hp⟩

/-- Closed interval matching in terms of the interval and the projected bag. -/
theorem matchBagInterval_iff (s : Struct A) (hs : Truthful s) (ho : SingleOcc s.rbe)
    (bag : List (A × Nat)) (h : ValidBag bag) :
    s.matchBagInterval bag false = true ↔
      proj (Expr.symbols s.rbe) (bagOf bag) = bagOf bag ∧
        (s.rbe.interval (fun a => (bagOf bag).count a)).contains 1 = true := by
  have hr : s.hasRepeats = false := hs.2.1.2 ho
  simp only [Struct.matchBagInterval, hr, Bool.false_eq_true, if_false, Bool.not_false,
    Bool.true_and, bagCount_eq]
  rw [← noExtra_iff s hs bag h]
  cases hx : s.noExtraSymbols bag <;> simp

theorem lang_proj_self (e : Expr A) (B : Multiset A) (h : Lang e B) :
    proj (Expr.symbols e) B = B :=
  Multiset.filter_eq_self.2 (lang_mem e B h)

end Rbe

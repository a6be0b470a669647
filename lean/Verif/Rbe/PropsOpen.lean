import Verif.Rbe.LemmasOpen

/-!
# Property C14: open matching
-/

namespace Rbe
variable {A : Type} [DecidableEq A]

/-- The part of a bag that is made of symbols of the expression, entry by entry. -/
def ownEntries (e : Expr A) (bag : List (A × Nat)) : List (A × Nat) :=
  bag.filter fun p => decide (0 < occ p.1 e)

/-- The statement of C14: two bags with the same entries for symbols of the expression get the
same open verdict. -/
def C14_statement : Prop :=
  ∀ (e : Expr Nat) (b1 b2 : List (Nat × Nat)),
    bagOf (ownEntries e b1) = bagOf (ownEntries e b2) →
      Expr.matchBagDeriv e b1 true = Expr.matchBagDeriv e b2 true

/-- C14 is false: `(a){0,2}` accepts the empty bag but a foreign symbol forces an iteration. -/
theorem C14_refuted : ¬ C14_statement := by
  intro h
  have := h (.repeat (.symbol 0 ⟨1, .intMax 1⟩) ⟨0, .intMax 2⟩) [] [(1, 1)] (by decide)
  revert this
  decide

/-- In open matching the verdict may even depend on the order in which the bag is enumerated:
`(a{2,2}){0,0}` accepts an own symbol before a foreign one, and rejects them the other way round. -/
theorem C14_order_refuted : ¬ ∀ (e : Expr Nat) (b1 b2 : List (Nat × Nat)), bagOf b1 = bagOf b2 →
    Expr.matchBagDeriv e b1 true = Expr.matchBagDeriv e b2 true := by
  intro h
  have := h (.repeat (.symbol 0 ⟨2, .intMax 2⟩) ⟨0, .intMax 0⟩) [(0, 1), (9, 1)] [(9, 1), (0, 1)] (by decide)
  revert this
  decide

theorem bagOf_ownEntries (e : Expr A) (bag : List (A × Nat)) :
    bagOf (ownEntries e bag) = proj (Expr.symbols e) (bagOf bag) := by
  induction bag with
  | nil => simp [bagOf, ownEntries, proj]
  | cons p bag ih =>
    obtain ⟨x, k⟩ := p
    have hb : ∀ l, bagOf ((x, k) :: l) = Multiset.replicate k x + bagOf l := by
      intro l; simp [bagOf]
    rw [hb, proj_add, ← ih]
    simp only [ownEntries, List.filter_cons, proj]
    by_cases hx : 0 < occ x e
    · have hm := (mem_symbols_iff e x).2 hx
      simp only [hx, decide_true, if_true, hb]
      congr 1
      symm
      rw [Multiset.filter_eq_self]
      intro a ha
      rw [Multiset.eq_of_mem_replicate ha]
      exact hm
    · have hm : x ∉ Expr.symbols e := fun h => hx ((mem_symbols_iff e x).1 h)
      simp only [hx, decide_false, Bool.false_eq_true, if_false]
      have : Multiset.filter (fun a => a ∈ Expr.symbols e) (Multiset.replicate k x) = 0 := by
        apply Multiset.filter_eq_nil.2
        intro a ha
        rw [Multiset.eq_of_mem_replicate ha]
        exact hm
      rw [this, zero_add]

/-- C14 when every repeated group requires one repetition or has a nullable body and no sequence
is empty: the open verdict is membership of the bag's own symbols in the language. Missing:
optional repeated groups (false there) and empty sequences. -/
theorem C14_open_ignores_foreign_partial (e : Expr A) (bag : List (A × Nat)) (h : OpenOK e) :
    Expr.matchBagDeriv e bag true = true ↔ Lang e (bagOf (ownEntries e bag)) := by
  rw [bagOf_ownEntries]
  exact matchBagDeriv_open e bag (stable_of_openOK e h)

/-- C14 in the form of the statement, for the same expressions. -/
theorem C14_foreign_irrelevant_partial (e : Expr A) (b1 b2 : List (A × Nat)) (h : OpenOK e)
    (hb : bagOf (ownEntries e b1) = bagOf (ownEntries e b2)) :
    Expr.matchBagDeriv e b1 true = Expr.matchBagDeriv e b2 true := by
  rw [Bool.eq_iff_iff, C14_open_ignores_foreign_partial e b1 h,
    C14_open_ignores_foreign_partial e b2 h, hb]

/-- The interval algorithm ignores foreign symbols for every single-occurrence struct. -/
theorem C14_interval_ignores_foreign (s : Struct A) (b1 b2 : List (A × Nat)) (hb : Built s)
    (ho : SingleOcc s.rbe) (h : bagOf (ownEntries s.rbe b1) = bagOf (ownEntries s.rbe b2)) :
    s.matchBag b1 true .interval = s.matchBag b2 true .interval := by
  have hrep : s.hasRepeats = false := (truthful_of_built hb).2.1.2 ho
  rw [bagOf_ownEntries, bagOf_ownEntries] at h
  simp only [Struct.matchBag, Struct.matchBagInterval, hrep, Bool.false_eq_true, if_false,
    Bool.not_true, Bool.false_and, bagCount_eq]
  congr 1
  apply interval_congr
  intro a ha
  have := congrArg (Multiset.count a) h
  simpa [proj, Multiset.count_filter, ha] using this

/-- `(a ; b?){1,2} | c+` -/
def exOpen : Expr Nat :=
  .or [.repeat (.and [.symbol 0 ⟨1, .intMax 1⟩, .symbol 1 ⟨0, .intMax 1⟩]) ⟨1, .intMax 2⟩,
    .plus (.symbol 2 ⟨1, .intMax 1⟩)]

example : OpenOK exOpen ∧
    bagOf (ownEntries exOpen [(0, 2), (1, 1)]) = bagOf (ownEntries exOpen [(9, 3), (1, 1), (0, 2)]) ∧
    Expr.matchBagDeriv exOpen [(9, 3), (1, 1), (0, 2)] true = true ∧
    Expr.matchBagDeriv exOpen [(9, 3), (1, 1), (0, 3)] true = false :=
  ⟨by simp [exOpen, OpenOK, OpenOKList, Card.Holds], by decide, by decide, by decide⟩

example : Built (Struct.symbol 0 1 (.intMax 1)) ∧ SingleOcc (Struct.symbol 0 1 (.intMax 1)).rbe ∧
    bagOf (ownEntries (Struct.symbol 0 1 (.intMax 1)).rbe [(0, 1)]) =
      bagOf (ownEntries (Struct.symbol 0 1 (.intMax 1)).rbe [(3, 7), (0, 1)]) :=
  ⟨.symbol _ _ _, (truthful_symbol 0 ⟨1, .intMax 1⟩).2.1.1 rfl, by decide⟩

#print axioms C14_refuted
#print axioms C14_order_refuted
#print axioms C14_open_ignores_foreign_partial
#print axioms C14_foreign_irrelevant_partial
#print axioms C14_interval_ignores_foreign

end Rbe

import Verif.Rbe.LemmasDeriv
import Verif.Rbe.LemmasAccepted

/-!
# Properties C01, C02, C03, C09: derivative matching

`Lang` (Spec.lean) is the declared language; `Struct.matchBag … .derivatives` is the entry
point `RbeStruct::match_bag` with the derivative algorithm.
-/

namespace Rbe
variable {A : Type} [DecidableEq A]

/-- C01: closed derivative matching decides the declared language. -/
theorem C01_deriv_matches_iff_lang (s : Struct A) (bag : List (A × Nat)) (hwf : WF s.rbe) :
    s.matchBag bag false .derivatives = true ↔ Lang s.rbe (bagOf bag) :=
  matchBagDeriv_iff s.rbe bag hwf

/-- `(a{1,2} ; b?){2,3} | c*` -/
def exWF : Expr Nat :=
  .or [.repeat (.and [.symbol 0 ⟨1, .intMax 2⟩, .or [.symbol 1 ⟨1, .intMax 1⟩, .empty]])
        ⟨2, .intMax 3⟩, .star (.symbol 2 ⟨1, .intMax 1⟩)]

theorem exWF_wf : WF exWF := by simp [exWF, WF, WFList, Card.Holds]

example : WF exWF ∧ Expr.matchBagDeriv exWF [(0, 4), (1, 2)] false = true ∧
    Expr.matchBagDeriv exWF [(0, 1), (1, 2)] false = false :=
  ⟨exWF_wf, by decide, by decide⟩

/-- C03: the verdict depends only on the multiset, so neither the order of the entries nor their
grouping matters. There is no condition on the expression. -/
theorem C03_deriv_order_irrelevant (e : Expr A) (b1 b2 : List (A × Nat)) (h : bagOf b1 = bagOf b2) :
    Expr.matchBagDeriv e b1 false = Expr.matchBagDeriv e b2 false := by
  rw [Bool.eq_iff_iff, matchBagDeriv_accepted, matchBagDeriv_accepted, h]

example : bagOf [(0, 4), (1, 2)] = bagOf [(1, 1), (0, 3), (1, 1), (0, 1)] ∧
    Expr.matchBagDeriv exWF [(1, 1), (0, 3), (1, 1), (0, 1)] false = true :=
  ⟨by decide, by decide⟩

/-- The statement of C02: the equivalence of C01 without any hypothesis. -/
def C02_statement : Prop :=
  ∀ (e : Expr Nat) (bag : List (Nat × Nat)),
    Expr.matchBagDeriv e bag false = true ↔ Lang e (bagOf bag)

/-- C02 is false: the group `(a ; b){0,0}` accepts the bag `{a}`. -/
theorem C02_refuted : ¬ C02_statement := by
  intro h
  have := (h (.repeat (.and [.symbol 0 ⟨1, .intMax 1⟩, .symbol 1 ⟨1, .intMax 1⟩]) ⟨0, .intMax 0⟩)
    [(0, 1)]).1 (by decide)
  simp only [Lang] at this
  obtain ⟨k, hk, hs⟩ := this
  have hk0 : k = 0 := by
    have := hk.2 0 rfl
    omega
  subst hk0
  rw [sumOf_zero] at hs
  revert hs
  decide

/-- C02, the three kinds of degenerate expression, each with a bag wrongly accepted:
a `{0,0}` group swallows a foreign symbol, `{2,1}` of a nullable group accepts the empty bag
although no number of repetitions is allowed, and an empty choice inside a sequence is
treated as nullable. -/
theorem C02_refuted_each_kind :
    (Expr.matchBagDeriv (.repeat (.symbol 0 ⟨1, .intMax 1⟩) ⟨0, .intMax 0⟩) [(7, 1)] false = true ∧
      ¬ Lang (.repeat (.symbol 0 ⟨1, .intMax 1⟩) ⟨0, .intMax 0⟩ : Expr Nat) (bagOf [(7, 1)])) ∧
    (Expr.matchBagDeriv (.repeat (.symbol 0 ⟨0, .intMax 1⟩) ⟨2, .intMax 1⟩) [] false = true ∧
      ¬ Lang (.repeat (.symbol 0 ⟨0, .intMax 1⟩) ⟨2, .intMax 1⟩ : Expr Nat) (bagOf [])) ∧
    (Expr.matchBagDeriv (.and [.or []] : Expr Nat) [] false = true ∧
      ¬ Lang (.and [.or []] : Expr Nat) (bagOf [])) := by
  refine ⟨⟨by decide, ?_⟩, ⟨by decide, ?_⟩, ⟨by decide, ?_⟩⟩
  · simp only [Lang]
    rintro ⟨k, hk, hs⟩
    have hk0 : k = 0 := by
      have := hk.2 0 rfl
      omega
    subst hk0
    rw [sumOf_zero] at hs
    revert hs
    decide
  · simp only [Lang]
    rintro ⟨k, ⟨h1, h2⟩, _⟩
    have := h2 1 rfl
    simp only at h1
    omega
  · simp [Lang, LangAll, LangSome]

/-- C02 restricted to expressions without degenerate groups and empty choices. What is
missing: `{0,0}` groups, groups with `min > max`, empty choices (false there). -/
theorem C02_deriv_matches_iff_lang_partial (e : Expr A) (bag : List (A × Nat)) (hwf : WF e) :
    Expr.matchBagDeriv e bag false = true ↔ Lang e (bagOf bag) :=
  matchBagDeriv_iff e bag hwf

/-- C02, for every expression: what the code accepts. `Accepted` differs from the language on `{0,0}`
groups, groups with `min > max` and empty choices only. -/
theorem C02_accepted (e : Expr A) (bag : List (A × Nat)) :
    (Expr.matchBagDeriv e bag false = true ↔ Accepted e (bagOf bag)) ∧
    (e.isNullable = true ↔ Accepted e 0) :=
  ⟨matchBagDeriv_accepted e bag, isNullable_accepted e⟩

/-- Where the code and the language part: `(a){0,0}` accepts a foreign symbol, `(a?){2,1}` the empty
bag, `(a){1,0}` what `a` accepts, and a sequence skips an empty choice. -/
example : Accepted (.repeat (.symbol 0 ⟨1, .intMax 1⟩) ⟨0, .intMax 0⟩ : Expr Nat) {7} ∧
    ¬ Accepted (.repeat (.symbol 0 ⟨1, .intMax 1⟩) ⟨0, .intMax 0⟩ : Expr Nat) {0} ∧
    Accepted (.repeat (.symbol 0 ⟨0, .intMax 1⟩) ⟨2, .intMax 1⟩ : Expr Nat) 0 ∧
    Accepted (.repeat (.symbol 0 ⟨1, .intMax 1⟩) ⟨1, .intMax 0⟩ : Expr Nat) {0} ∧
    Accepted (.and [.symbol 0 ⟨1, .intMax 1⟩, .or []] : Expr Nat) {0} := by
  refine ⟨(C02_accepted _ [(7, 1)]).1.1 (by decide), fun h => ?_, (C02_accepted _ []).1.1 (by decide),
    (C02_accepted _ [(0, 1)]).1.1 (by decide), (C02_accepted _ [(0, 1)]).1.1 (by decide)⟩
  exact absurd ((C02_accepted _ [(0, 1)]).1.2 h) (by decide)

/-- C09 for expressions whose groups have `min ≤ max` and which have no empty choice (false
otherwise, see `C09_refuted`). -/
theorem C09_nullable_iff_partial (e : Expr A) (hs : Sane e) :
    (e.isNullable = true ↔ Lang e 0) ∧ (Expr.matchBagDeriv e [] false = true ↔ Lang e 0) := by
  refine ⟨isNullable_iff e hs, ?_⟩
  simp only [Expr.matchBagDeriv, Expr.derivBag]
  split
  · simp [Lang]
  · exact isNullable_iff e hs

example : Sane (Expr.plus (.symbol 3 ⟨0, .unbounded⟩)) ∧ Lang (Expr.plus (.symbol 3 ⟨0, .unbounded⟩)) 0 :=
  ⟨by simp [Sane], (C09_nullable_iff_partial _ (by simp [Sane])).1.1 (by decide)⟩

/-- C09 without hypotheses is false: a sequence holding an empty choice is reported nullable
although its language is empty. -/
theorem C09_refuted : ¬ ∀ e : Expr Nat, (e.isNullable = true ↔ Lang e 0) := by
  intro h
  have := (h (.and [.or []])).1 (by decide)
  simp [Lang, LangAll, LangSome] at this

#print axioms C01_deriv_matches_iff_lang
#print axioms C03_deriv_order_irrelevant
#print axioms C02_refuted
#print axioms C02_refuted_each_kind
#print axioms C02_accepted
#print axioms C02_deriv_matches_iff_lang_partial
#print axioms C09_nullable_iff_partial
#print axioms C09_refuted

end Rbe

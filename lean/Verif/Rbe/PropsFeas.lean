import Verif.Rbe.LemmasFeas

/-!
# Property C10: feasibility refutation
-/

namespace Rbe
variable {A : Type} [DecidableEq A]

/-- C10: a negative answer means that no bag between the bounds is in the language, provided
symbols with a positive lower bound occur once in the expression. This covers expressions
without repeated symbols and arbitrary expressions with `lo = 0`. -/
theorem C10_infeasible_no_member (e : Expr A) (lo hi : A → Nat)
    (hsep : ∀ a, 0 < lo a → occ a e ≤ 1) (h : Expr.feasible e lo hi = false)
    (s : Multiset A) (hlo : ∀ a, lo a ≤ s.count a) (hhi : ∀ a, s.count a ≤ hi a) :
    ¬ Lang e s := by
  intro hl
  have := fx_of_lang lo hi e hsep s hl (fun a _ => hlo a) hhi
  rw [Expr.feasible] at h
  rw [h] at this
  exact Bool.noConfusion this

/-- Single-occurrence instance of C10. -/
theorem C10_single_occurrence (e : Expr A) (lo hi : A → Nat) (ho : SingleOcc e)
    (h : Expr.feasible e lo hi = false) (s : Multiset A) (hlo : ∀ a, lo a ≤ s.count a)
    (hhi : ∀ a, s.count a ≤ hi a) : ¬ Lang e s :=
  C10_infeasible_no_member e lo hi (fun a _ => ho a) h s hlo hhi

/-- Zero lower bounds instance of C10, arbitrary expressions. -/
theorem C10_zero_lower (e : Expr A) (hi : A → Nat)
    (h : Expr.feasible e (fun _ => 0) hi = false) (s : Multiset A)
    (hhi : ∀ a, s.count a ≤ hi a) : ¬ Lang e s :=
  C10_infeasible_no_member e (fun _ => 0) hi (fun _ h => absurd h (by simp)) h s
    (fun _ => Nat.zero_le _) hhi

/-- `(a ; b)+ | c` -/
def exFeas : Expr Nat :=
  .or [.plus (.and [.symbol 0 ⟨1, .intMax 1⟩, .symbol 1 ⟨1, .intMax 1⟩]), .symbol 2 ⟨1, .intMax 1⟩]

/-- `a` committed, `b` unattainable: refuted. -/
example : (∀ a, 0 < (fun a => if a = 0 then 1 else 0) a → occ a exFeas ≤ 1) ∧
    Expr.feasible exFeas (fun a => if a = 0 then 1 else 0) (fun a => if a = 1 then 0 else 5) = false ∧
    Expr.feasible exFeas (fun a => if a = 0 then 1 else 0) (fun _ => 5) = true := by
  refine ⟨?_, by decide, by decide⟩
  intro a ha
  have : a = 0 := by
    by_contra h
    simp [h] at ha
  subst this
  decide

/-- Without the side condition the refutation is not definitive: `a | (a ; b)` with one `a`
committed and no `b` attainable is refuted although the bag `{a}` is a member. -/
theorem C10_refuted_shared_symbols :
    ¬ ∀ (e : Expr Nat) (lo hi : Nat → Nat), Expr.feasible e lo hi = false →
      ∀ s : Multiset Nat, (∀ a, lo a ≤ s.count a) → (∀ a, s.count a ≤ hi a) → ¬ Lang e s := by
  intro h
  refine h (.or [.symbol 0 ⟨1, .intMax 1⟩,
      .and [.symbol 0 ⟨1, .intMax 1⟩, .symbol 1 ⟨1, .intMax 1⟩]])
    (fun a => if a = 0 then 1 else 0) (fun a => if a = 0 then 1 else 0) (by decide) {0} ?_ ?_ ?_
  · intro a; rw [Multiset.count_singleton]
  · intro a; rw [Multiset.count_singleton]
  · left
    exact ⟨1, ⟨le_refl _, fun m hm => by injection hm with hm; omega⟩, rfl⟩

#print axioms C10_infeasible_no_member
#print axioms C10_single_occurrence
#print axioms C10_zero_lower
#print axioms C10_refuted_shared_symbols

end Rbe

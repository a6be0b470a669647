import Verif.Part.LemmasIter

/-!
# Property C17: k-partitions
-/

namespace Part
variable {T : Type}

/-- C17: for every list of items and every list of predicates the k-partition iterator ends; the
items accepted by some predicate as singletons are the ones distributed; and it yields exactly
one partition for every assignment of those items to the groups in which each group satisfies
its predicate. -/
theorem C17_kpartitions_exact (items : List T) (preds : List (List T → Bool)) :
    ∃ (its : List T) (gs : List (List Nat)),
      its.Sublist items ∧
      (∀ x, x ∈ its ↔ x ∈ items ∧ ∃ p ∈ preds, p [x] = true) ∧
      (∀ q : T → Bool, (∀ x ∈ items, q x = true ↔ ∃ p ∈ preds, p [x] = true) →
        its = items.filter q) ∧
      gs.Nodup ∧
      (∀ g, g ∈ gs ↔ Assigns preds.length its g ∧
        ∀ (b : Nat) (p : List T → Bool), preds[b]? = some p → p (group its g b) = true) ∧
      Drains KIter.step (KIter.new items preds)
        (gs.map fun g => (List.range preds.length).map (group its g)) := by
  refine ⟨items.filter fun x => preds.any fun p => p [x],
    (prodLE (List.replicate (items.filter fun x => preds.any fun p => p [x]).length
      (List.range preds.length))).filter fun g => ((((List.range preds.length).map
        (group (items.filter fun x => preds.any fun p => p [x]) g)).zip preds).all fun x => x.2 x.1),
    List.filter_sublist, ?_, ?_, ?_, ?_, ?_⟩
  · intro x
    simp [List.mem_filter]
  · intro q hq
    apply List.filter_congr
    intro x hx
    rw [Bool.eq_iff_iff, hq x hx]
    simp
  · exact (nodup_prodLE _ (by
      intro l hl
      rw [List.mem_replicate] at hl
      rw [hl.2]
      exact List.nodup_range)).filter _
  · intro g
    rw [List.mem_filter, mem_digits, zip_all_iff]
    rfl
  · have hne : (items.filter fun x => preds.any fun p => p [x]).length ≠ 0 → 0 < preds.length := by
      intro h
      rcases preds with _ | ⟨p, ps⟩
      · simp at h
      · simp
    have := kiter_drains (items.filter fun x => preds.any fun p => p [x]) preds
      (kiter_orbit preds.length _ hne)
    rw [List.filter_map] at this
    exact this

/-- The iterator is deterministic, so the partitions of `C17_kpartitions_exact` are the only ones
it can yield, and running it with enough turns computes them. -/
theorem C17_drain_complete {S : Type} (step : S → Option (Option T × S)) (s : S) (outs : List T)
    (h : Drains step s outs) :
    (∃ n, drain step n s = some outs) ∧ ∀ outs', Drains step s outs' → outs' = outs :=
  ⟨drain_of_drains h, fun _ h' => h'.unique h⟩

/-- Three items, two groups: even numbers and numbers below 3; 7 fits nowhere. -/
example : drain KIter.step 20
      (KIter.new [1, 2, 4, 7] [fun l => l.all (· % 2 == 0), fun l => l.all (· < 3)]) =
    some [[[2, 4], [1]], [[4], [1, 2]]] := by decide

#print axioms C17_kpartitions_exact
#print axioms C17_drain_complete

end Part

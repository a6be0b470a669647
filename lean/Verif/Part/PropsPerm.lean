import Verif.Part.LemmasPerm

/-!
# Property C19: permutation stepping
-/

namespace Part

/-- C19: starting from the sorted arrangement, stepping ends after visiting exactly the
arrangements of the multiset, in strictly increasing lexicographic order (hence each once). -/
theorem C19_every_arrangement_once (l : List Nat) :
    ∃ L, Orbit nextPermutation (l.insertionSort (· ≤ ·)) L ∧ L.Pairwise (· < ·) ∧ L.Nodup ∧
      ∀ c, c ∈ L ↔ c.Perm l := by
  obtain ⟨L, h1, h2, h3⟩ := orbit_sorted l
  exact ⟨L, h1, h2, h2.imp (fun h => ne_of_lt h), h3⟩

/-- C19, one step: the successor is the least greater arrangement of the same multiset, and
stepping fails only on the greatest arrangement. -/
theorem C19_step_is_successor (a : List Nat) :
    (∀ b, nextPermutation a = some b →
      b.Perm a ∧ a < b ∧ ∀ c : List Nat, c.Perm a → a < c → c = b ∨ b < c) ∧
    (nextPermutation a = none → ∀ c : List Nat, c.Perm a → c = a ∨ c < a) := by
  constructor
  · intro b h
    refine ⟨nextPermutation_perm h, nextPermutation_lt h, fun c hp hlt => ?_⟩
    rcases lt_trichotomy' c b with h2 | h2 | h2
    · exact absurd h2 (nextPermutation_succ h hp hlt)
    · exact Or.inl h2
    · exact Or.inr h2
  · intro h c hp
    rcases lt_trichotomy' c a with h2 | h2 | h2
    · exact Or.inr h2
    · exact Or.inl h2
    · exact absurd h2 (desc_max (nextPermutation_none h) hp)

example : nextPermutation [0, 2, 2, 1, 1] = some [1, 0, 1, 2, 2] ∧
    nextPermutation [2, 2, 1, 0] = none := by decide

example : ([2, 1, 1] : List Nat).insertionSort (· ≤ ·) = [1, 1, 2] ∧
    nextPermutation [1, 1, 2] = some [1, 2, 1] ∧ nextPermutation [1, 2, 1] = some [2, 1, 1] ∧
    nextPermutation [2, 1, 1] = none := by decide

#print axioms C19_every_arrangement_once
#print axioms C19_step_is_successor

end Part

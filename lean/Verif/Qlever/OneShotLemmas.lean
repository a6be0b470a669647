import Verif.Qlever.OneShotSpec

/-!
# Lemmas on runs of the index builder
-/

namespace Qlever.OneShot

theorem exitCode_known {w : World} {code : Int} (h : Truthful w code) (hk : Known w) : exitCode w = code := by
  unfold exitCode inspectPostExit
  cases hw : w.wait with
  | some c => simpa using h.1 c hw
  | none =>
    rcases hk with ⟨c, hc⟩ | ⟨oom, c, hc⟩
    · rw [hw] at hc; cases hc
    · rw [hc]; simpa using h.2 oom c hc

theorem exitCode_unknown {w : World} (hk : ¬ Known w) : exitCode w = -1 := by
  unfold exitCode inspectPostExit
  cases hw : w.wait with
  | some c => exact absurd (Or.inl ⟨c, hw⟩) hk
  | none =>
    rcases hi : w.inspect with _ | _ | ⟨oom, _ | c⟩
    · rfl
    · rfl
    · rfl
    · exact absurd (Or.inr ⟨oom, c, hi⟩) hk

theorem exitCode_zero {w : World} {code : Int} (h : Truthful w code) : exitCode w = 0 ↔ Known w ∧ code = 0 := by
  by_cases hk : Known w
  · rw [exitCode_known h hk]; simp [hk]
  · rw [exitCode_unknown hk]; simp [hk]

theorem drain_tail (l : List (List Byte)) (tail : List Byte) (all : List Byte) (ht : IsTail tailLimit tail all)
    (hne : ∀ c ∈ l, c ≠ []) : ∃ t, drain tail (l.map some) = some t ∧ IsTail tailLimit t (all ++ l.flatten) := by
  induction l generalizing tail all with
  | nil => exact ⟨tail, rfl, by simpa using ht⟩
  | cons c l ih =>
    have hc : c.isEmpty = false := by simpa using hne c (by simp)
    obtain ⟨⟨p, hp⟩, hlen⟩ := ht
    simp only [List.map_cons, drain, hc, Bool.false_eq_true, if_false, List.flatten_cons, ← List.append_assoc]
    apply ih
    · constructor
      · split
        · refine ⟨p ++ (tail ++ c).take ((tail ++ c).length - tailLimit), ?_⟩
          rw [List.append_assoc, List.take_append_drop, hp, List.append_assoc]
        · exact ⟨p, by rw [hp, List.append_assoc]⟩
      · split
        · rename_i hgt
          rw [List.length_drop]
          simp only [List.length_append] at hgt ⊢
          omega
        · rename_i hgt
          simp only [List.length_append] at hgt ⊢
          omega
    · exact fun c hc => hne c (by simp [hc])

end Qlever.OneShot

import Verif.Qlever.WaitSpec

/-!
# Lemmas on waiting for a server
-/

namespace Qlever.Wait

variable {answer : Nat → Answer} {start deadline : Nat}

theorem pause_zero : pause 0 = 100 := by decide

theorem pause_succ (i : Nat) : pause (i + 1) = min (pause i * 2) 2000 := by
  unfold pause
  rw [Nat.pow_succ]
  omega

theorem pause_ge (i : Nat) : 100 ≤ pause i := by
  have : 1 ≤ 2 ^ i := Nat.one_le_two_pow
  unfold pause
  omega

theorem pause_le (i : Nat) : pause i ≤ 2000 := by unfold pause; omega

/-- When a request is begun. -/
def begun (answer : Nat → Answer) (start : Nat) : Nat → Nat
  | 0 => start
  | i + 1 => answered answer start i + pause i

theorem answered_begun (i : Nat) : answered answer start i = begun answer start i + (answer i).took := by
  cases i <;> rfl

theorem loop_step (fuel i : Nat) : loop answer deadline (fuel + 1) i (begun answer start i) (pause i) =
    if (answer i).ok then some ⟨true, answered answer start i, i + 1⟩
    else if answered answer start i ≥ deadline then some ⟨false, answered answer start i, i + 1⟩
    else loop answer deadline fuel (i + 1) (begun answer start (i + 1)) (pause (i + 1)) := by
  rw [loop, pause_succ]
  simp only [← answered_begun]
  rfl

theorem begun_ge (i : Nat) : start + 100 * i ≤ begun answer start i := by
  induction i with
  | zero => simp [begun]
  | succ i ih =>
    have := pause_ge i
    show _ ≤ answered answer start i + pause i
    rw [answered_begun]
    omega

theorem made_mono {i j : Nat} (h : Made answer start deadline i) (hj : j ≤ i) : Made answer start deadline j :=
  fun k hk => h k (by omega)

theorem made_succ {i : Nat} (h : Made answer start deadline i) (h1 : (answer i).ok = false)
    (h2 : answered answer start i < deadline) : Made answer start deadline (i + 1) := by
  intro j hj
  by_cases e : j = i
  · subst e; exact ⟨h1, h2⟩
  · exact h j (by omega)

/-- Requests made come no later than the deadline allows. -/
theorem made_bound {i : Nat} (h : Made answer start deadline (i + 1)) : start + 100 * i < deadline := by
  have h1 := (h i (by omega)).2
  have h2 := begun_ge (answer := answer) (start := start) i
  rw [answered_begun] at h1
  omega

theorem loop_sound (fuel i : Nat) (hm : Made answer start deadline i) {w : Waited}
    (h : loop answer deadline fuel i (begun answer start i) (pause i) = some w) :
    ∃ k, w.requests = k + 1 ∧ Made answer start deadline k ∧ w.time = answered answer start k ∧ w.ok = (answer k).ok ∧
      ((answer k).ok = false → deadline ≤ answered answer start k) := by
  induction fuel generalizing i with
  | zero => simp [loop] at h
  | succ fuel ih =>
    rw [loop_step] at h
    split at h
    · rename_i ho
      cases h
      exact ⟨i, rfl, hm, rfl, ho.symm, fun e => by rw [ho] at e; cases e⟩
    · rename_i ho
      have ho : (answer i).ok = false := by simpa using ho
      split at h
      · rename_i hd
        cases h
        exact ⟨i, rfl, hm, rfl, ho.symm, fun _ => hd⟩
      · rename_i hd
        exact ih (i + 1) (made_succ hm ho (by omega)) h

theorem loop_ends (fuel i : Nat) (hm : Made answer start deadline i) (hf : deadline + 100 ≤ start + 100 * (i + fuel)) (h0 : 0 < fuel) :
    ∃ w, loop answer deadline fuel i (begun answer start i) (pause i) = some w := by
  induction fuel generalizing i with
  | zero => omega
  | succ fuel ih =>
    rw [loop_step]
    split
    · exact ⟨_, rfl⟩
    · rename_i ho
      have ho : (answer i).ok = false := by simpa using ho
      split
      · exact ⟨_, rfl⟩
      · rename_i hd
        have hm' := made_succ hm ho (by omega)
        have := made_bound hm'
        exact ih (i + 1) hm' (by omega) (by omega)

end Qlever.Wait

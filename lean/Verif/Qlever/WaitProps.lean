import Verif.Qlever.WaitLemmas

/-!
# Properties of waiting for a server (C159)
-/

namespace Qlever.Wait

/-- C159: waiting ends, whatever the server answers, after at most one request for each tenth of a second of the timeout and two more;
and if each request takes at most five seconds, at most seven seconds after the timeout. -/
theorem C159_ends (answer : Nat → Answer) (start secs : Nat) {fuel : Nat} (hf : secs * 10 + 1 < fuel) :
    ∃ w, wait answer fuel start secs = some w ∧ w.requests ≤ secs * 10 + 2 ∧
      ((∀ i, (answer i).took ≤ 5000) → w.time ≤ start + secs * 1000 + 7000) := by
  have hm : Made answer start (start + secs * 1000) 0 := fun j hj => by omega
  obtain ⟨w, hw⟩ := loop_ends fuel 0 hm (by omega) (by omega)
  refine ⟨w, by simpa [wait, begun, pause_zero] using hw, ?_, ?_⟩
  · obtain ⟨k, hk, hmk, _⟩ := loop_sound fuel 0 hm hw
    cases k with
    | zero => omega
    | succ k => have := made_bound hmk; omega
  · intro ht
    obtain ⟨k, hk, hmk, h1, _⟩ := loop_sound fuel 0 hm hw
    rw [h1, answered_begun]
    have := ht k
    cases k with
    | zero => simp only [begun]; omega
    | succ k =>
      have h2 := (hmk k (by omega)).2
      have h3 := pause_le k
      simp only [begun]
      omega

/-- C159: waiting is a success exactly when one of the requests that are made is; it ends with the first of these. -/
theorem C159_ok (answer : Nat → Answer) (start secs : Nat) {fuel : Nat} (hf : secs * 10 + 1 < fuel) (w : Waited) :
    wait answer fuel start secs = some w ∧ w.ok = true ↔
      ∃ k, (answer k).ok = true ∧ Made answer start (start + secs * 1000) k ∧ w = ⟨true, answered answer start k, k + 1⟩ := by
  have hm : Made answer start (start + secs * 1000) 0 := fun j hj => by omega
  have e : wait answer fuel start secs = loop answer (start + secs * 1000) fuel 0 (begun answer start 0) (pause 0) := by
    simp [wait, begun, pause_zero]
  rw [e]
  constructor
  · rintro ⟨h, ho⟩
    obtain ⟨k, h1, h2, h3, h4, _⟩ := loop_sound fuel 0 hm h
    refine ⟨k, by rw [← h4, ho], h2, ?_⟩
    cases w
    simp_all
  · rintro ⟨k, hk, hmk, rfl⟩
    obtain ⟨v, hv⟩ := loop_ends (answer := answer) (start := start) fuel 0 hm (by omega) (by omega)
    obtain ⟨j, h1, h2, h3, h4, h5⟩ := loop_sound fuel 0 hm hv
    have hjk : j = k := by
      rcases Nat.lt_trichotomy j k with hlt | heq | hgt
      · have := hmk j hlt
        have := h5 this.1
        omega
      · exact heq
      · have := (h2 k hgt).1
        rw [hk] at this; cases this
    subst hjk
    have : v = ⟨true, answered answer start j, j + 1⟩ := by
      cases v
      simp_all
    rw [hv, this]
    exact ⟨rfl, rfl⟩

/-- C159: waiting is in vain exactly when the first answer that comes after the timeout, and all before, are no success. -/
theorem C159_timeout (answer : Nat → Answer) (start secs : Nat) {fuel : Nat} (hf : secs * 10 + 1 < fuel) :
    (∃ w, wait answer fuel start secs = some w ∧ w.ok = false) ↔
      ∃ k, (∀ j ≤ k, (answer j).ok = false) ∧ start + secs * 1000 ≤ answered answer start k ∧
        ∀ j < k, answered answer start j < start + secs * 1000 := by
  have hm : Made answer start (start + secs * 1000) 0 := fun j hj => by omega
  have e : wait answer fuel start secs = loop answer (start + secs * 1000) fuel 0 (begun answer start 0) (pause 0) := by
    simp [wait, begun, pause_zero]
  rw [e]
  constructor
  · rintro ⟨w, h, ho⟩
    obtain ⟨k, h1, h2, h3, h4, h5⟩ := loop_sound fuel 0 hm h
    have hk : (answer k).ok = false := by rw [← h4, ho]
    refine ⟨k, fun j hj => ?_, h5 hk, fun j hj => (h2 j hj).2⟩
    by_cases ej : j = k
    · rw [ej]; exact hk
    · exact (h2 j (by omega)).1
  · rintro ⟨k, hk, hd, hb⟩
    obtain ⟨v, hv⟩ := loop_ends (answer := answer) (start := start) fuel 0 hm (by omega) (by omega)
    refine ⟨v, hv, ?_⟩
    obtain ⟨j, h1, h2, h3, h4, h5⟩ := loop_sound fuel 0 hm hv
    rw [h4]
    by_cases hj : j ≤ k
    · exact hk j hj
    · have := (h2 k (by omega)).2
      omega

/-- A server that takes a second for each answer and is ready at the fourth. -/
def slow (i : Nat) : Answer := ⟨1000, i = 3⟩

example : wait slow 602 0 60 = some ⟨true, 4700, 4⟩ ∧ wait slow 12 0 1 = some ⟨false, 1000, 1⟩ := by decide +kernel

end Qlever.Wait

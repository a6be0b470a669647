import Verif.Mcp.LoggingSpec

/-!
# Lemmas on the log
-/

namespace Mcp.Log

theorem emit_keeps (t : Nat) (l : Limiter) : (shouldEmit t l).2.max = l.max ∧ (shouldEmit t l).2.window = l.window ∧
    (l.emitted ≤ l.max → (shouldEmit t l).2.emitted ≤ l.max) := by
  unfold shouldEmit
  by_cases h1 : t - l.started ≥ l.window
  · simp only [h1, if_true]
    by_cases h2 : 0 < l.max
    · simp [h2]; omega
    · simp [h2]
  · simp only [h1, if_false]
    by_cases h2 : l.emitted < l.max
    · simp [h2]; omega
    · simp [h2]

theorem run_keeps (ts : List Nat) (l : Limiter) : (run ts l).2.max = l.max ∧ (run ts l).2.window = l.window ∧
    (l.emitted ≤ l.max → (run ts l).2.emitted ≤ l.max) := by
  induction ts generalizing l with
  | nil => exact ⟨rfl, rfl, id⟩
  | cons t ts ih =>
    obtain ⟨a, b, c⟩ := emit_keeps t l
    obtain ⟨a', b', c'⟩ := ih (shouldEmit t l).2
    exact ⟨a'.trans a, b'.trans b, fun h => by have := c' (by rw [a]; exact c h); rw [a] at this; exact this⟩

theorem run_append (ts us : List Nat) (l : Limiter) : run (ts ++ us) l =
    ((run ts l).1 ++ (run us (run ts l).2).1, (run us (run ts l).2).2) := by
  induction ts generalizing l with
  | nil => rfl
  | cons t ts ih => simp [run, ih]

theorem run_length (ts : List Nat) (l : Limiter) : (run ts l).1.length = ts.length := by
  induction ts generalizing l with
  | nil => rfl
  | cons t ts ih => simp [run, ih]

theorem sent_cons (b : Bool) (bs : List Bool) : sent (b :: bs) = sent bs + if b then 1 else 0 := by
  cases b <;> simp [sent]

/-- Within one window there is room for what has not been sent. -/
theorem run_inside (ts : List Nat) (l : Limiter) (hw : 0 < l.window) (h : ∀ t ∈ ts, t < l.started + l.window) :
    sent (run ts l).1 ≤ l.max - l.emitted := by
  induction ts generalizing l with
  | nil => simp [run, sent]
  | cons t ts ih =>
    have ht := h t List.mem_cons_self
    have h1 : ¬ t - l.started ≥ l.window := by omega
    simp only [run, shouldEmit, h1, if_false]
    by_cases h2 : l.emitted < l.max
    · simp only [h2, if_true, sent_cons]
      have := ih { l with emitted := l.emitted + 1 } hw fun u hu => h u (List.mem_cons_of_mem _ hu)
      simp only at this
      omega
    · simp only [h2, if_false, sent_cons]
      have := ih l hw fun u hu => h u (List.mem_cons_of_mem _ hu)
      simpa using this

/-- Within as much time as a window takes, there is at most one new window. -/
theorem run_span (a : Nat) (ts : List Nat) (l : Limiter) (h : ∀ t ∈ ts, a ≤ t ∧ t < a + l.window) :
    sent (run ts l).1 ≤ (l.max - l.emitted) + l.max := by
  induction ts generalizing l with
  | nil => simp [run, sent]
  | cons t ts ih =>
    obtain ⟨ha, hb⟩ := h t List.mem_cons_self
    by_cases h1 : t - l.started ≥ l.window
    · have hin : ∀ l' : Limiter, l'.started = t → l'.window = l.window → ∀ u ∈ ts, u < l'.started + l'.window := by
        intro l' e1 e2 u hu
        have := h u (List.mem_cons_of_mem _ hu)
        omega
      simp only [run, shouldEmit, h1, if_true]
      by_cases h2 : 0 < l.max
      · simp only [h2, if_true, sent_cons]
        have := run_inside ts { l with started := t, emitted := 0 + 1 } (show 0 < l.window by omega) (hin _ rfl rfl)
        simp only at this
        omega
      · simp only [h2, if_false, sent_cons]
        have := run_inside ts { l with started := t, emitted := 0 } (show 0 < l.window by omega) (hin _ rfl rfl)
        simp only at this
        simp only [Bool.false_eq_true, if_false]
        omega
    · simp only [run, shouldEmit, h1, if_false]
      by_cases h2 : l.emitted < l.max
      · simp only [h2, if_true, sent_cons]
        have := ih { l with emitted := l.emitted + 1 } fun u hu => h u (List.mem_cons_of_mem _ hu)
        simp only at this
        omega
      · simp only [h2, if_false, sent_cons]
        have := ih l fun u hu => h u (List.mem_cons_of_mem _ hu)
        simpa using this

theorem sentTimes_append (ts us : List Nat) (bs cs : List Bool) (h : ts.length = bs.length) :
    sentTimes (ts ++ us) (bs ++ cs) = sentTimes ts bs ++ sentTimes us cs := by
  unfold sentTimes
  rw [List.zip_append h, List.filterMap_append]

/-- What is counted in the window was sent since its start. -/
theorem run_counted (ts : List Nat) (l : Limiter) (past : List Nat) (hs : ts.Pairwise (· ≤ ·)) (hl : ∀ t ∈ ts, l.started ≤ t)
    (hp : l.emitted ≤ past.countP fun u => decide (l.started ≤ u)) :
    (run ts l).2.emitted ≤ (past ++ sentTimes ts (run ts l).1).countP fun u => decide ((run ts l).2.started ≤ u) := by
  induction ts generalizing l past with
  | nil =>
    simp only [run, sentTimes, List.zip_nil_left, List.filterMap_nil, List.append_nil]
    exact hp
  | cons t ts ih =>
    rw [List.pairwise_cons] at hs
    have hlt := hl t List.mem_cons_self
    have hlr := fun u hu => hl u (List.mem_cons_of_mem _ hu)
    by_cases h1 : t - l.started ≥ l.window
    · simp only [run, shouldEmit, h1, if_true]
      by_cases h2 : 0 < l.max
      · simp only [h2, if_true]
        have := ih { l with started := t, emitted := 0 + 1 } (past ++ [t]) hs.2 hs.1 (by simp)
        simpa [sentTimes] using this
      · simp only [h2, if_false]
        have := ih { l with started := t, emitted := 0 } past hs.2 hs.1 (by simp)
        simpa [sentTimes] using this
    · simp only [run, shouldEmit, h1, if_false]
      by_cases h2 : l.emitted < l.max
      · simp only [h2, if_true]
        have := ih { l with emitted := l.emitted + 1 } (past ++ [t]) hs.2 hlr (by
          rw [List.countP_append, List.countP_singleton]
          simp only [decide_eq_true_eq, hlt, if_true]
          omega)
        simpa [sentTimes] using this
      · simp only [h2, if_false]
        have := ih l past hs.2 hlr hp
        simpa [sentTimes] using this

theorem run_started (ts : List Nat) (l : Limiter) (u : Nat) (hs : ∀ t ∈ ts, t ≤ u) (hl : l.started ≤ u) : (run ts l).2.started ≤ u := by
  induction ts generalizing l with
  | nil => exact hl
  | cons t ts ih =>
    refine ih _ (fun x hx => hs x (List.mem_cons_of_mem _ hx)) ?_
    have := hs t List.mem_cons_self
    unfold shouldEmit
    by_cases h1 : t - l.started ≥ l.window
    · simp only [h1, if_true]
      split <;> exact this
    · simp only [h1, if_false]
      split <;> exact hl

theorem atLeast_iff (a b : Level) : AtLeast a b ↔ a.value ≤ b.value := by
  constructor
  · rintro ⟨l, m, r, h, rfl | hb⟩
    · exact Nat.le_refl _
    · have hs : severities.Pairwise fun x y => x.value < y.value := by decide
      rw [h, List.append_assoc, List.pairwise_append] at hs
      have := hs.2.1
      rw [List.cons_append, List.pairwise_cons] at this
      exact Nat.le_of_lt (this.1 b (List.mem_append_left _ hb))
  · intro h
    have e : severities = severities.take a.value ++ a :: severities.drop (a.value + 1) ++ [] := by cases a <;> rfl
    refine ⟨severities.take a.value, severities.drop (a.value + 1), [], e, ?_⟩
    revert h
    cases a <;> cases b <;> decide

end Mcp.Log

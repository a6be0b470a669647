import Verif.Mcp.LoggingLemmas

/-!
# Properties of the log of the MCP server (C163)
-/

namespace Mcp.Log

/-- C163: a message is sent only if a level was set and it is at least as severe; messages that are not sent for this reason take
nothing from the others, and all others are sent as the limiter says. -/
theorem C163_levels (min : Level) (ms : List (Nat × Level)) (l : Limiter) :
    (∀ l, (sendAll none ms l).all (· == false) = true) ∧
    ∃ p : Nat × Level → Bool, (∀ m, p m = true ↔ AtLeast m.2 min) ∧
      ((ms.zip (sendAll (some min) ms l)).filterMap fun x => if p x.1 then some x.2 else none) =
        (run ((ms.filter p).map (·.1)) l).1 ∧
      ∀ x ∈ ms.zip (sendAll (some min) ms l), p x.1 = false → x.2 = false := by
  refine ⟨?_, fun m => shouldLog m.2 min, fun m => by simp [shouldLog, atLeast_iff], ?_, ?_⟩
  · induction ms with
    | nil => intro l; rfl
    | cons m ms ih => intro l; simpa [sendAll, sendLog] using ih l
  · induction ms generalizing l with
    | nil => rfl
    | cons m ms ih =>
      obtain ⟨t, v⟩ := m
      by_cases h : shouldLog v min = true
      · simp only [sendAll, sendLog, h, if_true, List.zip_cons_cons, List.filterMap_cons, List.filter_cons, List.map_cons, run]
        rw [← ih]
      · simp only [sendAll, sendLog, h, List.zip_cons_cons, List.filterMap_cons, List.filter_cons]
        exact ih l
  · induction ms generalizing l with
    | nil => intro x hx; simp [sendAll] at hx
    | cons m ms ih =>
      obtain ⟨t, v⟩ := m
      intro x hx hp
      simp only [sendAll, List.zip_cons_cons, List.mem_cons] at hx
      rcases hx with rfl | hx
      · simp only at hp
        simp [sendLog, hp]
      · exact ih _ x hx hp

/-- C163 (part): in as much time as a window takes, at most twice as many messages are sent as are allowed in one. What is missing: not
more than once as many (`C163_window_refuted`). -/
theorem C163_window_partial (l : Limiter) (hl : l.emitted ≤ l.max) (pre seg post : List Nat) (a : Nat)
    (hs : ∀ t ∈ seg, a ≤ t ∧ t < a + l.window) :
    ∃ b1 b2 b3, (run (pre ++ (seg ++ post)) l).1 = b1 ++ (b2 ++ b3) ∧ b1.length = pre.length ∧ b2.length = seg.length ∧
      sent b2 ≤ 2 * l.max := by
  refine ⟨(run pre l).1, (run seg (run pre l).2).1, (run post (run seg (run pre l).2).2).1, ?_, run_length _ _, run_length _ _, ?_⟩
  · rw [run_append, run_append]
  · obtain ⟨h1, h2, h3⟩ := run_keeps pre l
    have := run_span a seg (run pre l).2 (by rw [h2]; exact hs)
    rw [h1] at this
    omega

example : (run [0, 9, 10, 11] ⟨0, 0, 1, 10⟩).1 = [true, false, true, false] := by decide

/-- C163, as a whole, fails: fifty messages just before the end of a window and fifty just after it are all sent within two
milliseconds. -/
theorem C163_window_refuted : ¬ ∀ (l : Limiter) (seg : List Nat) (a : Nat), l.emitted ≤ l.max →
    (∀ t ∈ seg, a ≤ t ∧ t < a + l.window) → sent (run seg l).1 ≤ l.max := by
  intro h
  have := h ⟨0, 0, 50, 1000⟩ (List.replicate 50 999 ++ List.replicate 50 1000) 999 (by decide) (by decide +kernel)
  exact absurd this (by decide +kernel)

/-- C163: a message is dropped by the limiter only if as many as are allowed were sent in the time of one window before it. -/
theorem C163_dropped (start max window : Nat) (pre : List Nat) (t : Nat) (hs : (pre ++ [t]).Pairwise (· ≤ ·))
    (h0 : ∀ u ∈ pre ++ [t], start ≤ u) (hd : (run (pre ++ [t]) ⟨start, 0, max, window⟩).1.getLast? = some false) :
    max = 0 ∨ max ≤ (sentTimes pre (run pre ⟨start, 0, max, window⟩).1).countP fun u => decide (t < u + window) := by
  have hc := run_counted pre ⟨start, 0, max, window⟩ [] (List.pairwise_append.1 hs).1
    (fun u hu => h0 u (List.mem_append_left _ hu)) (by simp)
  have hst := run_started pre ⟨start, 0, max, window⟩ t (fun u hu => (List.pairwise_append.1 hs).2.2 u hu t (by simp))
    (h0 t (by simp))
  obtain ⟨k1, k2, _⟩ := run_keeps pre ⟨start, 0, max, window⟩
  rw [run_append] at hd
  generalize run pre ⟨start, 0, max, window⟩ = r at *
  simp only [run, shouldEmit, List.getLast?_append, List.getLast?_singleton, Option.some_or, Option.some.injEq] at hd
  simp only at k1 k2
  by_cases h1 : t - r.2.started ≥ r.2.window
  · simp only [h1, if_true] at hd
    by_cases h2 : 0 < r.2.max
    · simp [h2] at hd
    · left; omega
  · simp only [h1, if_false] at hd
    by_cases h2 : r.2.emitted < r.2.max
    · simp [h2] at hd
    · right
      simp only [List.nil_append] at hc
      refine Nat.le_trans (by omega) (Nat.le_trans hc (List.countP_mono_left ?_))
      intro u _ hu
      simp only [decide_eq_true_eq] at hu ⊢
      omega

example : (run ([0, 3] ++ [5]) ⟨0, 0, 2, 10⟩).1.getLast? = some false := by decide

/-- C163: the message that is sent is the text, or its first 2048 characters and a mark. -/
theorem C163_text (l : List Char) : (l.length ≤ 2048 → truncate l = l) ∧
    (2048 < l.length → ∃ a b, l = a ++ b ∧ a.length = 2048 ∧ truncate l = a ++ "...[truncated]".toList) := by
  constructor
  · intro h; simp [truncate, maxChars, h]
  · intro h
    refine ⟨l.take 2048, l.drop 2048, (List.take_append_drop _ _).symm, by simp; omega, ?_⟩
    unfold truncate maxChars
    rw [if_neg (by omega)]

/-- C163, as a whole, fails: other fields are sent in full, whatever their length. -/
theorem C163_fields_refuted : ¬ ∀ (message : List Char) (fields : List (String × List Char)), ∀ x ∈ toJson message fields,
    x.2.length ≤ 2048 + 14 := by
  intro h
  have hm : ∀ v, ("error", v) ∈ toJson [] [("error", v)] := fun v => by simp [toJson, insert]
  have := h [] [("error", List.replicate 3000 'x')] ("error", List.replicate 3000 'x') (hm _)
  rw [List.length_replicate] at this
  omega

/-- C163, as a whole, fails: a field with the name of the message replaces it. -/
theorem C163_message_refuted : ¬ ∀ (message : List Char) (fields : List (String × List Char)),
    ("message", truncate message) ∈ toJson message fields := by
  intro h
  have := h ['a'] [("message", ['b'])]
  exact absurd this (by decide)

end Mcp.Log

import Verif.Mcp.StateLemmas

/-!
# Properties of the state that the MCP server keeps (C164)
-/

namespace Mcp.State

/-- C164 (part): with room for the text, a save that returns `Ok` leaves all of it, where a load finds it again, and touches no other
file; and it does return `Ok` unless a directory, the file or the renaming fails. What is missing: a disk without room
(`C164_full_refuted`). -/
theorem C164_saved_partial {S : Type} (parse : List Char → Option S) (e : Env) (fs : Fs) (path : Path) (pieces : List (List Char)) (s : S)
    (hs : parse (whole pieces) = some s) (hr : (whole pieces).length ≤ e.room) :
    ((save e fs path pieces).2.2 = true ↔ e.mkdir = true ∧ e.create = true ∧ e.rename = true) ∧
    ((save e fs path pieces).2.2 = true → (save e fs path pieces).2.1 path = some (whole pieces) ∧
      load parse (save e fs path pieces).2.1 path = some s ∧
      (path.ext ≠ some "tmp" → (save e fs path pieces).2.1 path.tmp = none) ∧
      ∀ q, q ≠ path → q ≠ path.tmp → (save e fs path pieces).2.1 q = fs q) := by
  rw [whole_eq] at hs hr ⊢
  obtain ⟨a, b⟩ := write_room capacity e.room [] pieces (by simp) (by simpa using hr)
  obtain ⟨mk, cr, rn, room⟩ := e
  cases mk <;> cases cr <;> cases rn <;> simp_all [save, load, Fs.rename, Fs.set]
  intro h1 h2
  apply h1
  obtain ⟨st, ex⟩ := path
  simp [Path.tmp] at h2
  exact h2.symm

example : (save ⟨true, true, true, 100⟩ (fun _ => none) ⟨"data", some "json"⟩ ["{".toList, "}".toList]).2.1 ⟨"data", some "json"⟩ =
    some "{}".toList := by decide

/-- C164 (part): of a path whose extension is not `tmp`, a save that returns an error leaves the file as it was, and at every moment of
a save with room for the text the file is the old one or all of the new one. What is missing: `C164_full_refuted`,
`C164_tmp_refuted`. -/
theorem C164_kept_partial (e : Env) (fs : Fs) (path : Path) (pieces : List (List Char)) (hp : path.ext ≠ some "tmp") :
    ((save e fs path pieces).2.2 = false → (save e fs path pieces).2.1 path = fs path) ∧
    ((whole pieces).length ≤ e.room → ∀ x ∈ (save e fs path pieces).1, OldOrNew (fs path) (whole pieces) (x path)) ∧
    ((save e fs path pieces).2.2 = true → ∃ c, (save e fs path pieces).2.1 path = some c ∧ c <+: whole pieces) := by
  have hne : path ≠ path.tmp := by
    intro h
    apply hp
    have := congrArg Path.ext h
    simpa [Path.tmp] using this
  rw [whole_eq]
  have hpre := write_prefix capacity e.room [] pieces (by simp)
  simp only [List.nil_append] at hpre
  unfold save
  by_cases h0 : (!e.mkdir || !e.create) = true
  · simp [h0, OldOrNew]
  · simp only [h0]
    by_cases h1 : ((write capacity e.room [] pieces).2 && e.rename) = true
    · simp only [h1, if_true]
      refine ⟨by simp, ?_, fun _ => ⟨_, by simp [Fs.rename, Fs.set], hpre⟩⟩
      intro hr x hx
      have hw := write_room capacity e.room [] pieces (by simp) (by simpa using hr)
      simp only [Bool.false_eq_true, if_false, List.mem_append, List.mem_cons, List.not_mem_nil, or_false] at hx
      rcases hx with (rfl | rfl | hx) | rfl
      · exact .inl rfl
      · exact .inl (by simp [Fs.set, hne])
      · exact .inl (states_other fs _ _ hne _ _ _ hx)
      · exact .inr (by simp [Fs.rename, Fs.set, hw.2])
    · simp only [h1]
      refine ⟨fun _ => by simp [Fs.set, hne], ?_, by simp⟩
      intro _ x hx
      simp only [Bool.false_eq_true, if_false, List.mem_cons] at hx
      rcases hx with rfl | rfl | hx
      · exact .inl rfl
      · exact .inl (by simp [Fs.set, hne])
      · exact .inl (states_other fs _ _ hne _ _ _ hx)

/-- C164, as a whole, fails: on a full disk a save replaces a good state by the beginning of a new one and returns `Ok`, since the last
flush is left to the drop of the writer; the next load finds no state. -/
theorem C164_full_refuted : ¬ ∀ (parse : List Char → Option Unit) (e : Env) (fs : Fs) (path : Path) (pieces : List (List Char)),
    path.ext ≠ some "tmp" → parse (whole pieces) = some () → load parse fs path = some () →
    load parse (save e fs path pieces).2.1 path = some () := by
  intro h
  have := h (fun c => if c = "{}".toList then some () else none) ⟨true, true, true, 1⟩ (fun _ => some "{}".toList)
    ⟨"data", some "json"⟩ ["{".toList, "}".toList] (by decide) (by decide) (by decide)
  exact absurd this (by decide)

/-- C164, as a whole, fails: there `Ok` is returned. -/
theorem C164_ok_refuted : ¬ ∀ (e : Env) (fs : Fs) (path : Path) (pieces : List (List Char)),
    (save e fs path pieces).2.2 = true → (save e fs path pieces).2.1 path = some (whole pieces) := by
  intro h
  have := h ⟨true, true, true, 1⟩ (fun _ => none) ⟨"data", some "json"⟩ ["{".toList, "}".toList] (by decide)
  exact absurd this (by decide)

/-- C164 (part): a save that returns `Ok` has lost no more than the last 8192 characters, however full the disk is: an error of any write
but the last is returned. -/
theorem C164_lost_partial (e : Env) (fs : Fs) (path : Path) (pieces : List (List Char)) (h : (save e fs path pieces).2.2 = true) :
    ∃ c, (save e fs path pieces).2.1 path = some c ∧ c <+: whole pieces ∧ (whole pieces).length ≤ c.length + 8192 := by
  rw [whole_eq]
  have hpre := write_prefix capacity e.room [] pieces (by simp)
  simp only [List.nil_append] at hpre
  unfold save at h ⊢
  by_cases h0 : (!e.mkdir || !e.create) = true
  · rw [if_pos h0] at h
    cases h
  · rw [if_neg h0] at h ⊢
    by_cases h1 : ((write capacity e.room [] pieces).2 && e.rename) = true
    · simp only [h1, if_true]
      refine ⟨_, by simp [Fs.rename, Fs.set], hpre, ?_⟩
      have := write_lost capacity e.room [] pieces (by simp) (by simp only [Bool.and_eq_true] at h1; exact h1.1)
      simpa [capacity] using this
    · simp only [h1] at h
      cases h

example : (save ⟨true, true, true, 1⟩ (fun _ => none) ⟨"data", some "json"⟩ ["{".toList, "}".toList]).2.2 = true ∧
    (save ⟨true, true, true, 1⟩ (fun _ => none) ⟨"data", some "json"⟩ ["{".toList, "}".toList]).2.1 ⟨"data", some "json"⟩ =
      some "{".toList := by decide

/-- C164: a state of less than 8192 characters is saved with `Ok` however full the disk is. -/
theorem C164_small (e : Env) (fs : Fs) (path : Path) (pieces : List (List Char)) (h : (whole pieces).length < 8192) :
    (save e fs path pieces).2.2 = true ↔ e.mkdir = true ∧ e.create = true ∧ e.rename = true := by
  rw [whole_eq] at h
  have hw := write_small capacity e.room [] pieces (by simpa [capacity] using h)
  obtain ⟨mk, cr, rn, room⟩ := e
  cases mk <;> cases cr <;> cases rn <;> simp_all [save]

example : (save ⟨true, true, true, 0⟩ (fun _ => none) ⟨"data", some "json"⟩ ["{}".toList]).2.2 = true := by decide

/-- C164, as a whole, fails: a state in `state.tmp` is its own temporary file, which is empty before it is written. -/
theorem C164_tmp_refuted : ¬ ∀ (e : Env) (fs : Fs) (path : Path) (pieces : List (List Char)), (whole pieces).length ≤ e.room →
    ∀ x ∈ (save e fs path pieces).1, OldOrNew (fs path) (whole pieces) (x path) := by
  intro h
  have := h ⟨true, true, true, 100⟩ (fun _ => some "{}".toList) ⟨"state", some "tmp"⟩ ["{".toList, "}".toList] (by decide)
    (Fs.set (fun _ => some "{}".toList) ⟨"state", some "tmp"⟩ (some [])) (by
      rw [save, if_neg (by decide)]
      simp only
      split <;> simp [Path.tmp])
  rcases this with h | h <;> exact absurd h (by decide)

/-- C164, as a whole, fails: two states whose names differ in the extension share the temporary file. -/
theorem C164_shared_refuted : ¬ ∀ a b : Path, a ≠ b → a.tmp ≠ b.tmp := by
  intro h
  exact h ⟨"data", some "json"⟩ ⟨"data", some "nt"⟩ (by decide) rfl

end Mcp.State

import Verif.Qlever.OneShotLemmas

/-!
# Properties of runs of the index builder (C155, C156)
-/

namespace Qlever.OneShot

/-- C155: a run without compressed input is a success exactly when all steps before it are and the container ended with 0, and this is
known. -/
theorem C155_plain {w : World} {code : Int} (h : Truthful w code) :
    (run w).result = .ok () ↔ w.limits ∧ w.create ∧ w.start ∧ Known w ∧ code = 0 := by
  rw [← exitCode_zero h]
  unfold run
  cases w.limits <;> cases w.create <;> cases w.start <;> simp
  split <;> simp_all

/-- A world in which all goes well. -/
def good : World :=
  ⟨true, true, true, true, true, [some "a".toList, some "b".toList], some 0, some (some (some false, some 0)), .done, .exited 0,
    [some [1, 2], some []], true⟩

example : Truthful good 0 ∧ Known good ∧ Ended good ∧ (run good).result = .ok () ∧ (runFed good).result = .ok () := by
  refine ⟨⟨?_, ?_⟩, .inl ⟨0, rfl⟩, .inl ⟨0, rfl⟩, by rfl, by rfl⟩
  · intro c h; simpa [good] using h.symm
  · intro o c h; simp [good] at h; exact h.2.symm

/-- C155 (part): a run with compressed input is a success exactly when moreover feeding the container did not fail and the
decompressor ended with 0. What is missing: decompressors that do not end in time (`C155_fed_refuted`). -/
theorem C155_fed_partial {w : World} {code : Int} (h : Truthful w code) (he : Ended w) :
    (runFed w).result = .ok () ↔ w.limits ∧ w.create ∧ w.attach ∧ w.start ∧ w.spawn ∧ Known w ∧ code = 0 ∧ w.pump ≠ .failed ∧
      w.child = .exited 0 := by
  have hc : childSuccess w.child = true ↔ w.child = .exited 0 := by
    rcases he with ⟨c, hc⟩ | hc <;> simp [hc, childSuccess]
  rw [← hc, ← and_assoc (a := Known w), ← exitCode_zero h]
  unfold runFed
  cases w.limits <;> cases w.create <;> cases w.attach <;> cases w.start <;> cases w.spawn <;> simp
  by_cases h0 : exitCode w = 0 <;> by_cases hp : w.pump = .failed <;> simp [h0, hp]
  cases childSuccess w.child <;> simp

/-- C155, as a whole, fails: a decompressor that had to be killed is taken for one that ended well. -/
theorem C155_fed_refuted : ¬ ∀ (w : World) (code : Int), Truthful w code → (runFed w).result = .ok () → w.child = .exited 0 := by
  intro h
  have := h { good with child := .late } 0 ⟨fun c h => by simpa [good] using h.symm, fun o c h => by
    simp [good] at h; exact h.2.symm⟩ rfl
  cases this

/-- C155: in any case, the container of a successful run ended with 0. -/
theorem C155_success {w : World} {code : Int} (h : Truthful w code) (hr : (runFed w).result = .ok ()) : code = 0 := by
  refine Decidable.byContradiction fun hne => ?_
  have h0 : exitCode w ≠ 0 := fun e => hne ((exitCode_zero h).1 e).2
  revert hr
  unfold runFed
  cases w.limits <;> cases w.create <;> cases w.attach <;> cases w.start <;> cases w.spawn <;> simp [h0]

/-- C155: if the container did not end with 0, then this is the error, with its exit code and output; also when feeding it failed or
the decompressor did. -/
theorem C155_error {w : World} {code : Int} (h : Truthful w code) (hk : Known w) (hne : code ≠ 0) (hl : w.limits) (hc : w.create)
    (hs : w.start) (logs : List Str) (hlogs : w.logs = logs.map some) :
    ∃ text, (run w).result = .error (.exit code text) ∧
      (w.attach → w.spawn → (runFed w).result = .error (.exit code text)) ∧ logs.flatten <:+ text ∧
      ((∀ b c, w.inspect = some (some (some b, c)) → b = false) → text = logs.flatten) := by
  have e : exitCode w = code := exitCode_known h hk
  have el : logBuf w.logs = logs.flatten := by
    rw [hlogs]
    clear hlogs
    induction logs with
    | nil => rfl
    | cons c l ih => simp [logBuf, ih]
  refine ⟨if (inspectPostExit w).1 then oomHint ++ logs.flatten else logs.flatten, ?_, ?_, ?_, ?_⟩
  · unfold run nonzeroExit; simp [hl, hc, hs, e, hne, el]
  · intro ha hsp; unfold runFed nonzeroExit; simp [hl, hc, hs, ha, hsp, e, hne, el]
  · split
    · exact List.suffix_append _ _
    · exact List.suffix_rfl
  · intro hoom
    have : (inspectPostExit w).1 = false := by
      unfold inspectPostExit
      rcases hi : w.inspect with _ | _ | ⟨_ | b, c⟩
      · rfl
      · rfl
      · rfl
      · simpa using hoom b c hi
    rw [this]; simp

example : (runFed { good with wait := none, inspect := some (some (some true, some 137)), pump := .failed, child := .signal }).result =
    .error (.exit 137 (oomHint ++ "ab".toList)) := by rfl

/-- C155: if the decompressor failed, the error has its status and the last 4096 bytes of all it wrote to its error output, or all of
it, in whatever pieces it was read. -/
theorem C155_stderr {w : World} {code : Int} (h : Truthful w code) (hk : Known w) (h0 : code = 0) (hl : w.limits) (hc : w.create)
    (ha : w.attach) (hs : w.start) (hsp : w.spawn) (hp : w.pump ≠ .failed) (c : Int) (hch : w.child = .exited c) (hne : c ≠ 0)
    (pieces : List (List Byte)) (hw : w.stderr = pieces.map some) (hpn : ∀ x ∈ pieces, x ≠ []) :
    ∃ t, (runFed w).result = .error (.decompressor c t) ∧ IsTail 4096 t pieces.flatten := by
  obtain ⟨t, h1, h2⟩ := drain_tail pieces [] [] ⟨⟨[], rfl⟩, rfl⟩ hpn
  refine ⟨t, ?_, by simpa [tailLimit] using h2⟩
  have e : exitCode w = 0 := (exitCode_zero h).2 ⟨hk, h0⟩
  unfold runFed
  simp [hl, hc, ha, hs, hsp, hp, e, hch, childSuccess, hne, childCode, hw, h1]

example : (runFed { good with child := .exited 2, stderr := [some [1, 2], some [3]] }).result = .error (.decompressor 2 [1, 2, 3]) := by
  rfl

/-- C155 (part): the container is removed after the run, if it could be started and fed. What is missing: `C155_left_refuted`. -/
theorem C155_left_partial {w : World} (hs : w.start) (hr : w.remove) :
    (run w).left = false ∧ (w.attach → w.spawn → w.pump ≠ .failed → (runFed w).left = false) := by
  constructor
  · unfold run
    cases w.limits <;> cases w.create <;> simp [hs, hr]
    split <;> rfl
  · intro ha hsp hp
    unfold runFed
    cases w.limits <;> cases w.create <;> simp [hs, hr, ha, hsp, hp]
    by_cases h0 : exitCode w = 0 <;> simp [h0]
    split <;> rfl

/-- C155, as a whole, fails: a container that cannot be started, or whose input cannot be written, is left. -/
theorem C155_left_refuted : (¬ ∀ w : World, w.remove → (run w).left = false) ∧
    ¬ ∀ w : World, w.remove → w.start → w.spawn → (runFed w).left = false :=
  ⟨fun h => absurd (h { good with start := false } rfl) (by decide),
    fun h => absurd (h { good with pump := .failed } rfl rfl rfl) (by decide +kernel)⟩

/-- What is served is what is in the directory, and a load that serves nothing leaves no index if the decompressor ended well. -/
theorem load_fair {data : List Byte} {d d' r : Option (List Byte)} {a : Attempt} (ha : a.Fair data) (he : Ended a.world)
    (hd : ∀ b, d = some b → b = data) (h : load d a = (d', r)) : (∀ b, r = some b → b = data) ∧ (r ≠ none → ∀ b, d' = some b → b = data) := by
  cases d with
  | some b =>
    simp only [load, Prod.mk.injEq] at h
    rw [← h.1, ← h.2]
    exact ⟨fun x hx => by cases hx; exact hd b rfl, fun _ x hx => by cases hx; exact hd b rfl⟩
  | none =>
    simp only [load] at h
    split at h
    · rename_i u hr
      have hok := (C155_fed_partial ha.truthful he).1 hr
      obtain ⟨_, _, _, _, _, _, h0, hp, hc⟩ := hok
      have hpump : a.world.pump = .done := by
        cases hpp : a.world.pump with
        | done => rfl
        | closed => exact absurd hpp (ha.read h0)
        | failed => exact absurd hpp hp
      have hg := ha.whole hc hpump
      simp only [Prod.mk.injEq] at h
      have key : ∀ b, (if (a.ran && decide (a.code = 0)) = true then some a.got else none) = some b → b = data := by
        intro b hb
        split at hb
        · cases hb; exact hg
        · cases hb
      rw [← h.1, ← h.2]
      exact ⟨key, fun _ => key⟩
    · simp only [Prod.mk.injEq] at h
      rw [← h.2]
      exact ⟨fun b hb => (by cases hb), fun hn => absurd rfl hn⟩

/-- C156 (part): what is served is an index of all the data in the compressed file, if all loads before were successful and their
decompressors ended by themselves. What is missing: `C156_truncated_refuted`. -/
theorem C156_whole_partial {data : List Byte} {d : Option (List Byte)} {l : List (Attempt × Option (List Byte))} (h : Loads d l)
    (hf : ∀ x ∈ l, x.1.Fair data ∧ Ended x.1.world) (hs : ∀ x ∈ l.tail, x.2 ≠ none) : ∀ x ∈ l, ∀ b, x.2 = some b → b = data := by
  have gen : ((∀ x ∈ l, x.2 ≠ none) → ∀ b, d = some b → b = data) ∧ ∀ x ∈ l, ∀ b, x.2 = some b → b = data := by
    induction h with
    | nil => exact ⟨fun _ b hb => (by cases hb), by simp⟩
    | step h1 h2 ih =>
      have hx := hf _ (List.mem_cons_self ..)
      have ih' := ih (fun x hx => hf x (List.mem_cons_of_mem _ hx)) (fun x hx => hs x (by simpa using List.mem_of_mem_tail hx))
      have hd := ih'.1 (fun x hx => hs x (by simpa using hx))
      have hl := load_fair hx.1 hx.2 hd h2
      refine ⟨fun hn => hl.2 (hn _ (List.mem_cons_self ..)), fun x hm => ?_⟩
      rcases List.mem_cons.1 hm with rfl | hm
      · exact hl.1
      · exact ih'.2 x hm
  exact gen.2

/-- A load in which all goes well. -/
def goodLoad : Attempt := ⟨good, 0, [1, 2, 3]⟩

/-- A load of a file that is damaged: the decompressor writes the first byte and fails. -/
def damaged : Attempt := ⟨{ good with child := .exited 1 }, 0, [1]⟩

theorem goodLoad_fair : goodLoad.Fair [1, 2, 3] :=
  ⟨⟨fun c h => by simpa [goodLoad, good] using h.symm, fun o c h => by simp [goodLoad, good] at h; exact h.2.symm⟩,
    fun _ h => by simp [goodLoad, good] at h, fun _ _ => rfl⟩

theorem damaged_fair : damaged.Fair [1, 2, 3] :=
  ⟨⟨fun c h => by simpa [damaged, good] using h.symm, fun o c h => by simp [damaged, good] at h; exact h.2.symm⟩,
    fun _ h => by simp [damaged, good] at h, fun h => by simp [damaged] at h⟩

example : Loads (some [1, 2, 3]) [(goodLoad, some [1, 2, 3]), (goodLoad, some [1, 2, 3])] :=
  .step (d := some [1, 2, 3]) (.step .nil (by decide +kernel)) (by decide +kernel)

/-- C156, as a whole, fails: the index of a file that could not be decompressed is kept, and the next load serves it. -/
theorem C156_truncated_refuted : ¬ ∀ (data : List Byte) (d : Option (List Byte)) (l : List (Attempt × Option (List Byte))), Loads d l →
    (∀ x ∈ l, x.1.Fair data ∧ Ended x.1.world) → ∀ x ∈ l, ∀ b, x.2 = some b → b = data := by
  intro h
  have hl : Loads (some [1]) [(goodLoad, some [1]), (damaged, none)] :=
    .step (d := some [1]) (.step .nil (by decide +kernel)) (by decide +kernel)
  have := h [1, 2, 3] _ _ hl (by
    intro x hx
    simp only [List.mem_cons, List.not_mem_nil, or_false] at hx
    rcases hx with rfl | rfl
    · exact ⟨goodLoad_fair, .inl ⟨0, rfl⟩⟩
    · exact ⟨damaged_fair, .inl ⟨1, rfl⟩⟩) (goodLoad, some [1]) (by simp) [1] rfl
  exact absurd this (by decide)

end Qlever.OneShot

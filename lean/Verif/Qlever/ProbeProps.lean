import Verif.Qlever.ProbeLemmas

/-!
# Properties of finding decompressors (C157)
-/

namespace Qlever.Probe

/-- C157: for each family the first of its programs that is in a directory of `PATH` is used, from the first directory that has it, with
its arguments. -/
theorem C157_first {exec : Str → Bool} {path : Str} {dirs : List Str} (hd : Dirs path dirs) (f : Compression) (r : Resolved) :
    forCompression (probe exec (some path)) f = some r ↔
      ∃ c, First (fun c => ∃ d ∈ dirs, Has exec c.program d) (candidates f) c ∧
        ∃ d, First (Has exec c.program) dirs d ∧ InDir d c.program r.program ∧ r.args = c.args ∧ r.parallel = c.parallel ∧
          r.family = familyName f := by
  rw [forCompression_probe, dirs_unique hd, resolve_some]

/-- C157: nothing is found exactly when no program of the family is in any of the directories, or there is no `PATH`. -/
theorem C157_none {exec : Str → Bool} {path : Option Str} (f : Compression) :
    forCompression (probe exec path) f = none ↔
      ∀ p dirs, path = some p → Dirs p dirs → ∀ c ∈ candidates f, ∀ d ∈ dirs, ¬ Has exec c.program d := by
  rw [forCompression_probe]
  cases path with
  | none =>
    have : ∀ l, resolve exec none f l = none := by
      intro l
      induction l with
      | nil => rfl
      | cons c l ih => simpa [resolve, findOnPath] using ih
    simp [this]
  | some p =>
    have : ∀ l, resolve exec (some p) f l = none ↔ ∀ c ∈ l, ∀ d ∈ splitPaths p, ¬ Has exec c.program d := by
      intro l
      induction l with
      | nil => simp [resolve]
      | cons c l ih =>
        unfold resolve
        cases hf : findOnPath exec (some p) c.program with
        | some abs =>
          obtain ⟨d, ⟨a, b, e, h, _⟩, _⟩ := (findOnPath_some ..).1 hf
          simp only [reduceCtorEq, false_iff]
          exact fun hh => hh c (by simp) d (by rw [e]; simp) h
        | none =>
          dsimp only
          rw [ih]
          have := (findOnPath_none ..).1 hf
          constructor
          · intro h c' hc'
            rcases List.mem_cons.1 hc' with rfl | hc'
            · exact this
            · exact h c' hc'
          · exact fun h c' hc' => h c' (List.mem_cons_of_mem _ hc')
    rw [this]
    constructor
    · rintro h p' dirs e hd
      cases e
      rw [dirs_unique hd]; exact h
    · exact fun h => h p _ rfl (splitPaths_dirs p)

/-- A machine with `gzip` in two directories, `pigz` in the second, and no other program. -/
def sample (f : Str) : Bool := ["/bin/gzip", "/usr/bin/gzip", "/usr/bin/pigz"].any (·.toList = f)

example : Dirs "/bin:/usr/bin".toList ["/bin".toList, "/usr/bin".toList] ∧
    (forCompression (probe sample (some "/bin:/usr/bin".toList)) .gzip).map (·.program) = some "/usr/bin/pigz".toList ∧
    forCompression (probe sample (some "/bin:/usr/bin".toList)) .xz = none := by
  refine ⟨⟨by decide, by decide, by decide⟩, by decide +kernel, by decide +kernel⟩

/-- C157 (part): the program is given by an absolute path, if the names of all directories are absolute. What is missing:
`C157_absolute_refuted`. -/
theorem C157_absolute_partial {exec : Str → Bool} {path : Str} {dirs : List Str} (hd : Dirs path dirs)
    (ha : ∀ d ∈ dirs, d.head? = some '/') {f : Compression} {r : Resolved} (h : forCompression (probe exec (some path)) f = some r) :
    r.program.head? = some '/' := by
  obtain ⟨c, _, d, ⟨a, b, e, _, _⟩, hi, _⟩ := (C157_first hd f r).1 h
  have hh := ha d (by rw [e]; simp)
  rcases hi with ⟨h1, h2⟩ | ⟨d', h1, h2⟩ | ⟨_, _, h2⟩
  · rw [h1] at hh; cases hh
  · rw [h2]; rw [h1] at hh; cases d' <;> simpa using hh
  · rw [h2]; cases d <;> simp at hh ⊢; exact hh

/-- C157, as a whole, fails: an empty name in `PATH` gives a relative path, which is not "the absolute path to the binary". -/
theorem C157_absolute_refuted : ¬ ∀ (exec : Str → Bool) (path : Str) (f : Compression) (r : Resolved),
    forCompression (probe exec (some path)) f = some r → r.program.head? = some '/' := by
  intro h
  have := h (fun _ => true) "".toList .xz ⟨"xz".toList, ["-dc".toList, "-T0".toList], true, "xz".toList⟩ (by decide +kernel)
  exact absurd this (by decide)

end Qlever.Probe

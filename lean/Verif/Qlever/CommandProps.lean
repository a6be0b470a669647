import Verif.Qlever.CommandLemmas

/-!
# Properties of the command of the index builder (C150)
-/

namespace Qlever

/-- C150 (part): a shell given the joined command reads back exactly the arguments. What is missing: empty arguments
(`C150_words_refuted`). -/
theorem C150_words_partial (argv : List Str) (h : ∀ a ∈ argv, a ≠ []) : commandWords (shellJoin argv) = some argv :=
  words_join argv h

/-- Arguments with blanks, quotes, dollars and more are kept. -/
example : commandWords (shellJoin ["-i".toList, "it's; rm -rf $HOME".toList, "ex".toList]) =
    some ["-i".toList, "it's; rm -rf $HOME".toList, "ex".toList] :=
  C150_words_partial _ (by decide)

example : shellJoin ["-i".toList, "it's".toList] = "-i 'it'\\''s'".toList := by decide +kernel

/-- C150, as a whole, fails: an empty argument vanishes, and the arguments after it move. -/
theorem C150_words_refuted : ¬ ∀ argv : List Str, commandWords (shellJoin argv) = some argv := by
  intro h
  exact absurd (h ["-i".toList, [], "-m".toList]) (by decide +kernel)

/-- With an empty name for the index the builder is told to name it `-f`. -/
example : commandWords (shellJoin ["qlever-index".toList, "-i".toList, [], "-f".toList, "/inputs/0/a.nt".toList]) =
    some ["qlever-index".toList, "-i".toList, "-f".toList, "/inputs/0/a.nt".toList] := by decide +kernel

/-- C150: what the command is. The options of the configuration come first, then what each input adds, in order; the
path given for an input which is not compressed is that input and no other in the container that is run. For
directories of the host without colons (`C150_colon_refuted`). -/
theorem C150_command_partial {v1 : Bool} {inputs : List Input} {c : Config} {I : Str} {argv binds : List Str}
    (h : build v1 inputs c I = some (argv, binds)) (hI : ':' ∉ I) (hp : ∀ i ∈ inputs, ∀ p, i.parent = some p → ':' ∉ p)
    (hf : ∀ i ∈ inputs, ∀ f, i.file = some f → '/' ∉ f) :
    ∃ groups, argv = [if v1 then "IndexBuilderMain".toList else "qlever-index".toList, "-i".toList, c.indexName] ++
        (c.memory.elim [] fun m => ["-m".toList, m]) ++
        (c.buffer.elim [] fun b => ["--parser-buffer-size".toList, b]) ++
        (c.parallel.elim [] fun p => ["--parse-parallel".toList, (toString p).toList]) ++ groups.flatten ∧
      List.Forall₂ (ArgsOf binds) inputs groups := by
  unfold build at h
  split at h
  · simp at h
  · obtain ⟨⟨as, m⟩, h1, h2⟩ := Option.map_eq_some_iff.1 h
    simp only [Prod.mk.injEq] at h2
    obtain ⟨rfl, rfl⟩ := h2
    obtain ⟨k1, -, ⟨gs, rfl, k3⟩, k4⟩ := inputsArgs_spec inputs _ m as (inv_init I) h1
    have hm : ∀ x ∈ m.dirs, ':' ∉ x.1 := by
      intro x hx
      rcases k4 x hx with hx | ⟨i, hi, -, hx⟩
      · simp at hx
      · exact hp i hi _ hx
    refine ⟨gs, ?_, ?_⟩
    · rw [options_eq]
    · have : ∀ i ∈ inputs, ∀ g, ArgsIn m.dirs i g → ArgsOf m.binds i g := by
        intro i hi g hg
        have hgr : i.graphArg = i.graph.getD "-".toList := by
          unfold Input.graphArg
          cases i.graph <;> rfl
        rcases hg with ⟨x, hx, rfl⟩ | ⟨hx, p, f, d, e1, e2, e3, rfl⟩
        · exact ⟨_, by rw [inputArgs, hgr], .inl ⟨by simp [hx], rfl⟩⟩
        · obtain ⟨s1, s2⟩ := sees_of_inv k1 hI hm e3 (hf i hi f e2)
          exact ⟨_, by rw [inputArgs, hgr], .inr ⟨hx, p, f, e1, e2, s1, s2⟩⟩
      exact forall2_imp_mem k3 this

/-- Three inputs of two directories, one of which is that of the index. -/
def sampleInputs : List Input :=
  [⟨some "/home/a".toList, some "x.nt".toList, .nt, none, none⟩,
   ⟨some "/ix".toList, some "y z.ttl".toList, .ttl, some "http://g".toList, none⟩,
   ⟨some "/home/a".toList, some "w.nq".toList, .nq, none, none⟩,
   ⟨some "/home/b".toList, some "v.nt.bz2".toList, .nt, none, some .bzip2⟩]

def sampleConfig : Config := ⟨"ix".toList, some "4G".toList, none, some false⟩

example : build false sampleInputs sampleConfig "/ix".toList =
    some (["qlever-index", "-i", "ix", "-m", "4G", "--parse-parallel", "false",
      "-f", "/inputs/0/x.nt", "-F", "nt", "-g", "-", "-f", "/data/y z.ttl", "-F", "ttl", "-g", "http://g",
      "-f", "/inputs/0/w.nq", "-F", "nq", "-g", "-", "-f", "-", "-F", "nt", "-g", "-"].map String.toList,
     ["/ix:/data:rw", "/home/a:/inputs/0:ro"].map String.toList) := by decide +kernel

example : (':' ∉ "/ix".toList) ∧ (∀ i ∈ sampleInputs, ∀ p, i.parent = some p → ':' ∉ p) ∧
    (∀ i ∈ sampleInputs, ∀ f, i.file = some f → '/' ∉ f) := by
  refine ⟨by decide, ?_, ?_⟩
  · intro i hi p hp
    have : ∀ i ∈ sampleInputs, ':' ∉ i.parent.getD [] := by decide +kernel
    simpa [hp] using this i hi
  · intro i hi p hp
    have : ∀ i ∈ sampleInputs, '/' ∉ i.file.getD [] := by decide +kernel
    simpa [hp] using this i hi

/-- C150, for any directories, fails: with a colon in the directory of the index the text of the mount has too many
parts, and the input is not seen in the container. -/
theorem C150_colon_refuted : ¬ ∀ (v1 : Bool) (inputs : List Input) (c : Config) (I : Str) (argv binds : List Str),
    build v1 inputs c I = some (argv, binds) → (∀ i ∈ inputs, ∀ f, i.file = some f → '/' ∉ f) →
    ∃ pre groups, argv = pre ++ groups.flatten ∧ List.Forall₂ (ArgsOf binds) inputs groups := by
  intro h
  obtain ⟨pre, gs, -, hg⟩ := h false [⟨some "/i:x".toList, some "a".toList, .nt, none, none⟩] ⟨"n".toList, none, none, none⟩
    "/i:x".toList ["qlever-index".toList, "-i".toList, "n".toList, "-f".toList, "/data/a".toList, "-F".toList,
      "nt".toList, "-g".toList, "-".toList] ["/i:x:/data:rw".toList] (by decide +kernel) (by
      intro i hi f hf
      rw [List.mem_singleton.1 hi] at hf
      simp only [Option.some.injEq] at hf
      subst hf
      decide)
  cases hg with
  | cons h1 _ =>
    obtain ⟨p, -, hp⟩ := h1
    rcases hp with ⟨hc, -⟩ | ⟨-, d, f, -, -, ⟨b, hb, c, o, hM, -⟩, -⟩
    · exact hc rfl
    · rw [List.mem_singleton.1 hb] at hM
      exact absurd (mounted_count hM) (by decide +kernel)

/-- C150: there is an error exactly when two inputs are compressed, or one which is not has no directory or no name. -/
theorem C150_error (v1 : Bool) (inputs : List Input) (c : Config) (I : Str) :
    build v1 inputs c I = none ↔
      (∃ i j, [i, j].Sublist inputs ∧ i.compression ≠ none ∧ j.compression ≠ none) ∨
      ∃ i ∈ inputs, i.compression = none ∧ (i.parent = none ∨ i.file = none) := by
  unfold build
  rw [← two_compressed]
  split
  · next h => simp [h]
  · next h =>
    rw [Option.map_eq_none_iff, inputsArgs_none]
    exact ⟨.inr, fun k => k.resolve_left h⟩

example : build true (sampleInputs ++ sampleInputs) sampleConfig "/ix".toList = none := by decide +kernel

example : build true [⟨some "/".toList, none, .nt, none, none⟩] sampleConfig "/ix".toList = none := by decide +kernel

/-- C150: what is mounted. The directory of the index, and nothing else, may be written to; the others are directories
of inputs that are not compressed. -/
theorem C150_mounts {v1 : Bool} {inputs : List Input} {c : Config} {I : Str} {argv binds : List Str}
    (h : build v1 inputs c I = some (argv, binds)) (hI : ':' ∉ I) (hp : ∀ i ∈ inputs, ∀ p, i.parent = some p → ':' ∉ p) :
    (∃ b ∈ binds, Mounted b I "/data".toList "rw".toList) ∧
    ∀ b ∈ binds, ∃ d e o, Mounted b d e o ∧ ((d = I ∧ e = "/data".toList ∧ o = "rw".toList) ∨
      (d ≠ I ∧ o = "ro".toList ∧ ∃ i ∈ inputs, i.compression = none ∧ i.parent = some d)) := by
  unfold build at h
  split at h
  · simp at h
  · obtain ⟨⟨as, m⟩, h1, h2⟩ := Option.map_eq_some_iff.1 h
    simp only [Prod.mk.injEq] at h2
    obtain ⟨rfl, rfl⟩ := h2
    obtain ⟨k1, -, -, k4⟩ := inputsArgs_spec inputs _ m as (inv_init I) h1
    have hi : ∀ x ∈ m.dirs, ∃ i ∈ inputs, i.compression = none ∧ i.parent = some x.1 := by
      intro x hx
      exact (k4 x hx).resolve_left (by simp)
    refine ⟨⟨bindText I workDir "rw".toList, by rw [k1.binds]; simp, .mk hI workDir_no_colon (by decide)⟩, ?_⟩
    intro b hb
    rw [k1.binds] at hb
    rcases List.mem_cons.1 hb with rfl | hb
    · exact ⟨I, workDir, "rw".toList, .mk hI workDir_no_colon (by decide), .inl ⟨rfl, rfl, rfl⟩⟩
    · obtain ⟨x, hx, rfl⟩ := List.mem_map.1 hb
      obtain ⟨hx, hn⟩ := List.mem_filter.1 hx
      obtain ⟨i, i1, i2, i3⟩ := hi x hx
      exact ⟨x.1, x.2, "ro".toList, .mk (hp i i1 _ i3) (inv_no_colon k1 hx) (by decide),
        .inr ⟨by simpa using hn, rfl, i, i1, i2, i3⟩⟩

/-- C150: no directory is mounted twice. -/
theorem C150_once {v1 : Bool} {inputs : List Input} {c : Config} {I : Str} {argv binds : List Str}
    (h : build v1 inputs c I = some (argv, binds)) (hI : ':' ∉ I) (hp : ∀ i ∈ inputs, ∀ p, i.parent = some p → ':' ∉ p)
    {b b' d e e' o o' : Str} (hb : b ∈ binds) (hb' : b' ∈ binds) (hM : Mounted b d e o) (hM' : Mounted b' d e' o') :
    e = e' ∧ o = o' := by
  unfold build at h
  split at h
  · simp at h
  · obtain ⟨⟨as, m⟩, h1, h2⟩ := Option.map_eq_some_iff.1 h
    simp only [Prod.mk.injEq] at h2
    obtain ⟨rfl, rfl⟩ := h2
    obtain ⟨k1, -, -, k4⟩ := inputsArgs_spec inputs _ m as (inv_init I) h1
    have hm : ∀ x ∈ m.dirs, ':' ∉ x.1 := by
      intro x hx
      obtain ⟨i, i1, -, i3⟩ := (k4 x hx).resolve_left (by simp)
      exact hp i i1 _ i3
    rcases inv_mounted k1 hI hm hb hM with ⟨rfl, rfl, rfl⟩ | ⟨g1, g2, rfl⟩ <;>
      rcases inv_mounted k1 hI hm hb' hM' with ⟨r, rfl, rfl⟩ | ⟨g1', g2', rfl⟩
    · exact ⟨rfl, rfl⟩
    · exact absurd rfl g2'
    · exact absurd r g2
    · exact ⟨keys_unique k1.keys g1 g1', rfl⟩

/-- C150: the shell of the container is given the arguments of the builder, if no text of the configuration and no name
of a graph is empty. -/
theorem C150_run {v1 : Bool} {inputs : List Input} {c : Config} {I : Str} {argv binds : List Str}
    (h : build v1 inputs c I = some (argv, binds)) (hn : c.indexName ≠ []) (hm : c.memory ≠ some [])
    (hb : c.buffer ≠ some []) (hg : ∀ i ∈ inputs, i.graph ≠ some []) : commandWords (shellJoin argv) = some argv := by
  apply words_join
  unfold build at h
  split at h
  · simp at h
  · obtain ⟨⟨as, m⟩, h1, h2⟩ := Option.map_eq_some_iff.1 h
    simp only [Prod.mk.injEq] at h2
    obtain ⟨rfl, rfl⟩ := h2
    obtain ⟨-, -, ⟨gs, rfl, k3⟩, -⟩ := inputsArgs_spec inputs _ m as (inv_init I) h1
    intro a ha
    rcases List.mem_append.1 ha with ha | ha
    · exact options_nonempty hn hm hb a ha
    · obtain ⟨g, hgs, ha⟩ := List.mem_flatten.1 ha
      obtain ⟨i, hi, hai⟩ := forall2_right k3 hgs
      rcases hai with ⟨_, _, rfl⟩ | ⟨_, p, f, d, _, _, _, rfl⟩
      · exact inputArgs_nonempty (by decide) (hg i hi) a ha
      · exact inputArgs_nonempty (by simp) (hg i hi) a ha

example : sampleConfig.indexName ≠ [] ∧ sampleConfig.memory ≠ some [] ∧ sampleConfig.buffer ≠ some [] ∧
    ∀ i ∈ sampleInputs, i.graph ≠ some [] := by decide +kernel

end Qlever

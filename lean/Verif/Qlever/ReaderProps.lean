import Verif.Qlever.ReaderLemmas
import Verif.Qlever.ConvertProps

/-!
# Properties of streams (C160) and of prefixes (C161)
-/

namespace Qlever

variable {Data : Type}

/-! ## C160: what is served for a stream -/

/-- C160 (part): streams that are read one after the other are each served with their own data. What is missing: a directory given for
the index (`C160_directory_refuted`), and collisions of the hash. -/
theorem C160_served_partial (w : World Data) (c : Setup) (l : List (Bytes × Data × RFmt)) (k : Disk Data)
    (hk : ∀ d n, k.indexes d n = none) (hc : c.dir = none)
    (hw : ∀ x ∈ l, w.canon (readerFile (readerDir c x.1 x.2.2) x.2.2) = some (readerFile (readerDir c x.1 x.2.2) x.2.2))
    (hh : l.Pairwise fun x y => fnv fnvOffset (sourcePath x.1 x.2.2 ++ [0]) ≠ fnv fnvOffset (sourcePath y.1 y.2.2 ++ [0])) :
    readers w c l k = l.map fun x => readerWanted w x.2.1 x.2.2 := by
  replace hk : ∀ x ∈ l, k.indexes (readerDir c x.1 x.2.2) c.name = none := fun _ _ => hk _ _
  induction l generalizing k with
  | nil => rfl
  | cons x l ih =>
    obtain ⟨tmp, d, r⟩ := x
    rw [List.pairwise_cons] at hh
    have hw' := fun x hx => hw x (List.mem_cons_of_mem _ hx)
    have h0 : k.indexes (readerDir c tmp r) c.name = none := hk (tmp, d, r) List.mem_cons_self
    unfold readers
    rw [List.map_cons, wanted_conv]
    rcases reader_spec w tmp d r c k (hw (tmp, d, r) List.mem_cons_self) with ⟨h1, h2⟩ | ⟨d', e, k', h1, h2, h3, _, h5⟩
    · rw [h2, h1, ih k hw' hh.2 fun x hx => hk x (List.mem_cons_of_mem _ hx)]
      rfl
    · rw [h2, h1, h3, h0]
      dsimp only [Option.getD_none]
      rw [ih (removeDir tmp k') hw' hh.2 ?_]
      · rfl
      · intro x hx
        show (if _ then none else k'.indexes _ _) = none
        split
        · rfl
        · rw [h5, if_neg]
          · exact hk x (List.mem_cons_of_mem _ hx)
          · rintro ⟨he, -⟩
            exact hh.1 x hx (readerDir_inj hc he).symm

/-- Two streams in their own directories. -/
example : ∀ k : Disk Nat, (∀ d n, k.indexes d n = none) → readers sampleWorld cacheSetup
    [(ascii "/tmp/a", 3, .turtle), (ascii "/tmp/b", 4, .trig)] k =
      [some [⟨.nt, none, none, 6⟩], some [⟨.nq, none, none, 8⟩]] := fun k hk =>
  C160_served_partial sampleWorld cacheSetup _ k hk rfl (fun _ _ => rfl) (by decide +kernel)

/-- C160: a stream is an error exactly when it cannot be converted; otherwise one file is written into the directory of the index, and
no other outside of the temporary directory is changed. -/
theorem C160_files (w : World Data) (tmp : Bytes) (d : Data) (r : RFmt) (c : Setup) (k : Disk Data)
    (hc : w.canon (readerFile (readerDir c tmp r) r) = some (readerFile (readerDir c tmp r) r)) :
    (fromReader w tmp d r c k = none ↔ w.conv r d = none) ∧
    ∀ e k', fromReader w tmp d r c k = some (e, k') →
      (∀ x, k'.files (tmp ++ 47 :: x) = none) ∧
      (∀ x, (∀ y, x ≠ tmp ++ 47 :: y) → x ≠ readerFile (readerDir c tmp r) r → k'.files x = k.files x) ∧
      ((∀ y, readerFile (readerDir c tmp r) r ≠ tmp ++ 47 :: y) → k'.files (readerFile (readerDir c tmp r) r) = w.conv r d) := by
  have hp : ∀ x : Bytes, (tmp ++ [47]).isPrefixOf x = true ↔ ∃ y, x = tmp ++ 47 :: y := by
    intro x
    rw [List.isPrefixOf_iff_prefix]
    constructor
    · rintro ⟨y, rfl⟩; exact ⟨y, by simp⟩
    · rintro ⟨y, rfl⟩; exact ⟨y, by simp⟩
  rcases reader_spec w tmp d r c k hc with ⟨h1, h2⟩ | ⟨d', e, k', h1, h2, _, h4, _⟩
  · refine ⟨by rw [h1, h2]; simp, fun e k' h => ?_⟩
    rw [h2] at h; cases h
  · refine ⟨by rw [h1, h2]; simp, fun e' k'' h => ?_⟩
    rw [h2] at h
    cases h
    refine ⟨fun x => ?_, fun x hx hn => ?_, fun hx => ?_⟩
    · exact if_pos ((hp _).2 ⟨x, rfl⟩)
    · have : ¬ (tmp ++ [47]).isPrefixOf x = true := fun h => (hp x).1 h |>.elim hx
      have hs : x ≠ sourcePath tmp r := hx _
      show (if _ then none else k'.files x) = _
      rw [if_neg this, h4, if_neg hn, if_neg hs]
    · have : ¬ (tmp ++ [47]).isPrefixOf (readerFile (readerDir c tmp r) r) = true := fun h => (hp _).1 h |>.elim hx
      show (if _ then none else k'.files _) = _
      rw [if_neg this, h4, if_pos rfl, h1]

/-- A directory that is given for the index. -/
def givenSetup : Setup := ⟨some (ascii "/i"), ascii "n", false, ascii "/c"⟩

/-- C160, as a whole, fails: with a directory given for the index, the second stream is served with the data of the first. -/
theorem C160_directory_refuted : ¬ ∀ (w : World Nat) (c : Setup) (l : List (Bytes × Nat × RFmt)) (k : Disk Nat),
    (∀ d n, k.indexes d n = none) → (∀ p, w.canon p = some p) →
    (l.Pairwise fun x y => fnv fnvOffset (sourcePath x.1 x.2.2 ++ [0]) ≠ fnv fnvOffset (sourcePath y.1 y.2.2 ++ [0])) →
    readers w c l k = l.map fun x => readerWanted w x.2.1 x.2.2 := by
  intro h
  have := h sampleWorld givenSetup [(ascii "/tmp/a", 3, .turtle), (ascii "/tmp/b", 4, .turtle)] ⟨fun _ => none, fun _ _ => none⟩
    (fun _ _ => rfl) (fun _ => rfl) (by decide +kernel)
  exact absurd this (by decide +kernel)

/-! ## C161: prefixes of what is loaded -/

/-- C161 (part): the prefixes of what is loaded from paths are those declared in the files, the last declaration of each. What is
missing: a format that is given (`C161_format_refuted`), compressed files (`C161_compressed_refuted`), streams
(`C161_reader_lost`), and paths that are not canonical. -/
theorem C161_paths_partial (w : World Data) (unzip : Compression → Data → Data) (harvest : RFmt → Data → List (Bytes × Bytes))
    (h1 : ∀ d, harvest .ntriples d = []) (h2 : ∀ d, harvest .nquads d = []) (c : Setup) (ps : List Bytes) (k : Disk Data)
    (hp : ∀ p ∈ ps, stripCompression p = none ∧ w.canon p = some p)
    (hd : ∀ p ∈ ps, ∀ p' ∈ ps, written w none (convertDir c ps) p ≠ some p') {m : Prefixes}
    (hm : fromPathsPrefixes w harvest none c ps k = some m) (a : Bytes) :
    LastFor (ps.flatMap (declared w unzip harvest none k.files)) a (m a) := by
  unfold fromPathsPrefixes at hm
  split at hm
  · cases hm
  · split at hm
    · cases hm
    · next ss k1 hi =>
      obtain ⟨_, _, rfl⟩ := Option.map_eq_some_iff.1 hm
      have hf := (inputsOf_frame w none _ ps k ss k1 (.inl rfl) hi).2.2
      unfold collectPrefixes
      rw [collect_flat (w := w) (unzip := unzip) h1 h2 ps fun p hp' => ⟨(hp p hp').1, (hp p hp').2, hf p fun q hq => hd q hq p hp'⟩]
      rcases foldl_add (ps.flatMap (declared w unzip harvest none k.files)) (fun _ => none) a with ⟨i, e, h⟩ | ⟨e, h⟩
      · rw [e]; exact h
      · rw [e]; exact h

/-- What `oxrdfio` finds in the data 7 as Turtle: one prefix. -/
def sampleHarvest : RFmt → Nat → List (Bytes × Bytes)
  | .turtle, 7 => [(ascii "ex", ascii "http://example.org/")]
  | _, _ => []

/-- A Turtle file, under three names. -/
def turtleFiles : Disk Nat :=
  ⟨fun p => if p = ascii "/a/x.ttl" ∨ p = ascii "/a/x.dat" ∨ p = ascii "/a/x.ttl.gz" then some 7 else none, fun _ _ => none⟩

example : ((fromPathsPrefixes sampleWorld sampleHarvest none cacheSetup [ascii "/a/x.ttl"] turtleFiles).map fun m => m (ascii "ex")) =
    some (some (ascii "http://example.org/")) := by decide +kernel

example : (∀ p ∈ [ascii "/a/x.ttl"], stripCompression p = none ∧ sampleWorld.canon p = some p) ∧ ∀ p ∈ [ascii "/a/x.ttl"],
    ∀ p' ∈ [ascii "/a/x.ttl"], written sampleWorld none (convertDir cacheSetup [ascii "/a/x.ttl"]) p ≠ some p' := by decide +kernel

private theorem none_for {w : World Nat} {fmt : Option RFmt} {p : Bytes} {k : Disk Nat}
    (h : ∀ m, fromPathsPrefixes w sampleHarvest fmt cacheSetup [p] k = some m →
      LastFor ([p].flatMap (declared w (fun _ d => d) sampleHarvest fmt k.files)) (ascii "ex") (m (ascii "ex")))
    (h1 : ((fromPathsPrefixes w sampleHarvest fmt cacheSetup [p] k).map fun m => m (ascii "ex")) = some none)
    (h2 : [p].flatMap (declared w (fun _ d => d) sampleHarvest fmt k.files) = [(ascii "ex", ascii "http://example.org/")]) : False := by
  obtain ⟨m, hm, e⟩ := Option.map_eq_some_iff.1 h1
  have := h m hm
  rw [e, h2] at this
  exact this _ List.mem_cons_self rfl

/-- C161, as a whole, fails: prefixes of a Turtle file with another extension are lost, though its format is given. -/
theorem C161_format_refuted : ¬ ∀ (w : World Nat) (fmt : Option RFmt) (p : Bytes) (k : Disk Nat), stripCompression p = none →
    (∀ q, w.canon q = some q) → ∀ m, fromPathsPrefixes w sampleHarvest fmt cacheSetup [p] k = some m →
      LastFor ([p].flatMap (declared w (fun _ d => d) sampleHarvest fmt k.files)) (ascii "ex") (m (ascii "ex")) := fun h =>
  none_for (h sampleWorld (some .turtle) (ascii "/a/x.dat") turtleFiles (by decide +kernel) fun _ => rfl) (by decide +kernel)
    (by decide +kernel)

/-- C161, as a whole, fails: prefixes of compressed files are lost. -/
theorem C161_compressed_refuted : ¬ ∀ (w : World Nat) (p : Bytes) (k : Disk Nat), (∀ q, w.canon q = some q) →
    ∀ m, fromPathsPrefixes w sampleHarvest none cacheSetup [p] k = some m →
      LastFor ([p].flatMap (declared w (fun _ d => d) sampleHarvest none k.files)) (ascii "ex") (m (ascii "ex")) := fun h =>
  none_for (h sampleWorld (ascii "/a/x.ttl.gz") turtleFiles fun _ => rfl) (by decide +kernel) (by decide +kernel)

/-- C161, as a whole, fails: nothing that is read from a stream has prefixes, whatever is declared in it. -/
theorem C161_reader_lost (w : World Data) (harvest : RFmt → Data → List (Bytes × Bytes)) (tmp : Bytes) (d : Data) (r : RFmt)
    (c : Setup) (k : Disk Data) {m : Prefixes} (h : fromReaderPrefixes w harvest tmp d r c k = some m) (a : Bytes) : m a = none := by
  unfold fromReaderPrefixes at h
  dsimp only at h
  split at h
  · cases h
  · next s k2 hc =>
    have hs : s.path = readerFile (readerDir c tmp r) r := by
      unfold convert at hc
      split at hc
      · cases hc
      · split at hc
        · cases hc
        · cases hc
          exact target_source _ _ _
    unfold fromPathsPrefixes at h
    split at h
    · cases h
    · split at h
      · cases h
      · obtain ⟨_, _, rfl⟩ := Option.map_eq_some_iff.1 h
        obtain ⟨f, h1, _, hf⟩ := guess_file (readerDir c tmp r) r
        rw [hs]
        simp only [collectPrefixes, List.foldl_cons, List.foldl_nil, collectOne, h1]
        rcases hf with rfl | rfl <;> rfl

/-- A stream of Turtle with a prefix. -/
example : sampleHarvest .turtle 7 ≠ [] ∧
    ((fromReaderPrefixes sampleWorld sampleHarvest (ascii "/tmp/a") 7 .turtle cacheSetup turtleFiles).map fun m => m (ascii "ex")) =
      some none := by decide +kernel

end Qlever

import Verif.Qlever.ConvertLemmas

/-!
# Properties of inputs from paths (C153)
-/

namespace Qlever

variable {Data : Type}

/-- C153 (part): what is served for a list of paths, when there was no index before, is for each path, in order, the
contents of its file, converted if its format is not one of QLever. What is missing: files that are converted to the
same name (`C153_stem_refuted`), compressed files for which a format is given (`C153_format_refuted`). -/
theorem C153_served_partial (w : World Data) (fmt : Option RFmt) (c : Setup) (ps : List Bytes) (k : Disk Data)
    (hk : ∀ d n, k.indexes d n = none) (hc : fmt = none ∨ ∀ p ∈ ps, stripCompression p = none)
    (hn : (ps.filterMap (written w fmt (convertDir c ps))).Nodup)
    (hd : ∀ p ∈ ps, ∀ p' ∈ ps, ∀ x, written w fmt (convertDir c ps) p = some x → w.canon p' ≠ some x) :
    (fromPaths w fmt c ps k).map (·.1) = if ps = [] then none else ps.mapM (wanted w fmt k.files) := by
  unfold fromPaths
  by_cases hp : ps = []
  · rw [if_pos hp, if_pos hp]
    rfl
  · rw [if_neg hp, if_neg hp, ← inputsOf_read w fmt _ ps k hc hn hd]
    cases hi : inputsOf w fmt (convertDir c ps) ps k with
    | none => rfl
    | some r =>
      obtain ⟨ss, k1⟩ := r
      obtain ⟨h1, h2, -⟩ := inputsOf_frame w fmt _ ps k ss k1 hc hi
      have hss : ss ≠ [] := fun h => hp (h2.1 h)
      have hx : k1.indexes (resolveDir c (fingerprint ss)) c.name = none := by rw [h1, hk]
      simp only [Option.bind_some, Option.map_map]
      cases hr : readAll k1.files ss <;> simp [load, buildIndex, hss, hx, hr]

/-- C153: conversion changes no file but those it writes. -/
theorem C153_files (w : World Data) (fmt : Option RFmt) (c : Setup) (ps : List Bytes) (k k' : Disk Data)
    (e : List (Entry Data)) (hc : fmt = none ∨ ∀ p ∈ ps, stripCompression p = none)
    (h : fromPaths w fmt c ps k = some (e, k')) (x : Bytes)
    (hx : ∀ p ∈ ps, written w fmt (convertDir c ps) p ≠ some x) : k'.files x = k.files x := by
  unfold fromPaths at h
  split at h
  · simp at h
  · split at h
    · simp at h
    · next ss k1 hi =>
      obtain ⟨-, -, h3⟩ := inputsOf_frame w fmt _ ps k ss k1 hc hi
      rw [← h3 x hx]
      obtain ⟨⟨e', b, k2⟩, h1, h2⟩ := Option.map_eq_some_iff.1 h
      simp only [Prod.mk.injEq] at h2
      obtain ⟨rfl, rfl⟩ := h2
      rw [load_files h1]

/-- Two files of JSON-LD and RDF/XML, with contents 3 and 4, which conversion doubles. -/
def sampleWorld : World Nat := ⟨some, fun _ n => some (2 * n)⟩

def sampleFiles : Disk Nat :=
  ⟨fun p => if p = ascii "/a/x.jsonld" then some 3 else if p = ascii "/b/x.rdf" then some 4
    else if p = ascii "/b/x.jsonld" then some 5 else if p = ascii "/a/x.nq" then some 6
    else if p = ascii "/a/y.nt.gz" then some 7 else none, fun _ _ => none⟩

def cacheSetup : Setup := ⟨none, ascii "n", false, ascii "/c"⟩

example : (fromPaths sampleWorld none cacheSetup [ascii "/a/x.jsonld", ascii "/b/x.rdf", ascii "/a/y.nt.gz"] sampleFiles).map (·.1) =
    some [⟨.nq, none, none, 6⟩, ⟨.nt, none, none, 8⟩, ⟨.nt, none, some .gzip, 7⟩] := by decide +kernel

example : (let ps := [ascii "/a/x.jsonld", ascii "/b/x.rdf", ascii "/a/y.nt.gz"];
    (ps.filterMap (written sampleWorld none (convertDir cacheSetup ps))).Nodup ∧
    (∀ p ∈ ps, ∀ p' ∈ ps, ∀ x ∈ written sampleWorld none (convertDir cacheSetup ps) p, sampleWorld.canon p' ≠ some x)) := by
  decide +kernel

/-- C153, as a whole, fails: of two files with the same name in different directories, the second is indexed twice and
the first is lost. -/
theorem C153_stem_refuted : ¬ ∀ (w : World Nat) (c : Setup) (ps : List Bytes) (k : Disk Nat),
    (∀ d n, k.indexes d n = none) → ps ≠ [] → (fromPaths w none c ps k).map (·.1) = ps.mapM (wanted w none k.files) := by
  intro h
  exact absurd (h sampleWorld cacheSetup [ascii "/a/x.jsonld", ascii "/b/x.jsonld"] sampleFiles (fun _ _ => rfl) (by simp))
    (by decide +kernel)

example : (fromPaths sampleWorld none cacheSetup [ascii "/a/x.jsonld", ascii "/b/x.jsonld"] sampleFiles).map (·.1) =
    some [⟨.nq, none, none, 10⟩, ⟨.nq, none, none, 10⟩] := by decide +kernel

/-- C153, as a whole, fails: the format that is given is not that of compressed files. -/
theorem C153_format_refuted : ¬ ∀ (w : World Nat) (r : RFmt) (c : Setup) (p : Bytes) (k : Disk Nat),
    (∀ d n, k.indexes d n = none) → (fromPaths w (some r) c [p] k).map (·.1) = [p].mapM (wanted w (some r) k.files) := by
  intro h
  exact absurd (h sampleWorld .nquads cacheSetup (ascii "/a/y.nt.gz") sampleFiles fun _ _ => rfl) (by decide +kernel)

/-- C153: files of the user are not safe from conversion, if a directory is given for the index: a file there with the
name of the converted one is lost. -/
theorem C153_files_refuted : ¬ ∀ (w : World Nat) (c : Setup) (ps : List Bytes) (k k' : Disk Nat) (e : List (Entry Nat)),
    fromPaths w none c ps k = some (e, k') → ∀ x d, k.files x = some d → k'.files x = some d := by
  intro h
  let c : Setup := ⟨some (ascii "/a"), ascii "n", false, ascii "/c"⟩
  have h0 : ((fromPaths sampleWorld none c [ascii "/b/x.jsonld"] sampleFiles).map fun r => r.2.files (ascii "/a/x.nq")) =
      some (some 10) := by decide +kernel
  obtain ⟨⟨e, k'⟩, h1, h2⟩ := Option.map_eq_some_iff.1 h0
  have h3 := h _ _ _ _ _ _ h1 (ascii "/a/x.nq") 6 (by decide +kernel)
  rw [h3] at h2
  simp at h2

end Qlever

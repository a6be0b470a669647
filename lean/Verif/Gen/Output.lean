import Verif.Gen.Fields

/-!
# Model: files to which generated data are written

`O` is `output.rs` and `C` is `config.rs`, both in `rudof_generate/src`.

All files are in one directory, so files are named by the last part of their paths, which is taken to have a file name that is
text; the directory is made before (O 50-52, 86-88). Triples are in the order in which the graph gives them. Writing of a file
succeeds or not as a whole, as told by a parameter: parts of a file that could not be written are not modelled. The tasks that
write parts do so to files with different names; they are run one after the other. Times and metrics that are put in the
statistics are not modelled, nor is compression, which does nothing (O 224-228, 256-260).
-/

namespace Gen

/-- Terms of RDF as they are shown (`to_string`): `<iri>`, `_:label`, and literals, which are given by what is shown after
the first quotation mark. -/
inductive OTerm where
  | iri (s : Str)
  | bnode (s : Str)
  | lit (shown : Str)
deriving DecidableEq

/-- `to_string`. -/
def OTerm.shown : OTerm → Str
  | .iri s => '<' :: s ++ ['>']
  | .bnode s => '_' :: ':' :: s
  | .lit s => '"' :: s

/-- Triples; predicates are IRIs. -/
structure OTriple where
  subj : OTerm
  pred : Str
  obj : OTerm
deriving DecidableEq

/-- `GenerationStatistics` (O 274-282). -/
structure OStats where
  triples : Nat
  subjects : Nat
  predicates : Nat
  objects : Nat
  shapes : List (Str × Nat)
deriving DecidableEq

/-- `*counts.entry(k).or_insert(0) += 1` (O 310). -/
def bump (k : Str) : List (Str × Nat) → List (Str × Nat)
  | [] => [(k, 1)]
  | (k', n) :: rest => if k' = k then (k', n + 1) :: rest else (k', n) :: bump k rest

/-- What is shown of `rdf:type` (O 306). -/
def typeShown : Str := "<http://www.w3.org/1999/02/22-rdf-syntax-ns#type>".toList

/-- `trim_start_matches('<').trim_end_matches('>')` (O 309). -/
def trimAngles (s : Str) : Str := ((s.dropWhile (· = '<')).reverse.dropWhile (· = '>')).reverse

/-- How one triple is counted (O 298-312). -/
def countShape (m : List (Str × Nat)) (t : OTriple) : List (Str × Nat) :=
  if (OTerm.iri t.pred).shown = typeShown then bump (trimAngles t.obj.shown) m else m

/-- `GenerationStatistics::from_graph` (O 285-324). Sets of texts are counted by lists without repetitions. -/
def statsOf (ts : List OTriple) : OStats :=
  { triples := ts.length
    subjects := ((ts.map fun t => t.subj.shown).dedup).length
    predicates := ((ts.map fun t => (OTerm.iri t.pred).shown).dedup).length
    objects := ((ts.map fun t => t.obj.shown).dedup).length
    shapes := ts.foldl countShape [] }

/-- What is in a file. -/
inductive Content where
  | graph (ts : List OTriple)
  | stats (s : OStats)
  | manifest (total : Nat) (names : List Str)
  | other (text : Str)
deriving DecidableEq

/-- The files of the directory. -/
abbrev Files := Str → Option Content

/-- A file with new content. -/
def Files.put (fs : Files) (n : Str) (c : Content) : Files := fun m => if m = n then some c else fs m

/-- `OutputConfig` (C 196-210). -/
structure OutConfig where
  /-- `path.file_stem()` -/
  stem : Str
  /-- `path.extension()` -/
  ext : Option Str
  writeStats : Bool
  parallel : Bool
  count : Nat

/-- The file name of `path`. -/
def OutConfig.main (c : OutConfig) : Str := match c.ext with
  | some e => c.stem ++ '.' :: e
  | none => c.stem

/-- `get_parallel_file_path` (O 183-194). -/
def OutConfig.part (c : OutConfig) (i : Nat) : Str :=
  c.stem ++ "_part_".toList ++ padNat 3 (i + 1) ++ '.' :: c.ext.getD "ttl".toList

/-- `with_extension("manifest.txt")` (O 199). -/
def OutConfig.manifestName (c : OutConfig) : Str := c.stem ++ ".manifest.txt".toList

/-- `with_extension("stats.json")` (O 237). -/
def OutConfig.statsName (c : OutConfig) : Str := c.stem ++ ".stats.json".toList

/-- `get_optimal_file_count` (C 261-291); `cpus` is the number of processors. -/
def OutConfig.fileCount (c : OutConfig) (cpus total : Nat) : Nat :=
  if c.count > 0 then c.count
  else if !c.parallel then 1
  else if total ≤ 1000 then 1
  else if total ≤ 5000 then min cpus 4
  else if total ≤ 50000 then min (cpus * 2) 8
  else min (cpus * 2) 16

/-- `div_ceil`. -/
def divCeil (a b : Nat) : Nat := if a % b > 0 then a / b + 1 else a / b

/-- `chunks` of a slice. -/
def chunksOf (k : Nat) (ts : List OTriple) : List (List OTriple) :=
  if h : ts = [] ∨ k = 0 then [] else ts.take k :: chunksOf k (ts.drop k)
termination_by ts.length
decreasing_by
  have : ts.length ≠ 0 := fun e => h (Or.inl (List.length_eq_zero_iff.1 e))
  simp only [List.length_drop]
  omega

/-- Writing of one file; the flag tells whether it succeeded. -/
def writeOne (can : Str → Bool) (fs : Files) (n : Str) (c : Content) : Bool × Files :=
  if can n then (true, fs.put n c) else (false, fs)

/-- The tasks that write parts (O 119-139): all are run, and there is an error if one fails. -/
def writeParts (can : Str → Bool) (c : OutConfig) : Nat → List (List OTriple) → Files → Bool × Files
  | _, [], fs => (true, fs)
  | i, p :: ps, fs =>
    let r := writeOne can fs (c.part i) (.graph p)
    let r' := writeParts can c (i + 1) ps r.2
    (r.1 && r'.1, r'.2)

/-- Statistics if they are asked for (O 63-66, 145-148, 231-253). -/
def writeStats (can : Str → Bool) (c : OutConfig) (ts : List OTriple) (fs : Files) : Bool × Files :=
  if c.writeStats then writeOne can fs c.statsName (.stats (statsOf ts)) else (true, fs)

/-- `create_parallel_manifest` (O 198-221): files that do not exist are left out. -/
def writeManifest (can : Str → Bool) (c : OutConfig) (n : Nat) (fs : Files) : Bool × Files :=
  writeOne can fs c.manifestName (.manifest n (((List.range n).map c.part).filter fun f => (fs f).isSome))

/-- `write_graph_parallel` (O 76-159). -/
def writeParallel (can : Str → Bool) (cpus : Nat) (c : OutConfig) (ts : List OTriple) (fs : Files) : Bool × Files :=
  let n := c.fileCount cpus ts.length
  let k := divCeil ts.length n
  if k = 0 then (true, fs)
  else
    let r := writeParts can c 0 (chunksOf k ts) fs
    if !r.1 then r
    else
      let r2 := writeStats can c ts r.2
      if !r2.1 then r2 else writeManifest can c n r2.2

/-- `write_graph_sequential` (O 41-73). -/
def writeSequential (can : Str → Bool) (c : OutConfig) (ts : List OTriple) (fs : Files) : Bool × Files :=
  let r := writeOne can fs c.main (.graph ts)
  if !r.1 then r else writeStats can c ts r.2

/-- `write_graph_with_timing` (O 24-38). -/
def writeGraph (can : Str → Bool) (cpus : Nat) (c : OutConfig) (ts : List OTriple) (fs : Files) : Bool × Files :=
  if c.parallel then writeParallel can cpus c ts fs else writeSequential can c ts fs

end Gen

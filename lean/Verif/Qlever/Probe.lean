import Verif.Qlever.Command

/-!
# Model: finding a decompressor

* DC = `rudof_rdf/src/rdf_impl/qlever/decompressor.rs`

Simplified: paths are texts; which paths are executable files is given. The probe is kept for the whole process in the code (DC 181-182);
here it is what is found when it is made.
-/

namespace Qlever.Probe

/-- `DecompressorCandidate` (DC 22-29). -/
structure Candidate where
  program : Str
  args : List Str
  parallel : Bool
  deriving DecidableEq

/-- `family_name` (DC 60, 93, 120). -/
def familyName : Compression → Str
  | .bzip2 => "bz2".toList
  | .xz => "xz".toList
  | .gzip => "gz".toList

/-- `candidates` (DC 66-84, 99-112, 126-144). -/
def candidates : Compression → List Candidate
  | .bzip2 => [⟨"lbzip2".toList, ["-dc".toList], true⟩, ⟨"lbzcat".toList, ["-dc".toList], true⟩, ⟨"bzip2".toList, ["-dc".toList], false⟩]
  | .xz => [⟨"xz".toList, ["-dc".toList, "-T0".toList], true⟩, ⟨"xzcat".toList, ["-T0".toList], true⟩]
  | .gzip => [⟨"pigz".toList, ["-dc".toList], true⟩, ⟨"gzip".toList, ["-dc".toList], false⟩, ⟨"zcat".toList, [], false⟩]

/-- `ResolvedDecompressor` (DC 149-158). -/
structure Resolved where
  program : Str
  args : List Str
  parallel : Bool
  family : Str
  deriving DecidableEq

/-- `std::env::split_paths` on Unix. -/
def splitPaths : Str → List Str
  | [] => [[]]
  | c :: s =>
    if c = ':' then [] :: splitPaths s
    else
      match splitPaths s with
      | [] => [[c]]
      | d :: l => (c :: d) :: l

/-- `Path::join` with a name. -/
def join (dir name : Str) : Str :=
  if dir.isEmpty then name else if dir.getLast? = some '/' then dir ++ name else dir ++ '/' :: name

/-- `find_on_path` (DC 219-228). -/
def findOnPath (exec : Str → Bool) (path : Option Str) (program : Str) : Option Str :=
  match path with
  | none => none
  | some p => ((splitPaths p).map (join · program)).find? exec

/-- The inner loop of `decompressor_probe` (DC 185-198). -/
def resolve (exec : Str → Bool) (path : Option Str) (f : Compression) : List Candidate → Option Resolved
  | [] => none
  | c :: l =>
    match findOnPath exec path c.program with
    | some abs => some ⟨abs, c.args, c.parallel, familyName f⟩
    | none => resolve exec path f l

/-- The outer loop of `decompressor_probe` (DC 184-200), over `strategies()` (DC 51-53). -/
def probe (exec : Str → Bool) (path : Option Str) : List (Str × Resolved) :=
  [Compression.bzip2, .xz, .gzip].foldl (fun m f =>
    match resolve exec path f (candidates f) with
    | some r => (familyName f, r) :: m
    | none => m) []

/-- `for_compression` (DC 169-176). -/
def forCompression (m : List (Str × Resolved)) (f : Compression) : Option Resolved := m.lookup (familyName f)

end Qlever.Probe

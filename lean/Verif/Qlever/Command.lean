/-!
# Model: the command of the QLever index builder, and what it sees of the host

`IB` is `rudof_rdf/src/rdf_impl/qlever/index_builder.rs`, `QC` is `config.rs`, `CP` is `cli_probe.rs` there.

Texts are lists of characters. A path on the host is given by its parent and its file name (`Path::parent`,
`Path::file_name`, `None` for a root); paths are compared as texts. Docker and QLever are not modelled.
-/

namespace Qlever

abbrev Str := List Char

/-- `NativeFormat` (QC 336-343). -/
inductive Fmt where
  | ttl | nt | nq
deriving DecidableEq

/-- `NativeFormat::cli_arg` (QC 347-353). -/
def Fmt.arg : Fmt → Str
  | .ttl => "ttl".toList
  | .nt => "nt".toList
  | .nq => "nq".toList

/-- `Compression` (`decompressor.rs` 32-37). -/
inductive Compression where
  | bzip2 | xz | gzip
deriving DecidableEq

/-- `InputFile` (QC 298-320), without `in_container_name`, which the builder does not use. -/
structure Input where
  parent : Option Str
  file : Option Str
  format : Fmt
  graph : Option Str
  compression : Option Compression
deriving DecidableEq

/-- `graph_arg` (QC 329-331). -/
def Input.graphArg (i : Input) : Str := i.graph.getD "-".toList

/-- `QleverConfig` (QC): what the command depends on. -/
structure Config where
  indexName : Str
  memory : Option Str
  buffer : Option Str
  parallel : Option Bool

/-- `CliKind::index_builder_cmd` (CP 30-35): version 1 or 2. -/
def builderCmd : Bool → Str
  | true => "IndexBuilderMain".toList
  | false => "qlever-index".toList

/-- `CONTAINER_WORKING_DIR` (QC 16). -/
def workDir : Str := "/data".toList

/-- `safe_char` (IB 664-668). -/
def safeChar (c : Char) : Bool :=
  ('A' ≤ c && c ≤ 'Z') || ('a' ≤ c && c ≤ 'z') || ('0' ≤ c && c ≤ '9') || c ∈ ['-', '_', '.', '/', ':', '=']

/-- `shell_quote` (IB 654-662). Bytes of characters beyond ASCII are not safe, so characters may be looked at. -/
def shellQuote (s : Str) : Str :=
  if s.all safeChar then s
  else '\'' :: (s.flatMap fun c => if c = '\'' then ['\'', '\\', '\'', '\''] else [c]) ++ ['\'']

/-- `shell_join` (IB 650-652). -/
def shellJoin : List Str → Str
  | [] => []
  | [a] => shellQuote a
  | a :: b :: l => shellQuote a ++ ' ' :: shellJoin (b :: l)

/-- What precedes the inputs in the command (IB 152-168). -/
def options (v1 : Bool) (c : Config) : List Str :=
  [builderCmd v1, "-i".toList, c.indexName] ++
  (match c.memory with | some m => ["-m".toList, m] | none => []) ++
  (match c.buffer with | some b => ["--parser-buffer-size".toList, b] | none => []) ++
  (match c.parallel with
    | some p => ["--parse-parallel".toList, if p then "true".toList else "false".toList]
    | none => [])

/-- The text of a mount (IB 171, 198). -/
def bindText (host cont opt : Str) : Str := host ++ ':' :: cont ++ ':' :: opt

/-- `/inputs/{n}` (IB 197). -/
def inputDir (n : Nat) : Str := "/inputs/".toList ++ Nat.toDigits 10 n

/-- What one input adds to the command (IB 179-184, 219-224). -/
def inputArgs (path : Str) (i : Input) : List Str :=
  ["-f".toList, path, "-F".toList, i.format.arg, "-g".toList, i.graphArg]

/-- The map of mounted directories, in the order they were added, with the texts of the mounts added. -/
structure Mounts where
  dirs : List (Str × Str)
  binds : List Str

/-- The directory in the container for a directory of the host (IB 191-206). -/
def mount (indexDir parent : Str) (m : Mounts) : Str × Mounts :=
  match m.dirs.lookup parent with
  | some d => (d, m)
  | none =>
    if parent = indexDir then (workDir, { m with dirs := m.dirs ++ [(parent, workDir)] })
    else
      let d := inputDir m.dirs.length
      (d, ⟨m.dirs ++ [(parent, d)], m.binds ++ [bindText parent d "ro".toList]⟩)

/-- The loop over the inputs (IB 176-225); `none` is an error. -/
def inputsArgs (indexDir : Str) : List Input → Mounts → Option (List Str × Mounts)
  | [], m => some ([], m)
  | i :: is, m =>
    match i.compression with
    | some _ => (inputsArgs indexDir is m).map fun r => (inputArgs "-".toList i ++ r.1, r.2)
    | none =>
      match i.parent with
      | none => none
      | some p =>
        let (d, m) := mount indexDir p m
        match i.file with
        | none => none
        | some f => (inputsArgs indexDir is m).map fun r => (inputArgs (d ++ '/' :: f) i ++ r.1, r.2)

/-- `build_argv_and_binds` (IB 138-228). -/
def build (v1 : Bool) (inputs : List Input) (c : Config) (indexDir : Str) : Option (List Str × List Str) :=
  if (inputs.filter fun i => i.compression.isSome).length > 1 then none
  else (inputsArgs indexDir inputs ⟨[], [bindText indexDir workDir "rw".toList]⟩).map fun r =>
    (options v1 c ++ r.1, r.2.binds)

end Qlever

import Verif.Qlever.Command

/-!
# Model: where indexes are kept, and when they are made

* IB = `rudof_rdf/src/rdf_impl/qlever/index_builder.rs`
* QC = `rudof_rdf/src/rdf_impl/qlever/config.rs`
* GC = `rudof_rdf/src/rdf_impl/qlever/graph_container.rs`
* QS = `rudof_rdf/src/rdf_impl/qlever/server.rs`

Simplified: the disk is a map from paths to contents and a map from directories and names to finished indexes. An index
is what the builder was given: for each input its format, graph, compression and contents. Docker, and the errors of
the command (`build`), are left out: what is said of a load is said of loads which get that far.
-/

namespace Qlever

abbrev Bytes := List UInt8

/-- `InputFile` (QC 298-320), with the bytes of the path. -/
structure Source where
  path : Bytes
  format : Fmt
  graph : Option Bytes
  compression : Option Compression
deriving DecidableEq

/-- `cli_arg` (QC): `ttl`, `nt`, `nq`. -/
def Fmt.bytes : Fmt → Bytes
  | .ttl => [116, 116, 108]
  | .nt => [110, 116]
  | .nq => [110, 113]

/-- `family_name` (`decompressor.rs` 60-62, 93-95, 120-122): `bz2`, `xz`, `gz`. -/
def Compression.bytes : Compression → Bytes
  | .bzip2 => [98, 122, 50]
  | .xz => [120, 122]
  | .gzip => [103, 122]

/-- What one input gives to the hash (IB 599-608, `write_path` IB 630-642). -/
def Source.bytes (s : Source) : Bytes :=
  s.path ++ 0 :: (s.format.bytes ++ (s.graph.getD [] ++ (s.compression.map Compression.bytes).getD []))

/-- All that is given to the hash (IB 598-608). -/
def stream (l : List Source) : Bytes := l.flatMap Source.bytes

/-- `OFFSET` (IB 616). -/
def fnvOffset : BitVec 64 := 0xcbf29ce484222325#64

/-- `PRIME` (IB 617). -/
def fnvPrime : BitVec 64 := 0x00000100000001b3#64

/-- `write_bytes` (IB 623-628). -/
def fnv (h : BitVec 64) (l : Bytes) : BitVec 64 := l.foldl (fun h b => (h ^^^ b.toBitVec.setWidth 64) * fnvPrime) h

/-- A hexadecimal digit in lower case. -/
def hexDigit (n : Nat) : UInt8 := if n < 10 then .ofNat (48 + n) else .ofNat (87 + n)

/-- The `k` last hexadecimal digits: `{:016x}` for `k = 16` (IB 609). -/
def hex : Nat → Nat → Bytes
  | 0, _ => []
  | k + 1, n => hex k (n / 16) ++ [hexDigit (n % 16)]

/-- `fingerprint_inputs` (IB 597-610). -/
def fingerprint (l : List Source) : Bytes := hex 16 (fnv fnvOffset (stream l)).toNat

/-- What of `QleverConfig` matters here (QC): `index_dir`, `index_name`, `auto_delete_if_created`; and the directory of
caches of the user with `rudof/qlever` (QC 285-292). -/
structure Setup where
  dir : Option Bytes
  name : Bytes
  autoDelete : Bool
  base : Bytes
deriving DecidableEq

/-- `resolve_index_dir` (QC 281-293). -/
def resolveDir (c : Setup) (fp : Bytes) : Bytes := c.dir.getD (c.base ++ 47 :: fp)

/-- What an index is made of, for one input. -/
structure Entry (Data : Type) where
  format : Fmt
  graph : Option Bytes
  compression : Option Compression
  data : Data
deriving DecidableEq

/-- What is on the disk. -/
structure Disk (Data : Type) where
  files : Bytes → Option Data
  indexes : Bytes → Bytes → Option (List (Entry Data))

variable {Data : Type}

/-- What the builder reads; `none` when a file is not there. -/
def readAll (files : Bytes → Option Data) : List Source → Option (List (Entry Data))
  | [] => some []
  | s :: l =>
    match files s.path, readAll files l with
    | some d, some r => some (⟨s.format, s.graph, s.compression, d⟩ :: r)
    | _, _ => none

/-- `build_index` (IB 67-135). -/
def buildIndex (c : Setup) (l : List Source) (k : Disk Data) : Option (Disk Data) :=
  if l = [] then none
  else
    let d := resolveDir c (fingerprint l)
    if (k.indexes d c.name).isSome then some k
    else (readAll k.files l).map fun es =>
      { k with indexes := fun d' n' => if d' = d ∧ n' = c.name then some es else k.indexes d' n' }

/-- `from_paths` (GC 91-105) from the inputs on: what is served, whether `mark_created_index` is told that the index
was made, and the disk after. -/
def load (c : Setup) (l : List Source) (k : Disk Data) : Option (List (Entry Data) × Bool × Disk Data) :=
  let d := resolveDir c (fingerprint l)
  let already := (k.indexes d c.name).isSome
  match buildIndex c l k with
  | none => none
  | some k' =>
    match k'.indexes d c.name with
    | none => none
    | some es => some (es, !already, k')

/-- `remove_dir_all`. -/
def removeDir (d : Bytes) (k : Disk Data) : Disk Data :=
  { files := fun p => if (d ++ [47]).isPrefixOf p then none else k.files p
    indexes := fun d' n => if d' = d ∨ (d ++ [47]).isPrefixOf d' then none else k.indexes d' n }

/-- `drop` of the server (QS 32-51). -/
def dropServer (c : Setup) (l : List Source) (created : Bool) (k : Disk Data) : Disk Data :=
  if c.autoDelete ∧ created then removeDir (resolveDir c (fingerprint l)) k else k

/-- What happens to a disk: inputs are loaded, or a file is written. -/
inductive Event (Data : Type) where
  | load (c : Setup) (l : List Source)
  | write (p : Bytes) (d : Data)

/-- What each event gives (nothing for writing), with the disk at the end. -/
def history : List (Event Data) → Disk Data → List (Option (List (Entry Data))) × Disk Data
  | [], k => ([], k)
  | .write p d :: es, k =>
    let r := history es { k with files := fun q => if q = p then some d else k.files q }
    (none :: r.1, r.2)
  | .load c l :: es, k =>
    match load c l k with
    | none => let r := history es k; (none :: r.1, r.2)
    | some (e, _, k') => let r := history es k'; (some e :: r.1, r.2)

end Qlever

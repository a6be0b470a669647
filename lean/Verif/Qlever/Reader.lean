import Verif.Qlever.Convert

/-!
# Model: data that is read from a stream, and prefixes of what is loaded

* GC = `rudof_rdf/src/rdf_impl/qlever/graph_container.rs`

Simplified: the stream is all that it gives; what `oxrdfio` finds as prefixes in data of a format, as far as their names are IRIs, is a
parameter.
-/

namespace Qlever

/-- `source_ext` (GC 530-540). -/
def sourceExt : RFmt → Bytes
  | .turtle => ascii ".ttl"
  | .ntriples => ascii ".nt"
  | .nquads => ascii ".nq"
  | .rdfxml => ascii ".rdf"
  | .jsonld => ascii ".jsonld"
  | .trig => ascii ".trig"
  | .n3 => ascii ".n3"

/-- The file to which the stream is copied, in a directory made by `tempdir` (GC 129-130). -/
def sourcePath (tmp : Bytes) (r : RFmt) : Bytes := tmp ++ 47 :: (ascii "input" ++ sourceExt r)

/-- `target_dir`, with `fingerprint_for_path` (GC 135, 554-558). -/
def readerDir (c : Setup) (tmp : Bytes) (r : RFmt) : Bytes :=
  resolveDir c (hex 16 (fnv fnvOffset (sourcePath tmp r ++ [0])).toNat)

variable {Data : Type}

/-- `from_reader` (GC 128-146), with the directory made by `tempdir`, which is removed at the end. -/
def fromReader (w : World Data) (tmp : Bytes) (d : Data) (r : RFmt) (c : Setup) (k : Disk Data) :
    Option (List (Entry Data) × Disk Data) :=
  let src := sourcePath tmp r
  let k1 : Disk Data := { k with files := fun p => if p = src then some d else k.files p }
  let dir := readerDir c tmp r
  match convert w dir src r k1 with
  | none => none
  | some (s, k2) => (fromPaths w none { c with dir := some dir } [s.path] k2).map fun x => (x.1, removeDir tmp x.2)

/-- Many streams, one after the other, each with its directory. -/
def readers (w : World Data) (c : Setup) : List (Bytes × Data × RFmt) → Disk Data → List (Option (List (Entry Data)))
  | [], _ => []
  | (tmp, d, r) :: l, k =>
    match fromReader w tmp d r c k with
    | none => none :: readers w c l k
    | some (e, k') => some e :: readers w c l k'

/-- A prefix map: names of prefixes and their IRIs. -/
abbrev Prefixes := Bytes → Option Bytes

/-- `add_prefix` (`prefixmap/src/prefix_map.rs` 111-124). -/
def addPrefix (m : Prefixes) (x : Bytes × Bytes) : Prefixes := fun a => if a = x.1 then some x.2 else m a

/-- One turn of the loop of `collect_prefixes_from_paths` (GC 573-583), with `harvest_prefixes` (GC 587-606). -/
def collectOne (harvest : RFmt → Data → List (Bytes × Bytes)) (files : Bytes → Option Data) (m : Prefixes) (p : Bytes) : Prefixes :=
  match guessFormat p with
  | none => m
  | some .ntriples => m
  | some .nquads => m
  | some f =>
    match files p with
    | none => m
    | some d => (harvest f d).foldl addPrefix m

/-- `collect_prefixes_from_paths` (GC 571-585). -/
def collectPrefixes (harvest : RFmt → Data → List (Bytes × Bytes)) (files : Bytes → Option Data) (ps : List Bytes) : Prefixes :=
  ps.foldl (collectOne harvest files) fun _ => none

/-- The prefix map of what `from_paths` makes (GC 66-105). -/
def fromPathsPrefixes (w : World Data) (harvest : RFmt → Data → List (Bytes × Bytes)) (fmt : Option RFmt) (c : Setup)
    (ps : List Bytes) (k : Disk Data) : Option Prefixes :=
  if ps = [] then none
  else
    match inputsOf w fmt (convertDir c ps) ps k with
    | none => none
    | some (ss, k1) => (load c ss k1).map fun _ => collectPrefixes harvest k1.files ps

/-- The prefix map of what `from_reader` makes (GC 128-146). -/
def fromReaderPrefixes (w : World Data) (harvest : RFmt → Data → List (Bytes × Bytes)) (tmp : Bytes) (d : Data) (r : RFmt)
    (c : Setup) (k : Disk Data) : Option Prefixes :=
  let src := sourcePath tmp r
  let k1 : Disk Data := { k with files := fun p => if p = src then some d else k.files p }
  let dir := readerDir c tmp r
  match convert w dir src r k1 with
  | none => none
  | some (s, k2) => fromPathsPrefixes w harvest none { c with dir := some dir } [s.path] k2

end Qlever

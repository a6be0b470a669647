import Verif.Qlever.Store

/-!
# Model: inputs from paths, and the conversion of formats that QLever does not read

* IB = `rudof_rdf/src/rdf_impl/qlever/index_builder.rs`
* GC = `rudof_rdf/src/rdf_impl/qlever/graph_container.rs`
* QC = `rudof_rdf/src/rdf_impl/qlever/config.rs`
* DC = `rudof_rdf/src/rdf_impl/qlever/decompressor.rs`

Simplified: paths are bytes, those of ASCII for what is looked at; canonical paths and the conversion of contents (which
`oxrdfio` does) are parameters.
-/

namespace Qlever

/-- `RDFFormat`. -/
inductive RFmt where
  | turtle | ntriples | nquads | rdfxml | jsonld | trig | n3
deriving DecidableEq

/-- The file system and `oxrdfio`: `canonicalize`, and contents of one format written in the format of `convert`. -/
structure World (Data : Type) where
  canon : Bytes → Option Bytes
  conv : RFmt → Data → Option Data

/-- The bytes of a text of ASCII. -/
def ascii (s : String) : Bytes := s.toList.map fun c => .ofNat c.toNat

/-- `to_ascii_lowercase`. -/
def lower (b : UInt8) : UInt8 := if 65 ≤ b ∧ b ≤ 90 then b + 32 else b

/-- `file_name`: what follows the last slash. -/
def fileName (p : Bytes) : Bytes := (p.reverse.takeWhile (· ≠ 47)).reverse

/-- A name before and after its last dot, if that is not its first character (`file_stem`, `extension`). -/
def splitDot (n : Bytes) : Option (Bytes × Bytes) :=
  let e := n.reverse.takeWhile (· ≠ 46)
  match n.reverse.drop e.length with
  | [] => none
  | [_] => none
  | _ :: r => some (r.reverse, e.reverse)

/-- `file_stem`, or `input` (IB 702-705). -/
def fileStem (p : Bytes) : Bytes :=
  if fileName p = [] then ascii "input"
  else match splitDot (fileName p) with
    | some (s, _) => s
    | none => fileName p

/-- `extension`, in lower case. -/
def extension (p : Bytes) : Option Bytes := (splitDot (fileName p)).map fun r => r.2.map lower

/-- `guess_format` (GC 516-528). -/
def guessFormat (p : Bytes) : Option RFmt :=
  match extension p with
  | none => none
  | some e =>
    if e = ascii "ttl" then some .turtle
    else if e = ascii "nt" then some .ntriples
    else if e = ascii "nq" then some .nquads
    else if e = ascii "rdf" ∨ e = ascii "xml" ∨ e = ascii "owl" then some .rdfxml
    else if e = ascii "jsonld" ∨ e = ascii "json" then some .jsonld
    else if e = ascii "trig" then some .trig
    else if e = ascii "n3" then some .n3
    else none

/-- `NativeFormat::from_path` (QC 356-364). -/
def nativeOf (p : Bytes) : Option Fmt :=
  match extension p with
  | none => none
  | some e =>
    if e = ascii "ttl" then some .ttl
    else if e = ascii "nt" then some .nt
    else if e = ascii "nq" then some .nq
    else none

/-- `native_for_passthrough` (GC 507-514). -/
def passThrough : RFmt → Option Fmt
  | .turtle => some .ttl
  | .ntriples => some .nt
  | .nquads => some .nq
  | _ => none

/-- `strip_compression_suffix` (DC 206-215). -/
def stripCompression (p : Bytes) : Option (Bytes × Compression) :=
  if (ascii ".bz2").isSuffixOf p then some (p.take (p.length - 4), .bzip2)
  else if (ascii ".xz").isSuffixOf p then some (p.take (p.length - 3), .xz)
  else if (ascii ".gz").isSuffixOf p then some (p.take (p.length - 3), .gzip)
  else none

/-- The format converted to (IB 696-700). -/
def targetFmt : RFmt → Fmt
  | .nquads | .trig | .jsonld => .nq
  | _ => .nt

/-- Where converted contents go (IB 702-706). -/
def target (dir q : Bytes) (r : RFmt) : Bytes := dir ++ 47 :: (fileStem q ++ 46 :: (targetFmt r).bytes)

variable {Data : Type}

/-- `convert_to_native` (IB 680-736). -/
def convert (w : World Data) (dir q : Bytes) (r : RFmt) (k : Disk Data) : Option (Source × Disk Data) :=
  match k.files q with
  | none => none
  | some d =>
    match w.conv r d with
    | none => none
    | some d' => some (⟨target dir q r, targetFmt r, none, none⟩,
        { k with files := fun p => if p = target dir q r then some d' else k.files p })

/-- `input_file_from_path` (GC 425-503). -/
def inputOf (w : World Data) (fmt : Option RFmt) (dir p : Bytes) (k : Disk Data) : Option (Source × Disk Data) :=
  match stripCompression p with
  | some (inner, c) =>
    match nativeOf inner with
    | none => none
    | some f => (w.canon p).map fun q => (⟨q, f, none, some c⟩, k)
  | none =>
    match w.canon p with
    | none => none
    | some q =>
      match fmt.or (guessFormat q) with
      | none => none
      | some r =>
        match passThrough r with
        | some f => some (⟨q, f, none, none⟩, k)
        | none => convert w dir q r k

/-- The loop over the paths (GC 82-86). -/
def inputsOf (w : World Data) (fmt : Option RFmt) (dir : Bytes) : List Bytes → Disk Data → Option (List Source × Disk Data)
  | [], k => some ([], k)
  | p :: ps, k =>
    match inputOf w fmt dir p k with
    | none => none
    | some (s, k1) =>
      match inputsOf w fmt dir ps k1 with
      | none => none
      | some (ss, k2) => some (s :: ss, k2)

/-- The directory for converted files: `fingerprint_for_paths` (GC 560-566, 76). -/
def convertDir (c : Setup) (ps : List Bytes) : Bytes :=
  resolveDir c (hex 16 (fnv fnvOffset (ps.flatMap fun p => p ++ [0])).toNat)

/-- `from_paths` (GC 66-105): what is served, with the disk after. -/
def fromPaths (w : World Data) (fmt : Option RFmt) (c : Setup) (ps : List Bytes) (k : Disk Data) :
    Option (List (Entry Data) × Disk Data) :=
  if ps = [] then none
  else
    match inputsOf w fmt (convertDir c ps) ps k with
    | none => none
    | some (ss, k1) => (load c ss k1).map fun r => (r.1, r.2.2)

end Qlever

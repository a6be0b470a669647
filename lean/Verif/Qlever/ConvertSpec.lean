import Verif.Qlever.Convert

/-!
# Specification: what should be indexed for a path
-/

namespace Qlever

variable {Data : Type}

/-- The format of a file: the one that is given, otherwise that of the name, without the suffix of a compression. -/
def formatFor (fmt : Option RFmt) (name : Bytes) : Option RFmt :=
  match fmt with
  | some r => some r
  | none => guessFormat name

/-- What the index should hold for a path: the contents of the file in a format of QLever. Compressed files are not
converted. -/
def wanted (w : World Data) (fmt : Option RFmt) (files : Bytes → Option Data) (p : Bytes) : Option (Entry Data) := do
  let q ← w.canon p
  let d ← files q
  match stripCompression p with
  | some (inner, c) =>
    match ← formatFor fmt inner with
    | .turtle => some ⟨.ttl, none, some c, d⟩
    | .ntriples => some ⟨.nt, none, some c, d⟩
    | .nquads => some ⟨.nq, none, some c, d⟩
    | _ => none
  | none =>
    match ← formatFor fmt q with
    | .turtle => some ⟨.ttl, none, none, d⟩
    | .ntriples => some ⟨.nt, none, none, d⟩
    | .nquads => some ⟨.nq, none, none, d⟩
    | .rdfxml => (w.conv .rdfxml d).map (⟨.nt, none, none, ·⟩)
    | .n3 => (w.conv .n3 d).map (⟨.nt, none, none, ·⟩)
    | .jsonld => (w.conv .jsonld d).map (⟨.nq, none, none, ·⟩)
    | .trig => (w.conv .trig d).map (⟨.nq, none, none, ·⟩)

/-- The file written for a path, if it is converted: its name without its extension, with `.nq` or `.nt`. -/
def written (w : World Data) (fmt : Option RFmt) (dir p : Bytes) : Option Bytes :=
  match stripCompression p, w.canon p with
  | none, some q =>
    match formatFor fmt q with
    | some .rdfxml | some .n3 => some (dir ++ 47 :: (fileStem q ++ ascii ".nt"))
    | some .jsonld | some .trig => some (dir ++ 47 :: (fileStem q ++ ascii ".nq"))
    | _ => none
  | _, _ => none

end Qlever

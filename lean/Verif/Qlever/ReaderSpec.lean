import Verif.Qlever.Reader
import Verif.Qlever.ConvertSpec

/-!
# Specification: what should be served for a stream, and which prefixes
-/

namespace Qlever

variable {Data : Type}

/-- What should be served for data of a format: the data, as quads if the format has graphs and as triples otherwise. -/
def readerWanted (w : World Data) (d : Data) : RFmt → Option (List (Entry Data))
  | .turtle => (w.conv .turtle d).map fun x => [⟨.nt, none, none, x⟩]
  | .ntriples => (w.conv .ntriples d).map fun x => [⟨.nt, none, none, x⟩]
  | .rdfxml => (w.conv .rdfxml d).map fun x => [⟨.nt, none, none, x⟩]
  | .n3 => (w.conv .n3 d).map fun x => [⟨.nt, none, none, x⟩]
  | .nquads => (w.conv .nquads d).map fun x => [⟨.nq, none, none, x⟩]
  | .trig => (w.conv .trig d).map fun x => [⟨.nq, none, none, x⟩]
  | .jsonld => (w.conv .jsonld d).map fun x => [⟨.nq, none, none, x⟩]

/-- The file that is written into the directory of the index. -/
def readerFile (dir : Bytes) : RFmt → Bytes
  | .nquads | .trig | .jsonld => dir ++ ascii "/input.nq"
  | _ => dir ++ ascii "/input.nt"

/-- The declarations of prefixes in a file, in the format it is read in; those of compressed files are in what is unpacked. -/
def declared (w : World Data) (unzip : Compression → Data → Data) (harvest : RFmt → Data → List (Bytes × Bytes)) (fmt : Option RFmt)
    (files : Bytes → Option Data) (p : Bytes) : List (Bytes × Bytes) :=
  match w.canon p with
  | none => []
  | some q =>
    match files q with
    | none => []
    | some d =>
      match stripCompression p with
      | some (inner, z) => ((formatFor fmt inner).map fun f => harvest f (unzip z d)).getD []
      | none => ((formatFor fmt q).map fun f => harvest f d).getD []

/-- An IRI is the last that is declared for a prefix; `none` if there is no declaration. -/
def LastFor (l : List (Bytes × Bytes)) (a : Bytes) : Option Bytes → Prop
  | none => ∀ x ∈ l, x.1 ≠ a
  | some i => ∃ l1 l2, l = l1 ++ (a, i) :: l2 ∧ ∀ x ∈ l2, x.1 ≠ a

end Qlever

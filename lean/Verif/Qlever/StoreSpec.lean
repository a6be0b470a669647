import Verif.Qlever.Store

/-!
# Specification: what should be served
-/

namespace Qlever

variable {Data : Type}

/-- Each load should give the contents its inputs have at that time. -/
def expected : List (Event Data) → (Bytes → Option Data) → List (Option (List (Entry Data)))
  | [], _ => []
  | .write p d :: es, f => none :: expected es fun q => if q = p then some d else f q
  | .load _ l :: es, f =>
    (if l = [] then none
     else l.mapM fun s => (f s.path).map fun d => ⟨s.format, s.graph, s.compression, d⟩) :: expected es f

/-- The inputs as they come from paths: absolute, without NUL, in the default graph. -/
def FromPath (s : Source) : Prop := s.graph = none ∧ (∃ r, s.path = 47 :: r) ∧ 0 ∉ s.path

/-- No file is written after it was loaded. -/
def Steady : List (Event Data) → Prop
  | [] => True
  | .write _ _ :: es => Steady es
  | .load _ l :: es => (∀ p d, Event.write p d ∈ es → ∀ s ∈ l, s.path ≠ p) ∧ Steady es

end Qlever

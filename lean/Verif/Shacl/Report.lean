import Verif.Shacl.Prim

/-!
# Model: reports

`shacl/src/validator/report/{mod,result}.rs` (RM, RR) and `shacl/src/types/severity.rs`.
-/

namespace Shacl
open Lit

/-- `Severity` (`severity.rs` 6-13). -/
inductive Severity where
  | trace | debug | info | warning | violation
  | generic (iri : Str)
deriving DecidableEq

/-- `ValidationResult` (RR 11-24). Paths are of any type with equality. -/
structure Result (D Pa : Type) where
  focus : Ob D
  component : Ob D
  severity : Severity
  path : Option Pa
  value : Option (Ob D)
  source : Option (Ob D)
  details : Option (List (Ob D))
  message : Str

section
variable {D Pa : Type} (E : Env D) [DecidableEq Pa]

/-- Equality of options of objects. -/
def Env.sameOpt : Option (Ob D) → Option (Ob D) → Bool
  | none, none => true
  | some a, some b => E.same a b
  | _, _ => false

/-- Equality of lists of objects. -/
def Env.sameList : List (Ob D) → List (Ob D) → Bool
  | [], [] => true
  | a :: as, b :: bs => E.same a b && sameList as bs
  | _, _ => false

/-- Equality of options of lists of objects. -/
def Env.sameDetails : Option (List (Ob D)) → Option (List (Ob D)) → Bool
  | none, none => true
  | some a, some b => E.sameList a b
  | _, _ => false

/-- `PartialEq for ValidationResult` (RR 283-293): messages are not compared. -/
def Env.sameResult (a b : Result D Pa) : Bool :=
  E.same a.focus b.focus && E.same a.component b.component && decide (a.severity = b.severity) &&
    decide (a.path = b.path) && E.sameOpt a.value b.value && E.sameOpt a.source b.source && E.sameDetails a.details b.details

/-- `PartialEq for ValidationReport` (RM 143-147), of the lists of results: prefixes are not compared. -/
def Env.sameReport (a b : List (Result D Pa)) : Bool :=
  decide (a.length = b.length) && a.all fun r => b.any (E.sameResult r)

/-- `ValidationReport::conforms` (RM 65-67). -/
def conforms (a : List (Result D Pa)) : Bool := a.isEmpty

/-- `ValidationReport::get_count_of` (RM 69-71). -/
def countOf (a : List (Result D Pa)) (s : Severity) : Nat := (a.filter fun r => decide (r.severity = s)).length

end

end Shacl

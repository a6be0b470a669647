import Verif.Shapemap.Model
import Mathlib.Data.Finset.Card
import Mathlib.Data.Finset.Dedup

/-!
# Specification: result shape maps
-/

namespace Shapemap
open Lit

section
variable {N S : Type} [DecidableEq N] [DecidableEq S]

/-- What was recorded for a pair, in order. -/
def recorded (h : List (N × S × Status)) (n : N) (s : S) : List Status :=
  (h.filter fun x => decide (x.1 = n ∧ x.2.1 = s)).map fun x => x.2.2

/-- The reasons, one per line. -/
def reasons : List Info → Str
  | [] => []
  | [i] => i.reason
  | i :: j :: l => i.reason ++ ['\n'] ++ reasons (j :: l)

/-- The values an information stands for. -/
def values : Json → List Json
  | .arr l => l
  | j => [j]

/-- The conformant ones of what was recorded. -/
def conformants : List Status → List Info
  | [] => []
  | .conformant i :: l => i :: conformants l
  | _ :: l => conformants l

/-- The nonconformant ones of what was recorded. -/
def nonConformants : List Status → List Info
  | [] => []
  | .nonConformant i :: l => i :: nonConformants l
  | _ :: l => nonConformants l

/-- Number of inconsistent ones. -/
def inconsistents : List Status → Nat
  | [] => 0
  | .inconsistent _ _ :: l => inconsistents l + 1
  | _ :: l => inconsistents l

/-- Records that do not go together: both verdicts, inconsistency beside anything, or several
conformant records of which the first has information other than a list. -/
def Clash (l : List Status) : Prop :=
  (conformants l ≠ [] ∧ nonConformants l ≠ []) ∨ (0 < inconsistents l ∧ 2 ≤ l.length) ∨
    ∃ i j r t, conformants l = i :: j :: r ∧ i.app = .other t

/-- The status that records that go together amount to. -/
def Verdict (l : List Status) : Option Status → Prop
  | none => l = []
  | some .pending => l ≠ [] ∧ ∀ x ∈ l, x = .pending
  | some (.nonConformant i) => (nonConformants l).head? = some i
  | some (.conformant i) =>
    conformants l = [i] ∨
      2 ≤ (conformants l).length ∧ i.reason = reasons (conformants l) ∧
        i.app = .arr ((conformants l).flatMap fun j => values j.app)
  | some (.inconsistent i j) => l = [.inconsistent i j]

end
end Shapemap

import Verif.Qlever.Wait

/-!
# Specification: waiting for a server
-/

namespace Qlever.Wait

/-- The pause after a request, in milliseconds: twice as long each time, from a tenth of a second to two seconds. -/
def pause (i : Nat) : Nat := min (100 * 2 ^ i) 2000

/-- When the answer to a request comes, if all requests before were without success. -/
def answered (answer : Nat → Answer) (start : Nat) : Nat → Nat
  | 0 => start + (answer 0).took
  | i + 1 => answered answer start i + pause i + (answer (i + 1)).took

/-- A request is made: all before were without success and in time. -/
def Made (answer : Nat → Answer) (start deadline i : Nat) : Prop :=
  ∀ j < i, (answer j).ok = false ∧ answered answer start j < deadline

end Qlever.Wait

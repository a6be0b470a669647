import Verif.Qlever.Serve
import Verif.Qlever.CommandSpec

/-!
# Specification: how the server reads its command
-/

namespace Qlever

/-- The flags of the server that are followed by a value. -/
def valueFlags : List Str :=
  ["-i", "-p", "-a", "-j", "-m", "-c", "-e", "-E", "-k", "-s", "-S", "--throw-on-unbound-variables"].map String.toList

/-- The flags of the server that stand alone. -/
def switchFlags : List Str := ["-P", "-T", "-t", "-o"].map String.toList

/-- How flags are read: the word after one with a value is its value, whatever it is. Anything else is an error. -/
def readFlags : List Str → Option (List (Str × Option Str))
  | [] => some []
  | [w] => if w ∈ switchFlags then some [(w, none)] else none
  | w :: v :: l =>
    if w ∈ valueFlags then (readFlags l).map ((w, some v) :: ·)
    else if w ∈ switchFlags then (readFlags (v :: l)).map ((w, none) :: ·)
    else none

/-- The settings a server would be run with, for a command: its program and what each flag is set to. -/
def readCommand (s : Str) : Option (Str × List (Str × Option Str)) :=
  match commandWords s with
  | some (p :: l) => (readFlags l).map ((p, ·))
  | _ => none

/-- The value of a flag. -/
def setting (l : List (Str × Option Str)) (flag : String) : Option (Option Str) := l.lookup flag.toList

/-- No text of the configuration is empty. -/
def ServerConfig.full (c : ServerConfig) : Prop :=
  c.token ≠ some [] ∧ c.memory ≠ some [] ∧ c.cache ≠ some [] ∧ c.entry ≠ some [] ∧ c.lazyCache ≠ some [] ∧
    c.timeout ≠ some []

end Qlever

import Verif.Qlever.Command

/-!
# Specification: words of a shell, mounts of a container
-/

namespace Qlever

/-- Characters that mean something to a shell outside quotes: what a text with them means is left open here. -/
def shellSpecial : List Char :=
  ['|', '&', ';', '<', '>', '(', ')', '$', '`', '"', '*', '?', '[', ']', '#', '~', '%', '!', '{', '}', '^', '\n', '\r']

/-- Where a shell is in a text: outside quotes, inside single quotes, after a backslash. -/
inductive Mode
  | plain
  | quoted
  | escaped
deriving DecidableEq

/-- The words of a command by the rules of the POSIX shell (2.2, 2.3), with the word begun so far: blanks end words,
single quotes keep all up to the next, a backslash keeps the next character. `none`: not known to be a single command
with fixed words. -/
def shellWords : Mode → Option Str → Str → Option (List Str)
  | .plain, word, [] => some word.toList
  | _, _, [] => none
  | .quoted, word, c :: cs =>
    if c = '\'' then shellWords .plain word cs else shellWords .quoted (some (word.getD [] ++ [c])) cs
  | .escaped, word, c :: cs => if c = '\n' then none else shellWords .plain (some (word.getD [] ++ [c])) cs
  | .plain, word, c :: cs =>
    if c = ' ' ∨ c = '\t' then (shellWords .plain none cs).map (word.toList ++ ·)
    else if c = '\'' then shellWords .quoted (some (word.getD [])) cs
    else if c = '\\' then shellWords .escaped word cs
    else if c ∈ shellSpecial then none
    else shellWords .plain (some (word.getD [] ++ [c])) cs

/-- The words of a command, if it is known to be a single command with fixed words. -/
def commandWords (s : Str) : Option (List Str) := shellWords .plain none s

/-- Docker's reading of the text of a mount: host, container and option are separated by colons. -/
inductive Mounted : Str → Str → Str → Str → Prop
  | mk {h c o : Str} : ':' ∉ h → ':' ∉ c → ':' ∉ o → Mounted (h ++ ':' :: c ++ ':' :: o) h c o

/-- In a container with these mounts, this path is this file of this directory of the host. -/
def Sees (binds : List Str) (path dir file : Str) : Prop :=
  ∃ b ∈ binds, ∃ c o, Mounted b dir c o ∧ path = c ++ '/' :: file ∧ '/' ∉ file

/-- The arguments of one input: from the standard input when compressed, otherwise from a path which in the container
is the file of the input, and nothing else. -/
def ArgsOf (binds : List Str) (i : Input) (args : List Str) : Prop :=
  ∃ p, args = ["-f".toList, p, "-F".toList, i.format.arg, "-g".toList, i.graph.getD "-".toList] ∧
    ((i.compression ≠ none ∧ p = "-".toList) ∨
     (i.compression = none ∧ ∃ d f, i.parent = some d ∧ i.file = some f ∧ Sees binds p d f ∧
      ∀ d' f', Sees binds p d' f' → d' = d ∧ f' = f))

end Qlever

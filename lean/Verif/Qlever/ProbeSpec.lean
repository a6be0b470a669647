import Verif.Qlever.Probe

/-!
# Specification: what is found on a path of directories
-/

namespace Qlever.Probe

/-- The first member of a list with a property. -/
def First {α : Type} (P : α → Prop) (l : List α) (x : α) : Prop :=
  ∃ before after, l = before ++ x :: after ∧ P x ∧ ∀ y ∈ before, ¬ P y

/-- The directories of a `PATH`: it is their names with colons between them. -/
def Dirs (path : Str) (dirs : List Str) : Prop :=
  dirs ≠ [] ∧ (∀ d ∈ dirs, ':' ∉ d) ∧ List.intercalate [':'] dirs = path

/-- A file in a directory; the empty name is that of the directory one is in. -/
def InDir (dir name file : Str) : Prop :=
  (dir = [] ∧ file = name) ∨ (∃ d, dir = d ++ ['/'] ∧ file = d ++ '/' :: name) ∨
    (dir ≠ [] ∧ (∀ d, dir ≠ d ++ ['/']) ∧ file = dir ++ '/' :: name)

/-- A directory of the list has a program. -/
def Has (exec : Str → Bool) (program : Str) (dir : Str) : Prop := ∃ f, InDir dir program f ∧ exec f

end Qlever.Probe

import Verif.Qlever.OneShot

/-!
# Specification: runs of the index builder
-/

namespace Qlever.OneShot

/-- Docker tells nothing but the truth about how the container ended. -/
def Truthful (w : World) (code : Int) : Prop :=
  (∀ c, w.wait = some c → c = code) ∧ ∀ oom c, w.inspect = some (some (oom, some c)) → c = code

/-- Docker tells how the container ended. -/
def Known (w : World) : Prop := (∃ c, w.wait = some c) ∨ ∃ oom c, w.inspect = some (some (oom, some c))

/-- The decompressor ended by itself or was stopped by someone else. -/
def Ended (w : World) : Prop := (∃ c, w.child = .exited c) ∨ w.child = .signal

/-- The end of a list, up to a length. -/
def IsTail (n : Nat) (t l : List Byte) : Prop := (∃ p, l = p ++ t) ∧ t.length = min n l.length

/-- Loads, one after the other: what is served by the last of them. -/
inductive Loads : Option (List Byte) → List (Attempt × Option (List Byte)) → Prop
  | nil : Loads none []
  | step {d d' l a r} : Loads d l → load d a = (d', r) → Loads d' ((a, r) :: l)

/-- What is known of an attempt to index `data`: Docker is truthful, a builder that ends with 0 has read all its input, and if the
decompressor ends with 0 and all it wrote was read, then this is the data. -/
structure Attempt.Fair (data : List Byte) (a : Attempt) : Prop where
  truthful : Truthful a.world a.code
  read : a.code = 0 → a.world.pump ≠ .closed
  whole : a.world.child = .exited 0 → a.world.pump = .done → a.got = data

end Qlever.OneShot

import Verif.Lit.Model

/-!
# Model: result shape maps

Sources: `shex_ast/src/shapemap/result_shape_map.rs` (R), `shex_ast/src/shapemap/validation_status.rs`,
`shex_ast/src/shapemap/conformant_info.rs`, `shex_ast/src/shapemap/non_conformant_info.rs`.

Hash maps are association lists in some order. Nodes and labels are any types with decidable equality.
`none` is a panic (`todo!()`).
-/

namespace Shapemap
open Lit

/-- `serde_json::Value`: an array, or something else. -/
inductive Json
  | arr (l : List Json)
  | other (s : Str)

/-- `ConformantInfo` and `NonConformantInfo` (`conformant_info.rs` 6-9, `non_conformant_info.rs` 7-10). -/
structure Info where
  reason : Str
  app : Json

/-- `ValidationStatus` (`validation_status.rs` 9-15). -/
inductive Status
  | conformant (i : Info)
  | nonConformant (i : Info)
  | pending
  | inconsistent (i j : Info)

/-- `ConformantInfo::merge` (`conformant_info.rs` 24-41). -/
def Info.merge (a b : Info) : Option Info :=
  match a.app with
  | .arr vs =>
    let app := match b.app with
      | .arr ws => Json.arr (vs ++ ws)
      | w => Json.arr (vs ++ [w])
    some ⟨a.reason ++ ['\n'] ++ b.reason, app⟩
  | .other _ => none

/-- The new content of an occupied cell (R 98-170). -/
def Status.merge : Status → Status → Option Status
  | .conformant a, .conformant b => (a.merge b).map .conformant
  | .conformant a, .pending => some (.conformant a)
  | .nonConformant a, .nonConformant _ => some (.nonConformant a)
  | .nonConformant a, .pending => some (.nonConformant a)
  | .pending, .conformant b => some (.conformant b)
  | .pending, .nonConformant b => some (.nonConformant b)
  | .pending, .pending => some .pending
  | _, _ => none

section
variable {N S : Type} [DecidableEq N] [DecidableEq S]

/-- `HashMap::get`. -/
def get {K V : Type} [DecidableEq K] (k : K) : List (K × V) → Option V
  | [] => none
  | (k', v) :: m => if k' = k then some v else get k m

/-- Replacing the value of a key, or adding the key. -/
def put {K V : Type} [DecidableEq K] (k : K) (v : V) : List (K × V) → List (K × V)
  | [] => [(k, v)]
  | (k', v') :: m => if k' = k then (k, v) :: m else (k', v') :: put k v m

/-- The field `result` (R 23-27). -/
abbrev Map (N S : Type) := List (N × List (S × Status))

/-- `ResultShapeMap::add_result` (R 84-187). -/
def Map.add (m : Map N S) (n : N) (s : S) (st : Status) : Option (Map N S) :=
  match get n m with
  | some row =>
    match get s row with
    | some old => (old.merge st).map fun new => put n (put s new row) m
    | none => some (put n (put s st row) m)
  | none => some (put n [(s, st)] m)

/-- `ResultShapeMap::get_info` (R 189-194). -/
def Map.getInfo (m : Map N S) (n : N) (s : S) : Option Status :=
  match get n m with
  | some row => get s row
  | none => none

/-- `ResultShapeMap::iter` (R 196-200). -/
def Map.iter (m : Map N S) : List (N × S × Status) :=
  m.flatMap fun (n, row) => row.map fun (s, st) => (n, s, st)

/-- A sequence of `add_result` on an empty map. -/
def run (h : List (N × S × Status)) : Option (Map N S) :=
  h.foldlM (fun m (n, s, st) => m.add n s st) []

end
end Shapemap

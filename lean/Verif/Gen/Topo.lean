/-!
# Model: the order of shapes for the generation of data

`P` is `rudof_generate/src/shape_processing.rs`.

A `HashMap` is the list of its pairs in the order of iteration; the sets are lists.
-/

namespace Gen

variable {α : Type} [DecidableEq α]

/-- `graph.get` (P 318): what a shape depends on; nothing for those that are not in the map. -/
def deps (g : List (α × List α)) (v : α) : List α := ((g.find? fun p => p.1 = v).map (·.2)).getD []

/-- What `visit` changes (P 292-300). -/
structure Visited (α : Type) where
  visited : List α
  temp : List α
  result : List α

/-- The loop over the dependencies (P 319-321) or the shapes (P 332-336), which ends with the first error; the outer
`Option` is that of the fuel, the inner one that of `Result`. -/
def visitAll (f : α → Visited α → Option (Option (Visited α))) : List α → Visited α → Option (Option (Visited α))
  | [], s => some (some s)
  | v :: l, s => match f v s with
    | some (some s') => visitAll f l s'
    | r => r

/-- `visit` (P 298-330). -/
def visit (g : List (α × List α)) : Nat → α → Visited α → Option (Option (Visited α))
  | 0, _, _ => none
  | n + 1, v, s =>
    if v ∈ s.temp then some none
    else if v ∈ s.visited then some (some s)
    else match visitAll (visit g n) (deps g v) { s with temp := v :: s.temp } with
      | some (some s') => some (some ⟨v :: s'.visited, s'.temp.filter (· ≠ v), s'.result ++ [v]⟩)
      | r => r

/-- The loop over the keys (P 332-336): those that are visited are left out. -/
def visitKeys (g : List (α × List α)) (n : Nat) : List α → Visited α → Option (Option (Visited α)) :=
  visitAll fun v s => if v ∈ s.visited then some (some s) else visit g n v s

/-- `topological_sort` (P 291-341), with fuel for the depth. -/
def topoSort (g : List (α × List α)) (n : Nat) : Option (Option (List α)) :=
  (visitKeys g n (g.map (·.1)) ⟨[], [], []⟩).map fun r => r.map fun s => s.result.reverse

end Gen

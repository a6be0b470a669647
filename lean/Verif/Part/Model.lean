import Verif.Rbe.ModelTable
import Mathlib.Data.List.Sort

/-!
# Model: neighbourhood partition enumerators

shex_validation/src/k_partitions.rs and shex_validation/src/class_partitions.rs.

An iterator whose `next` contains an unbounded `loop` is modelled as a machine: `step` performs
one turn of the loop and may yield an item. `drain` runs it to exhaustion with a bound on the
number of turns; the property theorems show that it always ends.
-/

namespace Part

/-- Runs a machine for at most `fuel` turns: the items it yields, or `none` if it did not stop. -/
def drain {S T : Type} (step : S → Option (Option T × S)) : Nat → S → Option (List T)
  | 0, _ => none
  | fuel + 1, s =>
    match step s with
    | none => some []
    | some (out, s') => (drain step fuel s').map (out.toList ++ ·)

/-! ## k-partitions -/

/-- `struct KPartitionIteratorMultiPredicate` (shex_validation/src/k_partitions.rs:18-23). -/
structure KIter (T : Type) where
  items : List T
  k : Nat
  current : Option (List Nat)
  predicates : List (List T → Bool)

namespace KIter
variable {T : Type}

/-- `KPartitionIteratorMultiPredicate::new` (k_partitions.rs:29-44). -/
def new (items : List T) (predicates : List (List T → Bool)) : KIter T :=
  let items := items.filter fun x => predicates.any fun p => p [x]
  ⟨items, predicates.length, some (List.replicate items.length 0), predicates⟩

/-- The loop that fills `partitions` (k_partitions.rs:58-61): `partitions[partition_idx].push`. -/
def fill (k : Nat) : List (T × Nat) → List (List T)
  | pairs => pairs.foldl (fun ps x => ps.modify x.2 (· ++ [x.1])) (List.replicate k [])

/-- The digit loop (k_partitions.rs:64-75): the new digits and the final `carry`. -/
def increment (k : Nat) : Bool → List Nat → List Nat × Bool
  | carry, [] => ([], carry)
  | false, d :: ds => let r := increment k false ds; (d :: r.1, r.2)
  | true, d :: ds =>
    if d + 1 < k then let r := increment k false ds; ((d + 1) :: r.1, r.2)
    else let r := increment k true ds; (0 :: r.1, r.2)

/-- One turn of the loop of `next` (k_partitions.rs:54-88). -/
def step (s : KIter T) : Option (Option (List (List T)) × KIter T) :=
  match s.current with
  | none => none
  | some assignment =>
    let partitions := fill s.k (s.items.zip assignment)
    let r := increment s.k true assignment
    let s' := { s with current := if r.2 then none else some r.1 }
    let allValid := (partitions.zip s.predicates).all fun x => x.2 x.1
    some (if allValid then some partitions else none, s')

end KIter

/-! ## Permutation stepping -/

/-- The first loop of `next_permutation` (class_partitions.rs:320-329): the largest `i` not above
the argument with `a[i] < a[i+1]`; `none` is `return false`. -/
def pivot (a : List Nat) : Nat → Option Nat
  | 0 => if a.getD 0 0 < a.getD 1 0 then some 0 else none
  | i + 1 => if a.getD (i + 1) 0 < a.getD (i + 2) 0 then some (i + 1) else pivot a i

/-- The second loop of `next_permutation` (class_partitions.rs:330-333). The Rust index would
underflow at 0; the loop never gets below `i + 1`. -/
def lastAbove (a : List Nat) (x : Nat) : Nat → Nat
  | 0 => 0
  | j + 1 => if a.getD (j + 1) 0 ≤ x then lastAbove a x j else j + 1

/-- `next_permutation` (class_partitions.rs:316-337); `none` is `false` (array unchanged). -/
def nextPermutation (a : List Nat) : Option (List Nat) :=
  if a.length < 2 then none
  else
    match pivot a (a.length - 2) with
    | none => none
    | some i =>
      let x := a.getD i 0
      let j := lastAbove a x (a.length - 1)
      let b := (a.set i (a.getD j 0)).set j x
      some (b.take (i + 1) ++ (b.drop (i + 1)).reverse)

/-! ## Class-based partitions -/

/-- `next_composition` on one count vector (class_partitions.rs:184-202), the loop body at
positions below the first argument, from right to left; `none` is `return false`. -/
def nextCompositionAt (c : List Nat) : Nat → Option (List Nat)
  | 0 => none
  | i + 1 =>
    if c.getD i 0 > 0 then
      let rightSum := (c.drop (i + 1)).sum
      let zeroed := (c.take i) ++ [c.getD i 0 - 1] ++ List.replicate (c.length - (i + 1)) 0
      some (zeroed.set (i + 1) (rightSum + 1))
    else nextCompositionAt c i

/-- `next_composition` (class_partitions.rs:184-202): `(0..e.saturating_sub(1)).rev()`. -/
def nextComposition (c : List Nat) : Option (List Nat) := nextCompositionAt c (c.length - 1)

/-- `first_composition` (class_partitions.rs:175-181). `c[0] = size` would panic on a class without
eligible bucket; there is none. -/
def firstComposition (size e : Nat) : List Nat := (List.replicate e 0).set 0 size

/-- `struct Class` (class_partitions.rs:54-58). -/
structure Class (N : Type) where
  values : List N
  eligible : List Nat

/-- Where the control of `next` (class_partitions.rs:259-312) is: at the entry, in the outer loop,
or in the inner `while` with the pending value of `ok`. -/
inductive Pc where
  | entry
  | outer
  | inner (ok : Bool)
deriving DecidableEq, Repr

/-- `struct ClassPartitionIterator` (class_partitions.rs:60-79). A bucket is represented by its
feasibility test on a pool of neighbours (`rbes.iter().all(|rbe| rbe.feasible_neighs(&pool))`). -/
structure CIter (N : Type) where
  feas : List (List N → Bool)
  classes : List (Class N)
  counts : List (Option (List Nat))
  level : Nat
  perms : Option (List (List Nat))
  exhausted : Bool
  pc : Pc

namespace CIter
variable {N : Type}

/-- The contribution of one class to `bucket_pool` (class_partitions.rs:147-156). -/
def poolOf (b : Nat) (c : Class N) (count : Option (List Nat)) : List N :=
  match c.eligible.idxOf? b with
  | none => []
  | some pos =>
    match count with
    | none => c.values
    | some cs => if cs.getD pos 0 > 0 then c.values else []

/-- `bucket_pool` (class_partitions.rs:144-159). -/
def bucketPool (s : CIter N) (b : Nat) : List N :=
  (s.classes.zip s.counts).flatMap fun x => poolOf b x.1 x.2

/-- `feasible_now` (class_partitions.rs:162-172). -/
def feasibleNow (s : CIter N) : Bool :=
  s.feas.zipIdx.all fun x => x.1 (s.bucketPool x.2)

/-- One class of `init_perms` (class_partitions.rs:208-214). -/
def initPerm (c : Class N) (count : List Nat) : List Nat :=
  ((count.zip c.eligible).flatMap fun x => List.replicate x.1 x.2).insertionSort (· ≤ ·)

/-- `init_perms` (class_partitions.rs:204-218); `expect` on a missing count is `getD []`. -/
def initPerms (s : CIter N) : List (List Nat) :=
  (s.classes.zip s.counts).map fun x => initPerm x.1 (x.2.getD [])

/-- `advance_perms` (class_partitions.rs:221-230); `none` is `false`. -/
def advancePerms : List (List Nat) → Option (List (List Nat))
  | [] => none
  | p :: ps =>
    match nextPermutation p with
    | some q => some (q :: ps)
    | none => (advancePerms ps).map (p.insertionSort (· ≤ ·) :: ·)

/-- The subsets of `current_partition` (class_partitions.rs:232-245), one per bucket; the bucket
name and its tables are not repeated. -/
def subsets (k : Nat) (classes : List (Class N)) (perms : List (List Nat)) : List (List N) :=
  KIter.fill k ((classes.zip perms).flatMap fun x => x.1.values.zip x.2)

/-- `current_partition` (class_partitions.rs:232-245). -/
def currentPartition (s : CIter N) : List (List N) :=
  subsets s.feas.length s.classes (s.perms.getD [])

/-- The `else` branch (class_partitions.rs:303-310). -/
def backtrack (s : CIter N) : Option (Option (List (List N)) × CIter N) :=
  let s' := { s with counts := s.counts.set s.level none }
  if s'.level = 0 then none
  else some (none, { s' with level := s'.level - 1, pc := .outer })

/-- Small steps of `next` (class_partitions.rs:259-312). Yielding an item moves the control back
to `entry`, where the following call of `next` starts. -/
def step (s : CIter N) : Option (Option (List (List N)) × CIter N) :=
  match s.pc with
  | .entry =>
    if s.exhausted then none
    else
      match s.perms with
      | none => some (none, { s with pc := .outer })
      | some perms =>
        match advancePerms perms with
        | some ps =>
          let s' := { s with perms := some ps }
          some (some s'.currentPartition, s')
        | none =>
          let s' := { s with perms := none }
          if s'.level == 0 && s'.classes.isEmpty then none
          else
            let s' := { s' with level := s'.level - 1 }
            if s'.classes.isEmpty then none
            else some (none, { s' with pc := .outer })
  | .outer =>
    if s.level = s.classes.length then
      let s' := { s with perms := some s.initPerms, pc := .entry }
      some (some s'.currentPartition, s')
    else
      match s.counts.getD s.level none with
      | none =>
        match s.classes[s.level]? with
        | none => none
        | some cls =>
          let s' := { s with
            counts := s.counts.set s.level
              (some (firstComposition cls.values.length cls.eligible.length)) }
          some (none, { s' with pc := .inner s'.feasibleNow })
      | some c =>
        match nextComposition c with
        | some c' =>
          let s' := { s with counts := s.counts.set s.level (some c') }
          some (none, { s' with pc := .inner s'.feasibleNow })
        | none => s.backtrack
  | .inner true => some (none, { s with level := s.level + 1, pc := .outer })
  | .inner false =>
    match s.counts.getD s.level none with
    | none => s.backtrack
    | some c =>
      match nextComposition c with
      | some c' =>
        let s' := { s with counts := s.counts.set s.level (some c') }
        some (none, { s' with pc := .inner s'.feasibleNow })
      | none => s.backtrack

/-- The grouping loop of `new` (class_partitions.rs:100-111). -/
def classMap (elig : N → List Nat) (neighs : List N) : List (List Nat × List N) :=
  neighs.foldl
    (fun m x => if (elig x).isEmpty then m else Rbe.upsert (elig x) [] (· ++ [x]) m) []

/-- The comparison of `sort_by` (class_partitions.rs:117-122): less or equal. -/
def classLe (a b : Class N) : Bool :=
  decide (a.eligible.length < b.eligible.length) ||
    (decide (a.eligible.length = b.eligible.length) && decide (b.values.length ≤ a.values.length))

/-- The classes of `new` (class_partitions.rs:112-122); `order` is the iteration order of the
hash map, an arbitrary rearrangement. -/
def mkClasses (order : List (List Nat × List N) → List (List Nat × List N))
    (elig : N → List Nat) (neighs : List N) : List (Class N) :=
  ((order (classMap elig neighs)).map fun x => ⟨x.2, x.1⟩).insertionSort fun a b => classLe a b

/-- `ClassPartitionIterator::new` (class_partitions.rs:90-138). -/
def new (order : List (List Nat × List N) → List (List Nat × List N))
    (elig : N → List Nat) (feas : List (List N → Bool)) (neighs : List N) : CIter N :=
  let classes := mkClasses order elig neighs
  let s : CIter N := ⟨feas, classes, List.replicate classes.length none, 0, none, false, .entry⟩
  if s.feasibleNow then s else { s with exhausted := true }

end CIter

section Tables
open Rbe
variable {K V C R : Type} [DecidableEq K] [DecidableEq V] [DecidableEq R]

/-- `rbe.keys()` of some expression of the bucket holds the key
(class_partitions.rs:95-98, 102; k_partitions.rs:137-145; rbe/src/rbe_table.rs:131-133). -/
def mentions (b : List (Table K V C R)) (k : K) : Bool :=
  b.any fun t => t.keyComponents.any fun p => decide (p.1 = k)

/-- `(0..buckets.len()).filter(|b| bucket_keys[*b].contains(&k))` (class_partitions.rs:102). -/
def eligible (buckets : List (List (Table K V C R))) (x : K × V × C) : List Nat :=
  (List.range buckets.length).filter fun b => mentions (buckets.getD b []) x.1

/-- The inner loop of `feasible_now` for one bucket (class_partitions.rs:165-169). -/
def bucketFeasible (b : List (Table K V C R)) (pool : List (K × V × C)) : Bool :=
  b.all fun t => t.feasibleNeighs pool

/-- `class_partitions_iter` (class_partitions.rs:39-52). `buckets` lists the values of the
expression map in its iteration order. -/
def classPartitions (order : List (List Nat × List (K × V × C)) → List (List Nat × List (K × V × C)))
    (buckets : List (List (Table K V C R))) (neighs : List (K × V × C)) :
    CIter (K × V × C) :=
  CIter.new order (eligible buckets) (buckets.map bucketFeasible) neighs

/-- `partitions_iter` (k_partitions.rs:94-117) with `build_conditions` (k_partitions.rs:124-147). -/
def kPartitions (buckets : List (List (Table K V C R))) (neighs : List (K × V × C)) :
    KIter (K × V × C) :=
  KIter.new neighs (buckets.map fun b sub => sub.all fun x => mentions b x.1)

end Tables

end Part

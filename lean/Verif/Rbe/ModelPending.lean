import Verif.Rbe.ModelTable

/-!
# Model: the rest of the interface of pending maps

`Pending` (rbe/src/pending.rs) beyond what match tables use: insertion with keys, queries, the
iterator and `pop`.
-/

namespace Rbe
namespace Pending
variable {K V R : Type} [DecidableEq K] [DecidableEq V] [DecidableEq R]

/-- `Pending::insert_with_key` (rbe/src/pending.rs:77-79). -/
def insertWithKey (p : Pending K V R) (v : V) (r : R) (k : K) : Pending K V R :=
  upsert v [] (fun rm => upsert r [] (fun ks => sinsert k ks) rm) p

/-- `Pending::insert_values` (rbe/src/pending.rs:81-85). -/
def insertValues (p : Pending K V R) (v : V) (xs : List (R × K)) : Pending K V R :=
  xs.foldl (fun acc x => acc.insertWithKey v x.1 x.2) p

/-- `Pending::from` (rbe/src/pending.rs:97-107). -/
def ofValues (xs : List (V × List (R × K))) : Pending K V R :=
  xs.foldl (fun acc x => acc.insertValues x.1 x.2) empty

/-- `Pending::get` (rbe/src/pending.rs:39-43): the references as a list, in order. -/
def get (p : Pending K V R) (v : V) : Option (List R) := (alookup v p).map fun rs => rs.map Prod.fst

/-- `Pending::len` (rbe/src/pending.rs:45-51). -/
def len (p : Pending K V R) : Nat := List.foldl (fun n e => n + e.2.length) 0 p

/-- `Pending::contains` (rbe/src/pending.rs:53-55). -/
def contains (p : Pending K V R) (v : V) (r : R) : Bool :=
  match alookup v p with
  | some rs => (alookup r rs).isSome
  | none => false

/-- `Pending::is_empty` (rbe/src/pending.rs:93-95). -/
def isEmpty (p : Pending K V R) : Bool := List.isEmpty p

/-- `struct PendingIterator` (rbe/src/pending.rs:170-178). -/
structure Iter (K V R : Type) where
  /-- `pending_iter`: the values not reached yet. -/
  values : List (V × List (R × List K))
  /-- `current_v`: a value and its references not reached yet. -/
  currentV : Option (V × List (R × List K))
  /-- `current_r`: a reference and its keys not reached yet. -/
  currentR : Option (R × List K)

/-- What one turn of the loop in `next` does. -/
inductive Turn (K V R : Type) where
  | again (s : Iter K V R)
  | item (x : V × R × K) (s : Iter K V R)
  | finished
  | panic

/-- `Pending::iter` (rbe/src/pending.rs:109-115). -/
def iter (p : Pending K V R) : Iter K V R := ⟨p, none, none⟩

/-- The second half of a turn (rbe/src/pending.rs:196-212), with no current reference. -/
def Iter.turnV (s : Iter K V R) : Turn K V R :=
  match s.currentV with
  | some (v, (r, ks) :: rs) => .again ⟨s.values, some (v, rs), some (r, ks)⟩
  | _ =>
    match s.values with
    | (v, rs) :: rest => .again ⟨rest, some (v, rs), none⟩
    | [] => .finished

/-- One turn of the loop in `PendingIterator::next` (rbe/src/pending.rs:188-213). The `unwrap` of
`current_v` panics if there is none. -/
def Iter.turn (s : Iter K V R) : Turn K V R :=
  match s.currentR with
  | some (r, k :: ks) =>
    match s.currentV with
    | some (v, rs) => .item (v, r, k) ⟨s.values, some (v, rs), some (r, ks)⟩
    | none => .panic
  | _ => s.turnV

/-- The items of the iterator: turns are made until it is finished, at most `fuel` of them.
`none`: it is not finished by then, or it panicked. -/
def Iter.collect : Nat → Iter K V R → Option (List (V × R × K))
  | 0, _ => none
  | fuel + 1, s =>
    match s.turn with
    | .again s' => Iter.collect fuel s'
    | .item x s' => (Iter.collect fuel s').map (x :: ·)
    | .finished => some []
    | .panic => none

/-- `Pending::iter_vr` (rbe/src/pending.rs:130-134), as a list. -/
def iterVr (p : Pending K V R) : List (V × R × List K) :=
  List.flatMap (fun e => e.2.map fun f => (e.1, f.1, f.2)) p

/-- `IndexMap::swap_remove` of the first entry: the last one takes its place. -/
def swapRemoveFirst {X : Type} : List X → List X
  | [] => []
  | [_] => []
  | _ :: y :: t => (y :: t).getLast (by simp) :: (y :: t).dropLast

/-- What `pop` does. -/
inductive Popped (K V R : Type) where
  | nothing
  | item (v : V) (r : R) (k : K) (rest : Pending K V R)
  | panic

/-- `Pending::pop` (rbe/src/pending.rs:136-168): the last key of the last reference of the first
value. `swap_remove` of the last reference drops it. -/
def pop (p : Pending K V R) : Popped K V R :=
  match p with
  | [] => .nothing
  | (v, rs) :: rest =>
    match rs.getLast? with
    | none => .panic
    | some (r, ks) =>
      match ks.getLast? with
      | none => .panic
      | some k =>
        let rs' := if ks.dropLast.isEmpty then rs.dropLast else rs.dropLast ++ [(r, ks.dropLast)]
        .item v r k (if rs'.isEmpty then swapRemoveFirst p else (v, rs') :: rest)

/-- `pop` until there is nothing, at most `fuel` times. -/
def drain : Nat → Pending K V R → Option (List (V × R × K))
  | 0, _ => none
  | fuel + 1, p =>
    match p.pop with
    | .nothing => some []
    | .item v r k q => (drain fuel q).map ((v, r, k) :: ·)
    | .panic => none

end Pending
end Rbe

/-!
# The layer of bytes below a precompiled schema

`CacheFormat::Postcard` (shex_ast/src/ir/cache.rs:34-60) writes a `SchemaIR` through `serde`
with the `postcard` crate. This file models the part of `postcard` that is used: variable
length numbers, zigzag for signed ones, texts and sequences with their length before them,
one byte for a `bool` and for an `Option`, the number of the variant before an `enum`, and
the fields of a `struct` one after another.

Simplifications: numbers have no greatest value, so the limits of ten bytes for a `u64` and
five for a `u32` are not modelled; an error has no message; a panic is an outcome of its own.
-/

namespace Cache

/-- What a file holds. -/
abbrev Bytes := List UInt8

/-- Concatenation, grouped to the right. -/
infixr:65 " ⧺ " => @HAppend.hAppend Bytes Bytes Bytes instHAppendOfAppend

/-- `Result<T, _>`, or the panic of the thread. -/
inductive Res (α : Type) where
  | ok (a : α)
  | err
  | panic
deriving DecidableEq

/-- Sequencing of `Result`s by `?`. -/
def Res.bind {α β : Type} : Res α → (α → Res β) → Res β
  | .ok a, f => f a
  | .err, _ => .err
  | .panic, _ => .panic

instance : Monad Res where
  pure := .ok
  bind := Res.bind

/-- A reader: takes a value from the front of the input. -/
def Dec (α : Type) : Type := Bytes → Res (α × Bytes)

/-- Sequencing of readers by `?`. -/
def Dec.bind {α β : Type} (d : Dec α) (k : α → Dec β) : Dec β := fun bs =>
  match d bs with
  | .ok (a, r) => k a r
  | .err => .err
  | .panic => .panic

instance : Monad Dec where
  pure a := fun bs => .ok (a, bs)
  bind := Dec.bind

/-- A reader that gives an error. -/
def Dec.fail {α : Type} : Dec α := fun _ => .err

/-- A computation that takes no input. -/
def Dec.lift {α : Type} (x : Res α) : Dec α := fun bs => Res.bind x fun a => .ok (a, bs)

/-- A number, seven bits to a byte, the lowest first, the high bit set on all but the last
(`postcard`'s varint; `serialize_u16` … `serialize_u128`, lengths and variant numbers). -/
def var (n : Nat) : Bytes :=
  if n < 128 then [UInt8.ofNat n] else UInt8.ofNat (n % 128 + 128) :: var (n / 128)
decreasing_by omega

/-- Reads what `var` writes. -/
def decVar : Dec Nat
  | [] => .err
  | b :: bs =>
    if b.toNat < 128 then .ok (b.toNat, bs)
    else
      match decVar bs with
      | .ok (n, r) => .ok (b.toNat - 128 + 128 * n, r)
      | .err => .err
      | .panic => .panic

/-- Zigzag: `0, -1, 1, -2, …` are `0, 1, 2, 3, …`. -/
def zig (i : Int) : Nat := if 0 ≤ i then 2 * i.toNat else 2 * (-i).toNat - 1

/-- Inverse of `zig`. -/
def unzig (n : Nat) : Int := if n % 2 = 0 then (n / 2 : Nat) else -((n / 2 + 1 : Nat) : Int)

/-- `serialize_i16` … `serialize_i128`. -/
def encInt (i : Int) : Bytes := var (zig i)

/-- `deserialize_i16` … `deserialize_i128`. -/
def decInt : Dec Int := do
  let n ← decVar
  pure (unzig n)

/-- One byte (`serialize_u8`, `serialize_i8`). -/
def decByte : Dec UInt8
  | [] => .err
  | b :: bs => .ok (b, bs)

/-- `serialize_bool`. -/
def encBool (b : Bool) : Bytes := [if b then 1 else 0]

/-- `deserialize_bool`: any byte but 0 and 1 is an error. -/
def decBool : Dec Bool := do
  let b ← decByte
  if b = 0 then pure false else if b = 1 then pure true else Dec.fail

/-- The next `n` bytes. -/
def decTake (n : Nat) : Dec Bytes := fun bs =>
  if n ≤ bs.length then .ok (bs.take n, bs.drop n) else .err

/-- `serialize_str`: the length in bytes and the bytes. -/
def encStr (s : String) : Bytes := var s.toUTF8.data.toList.length ⧺ s.toUTF8.data.toList

/-- The text with these bytes, if they are UTF-8. -/
def ofBytes (b : Bytes) : Option String := String.fromUTF8? ⟨b.toArray⟩

/-- `deserialize_str`. -/
def decStr : Dec String := do
  let n ← decVar
  let b ← decTake n
  match ofBytes b with
  | some s => pure s
  | none => Dec.fail

/-- `serialize_none`, `serialize_some`. -/
def encOpt {α : Type} (e : α → Bytes) : Option α → Bytes
  | none => [0]
  | some a => [1] ⧺ e a

/-- `deserialize_option`: any first byte but 0 and 1 is an error. -/
def decOpt {α : Type} (d : Dec α) : Dec (Option α) := do
  let b ← decByte
  if b = 0 then pure none
  else if b = 1 then do
    let a ← d
    pure (some a)
  else Dec.fail

/-- The elements of a sequence. -/
def encAll {α : Type} (e : α → Bytes) : List α → Bytes
  | [] => []
  | a :: as => e a ⧺ encAll e as

/-- `n` elements. -/
def decAll {α : Type} (d : Dec α) : Nat → Dec (List α)
  | 0 => pure []
  | n + 1 => do
    let a ← d
    let as ← decAll d n
    pure (a :: as)

/-- `serialize_seq`, `serialize_map`: the number of elements and the elements. -/
def encList {α : Type} (e : α → Bytes) (l : List α) : Bytes := var l.length ⧺ encAll e l

/-- `deserialize_seq`. -/
def decList {α : Type} (d : Dec α) : Dec (List α) := do
  let n ← decVar
  decAll d n

/-- An entry of a map: the key and the value. -/
def encPair {α β : Type} (e : α → Bytes) (f : β → Bytes) (p : α × β) : Bytes := e p.1 ⧺ f p.2

/-- Reads an entry. -/
def decPair {α β : Type} (d : Dec α) (f : Dec β) : Dec (α × β) := do
  let a ← d
  let b ← f
  pure (a, b)

/-- `insert` of a map that keeps the place of a key it has (`IndexMap`; for a `HashMap` the
place is of no meaning). -/
def insKey {α β : Type} [DecidableEq α] (k : α) (v : β) : List (α × β) → List (α × β)
  | [] => [(k, v)]
  | (k', v') :: m => if k' = k then (k, v) :: m else (k', v') :: insKey k v m

/-- The map made of the entries in turn, as `visit_map` makes it. -/
def mkMap {α β : Type} [DecidableEq α] (l : List (α × β)) : List (α × β) :=
  l.foldl (fun m p => insKey p.1 p.2 m) []

/-- The set made of the elements in turn, as `visit_seq` makes it. -/
def mkSet {α : Type} [DecidableEq α] (l : List α) : List α :=
  l.foldl (fun m a => if a ∈ m then m else m ++ [a]) []

/-- `deserialize_map`. -/
def decMap {α β : Type} [DecidableEq α] (d : Dec α) (f : Dec β) : Dec (List (α × β)) := do
  let l ← decList (decPair d f)
  pure (mkMap l)

/-- `deserialize_seq` into a set. -/
def decSet {α : Type} [DecidableEq α] (d : Dec α) : Dec (List α) := do
  let l ← decList d
  pure (mkSet l)

end Cache

import Verif.Qlever.Command

/-!
# Model: limits of memory of the container

* IB = `rudof_rdf/src/rdf_impl/qlever/index_builder.rs`

Reading and multiplying numbers of 64 bits (`f64`) is given.
-/

namespace Qlever.Size

/-- A number of `f64`; both infinities are one. -/
inductive F64
  | nan
  | inf
  | fin (q : Rat)

/-- The standard library: `char::is_whitespace`, `str::parse::<f64>` and the product of an `f64` and an integer made an `f64`. -/
structure Lib where
  ws : Char → Bool
  parse : Str → Option F64
  mul : Rat → Nat → F64

/-- `str::trim`. -/
def trim (ws : Char → Bool) (s : Str) : Str := ((s.dropWhile ws).reverse.dropWhile ws).reverse

/-- The suffixes, in the order in which they are tried, and their factors (IB 539-567). -/
def suffixes : List (Str × Nat) :=
  [("GiB".toList, 1024 ^ 3), ("Gi".toList, 1024 ^ 3), ("MiB".toList, 1024 ^ 2), ("Mi".toList, 1024 ^ 2), ("KiB".toList, 1024),
    ("Ki".toList, 1024), ("TiB".toList, 1024 ^ 4), ("Ti".toList, 1024 ^ 4), ("GB".toList, 1000000000), ("MB".toList, 1000000),
    ("KB".toList, 1000), ("TB".toList, 1000000000000), ("G".toList, 1024 ^ 3), ("g".toList, 1024 ^ 3), ("M".toList, 1024 ^ 2),
    ("m".toList, 1024 ^ 2), ("K".toList, 1024), ("k".toList, 1024), ("T".toList, 1024 ^ 4), ("t".toList, 1024 ^ 4)]

/-- `strip_suffix`, with the first of the suffixes (IB 539-567). -/
def strip (s : Str) : List (Str × Nat) → Str × Nat
  | [] => (s, 1)
  | (u, m) :: l => if u.isSuffixOf s then (s.take (s.length - u.length), m) else strip s l

/-- `as u64`: towards zero, and no more than fits. -/
def toU64 : F64 → Nat
  | .nan => 0
  | .inf => 2 ^ 64 - 1
  | .fin q => min q.floor.toNat (2 ^ 64 - 1)

/-- `parse_size_to_bytes` (IB 534-574). Errors have no texts. -/
def parseSize (L : Lib) (text : Str) : Option Nat :=
  let s := trim L.ws text
  if s.isEmpty then none
  else
    let (num, mult) := strip s suffixes
    match L.parse (trim L.ws num) with
    | none => none
    | some .nan => none
    | some .inf => none
    | some (.fin q) =>
      if q < 0 then none
      else
        let bytes := toU64 (L.mul q mult)
        if bytes < 2 ^ 63 then some bytes else none

/-- `host_config_with_limits` (IB 478-500): the limits, or an error. -/
def limits (L : Lib) (memory swap : Option Str) : Option (Option Nat × Option Nat) :=
  match memory.mapM (parseSize L), swap.mapM (parseSize L) with
  | some m, some s => some (m, s)
  | _, _ => none

end Qlever.Size

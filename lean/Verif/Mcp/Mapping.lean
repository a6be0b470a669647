import Verif.Mcp.Asking
import Verif.Load.Text

/-!
# Model: the shape map of the tool of the MCP server that validates with ShEx

* VT = `rudof_mcp/src/service/tools/shex_validate_tools_impl.rs`

Modelled is which shape map is used, what it is read from, and what the summary says of it; not the validation. `InputSpec::from_str` is
`Load.fromStr`.
-/

namespace Mcp.Mapping

open Prefix (Str)
open Mcp.Asking (Lib)

/-- `contains("://")`. -/
def hasSep : Str → Bool
  | [] => false
  | c :: s => "://".toList.isPrefixOf (c :: s) || hasSep s

/-- `normalize_iri_str` (VT 16-28). -/
def normalize (L : Lib) (s : Str) (strict : Bool) : Str :=
  let t := Prefix.trim L.ws s
  if strict then t
  else if !(t.head? == some '<') && !(t.head? == some '_') && !(t.head? == some '{') && hasSep t then '<' :: t ++ ['>']
  else t

/-- The part of `ValidateShexRequest` that is about the shape map (VT 45-69). -/
structure Request where
  shapemap : Option Str
  node : Option Str
  shape : Option Str
  strictIris : Option Bool

/-- `effective_shapemap` (VT 161-180); `none` is the error of the tool. -/
def effective (L : Lib) (r : Request) : Option Str :=
  match r.shapemap, r.node, r.shape with
  | some m, _, _ => some m
  | none, some n, some s => some (normalize L n (r.strictIris.getD false) ++ '@' :: normalize L s (r.strictIris.getD false))
  | none, some n, none => some (normalize L n (r.strictIris.getD false) ++ "@START".toList)
  | none, none, _ => none

/-- The shape map that is loaded (VT 182-190); `none` is the error of the tool. -/
def loaded (L : Lib) (W : Load.World) (r : Request) : Option Load.Source :=
  match effective L r with
  | none => none
  | some m => Load.fromStr W m

/-- What the summary says was generated (VT 359-362). -/
def saysGenerated (L : Lib) (r : Request) : Option Str :=
  if r.node.isSome || r.shape.isSome then effective L r else none

end Mcp.Mapping

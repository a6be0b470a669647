import Verif.Mcp.Arcs
import Verif.Mcp.MappingSpec

/-!
# Specification: how arcs are written

`rudof_lib/src/api/data/implementations/show_node_info.rs:279-303, 326, 364, 386-406`, with `termtree`: each level above gives a bar and
three blanks, or three blanks if it was the last of its siblings.
-/

namespace Mcp.Arcs

open Prefix (Str)
open Mcp.Asking (Lib Ascii unlines)

/-- An arc in a tree: for each level above whether more siblings follow it, whether the arc is the last one, and its texts. -/
structure Shown where
  above : List Bool
  last : Bool
  predicate : Str
  target : Str

/-- The begin of a line. -/
def indent : List Bool → Str
  | [] => []
  | true :: l => "│   ".toList ++ indent l
  | false :: l => "   ".toList ++ indent l

/-- The line of an arc, with the arrow between. -/
def Shown.line (a : Shown) (arrow : Str) : Str :=
  indent a.above ++ (if a.last then '└' else '├') :: "─── ".toList ++ a.predicate ++ arrow ++ a.target

/-- Texts that are read back: not empty, on one line, no white space around, and no signs of trees in the predicate. -/
structure Shown.Plain (L : Lib) (a : Shown) : Prop where
  pred : a.predicate ≠ []
  predTrimmed : Mapping.Trimmed L a.predicate
  predSigns : ∀ c ∈ a.predicate, c ∉ ['│', '├', '└', '─', '\n']
  target : a.target ≠ []
  targetTrimmed : Mapping.Trimmed L a.target
  targetLine : '\n' ∉ a.target

/-- The text of the arcs of a node. -/
def text (root : Str) (outs ins : List Shown) : Str :=
  unlines (["Outgoing arcs".toList, root] ++ outs.map (·.line " ─► ".toList) ++ [[]] ++
    ["Incoming arcs".toList, root, "▲".toList] ++ ins.map (·.line " ── ".toList) ++ [[]])

/-- A blank is white space, and no sign of trees and no letter of the headings is. -/
structure Signs (L : Lib) : Prop where
  blank : L.ws ' ' = true
  sign : ∀ c ∈ ['│', '├', '└', '─', '▲', 'O', 'I', 's'], L.ws c = false

end Mcp.Arcs

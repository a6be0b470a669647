import Verif.Mcp.Asking

/-!
# Model: how the MCP server reads the arcs of a node out of text

* NT = `rudof_mcp/src/service/tools/node_tools_impl.rs`

The lines are those of `Mcp.Asking.linesFrom`, where `\r` at the end of a line is not modelled.
-/

namespace Mcp.Arcs

open Prefix (Str)

/-- `ParsedArc` (NT 54-62). -/
structure Arc where
  predicate : Str
  target : Str
  depth : Nat
deriving DecidableEq, Repr

/-- `str::split_once`. -/
def splitOnce (d : Str) : Str → Option (Str × Str)
  | [] => if d.isPrefixOf [] then some ([], []) else none
  | c :: s =>
    if d.isPrefixOf (c :: s) then some ([], (c :: s).drop d.length)
    else (splitOnce d s).map fun p => (c :: p.1, p.2)

/-- `strip_tree_glyphs` (NT 193-200). -/
def strip (ws : Char → Bool) (s : Str) : Str :=
  Prefix.trim ws (s.filter fun c => !(c = '│' || c = '├' || c = '└' || c = '─'))

/-- `tree_depth` (NT 203-224). -/
def treeDepth : Str → Nat
  | '│' :: ' ' :: ' ' :: ' ' :: r => treeDepth r + 1
  | ' ' :: ' ' :: ' ' :: ' ' :: r => treeDepth r + 1
  | _ => 0

/-- `parse_arc_line` (NT 175-190). -/
def parseLine (ws : Char → Bool) (line d : Str) : Option Arc :=
  match splitOnce d line with
  | none => none
  | some (l, r) =>
    if strip ws l = [] ∨ Prefix.trim ws r = [] then none else some ⟨strip ws l, Prefix.trim ws r, treeDepth line⟩

/-- `ArcSection` (NT 92-96). -/
inductive Sec where
  | outgoing
  | incoming
deriving DecidableEq, Repr

/-- The delimiters of the two sections (NT 123, 128). -/
def Sec.delim : Sec → Str
  | .outgoing => " ─► ".toList
  | .incoming => " ── ".toList

/-- `eq_ignore_ascii_case`. -/
def sameName (s : Str) (n : String) : Bool := s.map Char.toLower = n.toList.map Char.toLower

/-- One round of the loop of `parse_node_info_results` (NT 104-134). -/
def step (ws : Char → Bool) (st : Option Sec × List Arc × List Arc) (line : Str) : Option Sec × List Arc × List Arc :=
  let t := Prefix.trim ws line
  if sameName t "Outgoing arcs" then (some .outgoing, st.2)
  else if sameName t "Incoming arcs" then (some .incoming, st.2)
  else if t = [] ∨ t = "▲".toList then st
  else
    match st.1 with
    | some .outgoing =>
      match parseLine ws line Sec.outgoing.delim with
      | some a => (st.1, st.2.1 ++ [a], st.2.2)
      | none => st
    | some .incoming =>
      match parseLine ws line Sec.incoming.delim with
      | some a => (st.1, st.2.1, st.2.2 ++ [a])
      | none => st
    | none => st

/-- `parse_node_info_results` (NT 99-134): the arcs out and in. -/
def parse (ws : Char → Bool) (output : Str) : List Arc × List Arc :=
  ((Asking.linesFrom [] output).foldl (step ws) (none, [], [])).2

/-- The number of elements of the set of what a list has (NT 136-158). -/
def distinct : List Str → Nat
  | [] => 0
  | x :: l => if x ∈ l then distinct l else distinct l + 1

end Mcp.Arcs

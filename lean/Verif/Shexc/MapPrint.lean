import Verif.Shexc.ShapeMap
import Verif.Shexc.Printer

/-!
# Model: the printer of shape maps

`ShapemapCompactPrinter` (shex_ast/src/compact/shapemap_compact_printer.rs) with `ShapemapFormatter::without_colors`. The
documents that it builds have no line breaks to choose, so that each has one text. `none` is a panic (`todo!`).
-/

namespace Shexc

namespace Pp

/-- `pp_iri_ref` (shapemap_compact_printer.rs:343-352; compact_printer.rs:64-72). -/
def nameText (m : Prefix.PrefixMap) : IriRef → Str
  | .iri s => m.qualify s
  | .prefixed p l => p ++ ':' :: l

/-- `pp_literal` with `pp_string_literal`, `pp_string` and `pp_numeric_literal` (shapemap_compact_printer.rs:233-341).
`paint` is what `colored` makes of a text: `without_colors` leaves the colour of strings as it is. -/
def patLit (paint : Str → Str) : Lit → Option Str
  | .str s => some (paint ('"' :: (s ++ ['"'])))
  | .lang _ _ => none
  | .typed _ _ => none
  | .num n => some (num n).flat
  | .bool _ => none

/-- `pp_pattern` with `pp_object_value` (shapemap_compact_printer.rs:218-231). -/
def pat (paint : Str → Str) (m : Prefix.PrefixMap) : Pat → Option Str
  | .node (.iri r) => some (nameText m r)
  | .node (.lit l) => patLit paint l
  | .wildcard => some ['_']
  | .focus => some "FOCUS".toList

/-- `pp_shacl_path` (shapemap_compact_printer.rs:211-216). -/
def path (m : Prefix.PrefixMap) : PathRef → Option Str
  | .pred r => some (nameText m r)
  | _ => none

/-- `pp_node_selector` with `triple_quotes` (shapemap_compact_printer.rs:180-209), and `pp_object_value`
(compact_printer.rs:9-25) for single nodes. -/
def sel (paint : Str → Str) (m : Prefix.PrefixMap) : Sel → Option Str
  | .node (.iri r) => some (nameText m r)
  | .node (.lit (.num n)) => some (valueNum n).flat
  | .node (.lit _) => none
  | .bnode b => some ('_' :: ':' :: b)
  | .triple s p o => do
    let s ← pat paint m s
    let p ← path m p
    let o ← pat paint m o
    return ['{', ' '] ++ s ++ [' '] ++ p ++ [' '] ++ o ++ [' ', '}']
  | .sparql q => some ("SPARQL ".toList ++ ['\'', '\'', '\''] ++ q ++ ['\'', '\'', '\''])
  | .generic _ _ => none

/-- `pp_shape_selector` (shapemap_compact_printer.rs:371-376) with `pp_label` and `pp_bnode` (compact_printer.rs:27-42). -/
def shapeSel (m : Prefix.PrefixMap) : ShapeSel → Str
  | .label (.iri r) => nameText m r
  | .label (.bnode b) => '_' :: ':' :: b
  | .label .start => "START".toList
  | .start => "START".toList

/-- `pp_association` (shapemap_compact_printer.rs:174-178). -/
def assoc (paint : Str → Str) (nodes shapes : Prefix.PrefixMap) (a : Assoc) : Option Str := do
  let n ← sel paint nodes a.node
  return n ++ '@' :: shapeSel shapes a.shape

/-- `pp_shapemap` (shapemap_compact_printer.rs:166-172): the associations with a line break between them. -/
def assocs (paint : Str → Str) (nodes shapes : Prefix.PrefixMap) : List Assoc → Option Str
  | [] => some []
  | [a] => assoc paint nodes shapes a
  | a :: as => do
    let w ← assoc paint nodes shapes a
    let ws ← assocs paint nodes shapes as
    return w ++ '\n' :: ws

end Pp

/-- `format_shapemap` (shapemap_compact_printer.rs:52-60). -/
def printMap (paint : Str → Str) (M : ShapeMap) : Option Str := Pp.assocs paint M.nodesPm M.shapesPm M.assocs

end Shexc

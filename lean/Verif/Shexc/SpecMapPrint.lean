import Verif.Shexc.ShapeMap
import Verif.Shexc.SpecPrint

/-!
# Specification: shape maps that can be written and read back, and selectors that cannot be written
-/

namespace Shexc

namespace Spec

/-- A pattern that can be written and read back: `N` says which IRIs can. Strings have no characters that need to be
escaped. -/
inductive PPat (N : Str → Prop) : Pat → Prop where
  | iri {i : Str} (h : N i) : PPat N (.node (.iri (.iri i)))
  | wildcard : PPat N .wildcard
  | str {s : Str} (h : StringText s ('"' :: (s ++ ['"']))) : PPat N (.node (.lit (.str s)))

/-- A selector of nodes that can be written and read back. -/
inductive PSel (N : Str → Prop) : Sel → Prop where
  | iri {i : Str} (h : N i) : PSel N (.node (.iri (.iri i)))
  | bnode {b : Str} (h : BnodeName b) : PSel N (.bnode b)
  | object {p : Str} {o : Pat} (hp : N p) (ho : PPat N o) : PSel N (.triple .focus (.pred (.iri p)) o)
  | subject {s : Pat} {p : Str} (hs : PPat N s) (hp : N p) : PSel N (.triple s (.pred (.iri p)) .focus)
  | sparql {q : Str} (h : StringText q (['\'', '\'', '\''] ++ (q ++ ['\'', '\'', '\'']))) : PSel N (.sparql q)

/-- A selector of shapes that can be written and read back. -/
inductive PShapeSel (N : Str → Prop) : ShapeSel → Prop where
  | label {l : Label} (h : PLabel N l) : PShapeSel N (.label l)
  | start : PShapeSel N .start

/-- An association that can be written and read back. -/
structure PAssoc (N S : Str → Prop) (a : Assoc) : Prop where
  node : PSel N a.node
  shape : PShapeSel S a.shape

/-- No prefix begins with `focus`. -/
def NoFocus (m : Prefix.PrefixMap) : Prop :=
  ∀ p ns, m.find p = some ns → ¬ "focus".toList <+: p.map Char.toLower

/-- A literal that the printer has no text for, in a pattern. -/
inductive OddPat : Pat → Prop where
  | lang (s t : Str) : OddPat (.node (.lit (.lang s t)))
  | typed (s : Str) (d : IriRef) : OddPat (.node (.lit (.typed s d)))
  | bool (b : Bool) : OddPat (.node (.lit (.bool b)))

/-- A selector that the printer has no text for: a literal that is not a number (as a single node, not even a string), a
pattern with an odd literal or with a path that is not a predicate, and the generic selector. -/
inductive OddSel : Sel → Prop where
  | lit {l : Lit} (h : ∀ n, l ≠ .num n) : OddSel (.node (.lit l))
  | subject {s o : Pat} {p : PathRef} (h : OddPat s) : OddSel (.triple s p o)
  | object {s o : Pat} {p : PathRef} (h : OddPat o) : OddSel (.triple s p o)
  | path {s o : Pat} {p : PathRef} (h : ∀ r, p ≠ .pred r) : OddSel (.triple s p o)
  | generic (i p : Str) : OddSel (.generic i p)

end Spec

end Shexc

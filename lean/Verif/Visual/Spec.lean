import Verif.Visual.Model
import Mathlib.Data.List.Forall2
import Mathlib.Data.List.Perm.Basic

/-!
# What the drawing of a graph should show

The terms that occur in a graph, the pictures of terms, and the lines they give.
-/

namespace Visual

variable {I B L : Type}

/-- A subject as a term. -/
def Sub.tm : Sub I B → Tm I B L
  | .iri i => .iri i
  | .bnode b => .bnode b

/-- What a term is read as. -/
inductive Reads (C : Cfg I B L) : Tm I B L → Tm I B L → Prop
  | iri (i : I) : Reads C (.iri i) (.iri i)
  | bnode (b : B) : Reads C (.bnode b) (.bnode b)
  | lit (l l' : L) : C.conv l = some l' → Reads C (.lit l) (.lit l')
  | triple (s : Sub I B) (p : I) (o o' : Tm I B L) : Reads C o o' →
      Reads C (.triple s p o) (.triple s p o')

/-- Terms that occur in the graph: subjects and objects, also those of triple terms that occur. -/
inductive Occurs (C : Cfg I B L) (ts : List (Sub I B × I × Tm I B L)) : Tm I B L → Prop
  | sub (s : Sub I B) (p : I) (o : Tm I B L) : (s, p, o) ∈ ts → Occurs C ts s.tm
  | obj (s : Sub I B) (p : I) (o o' : Tm I B L) : (s, p, o) ∈ ts → Reads C o o' → Occurs C ts o'
  | subIn (s : Sub I B) (p : I) (o : Tm I B L) : Occurs C ts (.triple s p o) → Occurs C ts s.tm
  | objIn (s : Sub I B) (p : I) (o : Tm I B L) : Occurs C ts (.triple s p o) → Occurs C ts o

/-- The predicate of a triple term that occurs. -/
def Inside (C : Cfg I B L) (ts : List (Sub I B × I × Tm I B L)) (p : I) : Prop :=
  ∃ s o, Occurs C ts (.triple s p o)

/-- The picture of a predicate. -/
inductive PredPic (C : Cfg I B L) : I → VNode → Prop
  | reifies (p : I) : C.reifies p = true → PredPic C p .reifies
  | pred (p : I) : C.reifies p = false → PredPic C p (.pred (C.qual p) (C.iriShow p))

/-- The picture of a term: a triple term is asserted if the graph has the triple. -/
inductive Pic (C : Cfg I B L) (ts : List (Sub I B × I × Tm I B L)) : Tm I B L → VNode → Prop
  | iri (i : I) : Pic C ts (.iri i) (.iri (C.qual i) (C.iriStr i))
  | bnode (b : B) : Pic C ts (.bnode b) (.bnode (C.showB b))
  | lit (l : L) : Pic C ts (.lit l) (.lit (C.showL l))
  | asserted (s : Sub I B) (p : I) (o : Tm I B L) (a b c : VNode) : (s, p, o) ∈ ts →
      Pic C ts s.tm a → PredPic C p b → Pic C ts o c → Pic C ts (.triple s p o) (.asserted a b c)
  | nonAsserted (s : Sub I B) (p : I) (o : Tm I B L) (a b c : VNode) : (s, p, o) ∉ ts →
      Pic C ts s.tm a → PredPic C p b → Pic C ts o c → Pic C ts (.triple s p o) (.nonAsserted a b c)

/-- The label of an edge. -/
inductive EdgePic (C : Cfg I B L) : I → Edge → Prop
  | reifies (p : I) : C.reifies p = true → EdgePic C p .reifies
  | iri (p : I) : C.reifies p = false → EdgePic C p (.iri (C.qual p) (C.iriStr p))

/-- What is counted for a node; nothing if it was never used. -/
def G.use (g : G) (n : VNode) : Usage := (g.usage.lookup n).getD {}

/-- The number that a node has. -/
def G.id (g : G) (n : VNode) (i : Nat) : Prop := (n, i) ∈ g.nodes

/-- The line that declares a node. -/
def declared (i : Nat) : VNode → String
  | .iri label url => "rectangle \"[[" ++ url ++ " " ++ label ++ "]]\" <<uri>> as " ++ toString i
  | .pred label url => "rectangle \"[[" ++ url ++ " " ++ label ++ "]]\" <<uri>> as " ++ toString i
  | .bnode _ => "rectangle \" \" <<bnode>> as " ++ toString i
  | .lit value => "rectangle \"" ++ value ++ "\" <<literal>> as " ++ toString i
  | .reifies => "rectangle \"reifies\" <<reifies>> as " ++ toString i
  | .nonAsserted _ _ _ => "cloud \" \" <<non_asserted>> as " ++ toString i ++ "\n"
  | .asserted _ _ _ => "rectangle \" \" <<asserted>> as " ++ toString i ++ "\n"

/-- The text on an edge: a link to the predicate, under its label. -/
def linked : Edge → String
  | .iri label url => "[[" ++ url ++ " " ++ label ++ "]]"
  | .reifies => "[[http://www.w3.org/1999/02/22-rdf-syntax-ns#reifies reifies]]"

/-- The parts of the picture of a triple term. -/
def VNode.parts : VNode → Option (VNode × VNode × VNode)
  | .nonAsserted s p o => some (s, p, o)
  | .asserted s p o => some (s, p, o)
  | _ => none

/-- The lines of the arrows from a triple term to its parts. -/
def Pointed (k : Look) (g : G) (i : Nat) (n : VNode) (l : String) : Prop :=
  ∃ s p o si pi oi, n.parts = some (s, p, o) ∧ g.id s si ∧ g.id p pi ∧ g.id o oi ∧
    (l = toString i ++ "-->" ++ toString si ++ " " ++ k.sub.1 ++ " : " ++ k.sub.2 ++ " \n" ∨
      l = toString i ++ "-->" ++ toString pi ++ " " ++ k.pred.1 ++ " : " ++ k.pred.2 ++ "\n" ∨
      l = toString i ++ "-->" ++ toString oi ++ " " ++ k.obj.1 ++ " : " ++ k.obj.2 ++ "\n")

end Visual

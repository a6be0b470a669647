import Verif.Shexr.Model
import Verif.Rd.Spec

/-!
# Specification: ShEx schemas as graphs (ShExR)

Written from the ShExR vocabulary, apart from the reader.
-/

namespace Shexr

open Rd

section
variable {L : Type}

/-- The graph has this triple. -/
def Has (g : Gr L) (s : Tm L) (p : Iri) (o : Tm L) : Prop := s.isLit = false ∧ (s, p, o) ∈ g.ts

/-- The subject has exactly this value. -/
def Only (g : Gr L) (s : Tm L) (p : Iri) (o : Tm L) : Prop := ∀ o', Has g s p o' ↔ o' = o

/-- The subject has no value. -/
def Lacks (g : Gr L) (s : Tm L) (p : Iri) : Prop := ∀ o, ¬ Has g s p o

/-- The property of the node, if any, has one value, which is as wanted. -/
def Opt {A : Type} (g : Gr L) (s : Tm L) (p : Iri) (P : Tm L → A → Prop) : Option A → Prop
  | none => Lacks g s p
  | some a => ∃ o, Only g s p o ∧ P o a

/-- The class of a node. -/
def Typed (g : Gr L) (s : Tm L) (c : String) : Prop := Only g s (.v .type) (.iri (sx c))

/-- The names of kinds of nodes. -/
def NKind.name : NKind → String
  | .iri => "iri"
  | .literal => "literal"
  | .bnode => "bnode"
  | .nonliteral => "nonLiteral"

/-- The node of a value of a value set. -/
def Val.term : Val L → Tm L
  | .iri i => .iri i
  | .lit l => .lit l

mutual
/-- A node of the graph stands for a shape expression. -/
inductive IsSe (g : Gr L) (bool : L → Option Bool) : Tm L → Se L → Prop
  | and {t l ts es} : Typed g t "ShapeAnd" → Only g t (sx "shapeExprs") l → g.IsList l ts → AreSes g bool ts es →
    IsSe g bool t (.and es)
  | or {t l ts es} : Typed g t "ShapeOr" → Only g t (sx "shapeExprs") l → g.IsList l ts → AreSes g bool ts es →
    IsSe g bool t (.or es)
  | not {t x e} : Typed g t "ShapeNot" → Only g t (sx "shapeExpr") x → IsSe g bool x e → IsSe g bool t (.not e)
  | ext {t} : Typed g t "ShapeExternal" → IsSe g bool t .ext
  | ref {t} : Typed g t "ShapeDecl" → IsSe g bool t (.ref t)
  | shape {t c x e} : Typed g t "Shape" → Opt g t (sx "closed") (fun o b => ∃ l, o = .lit l ∧ bool l = some b) c →
    (∀ i, Has g t (sx "extra") (.iri i) ↔ ∃ is, x = some is ∧ i ∈ is) →
    Opt g t (sx "expression") (fun o e => o = e) e → IsSe g bool t (.shape c x e)
  | nc {t k d v} : Typed g t "NodeConstraint" → Opt g t (sx "nodeKind") (fun o k => o = .iri (sx k.name)) k →
    Opt g t (sx "datatype") (fun o d => o = .iri d) d →
    Opt g t (sx "values") (fun o vs => g.IsList o (vs.map Val.term)) v → IsSe g bool t (.nc k d v)

/-- Nodes stand for shape expressions, one by one. -/
inductive AreSes (g : Gr L) (bool : L → Option Bool) : List (Tm L) → List (Se L) → Prop
  | nil : AreSes g bool [] []
  | cons {t e ts es} : IsSe g bool t e → AreSes g bool ts es → AreSes g bool (t :: ts) (e :: es)
end

/-- A node of the graph declares a shape expression: the node is the label. -/
def IsDecl (g : Gr L) (bool : L → Option Bool) (t : Tm L) (d : Tm L × Se L) : Prop :=
  t = d.1 ∧ ∃ x, Only g t (sx "shapeExpr") x ∧ IsSe g bool x d.2

/-- The graph stands for a schema: it has one node of class `sx:Schema`. -/
def IsSchema (g : Gr L) (bool : L → Option Bool) (S : Schema L) : Prop :=
  ∃ s, (∀ s', Has g s' (.v .type) (.iri (sx "Schema")) ↔ s' = s) ∧
    Opt g s (sx "start") (IsSe g bool) S.start ∧
    ∃ l ts, Only g s (sx "shapes") l ∧ g.IsList l ts ∧ List.Forall₂ (IsDecl g bool) ts S.shapes

/-- The graph says nothing of the values of the names of node kinds themselves. -/
def Sane (g : Gr L) : Prop := ∀ k : NKind, Lacks g (.iri (sx k.name)) (sx "values")

mutual
/-- The expressions that the reader knows: conjunctions and disjunctions of shapes without contents and of node
constraints which have a node kind or a set of IRIs, not both. -/
def Se.Plain : Se L → Prop
  | .and es => Plains es
  | .or es => Plains es
  | .not _ => False
  | .ext => False
  | .ref _ => False
  | .shape _ x e => x = none ∧ e = none
  | .nc k d v => d = none ∧ (k = none ∨ v = none) ∧ ∀ vs ∈ v, ∀ x ∈ vs, ∃ i, x = .iri i

/-- All are plain. -/
def Plains : List (Se L) → Prop
  | [] => True
  | e :: es => e.Plain ∧ Plains es
end

/-- All expressions of the schema are plain, and it has no start. -/
def Schema.Plain (S : Schema L) : Prop := S.start = none ∧ ∀ d ∈ S.shapes, d.2.Plain

end

end Shexr

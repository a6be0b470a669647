import Verif.Rd.Model

/-!
# Specification: lists and SHACL paths of RDF graphs
-/

namespace Rd

section
variable {L : Type}

/-- The graph has this triple. -/
def Gr.Has (g : Gr L) (s : Tm L) (p : Voc) (o : Tm L) : Prop := s.isLit = false ∧ (s, .v p, o) ∈ g.ts

/-- The subject has exactly this value. -/
def Gr.Only (g : Gr L) (s : Tm L) (p : Voc) (o : Tm L) : Prop := ∀ o', g.Has s p o' ↔ o' = o

/-- The subject has no value. -/
def Gr.Lacks (g : Gr L) (s : Tm L) (p : Voc) : Prop := ∀ o, ¬ g.Has s p o

/-- A node is a well-formed list with these members: each cell has one member and one rest. -/
inductive Gr.IsList (g : Gr L) : Tm L → List (Tm L) → Prop
  | nil : Gr.IsList g (.iri (.v .nil)) []
  | cons {c x r xs} : c ≠ .iri (.v .nil) → g.Only c .first x → g.Only c .rest r → Gr.IsList g r xs →
    Gr.IsList g c (x :: xs)

/-- A way through the cells of a list that may have more than one member or rest each: the cells passed and a member
of each, up to `rdf:nil`. -/
inductive Gr.Way (g : Gr L) : Tm L → List (Tm L) → List (Tm L) → Prop
  | nil : Gr.Way g (.iri (.v .nil)) [] []
  | cons {c x r cs xs} : c ≠ .iri (.v .nil) → g.Has c .first x → g.Has c .rest r → Gr.Way g r cs xs →
    Gr.Way g c (c :: cs) (x :: xs)

/-- Hash sets are traversed in some order, each item once. -/
def Gr.Orders (g : Gr L) : Prop := ∀ n l, (g.ord n l).Perm l

/-- The properties of which paths are made. -/
def pathVocs : List Voc :=
  [.first, .rest, .alternativePath, .zeroOrMorePath, .oneOrMorePath, .zeroOrOnePath, .inversePath]

/-- Among the properties of paths, the node has only these. -/
def Gr.Just (g : Gr L) (s : Tm L) (ks : List Voc) : Prop := ∀ k ∈ pathVocs, k ∉ ks → g.Lacks s k

mutual
/-- Well-formed SHACL paths (SHACL 2.3.1): a node stands for a path; below, nodes stand for paths one by one. -/
inductive Gr.IsPath (g : Gr L) : Tm L → Shacl.Path Iri → Prop
  | pred {i} : Gr.IsPath g (.iri i) (.pred i)
  | seq {b ts ps} : g.Just (.bnode b) [.first, .rest] → g.IsList (.bnode b) ts → Gr.ArePaths g ts ps →
    Gr.IsPath g (.bnode b) (.seq ps)
  | alt {b l ts ps} : g.Just (.bnode b) [.alternativePath] → g.Only (.bnode b) .alternativePath l → g.IsList l ts →
    Gr.ArePaths g ts ps → Gr.IsPath g (.bnode b) (.alt ps)
  | star {b t q} : g.Just (.bnode b) [.zeroOrMorePath] → g.Only (.bnode b) .zeroOrMorePath t → Gr.IsPath g t q →
    Gr.IsPath g (.bnode b) (.star q)
  | plus {b t q} : g.Just (.bnode b) [.oneOrMorePath] → g.Only (.bnode b) .oneOrMorePath t → Gr.IsPath g t q →
    Gr.IsPath g (.bnode b) (.plus q)
  | opt {b t q} : g.Just (.bnode b) [.zeroOrOnePath] → g.Only (.bnode b) .zeroOrOnePath t → Gr.IsPath g t q →
    Gr.IsPath g (.bnode b) (.opt q)
  | inv {b t q} : g.Just (.bnode b) [.inversePath] → g.Only (.bnode b) .inversePath t → Gr.IsPath g t q →
    Gr.IsPath g (.bnode b) (.inv q)

inductive Gr.ArePaths (g : Gr L) : List (Tm L) → List (Shacl.Path Iri) → Prop
  | nil : Gr.ArePaths g [] []
  | cons {t q ts qs} : Gr.IsPath g t q → Gr.ArePaths g ts qs → Gr.ArePaths g (t :: ts) (q :: qs)
end

/-- A graph is tidy for paths: blank nodes have the properties of only one kind of path, with at most one value each,
and what begins as a list is one. -/
structure Gr.Tidy (g : Gr L) : Prop where
  one : ∀ b k, k ∈ pathVocs → ∀ o o', g.Has (.bnode b) k o → g.Has (.bnode b) k o' → o = o'
  kind : ∀ b k k', k ∈ pathVocs → k' ∈ pathVocs → ¬ g.Lacks (.bnode b) k → ¬ g.Lacks (.bnode b) k' →
    k = k' ∨ (k ∈ [Voc.first, .rest] ∧ k' ∈ [Voc.first, .rest])
  list : ∀ b, ¬ g.Lacks (.bnode b) .first ∨ ¬ g.Lacks (.bnode b) .rest → ∃ ts, g.IsList (.bnode b) ts
  alts : ∀ b l, g.Has (.bnode b) .alternativePath l → ∃ ts, g.IsList l ts

/-- One step down along a property of paths. -/
def Gr.Down (g : Gr L) (u s : Tm L) : Prop := ∃ k ∈ pathVocs, g.Has s k u

/-- There is no infinite way down from this term along the properties of paths. -/
def Gr.Ends (g : Gr L) (t : Tm L) : Prop := Acc g.Down t

end

end Rd

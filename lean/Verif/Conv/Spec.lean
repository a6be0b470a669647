import Verif.Conv.Model
import Mathlib.Logic.Relation
import Mathlib.Data.List.Forall2

/-!
# Specification: what SHACL shapes and ShEx shapes mean

For the constraints that the conversion has code for: which nodes conform, as the recommendations of SHACL and ShEx say.
-/

namespace Conv

open Shexc (SE TE NC Value ObjVal IriRef Label Str)

namespace Spec

variable {T : Type}

/-- The data: the arcs that go out of a node, which terms are literals of a datatype, and which terms are an IRI. -/
structure World (T : Type) where
  arcs : T → List (Str × T)
  datatype : IriRef → T → Prop
  isIri : Str → T → Prop

/-! ## ShEx -/

/-- A predicate occurs in a triple expression. -/
inductive Mentions : TE → Str → Prop where
  | tc {id n i p e mn mx acts anns} : Mentions (.tc id n i (.iri p) e mn mx acts anns) p
  | each {id es mn mx acts anns t p} (h : t ∈ es) (hp : Mentions t p) : Mentions (.each id es mn mx acts anns) p

/-- A term is in a value set: here of IRIs. -/
inductive InValues (W : World T) (x : T) : List Value → Prop where
  | mk {vs : List Value} {i : Str} (h : .obj (.iri (.iri i)) ∈ vs) (hx : W.isIri i x) : InValues W x vs

/-- A term satisfies a node constraint with a datatype or values. -/
inductive SatNC (W : World T) (x : T) : NC → Prop where
  | datatype {d : IriRef} (h : W.datatype d x) : SatNC W x { datatype := some d }
  | values {vs : List Value} (h : InValues W x vs) : SatNC W x { values := some vs }

mutual
/-- A term conforms to a shape expression, as ShEx says: the arcs of the term are those that the triple expression
fits and others, whose predicates do not occur in it (there is no `EXTRA` and no `CLOSED`). -/
inductive Sat (W : World T) : SE → T → Prop where
  | nc {c : NC} {x : T} (h : SatNC W x c) : Sat W (.nc c) x
  | empty {x : T} : Sat W (.shape none none none none none none) x
  | shape {te : TE} {x : T} {l rest : List (Str × T)} (hp : (l ++ rest).Perm (W.arcs x)) (h : Fits W te l)
      (hr : ∀ a ∈ rest, ¬ Mentions te a.1) : Sat W (.shape none none (some te) none none none) x
/-- Arcs fit a triple expression: one for a triple constraint without cardinality, and those of its parts for a group. -/
inductive Fits (W : World T) : TE → List (Str × T) → Prop where
  | any {p : Str} {x : T} : Fits W (.tc none none none (.iri p) none none none none none) [(p, x)]
  | tc {p : Str} {x : T} {e : SE} (h : Sat W e x) : Fits W (.tc none none none (.iri p) (some e) none none none none) [(p, x)]
  | each {es : List TE} {l : List (Str × T)} (h : FitsAll W es l) : Fits W (.each none es none none none none) l
/-- Arcs fit several triple expressions. -/
inductive FitsAll (W : World T) : List TE → List (Str × T) → Prop where
  | nil : FitsAll W [] []
  | cons {t : TE} {ts : List TE} {l m : List (Str × T)} (h : Fits W t l) (hs : FitsAll W ts m) :
      FitsAll W (t :: ts) (l ++ m)
end

/-! ## What the converted shapes mean -/

/-- The only `rdf:type` of a term satisfies `f`. -/
def OnlyType (W : World T) (f : T → Prop) (x : T) : Prop :=
  ∃ t rest, ((rdfType, t) :: rest).Perm (W.arcs x) ∧ f t ∧ ∀ a ∈ rest, a.1 ≠ rdfType

/-- What is asked of the value of a property: the first of the components. -/
def FirstHolds (W : World T) : List Comp → T → Prop
  | [], _ => True
  | .cls (.iri c) :: _, x => OnlyType W (W.isIri c) x
  | .cls _ :: _, _ => False
  | .datatype d :: _, x => W.datatype d x
  | .or :: _, _ => True
  | .other :: _, _ => False

/-- The classes of the targets. -/
def targetClasses (ts : List Target) (c : Str) : Prop := .cls (.iri c) ∈ ts

/-- An arc is what a property shape asks for. -/
def ArcHolds (W : World T) (s : PropShape) (a : Str × T) : Prop := s.path = some a.1 ∧ FirstHolds W s.comps a.2

/-- What a converted node shape with the property shapes `ps` asks of a term: its arcs with the predicates of the
property shapes are one for each of them. If the targets are added, there is one more with `rdf:type` to one of their
classes. -/
def Meaning (W : World T) (addTargetClass : Bool) (targets : List Target) (ps : List PropShape) (x : T) : Prop :=
  ∃ l m rest, (l ++ m ++ rest).Perm (W.arcs x) ∧ List.Forall₂ (ArcHolds W) ps l ∧
    (if addTargetClass then ∃ t c, m = [(rdfType, t)] ∧ targetClasses targets c ∧ W.isIri c t else m = []) ∧
    ∀ a ∈ rest, (∀ s ∈ ps, s.path ≠ some a.1) ∧ (addTargetClass = true → a.1 ≠ rdfType)

/-! ## When there is a conversion -/

/-- A component that there is code for. -/
inductive CompOk : Comp → Prop where
  | cls (c : Str) : CompOk (.cls (.iri c))
  | datatype (d : IriRef) : CompOk (.datatype d)
  | or : CompOk .or

/-- The property shape at an index, with a predicate for its path and components that there is code for. -/
def PropAt (S : Schema) (i : Nat) (s : PropShape) : Prop :=
  S.shape i = some (.prop s) ∧ s.path ≠ none ∧ ∀ c ∈ s.comps, CompOk c

/-- A target that there is code for. -/
def TargetOk (t : Target) : Prop := t ≠ .wrong ∧ ∀ c, t = .cls c → ∃ i, c = .iri i

/-- The label of a shape. -/
inductive LabelOf : Ob → Label → Prop where
  | iri (i : Str) : LabelOf (.iri i) (.iri (.iri i))
  | bnode (b : Str) : LabelOf (.bnode b) (.bnode b)

/-- A node shape that there is code for, with its label and its property shapes. -/
def NodeOk (addTargetClass : Bool) (S : Schema) (s : NodeShape) (l : Label) (ps : List PropShape) : Prop :=
  LabelOf s.id l ∧ List.Forall₂ (PropAt S) s.props ps ∧ (addTargetClass = true → ∀ t ∈ s.targets, TargetOk t)

/-! ## SHACL -/

/-- `rdfs:subClassOf`. -/
def subClassOf : Str := "http://www.w3.org/2000/01/rdf-schema#subClassOf".toList

/-- A term is a SHACL instance of a class. -/
def Instance (W : World T) (c : Str) (x : T) : Prop :=
  ∃ t u, (rdfType, t) ∈ W.arcs x ∧ Relation.ReflTransGen (fun a b => (subClassOf, b) ∈ W.arcs a) t u ∧ W.isIri c u

/-- A value node satisfies `sh:class` or `sh:datatype`. -/
inductive CompHolds (W : World T) : Comp → T → Prop where
  | cls {c : Str} {x : T} (h : Instance W c x) : CompHolds W (.cls (.iri c)) x
  | datatype {d : IriRef} {x : T} (h : W.datatype d x) : CompHolds W (.datatype d) x

/-- A term conforms to property shapes: all values of the path satisfy all components. -/
def Conforms (W : World T) (ps : List PropShape) (x : T) : Prop :=
  ∀ s ∈ ps, ∀ p, s.path = some p → ∀ y, (p, y) ∈ W.arcs x → ∀ c ∈ s.comps, CompHolds W c y

/-- Terms for which the conversion is exact: each property has one value, each value has one `rdf:type` at most, and
there are no subclasses. -/
structure Single (W : World T) (ps : List PropShape) (x : T) : Prop where
  one : ∀ s ∈ ps, ∀ p, s.path = some p → ∃ y rest, ((p, y) :: rest).Perm (W.arcs x) ∧ ∀ a ∈ rest, a.1 ≠ p
  types : ∀ y t rest, ((rdfType, t) :: rest).Perm (W.arcs y) → ∀ a ∈ rest, a.1 ≠ rdfType
  classes : ∀ y, ∀ a ∈ W.arcs y, a.1 ≠ subClassOf

end Spec

end Conv

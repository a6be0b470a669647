import Verif.Store.Model

/-!
# What a graph in memory is expected to hold
-/

namespace Store
variable {N P : Type}

/-- The triples that a format lets in: Turtle checks the IRIs. -/
def Good (valid : Tr N P → Bool) (f : Format) (t : Tr N P) : Prop := f = .turtle → valid t = true

/-- The document can be opened: its format is supported, and its base is accepted. -/
def Opens (f : Format) (d : Doc N P) (base : Option String) : Prop :=
  f ≠ .trig ∧ f ≠ .n3 ∧ ¬(f = .turtle ∧ base ≠ none ∧ d.badBase = true)

/-- The triple is taken from the document: in lax mode any good triple, in strict mode a good triple
with nothing but good triples before it. -/
def Reads (valid : Tr N P → Bool) (f : Format) (m : Mode) (d : Doc N P) (base : Option String)
    (t : Tr N P) : Prop :=
  Opens f d base ∧
    ∃ pre post, d.items = pre ++ some t :: post ∧ Good valid f t ∧
      (m = .strict → ∀ x ∈ pre, ∃ u, x = some u ∧ Good valid f u)

/-- The call is meant to put the triple in the graph. -/
inductive Puts (rdfType : P) (valid : Tr N P → Bool) : Op N P → Tr N P → Prop where
  | add (t) : Puts rdfType valid (.add t) t
  | type (n c) : Puts rdfType valid (.type n c) (n, rdfType, c)
  | read {f m d base t} : Reads valid f m d base t → Puts rdfType valid (.read f m d base) t

/-- A call put the triple in the graph, and no later call took it out. -/
def Holds (rdfType : P) (valid : Tr N P → Bool) (ops : List (Op N P)) (t : Tr N P) : Prop :=
  ∃ pre op post, ops = pre ++ op :: post ∧ Puts rdfType valid op t ∧ Op.del t ∉ post

/-- The call leaves the triples of any graph alone. -/
inductive Idle : Op N P → Prop where
  | ensure : Idle .ensure
  | bnode : Idle .bnode

/-- The triple has the given components. -/
def Fits (s : Option N) (p : Option P) (o : Option N) (t : Tr N P) : Prop :=
  (∀ x, s = some x → t.1 = x) ∧ (∀ x, p = some x → t.2.1 = x) ∧ (∀ x, o = some x → t.2.2 = x)

end Store

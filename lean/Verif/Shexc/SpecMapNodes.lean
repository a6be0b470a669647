import Verif.Shexc.SpecMapPrint

/-!
# Specification: the nodes that a shape map selects

What a query engine answers to the queries with one triple pattern, and which nodes a triple pattern stands for.
-/

namespace Shexc

namespace Spec

variable {T : Type}

/-- A subject, predicate or object in a query. -/
inductive QTerm where
  | var (x : Str)
  | iri (i : Str)
  | str (s : Str)

/-- How it is written: IRIs and strings have no characters that need to be escaped. -/
inductive QText : QTerm → Str → Prop where
  | var {x : Str} (h : x ≠ [] ∧ ∀ c ∈ x, letter c) : QText (.var x) ('?' :: x)
  | iri {i : Str} (h : Chars IriChar i i) : QText (.iri i) ('<' :: (i ++ ['>']))
  | str {s : Str} (h : StringText s ('"' :: (s ++ ['"']))) : QText (.str s) ('"' :: (s ++ ['"']))

/-- A query for the values of a variable in one triple pattern. -/
inductive QueryText (v : Str) (s p o : QTerm) : Str → Prop where
  | mk {ws wp wo : Str} (hs : QText s ws) (hp : QText p wp) (ho : QText o wo) :
      QueryText v s p o
        ("SELECT ?".toList ++ v ++ " WHERE { ".toList ++ ws ++ [' '] ++ wp ++ [' '] ++ wo ++ " }".toList)

/-- A term of the graph is the value of a part of a query, when `μ` are the values of the variables. -/
def QTerm.Is (D : Data T) (μ : Str → T) : QTerm → T → Prop
  | .var x, t => μ x = t
  | .iri i, t => t = D.iriTerm i
  | .str s, t => t = D.litTerm (.str s)

/-- The query engine has the triples of `G` and gives one answer for each triple that the pattern holds of. -/
def Faithful (D : Data T) (G : List (T × T × T)) : Prop :=
  ∀ v s p o w, QueryText v s p o w → (s = .var v ∨ o = .var v) → ∃ sols ms, D.select w = some sols ∧ ms.Nodup ∧
    (∀ t, t ∈ ms ↔ t ∈ G ∧ ∃ μ, s.Is D μ t.1 ∧ p.Is D μ t.2.1 ∧ o.Is D μ t.2.2) ∧
    List.Forall₂ (fun row t => ∃ μ, s.Is D μ t.1 ∧ p.Is D μ t.2.1 ∧ o.Is D μ t.2.2 ∧ row = [some (μ v)]) sols ms

/-- A pattern that can be asked for: a wildcard, or an IRI or a string that has no characters to be escaped. -/
abbrev Plain (o : Pat) : Prop := PPat (fun i => Chars IriChar i i) o

/-- A node that a pattern stands for. -/
inductive Holds (D : Data T) : Pat → T → Prop where
  | wildcard (t : T) : Holds D .wildcard t
  | iri (i : Str) : Holds D (.node (.iri (.iri i))) (D.iriTerm i)
  | str (s : Str) : Holds D (.node (.lit (.str s))) (D.litTerm (.str s))

/-- The nodes and shapes that a shape map asks to be checked, when `S a` says what is known of the selector of an
association: the pairs one after the other, unless a selector fails, and then what the first that does fails with. -/
inductive Pairs (sel : Assoc → NodesOut T) : List Assoc → NodesOut (T × Label) → Prop where
  | nil : Pairs sel [] (.ok [])
  | error {a : Assoc} {as : List Assoc} (h : sel a = .error) : Pairs sel (a :: as) .error
  | panic {a : Assoc} {as : List Assoc} (h : sel a = .panic) : Pairs sel (a :: as) .panic
  | cons {n : Sel} {l : Label} {as : List Assoc} {ts : List T} {rs : List (T × Label)} (h : sel ⟨n, .label l⟩ = .ok ts)
      (hs : Pairs sel as (.ok rs)) : Pairs sel (⟨n, .label l⟩ :: as) (.ok (ts.map (·, l) ++ rs))
  | start {n : Sel} {as : List Assoc} {ts : List T} {rs : List (T × Label)} (h : sel ⟨n, .start⟩ = .ok ts)
      (hs : Pairs sel as (.ok rs)) : Pairs sel (⟨n, .start⟩ :: as) (.ok (ts.map (·, .start) ++ rs))
  | errorLater {a : Assoc} {as : List Assoc} {ts : List T} (h : sel a = .ok ts) (hs : Pairs sel as .error) :
      Pairs sel (a :: as) .error
  | panicLater {a : Assoc} {as : List Assoc} {ts : List T} (h : sel a = .ok ts) (hs : Pairs sel as .panic) :
      Pairs sel (a :: as) .panic

end Spec

end Shexc

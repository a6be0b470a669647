import Verif.Select.Model
import Verif.Comp.Spec

/-!
# Specification: what the query of a schema asks for
-/

namespace Select
open Comp Shex

variable {N NC : Type}

/-! ## The predicates of a triple expression -/

mutual
/-- The predicates of the triple constraints of the expression, from left to right. -/
def leaves : TE Str NC → List (IRef Str)
  | .eachOf _ es _ _ _ => leavesAll es
  | .oneOf _ es _ _ _ => leavesAll es
  | .tc _ _ _ p _ _ _ _ => [p]
  | .ref _ => []
/-- Those of all. -/
def leavesAll : List (TE Str NC) → List (IRef Str)
  | [] => []
  | e :: es => leaves e ++ leavesAll es
end

/-- Those of a triple expression that may be absent. -/
def leavesO : Option (TE Str NC) → List (IRef Str)
  | none => []
  | some te => leaves te

mutual
/-- Nothing in the expression makes the conversion panic: no inclusion, no inverse constraint, and every
predicate can be given a variable. -/
def Plain (named : IRef Str → Prop) : TE Str NC → Prop
  | .eachOf _ es _ _ _ => PlainAll named es
  | .oneOf _ es _ _ _ => PlainAll named es
  | .tc _ _ inverse p _ _ _ _ => inverse ≠ some true ∧ named p
  | .ref _ => False
/-- All are plain. -/
def PlainAll (named : IRef Str → Prop) : List (TE Str NC) → Prop
  | [] => True
  | e :: es => Plain named e ∧ PlainAll named es
end

/-- The predicate can be given a variable: it is a prefixed name, there is no prefix map, or a namespace of
the prefix map starts the IRI. -/
def Named (pm : Option Prefix.PrefixMap) : IRef Str → Prop
  | .prefixed _ _ => True
  | .iri i => ∀ m, pm = some m → ∃ d ∈ m.map, d.2 <+: i

/-- The `j`-th numbered variable. -/
def numbered (j : Nat) : Str := ['v', 'a', 'r'] ++ Nat.toDigits 10 j

/-- The variable of the predicate: the local part of the prefixed name, or what follows the longest of the
namespaces, or without prefix map a numbered one. -/
def VarName (pm : Option Prefix.PrefixMap) (v : Str) : IRef Str → Prop
  | .prefixed _ l => v = l.toList
  | .iri i =>
    match pm with
    | none => ∃ j, v = numbered j
    | some m => ∃ d ∈ m.map, i = d.2 ++ v ∧ ∀ d' ∈ m.map, d'.2 <+: i → d'.2 <+: d.2

/-! ## Where the query comes from -/

/-- The label stands for the IRI in the schema. -/
def Stands.At (valid : Str → Bool) (s : Sch NC) (l : Label Str) (i : Str) : Prop :=
  ∃ r, l = .ref r ∧ resolveRef valid s.pm r = some i

/-- The first declaration whose label stands for the IRI. -/
def FirstFor (valid : Str → Bool) (s : Sch NC) (i : Str) (e : SE Str NC) : Prop :=
  ∃ ds pre post l, s.shapes = some ds ∧ ds = pre ++ (l, e) :: post ∧ Stands.At valid s l i ∧
    ∀ d ∈ pre, (∀ r, d.1 = .ref r → ∃ j, resolveRef valid s.pm r = some j ∧ j ≠ i)

/-- The shape expression is a shape with this triple expression, or refers to one in the end. -/
inductive Leads (valid : Str → Bool) (s : Sch NC) : SE Str NC → Option (TE Str NC) → Prop
  | here {cl ex te xs as} : Leads valid s (.shape cl ex te xs as) te
  | via {l i e te} : Stands.At valid s l i → FirstFor valid s i e → Leads valid s e te →
      Leads valid s (.ref l) te

/-- The shape expression that the conversion starts from. -/
def Source (valid : Str → Bool) (s : Sch NC) : Option (IRef Str) → SE Str NC → Prop
  | some r, e => ∃ i, resolveRef valid s.pm r = some i ∧ FirstFor valid s i e
  | none, e => s.start = some e ∨ (s.start = none ∧ ∃ l ds, s.shapes = some ((l, e) :: ds))

/-! ## The meaning of the query -/

/-- The assignment of nodes to variables satisfies the pattern in the graph. -/
def Pat.Holds (valid : Str → Bool) (pm : Option Prefix.PrefixMap) (g : Graph N Str) (σ : Str → N)
    (p : Pat) : Prop :=
  ∃ i, resolveRef valid pm p.pred = some i ∧ (σ p.subj, i, σ p.obj) ∈ g.triples

/-- The node is an answer for the variable: some assignment gives it to the variable and satisfies all
patterns. -/
def Qry.Answer (valid : Str → Bool) (q : Qry) (g : Graph N Str) (this : Str) (n : N) : Prop :=
  ∃ σ : Str → N, σ this = n ∧ ∀ p ∈ q.pats, p.Holds valid q.pm g σ

mutual
/-- The triple expression asks for every one of its constraints: the cardinalities start from one, and
there is no choice. -/
def Required : TE Str NC → Prop
  | .eachOf _ es mn _ _ => 1 ≤ mn.getD 1 ∧ RequiredAll es
  | .oneOf _ es mn _ _ => 1 ≤ mn.getD 1 ∧ es.length = 1 ∧ RequiredAll es
  | .tc _ _ _ _ _ mn _ _ => 1 ≤ mn.getD 1
  | .ref _ => False
/-- All do. -/
def RequiredAll : List (TE Str NC) → Prop
  | [] => True
  | e :: es => Required e ∧ RequiredAll es
end

/-- No two predicates of the query share a variable, and none has the variable of the node. -/
def Qry.Apart (valid : Str → Bool) (q : Qry) (this : Str) : Prop :=
  (∀ p ∈ q.pats, p.obj ≠ this) ∧
    ∀ p ∈ q.pats, ∀ p' ∈ q.pats, p.obj = p'.obj →
      resolveRef valid q.pm p.pred = resolveRef valid q.pm p'.pred

end Select

import Verif.Prefix.Model

/-!
# Specification: prefix maps
-/

namespace Prefix

/-- A change to a prefix map. -/
inductive Op
  | declare (al iri : Str)
  | remove (al : Str)

/-- The alias a change is about. -/
def Op.name : Op → Str
  | .declare a _ => a
  | .remove a => a

/-- One change. -/
def Op.run (m : PrefixMap) : Op → PrefixMap
  | .declare a i => m.addPrefix a i
  | .remove a => (m.removePrefix a).1

/-- A prefix map obtained through the interface, with any setting of hyperlinks. -/
inductive Built : PrefixMap → Prop
  | new : Built .new
  | change {m} (op : Op) (h : Built m) : Built (op.run m)
  | merge {m n} (h : Built m) (h' : Built n) : Built (m.merge n)
  | read (entries : List (Str × Str)) : Built (.deserialize entries)
  | next {m e m'} (h : Built m) (hn : m.next = some (e, m')) : Built m'
  | hyperlink {m} (b : Bool) (h : Built m) : Built { m with hyperlink := b }

/-- The namespace is declared for the alias and the IRI starts with it, `rest` being what follows. -/
def Matches (m : PrefixMap) (iri al ns rest : Str) : Prop := m.find al = some ns ∧ iri = ns ++ rest

/-- A longest declared namespace: every other that the IRI starts with is a prefix of it. -/
def Longest (m : PrefixMap) (iri ns : Str) : Prop :=
  ∀ al' ns' rest', Matches m iri al' ns' rest' → ∃ more, ns = ns' ++ more

end Prefix

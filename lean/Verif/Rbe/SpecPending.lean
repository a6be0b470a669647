import Mathlib.Data.Finset.Prod
import Mathlib.Data.Finset.Image
import Verif.Rbe.ModelPending

/-!
# Specification: a pending map is a set of pairs and a set of triples

`pairs` are the values and the references they wait for, `triples` the keys attached to them.
-/

namespace Rbe

/-- The abstract content of a pending map. -/
structure Pend (K V R : Type) where
  pairs : Finset (V × R)
  triples : Finset (V × R × K)

namespace Pend
variable {K V R : Type} [DecidableEq K] [DecidableEq V] [DecidableEq R]

/-- Nothing is pending. -/
def none : Pend K V R := ⟨∅, ∅⟩

/-- A pair, without key. -/
def addPair (a : Pend K V R) (v : V) (r : R) : Pend K V R := ⟨insert (v, r) a.pairs, a.triples⟩

/-- A triple, with its pair. -/
def addTriple (a : Pend K V R) (v : V) (r : R) (k : K) : Pend K V R :=
  ⟨insert (v, r) a.pairs, insert (v, r, k) a.triples⟩

/-- The key `k` for all pairs. -/
def stamp (a : Pend K V R) (k : K) : Pend K V R :=
  ⟨a.pairs, a.triples ∪ a.pairs.image fun x => (x.1, x.2, k)⟩

/-- Both. -/
def union (a b : Pend K V R) : Pend K V R := ⟨a.pairs ∪ b.pairs, a.triples ∪ b.triples⟩

/-- Without a triple, and without its pair if no key is left for it. -/
def remove (a : Pend K V R) (v : V) (r : R) (k : K) : Pend K V R :=
  let ts := a.triples.erase (v, r, k)
  ⟨a.pairs.filter fun x => x ≠ (v, r) ∨ ∃ t ∈ ts, t.1 = v ∧ t.2.1 = r, ts⟩

/-- Every pair has a key. -/
def Keyed (a : Pend K V R) : Prop := ∀ v r, (v, r) ∈ a.pairs → ∃ k, (v, r, k) ∈ a.triples

end Pend

/-- The pending maps that the interface can produce, with their content. -/
inductive Pending.Built {K V R : Type} [DecidableEq K] [DecidableEq V] [DecidableEq R] :
    Pending K V R → Pend K V R → Prop
  | empty : Built Pending.empty Pend.none
  | insert {p a} (v : V) (r : R) : Built p a → Built (p.insert v r) (a.addPair v r)
  | insertWithKey {p a} (v : V) (r : R) (k : K) : Built p a → Built (p.insertWithKey v r k) (a.addTriple v r k)
  | annotate {p a} (k : K) : Built p a → Built (p.annotateKey k) (a.stamp k)
  | merge {p a q b} : Built p a → Built q b → Built (p.merge q) (a.union b)
  | pop {p a} (v : V) (r : R) (k : K) (q : Pending K V R) : Built p a → p.pop = .item v r k q →
      Built q (a.remove v r k)

end Rbe

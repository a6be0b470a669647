import Verif.Shacl.PathLemmas

/-!
# Properties: property paths (C33, C34)
-/

namespace Shacl
open Relation

section
variable {T P : Type} [DecidableEq T] [DecidableEq P]

/-- Whatever path and node, the evaluation ends once loops may run as often as there are terms in the
graph, however hash sets are ordered. -/
theorem C34_terminates (g : Graph T P) (ord : List T → List T) (hord : ∀ l, (ord l).Perm l) (n : Nat)
    (hn : 2 * g.triples.length + 1 ≤ n) (q : Path P) (x : T) : eval g ord n q x ≠ .loop :=
  eval_total g hord n hn q x

/-- C34 applies: a cyclic graph and a nested closure. -/
example : eval (⟨[(0, 7, 1), (1, 7, 0)], fun _ => true⟩ : Graph Nat Nat) id 5 (.star (.plus (.pred 7))) 0 =
    .ok [0, 1] := by decide

/-- **C33**, the part that holds: evaluation gives a set exactly when no step of the path starts at a term
that cannot be a subject and converses are of predicates; the set is then the set of nodes related by the
path. Missing: the other cases, where it fails although related nodes exist (`C33_refuted`). -/
theorem C33_paths_partial (g : Graph T P) (ord : List T → List T) (hord : ∀ l, (ord l).Perm l) (n : Nat)
    (hn : 2 * g.triples.length + 1 ≤ n) (q : Path P) (x : T) :
    ((∃ l, eval g ord n q x = .ok l) ↔ ¬ Fails g q x) ∧
      ∀ l, eval g ord n q x = .ok l → l.Nodup ∧ ∀ y, y ∈ l ↔ Rel g q x y := by
  have hm := eval_meets g hord n q
  have ht := eval_total g hord n hn q x
  refine ⟨⟨?_, fun hF => ?_⟩, fun l h => (hm.ok x l h).2⟩
  · rintro ⟨l, hl⟩; exact (hm.ok x l hl).1
  · cases h : eval g ord n q x with
    | ok l => exact ⟨l, rfl⟩
    | err => exact absurd (hm.err x h) hF
    | panic => exact absurd (hm.panic x h) hF
    | loop => exact absurd h ht

mutual
/-- Converses are taken of predicates only, at any depth. -/
def Plain : Path P → Prop
  | .pred _ => True
  | .alt l => PlainAll l
  | .seq l => PlainAll l
  | .inv q => isPred q
  | .star q => Plain q
  | .plus q => Plain q
  | .opt q => Plain q
/-- All of them are plain. -/
def PlainAll : List (Path P) → Prop
  | [] => True
  | q :: l => Plain q ∧ PlainAll l
end

omit [DecidableEq T] [DecidableEq P] in
mutual
theorem plain_ok (g : Graph T P) (hg : ∀ t ∈ g.triples, g.subj t.1 = true ∧ g.subj t.2.2 = true) :
    ∀ (q : Path P), Plain q → ∀ x, g.subj x = true → ¬ Fails g q x
  | .pred p, _, x, hx => by simp [Fails, hx]
  | .alt l, h, x, hx => by simp only [Fails]; exact plainAlt_ok g hg l (by simpa [Plain] using h) x hx
  | .seq l, h, x, hx => by simp only [Fails]; exact plainSeq_ok g hg l (by simpa [Plain] using h) x hx
  | .inv q, h, x, hx => by simp only [Fails, not_not]; simpa [Plain] using h
  | .star q, h, x, hx => by
    simp only [Fails]
    rintro ⟨y, hy, hF⟩
    refine plain_ok g hg q (by simpa [Plain] using h) y ?_ hF
    rcases rel_terms g (.star q) x y (by simpa only [Rel] using hy) with rfl | h
    · exact hx
    · exact terms_subj g hg y h.2
  | .plus q, h, x, hx => by
    simp only [Fails]
    rintro ⟨y, hy, hF⟩
    refine plain_ok g hg q (by simpa [Plain] using h) y ?_ hF
    rcases rel_terms g (.star q) x y (by simpa only [Rel] using hy) with rfl | h
    · exact hx
    · exact terms_subj g hg y h.2
  | .opt q, h, x, hx => by simp only [Fails]; exact plain_ok g hg q (by simpa [Plain] using h) x hx
theorem plainAlt_ok (g : Graph T P) (hg : ∀ t ∈ g.triples, g.subj t.1 = true ∧ g.subj t.2.2 = true) :
    ∀ (l : List (Path P)), PlainAll l → ∀ x, g.subj x = true → ¬ FailsAlt g l x
  | [], _, x, _ => by simp [FailsAlt]
  | q :: l, h, x, hx => by
    simp only [PlainAll] at h
    simp only [FailsAlt, not_or]
    exact ⟨plain_ok g hg q h.1 x hx, plainAlt_ok g hg l h.2 x hx⟩
theorem plainSeq_ok (g : Graph T P) (hg : ∀ t ∈ g.triples, g.subj t.1 = true ∧ g.subj t.2.2 = true) :
    ∀ (l : List (Path P)), PlainAll l → ∀ x, g.subj x = true → ¬ FailsSeq g l x
  | [], _, x, _ => by simp [FailsSeq]
  | q :: l, h, x, hx => by
    simp only [PlainAll] at h
    simp only [FailsSeq, not_or]
    refine ⟨plain_ok g hg q h.1 x hx, ?_⟩
    rintro ⟨z, hz, hF⟩
    refine plainSeq_ok g hg l h.2 z ?_ hF
    rcases rel_terms g q x z hz with rfl | h
    · exact hx
    · exact terms_subj g hg z h.2
theorem terms_subj (g : Graph T P) (hg : ∀ t ∈ g.triples, g.subj t.1 = true ∧ g.subj t.2.2 = true) :
    ∀ y ∈ g.terms, g.subj y = true := by
  intro y hy
  simp only [Graph.terms, List.mem_flatMap, List.mem_cons, List.not_mem_nil, or_false] at hy
  obtain ⟨t, ht, rfl | rfl⟩ := hy
  · exact (hg t ht).1
  · exact (hg t ht).2
end

/-- **C33** for graphs without literals and paths without converses of paths: every path gives exactly the
related nodes from every node. -/
theorem C33_paths_without_literals (g : Graph T P) (ord : List T → List T) (hord : ∀ l, (ord l).Perm l)
    (n : Nat) (hn : 2 * g.triples.length + 1 ≤ n)
    (hg : ∀ t ∈ g.triples, g.subj t.1 = true ∧ g.subj t.2.2 = true) (q : Path P) (hq : Plain q)
    (x : T) (hx : g.subj x = true) :
    ∃ l, eval g ord n q x = .ok l ∧ l.Nodup ∧ ∀ y, y ∈ l ↔ Rel g q x y := by
  obtain ⟨l, hl⟩ := (C33_paths_partial g ord hord n hn q x).1.2 (plain_ok g hg q hq x hx)
  exact ⟨l, hl, (C33_paths_partial g ord hord n hn q x).2 l hl⟩

end

/-- A graph with a literal (`9`): `0` has the value `9` for the predicate `7`. -/
def litGraph : Graph Nat Nat := ⟨[(0, 7, 9)], fun t => decide (t ≠ 9)⟩

/-- **C33** is false of the code: a closure that reaches a literal is an error instead of the nodes related,
and the converse of a sequence is a panic. -/
theorem C33_refuted :
    (∀ n, 3 ≤ n → eval litGraph id n (.star (.pred 7)) 0 = .err) ∧ Rel litGraph (.star (.pred 7)) 0 9 ∧
      (∀ n, eval litGraph id n (.inv (.seq [.pred 7])) 9 = .panic) ∧ Rel litGraph (.inv (.seq [.pred 7])) 9 0 := by
  refine ⟨fun n hn => ?_, ?_, fun n => by simp [eval], ?_⟩
  · obtain ⟨m, rfl⟩ := Nat.exists_eq_add_of_le hn
    rw [show 3 + m = m + 1 + 1 + 1 by omega]
    simp only [eval]
    simp [closure, Graph.objects, litGraph, Out.bind, fresh]
  · simp only [Rel]; exact .single (by simp [litGraph])
  · simp only [Rel, RelSeq]; exact ⟨9, by simp [litGraph], rfl⟩

/-- C33 applies: a path with every operator. -/
example : eval (⟨[(0, 7, 1), (1, 7, 2), (2, 8, 9)], fun t => decide (t ≠ 9)⟩ : Graph Nat Nat) id 7
    (.seq [.plus (.pred 7), .alt [.pred 8, .inv (.pred 7), .opt (.pred 8)]]) 0 = .ok [0, 1, 9, 2] := by decide

#print axioms C33_paths_partial
#print axioms C33_paths_without_literals
#print axioms C33_refuted
#print axioms C34_terminates

end Shacl

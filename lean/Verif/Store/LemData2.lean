import Verif.Store.LemData

/-!
# Lemmas on the neighbourhoods that the engine sees
-/

namespace Store
variable {N P : Type} [DecidableEq N] [DecidableEq P]

theorem mem_shex_arcs (g : Shex.Graph N P) (node : N) (preds : List (Shex.Pred P))
    (q : Shex.Pred P) (v : N) :
    (q, v) ∈ g.arcs node preds ↔ q ∈ preds ∧
      ((q.direct = true ∧ g.isSubject node = true ∧ (node, q.iri, v) ∈ g.triples) ∨
        (q.direct = false ∧ (v, q.iri, node) ∈ g.triples)) := by
  obtain ⟨p, d⟩ := q
  simp only [Shex.Graph.arcs, List.mem_dedup, List.mem_append]
  constructor
  · rintro (h | h)
    · split at h
      · rename_i hs
        obtain ⟨⟨a, b, c⟩, ht, he⟩ := List.mem_filterMap.1 h
        split at he
        · rename_i hc
          simp only [Option.some.injEq, Prod.mk.injEq, Shex.Pred.mk.injEq] at he hc
          obtain ⟨⟨rfl, rfl⟩, rfl⟩ := he
          exact ⟨hc.2, Or.inl ⟨rfl, hs, hc.1 ▸ ht⟩⟩
        · cases he
      · cases h
    · obtain ⟨⟨a, b, c⟩, ht, he⟩ := List.mem_filterMap.1 h
      split at he
      · rename_i hc
        simp only [Option.some.injEq, Prod.mk.injEq, Shex.Pred.mk.injEq] at he hc
        obtain ⟨⟨rfl, rfl⟩, rfl⟩ := he
        exact ⟨hc.2, Or.inr ⟨rfl, hc.1 ▸ ht⟩⟩
      · cases he
  · rintro ⟨hp, ⟨hd, hs, ht⟩ | ⟨hd, ht⟩⟩
    · change d = true at hd
      subst hd
      left
      rw [if_pos hs]
      exact List.mem_filterMap.2 ⟨(node, p, v), ht, by simp [hp]⟩
    · change d = false at hd
      subst hd
      right
      exact List.mem_filterMap.2 ⟨(v, p, node), ht, by simp [hp]⟩

theorem mem_direct (preds : List (Shex.Pred P)) (p : P) :
    p ∈ (preds.filter fun p => p.direct).map (fun p => p.iri) ↔ (⟨p, true⟩ : Shex.Pred P) ∈ preds := by
  simp only [List.mem_map, List.mem_filter]
  constructor
  · rintro ⟨⟨q, d⟩, ⟨h1, h2⟩, h3⟩
    simp only at h2 h3
    subst h2 h3
    exact h1
  · exact fun h => ⟨_, ⟨h, rfl⟩, rfl⟩

theorem mem_inverse (preds : List (Shex.Pred P)) (p : P) :
    p ∈ (preds.filter fun p => !p.direct).map (fun p => p.iri) ↔
      (⟨p, false⟩ : Shex.Pred P) ∈ preds := by
  simp only [List.mem_map, List.mem_filter]
  constructor
  · rintro ⟨⟨q, d⟩, ⟨h1, h2⟩, h3⟩
    simp only [Bool.not_eq_true'] at h2 h3
    subst h2 h3
    exact h1
  · exact fun h => ⟨_, ⟨h, rfl⟩, rfl⟩

/-- The engine's neighbourhood of a node in a graph in memory is the one of the model of the
engine. -/
theorem memNeighs_spec (K : Kinds N) (g : List (Tr N P)) (node : N) (preds : List (Shex.Pred P)) :
    ∃ vs, memNeighs K g node preds =
        some (vs, (⟨g, K.isSubject⟩ : Shex.Graph N P).remainder node preds) ∧
      vs.Perm ((⟨g, K.isSubject⟩ : Shex.Graph N P).arcs node preds) := by
  set outs := (preds.filter fun p => p.direct).map fun p => p.iri with houts
  set ins := (preds.filter fun p => !p.direct).map fun p => p.iri with hins
  obtain ⟨o1, o2, o3⟩ := memOutgoing_spec g node outs
  obtain ⟨i1, i2⟩ := inArcs_spec ins (matching g none none (some node))
  have i3 : ∀ p n, (p, n) ∈ (inArcs ins (matching g none none (some node))).pairs ↔
      p ∈ ins ∧ (n, p, node) ∈ g := by
    intro p n
    rw [i2]
    refine and_congr_right fun _ => ⟨?_, fun h => ⟨node, (matching_mem ..).2 ⟨h, by simp [Fits]⟩⟩⟩
    rintro ⟨o, ho⟩
    obtain ⟨h, -, -, hf⟩ := (matching_mem ..).1 ho
    have : o = node := hf node rfl
    exact this ▸ h
  have hrem : (⟨g, K.isSubject⟩ : Shex.Graph N P).remainder node preds =
      if K.isSubject node then (memOutgoing g node outs).2 else [] := by
    unfold Shex.Graph.remainder
    simp only
    split
    · rw [o3]
      congr 1
      apply List.filter_congr
      intro t _
      rw [houts]
      simp only [mem_direct]
    · rfl
  have hempty : ins.isEmpty = true → ∀ p : P, (⟨p, false⟩ : Shex.Pred P) ∉ preds := by
    intro h p hp
    have : p ∈ ins := (mem_inverse preds p).2 hp
    rw [List.isEmpty_iff.1 h] at this
    cases this
  set first : List (Shex.Pred P × N) := if K.isSubject node then
    (memOutgoing g node outs).1.pairs.map fun x => (⟨x.1, true⟩, x.2) else [] with hfirst
  set second : List (Shex.Pred P × N) := if ins.isEmpty then [] else
    (inArcs ins (matching g none none (some node))).pairs.map fun x => (⟨x.1, false⟩, x.2)
    with hsecond
  refine ⟨first ++ second, ?_, ?_⟩
  · unfold memNeighs neighsBy
    rw [← houts, ← hins, hrem, hfirst, hsecond]
    by_cases hs : K.isSubject node = true <;> by_cases hI : ins.isEmpty = true <;>
      simp only [hs, hI, ↓reduceIte, Option.map_some, List.append_nil, List.nil_append,
        Bool.false_eq_true]
  · have m1 : ∀ q v, (q, v) ∈ first ↔ q.direct = true ∧ K.isSubject node = true ∧
        (⟨q.iri, true⟩ : Shex.Pred P) ∈ preds ∧ (node, q.iri, v) ∈ g := by
      rintro ⟨p, d⟩ v
      rw [hfirst]
      split
      · rename_i hs
        simp only [List.mem_map, Prod.mk.injEq, Shex.Pred.mk.injEq, hs, true_and]
        constructor
        · rintro ⟨⟨q, w⟩, hx, ⟨rfl, rfl⟩, rfl⟩
          obtain ⟨h1, h2⟩ := (o2 _ _).1 hx
          exact ⟨rfl, (mem_direct ..).1 h1, h2⟩
        · rintro ⟨rfl, h1, h2⟩
          exact ⟨(p, v), (o2 _ _).2 ⟨(mem_direct ..).2 h1, h2⟩, ⟨rfl, rfl⟩, rfl⟩
      · rename_i hs
        simp [hs]
    have m2 : ∀ q v, (q, v) ∈ second ↔ q.direct = false ∧
        (⟨q.iri, false⟩ : Shex.Pred P) ∈ preds ∧ (v, q.iri, node) ∈ g := by
      rintro ⟨p, d⟩ v
      rw [hsecond]
      split
      · rename_i hs
        have := hempty hs
        simp [this]
      · simp only [List.mem_map, Prod.mk.injEq, Shex.Pred.mk.injEq]
        constructor
        · rintro ⟨⟨q, w⟩, hx, ⟨rfl, rfl⟩, rfl⟩
          obtain ⟨h1, h2⟩ := (i3 _ _).1 hx
          exact ⟨rfl, (mem_inverse ..).1 h1, h2⟩
        · rintro ⟨rfl, h1, h2⟩
          exact ⟨(p, v), (i3 _ _).2 ⟨(mem_inverse ..).2 h1, h2⟩, ⟨rfl, rfl⟩, rfl⟩
    have n1 : first.Nodup := by
      rw [hfirst]
      split
      · refine (Arcs.nodup_pairs o1).map ?_
        rintro ⟨a, b⟩ ⟨c, d⟩ h
        simpa using h
      · exact List.nodup_nil
    have n2 : second.Nodup := by
      rw [hsecond]
      split
      · exact List.nodup_nil
      · refine (Arcs.nodup_pairs i1).map ?_
        rintro ⟨a, b⟩ ⟨c, d⟩ h
        simpa using h
    have n3 : (first ++ second).Nodup := by
      refine List.nodup_append.2 ⟨n1, n2, ?_⟩
      rintro ⟨q, v⟩ h1 y h2 rfl
      rw [m1] at h1
      rw [m2] at h2
      simp [h1.1] at h2
    rw [List.perm_ext_iff_of_nodup n3 (by unfold Shex.Graph.arcs; exact List.nodup_dedup _)]
    rintro ⟨⟨p, d⟩, v⟩
    rw [List.mem_append, m1, m2, mem_shex_arcs]
    cases d <;> simp
    tauto

end Store

import Verif.Shacl.PrimProps

/-!
# Properties: SHACL constraints about closed shapes and pairs of properties

C41.
-/

namespace Shacl
open Lit

section
variable {D : Type} {E : Env D} (g : Graph Term Str) (al : List Str) (x : Term) (hx : E.obj x ≠ none)
  (hlit : x.isLit = false) (vs : List Term)

theorem mem_values (p : Str) (t : Term) : t ∈ Graph.values g x p ↔ (x, p, t) ∈ g.triples := by
  simp only [Graph.values, List.mem_map, List.mem_filter, decide_eq_true_eq]
  constructor
  · rintro ⟨⟨s, p', o'⟩, ⟨h, rfl, rfl⟩, rfl⟩; exact h
  · intro h; exact ⟨_, ⟨h, rfl, rfl⟩, rfl⟩

include hx hlit

open Classical in
/-- **C41** (partial), `sh:closed`: the triples of the focus node are reported whose predicate is neither the path of a
property shape nor ignored.

Missing: it is checked for the focus node, not for the value nodes, which differ for property shapes
(`C41_closed_refuted`). -/
theorem C41_closed_partial (paths : List (Path Str)) (ignored : List Str) :
    Prim.eval E g (allowedOf paths ignored) x vs (.closed true) =
      .ok ((g.triples.filter fun t => decide (t.1 = x ∧ ¬ (.pred t.2.1 ∈ paths ∨ t.2.1 ∈ ignored))).map
        fun t => ⟨E.obj t.2.2, some t.2.1⟩) := by
  have hal : ∀ p, p ∈ allowedOf paths ignored ↔ .pred p ∈ paths ∨ p ∈ ignored := by
    intro p
    simp only [allowedOf, List.mem_append, List.mem_filterMap]
    constructor
    · rintro (⟨q, hq, e⟩ | h)
      · cases q <;> simp only [Option.some.injEq, reduceCtorEq] at e
        subst e; exact Or.inl hq
      · exact Or.inr h
    · rintro (h | h)
      · exact Or.inl ⟨_, h, rfl⟩
      · exact Or.inr h
  simp only [Prim.eval, if_true, Env.closedHits, hlit, Bool.false_eq_true, if_false]
  cases ho : E.obj x with
  | none => exact absurd ho hx
  | some o =>
    simp only [Outcome.ok.injEq]
    congr 1
    apply List.filter_congr
    intro t _
    rw [Bool.eq_iff_iff, decide_eq_true_eq, decide_eq_true_eq, hal]

/-- **C41** (partial), `sh:equals`: the terms are reported that are value nodes but not values of the property, or the
reverse.

Missing: literals as focus nodes, which are skipped (`C41_literal_focus_refuted`). -/
theorem C41_equals_partial (hvs : vs.Nodup) (p : Str) : ∃ ts : List Term, ts.Nodup ∧
    (∀ t, t ∈ ts ↔ ((x, p, t) ∈ g.triples ∧ t ∉ vs) ∨ (t ∈ vs ∧ (x, p, t) ∉ g.triples)) ∧
    Prim.eval E g al x vs (.equals p) = .ok (ts.map fun t => ⟨E.obj t, none⟩) := by
  refine ⟨((Graph.values g x p).dedup.filter fun t => !vs.contains t) ++
    (vs.filter fun t => !(Graph.values g x p).dedup.contains t), ?_, ?_, ?_⟩
  · rw [List.nodup_append]
    refine ⟨(List.nodup_dedup _).filter _, hvs.filter _, ?_⟩
    intro a ha b hb e
    subst e
    simp only [List.mem_filter, Bool.not_eq_true', ← Bool.not_eq_true, List.contains_iff_mem] at ha hb
    exact ha.2 hb.1
  · intro t
    simp only [List.mem_append, List.mem_filter, List.mem_dedup, mem_values, Bool.not_eq_true', ← Bool.not_eq_true,
      List.contains_iff_mem]
  · simp only [Prim.eval, Env.equalsHits, hlit, Bool.false_eq_true, if_false]
    cases ho : E.obj x with
    | none => exact absurd ho hx
    | some o => simp

omit hx hlit in
theorem shared_iff {v : Term} (hv : Stable E v) (hvo : E.obj v ≠ none) : ∀ (ts : List Term),
    (∀ t ∈ ts, Stable E t ∧ E.obj t ≠ none) → ∃ b, E.sharedLoop v ts = .ok b ∧ (b = true ↔ v ∈ ts) := by
  intro ts
  induction ts with
  | nil => intro _; exact ⟨false, rfl, by simp⟩
  | cons t ts ih =>
    intro h
    obtain ⟨ht, hto⟩ := h t List.mem_cons_self
    obtain ⟨b, h1, h2⟩ := ih fun t ht => h t (List.mem_cons_of_mem _ ht)
    obtain ⟨o, ho⟩ := Option.ne_none_iff_exists'.1 hvo
    obtain ⟨o', ho'⟩ := Option.ne_none_iff_exists'.1 hto
    simp only [Env.sharedLoop, ho, ho']
    have hsame := stable_same hv ht ho ho'
    by_cases e : v = t
    · exact ⟨true, by rw [if_pos (hsame.2 e)], by simp [e]⟩
    · refine ⟨b, by rw [if_neg (fun h => e (hsame.1 h))]; exact h1, ?_⟩
      simp [h2, e]

/-- **C41** (partial), `sh:disjoint`: the value nodes are reported that are values of the property.

Missing: literals as focus nodes, for which it panics, and literals that the conversion changes, which are compared by
value (`C41_disjoint_refuted`). -/
theorem C41_disjoint_partial (p : Str) (hv : ∀ v ∈ vs, Stable E v ∧ E.obj v ≠ none)
    (ht : ∀ t, (x, p, t) ∈ g.triples → Stable E t ∧ E.obj t ≠ none) :
    Prim.eval E g al x vs (.disjoint p) = .ok (violations E vs fun v => (x, p, v) ∈ g.triples) := by
  simp only [Prim.eval]
  cases ho : E.obj x with
  | none => exact absurd ho hx
  | some o =>
    simp only
    clear ho hx
    induction vs with
    | nil => rfl
    | cons v vs ih =>
      have ih := ih fun v hv' => hv v (List.mem_cons_of_mem _ hv')
      obtain ⟨hvp, hvo⟩ := hv v List.mem_cons_self
      obtain ⟨b, h1, h2⟩ := shared_iff hvp hvo (Graph.values g x p) fun t h => ht t ((mem_values g x p t).1 h)
      rw [mem_values] at h2
      rw [Env.disjointLoop, if_neg (by simp [hlit]), h1]
      simp only [ih]
      unfold violations
      rw [List.filter_cons]
      cases b with
      | true =>
        have h3 := h2.1 rfl
        simp [h3]
      | false =>
        have h3 : (x, p, v) ∉ g.triples := by simpa using h2
        simp [h3]

open Classical in
/-- The pairs of a value of the property and a value node that are not in order, each with one result for the value
node. -/
noncomputable def disorder (E : Env D) (os vs : List Term) (InOrder : Term → Term → Prop) : List (Hit D) :=
  ((os.flatMap fun o => vs.map fun v => (o, v)).filter fun ov => decide (¬ InOrder ov.2 ov.1)).map
    fun ov => ⟨E.obj ov.2, none⟩

omit hx hlit in
theorem lessInner_eq (strict : Bool) (node1 : Ob D) (Bad : Term → Prop) (vs : List Term) (hv : ∀ v ∈ vs, ∃ o, E.obj v = some o ∧
    (outOfOrder strict (E.cmp o node1) = true ↔ Bad v)) : E.lessInner strict node1 vs = .ok (violations E vs Bad) := by
  induction vs with
  | nil => rfl
  | cons v vs ih =>
    obtain ⟨o, ho, hb⟩ := hv v List.mem_cons_self
    rw [Env.lessInner, ho]
    simp only [ih fun v hv' => hv v (List.mem_cons_of_mem _ hv')]
    unfold violations
    rw [List.filter_cons]
    by_cases h : Bad v
    · rw [if_pos (hb.2 h), if_pos (by simpa using h)]
      simp [ho]
    · rw [if_neg (fun h' => h (hb.1 h')), if_neg (by simpa using h)]

open Classical in
omit hx hlit in
theorem lessLoop_eq (strict : Bool) (InOrder : Term → Term → Prop) (vs os : List Term)
    (h : ∀ t ∈ os, ∃ n, E.obj t = some n ∧ ∀ v ∈ vs, ∃ o, E.obj v = some o ∧
      (outOfOrder strict (E.cmp o n) = true ↔ ¬ InOrder v t)) :
    E.lessLoop strict vs os = .ok (disorder E os vs InOrder) := by
  induction os with
  | nil => rfl
  | cons t os ih =>
    obtain ⟨n, hn, hv⟩ := h t List.mem_cons_self
    rw [Env.lessLoop, hn]
    simp only [lessInner_eq strict n (fun v => ¬ InOrder v t) vs hv, ih fun t ht => h t (List.mem_cons_of_mem _ ht)]
    unfold disorder violations
    rw [List.flatMap_cons, List.filter_append, List.map_append]
    congr 2
    rw [List.filter_map, List.map_map]
    simp only [Function.comp_def]
    congr 1
    apply List.filter_congr
    intro v _
    by_cases h : InOrder v t <;> simp [h]

/-- Values of C41 for `sh:lessThan`: literals for numbers, all kept as texts or none. -/
def Comparables (E : Env D) (kept : Prop) (ts : List Term) : Prop :=
  ∀ t ∈ ts, ∃ r, t = .lit r ∧ Numeric r ∧ Readable E.X r ∧ (Kept r ↔ kept)

/-- **C41** (partial), `sh:lessThan` and `sh:lessThanOrEquals`: there is a result for each pair of a value of the property
and a value node that are not numbers in this order.

Missing: values that are not numbers; IRIs are compared too (`C41_less_than_refuted`). -/
theorem C41_less_than_partial (p : Str) (kept : Prop) (hv : Comparables E kept vs)
    (hp : Comparables E kept (Graph.values g x p)) (hq : ∀ r, (x, p, .lit r) ∈ g.triples → ∃ q, Denotes E.X r q) :
    Prim.eval E g al x vs (.lessThan p) = .ok (disorder E (Graph.values g x p) vs fun v o =>
      ∃ r q r' q', v = .lit r ∧ o = .lit r' ∧ Denotes E.X r q ∧ Denotes E.X r' q' ∧ q < q') ∧
    Prim.eval E g al x vs (.lessThanOrEquals p) = .ok (disorder E (Graph.values g x p) vs fun v o =>
      ∃ r q r' q', v = .lit r ∧ o = .lit r' ∧ Denotes E.X r q ∧ Denotes E.X r' q' ∧ q ≤ q') := by
  have huniq : ∀ r : RdfLiteral, Numeric r → Readable E.X r → ∀ q q', Denotes E.X r q → Denotes E.X r q' → q = q' := by
    intro r hn hr q q' h h'
    have hdt : ∃ d, r.dt = some d := by
      rcases hn.2 with ⟨k, h⟩ | h | h | h <;> exact ⟨_, h⟩
    obtain ⟨d, hd⟩ := hdt
    obtain ⟨n, h1, h2⟩ := (denotes_iff hn hr hd q).1 h
    obtain ⟨n', h1', h2'⟩ := (denotes_iff hn hr hd q').1 h'
    rw [h1] at h1'
    cases h1'
    rw [h2] at h2'
    exact Option.some.inj h2'
  have hconv : ∀ r : RdfLiteral, Numeric r → ∃ l, Literal.ofRdf E.X E.norm r = some l := by
    intro r hn
    have hdt : ∃ d, r.dt = some d := by
      rcases hn.2 with ⟨k, h⟩ | h | h | h <;> exact ⟨_, h⟩
    obtain ⟨d, hd⟩ := hdt
    rcases ofRdf_numeric (E := E) hn hd with ⟨n, _, h⟩ | ⟨_, e, h⟩ <;> exact ⟨_, h⟩
  have main : ∀ (strict : Bool) (R : ℚ → ℚ → Prop), (∀ q q', outOfOrder strict (some (cmpQ q q')) = true ↔ ¬ R q q') →
      E.lessHits strict g p x vs = .ok (disorder E (Graph.values g x p) vs fun v o =>
        ∃ r q r' q', v = .lit r ∧ o = .lit r' ∧ Denotes E.X r q ∧ Denotes E.X r' q' ∧ R q q') := by
    intro strict R hR
    simp only [Env.lessHits, hlit, Bool.false_eq_true, if_false]
    cases ho : E.obj x with
    | none => exact absurd ho hx
    | some o =>
      simp only
      apply lessLoop_eq
      intro t ht
      obtain ⟨r', rfl, hn', hr', hk'⟩ := hp t ht
      obtain ⟨b, hb⟩ := hconv r' hn'
      obtain ⟨q', hq'⟩ := hq r' ((mem_values g x p _).1 ht)
      refine ⟨.lit b, by simp [Env.obj, hb], ?_⟩
      intro v hvm
      obtain ⟨r, rfl, hn, hr, hk⟩ := hv v hvm
      obtain ⟨l, hl⟩ := hconv r hn
      refine ⟨.lit l, by simp [Env.obj, hl], ?_⟩
      simp only [Env.cmp]
      rcases cmp_denoted hn hr hn' hr' (hk.trans hk'.symm) hb hq' hl with ⟨q, hd, h1, _⟩ | ⟨hd, h1, _⟩
      · rw [h1, hR]
        apply not_congr
        constructor
        · intro h; exact ⟨r, q, r', q', rfl, rfl, hd, hq', h⟩
        · rintro ⟨r1, q1, r2, q2, e1, e2, d1, d2, h⟩
          cases e1; cases e2
          rw [huniq r hn hr q q1 hd d1, huniq r' hn' hr' q' q2 hq' d2]
          exact h
      · rw [h1]
        simp only [outOfOrder, true_iff]
        rintro ⟨r1, q1, r2, q2, e1, e2, d1, d2, h⟩
        cases e1
        exact hd q1 d1
  constructor
  · apply main true
    intro q q'
    unfold cmpQ
    split
    · rename_i h; simp [outOfOrder, h]
    · rename_i h
      split <;> simp [outOfOrder, h]
  · apply main false
    intro q q'
    unfold cmpQ
    split
    · rename_i h; simp [outOfOrder, le_of_lt h]
    · rename_i h
      split
      · rename_i h'; simp [outOfOrder, h']
      · rename_i h'
        simp only [outOfOrder, true_iff, not_le]
        exact lt_of_le_of_ne (not_lt.1 h) (Ne.symm h')

end

/-! ## What fails, and examples -/

/-- **C41** is false of the code for `sh:closed` with a path: the value node `y` of `x` has a property `q` that is not
allowed, and is not reported; the property `p` of the focus node is. -/
theorem C41_closed_refuted :
    Prim.eval exEnv (data [(.iri ['x'], ['p'], .iri ['y']), (.iri ['y'], ['q'], .iri ['z'])]) [] (.iri ['x']) [.iri ['y']]
      (.closed true) = .ok [⟨some (.iri ['y']), some ['p']⟩] := rfl

/-- **C41** is false of the code for literals as focus nodes: `sh:equals` reports nothing though the literal is a value node
and has no properties; `sh:disjoint` panics. -/
theorem C41_literal_focus_refuted :
    Prim.eval exEnv (data []) [] (.lit ⟨['a'], none, none⟩) [.lit ⟨['a'], none, none⟩] (.equals ['p']) = .ok [] ∧
    Prim.eval exEnv (data []) [] (.lit ⟨['a'], none, none⟩) [.lit ⟨['a'], none, none⟩] (.disjoint ['p']) = .panic :=
  ⟨rfl, rfl⟩

/-- **C41** is false of the code for `sh:disjoint`: `"5"^^xsd:byte` is reported though the only value of the property is
`"05"^^xsd:byte`. -/
theorem C41_disjoint_refuted :
    Prim.eval exEnv (data [(.iri ['x'], ['p'], .lit (intLit .byte "05"))]) [] (.iri ['x']) [.lit (intLit .byte "5")]
      (.disjoint ['p']) = .ok [⟨some (.lit (.num (.int .byte 5))), none⟩] := rfl

/-- **C41** is false of the code for `sh:lessThan`: IRIs are taken to be in order. -/
theorem C41_less_than_refuted :
    Prim.eval exEnv (data [(.iri ['x'], ['p'], .iri ['b'])]) [] (.iri ['x']) [.iri ['a']] (.lessThan ['p']) = .ok [] := rfl

/-- Results of C41. -/
example :
    Prim.eval exEnv (data [(.iri ['x'], ['p'], .iri ['y']), (.iri ['x'], ['q'], .iri ['z'])])
      (allowedOf [.pred ['p'], .inv (.pred ['q'])] []) (.iri ['x']) [.iri ['x']]
      (.closed true) = .ok [⟨some (.iri ['z']), some ['q']⟩] ∧
    Prim.eval exEnv (data [(.iri ['x'], ['p'], .iri ['y'])]) [] (.iri ['x']) [.iri ['z'], .iri ['y']] (.equals ['p']) =
      .ok [⟨some (.iri ['z']), none⟩] ∧
    Prim.eval exEnv (data [(.iri ['x'], ['p'], .iri ['y'])]) [] (.iri ['x']) [.iri ['z'], .iri ['y']] (.disjoint ['p']) =
      .ok [⟨some (.iri ['y']), none⟩] ∧
    Prim.eval exEnv (data [(.iri ['x'], ['p'], .lit (intLit .integer "5"))]) [] (.iri ['x'])
      [.lit (intLit .integer "7"), .lit (intLit .integer "3")] (.lessThan ['p']) =
      .ok [⟨some (.lit (.typed ['7'] (.int .integer))), none⟩] := ⟨rfl, rfl, rfl, rfl⟩

#print axioms C41_closed_partial
#print axioms C41_equals_partial
#print axioms C41_disjoint_partial
#print axioms C41_less_than_partial
#print axioms C41_closed_refuted
#print axioms C41_literal_focus_refuted
#print axioms C41_disjoint_refuted
#print axioms C41_less_than_refuted

end Shacl

import Verif.Shacl.SparqlProps

/-!
# Properties: the two modes of SHACL validation

C126: the focus nodes in the SPARQL mode; when both modes report the same.
-/

namespace Shacl
open Lit

section
variable {D : Type} {E : Env D} {O : Operators} {Q : Answers} (g : Graph Term Str) (hQ : Correct O g Q)
include hQ

/-- **C126**, targets. The focus nodes of a shape in the SPARQL mode are those selected by one of its targets: the node of
a node target unless it is a blank node, the subjects of triples with a predicate, the objects of such triples, and the
instances of classes, with subclasses of any depth. -/
theorem C126_targets (ts : List (Target D)) (hc : ∀ c, .cls c ∈ ts ∨ .implicit c ∈ ts → ∃ s, c = .iri s) (x : Term) :
    (E.focusSparql Q ts).Nodup ∧
    (x ∈ E.focusSparql Q ts ↔
      (∃ o, .node o ∈ ts ∧ x = E.term o ∧ ∀ b, x ≠ .bnode b) ∨
      (∃ p y, .subjectsOf p ∈ ts ∧ (x, p, y) ∈ g.triples) ∨
      (∃ p y, .objectsOf p ∈ ts ∧ (y, p, x) ∈ g.triples) ∨
      ∃ c, (.cls (.iri c) ∈ ts ∨ .implicit (.iri c) ∈ ts) ∧ Instance g x (.iri c)) := by
  refine ⟨List.nodup_dedup _, ?_⟩
  simp only [Env.focusSparql, List.mem_dedup, List.mem_flatMap]
  have hnode : ∀ o, x ∈ (E.targetSparql Q (.node o)).getD [] ↔ x = E.term o ∧ ∀ b, x ≠ .bnode b := by
    intro o
    simp only [Env.targetSparql]
    cases h : E.term o <;> simp [Term.isBlank]
    · rintro rfl b; simp
    · rintro rfl; simp
    · rintro rfl b; simp
  have hs : ∀ p, x ∈ (E.targetSparql Q (.subjectsOf p)).getD [] ↔ ∃ y, (x, p, y) ∈ g.triples := by
    intro p
    obtain ⟨rows, h1, _, h2⟩ := hQ.distinct vThis ⟨some (.var (.named vThis), .iri p, .var (.named vAny)), none, none⟩
    simp only [Env.targetSparql, Answers.values, h1, Option.map_some, Option.getD_some, List.mem_dedup,
      List.mem_filterMap]
    have hf : ∀ t : Term × Str × Term, fits (.var (.named vThis)) (.iri p) (.var (.named vAny)) t =
        if t.2.1 = p then some (Function.update (single vThis t.1) (.named vAny) (some (.term t.2.2))) else none := by
      intro t
      by_cases h : t.2.1 = p <;> simp [fits, QTerm.fit, QPred.fit, h, single, vThis, vAny, Function.update]
    constructor
    · rintro ⟨r, hr, e⟩
      obtain ⟨μ, hμ, rfl⟩ := (h2 r).1 hr
      simp only [solutions, List.mem_filterMap, hf] at hμ
      obtain ⟨⟨s, q, o⟩, hm, hμ⟩ := hμ
      by_cases hq : q = p
      · simp only [hq, if_true, Option.some.injEq] at hμ
        subst hμ hq
        simp [row, single, vThis, vAny, Function.update, Val.toTerm] at e
        subst e
        exact ⟨o, hm⟩
      · simp [hq] at hμ
    · rintro ⟨y, hm⟩
      refine ⟨row [vThis] (Function.update (single vThis x) (.named vAny) (some (.term y))), (h2 _).2 ⟨_, ?_, rfl⟩, ?_⟩
      · simp only [solutions, List.mem_filterMap, hf]
        exact ⟨_, hm, by simp⟩
      · simp [row, single, vThis, vAny, Function.update, Val.toTerm]
  have ho : ∀ p, x ∈ (E.targetSparql Q (.objectsOf p)).getD [] ↔ ∃ y, (y, p, x) ∈ g.triples := by
    intro p
    obtain ⟨rows, h1, _, h2⟩ := hQ.distinct vThis ⟨some (.var (.named vAny), .iri p, .var (.named vThis)), none, none⟩
    simp only [Env.targetSparql, Answers.values, h1, Option.map_some, Option.getD_some, List.mem_dedup,
      List.mem_filterMap]
    have hf : ∀ t : Term × Str × Term, fits (.var (.named vAny)) (.iri p) (.var (.named vThis)) t =
        if t.2.1 = p then some (Function.update (single vAny t.1) (.named vThis) (some (.term t.2.2))) else none := by
      intro t
      by_cases h : t.2.1 = p <;> simp [fits, QTerm.fit, QPred.fit, h, single, vThis, vAny, Function.update]
    constructor
    · rintro ⟨r, hr, e⟩
      obtain ⟨μ, hμ, rfl⟩ := (h2 r).1 hr
      simp only [solutions, List.mem_filterMap, hf] at hμ
      obtain ⟨⟨s, q, o⟩, hm, hμ⟩ := hμ
      by_cases hq : q = p
      · simp only [hq, if_true, Option.some.injEq] at hμ
        subst hμ hq
        simp [row, Val.toTerm] at e
        subst e
        exact ⟨s, hm⟩
      · simp [hq] at hμ
    · rintro ⟨y, hm⟩
      refine ⟨row [vThis] (Function.update (single vAny y) (.named vThis) (some (.term x))), (h2 _).2 ⟨_, ?_, rfl⟩, ?_⟩
      · simp only [solutions, List.mem_filterMap, hf]
        exact ⟨_, hm, by simp⟩
      · simp [row, Val.toTerm]
  have hcl : ∀ c : Str, x ∈ (E.targetSparql Q (.cls (.iri c))).getD [] ↔ Instance g x (.iri c) := by
    intro c
    obtain ⟨rows, h1, _, h2⟩ := hQ.distinctPath vThis rdfType (.star (.pred subClassOf)) (.iri c)
    simp only [Env.targetSparql, Env.ground, Option.bind_some, Answers.values, instancePath, h1, Option.map_some,
      Option.getD_some, List.mem_dedup, List.mem_filterMap]
    have hrel : ∀ v, Rel g (.seq [.pred rdfType, .star (.pred subClassOf)]) v (.iri c) ↔ Instance g v (.iri c) := by
      intro v
      simp only [Rel, RelSeq, Instance]
      constructor
      · rintro ⟨z, h1, w, h2, rfl⟩; exact ⟨z, h1, h2⟩
      · rintro ⟨z, h1, h2⟩; exact ⟨z, h1, _, h2, rfl⟩
    constructor
    · rintro ⟨r, hr, e⟩
      obtain ⟨y, hy, rfl⟩ := (h2 r).1 hr
      simp only [if_true, Option.some.injEq] at e
      subst e
      exact (hrel _).1 hy
    · intro h
      exact ⟨_, (h2 _).2 ⟨x, (hrel x).2 h, rfl⟩, by simp⟩
  constructor
  · rintro ⟨t, ht, hx⟩
    cases t with
    | node o => exact Or.inl ⟨o, ht, (hnode o).1 hx⟩
    | subjectsOf p => obtain ⟨y, h⟩ := (hs p).1 hx; exact Or.inr (Or.inl ⟨p, y, ht, h⟩)
    | objectsOf p => obtain ⟨y, h⟩ := (ho p).1 hx; exact Or.inr (Or.inr (Or.inl ⟨p, y, ht, h⟩))
    | cls c =>
      obtain ⟨s, rfl⟩ := hc c (Or.inl ht)
      exact Or.inr (Or.inr (Or.inr ⟨s, Or.inl ht, (hcl s).1 hx⟩))
    | implicit c =>
      obtain ⟨s, rfl⟩ := hc c (Or.inr ht)
      exact Or.inr (Or.inr (Or.inr ⟨s, Or.inr ht, (hcl s).1 hx⟩))
  · rintro (⟨o, ht, h⟩ | ⟨p, y, ht, h⟩ | ⟨p, y, ht, h⟩ | ⟨c, ht | ht, h⟩)
    · exact ⟨_, ht, (hnode o).2 h⟩
    · exact ⟨_, ht, (hs p).2 ⟨y, h⟩⟩
    · exact ⟨_, ht, (ho p).2 ⟨y, h⟩⟩
    · exact ⟨_, ht, (hcl c).2 h⟩
    · exact ⟨_, ht, (hcl c).2 h⟩

end

/-! ## Agreement -/

section
variable {D : Type} (E : Env D)

/-- Both modes end without error and report the same, in any order. -/
def SameResults (Q : Answers) (g : Graph Term Str) (al : List Str) (x : Term) (vs : List Term) (c : Prim D) : Prop :=
  ∃ hs hs', Prim.eval E g al x vs c = .ok hs ∧ Prim.evalSparql E Q g al x vs c = .ok hs' ∧ hs'.Perm hs

/-- The store compares literals by the numbers they denote; others are not less than any. -/
def ByNumber (O : Operators) (ts : List Term) : Prop :=
  ∀ r r', .lit r ∈ ts → .lit r' ∈ ts →
    (O.lt r r' = some true ↔ ∃ q q', Denotes E.X r q ∧ Denotes E.X r' q' ∧ q < q') ∧
    (O.le r r' = some true ↔ ∃ q q', Denotes E.X r q ∧ Denotes E.X r' q' ∧ q ≤ q')

theorem perm_swap {A B C : Type} (as : List A) (bs : List B) (f : A → B → List C) :
    (as.flatMap fun a => bs.flatMap (f a)).Perm (bs.flatMap fun b => as.flatMap fun a => f a b) := by
  induction as with
  | nil => simp
  | cons a as ih =>
    simp only [List.flatMap_cons]
    refine (List.Perm.append_left _ ih).trans ?_
    clear ih
    induction bs with
    | nil => simp
    | cons b bs ih =>
      simp only [List.flatMap_cons, List.append_assoc]
      refine List.Perm.append_left _ ?_
      refine List.Perm.trans ?_ (List.Perm.append_left _ ih)
      rw [← List.append_assoc, ← List.append_assoc]
      exact List.Perm.append_right _ List.perm_append_comm

variable {E} {O : Operators} {Q : Answers} (g : Graph Term Str) (hQ : Correct O g Q) (al : List Str)
  (x : Term) (hx : E.obj x ≠ none) (hb : x.isBlank = false) (hlit : x.isLit = false) (vs : List Term)
  (hv : ∀ v ∈ vs, (Stable E v ∧ E.obj v ≠ none) ∧ v.isBlank = false)
include hQ hx hb hlit hv

/-- **C126** (partial). For a focus node that is an IRI, and value nodes that are IRIs or literals that the conversion does
not change, both modes report the same for constraints on node kinds, closed shapes, equal and disjoint properties; on
lengths if the texts are ASCII; on classes if subclasses have no subclasses of their own; and on ranges and order if the
store compares literals as the library does.

Missing: the other cases, where they differ (`C126_modes_refuted`). -/
theorem C126_modes_partial :
    (∀ k, SameResults E Q g al x vs (.nodeKind k)) ∧
    (∀ b, SameResults E Q g al x vs (.closed b)) ∧
    (vs.Nodup → ∀ p, SameResults E Q g al x vs (.equals p)) ∧
    (∀ p, (∀ t, (x, p, t) ∈ g.triples → Stable E t ∧ E.obj t ≠ none) → SameResults E Q g al x vs (.disjoint p)) ∧
    (∀ n : Nat, n < 2 ^ 64 → (∀ v ∈ vs, ∀ s, textOf v = some s → ∀ c ∈ s, c.toNat < 128) →
      SameResults E Q g al x vs (.minLength n) ∧ SameResults E Q g al x vs (.maxLength n)) ∧
    (∀ ts, g = data ts → g.Rdf → ∀ c : Str, (∀ s s', (s, subClassOf, .iri c) ∈ ts → (s', subClassOf, s) ∈ ts →
        s' = .iri c ∨ (s', subClassOf, .iri c) ∈ ts) → SameResults E Q g al x vs (.cls (.iri c))) ∧
    (∀ rb b qb, Stable E (.lit rb) → Literal.ofRdf E.X E.norm rb = some b → Denotes E.X rb qb → Comparable E rb vs →
      ByNumber E O (.lit rb :: vs) →
      SameResults E Q g al x vs (.minExclusive b) ∧ SameResults E Q g al x vs (.minInclusive b) ∧
      SameResults E Q g al x vs (.maxExclusive b) ∧ SameResults E Q g al x vs (.maxInclusive b)) ∧
    ∀ p kept, Comparables E kept vs → Comparables E kept (g.values x p) →
      (∀ r, (x, p, .lit r) ∈ g.triples → ∃ q, Denotes E.X r q) → ByNumber E O (vs ++ g.values x p) →
      SameResults E Q g al x vs (.lessThan p) ∧ SameResults E Q g al x vs (.lessThanOrEquals p) := by
  have hst := fun v h => (hv v h).1
  have hnb := fun v h => (hv v h).2
  refine ⟨fun k => ?_, fun b => ?_, fun hnd p => ?_, fun p ht => ?_, fun n hn ha => ?_, fun ts e hg c hflat => ?_,
    fun rb b qb hs hob hq hcmp hnum => ?_, fun p kept hc1 hc2 hd hnum => ?_⟩
  · exact ⟨_, _, C73_node_kinds g al x hx vs k, C125_node_kinds g hQ al x hx vs k hst, List.Perm.refl _⟩
  · cases b with
    | false => exact ⟨[], [], rfl, rfl, List.Perm.refl _⟩
    | true =>
      obtain ⟨hs, h1, h2⟩ := C125_closed g hQ al x hx vs
      refine ⟨_, hs, ?_, h1, h2⟩
      simp only [Prim.eval, if_true, Env.closedHits, hlit, Bool.false_eq_true, if_false]
      cases ho : E.obj x with
      | none => exact absurd ho hx
      | some o => rfl
  · obtain ⟨ts, n1, m1, e1⟩ := C41_equals_partial g al x hx hlit vs hnd p
    obtain ⟨ts', n2, m2, e2⟩ := C125_equals_partial g hQ al x hx vs hb hnd p
    refine ⟨_, _, e1, e2, List.Perm.map _ ?_⟩
    rw [List.perm_ext_iff_of_nodup n2 n1]
    intro t
    rw [m1, m2]
  · exact ⟨_, _, C41_disjoint_partial g al x hx hlit vs p hst ht, C125_disjoint_partial g hQ al x hx vs hb hnb p,
      List.Perm.refl _⟩
  · obtain ⟨a1, a2⟩ := C74_lengths_partial g al x hx vs n hn ha
    obtain ⟨b1, b2, _⟩ := C125_strings_partial g hQ al x hx vs n [] none hst
    exact ⟨⟨_, _, a1, b1, List.Perm.refl _⟩, ⟨_, _, a2, b2, List.Perm.refl _⟩⟩
  · subst e
    exact ⟨_, _, (C76_class_partial al x hx vs ts hg (.iri c) trivial).2 hflat,
      C125_class_partial _ hQ al x hx vs hg c hnb, List.Perm.refl _⟩
  · obtain ⟨a1, a2, a3, a4⟩ := C71_ranges_partial g al x hx vs rb hcmp b hob qb hq
    obtain ⟨b1, b2, b3, b4⟩ := C125_ranges_partial g hQ al x hx vs rb hs b hob hst
    have huniq : ∀ q, Denotes E.X rb q → q = qb := by
      intro q h
      have hdt : ∃ d, rb.dt = some d := by
        rcases hcmp.numeric.2 with ⟨k, h⟩ | h | h | h <;> exact ⟨_, h⟩
      obtain ⟨d, hd⟩ := hdt
      obtain ⟨n, h1, h2⟩ := (denotes_iff hcmp.numeric hcmp.readable hd q).1 h
      obtain ⟨n', h1', h2'⟩ := (denotes_iff hcmp.numeric hcmp.readable hd qb).1 hq
      rw [h1] at h1'
      cases h1'
      rw [h2] at h2'
      exact Option.some.inj h2'
    have hcongr : ∀ (P P' : Term → Prop), (∀ v ∈ vs, P v ↔ P' v) →
        violations E vs (fun v => ¬ P v) = violations E vs fun v => ¬ P' v := by
      intro P P' h
      unfold violations
      congr 1
      apply List.filter_congr
      intro v hm
      rw [decide_eq_decide]
      exact not_congr (h v hm)
    have m0 : Term.lit rb ∈ Term.lit rb :: vs := List.mem_cons_self
    refine ⟨⟨_, _, a1, b1, ?_⟩, ⟨_, _, a2, b2, ?_⟩, ⟨_, _, a3, b3, ?_⟩, ⟨_, _, a4, b4, ?_⟩⟩ <;>
      apply List.Perm.of_eq <;> apply hcongr <;> intro v hm
    · constructor
      · rintro ⟨r, rfl, h⟩
        obtain ⟨q, q', d1, d2, h⟩ := ((hnum rb r m0 (List.mem_cons_of_mem _ hm)).1).1 h
        rw [huniq q d1] at h
        exact ⟨r, q', rfl, d2, h⟩
      · rintro ⟨r, q, rfl, d, h⟩
        exact ⟨r, rfl, ((hnum rb r m0 (List.mem_cons_of_mem _ hm)).1).2 ⟨qb, q, hq, d, h⟩⟩
    · constructor
      · rintro ⟨r, rfl, h⟩
        obtain ⟨q, q', d1, d2, h⟩ := ((hnum rb r m0 (List.mem_cons_of_mem _ hm)).2).1 h
        rw [huniq q d1] at h
        exact ⟨r, q', rfl, d2, h⟩
      · rintro ⟨r, q, rfl, d, h⟩
        exact ⟨r, rfl, ((hnum rb r m0 (List.mem_cons_of_mem _ hm)).2).2 ⟨qb, q, hq, d, h⟩⟩
    · constructor
      · rintro ⟨r, rfl, h⟩
        obtain ⟨q, q', d1, d2, h⟩ := ((hnum r rb (List.mem_cons_of_mem _ hm) m0).1).1 h
        rw [huniq q' d2] at h
        exact ⟨r, q, rfl, d1, h⟩
      · rintro ⟨r, q, rfl, d, h⟩
        exact ⟨r, rfl, ((hnum r rb (List.mem_cons_of_mem _ hm) m0).1).2 ⟨q, qb, d, hq, h⟩⟩
    · constructor
      · rintro ⟨r, rfl, h⟩
        obtain ⟨q, q', d1, d2, h⟩ := ((hnum r rb (List.mem_cons_of_mem _ hm) m0).2).1 h
        rw [huniq q' d2] at h
        exact ⟨r, q, rfl, d1, h⟩
      · rintro ⟨r, q, rfl, d, h⟩
        exact ⟨r, rfl, ((hnum r rb (List.mem_cons_of_mem _ hm) m0).2).2 ⟨q, qb, d, hq, h⟩⟩
  · obtain ⟨a1, a2⟩ := C41_less_than_partial g al x hx hlit vs p kept hc1 hc2 hd
    obtain ⟨b1, b2⟩ := C125_less_than_partial g hQ al x hx vs hb hnb p
    classical
    have key : ∀ (P P' : Term → Term → Prop), (∀ v ∈ vs, ∀ t ∈ g.values x p, P v t ↔ P' v t) →
        (vs.flatMap fun v => ((g.values x p).filter fun t => decide (¬ P v t)).map
          fun _ => (⟨E.obj v, none⟩ : Hit D)).Perm (disorder E (g.values x p) vs P') := by
      intro P P' h
      have e1 : disorder E (g.values x p) vs P' = (g.values x p).flatMap fun t => vs.flatMap fun v =>
          if decide (¬ P' v t) then [(⟨E.obj v, none⟩ : Hit D)] else [] := by
        unfold disorder
        generalize g.values x p = os
        induction os with
        | nil => rfl
        | cons o os ih =>
          rw [List.flatMap_cons, List.filter_append, List.map_append, ih, List.flatMap_cons]
          congr 1
          clear ih
          generalize vs = vs
          induction vs with
          | nil => rfl
          | cons v vs ih =>
            rw [List.map_cons, List.filter_cons, List.flatMap_cons, ← ih]
            by_cases h : P' v o <;> simp [h]
      have e2 : (vs.flatMap fun v => ((g.values x p).filter fun t => decide (¬ P v t)).map
          fun _ => (⟨E.obj v, none⟩ : Hit D)) = vs.flatMap fun v => (g.values x p).flatMap fun t =>
          if decide (¬ P' v t) then [(⟨E.obj v, none⟩ : Hit D)] else [] := by
        apply List.flatMap_congr
        intro v hm
        have h := h v hm
        generalize g.values x p = os at h
        induction os with
        | nil => rfl
        | cons o os ih =>
          rw [List.filter_cons, List.flatMap_cons, ← ih fun t ht => h t (List.mem_cons_of_mem _ ht)]
          have h0 := h o List.mem_cons_self
          by_cases h' : P' v o
          · simp [h0.2 h', h']
          · have : ¬ P v o := fun hp => h' (h0.1 hp)
            simp [this, h']
      rw [e1, e2]
      exact perm_swap _ _ _
    refine ⟨⟨_, _, a1, b1, key (fun v t => ∃ r r', v = .lit r ∧ t = .lit r' ∧ O.lt r r' = some true) _ ?_⟩,
      ⟨_, _, a2, b2, key (fun v t => ∃ r r', v = .lit r ∧ t = .lit r' ∧ O.le r r' = some true) _ ?_⟩⟩ <;> intro v hm t ht <;> constructor
    · rintro ⟨r, r', rfl, rfl, h⟩
      obtain ⟨q, q', d1, d2, h⟩ := ((hnum r r' (List.mem_append_left _ hm) (List.mem_append_right _ ht)).1).1 h
      exact ⟨r, q, r', q', rfl, rfl, d1, d2, h⟩
    · rintro ⟨r, q, r', q', rfl, rfl, d1, d2, h⟩
      exact ⟨r, r', rfl, rfl, ((hnum r r' (List.mem_append_left _ hm) (List.mem_append_right _ ht)).1).2
        ⟨q, q', d1, d2, h⟩⟩
    · rintro ⟨r, r', rfl, rfl, h⟩
      obtain ⟨q, q', d1, d2, h⟩ := ((hnum r r' (List.mem_append_left _ hm) (List.mem_append_right _ ht)).2).1 h
      exact ⟨r, q, r', q', rfl, rfl, d1, d2, h⟩
    · rintro ⟨r, q, r', q', rfl, rfl, d1, d2, h⟩
      exact ⟨r, r', rfl, rfl, ((hnum r r' (List.mem_append_left _ hm) (List.mem_append_right _ ht)).2).2
        ⟨q, q', d1, d2, h⟩⟩

end

/-! ## What fails, and examples -/

/-- **C126**: where the modes differ. An instance of a class by two steps of subclasses is reported in the native mode only;
a text of one character and two bytes as longer than 1, in the native mode only; a literal that is its own value node and
has no values by `sh:equals`, in the SPARQL mode only; and an IRI by `sh:lessThan` for an IRI with a later text, in the
SPARQL mode only. -/
theorem C126_modes_refuted (O : Operators) (Q Q0 Q1 : Answers) (hQ : Correct O classGraph Q)
    (h0 : Correct O (data []) Q0) (h1 : Correct O (data [(.iri ['x'], ['p'], .iri ['b'])]) Q1) :
    (Prim.eval exEnv classGraph [] (.iri []) [.iri ['x']] (.cls (.iri ['C'])) = .ok [⟨exEnv.obj (.iri ['x']), none⟩] ∧
      Prim.evalSparql exEnv Q classGraph [] (.iri []) [.iri ['x']] (.cls (.iri ['C'])) = .ok []) ∧
    (Prim.eval exEnv (data []) [] (.iri []) [.lit ⟨['é'], none, none⟩] (.maxLength 1) =
        .ok [⟨exEnv.obj (.lit ⟨['é'], none, none⟩), none⟩] ∧
      Prim.evalSparql exEnv Q0 (data []) [] (.iri []) [.lit ⟨['é'], none, none⟩] (.maxLength 1) = .ok []) ∧
    (Prim.eval exEnv (data []) [] (.lit ⟨['a'], none, none⟩) [.lit ⟨['a'], none, none⟩] (.equals ['p']) = .ok [] ∧
      Prim.evalSparql exEnv Q0 (data []) [] (.lit ⟨['a'], none, none⟩) [.lit ⟨['a'], none, none⟩] (.equals ['p']) =
        .ok [⟨exEnv.obj (.lit ⟨['a'], none, none⟩), none⟩]) ∧
    (Prim.eval exEnv (data [(.iri ['x'], ['p'], .iri ['b'])]) [] (.iri ['x']) [.iri ['a']] (.lessThan ['p']) = .ok [] ∧
      Prim.evalSparql exEnv Q1 (data [(.iri ['x'], ['p'], .iri ['b'])]) [] (.iri ['x']) [.iri ['a']] (.lessThan ['p']) =
        .ok [⟨some (.iri ['a']), none⟩]) := by
  refine ⟨⟨C76_refuted.2, ?_⟩, ⟨rfl, ?_⟩, ⟨rfl, ?_⟩, ⟨rfl, ?_⟩⟩
  · have hg : classGraph.Rdf := by
      intro t ht
      simp only [classGraph, data, List.mem_cons, List.not_mem_nil, or_false] at ht
      rcases ht with rfl | rfl | rfl <;> rfl
    rw [C125_class_partial classGraph hQ [] (.iri []) (by simp [Env.obj]) [.iri ['x']] hg ['C'] (by simp [Term.isBlank])]
    have : Instance classGraph (.iri ['x']) (.iri ['C']) := C76_refuted.1
    simp [violations, this]
  · refine ((C125_strings_partial (E := exEnv) _ h0 [] (.iri []) (by simp [Env.obj]) [.lit ⟨['é'], none, none⟩] 1 [] none
      (by simp [Stable, RdfLiteral.WF, Env.obj, Literal.ofRdf])).2.1).trans ?_
    simp [violations, textOf]
  · obtain ⟨ts, hn, hm, e⟩ := C125_equals_partial (E := exEnv) _ h0 [] (.lit ⟨['a'], none, none⟩)
      (by simp [Env.obj, Literal.ofRdf]) [.lit ⟨['a'], none, none⟩] rfl (by simp) ['p']
    have hts : ts = [.lit ⟨['a'], none, none⟩] := by
      apply List.perm_singleton.1
      rw [List.perm_ext_iff_of_nodup hn (by simp)]
      intro t
      rw [hm]
      simp [data]
    rw [e, hts]
    rfl
  · rw [(C125_less_than_partial (E := exEnv) _ h1 [] (.iri ['x']) (by simp [Env.obj]) [.iri ['a']] rfl
      (by simp [Term.isBlank]) ['p']).1]
    simp [Graph.values, data, Env.obj]

/-- **C126** is false of the code for classes that are blank nodes: nothing is selected, also if there are instances. -/
theorem C126_targets_refuted : ∃ g : Graph Term Str, Instance g (.iri ['x']) (.bnode ['c']) ∧
    ∀ Q, exEnv.focusSparql Q [.cls (.bnode ['c'])] = [] :=
  ⟨data [(.iri ['x'], rdfType, .bnode ['c'])], ⟨.bnode ['c'], by simp [data], .refl⟩, fun _ => rfl⟩

/-- The instances of `C` are its focus nodes, with those of subclasses; a node target selects nodes that are in no
triple. -/
example (O : Operators) (Q : Answers) (hQ : Correct O classGraph Q) :
    .iri ['x'] ∈ exEnv.focusSparql Q [.cls (.iri ['C'])] ∧ .iri ['n'] ∈ exEnv.focusSparql Q [.node (.iri ['n'])] := by
  constructor
  · refine ((C126_targets classGraph hQ _ (fun c h => ?_) _).2).2 (Or.inr (Or.inr (Or.inr
      ⟨['C'], Or.inl (by simp), C76_refuted.1⟩)))
    simp only [List.mem_singleton, Target.cls.injEq, reduceCtorEq, or_false] at h
    exact ⟨_, h⟩
  · refine ((C126_targets classGraph hQ _ (fun c h => ?_) _).2).2 (Or.inl ⟨.iri ['n'], by simp, rfl, by simp⟩)
    simp at h

/-- The hypotheses of the agreement of the modes are met by two numbers and a store that compares them. -/
example : ∃ O : Operators, ByNumber exEnv O [.lit (intLit .integer "3"), .lit (intLit .integer "5")] ∧
    Correct O (data []) (correct_exists O (data [])).choose := by
  classical
  refine ⟨⟨fun r r' => some (decide (∃ q q', Denotes exEnv.X r q ∧ Denotes exEnv.X r' q' ∧ q < q')),
    fun r r' => some (decide (∃ q q', Denotes exEnv.X r q ∧ Denotes exEnv.X r' q' ∧ q ≤ q')), fun _ _ _ => none⟩,
    fun r r' _ _ => by simp, (correct_exists _ _).choose_spec⟩

/-- Closed shapes have the same results in both modes. -/
example (O : Operators) (Q : Answers) (hQ : Correct O classGraph Q) :
    SameResults exEnv Q classGraph [rdfType] (.iri ['A']) [.iri ['B']] (.closed true) ∧
    Prim.eval exEnv classGraph [rdfType] (.iri ['A']) [.iri ['B']] (.closed true) =
      .ok [⟨some (.iri ['B']), some subClassOf⟩] :=
  ⟨(C126_modes_partial classGraph hQ [rdfType] (.iri ['A']) (by simp [Env.obj]) rfl rfl [.iri ['B']]
    (by simp [Stable, Env.obj, Term.isBlank])).2.1 true, rfl⟩

end Shacl

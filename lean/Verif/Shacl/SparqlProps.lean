import Verif.Shacl.SparqlLemmas

/-!
# Properties: SHACL constraints in the SPARQL mode

C125: what the constraints report in the SPARQL mode, with a store that answers queries as SPARQL says.
-/

namespace Shacl
open Lit

section
variable {D : Type} {E : Env D} {O : Operators} {Q : Answers} (g : Graph Term Str) (hQ : Correct O g Q) (al : List Str)
  (x : Term) (hx : E.obj x ≠ none) (vs : List Term)
include hQ hx

/-- **C125**, `sh:nodeKind`: the value nodes of other kinds are reported. -/
theorem C125_node_kinds (k : NodeKind) (hv : ∀ v ∈ vs, Stable E v ∧ E.obj v ≠ none) :
    Prim.evalSparql E Q g al x vs (.nodeKind k) = .ok (violations E vs fun v => ¬ OfKind k v) := by
  simp only [Prim.evalSparql, Outcome.ok.injEq]
  apply askEach_eq hQ hx
  intro v hm
  obtain ⟨hs, ho⟩ := hv v hm
  cases v with
  | bnode s =>
    refine ⟨_, rfl, ?_⟩
    cases k <;> simp [QExpr.value, OfKind]
  | iri s =>
    simp only [Env.kindQuery, ground_stable hs ho rfl, Option.map_some]
    refine ⟨_, rfl, ?_⟩
    cases k <;> simp [QExpr.value, OfKind]
  | lit r =>
    simp only [Env.kindQuery, ground_stable hs ho rfl, Option.map_some]
    refine ⟨_, rfl, ?_⟩
    cases k <;> simp [QExpr.value, OfKind]

/-- **C125** (partial), `sh:minExclusive` and the like (SHACL, 4.3): the value nodes are reported that are not literals for
which SPARQL says that they are above (or below) the bound.

Missing: literals that the conversion changes (`C125_text_refuted`). -/
theorem C125_ranges_partial (rb : RdfLiteral) (hb : Stable E (.lit rb)) (b : Literal D)
    (hob : Literal.ofRdf E.X E.norm rb = some b) (hv : ∀ v ∈ vs, Stable E v ∧ E.obj v ≠ none) :
    Prim.evalSparql E Q g al x vs (.minExclusive b) =
      .ok (violations E vs fun v => ¬ ∃ r, v = .lit r ∧ O.lt rb r = some true) ∧
    Prim.evalSparql E Q g al x vs (.minInclusive b) =
      .ok (violations E vs fun v => ¬ ∃ r, v = .lit r ∧ O.le rb r = some true) ∧
    Prim.evalSparql E Q g al x vs (.maxExclusive b) =
      .ok (violations E vs fun v => ¬ ∃ r, v = .lit r ∧ O.lt r rb = some true) ∧
    Prim.evalSparql E Q g al x vs (.maxInclusive b) =
      .ok (violations E vs fun v => ¬ ∃ r, v = .lit r ∧ O.le r rb = some true) := by
  have hw : E.ground (.lit b) = some (.lit rb) := by
    have := ground_stable (t := .lit rb) hb (by simp [Env.obj, hob]) rfl
    simpa [Env.groundTerm, Env.obj, hob] using this
  have key : ∀ (test : Term → Term → QExpr) (op : RdfLiteral → Option Bool),
      (∀ r, (test (.lit rb) (.lit r)).value O (fun _ => none) = (op r).map .bool) →
      E.rangeSparql Q b test x vs = violations E vs fun v => ¬ ∃ r, v = .lit r ∧ op r = some true := by
    intro test op hop
    simp only [Env.rangeSparql, hw]
    apply askEach_eq hQ hx
    intro v hm
    obtain ⟨hs, ho⟩ := hv v hm
    cases v with
    | bnode s => exact ⟨_, rfl, by simp [QExpr.value]⟩
    | iri s => exact ⟨_, rfl, by simp [QExpr.value]⟩
    | lit r =>
      simp only [Env.rangeQuery, Term.isLit, if_true, ground_stable hs ho rfl, Option.map_some]
      refine ⟨_, rfl, ?_⟩
      simp only [QExpr.value, hop, Term.lit.injEq, exists_eq_left']
      cases h : op r with
      | none => simp
      | some b => simp
  refine ⟨?_, ?_, ?_, ?_⟩ <;> simp only [Prim.evalSparql, Outcome.ok.injEq] <;> apply key <;> intro r <;>
    simp [QExpr.value]

/-- **C125** (partial), `sh:minLength`, `sh:maxLength` and `sh:pattern` (SHACL, 4.4): the value nodes are reported that are
blank nodes, or whose text has too few or too many characters or does not match.

Missing: literals that the conversion changes (`C125_text_refuted`). -/
theorem C125_strings_partial (n : Nat) (pattern : Str) (flags : Option Str)
    (hv : ∀ v ∈ vs, Stable E v ∧ E.obj v ≠ none) :
    Prim.evalSparql E Q g al x vs (.minLength n) =
      .ok (violations E vs fun v => ¬ ∃ s, textOf v = some s ∧ n ≤ s.length) ∧
    Prim.evalSparql E Q g al x vs (.maxLength n) =
      .ok (violations E vs fun v => ¬ ∃ s, textOf v = some s ∧ s.length ≤ n) ∧
    E.patternSparql Q pattern flags x vs =
      violations E vs fun v => ¬ ∃ s, textOf v = some s ∧ O.regex s pattern flags = some true := by
  have key : ∀ (test : QExpr → QExpr) (Ok : Str → Prop),
      (∀ (t : Term) (s : Str), textOf t = some s →
        ((test (.str (.term t))).value O (fun _ => none) = some (.bool true) ↔ Ok s)) →
      E.askEach Q x vs (E.stringQuery test) = violations E vs fun v => ¬ ∃ s, textOf v = some s ∧ Ok s := by
    intro test Ok hok
    apply askEach_eq hQ hx
    intro v hm
    obtain ⟨hs, ho⟩ := hv v hm
    cases v with
    | bnode s => exact ⟨_, rfl, by simp [QExpr.value, textOf]⟩
    | iri s =>
      simp only [Env.stringQuery, Term.isBlank, Bool.false_eq_true, if_false, ground_stable hs ho rfl, Option.map_some]
      refine ⟨_, rfl, ?_⟩
      rw [ne_eq, hok (.iri s) s rfl]
      simp [textOf]
    | lit r =>
      simp only [Env.stringQuery, Term.isBlank, Bool.false_eq_true, if_false, ground_stable hs ho rfl, Option.map_some]
      refine ⟨_, rfl, ?_⟩
      rw [ne_eq, hok (.lit r) r.lex rfl]
      simp [textOf]
  refine ⟨?_, ?_, ?_⟩ <;> simp only [Prim.evalSparql, Env.patternSparql, Outcome.ok.injEq] <;> apply key <;>
    intro t s h <;> cases t <;> simp only [textOf, Option.some.injEq, reduceCtorEq] at h <;> subst h <;>
    simp [QExpr.value]

/-- **C125** (partial), `sh:class`: the value nodes are reported that are not instances of the class, with subclasses of
any depth.

Missing: blank nodes, for which subclasses of subclasses are not found (`C125_class_refuted`), and classes that are blank
nodes, with which nothing is reported. -/
theorem C125_class_partial (hg : g.Rdf) (c : Str) (hv : ∀ v ∈ vs, v.isBlank = false) :
    Prim.evalSparql E Q g al x vs (.cls (.iri c)) = .ok (violations E vs fun v => ¬ Instance g v (.iri c)) := by
  simp only [Prim.evalSparql, Env.classSparql, Env.ground]
  cases ho : E.obj x with
  | none => exact absurd ho hx
  | some o =>
    simp only
    clear ho hx
    have hrel : ∀ v y, Rel g instancePath v y ↔ Instance g v y := by
      intro v y
      simp only [instancePath, Rel, RelSeq, Instance]
      constructor
      · rintro ⟨z, h1, w, h2, rfl⟩; exact ⟨z, h1, h2⟩
      · rintro ⟨z, h1, h2⟩; exact ⟨z, h1, _, h2, rfl⟩
    induction vs with
    | nil => rfl
    | cons v vs ih =>
      have ih := ih fun v h => hv v (List.mem_cons_of_mem _ h)
      have hb := hv v List.mem_cons_self
      have hc : (if v.isLit then some false
          else if v.isBlank then some (blankIsInstance g v (E.term (.iri c)))
          else Q.askText ((E.groundTerm v).map fun t => Query.askPath t instancePath (.iri c))) =
          some (@decide (Instance g v (.iri c)) (Classical.propDecidable _)) := by
        cases v with
        | bnode s => cases hb
        | lit r =>
          simp only [Term.isLit, if_true, Option.some.injEq]
          symm
          rw [decide_eq_false_iff_not]
          rintro ⟨s, h, _⟩
          have := hg _ h
          cases this
        | iri s =>
          simp only [Term.isLit, Term.isBlank, Bool.false_eq_true, if_false, Env.groundTerm, Env.obj, Option.bind_some,
            Env.ground, Option.map_some, Answers.askText]
          obtain ⟨b, h1, h2⟩ := hQ.askPath (.iri s) instancePath (.iri c)
          rw [h1, Option.some.injEq, Bool.eq_iff_iff, h2, hrel]
          simp
      simp only [Env.classLoop, hc, ih]
      unfold violations
      rw [List.filter_cons]
      by_cases h : Instance g v (.iri c)
      · simp [h]
      · simp [h]

/-- **C125** (partial), `sh:equals`: the terms are reported that are value nodes but not values of the property, or the
reverse.

Missing: blank nodes as focus nodes, for which all values of the property are taken (`C125_blank_refuted`). -/
theorem C125_equals_partial (hb : x.isBlank = false) (hvs : vs.Nodup) (p : Str) : ∃ ts : List Term, ts.Nodup ∧
    (∀ t, t ∈ ts ↔ ((x, p, t) ∈ g.triples ∧ t ∉ vs) ∨ (t ∈ vs ∧ (x, p, t) ∉ g.triples)) ∧
    Prim.evalSparql E Q g al x vs (.equals p) = .ok (ts.map fun t => ⟨E.obj t, none⟩) := by
  obtain ⟨rows, h1, h2⟩ := hQ.select [vO] ⟨some (.shown x, .iri p, .var (.named vO)), none, none⟩
  rw [solutions_values hb, List.map_map] at h2
  have hmem : ∀ t, t ∈ (rows.filterMap fun r => r vO) ↔ (x, p, t) ∈ g.triples := by
    intro t
    rw [← mem_values]
    have := (h2.filterMap fun r : Row => r vO).mem_iff (a := t)
    rw [this]
    simp only [List.filterMap_map, List.mem_filterMap, Function.comp_apply, row_single, Option.some.injEq]
    simp
  refine ⟨((rows.filterMap fun r => r vO).dedup.filter fun t => !vs.contains t) ++
    (vs.filter fun t => !(rows.filterMap fun r => r vO).dedup.contains t), ?_, ?_, ?_⟩
  · rw [List.nodup_append]
    refine ⟨(List.nodup_dedup _).filter _, hvs.filter _, ?_⟩
    intro a ha b hb e
    subst e
    simp only [List.mem_filter, Bool.not_eq_true', ← Bool.not_eq_true, List.contains_iff_mem] at ha hb
    exact ha.2 hb.1
  · intro t
    simp only [List.mem_append, List.mem_filter, List.mem_dedup, hmem, Bool.not_eq_true', ← Bool.not_eq_true,
      List.contains_iff_mem]
  · simp only [Prim.evalSparql, Env.equalsSparql, h1]
    cases ho : E.obj x with
    | none => exact absurd ho hx
    | some o => simp

/-- **C125** (partial), `sh:disjoint`: the value nodes are reported that are values of the property.

Missing: blank nodes, which match any term (`C125_blank_refuted`). -/
theorem C125_disjoint_partial (hb : x.isBlank = false) (hv : ∀ v ∈ vs, v.isBlank = false) (p : Str) :
    Prim.evalSparql E Q g al x vs (.disjoint p) = .ok (violations E vs fun v => (x, p, v) ∈ g.triples) := by
  simp only [Prim.evalSparql, Env.disjointSparql]
  cases ho : E.obj x with
  | none => exact absurd ho hx
  | some o =>
    simp only
    clear ho hx
    induction vs with
    | nil => rfl
    | cons v vs ih =>
      have ih := ih fun v h => hv v (List.mem_cons_of_mem _ h)
      have hbv := hv v List.mem_cons_self
      have hs : (!(solutions O g ⟨some (.shown x, .iri p, .shown v), none, none⟩).isEmpty) =
          @decide ((x, p, v) ∈ g.triples) (Classical.propDecidable _) := by
        rw [Bool.eq_iff_iff]
        simp only [Bool.not_eq_true', List.isEmpty_eq_false_iff_exists_mem, solutions, List.mem_filterMap,
          decide_eq_true_eq, fits, fit_shown hb, fit_shown hbv]
        constructor
        · rintro ⟨μ, ⟨s, q, y⟩, hm, hf⟩
          simp only [QPred.fit] at hf
          by_cases e1 : s = x <;> by_cases e2 : q = p <;> by_cases e3 : y = v <;> simp [e1, e2, e3] at hf
          subst e1 e2 e3
          exact hm
        · intro h
          exact ⟨fun _ => none, _, h, by simp [QPred.fit]⟩
      simp only [Env.disjointAsks, hQ.ask, ih, hs]
      unfold violations
      rw [List.filter_cons]
      by_cases h : (x, p, v) ∈ g.triples
      · simp [h]
      · simp [h]

open Classical in
/-- **C125** (partial), `sh:lessThan` and `sh:lessThanOrEquals` (SHACL, 4.5): for each value node there is a result for
each value of the property for which SPARQL does not say that the value node is less (or equal); IRIs are never.

Missing: blank nodes as focus nodes (`C125_blank_refuted`) and as value nodes (`C125_less_refuted`). -/
theorem C125_less_than_partial (hb : x.isBlank = false) (hv : ∀ v ∈ vs, v.isBlank = false) (p : Str) :
    let less (op : RdfLiteral → RdfLiteral → Option Bool) (v t : Term) : Prop :=
      ∃ r r', v = .lit r ∧ t = .lit r' ∧ op r r' = some true
    let results (op : RdfLiteral → RdfLiteral → Option Bool) : List (Hit D) := vs.flatMap fun v =>
      ((g.values x p).filter fun t => decide (¬ less op v t)).map fun _ => ⟨E.obj v, none⟩
    Prim.evalSparql E Q g al x vs (.lessThan p) = .ok (results O.lt) ∧
    Prim.evalSparql E Q g al x vs (.lessThanOrEquals p) = .ok (results O.le) := by
  intro less results
  have key : ∀ strict : Bool, E.lessSparql Q strict p x vs = .ok (results (if strict then O.lt else O.le)) := by
    intro strict
    simp only [Env.lessSparql]
    cases ho : E.obj x with
    | none => exact absurd ho hx
    | some o =>
      simp only [results]
      clear ho hx results
      induction vs with
      | nil => rfl
      | cons v vs ih =>
        have ih := ih fun v h => hv v (List.mem_cons_of_mem _ h)
        have hbv := hv v List.mem_cons_self
        have hq : lessQuery strict p x v = some (.select [vOther] ⟨some (.shown x, .iri p, .var (.named vOther)),
            some (vLt, .coalesce (if strict then .lt (.term v) (.var vOther) else .le (.term v) (.var vOther))
              (.const false)), some (.not (.var vLt))⟩) := by
          cases v with
          | bnode s => cases hbv
          | iri s => rfl
          | lit r => rfl
        obtain ⟨rows, h1, h2⟩ := hQ.select [vOther] ⟨some (.shown x, .iri p, .var (.named vOther)),
            some (vLt, .coalesce (if strict then .lt (.term v) (.var vOther) else .le (.term v) (.var vOther))
              (.const false)), some (.not (.var vLt))⟩
        simp only [Env.lessSelects, hq, Answers.selectText, Option.bind_some, h1, ih, List.flatMap_cons,
          Outcome.ok.injEq, List.append_cancel_right_eq]
        rw [List.map_const', List.map_const', h2.length_eq]
        congr 1
        have hsol := solutions_values (O := O) (g := g) hb p vOther
        simp only [solutions] at hsol
        simp only [solutions, hsol, List.map_map, List.length_map, List.filter_map]
        congr 1
        apply List.filter_congr
        intro t _
        have hvar : (single vOther t) (.named vOther) = some (.term t) := by simp [single]
        have hval : (QExpr.coalesce (if strict = true then .lt (.term v) (.var vOther) else .le (.term v) (.var vOther))
            (.const false)).value O (single vOther t) =
            some (.bool (decide (less (if strict then O.lt else O.le) v t))) := by
          cases v with
          | bnode s => cases hbv
          | iri s => cases strict <;> simp [QExpr.value, less]
          | lit r =>
            cases t with
            | iri s => cases strict <;> simp [QExpr.value, hvar, less]
            | bnode s => cases strict <;> simp [QExpr.value, hvar, less]
            | lit r' =>
              cases strict with
              | true => cases h : O.lt r r' <;> simp [QExpr.value, hvar, less, h]
              | false => cases h : O.le r r' <;> simp [QExpr.value, hvar, less, h]
        simp only [Function.comp_apply]
        rw [hval]
        simp only [QExpr.value, Function.update_self]
        by_cases h : less (if strict then O.lt else O.le) v t <;> simp [h]
  exact ⟨key true, key false⟩

/-- **C125**, `sh:closed`: the triples of the focus node are reported whose predicate is not allowed, in any order. -/
theorem C125_closed : ∃ hs : List (Hit D), Prim.evalSparql E Q g al x vs (.closed true) = .ok hs ∧
    hs.Perm ((g.triples.filter fun t => decide (t.1 = x ∧ t.2.1 ∉ al)).map fun t => ⟨E.obj t.2.2, some t.2.1⟩) := by
  simp only [Prim.evalSparql, if_true, Env.closedSparql]
  cases ho : E.obj x with
  | none => exact absurd ho hx
  | some o =>
    simp only
    cases hb : x.isBlank with
    | true => exact ⟨_, rfl, List.Perm.refl _⟩
    | false =>
      simp only [Bool.false_eq_true, if_false]
      obtain ⟨rows, h1, h2⟩ := hQ.select [vP, vO] ⟨some (.shown x, .var vP, .var (.named vO)), none,
        if al.isEmpty then none else some (.notIn (.var vP) al)⟩
      rw [h1]
      refine ⟨_, rfl, (h2.filterMap _).trans ?_⟩
      have hμ : ∀ t : Term × Str × Term, fits (.shown x) (.var vP) (.var (.named vO)) t =
          if t.1 = x then some (Function.update (single vP (.iri t.2.1)) (.named vO) (some (.term t.2.2))) else none := by
        intro t
        simp only [fits, fit_shown hb]
        by_cases h : t.1 = x
        · simp [h, QPred.fit, QTerm.fit, single, vP, vO]
        · simp [h]
      have hsol : solutions O g ⟨some (.shown x, .var vP, .var (.named vO)), none,
          if al.isEmpty then none else some (.notIn (.var vP) al)⟩ =
          (g.triples.filter fun t => decide (t.1 = x ∧ t.2.1 ∉ al)).map
            fun t => Function.update (single vP (.iri t.2.1)) (.named vO) (some (.term t.2.2)) := by
        simp only [solutions]
        have hstart : g.triples.filterMap (fits (.shown x) (.var vP) (.var (.named vO))) =
            (g.triples.filter fun t => decide (t.1 = x)).map
              fun t => Function.update (single vP (.iri t.2.1)) (.named vO) (some (.term t.2.2)) := by
          induction g.triples with
          | nil => rfl
          | cons t ts ih =>
            rw [List.filterMap_cons, List.filter_cons, ih, hμ]
            by_cases h : t.1 = x <;> simp [h]
        rw [hstart]
        cases al with
        | nil => simp
        | cons a al =>
          simp only [List.isEmpty_cons, Bool.false_eq_true, if_false, List.filter_map, List.filter_filter]
          congr 1
          apply List.filter_congr
          intro t _
          have : (Function.update (single vP (.iri t.2.1)) (.named vO) (some (Val.term t.2.2))) (.named vP) =
              some (.term (.iri t.2.1)) := by simp [single, vP, vO, Function.update]
          simp only [Function.comp_apply, QExpr.value, this]
          by_cases h1 : t.1 = x <;> by_cases h2 : t.2.1 ∈ a :: al <;> simp [h1, h2]
      rw [hsol, List.map_map, List.filterMap_map]
      have : ∀ t : Term × Str × Term, (E.closedRow ∘ (row [vP, vO] ∘ fun t : Term × Str × Term =>
          Function.update (single vP (.iri t.2.1)) (.named vO) (some (Val.term t.2.2)))) t =
          some ⟨E.obj t.2.2, some t.2.1⟩ := by
        intro t
        simp [Env.closedRow, row, single, vP, vO, Function.update, Val.toTerm]
      rw [List.filterMap_congr (g := fun t => some ⟨E.obj t.2.2, some t.2.1⟩) fun t _ => this t]
      rw [List.filterMap_eq_map']

end

/-! ## What fails, and examples -/

/-- `x` is a blank node of type `A`, a subclass of `B`, a subclass of `C`. -/
def blankGraph : Graph Term Str := data
  [(.bnode ['x'], rdfType, .iri ['A']), (.iri ['A'], subClassOf, .iri ['B']), (.iri ['B'], subClassOf, .iri ['C'])]

/-- Two blank nodes, and a node `n`, with one value each. -/
def pairGraph : Graph Term Str := data
  [(.bnode ['a'], ['p'], .iri ['1']), (.bnode ['b'], ['p'], .iri ['2']), (.iri ['n'], ['p'], .iri ['3'])]

/-- **C125** is false of the code for literals that the conversion changes: the text `05` has two characters, but a literal
with this text and the datatype `xsd:byte` is reported as shorter. -/
theorem C125_text_refuted (O : Operators) (Q : Answers) (hQ : Correct O (data []) Q) :
    textOf (.lit (intLit .byte "05")) = some ['0', '5'] ∧
    Prim.evalSparql exEnv Q (data []) [] (.iri []) [.lit (intLit .byte "05")] (.minLength 2) =
      .ok [⟨exEnv.obj (.lit (intLit .byte "05")), none⟩] := by
  refine ⟨rfl, ?_⟩
  simp only [Prim.evalSparql]
  rw [askEach_eq hQ (by simp [Env.obj]) _ (fun _ => True)]
  · simp [violations]
  · intro v hv
    rw [List.mem_singleton] at hv
    subst hv
    have : exEnv.groundTerm (.lit (intLit .byte "05")) = some (.lit (intLit .byte "5")) := by decide +kernel
    refine ⟨_, by simp only [Env.stringQuery, Term.isBlank, Bool.false_eq_true, if_false, this, Option.map_some]; rfl, ?_⟩
    simp [QExpr.value, intLit]

/-- **C125** is false of the code over a store that gives no answers: nothing is reported, whatever the values are. -/
theorem C125_errors_refuted {D : Type} (E : Env D) (Q : Answers) (hQ : ∀ q, Q.ask q = none) (g : Graph Term Str)
    (allowed : List Str) (x : Term) (vs : List Term) (k : NodeKind) (n : Int) :
    Prim.evalSparql E Q g allowed x vs (.nodeKind k) = .ok [] ∧
    Prim.evalSparql E Q g allowed x vs (.minLength n) = .ok [] := by
  have h : ∀ query, E.askEach Q x vs query = [] := by
    intro query
    unfold Env.askEach Env.each
    cases E.obj x with
    | none => rfl
    | some o =>
      simp only [List.map_eq_nil_iff, List.filter_eq_nil_iff]
      intro v _
      cases query v with
      | none => simp
      | some q => simp [hQ]
  exact ⟨by rw [Prim.evalSparql, h], by rw [Prim.evalSparql, h]⟩

example : ∃ Q : Answers, ∀ q, Q.ask q = none := ⟨⟨fun _ => none, fun _ => none⟩, fun _ => rfl⟩

/-- **C125** is false of the code for blank nodes: one that is an instance of `C` is reported; and if the class is a blank
node then nothing is, though `n` is not an instance of anything. -/
theorem C125_class_refuted (O : Operators) (Q : Answers) (hQ : Correct O blankGraph Q) :
    Instance blankGraph (.bnode ['x']) (.iri ['C']) ∧
    Prim.evalSparql exEnv Q blankGraph [] (.iri []) [.bnode ['x']] (.cls (.iri ['C'])) =
      .ok [⟨exEnv.obj (.bnode ['x']), none⟩] ∧
    ¬ Instance blankGraph (.iri ['n']) (.bnode ['c']) ∧
    Prim.evalSparql exEnv Q blankGraph [] (.iri []) [.iri ['n']] (.cls (.bnode ['c'])) = .ok [] := by
  refine ⟨⟨.iri ['A'], by simp [blankGraph, data], .tail (b := .iri ['B']) (.single (by simp [blankGraph, data]))
      (by simp [blankGraph, data])⟩, ?_, ?_, rfl⟩
  · have : blankIsInstance blankGraph (.bnode ['x']) (.iri ['C']) = false := by decide
    simp only [Prim.evalSparql, Env.classSparql, Env.ground, Env.obj, Env.classLoop, Term.isLit, Term.isBlank,
      Bool.false_eq_true, if_false, if_true, Env.term, this]
  · rintro ⟨s, h, _⟩
    simp [blankGraph, data] at h

/-- What holds for blank nodes in place of **C125**, whatever the store answers: those are reported that have neither the
class as type nor a type that is stated to be a subclass of it. -/
theorem C125_class_blank (E : Env D) (Q : Answers) (ts : List (Term × Str × Term)) (hg : (data ts).Rdf) (al : List Str)
    (x : Term) (hx : E.obj x ≠ none) (vs : List Term) (c : Str) (hv : ∀ v ∈ vs, v.isBlank = true) :
    Prim.evalSparql E Q (data ts) al x vs (.cls (.iri c)) = .ok (violations E vs fun v =>
      ¬ ((v, rdfType, .iri c) ∈ ts ∨ ∃ s, (v, rdfType, s) ∈ ts ∧ (s, subClassOf, .iri c) ∈ ts)) := by
  have hobj : ∀ v p o, o ∈ Graph.objectsOr (data ts) v p ↔ (v, p, o) ∈ ts := by
    intro v p o
    unfold Graph.objectsOr Graph.objects
    cases hv : v.isLit with
    | true =>
      simp only [data, hv, Bool.not_true, Bool.false_eq_true, if_false, List.not_mem_nil, false_iff]
      intro h
      have := hg _ h
      simp only [hv] at this
      cases this
    | false =>
      simp only [data, hv, Bool.not_false, if_true, List.mem_dedup, List.mem_map, List.mem_filter, decide_eq_true_eq]
      constructor
      · rintro ⟨⟨s, p', o'⟩, ⟨h, rfl, rfl⟩, rfl⟩; exact h
      · intro h; exact ⟨_, ⟨h, rfl, rfl⟩, rfl⟩
  have hb : ∀ v, blankIsInstance (data ts) v (.iri c) = true ↔
      ((v, rdfType, .iri c) ∈ ts ∨ ∃ s, (v, rdfType, s) ∈ ts ∧ (s, subClassOf, .iri c) ∈ ts) := by
    intro v
    simp only [blankIsInstance, List.any_eq_true, Bool.or_eq_true, beq_iff_eq, List.contains_iff_mem, hobj]
    constructor
    · rintro ⟨t, h1, rfl | h2⟩
      · exact .inl h1
      · exact .inr ⟨t, h1, h2⟩
    · rintro (h | ⟨s, h1, h2⟩)
      · exact ⟨_, h, .inl rfl⟩
      · exact ⟨s, h1, .inr h2⟩
  simp only [Prim.evalSparql, Env.classSparql, Env.ground]
  cases ho : E.obj x with
  | none => exact absurd ho hx
  | some o =>
    simp only
    clear ho hx
    induction vs with
    | nil => rfl
    | cons v vs ih =>
      have ih := ih fun v h => hv v (List.mem_cons_of_mem _ h)
      have hl : v.isLit = false := by
        have := hv v List.mem_cons_self
        cases v <;> first | rfl | cases this
      simp only [Env.classLoop, hl, hv v List.mem_cons_self, Bool.false_eq_true, if_false, if_true, ih]
      unfold violations
      rw [List.filter_cons]
      by_cases h : ((v, rdfType, .iri c) ∈ ts ∨ ∃ s, (v, rdfType, s) ∈ ts ∧ (s, subClassOf, .iri c) ∈ ts)
      · have h2 := (hb v).2 h
        have h3 : E.term (.iri c : Ob D) = .iri c := rfl
        rw [h3, h2]
        simp [h]
      · have h2 : blankIsInstance (data ts) v (.iri c) = false := by
          rw [← Bool.not_eq_true, hb]; exact h
        have h3 : E.term (.iri c : Ob D) = .iri c := rfl
        rw [h3, h2]
        simp [h]

/-- The blank node of the graph above is accepted for `B`, one step above its type. -/
example (Q : Answers) : blankGraph.Rdf ∧
    Prim.evalSparql exEnv Q blankGraph [] (.iri []) [.bnode ['x']] (.cls (.iri ['B'])) = .ok [] := by
  constructor
  · intro t ht
    simp only [blankGraph, data, List.mem_cons, List.not_mem_nil, or_false] at ht
    rcases ht with rfl | rfl | rfl <;> rfl
  · have : blankIsInstance blankGraph (.bnode ['x']) (.iri ['B']) = true := by decide
    simp only [Prim.evalSparql, Env.classSparql, Env.ground, Env.obj, Env.classLoop, Term.isLit, Term.isBlank,
      Bool.false_eq_true, if_false, if_true, Env.term, this]

/-- **C125** is false of the code for blank nodes: they match any node in a query. For the blank node `a`, whose only
value is `1`, the value `2` of another node is reported by `sh:equals` as missing, and by `sh:disjoint` as shared; for the
node `n` the blank node `c`, which is no value of it, is reported as shared. -/
theorem C125_blank_refuted (O : Operators) (Q : Answers) (hQ : Correct O pairGraph Q) :
    (∃ hs, Prim.evalSparql exEnv Q pairGraph [] (.bnode ['a']) [.iri ['1']] (.equals ['p']) = .ok hs ∧
      ⟨some (.iri ['2']), none⟩ ∈ hs) ∧
    Prim.evalSparql exEnv Q pairGraph [] (.bnode ['a']) [.iri ['2']] (.disjoint ['p']) =
      .ok [⟨some (.iri ['2']), none⟩] ∧
    Prim.evalSparql exEnv Q pairGraph [] (.iri ['n']) [.bnode ['c']] (.disjoint ['p']) =
      .ok [⟨some (.bnode ['c']), none⟩] ∧
    ∃ hs, Prim.evalSparql exEnv Q pairGraph [] (.bnode ['a']) [.iri ['1']] (.lessThan ['p']) = .ok hs ∧
      hs.length = 3 := by
  refine ⟨?_, ?_, ?_, ?_⟩
  · obtain ⟨rows, h1, h2⟩ := hQ.select [vO] ⟨some (.shown (.bnode ['a']), .iri ['p'], .var (.named vO)), none, none⟩
    refine ⟨_, by simp only [Prim.evalSparql, Env.equalsSparql, h1, Env.obj]; rfl, ?_⟩
    rw [List.mem_append]
    left
    rw [List.mem_map]
    refine ⟨.iri ['2'], ?_, rfl⟩
    rw [List.mem_filter, List.mem_dedup, (h2.filterMap fun r : Row => r vO).mem_iff]
    refine ⟨?_, by decide⟩
    simp [solutions, pairGraph, data, fits, QTerm.shown, QTerm.fit, QPred.fit, row, Val.toTerm, vO, Function.update]
  · simp [Prim.evalSparql, Env.disjointSparql, Env.disjointAsks, hQ.ask, Env.obj, solutions, pairGraph, data, fits,
      QTerm.shown, QTerm.fit, QPred.fit]
  · simp [Prim.evalSparql, Env.disjointSparql, Env.disjointAsks, hQ.ask, Env.obj, solutions, pairGraph, data, fits,
      QTerm.shown, QTerm.fit, QPred.fit]
  · obtain ⟨rows, h1, h2⟩ := hQ.select [vOther] ⟨some (.shown (.bnode ['a']), .iri ['p'], .var (.named vOther)),
      some (vLt, .coalesce (.lt (.term (.iri ['1'])) (.var vOther)) (.const false)), some (.not (.var vLt))⟩
    refine ⟨_, by simp only [Prim.evalSparql, Env.lessSparql, Env.obj, Env.lessSelects, lessQuery, QExpr.shown,
      Option.map_some, if_true, Answers.selectText, Option.bind_some, h1]; rfl, ?_⟩
    rw [List.append_nil, List.length_map, h2.length_eq]
    simp [solutions, pairGraph, data, fits, QTerm.shown, QTerm.fit, QPred.fit, QExpr.value, vOther, vLt, Function.update]

/-- **C125** is false of the code for blank nodes as value nodes: with one `sh:lessThan` ends with an error. -/
theorem C125_less_refuted (Q : Answers) :
    Prim.evalSparql exEnv Q pairGraph [] (.iri ['n']) [.bnode ['c']] (.lessThan ['p']) = .err := rfl

/-- The hypotheses are met by the answers that SPARQL asks for, and by an IRI and a plain text. -/
example (O : Operators) : ∃ Q, Correct O classGraph Q ∧ classGraph.Rdf ∧
    (∀ v ∈ [Term.iri ['x'], .lit ⟨['t'], none, none⟩], (Stable exEnv v ∧ exEnv.obj v ≠ none) ∧ v.isBlank = false) ∧
    Stable exEnv (.lit (intLit .integer "3")) := by
  obtain ⟨Q, hQ⟩ := correct_exists O classGraph
  refine ⟨Q, hQ, ?_, ?_, ?_⟩
  · intro t ht
    simp only [classGraph, data, List.mem_cons, List.not_mem_nil, or_false] at ht
    rcases ht with rfl | rfl | rfl <;> rfl
  · intro v hv
    simp only [List.mem_cons, List.not_mem_nil, or_false] at hv
    rcases hv with rfl | rfl
    · exact ⟨⟨trivial, by simp [Env.obj]⟩, rfl⟩
    · exact ⟨⟨by simp [Stable, RdfLiteral.WF], by simp [Env.obj, Literal.ofRdf]⟩, rfl⟩
  · simp [Stable, RdfLiteral.WF, intLit]

/-- With subclasses of any depth, `x` is not reported for `C`; and `t` is, for its kind. -/
example (O : Operators) (Q : Answers) (hQ : Correct O classGraph Q) :
    Prim.evalSparql exEnv Q classGraph [] (.iri ['x']) [.iri ['x']] (.cls (.iri ['C'])) = .ok [] := by
  have hg : classGraph.Rdf := by
    intro t ht
    simp only [classGraph, data, List.mem_cons, List.not_mem_nil, or_false] at ht
    rcases ht with rfl | rfl | rfl <;> rfl
  rw [C125_class_partial classGraph hQ [] (.iri ['x']) (by simp [Env.obj]) [.iri ['x']] hg ['C']
    (by simp [Term.isBlank])]
  have : Instance classGraph (.iri ['x']) (.iri ['C']) := C76_refuted.1
  simp [violations, this]

end Shacl

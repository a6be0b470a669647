import Verif.Shacl.PrimLemmas
import Verif.Shacl.TargetProps
import Verif.Value.Props
import Batteries.Data.Char.AsciiCasing

/-!
# Properties: SHACL constraints that do not refer to shapes

C71: value ranges. C72: counts and fixed values. C73: node kinds and datatypes. C74: lengths and patterns.
C75: languages. C76: classes.
-/

namespace Shacl
open Lit

section
variable {D : Type} {E : Env D} (g : Graph Term Str) (al : List Str) (x : Term) (hx : E.obj x ≠ none) (vs : List Term)

/-! ## C71 -/

/-- The bound and the values of C71: numbers that are read as they should be, and values that are numbers are kept as
texts if and only if the bound is. -/
structure Comparable (E : Env D) (rb : RdfLiteral) (vs : List Term) : Prop where
  numeric : Numeric rb
  readable : Readable E.X rb
  values : ∀ r, .lit r ∈ vs → Numeric r → Readable E.X r ∧ (Kept r ↔ Kept rb)

theorem range_iff {rb : RdfLiteral} (hc : Comparable E rb vs) {b : Literal D}
    (hb : Literal.ofRdf E.X E.norm rb = some b) {qb : ℚ} (hq : Denotes E.X rb qb) (out : Ordering → Bool) {v : Term}
    (hv : v ∈ vs) :
    E.rangeViolates b out v = true ↔ ¬ ∃ r q, v = .lit r ∧ Denotes E.X r q ∧ out (cmpQ q qb) = false := by
  cases v with
  | iri s => simp [Env.rangeViolates]
  | bnode s => simp [Env.rangeViolates]
  | lit r =>
    simp only [Env.rangeViolates]
    have hden : ∀ q, Denotes E.X r q → Numeric r := by
      rintro q ⟨hl, ⟨k, m, n, h, _⟩ | ⟨d, h, _⟩ | ⟨b, d, h, _⟩ | ⟨b, d, h, _⟩⟩
      · exact ⟨hl, Or.inl ⟨k, h⟩⟩
      · exact ⟨hl, Or.inr (Or.inl h)⟩
      · exact ⟨hl, Or.inr (Or.inr (Or.inl h))⟩
      · exact ⟨hl, Or.inr (Or.inr (Or.inr h))⟩
    have huniq : ∀ q q', Denotes E.X r q → Denotes E.X r q' → q = q' := by
      intro q q' h h'
      have hn := hden q h
      have hr := (hc.values r hv hn).1
      have hdt : ∃ d, r.dt = some d := by
        rcases hn.2 with ⟨k, h⟩ | h | h | h <;> exact ⟨_, h⟩
      obtain ⟨d, hd⟩ := hdt
      obtain ⟨n, h1, h2⟩ := (denotes_iff hn hr hd q).1 h
      obtain ⟨n', h1', h2'⟩ := (denotes_iff hn hr hd q').1 h'
      rw [h1] at h1'
      cases h1'
      rw [h2] at h2'
      exact Option.some.inj h2'
    cases hl : Literal.ofRdf E.X E.norm r with
    | none =>
      simp only [true_iff]
      rintro ⟨r', q, e, hd, _⟩
      cases e
      have hn := hden q hd
      have hdt : ∃ d, r.dt = some d := by
        rcases hn.2 with ⟨k, h⟩ | h | h | h <;> exact ⟨_, h⟩
      obtain ⟨d, hd⟩ := hdt
      rcases ofRdf_numeric (E := E) hn hd with ⟨n, _, h'⟩ | ⟨_, e, h'⟩ <;> rw [hl] at h' <;> cases h'
    | some l =>
      by_cases hn : Numeric r
      · obtain ⟨hr, hk⟩ := hc.values r hv hn
        rcases cmp_denoted hn hr hc.numeric hc.readable hk hb hq hl with ⟨q, hd, h1, _⟩ | ⟨hd, h1, _⟩
        · simp only [h1]
          constructor
          · rintro h ⟨r', q', e, hd', ho⟩
            cases e
            rw [huniq q' q hd' hd, h] at ho
            cases ho
          · intro h
            cases ho : out (cmpQ q qb) with
            | true => rfl
            | false => exact absurd ⟨r, q, rfl, hd, ho⟩ h
        · simp only [h1, true_iff]
          rintro ⟨r', q', e, hd', ho⟩
          cases e
          exact hd q' hd'
      · simp only [cmp_other hn hc.numeric hb hl, true_iff]
        rintro ⟨r', q', e, hd', ho⟩
        cases e
        exact hn (hden q' hd')

include hx in
/-- **C71** (partial). `sh:minExclusive` and the like report the value nodes that are not numbers above (or below) the
bound, comparing the numbers that literals denote.

Missing: derived integer datatypes compared with the other datatypes (`C71_refuted`), integers of 96 bits or more, floats
that are not finite, and bounds that are not numbers. -/
theorem C71_ranges_partial (rb : RdfLiteral) (hc : Comparable E rb vs) (b : Literal D)
    (hb : Literal.ofRdf E.X E.norm rb = some b) (qb : ℚ) (hq : Denotes E.X rb qb) :
    Prim.eval E g al x vs (.minExclusive b) = .ok (violations E vs fun v => ¬ ∃ r q, v = .lit r ∧ Denotes E.X r q ∧ qb < q) ∧
    Prim.eval E g al x vs (.minInclusive b) = .ok (violations E vs fun v => ¬ ∃ r q, v = .lit r ∧ Denotes E.X r q ∧ qb ≤ q) ∧
    Prim.eval E g al x vs (.maxExclusive b) = .ok (violations E vs fun v => ¬ ∃ r q, v = .lit r ∧ Denotes E.X r q ∧ q < qb) ∧
    Prim.eval E g al x vs (.maxInclusive b) = .ok (violations E vs fun v => ¬ ∃ r q, v = .lit r ∧ Denotes E.X r q ∧ q ≤ qb) := by
  have e1 : ∀ q : ℚ, (cmpQ q qb).isLE = false ↔ qb < q := by
    intro q; unfold cmpQ
    split
    · simpa [Ordering.isLE] using le_of_lt ‹_›
    · split
      · simpa [Ordering.isLE] using le_of_eq ‹_›
      · simpa [Ordering.isLE] using lt_of_le_of_ne (not_lt.1 ‹_›) (Ne.symm ‹_›)
  have e2 : ∀ q : ℚ, (cmpQ q qb).isLT = false ↔ qb ≤ q := by
    intro q; unfold cmpQ
    split
    · simpa [Ordering.isLT] using ‹_›
    · split
      · simpa [Ordering.isLT] using not_lt.1 ‹_›
      · simpa [Ordering.isLT] using not_lt.1 ‹_›
  have e3 : ∀ q : ℚ, (cmpQ q qb).isGE = false ↔ q < qb := by
    intro q; unfold cmpQ
    split
    · simpa [Ordering.isGE] using ‹_›
    · split
      · simpa [Ordering.isGE] using not_lt.1 ‹_›
      · simpa [Ordering.isGE] using not_lt.1 ‹_›
  have e4 : ∀ q : ℚ, (cmpQ q qb).isGT = false ↔ q ≤ qb := by
    intro q; unfold cmpQ
    split
    · simpa [Ordering.isGT] using le_of_lt ‹_›
    · split
      · simpa [Ordering.isGT] using le_of_eq ‹_›
      · simpa [Ordering.isGT] using lt_of_le_of_ne (not_lt.1 ‹_›) (Ne.symm ‹_›)
  refine ⟨?_, ?_, ?_, ?_⟩ <;> simp only [Prim.eval, Outcome.ok.injEq] <;> apply each_eq hx <;> intro v hv <;>
    rw [range_iff vs hc hb hq _ hv]
  · simp only [e1]
  · simp only [e2]
  · simp only [e3]
  · simp only [e4]

/-! ## C72 -/

include hx in
/-- **C72** (partial). `sh:minCount` and `sh:maxCount` give one result if there are too few or too many value nodes;
`sh:hasValue` gives one if the value is not a value node; `sh:in` reports the value nodes that are not in the list.

Missing: counts below zero, and constants that the conversion changes, like `"1"^^xsd:boolean` (`C72_refuted`). -/
theorem C72_counts_and_constants_partial (n : Nat) (hn : n < 2 ^ 64) (t : Term) (o : Ob D) (ht : Stable E t)
    (ho : E.obj t = some o) (ts : List Term) (os : List (Ob D)) (hts : ∀ t ∈ ts, Stable E t)
    (hos : ts.map E.obj = os.map some) :
    Prim.eval E g al x vs (.minCount n) = .ok (if vs.length < n then [⟨none, none⟩] else []) ∧
    Prim.eval E g al x vs (.maxCount n) = .ok (if n < vs.length then [⟨none, none⟩] else []) ∧
    Prim.eval E g al x vs (.hasValue o) = .ok (if t ∈ vs then [] else [⟨none, none⟩]) ∧
    Prim.eval E g al x vs (.isIn os) = .ok (violations E vs fun v => v ∉ ts) := by
  have hu : asUsize (n : Int) = n := by unfold asUsize; omega
  refine ⟨?_, ?_, ?_, ?_⟩
  · simp only [Prim.eval, hu, once_eq hx, Outcome.ok.injEq, decide_eq_true_eq]
    by_cases h0 : n = 0
    · subst h0; simp
    · rw [if_neg h0]
  · simp only [Prim.eval, hu, once_eq hx, Outcome.ok.injEq, decide_eq_true_eq]
  · simp only [Prim.eval, once_eq hx, Outcome.ok.injEq, stable_term ht ho]
    by_cases h : t ∈ vs <;> simp [h]
  · simp only [Prim.eval, Outcome.ok.injEq]
    apply each_eq hx
    intro v _
    have : os.map E.term = ts := by
      clear ho ht hx
      induction ts generalizing os with
      | nil => cases os with
        | nil => rfl
        | cons _ _ => simp at hos
      | cons t ts ih =>
        cases os with
        | nil => simp at hos
        | cons o os =>
          simp only [List.map_cons, List.cons.injEq] at hos ⊢
          exact ⟨stable_term (hts t List.mem_cons_self) hos.1, ih os (fun t h => hts t (List.mem_cons_of_mem _ h)) hos.2⟩
    rw [this]
    simp

/-! ## C73 -/

include hx in
/-- **C73**, node kinds: the value nodes that are not of the kind are reported. -/
theorem C73_node_kinds (k : NodeKind) :
    Prim.eval E g al x vs (.nodeKind k) = .ok (violations E vs fun v => ¬ OfKind k v) := by
  simp only [Prim.eval, Outcome.ok.injEq]
  apply each_eq hx
  intro v _
  cases v <;> cases k <;> simp [kindViolates, OfKind]

include hx in
/-- **C73** (partial), datatypes: the value nodes that are not literals of the datatype, or whose text is not in its
lexical space, are reported.

Missing: the integers the code cannot read (`C73_refuted`). -/
theorem C73_datatypes_partial (d : Dt)
    (hv : ∀ r, .lit r ∈ vs → r.WF ∧ Readable E.X r ∧ ∀ g, r.lang = some g → E.norm g ≠ none) :
    Prim.eval E g al x vs (.datatype d) = .ok (violations E vs fun v => ¬ OfDatatype E.X d v) := by
  simp only [Prim.eval, Outcome.ok.injEq]
  apply each_eq hx
  intro v hmem
  cases v with
  | iri s => simp [Env.datatypeViolates, OfDatatype]
  | bnode s => simp [Env.datatypeViolates, OfDatatype]
  | lit r =>
    obtain ⟨hwf, hr, hg⟩ := hv r hmem
    have hex : ∀ P : RdfLiteral → Prop, (∃ r', (Term.lit r : Term) = .lit r' ∧ P r') ↔ P r := by
      intro P
      constructor
      · rintro ⟨r', e, h⟩; cases e; exact h
      · intro h; exact ⟨r, rfl, h⟩
    simp only [OfDatatype, hex]
    obtain ⟨lex, dt, lang⟩ := r
    simp only at *
    cases dt with
    | none =>
      cases lang with
      | none =>
        simp only [Env.datatypeViolates, Literal.ofRdf, RdfLiteral.datatype]
        by_cases h : Dt.string = d
        · subst h; simp
        · simp [h]
      | some tag =>
        simp only [Env.datatypeViolates, Literal.ofRdf, RdfLiteral.datatype]
        obtain ⟨tag', ht⟩ := Option.ne_none_iff_exists'.1 (hg tag rfl)
        rw [ht]
        by_cases h : Dt.langString = d
        · subst h; simp
        · simp [h]
    | some dd =>
      have hlang : lang = none := by
        by_contra hne
        have := hwf.2 hne
        cases this
      subst hlang
      simp only [Env.datatypeViolates, RdfLiteral.datatype]
      by_cases hd : dd = d
      · subst hd
        simp only [ne_eq, not_true, decide_false, true_and]
        obtain ⟨⟨hs, hls, hpf⟩, _⟩ := hwf
        simp only [Readable] at hr
        cases dd with
        | prefixed a b => exact absurd rfl (hpf a b)
        | string => exact absurd rfl hs
        | langString => exact absurd rfl hls
        | other s => simp [Literal.ofRdf, checkDatatype]
        | int k =>
          have hp := fun n => intLex_parse (hr.1 k rfl).1 (hr.1 k rfl).2 n
          simp only [Literal.ofRdf, checkDatatype, validate, Dt.int.injEq, forall_eq', reduceCtorEq, false_imp_iff,
            and_true, implies_true]
          cases hc : parseInt k lex with
          | none =>
            have : ¬ ∃ minus n, IntLex lex minus n ∧ XsdRange k n := by
              rintro ⟨m, n, h⟩
              have := (hp n).2 ⟨m, h⟩
              rw [hc] at this; cases this
            generalize (∃ minus n, IntLex lex minus n ∧ XsdRange k n) = P at this ⊢
            by_cases hk : k = .integer <;> simp [hk, this]
          | some n =>
            obtain ⟨m, h⟩ := (hp n).1 hc
            have : ∃ minus n, IntLex lex minus n ∧ XsdRange k n := ⟨m, n, h⟩
            generalize (∃ minus n, IntLex lex minus n ∧ XsdRange k n) = P at this ⊢
            by_cases hk : k = .integer <;> simp [hk, this]
        | boolean =>
          simp only [Literal.ofRdf, checkDatatype, validate, parseBool]
          by_cases h1 : lex = ['t', 'r', 'u', 'e'] ∨ lex = ['1']
          · rw [if_pos h1]
            rcases h1 with rfl | rfl <;> simp
          · rw [if_neg h1]
            by_cases h2 : lex = ['f', 'a', 'l', 's', 'e'] ∨ lex = ['0']
            · rw [if_pos h2]
              rcases h2 with rfl | rfl <;> simp
            · rw [if_neg h2]
              simp only [not_or] at h1 h2
              simp [h1, h2]
        | decimal =>
          simp only [Literal.ofRdf, checkDatatype, validate]
          by_cases he : 'e' ∈ lex
          · simp [he]
          by_cases hE : 'E' ∈ lex
          · simp [hE]
          cases hp : E.X.parseDec lex <;> simp [he, hE]
        | double =>
          simp only [Literal.ofRdf, checkDatatype, validate]
          cases hp : E.X.parseF64 lex with
          | none => simp
          | some b => simp [(hr.2.1 b rfl hp).1]
        | float =>
          simp only [Literal.ofRdf, checkDatatype, validate]
          cases hp : E.X.parseF32 lex with
          | none => simp
          | some b => simp [(hr.2.2 b rfl hp).1]
        | dateTime =>
          simp only [Literal.ofRdf, checkDatatype, validate]
          cases hp : E.X.parseDT lex <;> simp
      · simp only [hd, false_and, not_false_iff, iff_true]
        split
        · rfl
        · simp [hd]
        · rfl

/-! ## C74 -/

include hx in
/-- **C74**, patterns: the value nodes that are blank, or whose text the regular expression does not match, are
reported. -/
theorem C74_patterns (re : Str → Bool) :
    Prim.eval E g al x vs (.pattern re) = .ok (violations E vs fun v => ¬ ∃ s, textOf v = some s ∧ re s = true) := by
  simp only [Prim.eval, Outcome.ok.injEq]
  apply each_eq hx
  intro v _
  cases v <;> simp [patternViolates, textOf]

include hx in
/-- **C74** (partial), lengths: the value nodes that are blank, or whose text is too short or too long, are reported.

Missing: texts with characters outside ASCII, whose bytes are counted (`C74_refuted`). -/
theorem C74_lengths_partial (n : Nat) (hn : n < 2 ^ 64)
    (ha : ∀ v ∈ vs, ∀ s, textOf v = some s → ∀ c ∈ s, c.toNat < 128) :
    Prim.eval E g al x vs (.minLength n) = .ok (violations E vs fun v => ¬ ∃ s, textOf v = some s ∧ n ≤ s.length) ∧
    Prim.eval E g al x vs (.maxLength n) = .ok (violations E vs fun v => ¬ ∃ s, textOf v = some s ∧ s.length ≤ n) := by
  have hu : asUsize (n : Int) = n := by unfold asUsize; omega
  constructor <;> simp only [Prim.eval, Outcome.ok.injEq, hu] <;> apply each_eq hx <;> intro v hv
  · cases v with
    | bnode s => simp [lengthViolates, textOf]
    | iri s => simp [lengthViolates, textOf, Value.byteLen_ascii s (ha _ hv s rfl)]
    | lit r => simp [lengthViolates, textOf, Value.byteLen_ascii r.lex (ha _ hv r.lex rfl)]
  · cases v with
    | bnode s => simp [lengthViolates, textOf]
    | iri s => simp [lengthViolates, textOf, Value.byteLen_ascii s (ha _ hv s rfl)]
    | lit r => simp [lengthViolates, textOf, Value.byteLen_ascii r.lex (ha _ hv r.lex rfl)]

/-! ## C75 -/

/-- What is needed of the normal form of language tags: it is a change of case, the same for tags that differ in case. -/
structure Norm (norm : Str → Option Str) : Prop where
  case : ∀ g g', norm g = some g' → g'.map Char.toLower = g.map Char.toLower
  same : ∀ g h, g.map Char.toLower = h.map Char.toLower → norm g = norm h

include hx in
/-- **C75**. `sh:languageIn` reports the value nodes without a language tag that matches one of the ranges by basic
filtering; `sh:uniqueLang` gives as many results as there are languages, without regard to case, used by more than one
value node, and no value node is in more than one language. -/
theorem C75_languages (hnorm : Norm E.norm) (ls : List Str)
    (hv : ∀ v ∈ vs, ∀ g, tagOf v = some g → E.norm g ≠ none) :
    Prim.eval E g al x vs (.languageIn ls) =
      .ok (violations E vs fun v => ¬ ∃ tag, tagOf v = some tag ∧ ∃ l ∈ ls, BasicFilter l tag) ∧
    ∃ twice : List Str, twice.Nodup ∧
      (∀ tag, tag ∈ twice ↔
        1 < (vs.filter fun v => decide ((tagOf v).map (List.map Char.toLower) = some tag)).length) ∧
      Prim.eval E g al x vs (.uniqueLang true) = .ok (twice.map fun _ => ⟨none, none⟩) := by
  constructor
  · simp only [Prim.eval, Outcome.ok.injEq]
    apply each_eq hx
    intro v hmem
    cases v with
    | iri s => simp [Env.languageViolates, tagOf]
    | bnode s => simp [Env.languageViolates, tagOf]
    | lit r =>
      cases hl : r.lang with
      | none => simp [Env.languageViolates, tagOf, Env.lang, hl]
      | some tag =>
        obtain ⟨tag', ht⟩ := Option.ne_none_iff_exists'.1 (hv _ hmem tag (by simp [tagOf, hl]))
        have hlow := hnorm.case tag tag' ht
        have hb : ∀ l, (tag.map Char.toLower == l.map Char.toLower ||
            (l.map Char.toLower ++ ['-']).isPrefixOf (tag.map Char.toLower)) = true ↔ BasicFilter l tag := by
          intro l
          simp only [Bool.or_eq_true, beq_iff_eq, List.isPrefixOf_iff_prefix, BasicFilter]
          constructor
          · rintro (h | ⟨rest, h⟩)
            · exact ⟨[], by simp [h], Or.inl rfl⟩
            · exact ⟨'-' :: rest, by simp [← h], Or.inr ⟨rest, rfl⟩⟩
          · rintro ⟨rest, h, rfl | ⟨rest', rfl⟩⟩
            · exact Or.inl (by simpa using h)
            · exact Or.inr ⟨rest', by simp [h]⟩
        simp only [Env.languageViolates, tagOf, Env.lang, hl, Option.bind_some, ht, hlow, Option.some.injEq,
          exists_eq_left', Bool.not_eq_true', ← Bool.not_eq_true, List.any_eq_true, hb]
  · have hlang : ∀ v ∈ vs, ∀ tag', E.langOf v = some tag' ↔ ∃ tag, tagOf v = some tag ∧ E.norm tag = some tag' := by
      intro v _ tag'
      cases v with
      | iri s => simp [Env.langOf, tagOf]
      | bnode s => simp [Env.langOf, tagOf]
      | lit r => simp [Env.langOf, tagOf, Env.lang, Option.bind_eq_some_iff]
    have hcount : ∀ v ∈ vs, ∀ tag', (∃ w ∈ vs, E.langOf w = some tag') → ((E.langOf v == some tag') = true ↔
        (tagOf v).map (List.map Char.toLower) = some (tag'.map Char.toLower)) := by
      rintro v hv' tag' ⟨w, hw, hwt⟩
      obtain ⟨tw, htw, hnw⟩ := (hlang w hw tag').1 hwt
      rw [beq_iff_eq, hlang v hv' tag']
      constructor
      · rintro ⟨tag, ht, hn⟩
        rw [ht, Option.map_some, hnorm.case tag tag' hn]
      · intro h
        cases ht : tagOf v with
        | none => rw [ht] at h; cases h
        | some tag =>
          rw [ht, Option.map_some, Option.some.injEq] at h
          refine ⟨tag, rfl, ?_⟩
          rw [← hnw]
          apply hnorm.same
          rw [h, hnorm.case tw tag' hnw]
    let twice' := ((vs.filterMap E.langOf).dedup.filter fun g => decide (1 < (vs.filter fun v => E.langOf v == some g).length))
    have hmem' : ∀ tag', tag' ∈ twice' ↔ (∃ w ∈ vs, E.langOf w = some tag') ∧
        1 < (vs.filter fun v => E.langOf v == some tag').length := by
      intro tag'
      simp only [twice', List.mem_filter, List.mem_dedup, List.mem_filterMap, decide_eq_true_eq]
    refine ⟨twice'.map (List.map Char.toLower), ?_, ?_, ?_⟩
    · apply List.Nodup.map_on _ ((List.nodup_dedup _).filter _)
      intro a ha b hb hab
      obtain ⟨⟨w, hw, hwt⟩, _⟩ := (hmem' a).1 ha
      obtain ⟨⟨w', hw', hwt'⟩, _⟩ := (hmem' b).1 hb
      obtain ⟨t, _, hn⟩ := (hlang w hw a).1 hwt
      obtain ⟨t', _, hn'⟩ := (hlang w' hw' b).1 hwt'
      have := hnorm.same t t' (by rw [← hnorm.case t a hn, ← hnorm.case t' b hn', hab])
      rw [hn, hn'] at this
      exact Option.some.inj this
    · intro tag
      simp only [List.mem_map]
      constructor
      · rintro ⟨tag', ht, rfl⟩
        obtain ⟨hw, hlen⟩ := (hmem' tag').1 ht
        have : (vs.filter fun v => decide ((tagOf v).map (List.map Char.toLower) = some (tag'.map Char.toLower))) =
            vs.filter fun v => E.langOf v == some tag' := by
          apply List.filter_congr
          intro v hv'
          rw [Bool.eq_iff_iff, hcount v hv' tag' hw, decide_eq_true_eq]
        rw [this]
        exact hlen
      · intro hlen
        obtain ⟨v, hvm⟩ := List.exists_mem_of_length_pos (lt_trans Nat.zero_lt_one hlen)
        simp only [List.mem_filter, decide_eq_true_eq] at hvm
        obtain ⟨hvm, hvt⟩ := hvm
        cases ht : tagOf v with
        | none => rw [ht] at hvt; cases hvt
        | some t =>
          rw [ht, Option.map_some, Option.some.injEq] at hvt
          obtain ⟨tag', htn⟩ := Option.ne_none_iff_exists'.1 (hv v hvm t ht)
          have hw : ∃ w ∈ vs, E.langOf w = some tag' := ⟨v, hvm, (hlang v hvm tag').2 ⟨t, ht, htn⟩⟩
          have hlow : tag'.map Char.toLower = tag := by rw [hnorm.case t tag' htn, hvt]
          refine ⟨tag', (hmem' tag').2 ⟨hw, ?_⟩, hlow⟩
          have : (vs.filter fun v => decide ((tagOf v).map (List.map Char.toLower) = some tag)) =
              vs.filter fun v => E.langOf v == some tag' := by
            apply List.filter_congr
            intro v hv'
            rw [Bool.eq_iff_iff, hcount v hv' tag' hw, decide_eq_true_eq, hlow]
          rw [← this]
          exact hlen
    · simp only [Prim.eval, if_true]
      cases ho : E.obj x with
      | none => exact absurd ho hx
      | some o => simp only [Env.uniqueHits, Outcome.ok.injEq, List.map_map]; rfl

/-! ## C76 -/

include hx in
/-- **C76** (partial). `sh:class` reports the value nodes that are not instances of the class or of a direct subclass.

Missing: subclasses of subclasses (`C76_refuted`). -/
theorem C76_class_partial (ts : List (Term × Str × Term)) (hg : (data ts).Rdf) (c : Ob D) (hc : c.IsNode) :
    Prim.eval E (data ts) al x vs (.cls c) = .ok (violations E vs fun v =>
      ¬ ((v, rdfType, E.term c) ∈ ts ∨ ∃ s, (v, rdfType, s) ∈ ts ∧ (s, subClassOf, E.term c) ∈ ts)) ∧
    ((∀ s s', (s, subClassOf, E.term c) ∈ ts → (s', subClassOf, s) ∈ ts →
        s' = E.term c ∨ (s', subClassOf, E.term c) ∈ ts) →
      Prim.eval E (data ts) al x vs (.cls c) = .ok (violations E vs fun v => ¬ Instance (data ts) v (E.term c))) := by
  have hobj : ∀ v p o, o ∈ Graph.objectsOr (data ts) v p ↔ (v, p, o) ∈ ts := by
    intro v p o
    unfold Graph.objectsOr Graph.objects
    cases hv : v.isLit with
    | true =>
      simp only [data, hv, Bool.not_true, Bool.false_eq_true, if_false, List.not_mem_nil, false_iff]
      intro h
      have := hg _ h
      simp only [hv] at this
      cases this
    | false =>
      simp only [data, hv, Bool.not_false, if_true, List.mem_dedup, List.mem_map, List.mem_filter, decide_eq_true_eq]
      constructor
      · rintro ⟨⟨s, p', o'⟩, ⟨h, rfl, rfl⟩, rfl⟩; exact h
      · intro h; exact ⟨_, ⟨h, rfl, rfl⟩, rfl⟩
  have hone : ∀ v, classViolates (data ts) (E.term c) v = true ↔
      ¬ ((v, rdfType, E.term c) ∈ ts ∨ ∃ s, (v, rdfType, s) ∈ ts ∧ (s, subClassOf, E.term c) ∈ ts) := by
    intro v
    unfold classViolates
    cases hv : v.isLit with
    | true =>
      simp only [if_true, true_iff]
      rintro (h | ⟨s, h, _⟩) <;> have := hg _ h <;> simp only [hv] at this <;> cases this
    | false =>
      simp only [Bool.false_eq_true, if_false, Bool.not_eq_true', ← Bool.not_eq_true, List.any_eq_true, hobj,
        Bool.or_eq_true, beq_iff_eq, List.contains_iff_mem]
      constructor
      · rintro h (h' | ⟨s, h', h''⟩)
        · exact h ⟨_, h', Or.inl rfl⟩
        · exact h ⟨s, h', Or.inr h''⟩
      · rintro h ⟨s, h', rfl | h''⟩
        · exact h (Or.inl h')
        · exact h (Or.inr ⟨s, h', h''⟩)
  refine ⟨?_, fun hflat => ?_⟩ <;> simp only [Prim.eval, Outcome.ok.injEq] <;> apply each_eq hx <;> intro v _ <;>
    rw [hone]
  apply not_congr
  constructor
  · rintro (h | ⟨s, h, hs⟩)
    · exact ⟨_, h, .refl⟩
    · exact ⟨s, h, .single hs⟩
  · rintro ⟨s, h, hr⟩
    have : s = E.term c ∨ (s, subClassOf, E.term c) ∈ ts := by
      clear h
      induction hr using Relation.ReflTransGen.head_induction_on with
      | refl => exact Or.inl rfl
      | head hab _ ih =>
        rcases ih with rfl | ih
        · exact Or.inr hab
        · exact hflat _ _ ih hab
    rcases this with rfl | h3
    · exact Or.inl h
    · exact Or.inr ⟨s, h, h3⟩

end

/-! ## What fails, and examples -/

/-- A literal of an integer datatype. -/
def intLit (k : IntKind) (s : String) : RdfLiteral := ⟨s.toList, some (.int k), none⟩

theorem one_digit (c : Char) (k : IntKind) (hc : c.isDigit = true) (hk : XsdRange k ((c.toNat - 48 : Nat) : Int)) :
    Denotes exEnv.X ⟨[c], some (.int k), none⟩ ((c.toNat - 48 : Nat) : Int) := by
  refine ⟨rfl, Or.inl ⟨k, false, ((c.toNat - 48 : Nat) : Int), rfl, ?_, hk, rfl⟩⟩
  refine ⟨[c], by simp, by simpa using hc, Or.inl ⟨rfl, Or.inl rfl, ?_⟩⟩
  simp [value]

/-- **C71** is false of the code: `"5"^^xsd:byte` is above the bound `"1"^^xsd:integer`, but reported. -/
theorem C71_refuted : ∃ (r rb : RdfLiteral) (b : Literal Unit) (q qb : ℚ),
    Literal.ofRdf exEnv.X exEnv.norm rb = some b ∧ Denotes exEnv.X r q ∧ Denotes exEnv.X rb qb ∧ qb < q ∧
    Prim.eval exEnv (data []) [] (.iri []) [.lit r] (.minInclusive b) = .ok [⟨exEnv.obj (.lit r), none⟩] := by
  refine ⟨intLit .byte "5", intLit .integer "1", .typed ['1'] (.int .integer), _, _, rfl,
    one_digit '5' .byte (by decide) (by simp [XsdRange]), one_digit '1' .integer (by decide) trivial, ?_, by rfl⟩
  have h5 : '5'.toNat = 53 := rfl
  have h1 : '1'.toNat = 49 := rfl
  rw [h5, h1]; norm_num

/-- **C72** is false of the code: the constant `"1"^^xsd:boolean` is not found among the value nodes though it is the only
one. -/
theorem C72_refuted : ∃ (t : Term) (o : Ob Unit), exEnv.obj t = some o ∧
    Prim.eval exEnv (data []) [] (.iri []) [t] (.hasValue o) = .ok [⟨none, none⟩] ∧
    Prim.eval exEnv (data []) [] (.iri []) [t] (.isIn [o]) = .ok [⟨exEnv.obj t, none⟩] ∧
    Prim.eval exEnv (data []) [] (.iri []) [] (.minCount (-1)) = .ok [⟨none, none⟩] :=
  ⟨.lit ⟨['1'], some .boolean, none⟩, .lit (.bool true), rfl, rfl, rfl, rfl⟩

/-- **C73** is false of the code: `-0` is an `xsd:unsignedByte`, but reported. -/
theorem C73_refuted : OfDatatype exEnv.X (.int .unsignedByte) (.lit (intLit .unsignedByte "-0")) ∧
    Prim.eval exEnv (data []) [] (.iri []) [.lit (intLit .unsignedByte "-0")] (.datatype (.int .unsignedByte)) =
      .ok [⟨exEnv.obj (.lit (intLit .unsignedByte "-0")), none⟩] := by
  refine ⟨⟨_, rfl, rfl, ?_, by simp, by simp, by simp, by simp, by simp⟩, rfl⟩
  intro k hk
  cases hk
  refine ⟨true, 0, ⟨['0'], by simp, by simp, Or.inr ⟨rfl, by decide, by decide⟩⟩, by simp [XsdRange]⟩

/-- **C74** is false of the code: the text `é` has one character, but two bytes. -/
theorem C74_refuted : textOf (.lit ⟨['é'], none, none⟩) = some ['é'] ∧
    Prim.eval exEnv (data []) [] (.iri []) [.lit ⟨['é'], none, none⟩] (.maxLength 1) =
      .ok [⟨exEnv.obj (.lit ⟨['é'], none, none⟩), none⟩] := ⟨rfl, rfl⟩

/-- **C76** is false of the code: `x` is an instance of `C`, but reported. -/
theorem C76_refuted : Instance classGraph (.iri ['x']) (.iri ['C']) ∧
    Prim.eval exEnv classGraph [] (.iri []) [.iri ['x']] (.cls (.iri ['C'])) =
      .ok [⟨exEnv.obj (.iri ['x']), none⟩] := by
  refine ⟨⟨.iri ['A'], by simp [classGraph, data], .tail (b := .iri ['B']) (.single (by simp [classGraph, data]))
      (by simp [classGraph, data])⟩, ?_⟩
  have : classViolates classGraph (.iri ['C']) (.iri ['x']) = true := by decide
  simp only [Prim.eval, Env.each, exEnv, Env.obj, Env.term, List.filter, this, List.map]

/-- The hypotheses of C71 are met by the bound 3 and the values 5 and `a`. -/
example : Comparable exEnv (intLit .integer "3") [.lit (intLit .integer "5"), .lit ⟨['a'], none, none⟩] := by
  have hr : ∀ c : Char, c.isDigit = true → Readable exEnv.X ⟨[c], some (.int .integer), none⟩ := by
    intro c hc
    refine ⟨?_, ?_, ?_⟩
    · rintro k hk
      cases hk
      refine ⟨by simp, ?_⟩
      rintro m n ⟨ds, hds, hall, ⟨_, h | h, rfl⟩ | ⟨_, h, rfl⟩⟩
      · subst h
        refine ⟨?_, fun _ h => h⟩
        have : c.toNat ≤ 57 := by
          simp only [Char.isDigit, Bool.and_eq_true, decide_eq_true_eq] at hc
          exact hc.2
        simp only [value, List.length_nil, pow_zero, mul_one, Nat.add_zero, Int.natAbs_natCast]
        omega
      · simp only [List.cons.injEq] at h
        exact absurd h.2.symm hds
      · simp only [List.cons.injEq] at h
        exact absurd h.2.symm hds
    · simp
    · simp
  refine ⟨⟨rfl, Or.inl ⟨_, rfl⟩⟩, hr '3' (by decide), ?_⟩
  intro r hmem hn
  simp only [List.mem_cons, Term.lit.injEq, List.not_mem_nil, or_false] at hmem
  rcases hmem with rfl | rfl
  · exact ⟨hr '5' (by decide), by simp [Kept, intLit]⟩
  · obtain ⟨_, ⟨k, h⟩ | h | h | h⟩ := hn <;> cases h

/-- Results of C71, C72 and C75 for a few values. -/
example : Prim.eval exEnv (data []) [] (.iri []) [.lit (intLit .integer "5"), .lit ⟨['a'], none, none⟩]
      (.minInclusive (.typed ['3'] (.int .integer))) = .ok [⟨exEnv.obj (.lit ⟨['a'], none, none⟩), none⟩] ∧
    Prim.eval exEnv (data []) [] (.iri []) [.iri ['a'], .iri ['b']] (.isIn [.iri ['a']]) =
      .ok [⟨exEnv.obj (.iri ['b']), none⟩] ∧
    Prim.eval exEnv (data []) [] (.iri [])
      [.lit ⟨['a'], none, some ['e', 'N']⟩, .lit ⟨['b'], none, some ['e', 'n']⟩, .lit ⟨['b'], none, some ['f', 'r']⟩]
      (.uniqueLang true) = .ok [⟨none, none⟩] := ⟨rfl, rfl, rfl⟩

/-- The hypothesis of C75 is met by the lower case as normal form. -/
example : Norm exEnv.norm := by
  constructor
  · intro g g' h
    simp only [exEnv, Option.some.injEq] at h
    subst h
    simp [Char.toLower_toLower_eq_toLower]
  · intro g h e
    simp only [exEnv, e]

#print axioms C71_ranges_partial
#print axioms C71_refuted
#print axioms C72_counts_and_constants_partial
#print axioms C72_refuted
#print axioms C73_node_kinds
#print axioms C73_datatypes_partial
#print axioms C73_refuted
#print axioms C74_patterns
#print axioms C74_lengths_partial
#print axioms C74_refuted
#print axioms C75_languages
#print axioms C76_class_partial
#print axioms C76_refuted

end Shacl

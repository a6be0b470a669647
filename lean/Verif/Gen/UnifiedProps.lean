import Verif.Gen.Unified
import Verif.Gen.Conf

/-!
# Properties: schemas for generation (C132) and the measure of conformance (C133)
-/

namespace Gen

/-! ## Specification -/

/-- The numbers that the bounds of a unified property allow: an absent maximum is no limit, as the measure of conformance
takes it. -/
def UWithin (b : Option Nat × Option Nat) (k : Nat) : Prop := b.1.getD 0 ≤ k ∧ ∀ m, b.2 = some m → k ≤ m

/-- The meaning of what constraints of ShEx and SHACL speak of: the numbers of terms, the lexical forms of datatypes, the
members of value sets, regular expressions with flags, and digits. -/
structure Meaning (F V : Type) where
  number : UTerm → Option F
  le : F → F → Prop
  lt : F → F → Prop
  literal : Str → Option F
  proper : Str → Str → Prop
  member : V → UTerm → Prop
  isMatch : Str → Option Str → Str → Prop
  totalDigits : UTerm → Nat → Prop
  fractionDigits : UTerm → Nat → Prop

/-- The text of a term. -/
def UTerm.text : UTerm → Str
  | .iri s => s
  | .blank s => s
  | .lit lex _ => lex

variable {F V : Type}

/-- A term satisfies a facet (ShEx 2.1, section 5.4.6). -/
def XFacet.Holds (M : Meaning F V) (o : UTerm) : XFacet → Prop
  | .pattern re fl => M.isMatch re fl o.text
  | .minLength n => n ≤ o.text.length
  | .maxLength n => o.text.length ≤ n
  | .length n => o.text.length = n
  | .minInclusive v => ∃ x y, M.number o = some x ∧ M.literal v = some y ∧ M.le y x
  | .maxInclusive v => ∃ x y, M.number o = some x ∧ M.literal v = some y ∧ M.le x y
  | .minExclusive v => ∃ x y, M.number o = some x ∧ M.literal v = some y ∧ M.lt y x
  | .maxExclusive v => ∃ x y, M.number o = some x ∧ M.literal v = some y ∧ M.lt x y
  | .totalDigits n => M.totalDigits o n
  | .fractionDigits n => M.fractionDigits o n

/-- A term is of a node kind. -/
def XKind.Holds : XKind → UTerm → Prop
  | .iri, o => ∃ s, o = .iri s
  | .bnode, o => ∃ s, o = .blank s
  | .literal, o => ∃ l d, o = .lit l d
  | .nonLiteral, o => ¬∃ l d, o = .lit l d

/-- A term satisfies a node constraint (ShEx 2.1, section 5.4). -/
def XNode.Holds (M : Meaning F V) (nc : XNode V) (o : UTerm) : Prop :=
  (∀ dt, nc.datatype = some dt → ∃ lex, o = .lit lex dt ∧ M.proper lex dt) ∧
  (∀ k, nc.kind = some k → k.Holds o) ∧
  (∀ vs, nc.values = some vs → ∃ v ∈ vs, M.member v o) ∧
  ∀ f ∈ nc.facets, f.Holds M o

/-- The code and the meaning agree on a literal: it is proper, it has the number that its text has, and regular expressions
without flags do the same. -/
structure Agree (O : Outside F) (M : Meaning F V) (lex dt : Str) : Prop where
  proper : M.proper lex dt
  number : M.number (.lit lex dt) = O.parse lex
  literal : ∀ v, M.literal v = O.parse v
  le : ∀ x y, M.le x y ↔ O.le x y = true
  lt : ∀ x y, M.lt x y ↔ O.lt x y = true
  isMatch : ∀ re, M.isMatch re none lex ↔ O.isMatch re lex = some true

/-! ## C132 -/

/-- **C132** (partial), bounds. When a maximum is given, the bounds allow the same numbers as in ShEx.

Missing: an absent maximum, which is 1 in ShEx and no limit here (`C132_bounds_refuted`). -/
theorem C132_bounds_partial (min : Option Int) (m : Int) (hmin : ∀ n, min = some n → 0 ≤ n) (hm : -1 ≤ m) (k : Nat) :
    UWithin (convertCard min (some m)) k ↔ Within min (some m) k := by
  have h1 : (match min with
      | none => some 1
      | some m => if 0 ≤ m then some m.toNat else some 0).getD 0 = (min.getD 1).toNat := by
    cases min with
    | none => rfl
    | some n => simp [hmin n rfl]
  have h1' : (convertCard min (some m)).1.getD 0 = (min.getD 1).toNat := h1
  have h2 : 0 ≤ min.getD 1 := by
    cases min with
    | none => simp
    | some n => exact hmin n rfl
  rw [UWithin, h1', Within]
  simp only [convertCard, Option.bind_some, Option.getD_some, Option.some.injEq]
  refine and_congr (by omega) ?_
  by_cases h0 : 0 ≤ m
  · rw [if_pos h0]
    simp only [Option.some.injEq, forall_eq']
    omega
  · rw [if_neg h0]
    simp
    omega

/-- **C132** is false of the code for absent bounds: two values are allowed here and not in ShEx. -/
theorem C132_bounds_refuted : UWithin (convertCard none none) 2 ∧ ¬ Within none none 2 := by
  refine ⟨⟨by decide, by simp [convertCard]⟩, ?_⟩
  rintro ⟨_, h | h⟩
  · cases h
  · simp at h

example : UWithin (convertCard (some 0) (some (-1))) 7 ∧ ¬ UWithin (convertCard (some 2) (some 3)) 4 := by
  refine ⟨⟨by decide, by simp [convertCard]⟩, ?_⟩
  rintro ⟨_, h⟩
  exact absurd (h 3 rfl) (by decide)

/-- A facet without flags whose length is less than 2³². -/
def XFacet.Plain : XFacet → Prop
  | .pattern _ fl => fl = none
  | .minLength n => n < 2 ^ 32
  | .maxLength n => n < 2 ^ 32
  | _ => True

/-- A facet that the conversion has. -/
theorem facet_iff {O : Outside F} {M : Meaning F V} {lex dt : Str} (h : Agree O M lex dt) (types : UTerm → Option Str)
    {f : XFacet} {c : UConstraint} (hc : convertFacet f = some c)
    (hplain : f.Plain) :
    evalConstraint O types c (.lit lex dt) = true ↔ f.Holds M (.lit lex dt) := by
  have hnum : ∀ (v : Str) (cmp : F → F → Bool) (r : F → F → Prop), (∀ x y, r x y ↔ cmp x y = true) →
      (compareNumeric O (.lit lex dt) (.lit v none) cmp = true ↔
        ∃ x y, M.number (.lit lex dt) = some x ∧ M.literal v = some y ∧ r x y) := by
    intro v cmp r hr
    rw [h.number, h.literal]
    simp only [compareNumeric, termNumber, valueNumber]
    cases hx : O.parse lex with
    | none => simp
    | some x =>
      cases hy : O.parse v with
      | none => simp
      | some y => simp [hr]
  cases f with
  | pattern re fl =>
    cases hc
    simp only [XFacet.Plain] at hplain
    subst hplain
    simp only [evalConstraint, XFacet.Holds, UTerm.text, h.isMatch]
    cases O.isMatch re lex <;> simp
  | minLength n =>
    cases hc
    have e : asU32 n = n := Nat.mod_eq_of_lt hplain
    simp [evalConstraint, XFacet.Holds, UTerm.text, e]
  | maxLength n =>
    cases hc
    have e : asU32 n = n := Nat.mod_eq_of_lt hplain
    simp [evalConstraint, XFacet.Holds, UTerm.text, e]
  | length n => cases hc
  | minInclusive v => cases hc; exact hnum v _ (fun x y => M.le y x) fun x y => h.le y x
  | maxInclusive v => cases hc; exact hnum v _ (fun x y => M.le x y) fun x y => h.le x y
  | minExclusive v => cases hc; exact hnum v _ (fun x y => M.lt y x) fun x y => h.lt y x
  | maxExclusive v => cases hc; exact hnum v _ (fun x y => M.lt x y) fun x y => h.lt x y
  | totalDigits n => cases hc
  | fractionDigits n => cases hc

theorem filterMap_length_eq {α β : Type} (f : α → Option β) (l : List α) :
    (l.filterMap f).length ≤ l.length ∧ ((l.filterMap f).length = l.length ↔ ∀ a ∈ l, (f a).isSome) := by
  refine ⟨List.length_filterMap_le f l, ?_⟩
  induction l with
  | nil => simp
  | cons a l ih =>
    have hle := List.length_filterMap_le f l
    cases h : f a with
    | none => simp [List.filterMap_cons, h]; omega
    | some b => simp [List.filterMap_cons, h, ih]

/-- **C132** (partial), no loss. If the numbers of a node constraint say that all of it is represented, then a literal
satisfies what is represented exactly if it satisfies the constraint.

Missing: empty value sets, regular expressions with flags, lengths of 2³² and more, and terms that are not literals
(`C132_values_refuted`, `C132_flags_refuted`, `C132_iris_refuted`). -/
theorem C132_no_loss_partial (O : Outside F) (M : Meaning F V) (types : UTerm → Option Str) (nc : XNode V) (lex dt : Str)
    (h : Agree O M lex dt) (hloss : (convertNode nc).2.represented = (convertNode nc).2.original)
    (hvalues : nc.values ≠ some [])
    (hplain : ∀ f ∈ nc.facets, f.Plain) :
    (∀ c ∈ (convertNode nc).1, evalConstraint O types c (.lit lex dt) = true) ↔ nc.Holds M (.lit lex dt) := by
  obtain ⟨hle, heq⟩ := filterMap_length_eq convertFacet nc.facets
  simp only [convertNode] at hloss
  have hv : nc.values = none := by
    cases hn : nc.values with
    | none => rfl
    | some vs =>
      rw [hn] at hloss hvalues
      simp only [Option.map_some, Option.getD_some] at hloss
      have : vs.length = 0 := by omega
      exact absurd (by rw [List.length_eq_zero_iff.1 this]) hvalues
  rw [hv] at hloss
  simp only [Option.map_none, Option.getD_none] at hloss
  have hall := heq.1 (by omega)
  have hkind : ∀ k : XKind, kindHolds (convertKind k) (.lit lex dt) = true ↔ k.Holds (.lit lex dt) := by
    intro k
    cases k <;> simp [convertKind, kindHolds, XKind.Holds]
  simp only [convertNode, List.mem_append, List.mem_map, Option.mem_toList, List.mem_filterMap, XNode.Holds, hv]
  constructor
  · intro hc
    refine ⟨fun d hd => ?_, fun k hk => ?_, by simp, fun f hf => ?_⟩
    · have := hc (.datatype d) (Or.inl (Or.inl ⟨d, hd, rfl⟩))
      simp only [evalConstraint, beq_iff_eq] at this
      subst this
      exact ⟨lex, rfl, h.proper⟩
    · have := hc (.kind (convertKind k)) (Or.inl (Or.inr ⟨k, hk, rfl⟩))
      exact (hkind k).1 this
    · obtain ⟨c, hfc⟩ := Option.isSome_iff_exists.1 (hall f hf)
      exact (facet_iff h types hfc (hplain f hf)).1 (hc c (Or.inr ⟨f, hf, hfc⟩))
  · rintro ⟨h1, h2, -, h4⟩ c ((⟨d, hd, rfl⟩ | ⟨k, hk, rfl⟩) | ⟨f, hf, hfc⟩)
    · obtain ⟨l, e, _⟩ := h1 d hd
      cases e
      simp [evalConstraint]
    · exact (hkind k).2 (h2 k hk)
    · exact (facet_iff h types hfc (hplain f hf)).2 (h4 f hf)

/-- **C132** is false of the code for an empty value set: no loss is told and all terms are allowed, where the constraint
allows none. -/
theorem C132_values_refuted (O : Outside F) (M : Meaning F V) (types : UTerm → Option Str) (o : UTerm) :
    let nc : XNode V := ⟨none, none, some [], []⟩
    (convertNode nc).2 = ⟨0, 0⟩ ∧ (∀ c ∈ (convertNode nc).1, evalConstraint O types c o = true) ∧ ¬ nc.Holds M o := by
  refine ⟨rfl, by simp [convertNode], ?_⟩
  rintro ⟨-, -, h, -⟩
  obtain ⟨v, hv, _⟩ := h [] rfl
  cases hv

/-- **C132** is false of the code for flags: they are dropped, with no loss told. -/
theorem C132_flags_refuted (re fl : Str) :
    (convertNode (⟨none, none, none, [.pattern re (some fl)]⟩ : XNode V)) =
      convertNode (⟨none, none, none, [.pattern re none]⟩ : XNode V) ∧
    (convertNode (⟨none, none, none, [.pattern re (some fl)]⟩ : XNode V)).2 = ⟨1, 1⟩ := ⟨rfl, rfl⟩

/-- **C132** is false of the code for IRIs: an IRI that has the length that is asked for is not valid. -/
theorem C132_iris_refuted (O : Outside F) (M : Meaning F V) (types : UTerm → Option Str) (s : Str) :
    let nc : XNode V := ⟨none, none, none, [.minLength 0]⟩
    (convertNode nc).2 = ⟨1, 1⟩ ∧ nc.Holds M (.iri s) ∧
      ¬ ∀ c ∈ (convertNode nc).1, evalConstraint O types c (.iri s) = true := by
  refine ⟨rfl, ⟨by simp, by simp, by simp, ?_⟩, ?_⟩
  · simp [XFacet.Holds]
  · intro h
    exact absurd (h (.minLength 0) (by simp [convertNode, convertFacet, asU32])) (by simp [evalConstraint])

/-- A triple constraint occurs in an expression. -/
inductive Leaf : XExpr V → Str × Option (XValue V) × Option Int × Option Int → Prop
  | tc (p v min max) : Leaf (.tc p v min max) (p, v, min, max)
  | eachOf {es e l} : e ∈ es → Leaf e l → Leaf (.eachOf es) l
  | oneOf {es e l} : e ∈ es → Leaf e l → Leaf (.oneOf es) l

/-- All of a value expression is represented. -/
def XValue.Represented : XValue V → Prop
  | .ref _ => True
  | .node nc => (nc.values = none ∨ nc.values = some []) ∧ ∀ f ∈ nc.facets, match f with
      | .length _ => False
      | .totalDigits _ => False
      | .fractionDigits _ => False
      | _ => True
  | .other => False

theorem convertValue_tally (v : Option (XValue V)) :
    (convertValue v).2.represented ≤ (convertValue v).2.original ∧
    ((convertValue v).2.represented = (convertValue v).2.original ↔ ∀ x, v = some x → x.Represented) := by
  cases v with
  | none => simp [convertValue]
  | some x =>
    cases x with
    | ref l => simp [convertValue, XValue.Represented]
    | other => simp [convertValue, XValue.Represented]
    | node nc =>
      obtain ⟨hle, heq⟩ := filterMap_length_eq convertFacet nc.facets
      have hf : (∀ f ∈ nc.facets, (convertFacet f).isSome) ↔ ∀ f ∈ nc.facets, match f with
          | .length _ => False
          | .totalDigits _ => False
          | .fractionDigits _ => False
          | _ => True :=
        forall₂_congr fun f _ => by cases f <;> simp [convertFacet]
      simp only [convertValue, convertNode, Option.some.injEq, forall_eq', XValue.Represented, ← hf, ← heq]
      cases hv : nc.values with
      | none => simp; omega
      | some vs =>
        simp only [Option.map_some, Option.getD_some, reduceCtorEq, false_or, Option.some.injEq]
        have : vs = [] ↔ vs.length = 0 := List.length_eq_zero_iff.symm
        rw [this]
        omega

mutual
theorem convertExpr_props (e : XExpr V) : ∀ q, q ∈ (convertExpr e).1 ↔
    ∃ p v min max, Leaf e (p, v, min, max) ∧ q = (convertTC p v min max).1 := by
  intro q
  cases e with
  | tc p v min max =>
    simp only [convertExpr, List.mem_singleton]
    constructor
    · rintro rfl
      exact ⟨p, v, min, max, .tc .., rfl⟩
    · rintro ⟨p', v', min', max', h, rfl⟩
      cases h
      rfl
  | ref l =>
    simp only [convertExpr, List.not_mem_nil, false_iff]
    rintro ⟨_, _, _, _, h, _⟩
    cases h
  | eachOf es =>
    rw [convertExpr, convertExprs_props es]
    constructor
    · rintro ⟨e, he, p, v, min, max, h, rfl⟩
      exact ⟨p, v, min, max, .eachOf he h, rfl⟩
    · rintro ⟨p, v, min, max, h, rfl⟩
      cases h with
      | eachOf he h => exact ⟨_, he, p, v, min, max, h, rfl⟩
  | oneOf es =>
    rw [convertExpr, convertExprs_props es]
    constructor
    · rintro ⟨e, he, p, v, min, max, h, rfl⟩
      exact ⟨p, v, min, max, .oneOf he h, rfl⟩
    · rintro ⟨p, v, min, max, h, rfl⟩
      cases h with
      | oneOf he h => exact ⟨_, he, p, v, min, max, h, rfl⟩
theorem convertExprs_props (es : List (XExpr V)) : ∀ q, q ∈ (convertExprs es).1 ↔
    ∃ e ∈ es, ∃ p v min max, Leaf e (p, v, min, max) ∧ q = (convertTC p v min max).1 := by
  intro q
  cases es with
  | nil => simp [convertExprs]
  | cons e es =>
    rw [convertExprs, List.mem_append, convertExpr_props e, convertExprs_props es]
    simp
end

mutual
theorem convertExpr_tally (e : XExpr V) : (convertExpr e).2.represented ≤ (convertExpr e).2.original ∧
    ((convertExpr e).2.represented = (convertExpr e).2.original ↔
      ∀ p v min max, Leaf e (p, v, min, max) → ∀ x, v = some x → x.Represented) := by
  cases e with
  | tc p v min max =>
    obtain ⟨h1, h2⟩ := convertValue_tally v
    simp only [convertExpr, convertTC, Tally.add]
    refine ⟨by omega, ?_⟩
    rw [Nat.add_left_cancel_iff, h2]
    constructor
    · intro h p' v' min' max' hl
      cases hl
      exact h
    · intro h
      exact h p v min max (.tc ..)
  | ref l =>
    refine ⟨Nat.le_refl _, iff_of_true rfl ?_⟩
    intro _ _ _ _ h
    cases h
  | eachOf es =>
    rw [convertExpr]
    obtain ⟨h1, h2⟩ := convertExprs_tally es
    refine ⟨h1, h2.trans ⟨fun h p v min max hl => ?_, fun h e he p v min max hl => h p v min max (.eachOf he hl)⟩⟩
    cases hl with
    | eachOf he hl => exact h _ he p v min max hl
  | oneOf es =>
    rw [convertExpr]
    obtain ⟨h1, h2⟩ := convertExprs_tally es
    refine ⟨h1, h2.trans ⟨fun h p v min max hl => ?_, fun h e he p v min max hl => h p v min max (.oneOf he hl)⟩⟩
    cases hl with
    | oneOf he hl => exact h _ he p v min max hl
theorem convertExprs_tally (es : List (XExpr V)) : (convertExprs es).2.represented ≤ (convertExprs es).2.original ∧
    ((convertExprs es).2.represented = (convertExprs es).2.original ↔
      ∀ e ∈ es, ∀ p v min max, Leaf e (p, v, min, max) → ∀ x, v = some x → x.Represented) := by
  cases es with
  | nil => simp [convertExprs]
  | cons e es =>
    obtain ⟨a1, a2⟩ := convertExpr_tally e
    obtain ⟨b1, b2⟩ := convertExprs_tally es
    rw [convertExprs]
    simp only [Tally.add]
    refine ⟨by omega, ?_⟩
    rw [List.forall_mem_cons, ← a2, ← b2]
    omega
end

/-- **C132**, properties and numbers from ShEx. The properties are those of the triple constraints that occur. Never more
constraints are represented than there are; all are exactly if no triple constraint has a value set with members, a facet
for length or digits, or an expression that is neither a reference nor a node constraint. -/
theorem C132_shex (e : XExpr V) :
    (∀ q, q ∈ (convertExpr e).1 ↔ ∃ p v min max, Leaf e (p, v, min, max) ∧ q = (convertTC p v min max).1) ∧
    reported (convertExpr e).2 = (convertExpr e).2 ∧
    ((convertExpr e).2.represented = (convertExpr e).2.original ↔
      ∀ p v min max, Leaf e (p, v, min, max) → ∀ x, v = some x → x.Represented) := by
  refine ⟨convertExpr_props e, ?_, (convertExpr_tally e).2⟩
  have h := (convertExpr_tally e).1
  have : Nat.min (convertExpr e).2.represented (convertExpr e).2.original = (convertExpr e).2.represented :=
    Nat.min_eq_left h
  rw [reported, this]

/-- **C132** is false of the code for alternatives and references to expressions: alternatives are all put together, and
what is referred to is left out, with no loss told. -/
theorem C132_groups_refuted (es : List (XExpr V)) (l : Str) :
    convertExpr (.oneOf es) = convertExpr (.eachOf es) ∧ convertExpr (.ref l : XExpr V) = ([], ⟨0, 0⟩) := ⟨rfl, rfl⟩

example : convertExpr (.eachOf [.tc ['p'] (some (.node ⟨some xsdString, none, none, [.minLength 2, .length 5]⟩)) (some 1) none,
      .oneOf [.tc ['q'] (some (.ref ['S'])) none none, .ref ['E']]] : XExpr Unit) =
    ([⟨['p'], [.datatype xsdString, .minLength 2], some 1, none⟩, ⟨['q'], [.shape ['S']], some 1, none⟩], ⟨5, 4⟩) := by
  decide +kernel

/-! ## C132, SHACL -/

/-- A number of values satisfies a component. -/
def SComp.CountHolds (k : Nat) : SComp → Prop
  | .minCount n => n ≤ k
  | .maxCount n => (k : Int) ≤ n
  | _ => True

/-- The last of the numbers: what the loop over the components leaves. -/
theorem extractCard_fold (a b : Option Int) (cs : List SComp) (acc : Option Nat × Option Nat)
    (hmin : ∀ n, .minCount n ∈ cs → a = some n) (hmax : ∀ n, .maxCount n ∈ cs → b = some n)
    (ha : ∀ n, a = some n → 0 ≤ n ∧ n < 2 ^ 32) (hb : ∀ n, b = some n → 0 ≤ n ∧ n < 2 ^ 32) (k : Nat)
    (hacc1 : ∀ m, acc.1 = some m → a = some (m : Int)) (hacc2 : ∀ m, acc.2 = some m → b = some (m : Int)) :
    UWithin (cs.foldl cardStep acc) k ↔ UWithin acc k ∧ ∀ c ∈ cs, c.CountHolds k := by
  have hcast : ∀ n : Int, 0 ≤ n → n < 2 ^ 32 → ((intAsU32 n : Nat) : Int) = n := by
    intro n h0 h1
    rw [intAsU32, Int.emod_eq_of_lt h0 h1, Int.toNat_of_nonneg h0]
  induction cs generalizing acc with
  | nil => simp
  | cons c cs ih =>
    have hmin' : ∀ n, .minCount n ∈ cs → a = some n := fun n h => hmin n (List.mem_cons_of_mem _ h)
    have hmax' : ∀ n, .maxCount n ∈ cs → b = some n := fun n h => hmax n (List.mem_cons_of_mem _ h)
    rw [List.foldl_cons, List.forall_mem_cons]
    cases c with
    | minCount n =>
      have hn := hmin n List.mem_cons_self
      obtain ⟨h0, h1⟩ := ha n hn
      have e := hcast n h0 h1
      simp only [cardStep, if_pos h0]
      refine (ih (some (intAsU32 n), acc.2) hmin' hmax' (by intro m hm; cases hm; rw [e]; exact hn) hacc2).trans ?_
      rw [← and_assoc]
      refine and_congr ?_ Iff.rfl
      show UWithin (some (intAsU32 n), acc.2) k ↔ UWithin acc k ∧ n ≤ k
      generalize intAsU32 n = m at e
      subst e
      obtain ⟨x, y⟩ := acc
      simp only [UWithin, Option.getD_some]
      cases x with
      | none =>
        simp only [Option.getD_none, Nat.zero_le, true_and, Int.ofNat_le]
        exact And.comm
      | some m' =>
        have := hacc1 m' rfl
        rw [hn] at this
        have hm : (m : Int) = m' := Option.some.inj this
        obtain rfl : m = m' := by omega
        simp only [Option.getD_some, Int.ofNat_le]
        exact ⟨fun h => ⟨h, h.1⟩, fun h => h.1⟩
    | maxCount n =>
      have hn := hmax n List.mem_cons_self
      obtain ⟨h0, h1⟩ := hb n hn
      have e := hcast n h0 h1
      simp only [cardStep, if_pos h0]
      refine (ih (acc.1, some (intAsU32 n)) hmin' hmax' hacc1 (by intro m hm; cases hm; rw [e]; exact hn)).trans ?_
      rw [← and_assoc]
      refine and_congr ?_ Iff.rfl
      show UWithin (acc.1, some (intAsU32 n)) k ↔ UWithin acc k ∧ (k : Int) ≤ n
      generalize intAsU32 n = m at e
      subst e
      obtain ⟨x, y⟩ := acc
      simp only [UWithin, Option.some.injEq, forall_eq']
      cases y with
      | none =>
        simp only [reduceCtorEq, false_implies, implies_true, and_true]
        omega
      | some m' =>
        have := hacc2 m' rfl
        rw [hn] at this
        have hm : (m : Int) = m' := Option.some.inj this
        simp only [Option.some.injEq, forall_eq']
        omega
    | _ => simp only [cardStep, SComp.CountHolds, true_and]; exact ih _ hmin' hmax' hacc1 hacc2

/-- **C132**, bounds from SHACL. With one minimum and one maximum at most, the bounds allow the numbers that the components
allow. -/
theorem C132_shacl_bounds (cs : List SComp) (a b : Option Int) (hmin : ∀ n, .minCount n ∈ cs → a = some n)
    (hmax : ∀ n, .maxCount n ∈ cs → b = some n) (ha : ∀ n, a = some n → 0 ≤ n ∧ n < 2 ^ 32)
    (hb : ∀ n, b = some n → 0 ≤ n ∧ n < 2 ^ 32) (path : Str) (k : Nat) :
    UWithin ((convertPropShape path cs).1.min, (convertPropShape path cs).1.max) k ↔ ∀ c ∈ cs, c.CountHolds k := by
  have := extractCard_fold a b cs (none, none) hmin hmax ha hb k (by simp) (by simp)
  simp only [convertPropShape]
  rw [show UWithin ((extractCard cs).1, (extractCard cs).2) k ↔ UWithin (extractCard cs) k from Iff.rfl, extractCard, this]
  simp [UWithin]

/-- **C132**, numbers from SHACL. Never more components are represented than there are. -/
theorem C132_shacl_represented (path : Str) (cs : List SComp) :
    (convertPropShape path cs).2.represented ≤ (convertPropShape path cs).2.original := by
  have hfold : ∀ (cs : List SComp) (acc : Option Nat × Option Nat),
      (cs.foldl cardStep acc).1.toList.length + (cs.foldl cardStep acc).2.toList.length + (cs.filterMap convertComp).length ≤
      acc.1.toList.length + acc.2.toList.length + cs.length := by
    intro cs
    induction cs with
    | nil => intro acc; simp
    | cons c cs ih =>
      intro acc
      have h1 := ih (cardStep acc c)
      have h2 : (cardStep acc c).1.toList.length + (cardStep acc c).2.toList.length + (convertComp c).toList.length ≤
          acc.1.toList.length + acc.2.toList.length + 1 := by
        have ho : ∀ o : Option Nat, o.toList.length ≤ 1 := by intro o; cases o <;> simp
        have := ho acc.1
        have := ho acc.2
        cases c with
        | minCount n => simp only [cardStep, convertComp]; split <;> simp; omega
        | maxCount n => simp only [cardStep, convertComp]; split <;> simp
        | _ => simp [cardStep, convertComp]
      have h3 : ((c :: cs).filterMap convertComp).length = (convertComp c).toList.length + (cs.filterMap convertComp).length := by
        cases hc : convertComp c <;> simp [List.filterMap_cons, hc, Nat.add_comm]
      rw [List.foldl_cons, List.length_cons, h3]
      omega
  have := hfold cs (none, none)
  simpa [convertPropShape, extractCard] using this

/-- A value satisfies a component for values (SHACL, section 4); components for numbers of values and those that speak of
all values together are not here. -/
def SComp.ValueHolds (M : Meaning F V) (o : UTerm) : SComp → Prop
  | .datatype dt => ∃ lex, o = .lit lex dt ∧ M.proper lex dt
  | .kind k => match o with
    | .iri _ => k = .iri ∨ k = .blankOrIri ∨ k = .iriOrLiteral
    | .blank _ => k = .blank ∨ k = .blankOrIri ∨ k = .blankOrLiteral
    | .lit _ _ => k = .literal ∨ k = .blankOrLiteral ∨ k = .iriOrLiteral
  | .pattern re fl => (∀ s, o ≠ .blank s) ∧ M.isMatch re fl o.text
  | .minLength n => (∀ s, o ≠ .blank s) ∧ n ≤ o.text.length
  | .maxLength n => (∀ s, o ≠ .blank s) ∧ (o.text.length : Int) ≤ n
  | .minInclusive v _ => ∃ x y, M.number o = some x ∧ M.literal v = some y ∧ M.le y x
  | .maxInclusive v _ => ∃ x y, M.number o = some x ∧ M.literal v = some y ∧ M.le x y
  | .minExclusive v _ => ∃ x y, M.number o = some x ∧ M.literal v = some y ∧ M.lt y x
  | .maxExclusive v _ => ∃ x y, M.number o = some x ∧ M.literal v = some y ∧ M.lt x y
  | .oneIn vs => ∃ v ∈ vs, match v with
    | .iri s => o = .iri s
    | .lit l d => o = .lit l d
  | _ => True

/-- **C132** (partial), values from SHACL. A literal satisfies the constraint that a component is converted to exactly if it
satisfies the component.

Missing: flags, negative lengths and those of 2³² and more, `sh:hasValue`, which asks for one value here for all
(`C132_hasValue_refuted`), references, and terms that are not literals. -/
theorem C132_shacl_values_partial (O : Outside F) (M : Meaning F V) (types : UTerm → Option Str) (lex dt : Str)
    (h : Agree O M lex dt) (c : SComp) (u : UConstraint) (hc : convertComp c = some u)
    (hplain : match c with
      | .pattern _ fl => fl = none
      | .minLength n => 0 ≤ n ∧ n < 2 ^ 32
      | .maxLength n => 0 ≤ n ∧ n < 2 ^ 32
      | .hasValue _ => False
      | .node _ => False
      | _ => True) :
    evalConstraint O types u (.lit lex dt) = true ↔ c.ValueHolds M (.lit lex dt) := by
  have hcast : ∀ n : Int, 0 ≤ n → n < 2 ^ 32 → ((intAsU32 n : Nat) : Int) = n := by
    intro n h0 h1
    rw [intAsU32, Int.emod_eq_of_lt h0 h1, Int.toNat_of_nonneg h0]
  have hnum : ∀ (v d : Str) (cmp : F → F → Bool) (r : F → F → Prop), (∀ x y, r x y ↔ cmp x y = true) →
      (compareNumeric O (.lit lex dt) (.lit v (some d)) cmp = true ↔
        ∃ x y, M.number (.lit lex dt) = some x ∧ M.literal v = some y ∧ r x y) := by
    intro v d cmp r hr
    rw [h.number, h.literal]
    simp only [compareNumeric, termNumber, valueNumber]
    cases hx : O.parse lex with
    | none => simp
    | some x =>
      cases hy : O.parse v with
      | none => simp
      | some y => simp [hr]
  cases c with
  | minCount n => cases hc
  | maxCount n => cases hc
  | other => cases hc
  | hasValue v => exact hplain.elim
  | node r => exact hplain.elim
  | datatype d =>
    cases hc
    simp only [evalConstraint, beq_iff_eq, SComp.ValueHolds]
    constructor
    · rintro rfl
      exact ⟨lex, rfl, h.proper⟩
    · rintro ⟨l, e, _⟩
      cases e
      rfl
  | kind k =>
    cases hc
    cases k <;> simp [evalConstraint, kindHolds, SComp.ValueHolds]
  | pattern re fl =>
    cases hc
    simp only at hplain
    subst hplain
    simp only [evalConstraint, SComp.ValueHolds, UTerm.text, h.isMatch]
    cases O.isMatch re lex <;> simp
  | minLength n =>
    cases hc
    simp only at hplain
    have := hcast n hplain.1 hplain.2
    simp [evalConstraint, SComp.ValueHolds, UTerm.text]
    omega
  | maxLength n =>
    cases hc
    simp only at hplain
    have := hcast n hplain.1 hplain.2
    simp [evalConstraint, SComp.ValueHolds, UTerm.text]
    omega
  | minInclusive v d => cases hc; exact hnum v d _ (fun x y => M.le y x) fun x y => h.le y x
  | maxInclusive v d => cases hc; exact hnum v d _ (fun x y => M.le x y) fun x y => h.le x y
  | minExclusive v d => cases hc; exact hnum v d _ (fun x y => M.lt y x) fun x y => h.lt y x
  | maxExclusive v d => cases hc; exact hnum v d _ (fun x y => M.lt x y) fun x y => h.lt x y
  | oneIn vs =>
    cases hc
    simp only [evalConstraint, SComp.ValueHolds, List.any_map, List.any_eq_true, Function.comp_apply]
    refine exists_congr fun v => and_congr Iff.rfl ?_
    cases v with
    | iri s => simp [SValue.unified, valueMatches]
    | lit l d => simp [SValue.unified, valueMatches]

/-- **C132** is false of the code for `sh:hasValue`: two values, one of them the one asked for, satisfy it in SHACL, but
not what it is converted to. And a property without constraints for values gets one for `xsd:string`. -/
theorem C132_hasValue_refuted (O : Outside F) (types : UTerm → Option Str) (a b d : Str) (hab : a ≠ b) :
    convertComp (.hasValue (.lit a d)) = some (.hasValue (.lit a (some d))) ∧
    evalConstraint O types (.hasValue (.lit a (some d))) (.lit b d) = false ∧
    (convertPropShape ['p'] [.minCount 1]).1.constraints = [.datatype xsdString] := by
  refine ⟨rfl, ?_, by decide⟩
  simp [evalConstraint, valueMatches, Ne.symm hab]

example : convertPropShape ['p'] [.minCount 1, .maxCount 3, .kind .iri, .other] =
    (⟨['p'], [.kind .iri], some 1, some 3⟩, ⟨4, 3⟩) := by decide +kernel

/-- A meaning that agrees with a toy outside on all literals. -/
example : Agree (V := Unit) (⟨fun s => some s.length, fun a b => decide (a ≤ b), fun a b => decide (a < b),
      fun _ _ => some true⟩ : Outside Nat)
    ⟨fun o => some o.text.length, (· ≤ ·), (· < ·), fun s => some s.length, fun _ _ => True, fun _ _ => False,
      fun _ _ _ => True, fun _ _ => True, fun _ _ => True⟩ ['5'] xsdString := by
  refine ⟨trivial, rfl, fun _ => rfl, fun x y => by simp, fun x y => by simp, fun _ => by simp⟩

/-- **C132** (node kinds). The kind that a node kind is translated to holds for the same terms. -/
theorem C132_kinds (k : XKind) (o : UTerm) : kindHolds (convertKind k) o = true ↔ k.Holds o := by
  cases k <;> cases o <;> simp [kindHolds, convertKind, XKind.Holds]

example : kindHolds (convertKind .nonLiteral) (.blank ['b']) = true ∧
    kindHolds (convertKind .nonLiteral) (.lit ['b'] xsdString) = false := by decide +kernel

/-- **C133** (node kinds). A node kind holds for the kinds of terms that it names. -/
theorem C133_kinds (k : UKind) (s l d : Str) :
    (kindHolds k (.iri s) = true ↔ k = .iri ∨ k = .blankOrIri ∨ k = .iriOrLiteral) ∧
    (kindHolds k (.blank s) = true ↔ k = .blank ∨ k = .blankOrIri ∨ k = .blankOrLiteral) ∧
    (kindHolds k (.lit l d) = true ↔ k = .literal ∨ k = .iriOrLiteral ∨ k = .blankOrLiteral) := by
  cases k <;> simp [kindHolds]

example : kindHolds .iriOrLiteral (.blank ['b']) = false := rfl

/-- **C132** (triple constraints). A triple constraint becomes a property with its predicate and its bounds. -/
theorem C132_constraint (p : Str) (v : Option (XValue V)) (min : Option Int) (m : Int)
    (hmin : ∀ n, min = some n → 0 ≤ n) (hm : -1 ≤ m) (k : Nat) :
    (convertTC p v min (some m)).1.iri = p ∧
    (UWithin ((convertTC p v min (some m)).1.min, (convertTC p v min (some m)).1.max) k ↔ Within min (some m) k) :=
  ⟨rfl, C132_bounds_partial min m hmin hm k⟩

example : (convertTC ['p'] (none : Option (XValue Unit)) (some 2) (some 3)).1.min = some 2 ∧
    (convertTC ['p'] (none : Option (XValue Unit)) (some 2) (some 3)).1.max = some 3 := by decide +kernel

/-- **C132** (references). A reference to a shape, in ShEx or with `sh:node`, becomes a constraint that holds for the IRIs
and blank nodes that have this shape as type. -/
theorem C132_references (O : Outside F) (types : UTerm → Option Str) (p l : Str) (min max : Option Int) :
    (convertTC p (some (.ref l : XValue V)) min max).1.constraints = [.shape l] ∧
    convertComp (.node l) = some (.shape l) ∧
    ∀ o, evalConstraint O types (.shape l) o = true ↔ (¬ ∃ a d, o = .lit a d) ∧ types o = some l := by
  refine ⟨rfl, rfl, fun o => ?_⟩
  cases o <;> simp [evalConstraint]

example (O : Outside F) : evalConstraint O (fun _ => some ['S']) (.shape ['S']) (.blank ['b']) = true := by
  simp [evalConstraint]

end Gen

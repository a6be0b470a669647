import Verif.Value.Spec
import Verif.Lit.PropsLex

/-!
# Properties: value sets (C31, C32) and node constraints (C63, C64, C65, C96)
-/

namespace Value
open Lit

/-! ## C32 -/

theorem splitDash_ne_nil (s : Str) : splitDash s ≠ [] := by
  cases s with
  | nil => simp [splitDash]
  | cons c cs =>
    rw [splitDash]
    split
    · simp
    · split <;> simp

theorem toLower_dash (c : Char) : c.toLower = '-' ↔ c = '-' := by
  constructor
  · intro h
    unfold Char.toLower at h
    split at h
    · rename_i hc
      have := congrArg Char.toNat h
      simp only [Char.toNat] at this
      exfalso
      obtain ⟨h1, h2⟩ := hc
      have e : ('-' : Char).val.toNat = 45 := rfl
      rw [e] at this
      have h1' : 65 ≤ c.val.toNat := h1
      have h2' : c.val.toNat ≤ 90 := h2
      simp only [UInt32.toNat_add] at this
      have : (c.val.toNat + 32) % 2 ^ 32 = 45 := this
      omega
    · exact h
  · rintro rfl; rfl

theorem splitDash_low (s : Str) : splitDash (low s) = (splitDash s).map low := by
  induction s with
  | nil => rfl
  | cons c cs ih =>
    have h1 : low (c :: cs) = c.toLower :: low cs := rfl
    rw [h1, splitDash, splitDash, ih]
    by_cases hc : c = '-'
    · rw [if_pos hc, if_pos ((toLower_dash c).2 hc)]; rfl
    · rw [if_neg hc, if_neg (fun h => hc ((toLower_dash c).1 h))]
      cases splitDash cs <;> rfl

theorem splitDash_append (a r : Str) : splitDash (a ++ '-' :: r) = splitDash a ++ splitDash r := by
  induction a with
  | nil => rfl
  | cons c cs ih =>
    rw [List.cons_append, splitDash, splitDash, ih]
    by_cases hc : c = '-'
    · rw [if_pos hc, if_pos hc]; rfl
    · rw [if_neg hc, if_neg hc]
      cases h : splitDash cs with
      | nil => exact absurd h (splitDash_ne_nil cs)
      | cons p ps => rfl

/-- Subtags put together again. -/
def joinDash : List Str → Str
  | [] => []
  | [p] => p
  | p :: q :: ps => p ++ '-' :: joinDash (q :: ps)

theorem join_split (s : Str) : joinDash (splitDash s) = s := by
  induction s with
  | nil => rfl
  | cons c cs ih =>
    rw [splitDash]
    cases h : splitDash cs with
    | nil => exact absurd h (splitDash_ne_nil cs)
    | cons p ps =>
      rw [h] at ih
      by_cases hc : c = '-'
      · subst hc; rw [if_pos rfl]; show '-' :: joinDash (p :: ps) = _; rw [ih]
      · rw [if_neg hc]
        cases ps with
        | nil => simpa [joinDash] using ih
        | cons q qs => simpa [joinDash] using ih

theorem join_append {l m : List Str} (hl : l ≠ []) (hm : m ≠ []) :
    joinDash (l ++ m) = joinDash l ++ '-' :: joinDash m := by
  induction l with
  | nil => exact absurd rfl hl
  | cons p ps ih =>
    cases ps with
    | nil =>
      cases m with
      | nil => exact absurd rfl hm
      | cons q qs => rfl
    | cons q qs =>
      have := ih (by simp)
      simp only [List.cons_append, joinDash] at this ⊢
      rw [this]; simp

theorem split_prefix (a b : Str) : splitDash a <+: splitDash b ↔ b = a ∨ ∃ r, b = a ++ '-' :: r := by
  constructor
  · rintro ⟨m, h⟩
    rcases m with _ | ⟨q, qs⟩
    · left
      rw [List.append_nil] at h
      rw [← join_split a, ← join_split b, h]
    · right
      refine ⟨joinDash (q :: qs), ?_⟩
      rw [← join_split b, ← h, join_append (splitDash_ne_nil a) (by simp), join_split]
  · rintro (rfl | ⟨r, rfl⟩)
    · exact List.prefix_refl _
    · rw [splitDash_append]; exact List.prefix_append _ _

theorem zip_all_prefix (l m : List Str) :
    (if l.length > m.length then false else (l.zip m).all fun (s, t) => eqIgnoreCase s t) = true ↔
      l.map low <+: m.map low := by
  induction l generalizing m with
  | nil => simp
  | cons p ps ih =>
    cases m with
    | nil => simp
    | cons q qs =>
      have := ih qs
      simp only [List.length_cons, gt_iff_lt, Nat.add_lt_add_iff_right, List.zip_cons_cons, List.all_cons,
        List.map_cons, List.cons_prefix_cons] at this ⊢
      rw [← this]
      by_cases h : qs.length < ps.length
      · simp [h]
      · simp [h, eqIgnoreCase, low]

/-- **C32**. A language stem matches a tag exactly when, letter case aside, the tag is the stem or goes
on with a dash after it. -/
theorem C32_language_stems (stem tag : Str) : langStemMatches stem tag = true ↔ LangBegins stem tag := by
  rw [langStemMatches, zip_all_prefix, ← splitDash_low, ← splitDash_low, split_prefix]
  rfl

/-- `en` matches `en-GB` and `EN`, and neither `english` nor `e`. -/
example : langStemMatches ['e', 'n'] ['e', 'n', '-', 'G', 'B'] = true ∧
    langStemMatches ['e', 'n'] ['E', 'N'] = true ∧
    langStemMatches ['e', 'n'] ['e', 'n', 'g'] = false ∧
    langStemMatches ['e', 'n'] ['e'] = false := by decide

/-! ## C31 -/

section
variable {D : Type} (X : Ext D)

theorem passes_iff (sw : Str → Str → Bool) (begins : Str → Str → Prop)
    (h : ∀ s t, sw s t = true ↔ begins s t) (t : Str) (es : List Excl) :
    passes sw (some t) es = true ↔ ∀ e ∈ es, ¬ Excluded begins t e := by
  have hh : ∀ e : Excl, e.hits sw (some t) = true ↔ Excluded begins t e := by
    intro e
    cases e with
    | value s => simp [Excl.hits, Excluded]
    | stem s => exact h s t
  induction es with
  | nil => simp [passes]
  | cons e es ih =>
    rw [passes, List.forall_mem_cons, ← hh e]
    cases e.hits sw (some t) <;> simp [ih]

theorem stemRange_some (sw : Str → Str → Bool) (begins : Str → Str → Prop)
    (h : ∀ s t, sw s t = true ↔ begins s t) (t : Str) (st : Stem) (ex : Option (List Excl)) :
    stemRange sw (some t) st ex = true ↔ InRange begins st (ex.getD []) t := by
  have hst : st.fits sw (some t) = true ↔ ∀ s, st = .is s → begins s t := by
    cases st with
    | wildcard => simp [Stem.fits]
    | is s => simp [Stem.fits, h]
  unfold stemRange InRange
  rw [← hst]
  cases st.fits sw (some t)
  · simp
  · cases ex with
    | none => simp
    | some es => simpa using passes_iff sw begins h t es

theorem startsWith_iff (s t : Str) : startsWith s t = true ↔ s <+: t := by
  simp [startsWith]

/-- **C31**, the part that holds: a member of a value set matches exactly the terms it stands for —
those with the stem that no exclusion excludes — as long as wildcard ranges meet only terms of their
own kind; and a value set holds exactly the terms of its members. Missing: wildcard ranges and terms of
another kind, which are accepted (`C31_refuted`). -/
theorem C31_value_sets_partial (vs : List (Member D)) (o : Obj D) :
    (∀ m, OwnKind m o → (m.matches X o = true ↔ Accepts X m o)) ∧
      (checkValue X vs o = true ↔ ∃ m ∈ vs, m.matches X o = true) ∧
      ((∀ m ∈ vs, OwnKind m o) → (checkValue X vs o = true ↔ ∃ m ∈ vs, Accepts X m o)) := by
  have key : ∀ m, OwnKind m o → (m.matches X o = true ↔ Accepts X m o) := by
    intro m hk
    have hnone : ∀ (sw : Str → Str → Bool) st ex, (∀ h : st = Stem.wildcard, False) →
        stemRange sw none st ex = false := by
      intro sw st ex h
      cases st with
      | wildcard => exact (h rfl).elim
      | is s => rfl
    cases m with
    | iriStem st =>
      cases o <;> simp only [Member.matches, Accepts, startsWith_iff, reduceCtorEq, exists_false,
        Bool.false_eq_true, Obj.iri.injEq]
      exact ⟨fun ⟨t, h⟩ => ⟨t, h.symm⟩, fun ⟨t, h⟩ => ⟨t, h.symm⟩⟩
    | iriStemRange st ex =>
      simp only [Member.matches, Accepts]
      cases o with
      | iri s =>
        rw [Obj.iriText, stemRange_some _ _ startsWith_iff]
        exact ⟨fun h => ⟨s, rfl, h⟩, fun ⟨s', e, h⟩ => by cases e; exact h⟩
      | _ =>
        show stemRange _ none _ _ = true ↔ _
        rw [hnone]
        · simp
        · rintro rfl; obtain ⟨s, h⟩ := hk; cases h
    | literalStem st =>
      cases o <;> simp only [Member.matches, Accepts, startsWith_iff, reduceCtorEq, exists_false,
        Bool.false_eq_true, Obj.lit.injEq, false_and]
      exact ⟨fun ⟨t, h⟩ => ⟨_, t, rfl, h.symm⟩, fun ⟨l, t, e, h⟩ => by subst e; exact ⟨t, h.symm⟩⟩
    | literalStemRange st ex =>
      simp only [Member.matches, Accepts]
      cases o with
      | lit l =>
        rw [Obj.litText, stemRange_some _ _ startsWith_iff]
        exact ⟨fun h => ⟨l, rfl, h⟩, fun ⟨s', e, h⟩ => by cases e; exact h⟩
      | _ =>
        show stemRange _ none _ _ = true ↔ _
        rw [hnone]
        · simp
        · rintro rfl; obtain ⟨s, h⟩ := hk; cases h
    | language g =>
      rcases o with s | s | (⟨t, _ | g'⟩ | _ | _ | _ | _ | _) | _ <;>
        simp [Member.matches, Accepts, Obj.lang, eq_comm]
    | languageStem st =>
      rcases o with s | s | (⟨t, _ | g'⟩ | _ | _ | _ | _ | _) | _ <;>
        simp [Member.matches, Accepts, Obj.lang, InRange]
      cases st <;> simp [C32_language_stems]
    | languageStemRange st ex =>
      have hn : (∀ t g, o ≠ .lit (.str t (some g))) → st ≠ .wildcard := by
        rintro h rfl
        obtain ⟨t, g, e⟩ := hk
        exact h t g e
      rcases o with s | s | (⟨t, _ | g'⟩ | _ | _ | _ | _ | _) | _
      case lit.str.some =>
        simp only [Member.matches, Accepts, Obj.lang]
        rw [stemRange_some _ _ C32_language_stems]
        exact ⟨fun h => ⟨t, g', rfl, h⟩, fun ⟨t', g, e, h⟩ => by cases e; exact h⟩
      all_goals
        simp only [Member.matches, Accepts, Obj.lang]
        rw [hnone _ _ _ (fun h => hn (by simp) h)]
        simp
    | iri s => cases o <;> simp [Member.matches, Accepts]
    | literal l => cases o <;> simp [Member.matches, Accepts]
  refine ⟨key, by simp [checkValue], fun h => ?_⟩
  simp only [checkValue, List.any_eq_true]
  exact ⟨fun ⟨m, hm, h'⟩ => ⟨m, hm, (key m (h m hm)).1 h'⟩, fun ⟨m, hm, h'⟩ => ⟨m, hm, (key m (h m hm)).2 h'⟩⟩

/-- **C31** is false of the code: `[. - <a>]` holds every blank node and every literal, and the
range of literals `[. - "a"]` every IRI. -/
theorem C31_refuted :
    (∀ b, (Member.iriStemRange (D := D) .wildcard (some [.value ['a']])).matches X (.bnode b) = true ∧
      ¬ Accepts X (.iriStemRange .wildcard (some [.value ['a']])) (.bnode b)) ∧
    ∀ i, (Member.literalStemRange (D := D) .wildcard (some [.value ['a']])).matches X (.iri i) = true ∧
      ¬ Accepts X (.literalStemRange .wildcard (some [.value ['a']])) (.iri i) := by
  refine ⟨fun b => ⟨rfl, ?_⟩, fun i => ⟨rfl, ?_⟩⟩ <;> (rintro ⟨_, h, _⟩; cases h)

/-- C31 applies: `<a>~ - <ab>~` has `ac` and not `abc`. -/
example : (Member.iriStemRange (D := Unit) (.is ['a']) (some [.stem ['a', 'b']])).matches exX (.iri ['a', 'c']) = true ∧
    (Member.iriStemRange (D := Unit) (.is ['a']) (some [.stem ['a', 'b']])).matches exX (.iri ['a', 'b', 'c']) = false ∧
    OwnKind (Member.iriStemRange (D := Unit) (.is ['a']) (some [.stem ['a', 'b']])) (.iri ['a', 'c']) :=
  ⟨by decide, by decide, trivial⟩

/-! ## C63 -/

theorem allMatch_iff (re : Str → Option (Str → Bool)) (o : Obj D) (cs : List (Cond D)) :
    Cond.allMatch X re o cs = true ↔ ∀ c ∈ cs, c.matches X re o = true := by
  induction cs with
  | nil => simp [Cond.allMatch]
  | cons c cs ih =>
    rw [Cond.allMatch, List.forall_mem_cons, ← ih]
    cases c.matches X re o <;> simp

theorem options_iff (re : Str → Option (Str → Bool)) (o : Obj D) (os : List (Option (Cond D))) :
    (options2cond os).matches X re o = true ↔ ∀ c, some c ∈ os → c.matches X re o = true := by
  have hm : ∀ c, some c ∈ os ↔ c ∈ os.filterMap id := by simp [List.mem_filterMap]
  simp only [hm]
  unfold options2cond
  generalize os.filterMap id = cs
  split
  · simp [Cond.matches]
  · simp
  · rw [Cond.matches, allMatch_iff]

theorem kind_iff (k : NodeKind) (o : Obj D) : checkNodeKind k o = true ↔ HasKind k o := by
  cases k <;> cases o <;> simp [checkNodeKind, HasKind]

theorem datatype_iff (o : Obj D) (d : Dt) (hd : ∀ p q, d ≠ .prefixed p q) :
    checkDt X o d = true ↔ ∃ l, o = .lit l ∧ HasDatatype X d l := by
  rcases o with s | s | l | _
  · simp [checkDt, Obj.checked]
  · simp [checkDt, Obj.checked]
  · simp only [Obj.lit.injEq, exists_eq_left']
    have idem : ∀ l' : Literal D, l.intoChecked X = some l' → checkDt X (.lit l) d = checkLitDt X l' d := by
      intro l' h
      simp only [checkDt, Obj.checked, h, Option.map_some]
    rcases l with ⟨t, _ | g⟩ | ⟨lex, dt⟩ | (_ | _ | _ | _) | _ | _ | _
    case typed =>
      cases dt with
      | prefixed p q =>
        simp [checkDt, Obj.checked, Literal.intoChecked, checkDatatype, HasDatatype, RightText]
      | int k =>
        cases h : parseInt k lex with
        | none =>
          rw [idem (.wrong lex (.int k) []) (by simp [Literal.intoChecked, checkDatatype, validate, h])]
          simp [checkLitDt, Literal.intoChecked, HasDatatype, RightText, h]
        | some n =>
          rw [idem (.num (.int k n)) (by simp [Literal.intoChecked, checkDatatype, validate, h])]
          simp [checkLitDt, Literal.intoChecked, Literal.datatype, Num.datatype, HasDatatype, RightText, h]
      | decimal =>
        by_cases he : lex.contains 'e' || lex.contains 'E'
        · rw [idem (.wrong lex .decimal []) (by simp only [Literal.intoChecked, checkDatatype, he, if_true, validate])]
          have : ¬ ('e' ∉ lex ∧ 'E' ∉ lex) := by
            simp only [List.contains_eq_mem, Bool.or_eq_true, decide_eq_true_eq] at he
            tauto
          simp only [checkLitDt, Literal.intoChecked, HasDatatype, RightText, Bool.false_eq_true, false_iff]
          rintro ⟨_, h1, h2, _⟩
          exact this ⟨h1, h2⟩
        · have he' : 'e' ∉ lex ∧ 'E' ∉ lex := by
            simp only [List.contains_eq_mem, Bool.or_eq_true, decide_eq_true_eq] at he
            tauto
          cases h : X.parseDec lex with
          | none =>
            rw [idem (.wrong lex .decimal []) (by simp only [Literal.intoChecked, checkDatatype, if_neg he, h, validate])]
            simp [checkLitDt, Literal.intoChecked, HasDatatype, RightText, h]
          | some n =>
            rw [idem (.num (.decimal n)) (by simp only [Literal.intoChecked, checkDatatype, if_neg he, h, validate])]
            simp [checkLitDt, Literal.intoChecked, Literal.datatype, Num.datatype, HasDatatype, RightText, h, he']
      | double =>
        cases hp : plusInf lex with
        | true =>
          rw [idem (.wrong lex .double []) (by simp only [Literal.intoChecked, checkDatatype, hp, if_true, validate])]
          simp [checkLitDt, Literal.intoChecked, HasDatatype, RightText, hp]
        | false =>
          cases h : X.parseF64 lex with
          | none =>
            rw [idem (.wrong lex .double []) (by simp [Literal.intoChecked, checkDatatype, hp, h, validate])]
            simp [checkLitDt, Literal.intoChecked, HasDatatype, RightText, h]
          | some n =>
            rw [idem (.num (.double n)) (by simp [Literal.intoChecked, checkDatatype, hp, h, validate])]
            simp [checkLitDt, Literal.intoChecked, Literal.datatype, Num.datatype, HasDatatype, RightText, h, hp]
      | float =>
        cases hp : plusInf lex with
        | true =>
          rw [idem (.wrong lex .float []) (by simp only [Literal.intoChecked, checkDatatype, hp, if_true, validate])]
          simp [checkLitDt, Literal.intoChecked, HasDatatype, RightText, hp]
        | false =>
          cases h : X.parseF32 lex with
          | none =>
            rw [idem (.wrong lex .float []) (by simp [Literal.intoChecked, checkDatatype, hp, h, validate])]
            simp [checkLitDt, Literal.intoChecked, HasDatatype, RightText, h]
          | some n =>
            rw [idem (.num (.float n)) (by simp [Literal.intoChecked, checkDatatype, hp, h, validate])]
            simp [checkLitDt, Literal.intoChecked, Literal.datatype, Num.datatype, HasDatatype, RightText, h, hp]
      | boolean =>
        have hmem : lex ∈ [['t', 'r', 'u', 'e'], ['f', 'a', 'l', 's', 'e'], ['1'], ['0']] ↔
            ∃ b, parseBool lex = some b := by
          simp only [parseBool, List.mem_cons, List.not_mem_nil, or_false]
          split_ifs <;> simp <;> tauto
        cases h : parseBool lex with
        | none =>
          rw [idem (.wrong lex .boolean []) (by simp [Literal.intoChecked, checkDatatype, h, validate])]
          simp only [checkLitDt, Literal.intoChecked, HasDatatype, RightText, hmem, h]
          simp
        | some n =>
          rw [idem (.bool n) (by simp [Literal.intoChecked, checkDatatype, h, validate])]
          simp only [checkLitDt, Literal.intoChecked, Literal.datatype, HasDatatype, RightText, hmem, h]
          simp
      | dateTime =>
        cases h : X.parseDT lex with
        | none =>
          rw [idem (.wrong lex .dateTime []) (by simp [Literal.intoChecked, checkDatatype, h, validate])]
          simp [checkLitDt, Literal.intoChecked, HasDatatype, RightText, h]
        | some n =>
          rw [idem (.datetime n) (by simp [Literal.intoChecked, checkDatatype, h, validate])]
          simp [checkLitDt, Literal.intoChecked, Literal.datatype, HasDatatype, RightText, h]
      | string =>
        rw [idem (.typed lex .string) rfl]
        simp [checkLitDt, Literal.intoChecked, checkDatatype, Literal.datatype, HasDatatype, RightText]
      | langString =>
        rw [idem (.typed lex .langString) rfl]
        simp [checkLitDt, Literal.intoChecked, checkDatatype, Literal.datatype, HasDatatype, RightText]
      | other i =>
        rw [idem (.typed lex (.other i)) rfl]
        simp [checkLitDt, Literal.intoChecked, checkDatatype, Literal.datatype, HasDatatype, RightText]
    all_goals
      rw [idem _ rfl]
      simp [checkLitDt, Literal.intoChecked, Literal.datatype, Num.datatype, HasDatatype, eq_comm]
  · simp [checkDt, Obj.checked]

/-- **C63**. A node satisfies a compiled node constraint exactly when it has the node kind, is a
literal of the datatype with a right text, passes every facet, and is in the value set — each where
given. -/
theorem C63_node_constraints (re : Str → Option (Str → Bool)) (c : NodeConstraint D) (o : Obj D)
    (hd : ∀ p q, c.datatype ≠ some (.prefixed p q)) :
    c.compile.matches X re o = true ↔
      (∀ k, c.nodeKind = some k → HasKind k o) ∧
      (∀ d, c.datatype = some d → ∃ l, o = .lit l ∧ HasDatatype X d l) ∧
      (∀ fs, c.facets = some fs → ∀ f ∈ fs, checkFacet X re o f = true) ∧
      ∀ vs, c.values = some vs → ∃ m ∈ vs, m.matches X o = true := by
  obtain ⟨nk, dt, fs, vs⟩ := c
  rw [NodeConstraint.compile, options_iff]
  simp only [List.mem_cons, List.not_mem_nil, or_false] at *
  constructor
  · intro h
    refine ⟨?_, ?_, ?_, ?_⟩
    · rintro k rfl
      rw [← kind_iff]
      simpa [Cond.matches, Kind.eval] using h (.single (some (.nodeKind k))) (Or.inl rfl)
    · rintro d rfl
      rw [← datatype_iff X o d (fun p q e => hd p q (by rw [e]))]
      simpa [Cond.matches, Kind.eval] using h (.single (some (.datatype d))) (Or.inr (Or.inl rfl))
    · rintro fs rfl f hf
      have := h _ (Or.inr (Or.inr (Or.inl rfl)))
      rw [Cond.matches, allMatch_iff] at this
      simpa [Cond.matches, Kind.eval] using this _ (List.mem_map_of_mem hf)
    · rintro vs rfl
      have := h _ (Or.inr (Or.inr (Or.inr rfl)))
      simpa [Cond.matches, Kind.eval, checkValue] using this
  · rintro ⟨h1, h2, h3, h4⟩ c (h | h | h | h)
    all_goals
      rw [eq_comm, Option.map_eq_some_iff] at h
      obtain ⟨x, rfl, rfl⟩ := h
    · rw [Cond.matches, Kind.eval, kind_iff]; exact h1 x rfl
    · rw [Cond.matches, Kind.eval, datatype_iff X o x (fun p q e => hd p q (by rw [e]))]; exact h2 x rfl
    · rw [Cond.matches, allMatch_iff]
      intro c hc
      obtain ⟨f, hf, rfl⟩ := List.mem_map.1 hc
      rw [Cond.matches, Kind.eval]; exact h3 x rfl f hf
    · rw [Cond.matches, Kind.eval, checkValue, List.any_eq_true]; exact h4 x rfl

/-- C63 applies: `xsd:byte MININCLUSIVE 3` takes `"5"^^xsd:byte` and neither `"2"^^xsd:byte` nor
`"x"^^xsd:byte`. -/
example :
    let c : NodeConstraint Unit := ⟨some .literal, some (.int .byte), some [.minInclusive (.int .integer 3)], none⟩
    c.compile.matches exX (fun _ => none) (.lit (.typed ['5'] (.int .byte))) = true ∧
      c.compile.matches exX (fun _ => none) (.lit (.typed ['2'] (.int .byte))) = false ∧
      c.compile.matches exX (fun _ => none) (.lit (.typed ['x'] (.int .byte))) = false := by decide

/-! ## C64 -/

/-- **C64**, the part that holds: for a node with a number and a bound that both convert to decimals,
the range facets compare the values; a node without number fails all of them. Total and fraction
digits bound those of the value. Missing: numbers that do not convert, and total digits of fractions
below one (`C64_refuted`). -/
theorem C64_numeric_facets_partial (re : Str → Option (Str → Bool)) (o : Obj D) :
    (∀ a v x y, o.number X = some a → a.val X = some x → Num.val X v = some y →
      (checkFacet X re o (.minInclusive v) = true ↔ y ≤ x) ∧
      (checkFacet X re o (.minExclusive v) = true ↔ y < x) ∧
      (checkFacet X re o (.maxInclusive v) = true ↔ x ≤ y) ∧
      (checkFacet X re o (.maxExclusive v) = true ↔ x < y)) ∧
    (∀ k i n, o.number X = some (.int k i) →
      (checkFacet X re o (.totalDigits n) = true ↔ ∃ t ≤ n, IsTotalDigits i t) ∧
      checkFacet X re o (.fractionDigits n) = true) ∧
    (∀ d n, o.number X = some (.decimal d) →
      ((1 ≤ |d.val| ∨ ∃ i : Int, d.val = i) →
        (checkFacet X re o (.totalDigits n) = true ↔ ∃ t ≤ n, IsTotalDigits d.val t)) ∧
      (checkFacet X re o (.fractionDigits n) = true ↔ ∃ t ≤ n, IsFractionDigits d.val t)) ∧
    (o.number X = none → ∀ v n, checkFacet X re o (.minInclusive v) = false ∧
      checkFacet X re o (.minExclusive v) = false ∧ checkFacet X re o (.maxInclusive v) = false ∧
      checkFacet X re o (.maxExclusive v) = false ∧ checkFacet X re o (.totalDigits n) = false ∧
      checkFacet X re o (.fractionDigits n) = false) := by
  have huniq : ∀ {P : Set Nat} {a b : Nat}, IsLeast P a → IsLeast P b → a = b := fun h h' => h.unique h'
  refine ⟨fun a v x y ha hx hy => ?_, fun k i n ha => ?_, fun d n ha => ?_, fun h v n => ?_⟩
  · obtain ⟨h1, h2, _⟩ := C48_convertible_partial X a v x y hx hy
    simp only [checkFacet, ha, Bool.not_eq_true', ← Bool.not_eq_true, h1, h2, not_lt, not_le, and_self]
  · obtain ⟨⟨t, h1, h2⟩, _⟩ := C57_total_digits_partial ⟨0, 0⟩ k i
    obtain ⟨_, ⟨f, h3, h4⟩, _⟩ := C57_fraction_digits ⟨0, 0⟩ k i 0
    refine ⟨?_, ?_⟩
    · simp only [checkFacet, ha, h1, decide_eq_true_eq]
      exact ⟨fun h => ⟨t, h, h2⟩, fun ⟨t', h, h'⟩ => by rw [huniq h2 h']; exact h⟩
    · simp [checkFacet, ha, Num.fractionDigits]
  · refine ⟨fun hb => ?_, ?_⟩
    · obtain ⟨t, h1, h2⟩ := (C57_total_digits_partial d .integer 0).2 hb
      simp only [checkFacet, ha, h1, decide_eq_true_eq]
      exact ⟨fun h => ⟨t, h, h2⟩, fun ⟨t', h, h'⟩ => by rw [huniq h2 h']; exact h⟩
    · obtain ⟨⟨f, h3, h4⟩, _⟩ := C57_fraction_digits d .integer 0 0
      simp only [checkFacet, ha, h3, decide_eq_true_eq]
      exact ⟨fun h => ⟨f, h, h4⟩, fun ⟨t', h, h'⟩ => by rw [huniq h4 h']; exact h⟩
  · simp [checkFacet, h]

/-- **C64** is false of the code: `2^100` is rejected by a lower bound of zero written as a byte, and
`0.5` by a bound of one on total digits. -/
theorem C64_refuted :
    checkFacet exX (fun _ => none) (.lit (.num (.int .integer (2 ^ 100)))) (.minInclusive (.int .byte 0)) = false ∧
    checkFacet exX (fun _ => none) (.lit (.num (.decimal ⟨5, 1⟩))) (.totalDigits 1) = false ∧
    IsTotalDigits (Dec.val ⟨5, 1⟩) 1 :=
  ⟨by decide, by decide, C57_refuted.2⟩

/-- C64 applies to `7` and a bound of `5`. -/
example : (Obj.lit (.typed ['7'] (.int .integer))).number exX = some (.int .integer 7) ∧
    Num.val exX (.int .integer 7) = some 7 ∧
    checkFacet exX (fun _ => none) (.lit (.typed ['7'] (.int .integer))) (.minExclusive (.int .integer 5)) = true := by
  refine ⟨rfl, ?_, by decide⟩
  simp [Num.val, Num.toDec, decOfInt, Dec.val]

/-! ## C65 -/

theorem byteLen_append (a b : Str) : byteLen (a ++ b) = byteLen a + byteLen b := by simp [byteLen]

theorem byteLen_ascii (s : Str) (h : ∀ c ∈ s, c.toNat < 128) : byteLen s = s.length := by
  induction s with
  | nil => rfl
  | cons c cs ih =>
    have hc : c.utf8Size = 1 := by
      have := h c (by simp)
      unfold Char.utf8Size
      rw [if_pos]
      show c.val ≤ 0x7f
      rw [UInt32.le_iff_toNat_le]
      have : c.val.toNat < 128 := this
      simp; omega
    have := ih (fun d hd => h d (List.mem_cons_of_mem _ hd))
    simp only [byteLen, List.map_cons, List.sum_cons, List.length_cons] at this ⊢
    rw [this, hc]; omega

theorem length_eq (o : Obj D) : o.length X = byteLen (o.text X) := by
  induction o with
  | iri | bnode | lit => rfl
  | triple s p o ih =>
    cases s <;> simp only [Obj.length, Obj.text, Subj.length, byteLen_append, ih]

/-- **C65**, the part that holds: for terms written in ASCII the length facets bound the number of
characters. In general they bound the bytes. Missing: characters of several bytes (`C65_refuted`). -/
theorem C65_length_facets_partial (re : Str → Option (Str → Bool)) (o : Obj D)
    (h : ∀ c ∈ o.text X, c.toNat < 128) (n : Nat) :
    (checkFacet X re o (.length n) = true ↔ (o.text X).length = n) ∧
      (checkFacet X re o (.minLength n) = true ↔ n ≤ (o.text X).length) ∧
      (checkFacet X re o (.maxLength n) = true ↔ (o.text X).length ≤ n) := by
  simp only [checkFacet, length_eq, byteLen_ascii _ h, decide_eq_true_eq, ge_iff_le, and_self]

/-- **C65** is false of the code: `é` is one character, and has not length one. -/
theorem C65_refuted : checkFacet X (fun _ => none) (.lit (.str ['é'] none)) (.length 1) = false ∧
    ((Obj.lit (D := D) (.str ['é'] none)).text X).length = 1 := ⟨rfl, rfl⟩

/-- C65 applies: `abc` has length three. -/
example : checkFacet exX (fun _ => none) (.lit (.str ['a', 'b', 'c'] none)) (.length 3) = true ∧
    ∀ c ∈ (Obj.lit (.str ['a', 'b', 'c'] none)).text exX, c.toNat < 128 := ⟨by decide, by decide⟩

/-! ## C96 -/

/-- **C96**. A pattern facet takes a node exactly when the node is not a triple term and the regular
expression — behind its flags, when there are flags — can be built and matches the text of the node.
So a regular expression that cannot be built takes no node. -/
theorem C96_pattern_facet (re : Str → Option (Str → Bool)) (o : Obj D) (r : Str) (f : Option Str) :
    checkFacet X re o (.pattern r f) = true ↔
      (∀ s p q, o ≠ .triple s p q) ∧
      ∃ prog, re (withFlags f r) = some prog ∧ prog (o.text X) = true := by
  rcases f with _ | _ | ⟨c, f⟩
  · cases h : re r <;> cases o <;> simp [checkFacet, checkPattern, withFlags, Obj.text, h]
  · cases h : re r <;> cases o <;> simp [checkFacet, checkPattern, withFlags, Obj.text, h]
  · cases h : re ('(' :: '?' :: c :: (f ++ ')' :: r)) <;> cases o <;>
      simp [checkFacet, checkPattern, withFlags, Obj.text, h]

/-- C96 applies: with an engine that knows the flag `i`, the pattern `a` with that flag takes `A`,
which the pattern alone does not. -/
example :
    let re : Str → Option (Str → Bool) := fun t =>
      if t = "a".toList then some (· == "a".toList)
      else if t = "(?i)a".toList then some (fun s => s == "a".toList || s == "A".toList) else none
    checkFacet exX re (.iri "A".toList) (.pattern "a".toList (some "i".toList)) = true ∧
      checkFacet exX re (.iri "A".toList) (.pattern "a".toList none) = false ∧
      checkFacet exX re (.iri "A".toList) (.pattern "a".toList (some "q".toList)) = false := by decide

end

#print axioms C31_value_sets_partial
#print axioms C31_refuted
#print axioms C32_language_stems
#print axioms C63_node_constraints
#print axioms C64_numeric_facets_partial
#print axioms C64_refuted
#print axioms C65_length_facets_partial
#print axioms C65_refuted
#print axioms C96_pattern_facet

end Value

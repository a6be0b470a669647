import Verif.Lit.PropsNum

/-!
# Properties: lexical forms, conversion, matching and comparison of literals (C58–C62)
-/

namespace Lit

section
variable {D : Type} (X : Ext D)

/-! ## C58 -/

/-- **C58**. Matching of literals is reflexive, symmetric and transitive, and equal literals match; the
converse holds but for the text of an error. -/
theorem C58_matching (hr : ∀ d, X.eqDT d d = true) (hs : ∀ d e, X.eqDT d e = true → X.eqDT e d = true)
    (ht : ∀ d e f, X.eqDT d e = true → X.eqDT e f = true → X.eqDT d f = true) :
    (∀ a : Literal D, a.matchLit X a = true) ∧
    (∀ a b : Literal D, a.matchLit X b = true → b.matchLit X a = true) ∧
    (∀ a b c : Literal D, a.matchLit X b = true → b.matchLit X c = true → a.matchLit X c = true) ∧
    (∀ a b : Literal D, a.eq X b = true → a.matchLit X b = true) ∧
    ∀ a b : Literal D, a.matchLit X b = true →
      a.eq X b = true ∨ ∃ l d e e', a = .wrong l d e ∧ b = .wrong l d e' := by
  obtain ⟨n1, n2, n3, _⟩ := C47_equivalence_and_hash X
  refine ⟨fun a => ?_, fun a b h => ?_, fun a b c h1 h2 => ?_, fun a b h => ?_, fun a b h => ?_⟩
  · cases a <;> simp [Literal.matchLit, hr, n1]
  · cases a <;> cases b <;> simp_all [Literal.matchLit]
  · cases a <;> cases b <;> first | (simp [Literal.matchLit] at h1; done) | skip
    all_goals cases c <;> first | (simp [Literal.matchLit] at h2; done) | skip
    all_goals simp only [Literal.matchLit, decide_eq_true_eq, beq_iff_eq] at h1 h2 ⊢
    · exact ⟨h1.1.trans h2.1, h1.2.trans h2.2⟩
    · exact ⟨h1.1.trans h2.1, h1.2.trans h2.2⟩
    · exact n3 _ _ _ h1 h2
    · exact ht _ _ _ h1 h2
    · exact h1.trans h2
    · exact ⟨h1.1.trans h2.1, h1.2.trans h2.2⟩
  · cases a <;> cases b <;> simp_all [Literal.matchLit, Literal.eq]
  · cases a <;> cases b <;> simp_all [Literal.matchLit, Literal.eq]

/-! ## C59 -/

theorem parseInt_iff (k : IntKind) (hk : k ≠ .nonNegativeInteger) (s : Str) (n : Int) :
    parseInt k s = some n ↔
      ∃ minus, IntLex s minus n ∧ XsdRange k n ∧ Fits k n ∧ (minus = true → ¬ Unsigned k) := by
  have hb : ∀ (p : Int → Prop) [DecidablePred p] (o : Option Int),
      (o.bind fun v => if p v then some v else none) = some n ↔ o = some n ∧ p n := by
    intro p _ o
    cases o with
    | none => simp
    | some v =>
      simp only [Option.bind_some, Option.some.injEq]
      constructor
      · intro h
        split at h
        · simp only [Option.some.injEq] at h; subst h; exact ⟨rfl, by assumption⟩
        · cases h
      · rintro ⟨rfl, h⟩
        rw [if_pos h]
  cases k <;> first | (exact absurd rfl hk) | skip
  all_goals
    simp only [parseInt, parseI128, parseU128, hb, rustParse_some, XsdRange, Fits, Unsigned]
  all_goals constructor
  all_goals first
    | (rintro ⟨⟨minus, h1, h2, h3, h4⟩, h5⟩
       exact ⟨minus, h1, by omega, by omega, by simpa using h2⟩)
    | (rintro ⟨minus, h1, h2, h3, h4⟩
       exact ⟨minus, h1, by first | trivial | omega, by omega, by simpa using h2⟩)
    | (rintro ⟨minus, h1, h2, h3, h4⟩
       exact ⟨⟨minus, h1, by simpa using h4, by omega, by omega⟩, by omega⟩)
    | (rintro ⟨minus, h1, h2, h3, h4⟩
       exact ⟨minus, h1, by simpa using h4, by omega, by omega⟩)

theorem stripChar_cons (c d : Char) (ds : Str) :
    stripChar c (d :: ds) = if d = c then some ds else none := rfl

theorem checkDatatype_int (k : IntKind) (s : Str) :
    (∀ n, checkDatatype X s (.int k) = some (.num (.int k n)) ↔ parseInt k s = some n) ∧
      (parseInt k s = none → checkDatatype X s (.int k) = some (.wrong s (.int k) [])) := by
  simp only [checkDatatype, validate]
  cases h : parseInt k s <;> simp

/-- **C59**, the part that holds: a typed literal of an integer datatype other than
`nonNegativeInteger` is taken as the number `n` exactly when its text writes `n` as XSD allows, with
no minus if the type is unsigned, `n` is in the range of the datatype and fits the machine type; any
other text is marked as wrong. For `nonNegativeInteger` every correct text is taken, and what is taken
writes the number after at most three signs. Missing: numbers beyond 128 bits, `-0` for unsigned types,
and texts with several signs (`C59_refuted`). -/
theorem C59_integer_texts_partial (k : IntKind) (s : Str) :
    (k ≠ .nonNegativeInteger → ∀ n, checkDatatype X s (.int k) = some (.num (.int k n)) ↔
      ∃ minus, IntLex s minus n ∧ XsdRange k n ∧ Fits k n ∧ (minus = true → ¬ Unsigned k)) ∧
    ((∀ n, checkDatatype X s (.int k) ≠ some (.num (.int k n))) →
      checkDatatype X s (.int k) = some (.wrong s (.int k) [])) ∧
    (∀ n minus, IntLex s minus n → 0 ≤ n → n < 2 ^ 128 →
      checkDatatype X s (.int .nonNegativeInteger) = some (.num (.int .nonNegativeInteger n))) ∧
    (∀ n, checkDatatype X s (.int .nonNegativeInteger) = some (.num (.int .nonNegativeInteger n)) →
      ∃ signs ds : Str, s = signs ++ ds ∧ signs.length ≤ 3 ∧ (∀ c ∈ signs, c = '+' ∨ c = '-') ∧
        ds ≠ [] ∧ (∀ c ∈ ds, c.isDigit = true) ∧ n = value ds ∧ n < 2 ^ 128) := by
  have hnd : ∀ {c : Char}, c.isDigit = true → c ≠ '+' ∧ c ≠ '-' := by
    intro c h
    constructor <;> (rintro rfl; revert h; decide)
  have hu : ∀ (t : Str) (n : Int), parseU128 t = some n ↔
      ∃ ds, ds ≠ [] ∧ (∀ c ∈ ds, c.isDigit = true) ∧ (t = ds ∨ t = '+' :: ds) ∧ n = value ds ∧ n < 2 ^ 128 := by
    intro t n
    rw [parseU128, rustParse_some]
    constructor
    · rintro ⟨minus, ⟨ds, h1, h2, (⟨_, h3, h4⟩ | ⟨hm, _, _⟩)⟩, h5, h6, h7⟩
      · exact ⟨ds, h1, h2, h3, h4, by omega⟩
      · exact absurd (h5 hm) (by decide)
    · rintro ⟨ds, h1, h2, h3, h4, h5⟩
      exact ⟨false, ⟨ds, h1, h2, Or.inl ⟨rfl, h3, h4⟩⟩, by simp, by omega, by omega⟩
  have hstrip : ∀ {ds : Str} (c : Char), (c = '+' ∨ c = '-') → (∀ c ∈ ds, c.isDigit = true) →
      stripChar c ds = none := by
    intro ds c hc h
    cases ds with
    | nil => rfl
    | cons d ds =>
      have := hnd (h d (by simp))
      rw [stripChar_cons, if_neg]
      rintro rfl
      rcases hc with hc | hc
      · exact this.1 hc
      · exact this.2 hc
  refine ⟨fun hk n => ?_, fun h => ?_, fun n minus hl h0 h1 => ?_, fun n h => ?_⟩
  · rw [(checkDatatype_int X k s).1, parseInt_iff k hk]
  · cases hp : parseInt k s with
    | none => exact (checkDatatype_int X k s).2 hp
    | some n => exact absurd (((checkDatatype_int X k s).1 n).2 hp) (h n)
  · rw [(checkDatatype_int X _ s).1]
    obtain ⟨ds, hne, hd, (⟨_, rfl | rfl, rfl⟩ | ⟨_, rfl, hn⟩)⟩ := hl
    · simp only [parseInt, parseNonNegative, hstrip '+' (Or.inl rfl) hd, Option.getD_none,
        hstrip '-' (Or.inr rfl) hd]
      exact (hu _ _).2 ⟨_, hne, hd, Or.inl rfl, rfl, h1⟩
    · simp only [parseInt, parseNonNegative, stripChar_cons, if_true, Option.getD_some]
      rw [hstrip '-' (Or.inr rfl) hd]
      exact (hu _ _).2 ⟨_, hne, hd, Or.inl rfl, rfl, h1⟩
    · have hz : value ds = 0 := by omega
      have hp : parseU128 ds = some 0 := (hu _ _).2 ⟨_, hne, hd, Or.inl rfl, by rw [hz]; rfl, by decide⟩
      have hpm : ¬ ('-' = '+') := by decide
      simp only [parseInt, parseNonNegative, stripChar_cons, if_neg hpm, Option.getD_none, if_true, hp]
      simp [hn, hz]
  · rw [(checkDatatype_int X _ s).1] at h
    simp only [parseInt, parseNonNegative] at h
    -- one sign at most is taken off first
    obtain ⟨p, t, hp, hs, hsign⟩ : ∃ p t : Str, (stripChar '+' s).getD s = t ∧ s = p ++ t ∧
        (p = [] ∨ p = ['+']) := by
      cases hs : stripChar '+' s with
      | none => exact ⟨[], s, rfl, rfl, Or.inl rfl⟩
      | some t =>
        refine ⟨['+'], t, rfl, ?_, Or.inr rfl⟩
        cases s with
        | nil => cases hs
        | cons c cs =>
          simp only [stripChar_cons] at hs
          split at hs
          · rename_i hc; subst hc; rw [Option.some.inj hs]; rfl
          · cases hs
    rw [hp] at h
    have hpl : p.length ≤ 1 ∧ ∀ c ∈ p, c = '+' ∨ c = '-' := by rcases hsign with rfl | rfl <;> simp
    cases ht : stripChar '-' t with
    | none =>
      rw [ht] at h
      obtain ⟨ds, h1, h2, h3, h4, h5⟩ := (hu _ _).1 h
      rcases h3 with rfl | rfl
      · exact ⟨p, t, hs, by omega, hpl.2, h1, h2, h4, h5⟩
      · refine ⟨p ++ ['+'], ds, by simp [hs], by simp; omega, ?_, h1, h2, h4, h5⟩
        intro c hc
        rcases List.mem_append.1 hc with hc | hc
        · exact hpl.2 c hc
        · left; simpa using hc
    | some rest =>
      rw [ht] at h
      have htr : t = '-' :: rest := by
        cases t with
        | nil => cases ht
        | cons c cs =>
          simp only [stripChar_cons] at ht
          split at ht
          · rename_i hc; subst hc; rw [Option.some.inj ht]
          · cases ht
      simp only [Option.bind_eq_some_iff] at h
      obtain ⟨v, hv, h⟩ := h
      split at h
      · rename_i hv0
        subst hv0
        have hn := Option.some.inj h
        obtain ⟨ds, h1, h2, h3, h4, h5⟩ := (hu _ _).1 hv
        rcases h3 with rfl | rfl
        · refine ⟨p ++ ['-'], rest, by simp [hs, htr], by simp; omega, ?_, h1, h2, by rw [← hn, h4], by omega⟩
          intro c hc
          rcases List.mem_append.1 hc with hc | hc
          · exact hpl.2 c hc
          · right; simpa using hc
        · refine ⟨p ++ ['-', '+'], ds, by simp [hs, htr], by simp; omega, ?_, h1, h2, by rw [← hn, h4], by omega⟩
          intro c hc
          rcases List.mem_append.1 hc with hc | hc
          · exact hpl.2 c hc
          · simp only [List.mem_cons, List.not_mem_nil, or_false] at hc
            exact hc.symm
      · cases h

/-! ## C60 -/

theorem reparse {k : IntKind} {s : Str} {n : Int} (h : parseInt k s = some n) :
    parseInt k (intText n) = some n := by
  by_cases hk : k = .nonNegativeInteger
  · subst hk
    obtain ⟨_, _, h3, h4⟩ := C59_integer_texts_partial exX .nonNegativeInteger s
    obtain ⟨_, _, _, _, _, _, _, hn, hlt⟩ := h4 n (((checkDatatype_int exX _ s).1 n).2 h)
    obtain ⟨_, _, h3, _⟩ := C59_integer_texts_partial exX .nonNegativeInteger (intText n)
    exact ((checkDatatype_int exX _ _).1 n).1 (h3 n _ (intLex_text n) (by omega) hlt)
  · rw [parseInt_iff k hk] at h ⊢
    obtain ⟨minus, _, h2, h3, _⟩ := h
    refine ⟨_, intLex_text n, h2, h3, fun hneg => ?_⟩
    simp only [decide_eq_true_eq] at hneg
    cases k <;> simp only [Unsigned, not_false_eq_true, not_true_eq_false, XsdRange] at h2 ⊢ <;> omega

/-- What a literal read from RDF can be. -/
theorem ofRdf_cases {normLang : Str → Option Str} {r : RdfLiteral} {l : Literal D} (hr : r.WF)
    (h : Literal.ofRdf X normLang r = some l) :
    (r.dt = none ∧ r.lang = none ∧ l = .str r.lex none) ∨
    (r.dt = none ∧ ∃ g g', r.lang = some g ∧ normLang g = some g' ∧ l = .str r.lex (some g')) ∨
    (∃ dt, (r.dt = some dt ∧ r.lang = none) ∧ (∃ e, l = .wrong r.lex dt e ∧ checkDatatype X r.lex dt = some l)) ∨
    (∃ dt, (r.dt = some dt ∧ r.lang = none) ∧ l = .typed r.lex dt ∧
      ((dt = .int .integer ∨ dt = .decimal ∨ dt = .double ∨ dt = .float) ∧
        (∀ e, checkDatatype X r.lex dt ≠ some (.wrong r.lex dt e)) ∨ ∃ i, dt = .other i)) ∨
    (∃ k n, (r.dt = some (.int k) ∧ r.lang = none) ∧ k ≠ .integer ∧ parseInt k r.lex = some n ∧ l = .num (.int k n)) ∨
    (∃ b, (r.dt = some .boolean ∧ r.lang = none) ∧ parseBool r.lex = some b ∧ l = .bool b) ∨
    (∃ d, (r.dt = some .dateTime ∧ r.lang = none) ∧ X.parseDT r.lex = some d ∧ l = .datetime d) := by
  obtain ⟨lex, dt, lang⟩ := r
  obtain ⟨⟨w1, w2, w3⟩, w4⟩ := hr
  simp only at w1 w2 w3 w4
  cases dt with
  | none =>
    cases lang with
    | none =>
      simp only [Literal.ofRdf, Option.some.injEq] at h
      exact Or.inl ⟨rfl, rfl, h.symm⟩
    | some g =>
      simp only [Literal.ofRdf, Option.map_eq_some_iff] at h
      obtain ⟨g', h1, h2⟩ := h
      exact Or.inr (Or.inl ⟨rfl, g, g', rfl, h1, h2.symm⟩)
  | some dt =>
    cases lang with
    | some g => exact absurd (w4 (by simp)) (by simp)
    | none =>
      refine Or.inr (Or.inr ?_)
      -- a datatype whose text is kept when it is right
      have kept : (dt = .int .integer ∨ dt = .decimal ∨ dt = .double ∨ dt = .float) →
          (∃ e, l = .wrong lex dt e ∧ checkDatatype X lex dt = some l) ∨
          (l = .typed lex dt ∧ ∀ e, checkDatatype X lex dt ≠ some (.wrong lex dt e)) := by
        intro hd
        simp only [Literal.ofRdf, if_pos hd] at h
        have hw : ∀ l' d' e, checkDatatype X lex dt = some (.wrong l' d' e) → l' = lex ∧ d' = dt := by
          intro l' d' e hc
          rcases hd with rfl | rfl | rfl | rfl <;> simp only [checkDatatype, validate, Option.some.injEq] at hc <;>
            (split at hc <;> simp at hc) <;> exact ⟨hc.1.symm, hc.2.1.symm⟩
        split at h
        · rename_i l' d' e hc
          obtain ⟨rfl, rfl⟩ := hw _ _ _ hc
          simp only [Option.some.injEq] at h
          exact Or.inl ⟨e, h.symm, by rw [hc, h]⟩
        · rename_i hno
          simp only [Option.some.injEq] at h
          exact Or.inr ⟨h.symm, fun e hc => hno _ _ _ hc⟩
      by_cases hd : dt = .int .integer ∨ dt = .decimal ∨ dt = .double ∨ dt = .float
      · rcases kept hd with h | ⟨h1, h2⟩
        · exact Or.inl ⟨dt, ⟨rfl, rfl⟩, h⟩
        · exact Or.inr (Or.inl ⟨dt, ⟨rfl, rfl⟩, h1, Or.inl ⟨hd, h2⟩⟩)
      · have hc : checkDatatype X lex dt = some l := by simpa only [Literal.ofRdf, if_neg hd] using h
        cases dt with
        | int k =>
          cases hp : parseInt k lex with
          | none =>
            have := (checkDatatype_int X k lex).2 hp
            rw [hc] at this
            exact Or.inl ⟨_, ⟨rfl, rfl⟩, [], Option.some.inj this, hc⟩
          | some n =>
            have := ((checkDatatype_int X k lex).1 n).2 hp
            rw [hc] at this
            exact Or.inr (Or.inr (Or.inl ⟨k, n, ⟨rfl, rfl⟩, fun e => hd (Or.inl (by rw [e])), hp, Option.some.inj this⟩))
        | decimal => simp at hd
        | double => simp at hd
        | float => simp at hd
        | string => exact absurd rfl w1
        | langString => exact absurd rfl w2
        | prefixed p q => exact absurd rfl (w3 p q)
        | other i =>
          simp only [checkDatatype, Option.some.injEq] at hc
          exact Or.inr (Or.inl ⟨_, ⟨rfl, rfl⟩, hc.symm, Or.inr ⟨i, rfl⟩⟩)
        | boolean =>
          have hc' := hc
          simp only [checkDatatype, validate, Option.some.injEq] at hc
          cases hb : parseBool lex with
          | none => rw [hb] at hc; exact Or.inl ⟨_, ⟨rfl, rfl⟩, [], hc.symm, hc'⟩
          | some b =>
            rw [hb] at hc
            exact Or.inr (Or.inr (Or.inr (Or.inl ⟨b, ⟨rfl, rfl⟩, rfl, hc.symm⟩)))
        | dateTime =>
          have hc' := hc
          simp only [checkDatatype, validate, Option.some.injEq] at hc
          cases hb : X.parseDT lex with
          | none => rw [hb] at hc; exact Or.inl ⟨_, ⟨rfl, rfl⟩, [], hc.symm, hc'⟩
          | some d =>
            rw [hb] at hc
            exact Or.inr (Or.inr (Or.inr (Or.inr ⟨d, ⟨rfl, rfl⟩, rfl, hc.symm⟩)))

/-- **C60**. Reading an RDF literal, writing it and reading it again gives a literal that matches the
first. The datatype is kept; the text too, except for derived integer types, booleans, date-times and
language tags, which are written in their own way. -/
theorem C60_conversion (normLang : Str → Option Str)
    (hidem : ∀ g g', normLang g = some g' → normLang g' = some g')
    (hdt : ∀ d, ∃ d', X.parseDT (X.showDT d) = some d' ∧ X.eqDT d d' = true)
    (r : RdfLiteral) (hr : r.WF) (l : Literal D) (h : Literal.ofRdf X normLang r = some l) :
    (∃ l', Literal.ofRdf X normLang (l.toRdf X) = some l' ∧ l.matchLit X l' = true) ∧
      (l.toRdf X).dt = r.dt ∧
      ((r.lang = none ∧ (∀ k, r.dt = some (.int k) → k = .integer) ∧ r.dt ≠ some .boolean ∧
        r.dt ≠ some .dateTime) → l.toRdf X = r) := by
  rcases ofRdf_cases X hr h with ⟨h1, h2, rfl⟩ | ⟨h1, g, g', h2, h3, rfl⟩ | ⟨dt, ⟨h1, h1'⟩, e, rfl, hc⟩ |
    ⟨dt, ⟨h1, h1'⟩, rfl, h2⟩ | ⟨k, n, ⟨h1, h1'⟩, hk, hp, rfl⟩ | ⟨b, ⟨h1, h1'⟩, hp, rfl⟩ | ⟨d, ⟨h1, h1'⟩, hp, rfl⟩
  · refine ⟨⟨.str r.lex none, rfl, by simp [Literal.matchLit]⟩, h1.symm, fun _ => ?_⟩
    obtain ⟨lex, dt, lang⟩ := r
    simp only at h1 h2
    subst h1 h2
    rfl
  · refine ⟨⟨.str r.lex (some g'), ?_, by simp [Literal.matchLit]⟩, h1.symm, fun hcon => ?_⟩
    · simp [Literal.toRdf, Literal.ofRdf, hidem g g' h3]
    · rw [h2] at hcon; exact absurd hcon.1 (by simp)
  · have hto : (Literal.wrong (D := D) r.lex dt e).toRdf X = r := by
      obtain ⟨lex, dt', lang'⟩ := r
      obtain ⟨⟨w1, w2, w3⟩, _⟩ := hr
      simp only at h1 h1' w1 w2 w3
      subst h1 h1'
      simp only [ne_eq, Option.some.injEq] at w1 w2 w3
      cases dt <;> first | rfl | exact absurd rfl w1 | exact absurd rfl w2 | exact absurd rfl (w3 _ _)
    rw [hto]
    exact ⟨⟨_, h, by simp [Literal.matchLit]⟩, rfl, fun _ => rfl⟩
  · have hto : (Literal.typed (D := D) r.lex dt).toRdf X = r := by
      obtain ⟨lex, dt', lang'⟩ := r
      obtain ⟨⟨w1, w2, w3⟩, _⟩ := hr
      simp only at h1 h1' w1 w2 w3
      subst h1 h1'
      simp only [ne_eq, Option.some.injEq] at w1 w2 w3
      cases dt <;> first | rfl | exact absurd rfl w1 | exact absurd rfl w2 | exact absurd rfl (w3 _ _)
    rw [hto]
    exact ⟨⟨_, h, by simp [Literal.matchLit]⟩, rfl, fun _ => rfl⟩
  · have hdt' : ((Literal.num (D := D) (.int k n)).toRdf X) = ⟨intText n, some (.int k), none⟩ := rfl
    refine ⟨⟨.num (.int k n), ?_, (C47_equivalence_and_hash X).1 _⟩, by rw [h1]; rfl, fun hcon => ?_⟩
    · rw [hdt', Literal.ofRdf]
      simp only [Dt.int.injEq, hk, reduceCtorEq, or_self, if_false]
      exact ((checkDatatype_int X k _).1 n).2 (reparse hp)
    · exact absurd (hcon.2.1 k (by rw [h1])) hk
  · refine ⟨⟨.bool b, ?_, by simp [Literal.matchLit]⟩, ?_, fun hcon => absurd (by rw [h1]) hcon.2.2.1⟩
    · cases b <;> simp [Literal.toRdf, Literal.ofRdf, checkDatatype, validate, parseBool]
    · rw [h1]; cases b <;> rfl
  · obtain ⟨d', hd1, hd2⟩ := hdt d
    refine ⟨⟨.datetime d', ?_, hd2⟩, by rw [h1]; rfl, fun hcon => absurd (by rw [h1]) hcon.2.2.2⟩
    simp [Literal.toRdf, Literal.ofRdf, checkDatatype, validate, hd1]

/-! ## C61 -/

/-- **C61**, the part that holds: two RDF literals that are plain, language-tagged, or of datatype
integer, decimal, double, float or one unknown to the code match exactly when they have the same text,
the same datatype and the same normalised language tag. Missing: the other datatypes, compared by
value (`C61_refuted`). -/
theorem C61_term_equality_partial (normLang : Str → Option Str) (r r' : RdfLiteral) (hr : r.WF) (hr' : r'.WF)
    (hk : ∀ dt, r.dt = some dt → (∀ k, dt = .int k → k = .integer) ∧ dt ≠ .boolean ∧ dt ≠ .dateTime)
    (hk' : ∀ dt, r'.dt = some dt → (∀ k, dt = .int k → k = .integer) ∧ dt ≠ .boolean ∧ dt ≠ .dateTime)
    (l l' : Literal D) (h : Literal.ofRdf X normLang r = some l) (h' : Literal.ofRdf X normLang r' = some l') :
    l.matchLit X l' = true ↔
      r.lex = r'.lex ∧ r.dt = r'.dt ∧ r.lang.map normLang = r'.lang.map normLang := by
  obtain ⟨lex, dt, lang⟩ := r
  obtain ⟨lex', dt', lang'⟩ := r'
  simp only at hk hk' ⊢
  rcases ofRdf_cases X hr h with ⟨h1, h2, rfl⟩ | ⟨h1, g, g', h2, h3, rfl⟩ | ⟨dt, ⟨h1, h1'⟩, e, rfl, hc⟩ |
    ⟨dt, ⟨h1, h1'⟩, rfl, h2⟩ | ⟨k, n, ⟨h1, h1'⟩, hnk, hp, rfl⟩ | ⟨b, ⟨h1, h1'⟩, hp, rfl⟩ |
    ⟨d, ⟨h1, h1'⟩, hp, rfl⟩
  case inr.inr.inr.inr.inl => exact absurd ((hk _ h1).1 k rfl) hnk
  case inr.inr.inr.inr.inr.inl => exact absurd rfl (hk _ h1).2.1
  case inr.inr.inr.inr.inr.inr => exact absurd rfl (hk _ h1).2.2
  all_goals
    rcases ofRdf_cases X hr' h' with ⟨p1, p2, rfl⟩ | ⟨p1, q, q', p2, p3, rfl⟩ | ⟨du, ⟨p1, p1'⟩, e', rfl, pc⟩ |
      ⟨du, ⟨p1, p1'⟩, rfl, p2⟩ | ⟨q, n, ⟨p1, p1'⟩, pnk, pp, rfl⟩ | ⟨b, ⟨p1, p1'⟩, pp, rfl⟩ |
      ⟨d, ⟨p1, p1'⟩, pp, rfl⟩
    case inr.inr.inr.inr.inl => exact absurd ((hk' _ p1).1 q rfl) pnk
    case inr.inr.inr.inr.inr.inl => exact absurd rfl (hk' _ p1).2.1
    case inr.inr.inr.inr.inr.inr => exact absurd rfl (hk' _ p1).2.2
    all_goals simp only at h1 p1
    all_goals subst h1 p1
  · simp only at h2 p2; subst h2 p2; simp [Literal.matchLit]
  · simp only at h2 p2; subst h2 p2; simp [Literal.matchLit]
  · simp [Literal.matchLit]
  · simp [Literal.matchLit]
  · simp only at h2 p2; subst h2 p2; simp [Literal.matchLit]
  · simp only at h2 p2; subst h2 p2; simp [Literal.matchLit, h3, p3]
  · simp [Literal.matchLit]
  · simp [Literal.matchLit]
  · simp [Literal.matchLit]
  · simp [Literal.matchLit]
  · simp only at h1' p1'; subst h1' p1'; simp [Literal.matchLit]
  · simp only [Literal.matchLit, Bool.false_eq_true, Option.some.injEq, false_iff]
    rintro ⟨e1, e2, _⟩
    subst e2
    simp only at hc p2
    rw [e1] at hc
    rcases p2 with ⟨_, p2⟩ | ⟨i, rfl⟩
    · exact p2 e hc
    · simp [checkDatatype] at hc
  · simp [Literal.matchLit]
  · simp [Literal.matchLit]
  · simp only [Literal.matchLit, Bool.false_eq_true, Option.some.injEq, false_iff]
    rintro ⟨e1, e2, _⟩
    subst e2
    simp only at pc h2
    rw [← e1] at pc
    rcases h2 with ⟨_, h2⟩ | ⟨i, rfl⟩
    · exact h2 e' pc
    · simp [checkDatatype] at pc
  · simp only at h1' p1'; subst h1' p1'; simp [Literal.matchLit]

/-! ## C62 -/

theorem cmpStr_swap (a b : Str) : (cmpStr a b).swap = cmpStr b a := by
  induction a generalizing b with
  | nil => cases b <;> rfl
  | cons c cs ih =>
    cases b with
    | nil => rfl
    | cons d ds =>
      simp only [cmpStr]
      split
      · rename_i h
        rw [if_neg (by omega)]
        simp [h]
      · split
        · rfl
        · exact ih ds

theorem cmpStr_trans {a b c : Str} (h1 : cmpStr a b = .lt) (h2 : cmpStr b c = .lt) : cmpStr a c = .lt := by
  induction a generalizing b c with
  | nil =>
    cases c with
    | cons => rfl
    | nil => cases b <;> simp [cmpStr] at h2
  | cons x xs ih =>
    cases b with
    | nil => simp [cmpStr] at h1
    | cons y ys =>
      cases c with
      | nil => simp [cmpStr] at h2
      | cons z zs =>
        simp only [cmpStr] at h1 h2 ⊢
        split at h1
        · split at h2
          · rw [if_pos (by omega)]
          · split at h2
            · cases h2
            · rw [if_pos (by omega)]
        · split at h1
          · cases h1
          · split at h2
            · rw [if_pos (by omega)]
            · split at h2
              · cases h2
              · rw [if_neg (by omega), if_neg (by omega)]
                exact ih h1 h2

/-- A typed literal of a numeric datatype has a right text. -/
def RightText (l : Literal D) : Prop :=
  ∀ lex dt, l = .typed lex dt →
    (∃ n, checkDatatype X lex dt = some (.num n)) ∨
      (∀ (lex' : Str) (n : Num), checkDatatype X lex' dt ≠ some (.num n))

/-- **C62**, the part that holds: comparing in the other direction gives the opposite answer, and
less-than is transitive among literals whose numeric texts are right. Missing: transitivity with wrong
texts (`C62_refuted`). Also, comparing as equal is weaker than being equal (`C62_equal_but_different`). -/
theorem C62_comparison_partial
    (hs : ∀ d e, X.cmpDT e d = (X.cmpDT d e).map Ordering.swap)
    (ht : ∀ d e f, X.cmpDT d e = some .lt → X.cmpDT e f = some .lt → X.cmpDT d f = some .lt) :
    (∀ a b : Literal D, b.partialCmp X a = (a.partialCmp X b).map Ordering.swap) ∧
    ∀ a b c : Literal D, RightText X a → RightText X b → RightText X c →
      a.partialCmp X b = some .lt → b.partialCmp X c = some .lt → a.partialCmp X c = some .lt := by
  have hnum : ∀ a b : Num, b.partialCmp X a = (a.partialCmp X b).map Ordering.swap := by
    intro a b
    have hd : ∀ d e : Dec, e.cmp d = (d.cmp e).swap := by
      intro d e
      simp only [Dec.cmp, dec_lt_iff, dec_eq_iff]
      rcases lt_trichotomy d.val e.val with h | h | h
      · rw [if_neg (not_lt.2 h.le), if_neg h.ne', if_pos h]; rfl
      · simp [h]
      · rw [if_pos h, if_neg (not_lt.2 h.le), if_neg h.ne']; rfl
    unfold Num.partialCmp
    cases a.toDec X <;> cases b.toDec X <;> first | rfl | exact congrArg some (hd _ _)
  obtain ⟨_, _, _, h4, _⟩ := C48_always X
  refine ⟨fun a b => ?_, fun a b c ra rb rc h1 h2 => ?_⟩
  · cases a <;> cases b <;> simp only [Literal.partialCmp, Option.map_none, Option.map_some]
    · rw [cmpStr_swap]
    · rename_i l1 d1 l2 d2
      have hstr : (if d2 = d1 then some (cmpStr l2 l1) else none) =
          (if d1 = d2 then some (cmpStr l1 l2) else none).map Ordering.swap := by
        by_cases hd : d1 = d2
        · subst hd; simp [cmpStr_swap]
        · simp [hd, Ne.symm hd]
      generalize checkDatatype X l1 d1 = c1
      generalize checkDatatype X l2 d2 = c2
      rcases c1 with _ | (_ | _ | _ | _ | _ | _) <;> rcases c2 with _ | (_ | _ | _ | _ | _ | _) <;>
        first | exact hstr | exact hnum _ _
    · exact hnum _ _
    · exact hs _ _
    · rename_i x y; cases x <;> cases y <;> rfl
  · cases a <;> cases b <;> first | (simp [Literal.partialCmp] at h1; done) | skip
    all_goals cases c <;> first | (simp [Literal.partialCmp] at h2; done) | skip
    all_goals simp only [Literal.partialCmp] at h1 h2 ⊢
    · simp only [Option.some.injEq] at h1 h2 ⊢
      exact cmpStr_trans h1 h2
    · rename_i l1 d1 l2 d2 l3 d3
      have ra := ra _ _ rfl
      have rb := rb _ _ rfl
      have rc := rc _ _ rfl
      have hnn : ∀ {l l' : Str} {d d' : Dt} {o},
          (match checkDatatype X l d, checkDatatype X l' d' with
            | some (.num n1), some (.num n2) => n1.partialCmp X n2
            | _, _ => if d = d' then some (cmpStr l l') else none) = some o →
          ((∃ n, checkDatatype X l d = some (.num n)) ∨
            (∀ (lex' : Str) (n : Num), checkDatatype X lex' d ≠ some (.num n))) →
          ((∃ n, checkDatatype X l' d' = some (.num n)) ∨
            (∀ (lex' : Str) (n : Num), checkDatatype X lex' d' ≠ some (.num n))) →
          (∃ n n', checkDatatype X l d = some (.num n) ∧ checkDatatype X l' d' = some (.num n') ∧
            n.partialCmp X n' = some o) ∨
          ((∀ (lex' : Str) (n : Num), checkDatatype X lex' d ≠ some (.num n)) ∧ d = d' ∧ cmpStr l l' = o) := by
        intro l l' d d' o h hl hl'
        split at h
        · rename_i n1 n2 e1 e2
          exact Or.inl ⟨n1, n2, e1, e2, h⟩
        · rename_i hno
          split at h
          · rename_i hd
            subst hd
            rcases hl with ⟨n, hn⟩ | hl
            · rcases hl' with ⟨n', hn'⟩ | hl'
              · exact absurd hn' (hno n n' hn)
              · exact absurd hn (hl' _ _)
            · exact Or.inr ⟨hl, rfl, Option.some.inj h⟩
          · cases h
      rcases hnn h1 ra rb with ⟨n1, n2, e1, e2, hh1⟩ | ⟨hh1, rfl, h1'⟩
      · rcases hnn h2 rb rc with ⟨n2', n3, e2', e3, hh2⟩ | ⟨hh2, rfl, h2'⟩
        · rw [e2] at e2'
          simp only [Option.some.injEq, Literal.num.injEq] at e2'
          subst e2'
          rw [e1, e3]
          exact h4 _ _ _ hh1 hh2
        · exact absurd e2 (hh2 _ _)
      · rcases hnn h2 rb rc with ⟨n2', n3, e2', e3, hh2⟩ | ⟨hh2, rfl, h2'⟩
        · exact absurd e2' (hh1 _ _)
        · have := cmpStr_trans h1' h2'
          split
          · rename_i n1 n2 e1 e2
            exact absurd e1 (hh1 _ _)
          · simp [this]
    · exact h4 _ _ _ h1 h2
    · exact ht _ _ _ h1 h2
    · rename_i x y z
      clear ra rb rc h4 hnum hs ht
      revert h1 h2
      cases x <;> cases y <;> cases z <;> simp [cmpBool]

end

/-! ## Refutations and cases -/

/-- **C59** is false of the code: two signs are taken for `nonNegativeInteger`, a number of more than
128 bits is wrong for `integer`, and `-0` is wrong for `unsignedByte`. -/
theorem C59_refuted :
    parseInt .nonNegativeInteger ['+', '+', '5'] = some 5 ∧
      (∀ minus n, ¬ IntLex ['+', '+', '5'] minus n) ∧
      parseInt .integer (intText (2 ^ 127)) = none ∧
      parseInt .unsignedByte ['-', '0'] = none ∧ IntLex ['-', '0'] true 0 := by
  refine ⟨by decide, ?_, ?_, by decide, ['0'], by simp, by decide, Or.inr ⟨rfl, rfl, by decide⟩⟩
  · rintro minus n ⟨ds, _, h2, (⟨_, e | e, _⟩ | ⟨_, e, _⟩)⟩
    · subst e; exact absurd (h2 '+' (by simp)) (by decide)
    · simp only [List.cons.injEq, true_and] at e
      subst e; exact absurd (h2 '+' (by simp)) (by decide)
    · simp at e
  · cases h : parseInt .integer (intText (2 ^ 127)) with
    | none => rfl
    | some n =>
      rw [parseInt_iff _ (by decide)] at h
      obtain ⟨minus, h1, _, h3, _⟩ := h
      have e : n = 2 ^ 127 := by
        obtain ⟨ds, _, d1, hc⟩ := h1
        obtain ⟨ds', _, d2, hc'⟩ := intLex_text (2 ^ 127)
        have hnn : ¬ ((2 : Int) ^ 127 < 0) := by decide
        simp only [hnn, decide_false, Bool.false_eq_true, false_and, or_false, true_and] at hc'
        have htext : intText (2 ^ 127) = natText (2 ^ 127) := by
          unfold intText; rw [if_neg hnn]; rfl
        have hfirst : ∀ c ∈ intText (2 ^ 127), c.isDigit = true := by rw [htext]; exact natText_digits _
        rcases hc with ⟨_, he | he, hn⟩ | ⟨_, he, hn⟩
        · rw [hn, ← he, htext, value_natText]; norm_num
        · exact absurd (hfirst '+' (by rw [he]; simp)) (by decide)
        · exact absurd (hfirst '-' (by rw [he]; simp)) (by decide)
      subst e
      exact absurd h3.2 (by decide)

/-- **C61** is false of the code: literals of different datatypes match, and so do different texts. -/
theorem C61_refuted :
    (∃ l l' : Literal Unit,
      Literal.ofRdf exX some ⟨['5'], some (.int .byte), none⟩ = some l ∧
      Literal.ofRdf exX some ⟨['5'], some (.int .short), none⟩ = some l' ∧ l.matchLit exX l' = true) ∧
    ∃ l l' : Literal Unit,
      Literal.ofRdf exX some ⟨['5'], some (.int .byte), none⟩ = some l ∧
      Literal.ofRdf exX some ⟨['0', '5'], some (.int .byte), none⟩ = some l' ∧ l.matchLit exX l' = true :=
  ⟨⟨.num (.int .byte 5), .num (.int .short 5), rfl, rfl, by decide⟩,
    ⟨.num (.int .byte 5), .num (.int .byte 5), rfl, rfl, by decide⟩⟩

/-- **C62** is false of the code: with a wrong text, less-than goes round in a circle. -/
theorem C62_refuted :
    let ten : Literal Unit := .typed ['1', '0'] (.int .integer)
    let bad : Literal Unit := .typed ['1', 'x'] (.int .integer)
    let nine : Literal Unit := .typed ['9'] (.int .integer)
    ten.partialCmp exX bad = some .lt ∧ bad.partialCmp exX nine = some .lt ∧
      nine.partialCmp exX ten = some .lt := by
  refine ⟨by decide, by decide, by decide⟩

/-- Literals that compare as equal and are different: languages are ignored. -/
theorem C62_equal_but_different :
    (Literal.str (D := Unit) ['a'] (some ['e', 'n'])).partialCmp exX (.str ['a'] none) = some .eq ∧
      (Literal.str (D := Unit) ['a'] (some ['e', 'n'])).eq exX (.str ['a'] none) = false := by decide

/-- C58 and C60 apply: `"007"^^xsd:long` is read as 7, written as `"7"^^xsd:long`. -/
example : Literal.ofRdf exX some ⟨['0', '0', '7'], some (.int .long), none⟩ = some (.num (.int .long 7)) ∧
    (Literal.num (D := Unit) (.int .long 7)).toRdf exX = ⟨['7'], some (.int .long), none⟩ := by
  exact ⟨rfl, by decide⟩

/-- C59 applies: `+12` is a byte, `200` is not. -/
example : parseInt .byte ['+', '1', '2'] = some 12 ∧ parseInt .byte ['2', '0', '0'] = none ∧
    parseInt .negativeInteger ['-', '3'] = some (-3) := by decide

/-- C62 applies: `9` below `10` as numbers, not as texts. -/
example : (Literal.typed (D := Unit) ['9'] (.int .integer)).partialCmp exX (.typed ['1', '0'] (.int .integer)) =
    some .lt := by decide

#print axioms C58_matching
#print axioms C59_integer_texts_partial
#print axioms C59_refuted
#print axioms C60_conversion
#print axioms C61_term_equality_partial
#print axioms C61_refuted
#print axioms C62_comparison_partial
#print axioms C62_refuted
#print axioms C62_equal_but_different

end Lit

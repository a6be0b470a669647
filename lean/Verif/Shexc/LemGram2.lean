import Verif.Shexc.LemGram1

/-!
# Lemmas: reading value sets, node constraints, annotations and shapes of the compact syntax
-/

namespace Shexc

open P Spec

variable {X : Ext} {α β : Type}

/-! ## Values -/

theorem dot_err {p : Unit → P α} {t : Tok} {ts : List Tok} {w : Str} (h : At X (t :: ts) w) (ht : ¬ heads t '.') :
    (tokenTws ['.'] >>= p) w = .err := bind_err (sym_tws_err h (head_cons ht))

theorem value_name {t : Tok} {ts : List Tok} {w : Str} {r : Res Value} (h : Sp X (t :: ts) w) (ht : ¬ heads t '.')
    (e : alt iriRange (alt (litRange X) (alt (langRange1 X) (langRange2 X))) w = r) : value X w = r := by
  unfold value exclusionPlus
  rw [alt_right (dot_err (Sp.at' h) ht), e]

theorem value_lit {t : Tok} {ts : List Tok} {w : Str} {r : Res Value} (h : Sp X (t :: ts) w) (ht : ¬ heads t '.')
    (hn : (∀ n, t ≠ .name n) ∧ ∀ p, t ≠ .ns p)
    (e : alt (litRange X) (alt (langRange1 X) (langRange2 X)) w = r) : value X w = r := by
  refine value_name h ht ?_
  have : iriRange w = .err := bind_err (iri_tok_err h (head_cons (p := fun t => (∀ n, t ≠ .name n) ∧ ∀ p, t ≠ .ns p) hn))
  rw [alt_right this, e]

theorem value_lang {t : Tok} {ts : List Tok} {w : Str} {r : Res Value} (h : Sp X (t :: ts) w)
    (ht : ∀ c, heads t c → c = '@') (hn : (∀ n, t ≠ .name n) ∧ ∀ p, t ≠ .ns p)
    (e : alt (langRange1 X) (langRange2 X) w = r) : value X w = r := by
  refine value_lit h (fun hc => absurd (ht _ hc) (by decide)) hn ?_
  have : litRange X w = .err := bind_err (literal_err h (head_cons (p := fun t => ∀ c, heads t c → ¬ litStart c)
    fun c hc => by rw [ht c hc]; decide))
  rw [alt_right this, e]

theorem value_plain {ts : List Tok} {v : Value} (hv : PlainValue ts v) {rest : List Tok} {w : Str}
    (h : Sp X (ts ++ rest) w) (ht : ∀ t ∈ rest.head?, NoTilde t) :
    ∃ u, value X w = .ok v u ∧ Sp X rest u ∧ u.length < w.length := by
  cases hv with
  | iri r =>
    obtain ⟨u, e, h1, l⟩ := iriRange_tok h ht
    exact ⟨u, value_name h (by cases r <;> simp only [heads] <;> decide) (alt_left e), h1, l⟩
  | lit r =>
    obtain ⟨u, e, h1, l⟩ := litRange_tok h ht
    exact ⟨u, value_lit h (by simp only [heads]; decide) (by simp) (alt_left e), h1, l⟩
  | lang r =>
    obtain ⟨u, e, h1, l⟩ := langRange1_tok h ht
    exact ⟨u, value_lang h (fun c hc => hc) (by simp) (alt_left e), h1, l⟩

theorem last_cons2 {a b : Tok} {ts : List Tok} (h : ∀ l, (a :: b :: ts).getLast? ≠ some (.lit l)) :
    ∀ l, ts.getLast? ≠ some (.lit l) := by
  cases ts with
  | nil => simp
  | cons c ts => simpa [List.getLast?_cons_cons] using h

theorem last_cons1 {a : Tok} {ts : List Tok} (h : ∀ l, (a :: ts).getLast? ≠ some (.lit l)) :
    ∀ l, ts.getLast? ≠ some (.lit l) := by
  cases ts with
  | nil => simp
  | cons c ts => simpa [List.getLast?_cons_cons] using h

theorem value_stem {ts : List Tok} {v : Value} (hv : StemValue ts v) {rest : List Tok} {w : Str}
    (h : Sp X (ts ++ rest) w) (ht : ∀ t ∈ rest.head?, AfterValue t) :
    ∃ u, value X w = .ok v u ∧ At X rest u ∧ u.length < w.length ∧ ((∀ l, ts.getLast? ≠ some (.lit l)) → Sp X rest u) := by
  have nodot : ∀ r : IriRef, ¬ heads (.name r) '.' := fun r => by cases r <;> simp only [heads] <;> decide
  have nodotl : ∀ l : Lit, ¬ heads (.lit l) '.' := fun l => by simp only [heads]; decide
  have at' : ∀ c, heads (.sym ['@']) c → c = '@' := fun c hc => by simpa [heads, eq_comm] using hc
  cases hv with
  | iriStem r =>
    obtain ⟨u, e, h1, l⟩ := iriRange_stem .nil h ht
    exact ⟨u, value_name h (nodot r) (alt_left e), Sp.at' h1, l, fun _ => h1⟩
  | iriRange hs =>
    obtain ⟨u, e, h1, l⟩ := iriRange_stem hs h ht
    exact ⟨u, value_name h (nodot _) (alt_left e), Sp.at' h1, l, fun _ => h1⟩
  | litStem r =>
    obtain ⟨u, e, h1, l, h2⟩ := litRange_stem .nil h ht
    exact ⟨u, value_lit h (nodotl _) (by simp) (alt_left e), h1, l, fun hh => h2 (last_cons2 hh)⟩
  | litRange hs =>
    obtain ⟨u, e, h1, l, h2⟩ := litRange_stem hs h ht
    exact ⟨u, value_lit h (nodotl _) (by simp) (alt_left e), h1, l, fun hh => h2 (last_cons2 hh)⟩
  | langStem t =>
    obtain ⟨u, e, h1, l⟩ := langRange1_stem .nil h ht
    exact ⟨u, value_lang h (fun c hc => hc) (by simp) (alt_left e), Sp.at' h1, l, fun _ => h1⟩
  | langRange hs =>
    obtain ⟨u, e, h1, l⟩ := langRange1_stem hs h ht
    exact ⟨u, value_lang h (fun c hc => hc) (by simp) (alt_left e), Sp.at' h1, l, fun _ => h1⟩
  | anyLang =>
    obtain ⟨u, e, h1, l⟩ := langRange2_stem .nil h ht
    refine ⟨u, value_lang h at' (by simp) ?_, Sp.at' h1, l, fun _ => h1⟩
    have : langRange1 X w = .err := bind_err (langTag_err_at h)
    rw [alt_right this, e]
    rfl
  | anyLangRange hs =>
    obtain ⟨u, e, h1, l⟩ := langRange2_stem hs h ht
    refine ⟨u, value_lang h at' (by simp) ?_, Sp.at' h1, l, fun _ => h1⟩
    have : langRange1 X w = .err := bind_err (langTag_err_at h)
    rw [alt_right this, e]
    rfl
  | notIris hs =>
    obtain ⟨u, e, h1, l⟩ := exclusionPlus_iri hs h ht
    exact ⟨u, alt_left e, Sp.at' h1, l, fun _ => h1⟩
  | notLits hs =>
    obtain ⟨u, e, h1, l, h2⟩ := exclusionPlus_lit hs h ht
    exact ⟨u, alt_left e, h1, l, fun hh => h2 (last_cons1 hh)⟩
  | notLangs hs =>
    obtain ⟨u, e, h1, l⟩ := exclusionPlus_lang hs h ht
    exact ⟨u, alt_left e, Sp.at' h1, l, fun _ => h1⟩

/-- No value at the end of a value set. -/
theorem value_err {ts : List Tok} {w : Str} (h : At X (.sym [']'] :: ts) w) : value X w = .err := by
  have off : ∀ {f : Char → Prop}, (∀ c, space c ∨ c = '#' → ¬ f c) → ¬ f ']' → Off f w := by
    intro f h1 h2
    exact at_off h h1 (head_cons (p := fun t => ∀ c, heads t c → ¬ f c) fun c hc => by
      have : c = ']' := by simpa [heads, eq_comm] using hc
      exact this ▸ h2)
  have gapc : ∀ {f : Char → Prop} [DecidablePred f], ¬ f ' ' ∧ ¬ f '\t' ∧ ¬ f '\r' ∧ ¬ f '\n' ∧ ¬ f '#' →
      ∀ c, space c ∨ c = '#' → ¬ f c := by
    rintro f _ ⟨h1, h2, h3, h4, h5⟩ c ((rfl | rfl | rfl | rfl) | rfl) <;> assumption
  have hl : Off litStart w := off (gapc (by decide)) (by decide)
  have tws : ∀ c s, c ≠ ']' → tokenTws (c :: s) w = .err := fun c s hc => sym_tws_err h
    (head_cons (p := fun t => ¬ heads t c) (by simpa [heads] using hc.symm))
  have e1 : iriRange w = .err := bind_err (iri_err (off (gapc (by decide)) (by decide)))
  have e2 : litRange X w = .err := by
    refine bind_err ?_
    unfold literal
    rw [alt_right (rdfLit_err X (hl.mono fun c hc => by unfold litStart; rcases hc with rfl | rfl <;> simp)),
      alt_right (numericLit_err (hl.mono fun c hc => by unfold litStart; tauto))]
    refine bind_err ?_
    unfold boolValue
    rw [alt_right (bind_err (tws _ _ (by decide)))]
    exact bind_err (tws _ _ (by decide))
  have e3 : langRange1 X w = .err := bind_err (langTag_err X (off (gapc (by decide)) (by decide)))
  have e0 : exclusionPlus X w = .err := bind_err (tws _ _ (by decide))
  unfold value
  rw [alt_right e0, alt_right e1, alt_right e2, alt_right e3]
  exact bind_err (tws _ _ (by decide))

theorem plain_head {ts : List Tok} {v : Value} (h : PlainValue ts v) :
    ∃ t, ts = [t] ∧ NoTilde t ∧ (negative t ∨ NoMinus t) := by
  cases h with
  | iri r => exact ⟨_, rfl, by cases r <;> simp only [NoTilde, heads] <;> decide, .inr (.inl (by cases r <;> simp only [heads] <;> decide))⟩
  | lit l =>
    refine ⟨_, rfl, by simp only [NoTilde, heads]; decide, ?_⟩
    by_cases hn : negative (.lit l)
    · exact .inl hn
    · exact .inr (.inr ⟨l, rfl, hn⟩)
  | lang t => exact ⟨_, rfl, by simp only [NoTilde, heads]; decide, .inr (.inl (by simp only [heads]; decide))⟩

theorem stem_head {ts : List Tok} {v : Value} (h : StemValue ts v) :
    ∃ t us, ts = t :: us ∧ NoTilde t ∧ (negative t ∨ NoMinus t) := by
  have nm : ∀ r : IriRef, NoTilde (.name r) ∧ (negative (.name r) ∨ NoMinus (.name r)) := fun r => by
    obtain ⟨t, e, h⟩ := plain_head (.iri r)
    cases e
    exact h
  have lt : ∀ r : Lit, NoTilde (.lit r) ∧ (negative (.lit r) ∨ NoMinus (.lit r)) := fun r => by
    obtain ⟨t, e, h⟩ := plain_head (.lit r)
    cases e
    exact h
  have lg : ∀ r : Str, NoTilde (.lang r) ∧ (negative (.lang r) ∨ NoMinus (.lang r)) := fun r => by
    obtain ⟨t, e, h⟩ := plain_head (.lang r)
    cases e
    exact h
  have at' : NoTilde (.sym ['@']) ∧ (negative (.sym ['@']) ∨ NoMinus (.sym ['@'])) :=
    ⟨by simp only [NoTilde, heads]; decide, .inr (.inl (by simp only [heads]; decide))⟩
  have dot : NoTilde (.sym ['.']) ∧ (negative (.sym ['.']) ∨ NoMinus (.sym ['.'])) :=
    ⟨by simp only [NoTilde, heads]; decide, .inr (.inl (by simp only [heads]; decide))⟩
  cases h with
  | iriStem r => exact ⟨_, _, rfl, nm r⟩
  | iriRange h => exact ⟨_, _, rfl, nm _⟩
  | litStem r => exact ⟨_, _, rfl, lt r⟩
  | litRange h => exact ⟨_, _, rfl, lt _⟩
  | langStem r => exact ⟨_, _, rfl, lg r⟩
  | langRange h => exact ⟨_, _, rfl, lg _⟩
  | anyLang => exact ⟨_, _, rfl, at'⟩
  | anyLangRange h => exact ⟨_, _, rfl, at'⟩
  | notIris h => exact ⟨_, _, rfl, dot⟩
  | notLits h => exact ⟨_, _, rfl, dot⟩
  | notLangs h => exact ⟨_, _, rfl, dot⟩

theorem values_head {ts : List Tok} {vs : List Value} (h : Values ts vs) (rest : List Tok) :
    (∀ t ∈ (ts ++ .sym [']'] :: rest).head?, NoTilde t) ∧
      ((∀ t ∈ ts.head?, ¬ negative t) → ∀ t ∈ (ts ++ .sym [']'] :: rest).head?, NoMinus t) := by
  cases h with
  | nil =>
    exact ⟨head_cons (p := NoTilde) (by simp only [NoTilde, heads]; decide),
      fun _ => head_cons (p := NoMinus) (.inl (by simp only [heads]; decide))⟩
  | plain h hs =>
    obtain ⟨t, rfl, h1, h2⟩ := plain_head h
    exact ⟨head_cons h1, fun hn => head_cons (h2.resolve_left (hn t (by simp)))⟩
  | stem h hs =>
    obtain ⟨t, us, rfl, h1, h2⟩ := stem_head h
    exact ⟨head_cons h1, fun hn => head_cons (h2.resolve_left (hn t (by simp)))⟩

theorem values_steps {ts : List Tok} {vs : List Value} (hv : Values ts vs) (rest : List Tok) :
    ∀ {w : Str}, Sp X (ts ++ .sym [']'] :: rest) w →
    ∃ u, Steps (value X) vs w u ∧ At X (.sym [']'] :: rest) u ∧ u.length ≤ w.length := by
  induction hv with
  | nil => exact fun h => ⟨_, .nil, Sp.at' h, Nat.le.refl⟩
  | @plain ts us v vs h hs ih =>
    intro w hw
    rw [List.append_assoc] at hw
    obtain ⟨u, e, h1, l1⟩ := value_plain h hw (values_head hs rest).1
    obtain ⟨u', h2, h3, l2⟩ := ih h1
    exact ⟨u', .cons e l1 h2, h3, by omega⟩
  | @stem ts us v vs h hs hn hl ih =>
    intro w hw
    rw [List.append_assoc] at hw
    obtain ⟨u, e, h1, l1, h2⟩ := value_stem h hw fun t ht => ⟨(values_head hs rest).1 t ht, (values_head hs rest).2 hn t ht⟩
    by_cases hlast : ∃ l, ts.getLast? = some (.lit l)
    · obtain ⟨l, hlast⟩ := hlast
      have : us = [] := hl l hlast
      subst this
      have : vs = [] := by
        generalize hu : ([] : List Tok) = us at hs
        cases hs with
        | nil => rfl
        | plain h hs =>
          obtain ⟨t, rfl, -⟩ := plain_head h
          cases hu
        | stem h hs =>
          obtain ⟨t, us, rfl, -⟩ := stem_head h
          cases hu
      subst this
      exact ⟨u, .cons e l1 .nil, h1, by omega⟩
    · obtain ⟨u', h3, h4, l2⟩ := ih (h2 fun l hh => hlast ⟨l, hh⟩)
      exact ⟨u', .cons e l1 h3, h4, by omega⟩

theorem valueSet_tok {vs : List Value} {ts : List Tok} (hv : Values ts vs) {rest : List Tok} {w : Str}
    (h : At X (.sym ['['] :: (ts ++ .sym [']'] :: rest)) w) :
    ∃ u, valueSet X w = .ok { values := some vs } u ∧ Sp X rest u ∧ u.length < w.length := by
  obtain ⟨w1, e1, h1, l1⟩ := sym_tws h
  obtain ⟨w2, st, h2, l2⟩ := values_steps hv rest h1
  obtain ⟨w3, e3, h3, l3⟩ := sym_tws h2
  refine ⟨w3, ?_, h3, by omega⟩
  unfold valueSet
  rw [bind_ok e1, bind_ok (many0_steps st (value_err h2)), bind_ok e3]
  rfl

theorem valueSet_err {ts : List Tok} {w : Str} (h : Sp X ts w) (ht : ∀ t ∈ ts.head?, ¬ heads t '[') :
    valueSet X w = .err := bind_err (sym_tws_err (Sp.at' h) ht)

/-! ## Node constraints -/

theorem withFacets_listed (c : NC) (fs : List Facet) : c.withFacets fs = { c with facets := listed fs } := by
  unfold NC.withFacets listed
  cases fs <;> simp

theorem kind_ne {K k : String} {κ : Kind} (h : KindWord (.kw k) κ) (hK : K ∉ ["IRI", "BNODE", "NONLITERAL"]) : K ≠ k := by
  cases h <;> (rintro rfl; exact hK (by decide))

theorem kindWord_kw {t : Tok} {κ : Kind} (h : KindWord t κ) : ∃ k, t = .kw k ∧ k ∈ ["IRI", "BNODE", "NONLITERAL"] := by
  cases h <;> exact ⟨_, rfl, by decide⟩

theorem nonLiteralKind_tok {t : Tok} {k : Kind} (hk : KindWord t k) {rest : List Tok} {w : Str}
    (h : At X (t :: rest) w) : ∃ u, nonLiteralKind w = .ok k u ∧ Sp X rest u ∧ u.length < w.length := by
  have no : ∀ {k : String} {us : List Tok} (K : String), At X (.kw k :: us) w → K ∈ keywords → K ≠ k →
      tokenTwsNoCase K.toList w = .err := fun K h hm hne => kw_tws_err hm h (head_cons (kw_notKw hne))
  unfold nonLiteralKind
  cases hk with
  | iri =>
    obtain ⟨u, e, h1, l⟩ := kw_tws h
    exact ⟨u, alt_left (by rw [bind_ok e]; rfl), h1, l⟩
  | bnode =>
    obtain ⟨u, e, h1, l⟩ := kw_tws h
    refine ⟨u, ?_, h1, l⟩
    rw [alt_right (bind_err (no "IRI" h (by decide) (by decide)))]
    exact alt_left (by rw [bind_ok e]; rfl)
  | nonLiteral =>
    obtain ⟨u, e, h1, l⟩ := kw_tws h
    refine ⟨u, ?_, h1, l⟩
    rw [alt_right (bind_err (no "IRI" h (by decide) (by decide))),
      alt_right (bind_err (no "BNODE" h (by decide) (by decide))), bind_ok e]
    rfl

theorem nonLiteralKind_err {ts : List Tok} {w : Str} (h : At X ts w)
    (ht : ∀ t ∈ ts.head?, NotKws ["IRI", "BNODE", "NONLITERAL"] t) : nonLiteralKind w = .err := by
  have no : ∀ K ∈ ["IRI", "BNODE", "NONLITERAL"], K ∈ keywords →
      tokenTwsNoCase K.toList w = .err := fun K hK hm => kw_tws_err hm h fun t hh => ht t hh K hK
  unfold nonLiteralKind
  rw [alt_right (bind_err (no "IRI" (by decide) (by decide))), alt_right (bind_err (no "BNODE" (by decide) (by decide)))]
  exact bind_err (no "NONLITERAL" (by decide) (by decide))

/-- Words that neither a kind of node nor a facet of strings begins with. -/
def NoNonLit (t : Tok) : Prop := NotKws ["IRI", "BNODE", "NONLITERAL"] t ∧ NoStr t

theorem nonLit_err {ts : List Tok} {w : Str} (h : At X ts w) (ht : ∀ t ∈ ts.head?, NoNonLit t) : nonLit w = .err := by
  unfold nonLit
  rw [alt_right (bind_err (nonLiteralKind_err h fun t hh => (ht t hh).1))]
  exact bind_err (many1_err (stringFacet_err h fun t hh => (ht t hh).2))

theorem nonLit_kind {ts : List Tok} {c : NC} (hc : KindNC ts c) {rest : List Tok} {w : Str} (h : At X (ts ++ rest) w)
    (ht : ∀ t ∈ rest.head?, NoStr t) : ∃ u, nonLit w = .ok c u ∧ At X rest u ∧ u.length < w.length := by
  cases hc with
  | mk hk hf =>
    obtain ⟨w1, e1, h1, l1⟩ := nonLiteralKind_tok hk h
    obtain ⟨w2, e2, h2, l2⟩ := stringFacets_tok hf h1 ht
    refine ⟨w2, alt_left ?_, h2, by omega⟩
    rw [bind_ok e1, bind_ok e2, withFacets_listed]
    rfl

theorem strFacet_head {ts : List Tok} {f : Facet} (h : StrFacet ts f) :
    ∃ t us, ts = t :: us ∧ ((∃ f, t = .regex f) ∨ ∃ k ∈ ["LENGTH", "MINLENGTH", "MAXLENGTH"], t = .kw k) := by
  cases h with
  | pattern f => exact ⟨_, _, rfl, .inl ⟨f, rfl⟩⟩
  | _ => exact ⟨_, _, rfl, .inr ⟨_, by decide, rfl⟩⟩

theorem strFacet_notKw {t : Tok} (h : (∃ f, t = .regex f) ∨ ∃ k ∈ ["LENGTH", "MINLENGTH", "MAXLENGTH"], t = .kw k)
    {K : String} (hK : K ∉ ["LENGTH", "MINLENGTH", "MAXLENGTH"]) : NotKw K t := by
  rcases h with ⟨f, rfl⟩ | ⟨k, hk, rfl⟩
  · exact ⟨by simp, by simp, by simp⟩
  · exact kw_notKw (by rintro rfl; exact hK hk)

theorem nonLit_facet {ts : List Tok} {f : Facet} (hf : StrFacet ts f) {rest : List Tok} {w : Str}
    (h : Sp X (ts ++ rest) w) (ht : ∀ t ∈ rest.head?, NoStr t) :
    ∃ u, nonLit w = .ok { facets := some [f] } u ∧ At X rest u ∧ u.length < w.length := by
  obtain ⟨u, e, h1, l⟩ := stringFacet_tok hf h
  refine ⟨u, ?_, h1, l⟩
  unfold nonLit
  rw [alt_right, bind_ok (many1_steps (.cons e l .nil) (stringFacet_err h1 ht))]
  · rfl
  · refine bind_err (nonLiteralKind_err (Sp.at' h) ?_)
    obtain ⟨t, us, rfl, hh⟩ := strFacet_head hf
    exact head_cons (p := NotKws _) fun K hK => strFacet_notKw hh (by revert K; decide)

/-- Words that no constraint on literals and values begins with. -/
def NoLitNC (t : Tok) : Prop :=
  NotKw "LITERAL" t ∧ ((∀ n, t ≠ .name n) ∧ ∀ p, t ≠ .ns p) ∧ ¬ heads t '[' ∧ NotKws numWords t

theorem lit_err {ts : List Tok} {w : Str} (h : Sp X ts w) (ht : ∀ t ∈ ts.head?, NoLitNC t) : lit X w = .err := by
  unfold lit
  rw [alt_right (bind_err (kw_err (K := "LITERAL") (by decide) h fun t hh => (ht t hh).1)),
    alt_right (bind_err (iri_tok_err h fun t hh => (ht t hh).2.1)),
    alt_right (bind_err (valueSet_err h fun t hh => (ht t hh).2.2.1))]
  exact bind_err (many1_err (numericFacet_err (Sp.at' h) fun t hh => (ht t hh).2.2.2))

theorem lit_tok {ts : List Tok} {c : NC} (hc : LitNC ts c) {rest : List Tok} {w : Str} (h : Sp X (ts ++ rest) w)
    (ht : ∀ t ∈ rest.head?, NoFacet t) : ∃ u, lit X w = .ok c u ∧ At X rest u ∧ u.length < w.length := by
  have noName : ∀ {t : Tok}, ((∀ n, t ≠ .name n) ∧ ∀ p, t ≠ .ns p) → ∀ {us : List Tok}, Sp X (t :: us) w → iri w = .err :=
    fun hn us h => iri_tok_err h (head_cons (p := fun t => (∀ n, t ≠ .name n) ∧ ∀ p, t ≠ .ns p) hn)
  cases hc with
  | literal hf =>
    obtain ⟨w1, e1, h1, l1⟩ := kw_ok h
    obtain ⟨w2, e2, h2, l2⟩ := tws0_at h1
    obtain ⟨w3, e3, h3, l3⟩ := facets_tok hf h2 ht
    refine ⟨w3, alt_left ?_, h3, by omega⟩
    rw [bind_ok e1, bind_ok e2, bind_ok e3, withFacets_listed]
    rfl
  | datatype hf =>
    obtain ⟨w1, e1, h1, l1⟩ := iri_tok h
    obtain ⟨w2, e2, h2, l2⟩ := tws0_at h1
    obtain ⟨w3, e3, h3, l3⟩ := facets_tok hf h2 ht
    refine ⟨w3, ?_, h3, by omega⟩
    unfold lit
    rw [alt_right (bind_err (kw_err (K := "LITERAL") (by decide) h (head_cons ⟨by simp, by simp, by simp⟩)))]
    refine alt_left ?_
    rw [bind_ok e1, bind_ok e2, bind_ok e3, withFacets_listed]
    rfl
  | @values vs us ts fs hv hf =>
    have e0 : Tok.sym ['['] :: (us ++ Tok.sym [']'] :: ts) ++ rest = .sym ['['] :: (us ++ .sym [']'] :: (ts ++ rest)) := by
      simp
    rw [e0] at h
    obtain ⟨w1, e1, h1, l1⟩ := valueSet_tok hv (Sp.at' h)
    obtain ⟨w3, e3, h3, l3⟩ := facets_tok hf h1 ht
    refine ⟨w3, ?_, h3, by omega⟩
    unfold lit
    rw [alt_right (bind_err (kw_err (K := "LITERAL") (by decide) h (head_cons ⟨by simp, by simp, by simp⟩))),
      alt_right (bind_err (noName (by simp) h))]
    refine alt_left ?_
    rw [bind_ok e1, bind_ok (tws0_sp h1), bind_ok e3, withFacets_listed]
    rfl
  | @facets ts f fs hs =>
    obtain ⟨u, st, h1, l⟩ := numFacets_steps hs (Sp.at' h)
    obtain ⟨k, vs, hk, e0⟩ : ∃ k vs, k ∈ numWords ∧ ts = .cap k :: vs := by
      cases hs with
      | cons hx hs =>
        obtain ⟨k, vs, rfl, hk⟩ := numFacet_head hx
        exact ⟨k, vs ++ _, hk, rfl⟩
    subst e0
    have hL : "LITERAL" ≠ k := by rintro rfl; revert hk; decide
    have hlt : u.length < w.length := by
      cases st with
      | cons e l1 st =>
        have : ∀ {as : List Facet} {j u : Str}, Steps (numericFacet X) as j u → u.length ≤ j.length := by
          intro as j u hs
          induction hs with
          | nil => exact Nat.le.refl
          | cons h hl hs ih => omega
        have := this st
        omega
    refine ⟨u, ?_, h1, hlt⟩
    unfold lit
    rw [alt_right (bind_err (kw_err (K := "LITERAL") (by decide) h (head_cons (cap_notKw hL)))),
      alt_right (bind_err (noName (by simp) h)),
      alt_right (bind_err (valueSet_err h (head_cons (p := fun t => ¬ heads t '[') (by
        simp only [heads]; decide)))),
      bind_ok (many1_steps st (numericFacet_err h1 fun t hh => (ht t hh).2))]
    rfl

end Shexc

import Verif.Shexc.LemTok2

/-!
# Lemmas: reading facets and values of the compact syntax
-/

namespace Shexc

open P Spec

variable {X : Ext} {α β : Type}

/-- None of several keywords. -/
def NotKws (ks : List String) (t : Tok) : Prop := ∀ k ∈ ks, NotKw k t

/-! ## Facets -/

/-- Words that no facet of strings begins with. -/
def NoStr (t : Tok) : Prop := (∀ f, t ≠ .regex f) ∧ NotKws ["LENGTH", "MINLENGTH", "MAXLENGTH"] t

theorem at_tagNoCase_err {K : String} {ts : List Tok} {w : Str} (hK : K ∈ keywords) (h : At X ts w)
    (ht : ∀ t ∈ ts.head?, NotKw K t) : tagNoCase K.toList w = .err := by
  obtain ⟨g, r, hg, rfl, hr⟩ := h
  by_cases e : g = []
  · subst e; exact kw_err hK hr ht
  · obtain ⟨c, u, rfl, hc⟩ := gap_head hg e
    refine kw_text_err hK ⟨c, u, rfl, ?_⟩
    rcases hc with (rfl | rfl | rfl | rfl) | rfl <;> decide

theorem regexp_tok_err {ts : List Tok} {w : Str} (h : At X ts w) (ht : ∀ t ∈ ts.head?, ∀ f, t ≠ .regex f) :
    regexp w = .err := by
  obtain ⟨g, r, hg, rfl, hr⟩ := h
  by_cases e : g = []
  · subst e
    cases ts with
    | nil => rw [sp_nil hr]; rfl
    | cons t ts =>
      by_cases hs : heads t '/'
      · obtain ⟨v, u, rfl, htx, -, -, -⟩ := sp_tok hr
        cases t with
        | sym s =>
          cases htx with
          | sym hm =>
            have all : ∀ s ∈ symbols, s.head? = some '/' → s = ['/', '/'] := by decide +kernel
            rw [all v hm hs]
            exact regexp_err_slashes u
        | regex f => exact absurd rfl (ht (.regex f) (by simp) f)
        | name n => cases n <;> exact absurd hs (by simp only [heads]; decide)
        | _ => exact absurd hs (by simp only [heads]; decide)
      · exact regexp_err (sp_off hr fun t' ht' c hc e => hs (by
          simp only [List.head?_cons, Option.mem_def, Option.some.injEq] at ht'; subst ht'; exact e ▸ hc))
  · obtain ⟨c, u, rfl, hc⟩ := gap_head hg e
    refine regexp_err (Off.cons ?_)
    rcases hc with (rfl | rfl | rfl | rfl) | rfl <;> decide

theorem stringFacet_err {ts : List Tok} {w : Str} (h : At X ts w) (ht : ∀ t ∈ ts.head?, NoStr t) :
    stringFacet w = .err := by
  have hk : ∀ K ∈ ["LENGTH", "MINLENGTH", "MAXLENGTH"], K ∈ keywords → tagNoCase K.toList w = .err :=
    fun K hK hm => at_tagNoCase_err hm h fun t hh => (ht t hh).2 K hK
  unfold stringFacet stringLength
  rw [alt_right, regexp_tok_err h fun t hh => (ht t hh).1]
  rw [alt_right (bind_err (hk "MINLENGTH" (by decide) (by decide))),
    alt_right (bind_err (hk "MAXLENGTH" (by decide) (by decide)))]
  exact bind_err (hk "LENGTH" (by decide) (by decide))

theorem wrap64_ok {n : Nat} (h : n < 2 ^ 64) : wrap64 n = n := by
  unfold wrap64
  rw [Int.emod_eq_of_lt (by omega) (by omega)]
  omega

theorem posInteger_tok {n : Nat} {ts : List Tok} {w : Str} (h : Sp X (.int n :: ts) w) (hn : n < 2 ^ 64) :
    ∃ u, posInteger w = .ok n u ∧ At X ts u ∧ u.length < w.length := by
  obtain ⟨u, e, h1, h2⟩ := integer_tok h (by simp; omega)
  refine ⟨u, ?_, h1, h2⟩
  unfold posInteger
  rw [bind_ok e, if_neg (by omega), wrap64_ok hn]
  rfl

theorem kw_notKw {k K : String} (h : K ≠ k) : NotKw K (.kw k) := ⟨by simpa using h.symm, by simp, by simp⟩

theorem cap_notKw {k K : String} (h : K ≠ k) : NotKw K (.cap k) := ⟨by simp, by simpa using h.symm, by simp⟩

theorem head_cons {p : Tok → Prop} {t : Tok} {ts : List Tok} (h : p t) : ∀ t' ∈ (t :: ts).head?, p t' := by
  simpa using h

theorem stringFacet_tok {ts : List Tok} {f : Facet} (hf : StrFacet ts f) {rest : List Tok} {w : Str}
    (h : Sp X (ts ++ rest) w) : ∃ u, stringFacet w = .ok f u ∧ At X rest u ∧ u.length < w.length := by
  have len : ∀ {K : String} {n : Nat} {g : Nat → Facet}, n < 2 ^ 64 → Sp X (.kw K :: .int n :: rest) w →
      ∃ u, (do tagNoCase K.toList; tws0; let n ← posInteger; return g n : P Facet) w = .ok (g n) u ∧ At X rest u ∧
        u.length < w.length := by
    intro K n g hn h
    obtain ⟨w1, e1, h1, l1⟩ := kw_ok h
    obtain ⟨w2, e2, h2, l2⟩ := tws0_at h1
    obtain ⟨w3, e3, h3, l3⟩ := posInteger_tok h2 hn
    refine ⟨w3, ?_, h3, by omega⟩
    rw [bind_ok e1, bind_ok e2, bind_ok e3]
    rfl
  cases hf with
  | length hn =>
    obtain ⟨u, e, h1, h2⟩ := len (g := Facet.length) hn h
    refine ⟨u, ?_, h1, h2⟩
    refine alt_left ?_
    unfold stringLength
    rw [alt_right, alt_right, e]
    · exact bind_err (kw_err (K := "MAXLENGTH") (by decide) h (head_cons (kw_notKw (by decide))))
    · exact bind_err (kw_err (K := "MINLENGTH") (by decide) h (head_cons (kw_notKw (by decide))))
  | minLength hn =>
    obtain ⟨u, e, h1, h2⟩ := len (g := Facet.minLength) hn h
    exact ⟨u, alt_left (alt_left e), h1, h2⟩
  | maxLength hn =>
    obtain ⟨u, e, h1, h2⟩ := len (g := Facet.maxLength) hn h
    refine ⟨u, ?_, h1, h2⟩
    refine alt_left ?_
    unfold stringLength
    rw [alt_right, alt_left e]
    exact bind_err (kw_err (K := "MINLENGTH") (by decide) h (head_cons (kw_notKw (by decide))))
  | pattern f =>
    obtain ⟨u, e, h1, h2⟩ := regexp_tok h
    refine ⟨u, ?_, h1, h2⟩
    unfold stringFacet
    rw [alt_right, e]
    have hk : ∀ K ∈ keywords, tagNoCase K.toList w = .err :=
      fun K hm => kw_err hm h (head_cons ⟨by simp, by simp, by simp⟩)
    unfold stringLength
    rw [alt_right (bind_err (hk "MINLENGTH" (by decide))), alt_right (bind_err (hk "MAXLENGTH" (by decide)))]
    exact bind_err (hk "LENGTH" (by decide))

/-- Facets of strings and then something else. -/
theorem stringFacets_tok {ts : List Tok} {fs : List Facet} (hf : StrFacets ts fs) {rest : List Tok} {w : Str}
    (h : Sp X (ts ++ rest) w) (ht : ∀ t ∈ rest.head?, NoStr t) :
    ∃ u, many0 stringFacet w = .ok fs u ∧ At X rest u ∧ u.length ≤ w.length := by
  cases hf with
  | none => exact ⟨w, many0_steps .nil (stringFacet_err (Sp.at' h) ht), Sp.at' h, Nat.le.refl⟩
  | one hf =>
    obtain ⟨u, e, h1, l⟩ := stringFacet_tok hf h
    exact ⟨u, many0_steps (.cons e l .nil) (stringFacet_err h1 ht), h1, by omega⟩

/-- The keywords of the facets of numbers. -/
def numWords : List String :=
  ["MININCLUSIVE", "MAXINCLUSIVE", "MINEXCLUSIVE", "MAXEXCLUSIVE", "TOTALDIGITS", "FRACTIONDIGITS"]

theorem numericFacet_err {ts : List Tok} {w : Str} (h : At X ts w) (ht : ∀ t ∈ ts.head?, NotKws numWords t) :
    numericFacet X w = .err := by
  have hk : ∀ K ∈ numWords, K ∈ keywords → tokenTws K.toList w = .err :=
    fun K hK hm => cap_tws_err hm h fun t hh => ht t hh K hK
  unfold numericFacet numericRange numericLength
  rw [alt_right, bind_err]
  · rw [alt_right (bind_err (hk "TOTALDIGITS" (by decide) (by decide)))]
    exact bind_err (hk "FRACTIONDIGITS" (by decide) (by decide))
  · refine bind_err ?_
    rw [alt_right (bind_err (hk "MININCLUSIVE" (by decide) (by decide))),
      alt_right (bind_err (hk "MAXINCLUSIVE" (by decide) (by decide))),
      alt_right (bind_err (hk "MINEXCLUSIVE" (by decide) (by decide)))]
    exact bind_err (hk "MAXEXCLUSIVE" (by decide) (by decide))

theorem numericFacet_tok {ts : List Tok} {f : Facet} (hf : NumFacet ts f) {rest : List Tok} {w : Str}
    (h : At X (ts ++ rest) w) : ∃ u, numericFacet X w = .ok f u ∧ At X rest u ∧ u.length < w.length := by
  have no : ∀ {k : String} {us : List Tok} (K : String), At X (.cap k :: us) w → K ∈ keywords → K ≠ k →
      tokenTws K.toList w = .err := fun K h hm hne => cap_tws_err hm h (head_cons (cap_notKw hne))
  have rng : ∀ {K : String} {n : Num} {g : Num → Facet}, At X (.cap K :: .num n :: rest) w →
      (∀ u, tokenTws K.toList w = .ok () u → numericRange w = .ok g u) →
      ∃ u, numericFacet X w = .ok (g n) u ∧ At X rest u ∧ u.length < w.length := by
    intro K n g h hg
    obtain ⟨w1, e1, h1, l1⟩ := cap_tws h
    obtain ⟨w2, e2, h2, l2⟩ := rawNumeric_tok h1
    refine ⟨w2, alt_left ?_, h2, by omega⟩
    rw [bind_ok (hg _ e1), bind_ok (cut_ok e2)]
    rfl
  have len : ∀ {K : String} {n : Nat} {g : Nat → Facet}, n < 2 ^ 64 → At X (.cap K :: .int n :: rest) w →
      numericRange w = .err → (∀ u, tokenTws K.toList w = .ok () u → numericLength w = .ok g u) →
      ∃ u, numericFacet X w = .ok (g n) u ∧ At X rest u ∧ u.length < w.length := by
    intro K n g hn h he hg
    obtain ⟨w1, e1, h1, l1⟩ := cap_tws h
    obtain ⟨w2, e2, h2, l2⟩ := integer_tok h1 (by simp; omega)
    refine ⟨w2, ?_, h2, by omega⟩
    unfold numericFacet
    rw [alt_right (bind_err he), bind_ok (hg _ e1), bind_ok e2, wrap64_ok hn]
    rfl
  cases hf with
  | minInc n => exact rng h fun u hu => alt_left (by rw [bind_ok hu]; rfl)
  | maxInc n =>
    refine rng h fun u hu => ?_
    unfold numericRange
    rw [alt_right (bind_err (no "MININCLUSIVE" h (by decide) (by decide)))]
    exact alt_left (by rw [bind_ok hu]; rfl)
  | minExc n =>
    refine rng h fun u hu => ?_
    unfold numericRange
    rw [alt_right (bind_err (no "MININCLUSIVE" h (by decide) (by decide))),
      alt_right (bind_err (no "MAXINCLUSIVE" h (by decide) (by decide)))]
    exact alt_left (by rw [bind_ok hu]; rfl)
  | maxExc n =>
    refine rng h fun u hu => ?_
    unfold numericRange
    rw [alt_right (bind_err (no "MININCLUSIVE" h (by decide) (by decide))),
      alt_right (bind_err (no "MAXINCLUSIVE" h (by decide) (by decide))),
      alt_right (bind_err (no "MINEXCLUSIVE" h (by decide) (by decide))), bind_ok hu]
    rfl
  | totalDigits hn =>
    refine len hn h ?_ fun u hu => alt_left (by rw [bind_ok hu]; rfl)
    unfold numericRange
    rw [alt_right (bind_err (no "MININCLUSIVE" h (by decide) (by decide))),
      alt_right (bind_err (no "MAXINCLUSIVE" h (by decide) (by decide))),
      alt_right (bind_err (no "MINEXCLUSIVE" h (by decide) (by decide)))]
    exact bind_err (no "MAXEXCLUSIVE" h (by decide) (by decide))
  | fractionDigits hn =>
    refine len hn h ?_ fun u hu => ?_
    · unfold numericRange
      rw [alt_right (bind_err (no "MININCLUSIVE" h (by decide) (by decide))),
        alt_right (bind_err (no "MAXINCLUSIVE" h (by decide) (by decide))),
        alt_right (bind_err (no "MINEXCLUSIVE" h (by decide) (by decide)))]
      exact bind_err (no "MAXEXCLUSIVE" h (by decide) (by decide))
    · unfold numericLength
      rw [alt_right (bind_err (no "TOTALDIGITS" h (by decide) (by decide))), bind_ok hu]
      rfl

/-- Words that no facet begins with. -/
def NoFacet (t : Tok) : Prop := NoStr t ∧ NotKws numWords t

theorem numFacet_head {ts : List Tok} {f : Facet} (h : NumFacet ts f) : ∃ k us, ts = .cap k :: us ∧ k ∈ numWords := by
  cases h <;> exact ⟨_, _, rfl, by decide⟩

theorem cap_noStr {k : String} (h : k ∉ ["LENGTH", "MINLENGTH", "MAXLENGTH"]) : NoStr (.cap k) :=
  ⟨by simp, fun K hK => cap_notKw (by rintro rfl; exact h hK)⟩

theorem numWords_apart : ∀ k ∈ numWords, k ∉ ["LENGTH", "MINLENGTH", "MAXLENGTH"] := by decide

theorem numFacets_head {us : List Tok} {gs : List Facet} (h : Seq NumFacet us gs) {rest : List Tok}
    (ht : ∀ t ∈ rest.head?, NoStr t) : ∀ t ∈ (us ++ rest).head?, NoStr t := by
  cases h with
  | nil => exact ht
  | cons h hs =>
    obtain ⟨k, vs, rfl, hk⟩ := numFacet_head h
    exact head_cons (cap_noStr (numWords_apart k hk))

theorem xsFacet_err {ts : List Tok} {w : Str} (h : At X ts w) (ht : ∀ t ∈ ts.head?, NoFacet t) :
    xsFacet X w = .err := by
  unfold xsFacet
  rw [alt_right (stringFacet_err h fun t hh => (ht t hh).1)]
  exact numericFacet_err h fun t hh => (ht t hh).2

theorem numFacets_steps {us : List Tok} {gs : List Facet} (hs : Seq NumFacet us gs) {rest : List Tok} {w : Str}
    (h : At X (us ++ rest) w) : ∃ u, Steps (numericFacet X) gs w u ∧ At X rest u ∧ u.length ≤ w.length :=
  seq_steps (At X) (G := fun _ => True) (fun _ _ _ _ hf _ h => numericFacet_tok hf h) (fun _ _ _ => trivial) hs w h

theorem xsFacets_steps {us : List Tok} {gs : List Facet} (hs : Seq NumFacet us gs) {rest : List Tok} {w : Str}
    (h : At X (us ++ rest) w) : ∃ u, Steps (xsFacet X) gs w u ∧ At X rest u ∧ u.length ≤ w.length := by
  refine seq_steps (At X) (G := fun _ => True) (fun ts a rest w hf _ h => ?_) (fun _ _ _ => trivial) hs w h
  obtain ⟨u, e, h1, l⟩ := numericFacet_tok hf h
  refine ⟨u, ?_, h1, l⟩
  unfold xsFacet
  rw [alt_right, e]
  refine stringFacet_err h ?_
  obtain ⟨k, vs, rfl, hk⟩ := numFacet_head hf
  exact head_cons (cap_noStr (numWords_apart k hk))

/-- All facets and then something else. -/
theorem facets_tok {ts : List Tok} {fs : List Facet} (hf : Facets ts fs) {rest : List Tok} {w : Str}
    (h : Sp X (ts ++ rest) w) (ht : ∀ t ∈ rest.head?, NoFacet t) :
    ∃ u, many0 (xsFacet X) w = .ok fs u ∧ At X rest u ∧ u.length ≤ w.length := by
  cases hf with
  | mk hs hn =>
    rw [List.append_assoc] at h
    cases hs with
    | none =>
      obtain ⟨u, h1, h2, l⟩ := xsFacets_steps hn (Sp.at' h)
      exact ⟨u, many0_steps h1 (xsFacet_err h2 ht), h2, l⟩
    | one hs =>
      obtain ⟨v, e, h1, l1⟩ := stringFacet_tok hs h
      obtain ⟨u, h2, h3, l2⟩ := xsFacets_steps hn h1
      exact ⟨u, many0_steps (.cons (alt_left e) l1 h2) (xsFacet_err h3 ht), h3, by omega⟩

/-! ## Values -/

theorem lexical_eq {l : Lit} {ts : List Tok} {w : Str} (h : Sp X (.lit l :: ts) w) : l.lexical = lexicalForm l := by
  obtain ⟨v, u, rfl, ht, -⟩ := sp_tok h
  cases ht with
  | lit h => cases h <;> first | rfl | decide

/-- Whether a word is a tilde: in front of the words that may follow. -/
theorem opt_tilde_some {rest : List Tok} {w : Str} (h : At X (.sym ['~'] :: rest) w) :
    ∃ u, opt (tokenTws ['~']) w = .ok (some ()) u ∧ Sp X rest u ∧ u.length < w.length := by
  obtain ⟨u, e, h1, l⟩ := sym_tws h
  exact ⟨u, opt_some e, h1, l⟩

/-- Words that do not begin with a tilde. -/
def NoTilde (t : Tok) : Prop := ¬ heads t '~'

/-- Words that do not begin with a minus sign. -/
def NoMinus (t : Tok) : Prop := ¬ heads t '-' ∨ ∃ l, t = .lit l ∧ ¬ negative t

theorem noMinus_off {ts : List Tok} {w : Str} (h : Sp X ts w) (ht : ∀ t ∈ ts.head?, NoMinus t) : Off (· = '-') w := by
  cases ts with
  | nil => rw [sp_nil h]; exact Off.nil
  | cons t ts =>
    rcases ht t (by simp) with hh | ⟨l, rfl, hn⟩
    · exact sp_off h (head_cons (p := fun t => ∀ c, heads t c → ¬ c = '-') fun c hc e => hh (e ▸ hc))
    · obtain ⟨v, u, rfl, htx, -⟩ := sp_tok h
      have num : ∀ {d : IriRef}, l = .typed v d → Off (· = '-') (v ++ u) := by
        rintro d rfl
        obtain ⟨c, v', rfl, -⟩ := text_head htx
        refine Off.cons ?_
        rintro rfl
        exact hn trivial
      have str : ∀ {s w r : Str}, StringText s w → Off (· = '-') (w ++ r) := by
        intro s w r h
        obtain ⟨c, t, rfl, hc⟩ := str_head h
        refine Off.cons ?_
        rcases hc with rfl | rfl <;> decide
      cases htx with
      | lit hl =>
        cases hl with
        | str h => exact str h
        | lang hq _ _ => rw [List.append_assoc]; exact str hq
        | typed hq _ => rw [List.append_assoc]; exact str hq
        | integer h => exact num rfl
        | decimal h => exact num rfl
        | double h => exact num rfl
        | yes => exact Off.cons (by decide)
        | no => exact Off.cons (by decide)

theorem iriExclusion_tok {ts : List Tok} {x : Excl IriRef} (hx : Exclusion IsName ts x) {rest : List Tok} {w : Str}
    (h : At X (ts ++ rest) w) (ht : ∀ t ∈ rest.head?, NoTilde t) :
    ∃ u, iriExclusion w = .ok x u ∧ Sp X rest u ∧ u.length < w.length := by
  unfold iriExclusion
  cases hx with
  | exact hn =>
    obtain ⟨w1, e1, h1, l1⟩ := sym_tws h
    cases hn
    obtain ⟨w2, e2, h2, l2⟩ := iri_tok h1
    obtain ⟨w3, e3, h3, l3⟩ := tws0_at h2
    refine ⟨w3, ?_, h3, by omega⟩
    rw [bind_ok e1, bind_ok e2, bind_ok e3, bind_ok (opt_none (sym_tws_err (Sp.at' h3) ht))]
    rfl
  | stem hn =>
    obtain ⟨w1, e1, h1, l1⟩ := sym_tws h
    cases hn
    obtain ⟨w2, e2, h2, l2⟩ := iri_tok h1
    obtain ⟨w3, e3, h3, l3⟩ := tws0_at h2
    obtain ⟨w4, e4, h4, l4⟩ := opt_tilde_some (Sp.at' h3)
    refine ⟨w4, ?_, h4, by omega⟩
    rw [bind_ok e1, bind_ok e2, bind_ok e3, bind_ok e4]
    rfl

theorem langExclusion_tok {ts : List Tok} {x : Excl Str} (hx : Exclusion IsLang ts x) {rest : List Tok} {w : Str}
    (h : At X (ts ++ rest) w) (ht : ∀ t ∈ rest.head?, NoTilde t) :
    ∃ u, langExclusion X w = .ok x u ∧ Sp X rest u ∧ u.length < w.length := by
  unfold langExclusion
  cases hx with
  | exact hn =>
    obtain ⟨w1, e1, h1, l1⟩ := sym_tws h
    cases hn
    obtain ⟨w2, e2, h2, l2⟩ := langTag_tok h1
    obtain ⟨w3, e3, h3, l3⟩ := tws0_at h2
    refine ⟨w3, ?_, h3, by omega⟩
    rw [bind_ok e1, bind_ok e2, bind_ok e3, bind_ok (opt_none (sym_tws_err (Sp.at' h3) ht))]
    rfl
  | stem hn =>
    obtain ⟨w1, e1, h1, l1⟩ := sym_tws h
    cases hn
    obtain ⟨w2, e2, h2, l2⟩ := langTag_tok h1
    obtain ⟨w3, e3, h3, l3⟩ := tws0_at h2
    obtain ⟨w4, e4, h4, l4⟩ := opt_tilde_some (Sp.at' h3)
    refine ⟨w4, ?_, h4, by omega⟩
    rw [bind_ok e1, bind_ok e2, bind_ok e3, bind_ok e4]
    rfl

theorem litExclusion_tok {ts : List Tok} {x : Excl Str} (hx : Exclusion IsLit ts x) {rest : List Tok} {w : Str}
    (h : At X (ts ++ rest) w) (ht : ∀ t ∈ rest.head?, NoTilde t) :
    ∃ u, litExclusion X w = .ok x u ∧ At X rest u ∧ u.length < w.length ∧ ((∀ l, ts.getLast? ≠ some (.lit l)) → Sp X rest u) := by
  unfold litExclusion
  cases hx with
  | exact hn =>
    obtain ⟨w1, e1, h1, l1⟩ := sym_tws h
    cases hn
    obtain ⟨w2, e2, h2, l2⟩ := literal_tok h1
    refine ⟨w2, ?_, h2, by omega, fun hh => absurd rfl (hh _)⟩
    rw [bind_ok e1, bind_ok e2, bind_ok (opt_none (sym_tws_err h2 ht)), lexical_eq h1]
    rfl
  | stem hn =>
    obtain ⟨w1, e1, h1, l1⟩ := sym_tws h
    cases hn
    obtain ⟨w2, e2, h2, l2⟩ := literal_tok h1
    obtain ⟨w4, e4, h4, l4⟩ := opt_tilde_some h2
    refine ⟨w4, ?_, Sp.at' h4, by omega, fun _ => h4⟩
    rw [bind_ok e1, bind_ok e2, bind_ok e4, lexical_eq h1]
    rfl

theorem exclusion_head {T : Tok → α → Prop} {ts : List Tok} {es : List (Excl α)} (h : Seq (Exclusion T) ts es)
    {rest : List Tok} (ht : ∀ t ∈ rest.head?, NoTilde t) : ∀ t ∈ (ts ++ rest).head?, NoTilde t := by
  cases h with
  | nil => exact ht
  | cons h hs => cases h <;> exact head_cons (p := NoTilde) (by simp only [NoTilde, heads]; decide)

theorem iriExclusions_steps {ts : List Tok} {es : List (Excl IriRef)} (hs : Seq (Exclusion IsName) ts es)
    {rest : List Tok} (ht : ∀ t ∈ rest.head?, NoTilde t) {w : Str} (h : Sp X (ts ++ rest) w) :
    ∃ u, Steps iriExclusion es w u ∧ Sp X rest u ∧ u.length ≤ w.length :=
  seq_steps (Sp X) (G := fun us => ∀ t ∈ us.head?, NoTilde t) (fun _ _ _ _ hx hg h => iriExclusion_tok hx (Sp.at' h) hg)
    (fun _ _ hs => exclusion_head hs ht) hs w h

theorem langExclusions_steps {ts : List Tok} {es : List (Excl Str)} (hs : Seq (Exclusion IsLang) ts es)
    {rest : List Tok} (ht : ∀ t ∈ rest.head?, NoTilde t) {w : Str} (h : Sp X (ts ++ rest) w) :
    ∃ u, Steps (langExclusion X) es w u ∧ Sp X rest u ∧ u.length ≤ w.length :=
  seq_steps (Sp X) (G := fun us => ∀ t ∈ us.head?, NoTilde t) (fun _ _ _ _ hx hg h => langExclusion_tok hx (Sp.at' h) hg)
    (fun _ _ hs => exclusion_head hs ht) hs w h

theorem exclusions_nil {T : Tok → α → Prop} {ts : List Tok} {es : List (Excl α)} (h : Seq (Exclusion T) ts es)
    (e : ts = []) : es = [] := by
  cases h with
  | nil => rfl
  | cons h hs => cases h <;> simp at e

theorem seq_nil {R : List Tok → α → Prop} {ts : List Tok} (h : Seq R ts []) : ts = [] := by cases h; rfl

theorem litExclusions_steps {ts : List Tok} {es : List (Excl Str)} (hs : Seq (Exclusion IsLit) ts es)
    {rest : List Tok} (ht : ∀ t ∈ rest.head?, NoTilde t) : ∀ {w : Str}, Sp X (ts ++ rest) w →
    ∃ u, Steps (litExclusion X) es w u ∧ At X rest u ∧ u.length ≤ w.length ∧
      ((∀ l, ts.getLast? ≠ some (.lit l)) → Sp X rest u) := by
  suffices H : ∀ {w : Str}, At X (ts ++ rest) w → ∃ u, Steps (litExclusion X) es w u ∧ At X rest u ∧ u.length ≤ w.length ∧
      (ts ≠ [] → (∀ l, ts.getLast? ≠ some (.lit l)) → Sp X rest u) by
    intro w h
    by_cases e : ts = []
    · subst e
      rw [exclusions_nil hs rfl]
      exact ⟨w, .nil, Sp.at' h, Nat.le.refl, fun _ => h⟩
    · obtain ⟨u, h1, h2, h3, h4⟩ := H (Sp.at' h)
      exact ⟨u, h1, h2, h3, h4 e⟩
  induction hs with
  | nil => exact fun h => ⟨_, .nil, h, Nat.le.refl, by simp⟩
  | @cons ts us a as hx hs ih =>
    intro w h
    rw [List.append_assoc] at h
    obtain ⟨u, e, h1, l1, h2⟩ := litExclusion_tok hx h (exclusion_head hs ht)
    obtain ⟨v, h3, h4, l2, h5⟩ := ih h1
    refine ⟨v, .cons e l1 h3, h4, by omega, fun _ hl => ?_⟩
    by_cases e : us = []
    · subst e
      have : as = [] := exclusions_nil hs rfl
      subst this
      rw [steps_nil h3]
      exact h2 (by simpa using hl)
    · refine h5 e ?_
      rwa [List.getLast?_append_of_ne_nil _ e] at hl

theorem minus_err {p : Unit → P α} {ts : List Tok} {w : Str} (h : At X ts w) (ht : ∀ t ∈ ts.head?, NoMinus t) :
    (tokenTws ['-'] >>= p) w = .err := by
  obtain ⟨w1, e1, h1, l1⟩ := tws0_at h
  refine bind_err ?_
  unfold tokenTws
  rw [bind_ok e1]
  exact bind_err (tag_err (noMinus_off h1 ht))

/-- What may follow a value. -/
def AfterValue (t : Tok) : Prop := NoTilde t ∧ NoMinus t

theorem tilde_off {ts : List Tok} {w : Str} (h : Sp X ts w) (ht : ∀ t ∈ ts.head?, NoTilde t) : Off (· = '~') w :=
  sp_off h fun t hh c hc e => ht t hh ((show c = '~' from e) ▸ hc)

theorem iriRange_tok {r : IriRef} {rest : List Tok} {w : Str} (h : Sp X (.name r :: rest) w)
    (ht : ∀ t ∈ rest.head?, NoTilde t) : ∃ u, iriRange w = .ok (.obj (.iri r)) u ∧ Sp X rest u ∧ u.length < w.length := by
  obtain ⟨w1, e1, h1, l1⟩ := iri_tok h
  obtain ⟨w2, e2, h2, l2⟩ := tws0_at h1
  refine ⟨w2, ?_, h2, by omega⟩
  unfold iriRange
  rw [bind_ok e1, bind_ok e2, bind_ok (opt_none (bind_err (char_err (tilde_off h2 ht))))]
  rfl

theorem iriRange_stem {r : IriRef} {ts rest : List Tok} {es : List (Excl IriRef)} {w : Str}
    (hs : Seq (Exclusion IsName) ts es) (h : Sp X (.name r :: .sym ['~'] :: (ts ++ rest)) w)
    (ht : ∀ t ∈ rest.head?, AfterValue t) :
    ∃ u, iriRange w = .ok (match es with | [] => .iriStem r | es => .iriStemRange (some r) (some es)) u ∧ Sp X rest u ∧
      u.length < w.length := by
  obtain ⟨w1, e1, h1, l1⟩ := iri_tok h
  obtain ⟨w2, e2, h2, l2⟩ := tws0_at h1
  obtain ⟨w3, e3, h3, l3⟩ := sym_char h2
  obtain ⟨w4, e4, h4, l4⟩ := tws0_at h3
  obtain ⟨u, st, h5, l5⟩ := iriExclusions_steps hs (fun t hh => (ht t hh).1) h4
  have e5 := many0_steps st (minus_err (Sp.at' h5) fun t hh => (ht t hh).2)
  refine ⟨u, ?_, h5, by omega⟩
  unfold iriRange
  rw [bind_ok e1, bind_ok e2, bind_ok (opt_some (a := es) (r := u) (by rw [bind_ok e3, bind_ok e4, e5]))]
  cases es <;> rfl

theorem litRange_tok {l : Lit} {rest : List Tok} {w : Str} (h : Sp X (.lit l :: rest) w)
    (ht : ∀ t ∈ rest.head?, NoTilde t) : ∃ u, litRange X w = .ok (.obj (.lit l)) u ∧ Sp X rest u ∧ u.length < w.length := by
  obtain ⟨w1, e1, h1, l1⟩ := literal_tok h
  obtain ⟨w2, e2, h2, l2⟩ := tws0_at h1
  refine ⟨w2, ?_, h2, by omega⟩
  unfold litRange
  rw [bind_ok e1, bind_ok e2, bind_ok (opt_none (bind_err (sym_tws_err (Sp.at' h2) ht)))]
  rfl

theorem litRange_stem {l : Lit} {ts rest : List Tok} {es : List (Excl Str)} {w : Str}
    (hs : Seq (Exclusion IsLit) ts es) (h : Sp X (.lit l :: .sym ['~'] :: (ts ++ rest)) w)
    (ht : ∀ t ∈ rest.head?, AfterValue t) :
    ∃ u, litRange X w = .ok (match es with | [] => .litStem (lexicalForm l) | es => .litStemRange (some (lexicalForm l)) (some es)) u ∧
      At X rest u ∧ u.length < w.length ∧ ((∀ l, ts.getLast? ≠ some (.lit l)) → Sp X rest u) := by
  obtain ⟨w1, e1, h1, l1⟩ := literal_tok h
  obtain ⟨w2, e2, h2, l2⟩ := tws0_at h1
  obtain ⟨w3, e3, h3, l3⟩ := sym_tws (Sp.at' h2)
  obtain ⟨u, st, h5, l5, h6⟩ := litExclusions_steps hs (fun t hh => (ht t hh).1) h3
  have e5 := many0_steps st (minus_err h5 fun t hh => (ht t hh).2)
  refine ⟨u, ?_, h5, by omega, h6⟩
  unfold litRange
  rw [bind_ok e1, bind_ok e2, bind_ok (opt_some (a := es) (r := u) (by rw [bind_ok e3, e5]))]
  simp only [lexical_eq h]
  cases es <;> rfl

theorem langRange1_tok {t : Str} {rest : List Tok} {w : Str} (h : Sp X (.lang t :: rest) w)
    (ht : ∀ t ∈ rest.head?, NoTilde t) : ∃ u, langRange1 X w = .ok (.lang t) u ∧ Sp X rest u ∧ u.length < w.length := by
  obtain ⟨w1, e1, h1, l1⟩ := langTag_tok h
  obtain ⟨w2, e2, h2, l2⟩ := tws0_at h1
  refine ⟨w2, ?_, h2, by omega⟩
  unfold langRange1
  rw [bind_ok e1, bind_ok e2, bind_ok (opt_none (bind_err (sym_tws_err (Sp.at' h2) ht)))]
  rfl

theorem langRange1_stem {t : Str} {ts rest : List Tok} {es : List (Excl Str)} {w : Str}
    (hs : Seq (Exclusion IsLang) ts es) (h : Sp X (.lang t :: .sym ['~'] :: (ts ++ rest)) w)
    (ht : ∀ t ∈ rest.head?, AfterValue t) :
    ∃ u, langRange1 X w = .ok (match es with | [] => .langStem (some t) | es => .langStemRange (some t) (some es)) u ∧
      Sp X rest u ∧ u.length < w.length := by
  obtain ⟨w1, e1, h1, l1⟩ := langTag_tok h
  obtain ⟨w2, e2, h2, l2⟩ := tws0_at h1
  obtain ⟨w3, e3, h3, l3⟩ := sym_tws (Sp.at' h2)
  obtain ⟨u, st, h5, l5⟩ := langExclusions_steps hs (fun t hh => (ht t hh).1) h3
  have e5 := many0_steps st (minus_err (Sp.at' h5) fun t hh => (ht t hh).2)
  refine ⟨u, ?_, h5, by omega⟩
  unfold langRange1
  rw [bind_ok e1, bind_ok e2, bind_ok (opt_some (a := es) (r := u) (by rw [bind_ok e3, e5]))]
  cases es <;> rfl

theorem langRange2_stem {ts rest : List Tok} {es : List (Excl Str)} {w : Str}
    (hs : Seq (Exclusion IsLang) ts es) (h : Sp X (.sym ['@'] :: .sym ['~'] :: (ts ++ rest)) w)
    (ht : ∀ t ∈ rest.head?, AfterValue t) :
    ∃ u, langRange2 X w = .ok (if es.isEmpty then .langStem none else .langStemRange none (some es)) u ∧
      Sp X rest u ∧ u.length < w.length := by
  obtain ⟨w1, e1, h1, l1⟩ := sym_tws (Sp.at' h)
  obtain ⟨w3, e3, h3, l3⟩ := sym_tws (Sp.at' h1)
  obtain ⟨u, st, h5, l5⟩ := langExclusions_steps hs (fun t hh => (ht t hh).1) h3
  have e5 := many0_steps st (minus_err (Sp.at' h5) fun t hh => (ht t hh).2)
  refine ⟨u, ?_, h5, by omega⟩
  unfold langRange2
  rw [bind_ok e1, bind_ok e3, bind_ok e5]
  rfl

theorem langTag_err_at {rest : List Tok} {w : Str} (h : Sp X (.sym ['@'] :: rest) w) : langTag X w = .err := by
  obtain ⟨v, u, rfl, ht, h1, h2, h3⟩ := sp_tok h
  cases ht
  unfold langTag
  have : Off (fun c => isAlpha c = true) u := h2.mono fun c hc => ⟨rfl, (isAlpha_iff c).1 hc⟩
  rw [bind_ok (tag_ok ['@'] u)]
  exact bind_err (recognize_err (bind_err (takeWhile1_err this)))

theorem dot_tok {rest : List Tok} {w : Str} (h : Sp X (.sym ['.'] :: rest) w) :
    ∃ u, tokenTws ['.'] w = .ok () u ∧ Sp X rest u ∧ u.length < w.length := sym_tws (Sp.at' h)

theorem exclusionPlus_lit {ts rest : List Tok} {e : Excl Str} {es : List (Excl Str)} {w : Str}
    (hs : Seq (Exclusion IsLit) ts (e :: es)) (h : Sp X (.sym ['.'] :: (ts ++ rest)) w)
    (ht : ∀ t ∈ rest.head?, AfterValue t) :
    ∃ u, exclusionPlus X w = .ok (.litStemRange none (some (e :: es))) u ∧ At X rest u ∧ u.length < w.length ∧
      ((∀ l, ts.getLast? ≠ some (.lit l)) → Sp X rest u) := by
  obtain ⟨w1, e1, h1, l1⟩ := dot_tok h
  obtain ⟨u, st, h5, l5, h6⟩ := litExclusions_steps hs (fun t hh => (ht t hh).1) h1
  have e5 := many1_steps st (minus_err h5 fun t hh => (ht t hh).2)
  refine ⟨u, ?_, h5, by omega, h6⟩
  unfold exclusionPlus
  rw [bind_ok e1, alt_left]
  rw [bind_ok e5]
  rfl

theorem litExclusion_err_lang {t : Str} {us : List Tok} {w : Str} (h : Sp X (.sym ['-'] :: .lang t :: us) w) :
    litExclusion X w = .err := by
  obtain ⟨w1, e1, h1, l1⟩ := sym_tws (Sp.at' h)
  unfold litExclusion
  rw [bind_ok e1]
  exact bind_err (literal_err h1 (head_cons (p := fun t => ∀ c, heads t c → ¬ litStart c)
    fun c hc => by rw [show c = '@' from hc]; decide))

theorem litExclusion_err_name {t : Tok} {n : IriRef} (hn : IsPlainName t n) {us : List Tok} {w : Str}
    (h : Sp X (.sym ['-'] :: t :: us) w) : litExclusion X w = .err := by
  obtain ⟨w1, e1, h1, l1⟩ := sym_tws (Sp.at' h)
  unfold litExclusion
  rw [bind_ok e1]
  exact bind_err (literal_err_name hn h1)

theorem langExclusion_err_name {n : IriRef} {us : List Tok} {w : Str}
    (h : Sp X (.sym ['-'] :: .name n :: us) w) : langExclusion X w = .err := by
  obtain ⟨w1, e1, h1, l1⟩ := sym_tws (Sp.at' h)
  unfold langExclusion
  rw [bind_ok e1]
  refine bind_err (langTag_tok_err h1 (head_cons (p := fun t => ¬ heads t '@') ?_))
  cases n <;> simp only [heads] <;> decide

theorem exclusionPlus_lang {ts rest : List Tok} {e : Excl Str} {es : List (Excl Str)} {w : Str}
    (hs : Seq (Exclusion IsLang) ts (e :: es)) (h : Sp X (.sym ['.'] :: (ts ++ rest)) w)
    (ht : ∀ t ∈ rest.head?, AfterValue t) :
    ∃ u, exclusionPlus X w = .ok (.langStemRange none (some (e :: es))) u ∧ Sp X rest u ∧ u.length < w.length := by
  obtain ⟨w1, e1, h1, l1⟩ := dot_tok h
  obtain ⟨u, st, h5, l5⟩ := langExclusions_steps hs (fun t hh => (ht t hh).1) h1
  have e5 := many1_steps st (minus_err (Sp.at' h5) fun t hh => (ht t hh).2)
  have e6 : litExclusion X w1 = .err := by
    cases hs with
    | cons hx hs =>
      cases hx with
      | exact hn => cases hn; exact litExclusion_err_lang (by simpa using h1)
      | stem hn => cases hn; exact litExclusion_err_lang (by simpa using h1)
  refine ⟨u, ?_, h5, by omega⟩
  unfold exclusionPlus
  rw [bind_ok e1, alt_right (bind_err (many1_err e6)), alt_left]
  rw [bind_ok e5]
  rfl

theorem exclusionPlus_iri {ts rest : List Tok} {e : Excl IriRef} {es : List (Excl IriRef)} {w : Str}
    (hs : Seq (Exclusion IsPlainName) ts (e :: es)) (h : Sp X (.sym ['.'] :: (ts ++ rest)) w)
    (ht : ∀ t ∈ rest.head?, AfterValue t) :
    ∃ u, exclusionPlus X w = .ok (.iriStemRange none (some (e :: es))) u ∧ Sp X rest u ∧ u.length < w.length := by
  have weak : ∀ {ts : List Tok} {es : List (Excl IriRef)}, Seq (Exclusion IsPlainName) ts es → Seq (Exclusion IsName) ts es := by
    intro ts es h
    have one : ∀ {t : Tok} {r : IriRef}, IsPlainName t r → IsName t r := by
      intro t r h
      cases h <;> exact .mk _
    induction h with
    | nil => exact .nil
    | cons hx hs ih =>
      cases hx with
      | exact hn => exact .cons (.exact (one hn)) ih
      | stem hn => exact .cons (.stem (one hn)) ih
  obtain ⟨w1, e1, h1, l1⟩ := dot_tok h
  obtain ⟨u, st, h5, l5⟩ := iriExclusions_steps (weak hs) (fun t hh => (ht t hh).1) h1
  have e5 := many1_steps st (minus_err (Sp.at' h5) fun t hh => (ht t hh).2)
  have name : ∀ {t : Tok} {r : IriRef}, IsPlainName t r → ∃ n, t = .name n := by
    intro t r h
    cases h <;> exact ⟨_, rfl⟩
  have e6 : litExclusion X w1 = .err ∧ langExclusion X w1 = .err := by
    cases hs with
    | cons hx hs =>
      cases hx with
      | exact hn =>
        obtain ⟨n, rfl⟩ := name hn
        exact ⟨litExclusion_err_name hn (by simpa using h1), langExclusion_err_name (by simpa using h1)⟩
      | stem hn =>
        obtain ⟨n, rfl⟩ := name hn
        exact ⟨litExclusion_err_name hn (by simpa using h1), langExclusion_err_name (by simpa using h1)⟩
  refine ⟨u, ?_, h5, by omega⟩
  unfold exclusionPlus
  rw [bind_ok e1, alt_right (bind_err (many1_err e6.1)), alt_right (bind_err (many1_err e6.2)), bind_ok e5]
  rfl

end Shexc

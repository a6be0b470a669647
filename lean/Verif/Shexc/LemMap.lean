import Verif.Shexc.SpecMap
import Verif.Shexc.LemTok2

/-!
# Lemmas: shape maps are read as they are written
-/

namespace Shexc

open P Spec

variable {X : Ext}

/-- Words, and words after a gap. -/
abbrev MSp (X : Ext) := MSpell X.lang

def MAt (X : Ext) (ts : List MTok) (w : Str) : Prop := ∃ g r, Gap false g ∧ w = g ++ r ∧ MSp X ts r

theorem MSp.at' {ts : List MTok} {w : Str} (h : MSp X ts w) : MAt X ts w := ⟨[], w, .nil, rfl, h⟩

/-! ## First characters -/

/-- The characters that a word may begin with. -/
def mheads : MTok → Char → Prop
  | .sym d, c => c = d
  | .kw _, c => letter c
  | .name _, c => nameStart c ∨ c = ':' ∨ c = '<'
  | .subj _, c => nameStart c ∨ c = ':' ∨ c = '<'
  | .bnode _, c => c = '_'
  | .isA, c => c = 'a'
  | .lit _, c => c = '"' ∨ c = '\'' ∨ c = '+' ∨ c = '-' ∨ digit c ∨ c = 't' ∨ c = 'f'
  | .str _, c => c = '"' ∨ c = '\''

theorem ref_head {r : IriRef} {w : Str} (h : RefText r w) : ∃ c t, w = c :: t ∧ (nameStart c ∨ c = ':' ∨ c = '<') := by
  cases h with
  | iri h => cases h; exact ⟨_, _, rfl, by simp⟩
  | ns hp => obtain ⟨c, t, e, h⟩ := prefixed_head (v := []) hp; exact ⟨c, t, e, by tauto⟩
  | «local» hp hl => obtain ⟨c, t, e, h⟩ := prefixed_head hp; exact ⟨c, t, e, by tauto⟩

theorem mkw_letters {k : String} {v : Str} (hk : k ∈ ["FOCUS", "SPARQL", "START"])
    (h : v.map Char.toLower = k.toList.map Char.toLower) : v ≠ [] ∧ ∀ c ∈ v, letter c := by
  have key : ∀ k ∈ ["FOCUS", "SPARQL", "START"], k.toList ≠ [] ∧ ∀ c ∈ k.toList.map Char.toLower, letter c := by
    decide
  have hl := key k hk
  constructor
  · rintro rfl
    have : k.toList = [] := by simpa using h.symm
    exact hl.1 this
  · intro c hc
    have : c.toLower ∈ v.map Char.toLower := List.mem_map_of_mem hc
    rw [h] at this
    exact letter_of_lower (hl.2 _ this)

theorem mlit_head {l : Lit} {w : Str} (h : MLitText X.lang l w) :
    ∃ c t, w = c :: t ∧ (c = '"' ∨ c = '\'' ∨ c = '+' ∨ c = '-' ∨ digit c ∨ c = 't' ∨ c = 'f') := by
  cases h with
  | base h => exact lit_head h
  | typed h _ => obtain ⟨c, t, rfl, h⟩ := str_head h; exact ⟨c, _, rfl, by tauto⟩

theorem mtext_head {t : MTok} {v : Str} (h : MText X.lang t v) : ∃ c u, v = c :: u ∧ mheads t c := by
  cases h with
  | sym h => exact ⟨_, _, rfl, rfl⟩
  | kw hk h =>
    have hl := mkw_letters hk h
    obtain ⟨c, u, rfl⟩ := List.exists_cons_of_ne_nil hl.1
    exact ⟨c, u, rfl, hl.2 c List.mem_cons_self⟩
  | name h => exact ref_head h
  | subj h _ => exact ref_head h
  | bnode h => exact ⟨_, _, rfl, rfl⟩
  | isA => exact ⟨_, _, rfl, rfl⟩
  | lit h => exact mlit_head h
  | str h => exact str_head h

theorem mtext_noGap {t : MTok} {v : Str} (h : MText X.lang t v) (u : Str) : NoGap (v ++ u) := by
  have key : ∀ c t', v = c :: t' → (nameStart c ∨ digit c ∨ c ∈ ['<', ':', '_', 'a', '@', '"', '\'', '+', '-', '{', '}', ',']) →
      NoGap (v ++ u) := by
    rintro c t' rfl hc
    have h0 : ∀ d : Char, space d ∨ d = '#' ∨ d = '/' →
        ¬ (nameStart d ∨ digit d ∨ d ∈ ['<', ':', '_', 'a', '@', '"', '\'', '+', '-', '{', '}', ',']) := by
      rintro d ((rfl | rfl | rfl | rfl) | rfl | rfl) <;> decide
    exact noGap_cons (fun e => h0 c (.inl e) hc) (fun e => h0 c (.inr (.inl e)) hc) (fun e => h0 c (.inr (.inr e)) hc)
  obtain ⟨c, t', e, hc⟩ := mtext_head h
  refine key c t' e ?_
  cases h with
  | sym h =>
    subst hc
    simp only [List.mem_cons, List.not_mem_nil, or_false] at h ⊢
    tauto
  | kw hk h => exact .inl (.inl hc)
  | name h => rcases hc with h | rfl | rfl <;> simp_all
  | subj h _ => rcases hc with h | rfl | rfl <;> simp_all
  | bnode h => subst hc; simp
  | isA => subst hc; simp
  | lit h =>
    rcases hc with rfl | rfl | rfl | rfl | h | rfl | rfl
    · simp
    · simp
    · simp
    · simp
    · exact .inr (.inl h)
    · exact .inl (by decide)
    · exact .inl (by decide)
  | str h => rcases hc with rfl | rfl <;> simp

theorem msp_noGap {ts : List MTok} {w : Str} (h : MSp X ts w) : NoGap w := by
  cases h with
  | nil => exact ⟨Off.nil, fun b e => by simp at e⟩
  | cons ht hg hs hr => exact mtext_noGap ht _

theorem mtws0_at {ts : List MTok} {w : Str} (h : MAt X ts w) :
    ∃ w', tws0 w = .ok () w' ∧ MSp X ts w' ∧ w'.length ≤ w.length := by
  obtain ⟨g, r, hg, rfl, hr⟩ := h
  exact ⟨r, tws0_ok hg (msp_noGap hr), hr, by simp⟩

theorem mtws0_sp {ts : List MTok} {w : Str} (h : MSp X ts w) : tws0 w = .ok () w :=
  tws0_ok (g := []) (b := false) .nil (msp_noGap h)

theorem no_msticks_gap {t : MTok} {c : Char} (h : space c ∨ c = '#') : ¬ msticks t c := by
  have key : ∀ d : Char, space d ∨ d = '#' → ¬ (nameChar d ∨ d ∈ [':', '.', '%', '\\']) ∧ d ∉ ['"', '\'', '@', '^'] := by
    rintro d ((rfl | rfl | rfl | rfl) | rfl) <;> decide
  have := key c h
  unfold msticks
  split
  · exact id
  · exact id
  · exact id
  · exact this.2
  · exact fun h => this.2 (by simp only [List.mem_cons, List.not_mem_nil, or_false] at h ⊢; tauto)
  · exact this.1

theorem msp_tok {t : MTok} {ts : List MTok} {w : Str} (h : MSp X (t :: ts) w) :
    ∃ v u, w = v ++ u ∧ MText X.lang t v ∧ MAt X ts u ∧ Off (msticks t) u ∧ u.length < w.length := by
  cases h with
  | @cons _ _ v g r ht hg hs hr =>
    refine ⟨v, g ++ r, rfl, ht, ⟨g, r, hg, rfl, hr⟩, ?_, ?_⟩
    · by_cases hn : g = []
      · subst hn
        exact hs rfl
      · obtain ⟨c, t, rfl, hc⟩ := gap_head hg hn
        exact Off.cons (no_msticks_gap hc)
    · obtain ⟨c, u, rfl, -⟩ := mtext_head ht
      simp

theorem msp_off {f : Char → Prop} {ts : List MTok} {w : Str} (h : MSp X ts w)
    (hf : ∀ t ∈ ts.head?, ∀ c, mheads t c → ¬ f c) : Off f w := by
  cases h with
  | nil => exact Off.nil
  | @cons t ts v g r ht hg hs hr =>
    obtain ⟨c, u, rfl, hc⟩ := mtext_head ht
    exact Off.cons (hf t (by simp) c hc)

/-! ## Single words -/

theorem msym_char {c : Char} {ts : List MTok} {w : Str} (h : MSp X (.sym c :: ts) w) :
    ∃ u, char c w = .ok c u ∧ MAt X ts u ∧ u.length < w.length := by
  obtain ⟨v, u, rfl, ht, h1, -, h3⟩ := msp_tok h
  cases ht
  exact ⟨u, char_ok _ _, h1, h3⟩

theorem msym_tws {c : Char} {ts : List MTok} {w : Str} (h : MAt X (.sym c :: ts) w) :
    ∃ u, tokenTws [c] w = .ok () u ∧ MSp X ts u ∧ u.length < w.length := by
  obtain ⟨w1, e1, h1, l1⟩ := mtws0_at h
  obtain ⟨v, u, rfl, ht, h2, -, h3⟩ := msp_tok h1
  cases ht
  obtain ⟨w3, e3, h4, l3⟩ := mtws0_at h2
  refine ⟨w3, ?_, h4, by omega⟩
  unfold tokenTws
  rw [bind_ok e1, bind_ok (show tag [c] ([c] ++ u) = .ok () u from tag_ok [c] u), e3]

theorem mkw_tws {k : String} {ts : List MTok} {w : Str} (h : MAt X (.kw k :: ts) w) :
    ∃ u, tokenTwsNoCase k.toList w = .ok () u ∧ MSp X ts u ∧ u.length < w.length := by
  obtain ⟨w1, e1, h1, l1⟩ := mtws0_at h
  obtain ⟨v, u, rfl, ht, h2, -, h3⟩ := msp_tok h1
  cases ht with
  | kw hk hl =>
    obtain ⟨w3, e3, h4, l3⟩ := mtws0_at h2
    refine ⟨w3, ?_, h4, by omega⟩
    unfold tokenTwsNoCase
    rw [bind_ok e1, bind_ok (tagNoCase_ok hl), e3]

theorem ends_name {r : IriRef} {u : Str} (h : Off (msticks (.name r)) u) : r.endsN u := by
  cases r with
  | iri s => trivial
  | prefixed p l => exact h

theorem ends_subj {r : IriRef} {u : Str} (h : Off (msticks (.subj r)) u) : r.endsN u := by
  cases r with
  | iri s => trivial
  | prefixed p l => exact h

theorem miri_name {r : IriRef} {ts : List MTok} {w : Str} (h : MSp X (.name r :: ts) w) :
    ∃ u, iri w = .ok r u ∧ MAt X ts u ∧ u.length < w.length := by
  obtain ⟨v, u, rfl, ht, h1, h2, h3⟩ := msp_tok h
  cases ht with
  | name hn => exact ⟨u, iri_ref hn (ends_name h2), h1, h3⟩

theorem miri_subj {r : IriRef} {ts : List MTok} {w : Str} (h : MSp X (.subj r :: ts) w) :
    ∃ u, iri w = .ok r u ∧ MAt X ts u ∧ u.length < w.length := by
  obtain ⟨v, u, rfl, ht, h1, h2, h3⟩ := msp_tok h
  cases ht with
  | subj hn _ => exact ⟨u, iri_ref hn (ends_subj h2), h1, h3⟩

theorem mbnode {b : Str} {ts : List MTok} {w : Str} (h : MSp X (.bnode b :: ts) w) :
    ∃ u, bnodeLabel w = .ok b u ∧ MAt X ts u ∧ u.length < w.length := by
  obtain ⟨v, u, rfl, ht, h1, h2, h3⟩ := msp_tok h
  cases ht with
  | bnode hn => exact ⟨u, bnodeLabel_ok hn h2, h1, h3⟩

theorem mstring {s : Str} {ts : List MTok} {w : Str} (h : MSp X (.str s :: ts) w) :
    ∃ u, string w = .ok s u ∧ MAt X ts u ∧ u.length < w.length := by
  obtain ⟨v, u, rfl, ht, h1, h2, h3⟩ := msp_tok h
  cases ht with
  | str hn => exact ⟨u, string_ok hn (h2.mono fun c hc => by rcases hc with rfl | rfl <;> simp [msticks]), h1, h3⟩

theorem iri_kw {k : String} {ts : List MTok} {w : Str} (h : MSp X (.kw k :: ts) w) : iri w = .err := by
  obtain ⟨v, u, rfl, ht, h1, h2, h3⟩ := msp_tok h
  cases ht with
  | kw hk hl =>
    have hl := mkw_letters hk hl
    obtain ⟨c, t, rfl⟩ := List.exists_cons_of_ne_nil hl.1
    exact iri_err_wordN (.inl (hl.2 c List.mem_cons_self))
      (fun d hd => letter_name (hl.2 d (List.mem_cons_of_mem _ hd))) h2

theorem iri_isA {ts : List MTok} {w : Str} (h : MSp X (.isA :: ts) w) : iri w = .err := by
  obtain ⟨v, u, rfl, ht, h1, h2, h3⟩ := msp_tok h
  cases ht with
  | isA => exact iri_err_wordN (p := []) (.inl (by decide)) (by simp) h2

theorem expish_stkN {c : Char} (h : expish c) : StkN c := by
  rcases h with h | rfl | rfl | rfl
  · exact .inl (digit_name h)
  · decide
  · decide
  · decide

theorem mliteral_err {w : Str} (hg : NoGap w) (h : Off litStart w) : literal X w = .err := by
  unfold literal
  rw [alt_right (rdfLit_err X (h.mono fun c hc => by unfold litStart; rcases hc with rfl | rfl <;> simp)),
    alt_right (numericLit_err (h.mono fun c hc => by unfold litStart; tauto))]
  refine bind_err ?_
  unfold boolValue
  have e : tws0 w = .ok () w := tws0_ok (g := []) (b := false) .nil hg
  have e1 : tokenTws ['t', 'r', 'u', 'e'] w = .err := by
    unfold tokenTws
    rw [bind_ok e]
    exact bind_err (tag_err (h.mono fun c hc => by subst hc; unfold litStart; simp))
  have e2 : tokenTws ['f', 'a', 'l', 's', 'e'] w = .err := by
    unfold tokenTws
    rw [bind_ok e]
    exact bind_err (tag_err (h.mono fun c hc => by subst hc; unfold litStart; simp))
  rw [alt_right (bind_err e1)]
  exact bind_err e2

theorem mliteral {l : Lit} {ts : List MTok} {w : Str} (h : MSp X (.lit l :: ts) w) :
    ∃ u, literal X w = .ok l u ∧ MAt X ts u ∧ u.length < w.length := by
  obtain ⟨v, u, rfl, ht, h1, h2, h3⟩ := msp_tok h
  unfold literal
  have num : (∃ c t, v = c :: t ∧ (c = '+' ∨ c = '-' ∨ digit c)) → rdfLit X (v ++ u) = .err := by
    rintro ⟨c, t, rfl, hc⟩
    refine rdfLit_err X (Off.cons ?_)
    rintro (rfl | rfl)
    · revert hc; decide
    · revert hc; decide
  cases ht with
  | lit hl =>
    cases hl with
    | @typed s w v d hs hd =>
      refine ⟨u, alt_left ?_, h1, h3⟩
      rw [List.append_assoc]
      refine rdfLit_typed X hs hd ?_
      cases d with
      | iri s => trivial
      | prefixed p l => exact h2
    | base hl =>
      cases hl with
      | str hs => exact ⟨u, alt_left (rdfLit_strN X hs h2), h1, h3⟩
      | lang hs hl hn =>
        refine ⟨u, alt_left ?_, h1, h3⟩
        rw [List.append_assoc]
        exact rdfLit_lang X hs hl hn h2
      | @typed s w v d hs hd =>
        refine ⟨u, alt_left ?_, h1, h3⟩
        rw [List.append_assoc]
        refine rdfLit_typed X hs hd.ref ?_
        cases d with
        | iri s => trivial
        | prefixed p l => exact h2
      | integer hi =>
        have h2 : Off StkN u := h2
        refine ⟨u, ?_, h1, h3⟩
        rw [alt_right (num (int_head hi))]
        exact alt_left (numericLit_int hi (h2.mono fun c hc => expish_stkN hc))
      | decimal hd =>
        have h2 : Off StkN u := h2
        refine ⟨u, ?_, h1, h3⟩
        rw [alt_right (num (dec_head hd))]
        exact alt_left (numericLit_dec hd (h2.mono fun c hc => expish_stkN hc))
      | double hd =>
        have h2 : Off StkN u := h2
        refine ⟨u, ?_, h1, h3⟩
        rw [alt_right (num (double_head hd))]
        exact alt_left (numericLit_double hd (h2.mono fun c hc => expish_stkN (.inl hc)))
      | yes =>
        obtain ⟨u', e, h4, h5⟩ := mtws0_at h1
        rw [show "true".toList = ['t', 'r', 'u', 'e'] by decide] at *
        have hn : numericLit (['t', 'r', 'u', 'e'] ++ u) = .err := numericLit_err (Off.cons (by decide))
        have hg : tws0 (['t', 'r', 'u', 'e'] ++ u) = .ok () (['t', 'r', 'u', 'e'] ++ u) :=
          tws0_ok (g := []) (b := false) .nil (noGap_cons (by decide) (by decide) (by decide))
        have hr : rdfLit X (['t', 'r', 'u', 'e'] ++ u) = .err := rdfLit_err X (Off.cons (by unfold quoteish; decide))
        have hb : boolValue (['t', 'r', 'u', 'e'] ++ u) = .ok true u' := by
          refine alt_left ?_
          have : tokenTws ['t', 'r', 'u', 'e'] (['t', 'r', 'u', 'e'] ++ u) = .ok () u' := by
            unfold tokenTws
            rw [bind_ok hg, bind_ok (tag_ok ['t', 'r', 'u', 'e'] u), e]
          rw [bind_ok this]
          rfl
        refine ⟨u', ?_, MSp.at' h4, by omega⟩
        rw [alt_right hr, alt_right hn, bind_ok hb]
        rfl
      | no =>
        obtain ⟨u', e, h4, h5⟩ := mtws0_at h1
        rw [show "false".toList = ['f', 'a', 'l', 's', 'e'] by decide] at *
        have hn : numericLit (['f', 'a', 'l', 's', 'e'] ++ u) = .err := numericLit_err (Off.cons (by decide))
        have hr : rdfLit X (['f', 'a', 'l', 's', 'e'] ++ u) = .err := rdfLit_err X (Off.cons (by unfold quoteish; decide))
        have hg : tws0 (['f', 'a', 'l', 's', 'e'] ++ u) = .ok () (['f', 'a', 'l', 's', 'e'] ++ u) :=
          tws0_ok (g := []) (b := false) .nil (noGap_cons (by decide) (by decide) (by decide))
        have hb : boolValue (['f', 'a', 'l', 's', 'e'] ++ u) = .ok false u' := by
          have h0 : tokenTws ['t', 'r', 'u', 'e'] (['f', 'a', 'l', 's', 'e'] ++ u) = .err := by
            unfold tokenTws
            rw [bind_ok hg]
            exact bind_err (tag_err (Off.cons (by decide)))
          have : tokenTws ['f', 'a', 'l', 's', 'e'] (['f', 'a', 'l', 's', 'e'] ++ u) = .ok () u' := by
            unfold tokenTws
            rw [bind_ok hg, bind_ok (tag_ok ['f', 'a', 'l', 's', 'e'] u), e]
          unfold boolValue
          rw [alt_right (bind_err h0), bind_ok this]
          rfl
        refine ⟨u', ?_, MSp.at' h4, by omega⟩
        rw [alt_right hr, alt_right hn, bind_ok hb]
        rfl

theorem mlit_cases {l : Lit} {w : Str} (h : MLitText X.lang l w) :
    (∃ c t, w = c :: t ∧ (c = '"' ∨ c = '\'' ∨ c = '+' ∨ c = '-' ∨ digit c)) ∨
      w = "true".toList ∧ l = .bool true ∨ w = "false".toList ∧ l = .bool false := by
  cases h with
  | typed h _ => obtain ⟨c, t, rfl, h⟩ := str_head h; exact .inl ⟨c, _, rfl, by tauto⟩
  | base h =>
    cases h with
    | str h => obtain ⟨c, t, rfl, h⟩ := str_head h; exact .inl ⟨c, _, rfl, by tauto⟩
    | lang h _ _ => obtain ⟨c, t, rfl, h⟩ := str_head h; exact .inl ⟨c, _, rfl, by tauto⟩
    | typed h _ => obtain ⟨c, t, rfl, h⟩ := str_head h; exact .inl ⟨c, _, rfl, by tauto⟩
    | integer h => obtain ⟨c, t, rfl, h⟩ := int_head h; exact .inl ⟨c, _, rfl, by tauto⟩
    | decimal h => obtain ⟨c, t, rfl, h⟩ := dec_head h; exact .inl ⟨c, _, rfl, by tauto⟩
    | double h => obtain ⟨c, t, rfl, h⟩ := double_head h; exact .inl ⟨c, _, rfl, by tauto⟩
    | yes => exact .inr (.inl ⟨rfl, rfl⟩)
    | no => exact .inr (.inr ⟨rfl, rfl⟩)

theorem not_name_head {c : Char} (h : c = '"' ∨ c = '\'' ∨ c = '+' ∨ c = '-' ∨ digit c) :
    ¬ (nameStart c ∨ c = ':' ∨ c = '<') := by
  rcases h with rfl | rfl | rfl | rfl | h
  · decide
  · decide
  · decide
  · decide
  · have e1 : ¬ c = ':' := by rintro rfl; revert h; decide
    have e2 : ¬ c = '<' := by rintro rfl; revert h; decide
    simp only [e1, e2, or_false]
    simp only [digit, nameStart, letter, within] at *
    omega

theorem iri_lit {l : Lit} {ts : List MTok} {w : Str} (h : MSp X (.lit l :: ts) w) : iri w = .err := by
  obtain ⟨v, u, rfl, ht, h1, h2, h3⟩ := msp_tok h
  cases ht with
  | lit hn =>
    rcases mlit_cases hn with ⟨c, t, rfl, hc⟩ | ⟨rfl, rfl⟩ | ⟨rfl, rfl⟩
    · exact iri_err (Off.cons (not_name_head hc))
    · exact iri_err_wordN (c := 't') (p := ['r', 'u', 'e']) (by decide) (by decide) h2
    · exact iri_err_wordN (c := 'f') (p := ['a', 'l', 's', 'e']) (by decide) (by decide) h2

/-! ## Names and labels -/

theorem bnode_off {ts : List MTok} {w : Str} (h : MSp X ts w) (hf : ∀ t ∈ ts.head?, ¬ mheads t '_') :
    bnodeLabel w = .err :=
  bind_err (tag_err (msp_off h fun t ht c hc e => hf t ht (e ▸ hc)))

theorem name_not_underscore : ¬ (nameStart '_' ∨ '_' = ':' ∨ '_' = '<') := by decide

theorem mpredicate {p : PathRef} {ps ts : List MTok} {w : Str} (hp : PathT p ps) (h : MSp X (ps ++ ts) w) :
    ∃ u, shaclPath w = .ok p u ∧ MAt X ts u ∧ u.length < w.length := by
  cases hp with
  | name r =>
    obtain ⟨u, e, h1, h2⟩ := miri_name h
    refine ⟨u, ?_, h1, h2⟩
    unfold shaclPath predicate
    rw [bind_ok (alt_left e)]
    rfl
  | isA =>
    have e := iri_isA h
    obtain ⟨v, u, rfl, ht, h1, -, h3⟩ := msp_tok h
    cases ht
    refine ⟨u, ?_, h1, h3⟩
    have e2 : predicate (['a'] ++ u) = .ok (.iri rdfType) u := by
      unfold predicate
      rw [alt_right e, bind_ok (tag_ok ['a'] u)]
      rfl
    unfold shaclPath
    rw [bind_ok e2]
    rfl

theorem mwild {ts : List MTok} {w : Str} (h : MSp X (.sym '_' :: ts) w) :
    ∃ u, nodeOrWildcard X w = .ok .wildcard u ∧ MAt X ts u ∧ u.length < w.length := by
  obtain ⟨u, e, h1, h2⟩ := msym_tws h.at'
  have ho : Off (fun c => nameStart c ∨ c = ':' ∨ c = '<') w := msp_off h (by
    rintro _ ⟨⟩ c hc; rw [show c = '_' from hc]; decide)
  have hl : Off litStart w := msp_off h (by rintro _ ⟨⟩ c hc; rw [show c = '_' from hc]; decide)
  refine ⟨u, ?_, h1.at', h2⟩
  unfold nodeOrWildcard objectValue
  rw [alt_right (bind_err ?_), bind_ok e]
  · rfl
  · rw [alt_right (bind_err (iri_err ho))]
    exact bind_err (mliteral_err (msp_noGap h) hl)

theorem mpat_lit {l : Lit} {ts : List MTok} {w : Str} (h : MSp X (.lit l :: ts) w) :
    ∃ u, nodeOrWildcard X w = .ok (.node (.lit l)) u ∧ MAt X ts u ∧ u.length < w.length := by
  obtain ⟨u, e, h1, h2⟩ := mliteral h
  refine ⟨u, alt_left ?_, h1, h2⟩
  have : objectValue X w = .ok (.lit l) u := by
    unfold objectValue
    rw [alt_right (bind_err (iri_lit h)), bind_ok e]
    rfl
  rw [bind_ok this]
  rfl

theorem mpat_iri {r : IriRef} {w u : Str} (e : iri w = .ok r u) : nodeOrWildcard X w = .ok (.node (.iri r)) u := by
  refine alt_left ?_
  have : objectValue X w = .ok (.iri r) u := by
    refine alt_left ?_
    rw [bind_ok e]
    rfl
  rw [bind_ok this]
  rfl

theorem mpat_name {o : Pat} {os ts : List MTok} {w : Str} (ho : PatT .name o os) (h : MSp X (os ++ ts) w) :
    ∃ u, nodeOrWildcard X w = .ok o u ∧ MAt X ts u ∧ u.length < w.length := by
  cases ho with
  | name r => obtain ⟨u, e, h1, h2⟩ := miri_name h; exact ⟨u, mpat_iri e, h1, h2⟩
  | lit l => exact mpat_lit h
  | wildcard => exact mwild h

theorem mpat_subj {o : Pat} {os ts : List MTok} {w : Str} (ho : PatT .subj o os) (h : MSp X (os ++ ts) w) :
    ∃ u, nodeOrWildcard X w = .ok o u ∧ MAt X ts u ∧ u.length < w.length := by
  cases ho with
  | name r => obtain ⟨u, e, h1, h2⟩ := miri_subj h; exact ⟨u, mpat_iri e, h1, h2⟩
  | lit l => exact mpat_lit h
  | wildcard => exact mwild h

/-- A name does not stop before its colon. -/
theorem ref_not_prefix {r : IriRef} {v s : Str} (h : RefText r v) (hs : ∀ c ∈ s, letter c) :
    ¬ v.map Char.toLower <+: s := by
  rintro ⟨t, rfl⟩
  have key : ∀ c, c ∈ v → (c = ':' ∨ c = '<') → False := by
    intro c hc he
    have := hs c.toLower (by simp only [List.mem_append]; exact .inl (List.mem_map_of_mem hc))
    rcases he with rfl | rfl <;> revert this <;> decide
  cases h with
  | iri h => cases h; exact key '<' (by simp) (by simp)
  | ns hp => exact key ':' (by simp) (by simp)
  | «local» hp hl => exact key ':' (by simp) (by simp)

theorem focus_err {s : Pat} {ss ts : List MTok} {w : Str} (hs : PatT .subj s ss) (h : MSp X (ss ++ ts) w) :
    focusP w = .err := by
  have e : tagNoCase "FOCUS".toList w = .err := by
    cases hs with
    | wildcard =>
      exact tagNoCase_off (c := 'F') (by decide) (msp_off h (by rintro _ ⟨⟩ c hc; rw [show c = '_' from hc]; decide))
    | name r =>
      obtain ⟨v, u, rfl, ht, -, -, -⟩ := msp_tok h
      cases ht with
      | subj hn hf => exact tagNoCase_err (by simpa using hf) (ref_not_prefix hn (by decide))
    | lit l =>
      obtain ⟨v, u, rfl, ht, -, -, -⟩ := msp_tok h
      cases ht with
      | lit hn =>
        rcases mlit_cases hn with ⟨c, t, rfl, hc⟩ | ⟨rfl, -⟩ | ⟨rfl, -⟩
        · exact tagNoCase_off (c := 'F') (by decide) (Off.cons fun hl => not_name_head hc (.inl (.inl hl)))
        · exact tagNoCase_err (by decide) (by decide)
        · exact tagNoCase_err (by decide) (by decide)
  unfold focusP tokenTwsNoCase
  refine bind_err ?_
  have : tws0 w = .ok () w := by cases hs <;> exact mtws0_sp h
  rw [bind_ok this]
  exact bind_err e

theorem mshape {sh : ShapeSel} {ss ts : List MTok} {w : Str} (hs : ShapeT sh ss) (h : MSp X (ss ++ ts) w) :
    ∃ u, shapeSpec w = .ok sh u ∧ MAt X ts u ∧ u.length < w.length := by
  cases hs with
  | name r =>
    obtain ⟨u, e, h1, h2⟩ := miri_name h
    refine ⟨u, alt_left ?_, h1, h2⟩
    have : shapeLabel w = .ok (.iri r) u := by
      refine alt_left ?_
      rw [bind_ok e]
      rfl
    rw [bind_ok this]
    rfl
  | bnode b =>
    obtain ⟨u, e, h1, h2⟩ := mbnode h
    refine ⟨u, alt_left ?_, h1, h2⟩
    have ho : Off (fun c => nameStart c ∨ c = ':' ∨ c = '<') w := msp_off h (by
      rintro _ ⟨⟩ c hc; rw [show c = '_' from hc]; decide)
    have : shapeLabel w = .ok (.bnode b) u := by
      unfold shapeLabel
      rw [alt_right (bind_err (iri_err ho)), bind_ok e]
      rfl
    rw [bind_ok this]
    rfl
  | start =>
    obtain ⟨u, e, h1, h2⟩ := mkw_tws h.at'
    refine ⟨u, ?_, h1.at', h2⟩
    have : shapeLabel w = .err := by
      unfold shapeLabel
      rw [alt_right (bind_err (iri_kw h))]
      exact bind_err (bnode_off h (by rintro _ ⟨⟩; unfold mheads; decide))
    unfold shapeSpec
    rw [alt_right (bind_err this), bind_ok e]
    rfl

/-! ## Selectors of nodes -/

/-- What no node begins with. -/
def termStart (c : Char) : Prop := nameStart c ∨ c = ':' ∨ c = '<' ∨ c = '_' ∨ litStart c

theorem objectTerm_err {w : Str} (hg : NoGap w) (h : Off termStart w) : objectTerm X w = .err := by
  unfold objectTerm
  have h1 : bnodeLabel w = .err := bind_err (tag_err (h.mono fun c hc => by subst hc; unfold termStart; simp))
  rw [alt_right ?_]
  · exact bind_err (mliteral_err hg (h.mono fun c hc => by unfold termStart; tauto))
  · rw [alt_right (bind_err h1)]
    exact bind_err (iri_err (h.mono fun c hc => by unfold termStart; tauto))

theorem mtriple {t : Sel} {ts : List MTok} {w : Str} {is : List MTok}
    (hi : ∀ {v : Str} {us : List MTok}, MSp X (is ++ us) v →
      ∃ u, alt (focusObject X) (subjectFocus X) v = .ok t u ∧ MAt X us u ∧ u.length < v.length)
    (h : MSp X (.sym '{' :: (is ++ (.sym '}' :: ts))) w) :
    ∃ u, nodeSelector X w = .ok t u ∧ MAt X ts u ∧ u.length < w.length := by
  have ho : objectTerm X w = .err := objectTerm_err (msp_noGap h) (msp_off h (by
    rintro _ ⟨⟩ c hc; rw [show c = '{' from hc]; unfold termStart; decide))
  obtain ⟨w1, e1, h1, l1⟩ := msym_char h
  obtain ⟨w2, e2, h2, l2⟩ := mtws0_at h1
  obtain ⟨w3, e3, h3, l3⟩ := hi h2
  obtain ⟨w4, e4, h4, l4⟩ := mtws0_at h3
  obtain ⟨w5, e5, h5, l5⟩ := msym_char h4
  refine ⟨w5, ?_, h5, by omega⟩
  unfold nodeSelector
  rw [alt_right ho]
  refine alt_left ?_
  unfold triplePattern
  rw [bind_ok e1, bind_ok e2, bind_ok e3, bind_ok e4, bind_ok e5]
  rfl

theorem mobject {p : PathRef} {o : Pat} {ps os us : List MTok} {v : Str} (hp : PathT p ps) (ho : PatT .name o os)
    (h : MSp X (.kw "FOCUS" :: (ps ++ (os ++ us))) v) :
    ∃ u, alt (focusObject X) (subjectFocus X) v = .ok (.triple .focus p o) u ∧ MAt X us u ∧ u.length < v.length := by
  obtain ⟨w1, e1, h1, l1⟩ := mkw_tws h.at'
  obtain ⟨w2, e2, h2, l2⟩ := mtws0_at h1.at'
  obtain ⟨w3, e3, h3, l3⟩ := mpredicate hp h2
  obtain ⟨w4, e4, h4, l4⟩ := mtws0_at h3
  obtain ⟨w5, e5, h5, l5⟩ := mpat_name ho h4
  refine ⟨w5, alt_left ?_, h5, by omega⟩
  have ef : focusP v = .ok .focus w1 := by
    unfold focusP
    rw [bind_ok e1]
    rfl
  unfold focusObject
  rw [bind_ok ef, bind_ok e2, bind_ok e3, bind_ok e4, bind_ok e5]
  rfl

theorem msubject {s : Pat} {p : PathRef} {ss ps us : List MTok} {v : Str} (hs : PatT .subj s ss) (hp : PathT p ps)
    (h : MSp X (ss ++ (ps ++ (.kw "FOCUS" :: us))) v) :
    ∃ u, alt (focusObject X) (subjectFocus X) v = .ok (.triple s p .focus) u ∧ MAt X us u ∧ u.length < v.length := by
  have e0 : focusObject X v = .err := bind_err (focus_err hs h)
  obtain ⟨w1, e1, h1, l1⟩ := mpat_subj hs h
  obtain ⟨w2, e2, h2, l2⟩ := mtws0_at h1
  obtain ⟨w3, e3, h3, l3⟩ := mpredicate hp h2
  obtain ⟨w4, e4, h4, l4⟩ := mtws0_at h3
  obtain ⟨w5, e5, h5, l5⟩ := mkw_tws h4.at'
  refine ⟨w5, ?_, h5.at', by omega⟩
  have ef : focusP w4 = .ok .focus w5 := by
    unfold focusP
    rw [bind_ok e5]
    rfl
  rw [alt_right e0]
  unfold subjectFocus
  rw [bind_ok e1, bind_ok e2, bind_ok e3, bind_ok e4, bind_ok ef]
  rfl

theorem msel {n : Sel} {ns ts : List MTok} {w : Str} (hn : SelT n ns) (h : MSp X (ns ++ ts) w) :
    ∃ u, nodeSelector X w = .ok n u ∧ MAt X ts u ∧ u.length < w.length := by
  cases hn with
  | name r =>
    obtain ⟨u, e, h1, h2⟩ := miri_name h
    refine ⟨u, alt_left (alt_left ?_), h1, h2⟩
    rw [alt_right (bind_err (bnode_off h (by rintro _ ⟨⟩; exact name_not_underscore))), bind_ok e]
    rfl
  | bnode b =>
    obtain ⟨u, e, h1, h2⟩ := mbnode h
    refine ⟨u, alt_left (alt_left (alt_left ?_)), h1, h2⟩
    rw [bind_ok e]
    rfl
  | lit l =>
    obtain ⟨u, e, h1, h2⟩ := mliteral h
    refine ⟨u, alt_left ?_, h1, h2⟩
    unfold objectTerm
    rw [alt_right ?_, bind_ok e]
    · rfl
    · rw [alt_right (bind_err (bnode_off h (by
        rintro _ ⟨⟩
        show ¬ ('_' = '"' ∨ '_' = '\'' ∨ '_' = '+' ∨ '_' = '-' ∨ digit '_' ∨ '_' = 't' ∨ '_' = 'f')
        decide)))]
      exact bind_err (iri_lit h)
  | @object p o ps os hp ho =>
    refine mtriple (is := .kw "FOCUS" :: (ps ++ os)) (fun h => mobject hp ho (by simpa using h)) (by simpa using h)
  | @subject s p ss ps hs hp =>
    refine mtriple (is := ss ++ (ps ++ [.kw "FOCUS"])) (fun h => msubject hs hp (by simpa using h)) (by simpa using h)
  | sparql q =>
    obtain ⟨w1, e1, h1, l1⟩ := mkw_tws h.at'
    obtain ⟨w2, e2, h2, l2⟩ := mtws0_at h1.at'
    obtain ⟨w3, e3, h3, l3⟩ := mstring h2
    refine ⟨w3, ?_, h3, by omega⟩
    have hb : bnodeLabel w = .err := bnode_off h (by rintro _ ⟨⟩; unfold mheads; decide)
    have ho : objectTerm X w = .err := by
      unfold objectTerm
      rw [alt_right ?_]
      · refine bind_err (mliteral_err (msp_noGap h) ?_)
        obtain ⟨v, u, rfl, ht, -, -, -⟩ := msp_tok h
        cases ht with
        | kw hk hl =>
          cases v with
          | nil => exact absurd hl (by decide)
          | cons c v =>
            refine Off.cons ?_
            have hc : c.toLower = 's' := by
              have := congrArg List.head? hl
              simpa using this
            have key : ∀ d : Char, litStart d → d.toLower ≠ 's' := by
              rintro d (rfl | rfl | rfl | rfl | rfl | hd | rfl | rfl)
              · decide
              · decide
              · decide
              · decide
              · decide
              · intro e
                have := letter_of_lower (c := d) (by rw [e]; decide)
                simp only [digit, letter, within] at *
                omega
              · decide
              · decide
            exact fun hd => key c hd hc
      · rw [alt_right (bind_err hb)]
        exact bind_err (iri_kw h)
    have ht : triplePattern X w = .err := by
      refine bind_err (char_err (msp_off h ?_))
      rintro _ ⟨⟩ c hc rfl
      revert hc
      unfold mheads
      decide
    unfold nodeSelector
    rw [alt_right ho, alt_right ht]
    unfold extended
    rw [bind_ok e1, bind_ok e2, bind_ok e3]
    rfl

/-! ## Associations and maps -/

theorem massoc {a : Assoc} {as ts : List MTok} {w : Str} (ha : AssocT a as) (h : MSp X (as ++ ts) w) :
    ∃ u, association X w = .ok a u ∧ MAt X ts u ∧ u.length < w.length := by
  cases ha with
  | mk hn hs =>
    obtain ⟨w1, e1, h1, l1⟩ := msel hn (by simpa using h)
    obtain ⟨w2, e2, h2, l2⟩ := msym_tws h1
    obtain ⟨w3, e3, h3, l3⟩ := mshape hs h2
    refine ⟨w3, ?_, h3, by omega⟩
    unfold association
    rw [bind_ok e1, bind_ok e2, bind_ok e3]
    rfl

theorem association_nil : association X [] = .err := by
  have h1 : objectTerm X [] = .err := objectTerm_err ⟨Off.nil, fun b e => by simp at e⟩ Off.nil
  refine bind_err ?_
  unfold nodeSelector
  rw [alt_right h1]
  rfl

theorem next_nil : nextAssociation X [] = .err := bind_err (by
  exact tokenTws_err (g := []) (b := false) .nil ⟨Off.nil, fun b e => by simp at e⟩ Off.nil)

theorem mnext {a : Assoc} {as ts : List MTok} {w : Str} (ha : AssocT a as) (h : MAt X (.sym ',' :: (as ++ ts)) w) :
    ∃ u, nextAssociation X w = .ok a u ∧ MAt X ts u ∧ u.length < w.length := by
  obtain ⟨w1, e1, h1, l1⟩ := msym_tws h
  obtain ⟨w3, e3, h3, l3⟩ := massoc ha h1
  refine ⟨w3, ?_, h3, by omega⟩
  unfold nextAssociation
  rw [bind_ok e1, bind_ok (mtws0_sp h1), e3]

theorem msp_nil {w : Str} (h : MSp X [] w) : w = [] := by cases h; rfl

theorem next_end {w : Str} (h : MAt X [] w ∨ MAt X [.sym ','] w) : nextAssociation X w = .err := by
  rcases h with h | h
  · obtain ⟨g, r, hg, rfl, hr⟩ := h
    have := msp_noGap hr
    rw [msp_nil hr] at this ⊢
    exact bind_err (tokenTws_err hg this Off.nil)
  · obtain ⟨w1, e1, h1, l1⟩ := msym_tws h
    unfold nextAssociation
    rw [bind_ok e1, bind_ok (mtws0_sp h1), msp_nil h1]
    exact association_nil

theorem mrest {as : List Assoc} {us : List MTok} (h : MapT as us) :
    ∀ {w : Str}, MAt X (.sym ',' :: us) w →
      ∃ r, Steps (nextAssociation X) as w r ∧ (MAt X [] r ∨ MAt X [.sym ','] r) := by
  induction h with
  | one ha =>
    intro w h
    obtain ⟨u, e, h1, l⟩ := mnext ha (ts := []) (by simpa using h)
    exact ⟨u, .cons e l .nil, .inl h1⟩
  | comma ha =>
    intro w h
    obtain ⟨u, e, h1, l⟩ := mnext ha h
    exact ⟨u, .cons e l .nil, .inr h1⟩
  | cons ha hs ih =>
    intro w h
    obtain ⟨u, e, h1, l⟩ := mnext ha h
    obtain ⟨r, h2, h3⟩ := ih h1
    exact ⟨r, .cons e l h2, h3⟩

theorem mtail {w : Str} {as : List Assoc} (h : MAt X [] w ∨ MAt X [.sym ','] w) :
    (do tws0; let _ ← opt (char ','); tws0; return as : P (List Assoc)) w = .ok as [] := by
  rcases h with h | h
  · obtain ⟨w1, e1, h1, -⟩ := mtws0_at h
    cases msp_nil h1
    rw [bind_ok e1, bind_ok (opt_none rfl), bind_ok (mtws0_sp h1)]
    rfl
  · obtain ⟨w1, e1, h1, -⟩ := mtws0_at h
    obtain ⟨w2, e2, h2, -⟩ := msym_char h1
    obtain ⟨w3, e3, h3, -⟩ := mtws0_at h2
    cases msp_nil h3
    rw [bind_ok e1, bind_ok (opt_some e2), bind_ok e3]
    rfl

theorem mmap {as : List Assoc} {ts : List MTok} {w : Str} (hm : MapT as ts) (h : MSp X ts w) :
    mapStatement X w = .ok as [] := by
  have key : ∀ {a : Assoc} {as : List Assoc} {u u' r : Str}, association X w = .ok a u → tws0 u = .ok () u' →
      Steps (nextAssociation X) as u' r → (MAt X [] r ∨ MAt X [.sym ','] r) → mapStatement X w = .ok (a :: as) [] := by
    intro a as u u' r e1 e2 e3 h
    unfold mapStatement
    rw [bind_ok e1, bind_ok e2, bind_ok (many0_steps e3 (next_end h)), mtail h]
  cases hm with
  | one ha =>
    obtain ⟨u, e, h1, -⟩ := massoc ha (ts := []) (by simpa using h)
    obtain ⟨u', e', h2, -⟩ := mtws0_at h1
    exact key e e' .nil (.inl h2.at')
  | comma ha =>
    obtain ⟨u, e, h1, -⟩ := massoc ha h
    obtain ⟨u', e', h2, -⟩ := mtws0_at h1
    exact key e e' .nil (.inr h2.at')
  | cons ha hs =>
    obtain ⟨u, e, h1, -⟩ := massoc ha h
    obtain ⟨u', e', h2, -⟩ := mtws0_at h1
    obtain ⟨r, h3, h4⟩ := mrest hs h2.at'
    exact key e e' h3 h4

theorem skip_mat {g w : Str} {ts : List MTok} (hg : Gap false g) (h : MSp X ts w) : skip (g ++ w) = w := by
  rw [skip, tws0_ok hg (msp_noGap h)]

end Shexc

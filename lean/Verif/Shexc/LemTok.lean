import Verif.Shexc.LemTerm3
import Verif.Shexc.SpecGram

/-!
# Lemmas: reading one word of the compact syntax, and not reading another
-/

namespace Shexc

open P Spec

variable {X : Ext} {α β : Type}

/-- The words `ts` written in `w`. -/
abbrev Sp (X : Ext) (ts : List Tok) (w : Str) : Prop := Spell X.spec ts w

/-- The words `ts` written in `w` after a gap. -/
def At (X : Ext) (ts : List Tok) (w : Str) : Prop := ∃ g r, Gap false g ∧ w = g ++ r ∧ Sp X ts r

theorem Sp.at' {ts : List Tok} {w : Str} (h : Sp X ts w) : At X ts w := ⟨[], w, .nil, rfl, h⟩

/-! ## First characters -/

/-- The characters that a word may begin with. -/
def heads : Tok → Char → Prop
  | .sym s, c => s.head? = some c
  | .kw _, c => letter c
  | .cap _, c => letter c
  | .name (.iri _), c => c = '<'
  | .name (.prefixed ..), c => nameStart c ∨ c = ':'
  | .bnode _, c => c = '_'
  | .ns _, c => nameStart c ∨ c = ':'
  | .isA, c => c = 'a'
  | .at _, c => c = '@'
  | .lit _, c => c = '"' ∨ c = '\'' ∨ c = '+' ∨ c = '-' ∨ digit c ∨ c = 't' ∨ c = 'f'
  | .lang _, c => c = '@'
  | .int _, c => c = '+' ∨ c = '-' ∨ digit c
  | .num _, c => c = '+' ∨ c = '-' ∨ digit c
  | .regex _, c => c = '/'
  | .card .., c => c = '{'
  | .code _, c => c = '{'

theorem toLower_toNat (c : Char) :
    c.toLower.toNat = if 0x41 ≤ c.toNat ∧ c.toNat ≤ 0x5A then c.toNat + 32 else c.toNat := by
  unfold Char.toLower
  have e : (c.val ≥ 'A'.val ∧ c.val ≤ 'Z'.val) ↔ (0x41 ≤ c.toNat ∧ c.toNat ≤ 0x5A) := by
    rw [ge_iff_le, UInt32.le_iff_toNat_le, UInt32.le_iff_toNat_le]
    rfl
  split
  · next h =>
    have h' := e.1 h
    rw [if_pos h']
    show (c.val + ('a'.val - 'A'.val)).toNat = _
    rw [UInt32.toNat_add, Nat.mod_eq_of_lt]
    · rfl
    · have : ('a'.val - 'A'.val).toNat = 32 := by decide
      rw [this]
      have : c.val.toNat = c.toNat := rfl
      omega
  · next h =>
    rw [if_neg (fun h' => h (e.2 h'))]

theorem letter_of_lower {c : Char} (h : letter c.toLower) : letter c := by
  unfold letter within at *
  rw [toLower_toNat] at h
  split at h <;> omega

theorem letter_lower {c : Char} (h : letter c) : letter c.toLower := by
  unfold letter within at *
  rw [toLower_toNat]
  split <;> omega

theorem keyword_letters {k : String} (h : k ∈ keywords) : k.toList ≠ [] ∧ ∀ c ∈ k.toList, letter c.toLower := by
  revert k
  decide +kernel

theorem kw_letters {k : String} {v : Str} (hk : k ∈ keywords) (h : v.map Char.toLower = k.toList.map Char.toLower) :
    v ≠ [] ∧ ∀ c ∈ v, letter c := by
  have hl := keyword_letters hk
  constructor
  · rintro rfl
    exact hl.1 (by simpa using h.symm)
  · intro c hc
    have : c.toLower ∈ k.toList.map Char.toLower := by rw [← h]; exact List.mem_map_of_mem hc
    obtain ⟨d, hd, e⟩ := List.mem_map.1 this
    exact letter_of_lower (e ▸ hl.2 d hd)

theorem dec_head {b : Bool} {ds fs w : Str} (h : DecText b ds fs w) : ∃ c t, w = c :: t ∧ (c = '+' ∨ c = '-' ∨ digit c) := by
  cases h with
  | mk hs hd hf =>
    obtain ⟨c, t, rfl⟩ := List.exists_cons_of_ne_nil hd.1
    cases hs with
    | none => exact ⟨_, _, rfl, .inr (.inr (hd.2 c List.mem_cons_self))⟩
    | plus => exact ⟨_, _, rfl, .inl rfl⟩
    | minus => exact ⟨_, _, rfl, .inr (.inl rfl)⟩

theorem double_head {w : Str} (h : DoubleText w) : ∃ c t, w = c :: t ∧ (c = '+' ∨ c = '-' ∨ digit c) := by
  cases h with
  | whole hs hd _ =>
    obtain ⟨c, t, rfl⟩ := List.exists_cons_of_ne_nil hd.1
    cases hs with
    | none => exact ⟨_, _, rfl, .inr (.inr (hd.2 c List.mem_cons_self))⟩
    | plus => exact ⟨_, _, rfl, .inl rfl⟩
    | minus => exact ⟨_, _, rfl, .inr (.inl rfl)⟩
  | dot hs hd _ _ =>
    obtain ⟨c, t, rfl⟩ := List.exists_cons_of_ne_nil hd.1
    cases hs with
    | none => exact ⟨_, _, rfl, .inr (.inr (hd.2 c List.mem_cons_self))⟩
    | plus => exact ⟨_, _, rfl, .inl rfl⟩
    | minus => exact ⟨_, _, rfl, .inr (.inl rfl)⟩

theorem str_head {s w : Str} (h : StringText s w) : ∃ c t, w = c :: t ∧ (c = '"' ∨ c = '\'') := by
  cases h <;> simp

theorem lit_cases {lang : Str → Option Str} {l : Lit} {w : Str} (h : LitText lang l w) :
    (∃ c t, w = c :: t ∧ (c = '"' ∨ c = '\'' ∨ c = '+' ∨ c = '-' ∨ digit c)) ∨ w = "true".toList ∨ w = "false".toList := by
  cases h with
  | str h => obtain ⟨c, t, rfl, h⟩ := str_head h; exact .inl ⟨c, _, rfl, by tauto⟩
  | lang h _ _ => obtain ⟨c, t, rfl, h⟩ := str_head h; exact .inl ⟨c, _, rfl, by tauto⟩
  | typed h _ => obtain ⟨c, t, rfl, h⟩ := str_head h; exact .inl ⟨c, _, rfl, by tauto⟩
  | integer h => obtain ⟨c, t, rfl, h⟩ := int_head h; exact .inl ⟨c, _, rfl, by tauto⟩
  | decimal h => obtain ⟨c, t, rfl, h⟩ := dec_head h; exact .inl ⟨c, _, rfl, by tauto⟩
  | double h => obtain ⟨c, t, rfl, h⟩ := double_head h; exact .inl ⟨c, _, rfl, by tauto⟩
  | yes => exact .inr (.inl rfl)
  | no => exact .inr (.inr rfl)

theorem lit_head {lang : Str → Option Str} {l : Lit} {w : Str} (h : LitText lang l w) :
    ∃ c t, w = c :: t ∧ (c = '"' ∨ c = '\'' ∨ c = '+' ∨ c = '-' ∨ digit c ∨ c = 't' ∨ c = 'f') := by
  rcases lit_cases h with ⟨c, t, rfl, h⟩ | rfl | rfl
  · exact ⟨c, t, rfl, by tauto⟩
  · exact ⟨'t', _, rfl, by tauto⟩
  · exact ⟨'f', _, rfl, by tauto⟩

theorem prefixed_head {p v : Str} (h : PrefixName p) : ∃ c t, p ++ ':' :: v = c :: t ∧ (nameStart c ∨ c = ':') := by
  rcases h with rfl | ⟨c, q, rfl, hc, hq⟩
  · exact ⟨_, _, rfl, .inr rfl⟩
  · exact ⟨_, _, rfl, .inl hc⟩

theorem text_head {t : Tok} {v : Str} (h : Text X.spec t v) : ∃ c u, v = c :: u ∧ heads t c := by
  cases h with
  | sym h =>
    have : v ≠ [] := by rintro rfl; revert h; decide
    obtain ⟨c, u, rfl⟩ := List.exists_cons_of_ne_nil this
    exact ⟨c, u, rfl, rfl⟩
  | kw hk h =>
    obtain ⟨h1, h2⟩ := kw_letters hk h
    obtain ⟨c, u, rfl⟩ := List.exists_cons_of_ne_nil h1
    exact ⟨c, u, rfl, h2 c List.mem_cons_self⟩
  | @cap k hk =>
    obtain ⟨h1, h2⟩ := kw_letters hk (v := k.toList) rfl
    obtain ⟨c, u, e⟩ := List.exists_cons_of_ne_nil h1
    exact ⟨c, u, e, h2 c (by rw [e]; exact List.mem_cons_self)⟩
  | name h =>
    cases h with
    | iri h => cases h; exact ⟨_, _, rfl, rfl⟩
    | ns hp hk => exact prefixed_head hp
    | «local» hp hl hk => exact prefixed_head hp
  | bnode h => exact ⟨_, _, rfl, rfl⟩
  | ns h => exact prefixed_head h
  | isA => exact ⟨_, _, rfl, rfl⟩
  | «at» h => exact ⟨_, _, rfl, rfl⟩
  | lit h => exact lit_head h
  | lang h hn => exact ⟨_, _, rfl, rfl⟩
  | int h => exact int_head h
  | num h =>
    cases h with
    | int h => exact int_head h
    | dec h => exact dec_head h
    | double h => exact double_head h
  | regex h => cases h; exact ⟨_, _, rfl, rfl⟩
  | card h => cases h <;> exact ⟨_, _, rfl, rfl⟩
  | code h => cases h; exact ⟨_, _, rfl, rfl⟩

theorem class_noGap {c : Char} (h : nameStart c ∨ digit c ∨ c ∈ ['<', ':', '_', 'a', '@', '"', '\'', '+', '-', '{']) :
    ¬ space c ∧ c ≠ '#' ∧ c ≠ '/' := by
  have key : ∀ d : Char, space d ∨ d = '#' ∨ d = '/' →
      ¬ (nameStart d ∨ digit d ∨ d ∈ ['<', ':', '_', 'a', '@', '"', '\'', '+', '-', '{']) := by
    rintro d ((rfl | rfl | rfl | rfl) | rfl | rfl) <;> decide
  refine ⟨fun hs => key c (.inl hs) h, fun hs => key c (.inr (.inl hs)) h, fun hs => key c (.inr (.inr hs)) h⟩

theorem text_noGap {t : Tok} {v : Str} (h : Text X.spec t v) (u : Str) : NoGap (v ++ u) := by
  have key : ∀ c t', v = c :: t' → (nameStart c ∨ digit c ∨ c ∈ ['<', ':', '_', 'a', '@', '"', '\'', '+', '-', '{']) →
      NoGap (v ++ u) := by
    rintro c t' rfl hc
    have := class_noGap hc
    exact noGap_cons this.1 this.2.1 this.2.2
  obtain ⟨c, t', e, hh⟩ := text_head h
  have key := key c t' e
  cases h with
  | sym h =>
    simp only [symbols, List.map_cons, List.map_nil, List.mem_cons, List.not_mem_nil, or_false] at h
    have hs : v ∈ symbols → ¬ (v = ['/', '/']) → NoGap (v ++ u) := by
      subst e
      intro h h2
      have : ¬ space c ∧ c ≠ '#' ∧ c ≠ '/' := by
        revert h2
        generalize hv : c :: t' = v at h
        intro h2
        have all : ∀ v ∈ symbols, v ≠ ['/', '/'] → ∀ d ∈ v.head?, ¬ space d ∧ d ≠ '#' ∧ d ≠ '/' := by decide +kernel
        exact all v h h2 c (by rw [← hv]; rfl)
      exact noGap_cons this.1 this.2.1 this.2.2
    by_cases h2 : v = ['/', '/']
    · subst h2
      exact ⟨Off.cons (by decide), fun b e => absurd (List.cons.inj (List.cons.inj e).2).1 (by decide)⟩
    · exact hs (by simpa [symbols] using h) h2
  | kw hk h => exact key (.inl (.inl hh))
  | cap hk => exact key (.inl (.inl hh))
  | name h =>
    cases h with
    | iri h => exact key (.inr (.inr (by rw [show c = '<' from hh]; decide)))
    | ns hp hk => exact key (by rcases hh with hh | rfl <;> simp_all)
    | «local» hp hl hk => exact key (by rcases hh with hh | rfl <;> simp_all)
  | bnode h => exact key (.inr (.inr (by rw [show c = '_' from hh]; decide)))
  | ns h => exact key (by rcases hh with hh | rfl <;> simp_all)
  | isA => exact key (.inr (.inr (by rw [show c = 'a' from hh]; decide)))
  | «at» h => exact key (.inr (.inr (by rw [show c = '@' from hh]; decide)))
  | lit h =>
    refine key ?_
    rcases hh with rfl | rfl | rfl | rfl | h | rfl | rfl
    · decide
    · decide
    · decide
    · decide
    · exact .inr (.inl h)
    · decide
    · decide
  | lang h hn => exact key (.inr (.inr (by rw [show c = '@' from hh]; decide)))
  | int h => exact key (by rcases hh with rfl | rfl | h <;> simp_all)
  | num h => exact key (by rcases hh with rfl | rfl | h <;> simp_all)
  | regex h =>
    cases h with
    | @mk s w fs h hne hs hf =>
      refine ⟨Off.cons (by decide), fun b e => ?_⟩
      obtain ⟨d, w, rfl⟩ := List.exists_cons_of_ne_nil hne
      have e2 := (List.cons.inj e).2
      have : d = '*' := by simpa using (List.cons.inj e2).1
      exact hs (by simp [this])
  | card h => exact key (.inr (.inr (by rw [show c = '{' from hh]; decide)))
  | code h => exact key (.inr (.inr (by rw [show c = '{' from hh]; decide)))

theorem sp_noGap {ts : List Tok} {w : Str} (h : Sp X ts w) : NoGap w := by
  cases h with
  | nil => exact ⟨Off.nil, fun b e => by simp at e⟩
  | cons ht hg hs hr => exact text_noGap ht _

theorem sp_nil {w : Str} (h : Sp X [] w) : w = [] := by cases h; rfl

theorem tws0_at {ts : List Tok} {w : Str} (h : At X ts w) :
    ∃ w', tws0 w = .ok () w' ∧ Sp X ts w' ∧ w'.length ≤ w.length := by
  obtain ⟨g, r, hg, rfl, hr⟩ := h
  exact ⟨r, tws0_ok hg (sp_noGap hr), hr, by simp⟩

theorem tws0_sp {ts : List Tok} {w : Str} (h : Sp X ts w) : tws0 w = .ok () w :=
  tws0_ok (g := []) (b := false) .nil (sp_noGap h)

theorem skip_at {ts : List Tok} {w : Str} (h : At X ts w) : Sp X ts (skip w) ∧ (skip w).length ≤ w.length := by
  obtain ⟨w', e, h1, h2⟩ := tws0_at h
  rw [skip, e]
  exact ⟨h1, h2⟩

theorem no_sticks_gap {t : Tok} {c : Char} (h : space c ∨ c = '#') : ¬ sticks t c := by
  have key : ∀ d : Char, space d ∨ d = '#' → ¬ letter d ∧ ¬ (nameChar d ∨ d ∈ [':', '.', '%', '\\', '"', '\'', '@', '^']) := by
    rintro d ((rfl | rfl | rfl | rfl) | rfl) <;> decide
  have := key c h
  unfold sticks
  split
  · exact fun h => this.1 h.2
  all_goals first | exact id | exact this.2

/-- The first word. -/
theorem sp_tok {t : Tok} {ts : List Tok} {w : Str} (h : Sp X (t :: ts) w) :
    ∃ v u, w = v ++ u ∧ Text X.spec t v ∧ At X ts u ∧ Off (sticks t) u ∧ u.length < w.length := by
  cases h with
  | @cons _ _ v g r ht hg hs hr =>
    refine ⟨v, g ++ r, rfl, ht, ⟨g, r, hg, rfl, hr⟩, ?_, ?_⟩
    · refine Off.app ?_ fun h c hc => hs h c hc
      intro c hc
      obtain ⟨d, u, rfl, hd⟩ := gap_head hg (by rintro rfl; simp at hc)
      have : c = d := by simpa using hc.symm
      subst this
      exact no_sticks_gap hd
    · obtain ⟨c, u, rfl, -⟩ := text_head ht
      simp

/-- The first character of a text, by its first word. -/
theorem sp_off {f : Char → Prop} {ts : List Tok} {w : Str} (h : Sp X ts w) (hf : ∀ t ∈ ts.head?, ∀ c, heads t c → ¬ f c) :
    Off f w := by
  cases h with
  | nil => exact Off.nil
  | @cons t ts v g r ht hg hs hr =>
    obtain ⟨c, u, rfl, hc⟩ := text_head ht
    exact Off.cons (hf t (by simp) c hc)

/-- The same after a gap. -/
theorem at_off {f : Char → Prop} {ts : List Tok} {w : Str} (h : At X ts w) (hg : ∀ c, space c ∨ c = '#' → ¬ f c)
    (hf : ∀ t ∈ ts.head?, ∀ c, heads t c → ¬ f c) : Off f w := by
  obtain ⟨g, r, hg', rfl, hr⟩ := h
  refine Off.app ?_ fun _ => sp_off hr hf
  intro c hc
  obtain ⟨d, u, rfl, hd⟩ := gap_head hg' (by rintro rfl; simp at hc)
  have : c = d := by simpa using hc.symm
  subst this
  exact hg _ hd

/-! ## Punctuation -/

theorem sym_tag {s : Str} {ts : List Tok} {w : Str} (h : Sp X (.sym s :: ts) w) :
    ∃ u, tag s w = .ok () u ∧ At X ts u ∧ u.length < w.length := by
  obtain ⟨v, u, rfl, ht, h1, -, h3⟩ := sp_tok h
  cases ht
  exact ⟨u, tag_ok _ _, h1, h3⟩

theorem sym_char {c : Char} {ts : List Tok} {w : Str} (h : Sp X (.sym [c] :: ts) w) :
    ∃ u, char c w = .ok c u ∧ At X ts u ∧ u.length < w.length := by
  obtain ⟨v, u, rfl, ht, h1, -, h3⟩ := sp_tok h
  cases ht
  exact ⟨u, char_ok _ _, h1, h3⟩

theorem sym_tws {s : Str} {ts : List Tok} {w : Str} (h : At X (.sym s :: ts) w) :
    ∃ u, tokenTws s w = .ok () u ∧ Sp X ts u ∧ u.length < w.length := by
  obtain ⟨w1, e1, h1, l1⟩ := tws0_at h
  obtain ⟨w2, e2, h2, l2⟩ := sym_tag h1
  obtain ⟨w3, e3, h3, l3⟩ := tws0_at h2
  refine ⟨w3, ?_, h3, by omega⟩
  unfold tokenTws
  rw [bind_ok e1, bind_ok e2, e3]

theorem sym_tws_err {c : Char} {s : Str} {ts : List Tok} {w : Str} (h : At X ts w)
    (hf : ∀ t ∈ ts.head?, ¬ heads t c) : tokenTws (c :: s) w = .err := by
  obtain ⟨w1, e1, h1, l1⟩ := tws0_at h
  unfold tokenTws
  rw [bind_ok e1]
  exact bind_err (tag_err (sp_off h1 fun t ht d hd e => hf t ht (e ▸ hd)))

/-! ## Keywords -/

theorem tagNoCase_ok {s v u : Str} (h : v.map Char.toLower = s.map Char.toLower) : tagNoCase s (v ++ u) = .ok () u := by
  induction s generalizing v with
  | nil =>
    have : v = [] := by simpa using h
    subst this
    rfl
  | cons c s ih =>
    cases v with
    | nil => simp at h
    | cons d v =>
      simp only [List.map_cons, List.cons.injEq] at h
      rw [List.cons_append, tagNoCase, if_pos h.1.symm, ih h.2]

theorem tagNoCase_err {s v u : Str} (h1 : ¬ s.map Char.toLower <+: v.map Char.toLower)
    (h2 : ¬ v.map Char.toLower <+: s.map Char.toLower) : tagNoCase s (v ++ u) = .err := by
  induction s generalizing v with
  | nil => exact absurd List.nil_prefix h1
  | cons c s ih =>
    cases v with
    | nil => exact absurd List.nil_prefix h2
    | cons d v =>
      rw [List.cons_append, tagNoCase]
      split
      · next e =>
        refine ih ?_ ?_
        · intro h; exact h1 (by simpa [e] using h)
        · intro h; exact h2 (by simpa [e] using h)
      · rfl

theorem tagNoCase_off {c : Char} {s u : Str} (hc : letter c) (h : Off letter u) : tagNoCase (c :: s) u = .err := by
  cases u with
  | nil => rfl
  | cons d u =>
    rw [tagNoCase, if_neg]
    intro e
    refine h d (by simp) (letter_of_lower ?_)
    rw [← e]
    exact letter_lower hc

theorem tag_of_noCase {s u : Str} (h : tagNoCase s u = .err) : tag s u = .err := by
  induction s generalizing u with
  | nil => cases h
  | cons c s ih =>
    cases u with
    | nil => rfl
    | cons d u =>
      rw [tagNoCase] at h
      rw [tag]
      split
      · next e =>
        subst e
        rw [if_pos rfl] at h
        exact ih h
      · rfl

theorem keywords_apart : ∀ k ∈ keywords, ∀ k' ∈ keywords, k ≠ k' →
    ¬ k.toList.map Char.toLower <+: k'.toList.map Char.toLower := by decide +kernel

theorem keywords_not_true : ∀ k ∈ keywords,
    (¬ k.toList.map Char.toLower <+: "true".toList.map Char.toLower ∧
      ¬ "true".toList.map Char.toLower <+: k.toList.map Char.toLower) ∧
    (¬ k.toList.map Char.toLower <+: "false".toList.map Char.toLower ∧
      ¬ "false".toList.map Char.toLower <+: k.toList.map Char.toLower) := by decide +kernel

/-- Words that are no keyword in the way of `K`, and no declared prefix. -/
def NotKw (K : String) (t : Tok) : Prop := t ≠ .kw K ∧ t ≠ .cap K ∧ ∀ p, t ≠ .ns p

theorem kw_text_err {K : String} {v u : Str} (hK : K ∈ keywords) (hv : ∃ c t, v = c :: t ∧ ¬ letter c) :
    tagNoCase K.toList (v ++ u) = .err := by
  obtain ⟨c, t, rfl, hc⟩ := hv
  obtain ⟨h1, h2⟩ := kw_letters hK (v := K.toList) rfl
  obtain ⟨d, s, e⟩ := List.exists_cons_of_ne_nil h1
  rw [e]
  exact tagNoCase_off (h2 d (by rw [e]; exact List.mem_cons_self)) (Off.cons hc)

theorem prefixed_kw_err {K : String} {p v u : Str} (hK : K ∈ keywords) (hk : NoKeyword (p ++ ':' :: v)) :
    tagNoCase K.toList ((p ++ ':' :: v) ++ u) = .err := by
  refine tagNoCase_err (hk K hK) ?_
  intro h
  have h1 := (kw_letters hK (v := K.toList) rfl).2
  have : (':').toLower ∈ K.toList.map Char.toLower := by
    refine h.subset ?_
    simp
  obtain ⟨d, hd, e⟩ := List.mem_map.1 this
  have := letter_lower (h1 d hd)
  rw [e] at this
  exact absurd this (by decide)

theorem not_letter_of {c : Char} (h : c ∈ ['<', '_', '@', '"', '\'', '+', '-', '/', '{', ':'] ∨ digit c) : ¬ letter c := by
  rcases h with h | h
  · simp only [List.mem_cons, List.not_mem_nil, or_false] at h
    rcases h with rfl | rfl | rfl | rfl | rfl | rfl | rfl | rfl | rfl | rfl <;> decide
  · unfold digit within at h
    unfold letter within
    omega

/-- No other word begins like the keyword. -/
theorem kw_err {K : String} {ts : List Tok} {w : Str} (hK : K ∈ keywords) (h : Sp X ts w)
    (ht : ∀ t ∈ ts.head?, NotKw K t) : tagNoCase K.toList w = .err := by
  have hl := kw_letters hK (v := K.toList) rfl
  cases ts with
  | nil =>
    rw [sp_nil h]
    obtain ⟨c, s, e⟩ := List.exists_cons_of_ne_nil hl.1
    rw [e]
    rfl
  | cons t ts =>
    have ht := ht t (by simp)
    obtain ⟨v, u, rfl, htx, h1, h2, -⟩ := sp_tok h
    obtain ⟨c, v', e, hh⟩ := text_head htx
    have key : ¬ letter c → tagNoCase K.toList (v ++ u) = .err := fun hc => kw_text_err hK ⟨c, v', e, hc⟩
    cases htx with
    | sym hs =>
      refine key ?_
      have all : ∀ v ∈ symbols, ∀ d ∈ v.head?, ¬ letter d := by decide +kernel
      exact all v hs c (by rw [e]; rfl)
    | @kw k _ hk hv =>
      have hne : K ≠ k := by rintro rfl; exact ht.1 rfl
      exact tagNoCase_err (by rw [hv]; exact keywords_apart K hK k hk hne)
        (by rw [hv]; exact keywords_apart k hk K hK hne.symm)
    | @cap k hk =>
      have hne : K ≠ k := by rintro rfl; exact ht.2.1 rfl
      exact tagNoCase_err (keywords_apart K hK k hk hne) (keywords_apart k hk K hK hne.symm)
    | name h =>
      cases h with
      | iri h => exact key (not_letter_of (by rw [show c = '<' from hh]; simp))
      | ns hp hk => exact prefixed_kw_err hK hk
      | «local» hp hl hk => exact prefixed_kw_err hK hk
    | bnode h => exact key (not_letter_of (by rw [show c = '_' from hh]; simp))
    | ns h => exact absurd rfl (ht.2.2 _)
    | isA =>
      obtain ⟨d, s, ed⟩ := List.exists_cons_of_ne_nil hl.1
      have h2' : Off nameChar u := h2.mono fun c hc => .inl hc
      rw [ed]
      show tagNoCase (d :: s) ('a' :: u) = .err
      rw [tagNoCase]
      split
      · cases s with
        | nil =>
          have all : ∀ k ∈ keywords, k.toList.length ≠ 1 := by decide +kernel
          exact absurd (by rw [ed]; rfl) (all K hK)
        | cons d' s =>
          exact tagNoCase_off (hl.2 d' (by rw [ed]; simp)) (h2'.mono fun c hc => letter_name hc)
      · rfl
    | «at» h => exact key (not_letter_of (by rw [show c = '@' from hh]; simp))
    | lit h =>
      rcases lit_cases h with ⟨d, t', e', hd⟩ | rfl | rfl
      · have : d = c := (List.cons.inj (e'.symm.trans e)).1
        subst this
        exact key (not_letter_of (by rcases hd with rfl | rfl | rfl | rfl | h <;> simp_all))
      · exact tagNoCase_err (keywords_not_true K hK).1.1 (keywords_not_true K hK).1.2
      · exact tagNoCase_err (keywords_not_true K hK).2.1 (keywords_not_true K hK).2.2
    | lang h hn => exact key (not_letter_of (by rw [show c = '@' from hh]; simp))
    | int h => exact key (not_letter_of (by rcases hh with rfl | rfl | h <;> simp_all))
    | num h => exact key (not_letter_of (by rcases hh with rfl | rfl | h <;> simp_all))
    | regex h => exact key (not_letter_of (by rw [show c = '/' from hh]; simp))
    | card h => exact key (not_letter_of (by rw [show c = '{' from hh]; simp))
    | code h => exact key (not_letter_of (by rw [show c = '{' from hh]; simp))

theorem cap_err {K : String} {ts : List Tok} {w : Str} (hK : K ∈ keywords) (h : Sp X ts w)
    (ht : ∀ t ∈ ts.head?, NotKw K t) : tag K.toList w = .err := tag_of_noCase (kw_err hK h ht)

theorem kw_ok {K : String} {ts : List Tok} {w : Str} (h : Sp X (.kw K :: ts) w) :
    ∃ u, tagNoCase K.toList w = .ok () u ∧ At X ts u ∧ u.length < w.length := by
  obtain ⟨v, u, rfl, ht, h1, -, h3⟩ := sp_tok h
  cases ht with
  | kw hk hv => exact ⟨u, tagNoCase_ok hv, h1, h3⟩

theorem cap_ok {K : String} {ts : List Tok} {w : Str} (h : Sp X (.cap K :: ts) w) :
    ∃ u, tag K.toList w = .ok () u ∧ At X ts u ∧ u.length < w.length := by
  obtain ⟨v, u, rfl, ht, h1, -, h3⟩ := sp_tok h
  cases ht with
  | cap hk => exact ⟨u, tag_ok _ _, h1, h3⟩

theorem kw_tws {K : String} {ts : List Tok} {w : Str} (h : At X (.kw K :: ts) w) :
    ∃ u, tokenTwsNoCase K.toList w = .ok () u ∧ Sp X ts u ∧ u.length < w.length := by
  obtain ⟨w1, e1, h1, l1⟩ := tws0_at h
  obtain ⟨w2, e2, h2, l2⟩ := kw_ok h1
  obtain ⟨w3, e3, h3, l3⟩ := tws0_at h2
  refine ⟨w3, ?_, h3, by omega⟩
  unfold tokenTwsNoCase
  rw [bind_ok e1, bind_ok e2, e3]

theorem kw_tws_err {K : String} {ts : List Tok} {w : Str} (hK : K ∈ keywords) (h : At X ts w)
    (ht : ∀ t ∈ ts.head?, NotKw K t) : tokenTwsNoCase K.toList w = .err := by
  obtain ⟨w1, e1, h1, l1⟩ := tws0_at h
  unfold tokenTwsNoCase
  rw [bind_ok e1]
  exact bind_err (kw_err hK h1 ht)

theorem cap_tws {K : String} {ts : List Tok} {w : Str} (h : At X (.cap K :: ts) w) :
    ∃ u, tokenTws K.toList w = .ok () u ∧ Sp X ts u ∧ u.length < w.length := by
  obtain ⟨w1, e1, h1, l1⟩ := tws0_at h
  obtain ⟨w2, e2, h2, l2⟩ := cap_ok h1
  obtain ⟨w3, e3, h3, l3⟩ := tws0_at h2
  refine ⟨w3, ?_, h3, by omega⟩
  unfold tokenTws
  rw [bind_ok e1, bind_ok e2, e3]

theorem cap_tws_err {K : String} {ts : List Tok} {w : Str} (hK : K ∈ keywords) (h : At X ts w)
    (ht : ∀ t ∈ ts.head?, NotKw K t) : tokenTws K.toList w = .err := by
  obtain ⟨w1, e1, h1, l1⟩ := tws0_at h
  unfold tokenTws
  rw [bind_ok e1]
  exact bind_err (cap_err hK h1 ht)

/-! ## Names, literals, numbers and patterns -/

theorem sticks_stk {t : Tok} {u : Str} (h : Off (sticks t) u)
    (ht : ∀ c, Stk c → sticks t c) : Off Stk u := h.mono ht

theorem name_ends {n : IriRef} {u : Str} (h : Off (sticks (.name n)) u) : n.ends u := by
  cases n with
  | iri s => trivial
  | prefixed p l => exact h

theorem iri_tok {n : IriRef} {ts : List Tok} {w : Str} (h : Sp X (.name n :: ts) w) :
    ∃ u, iri w = .ok n u ∧ At X ts u ∧ u.length < w.length := by
  obtain ⟨v, u, rfl, ht, h1, h2, h3⟩ := sp_tok h
  cases ht with
  | name hn => exact ⟨u, iri_ok hn (name_ends h2), h1, h3⟩

theorem kw_word_iri {K : String} {v u : Str} (hk : K ∈ keywords) (hv : v.map Char.toLower = K.toList.map Char.toLower)
    (hu : Off Stk u) : iri (v ++ u) = .err := by
  obtain ⟨h1, h2⟩ := kw_letters hk hv
  obtain ⟨c, p, rfl⟩ := List.exists_cons_of_ne_nil h1
  exact iri_err_word (.inl (h2 c List.mem_cons_self)) (fun d hd => letter_name (h2 d (List.mem_cons_of_mem _ hd))) hu

/-- No other word is read as a name. -/
theorem iri_tok_err {ts : List Tok} {w : Str} (h : Sp X ts w) (ht : ∀ t ∈ ts.head?, (∀ n, t ≠ .name n) ∧ ∀ p, t ≠ .ns p) :
    iri w = .err := by
  cases ts with
  | nil => rw [sp_nil h]; rfl
  | cons t ts =>
    have ht := ht t (by simp)
    obtain ⟨v, u, rfl, htx, h1, h2, -⟩ := sp_tok h
    obtain ⟨c, v', e, hh⟩ := text_head htx
    have key : ¬ (nameStart c ∨ c = ':' ∨ c = '<') → iri (v ++ u) = .err := fun hc => iri_err (by rw [e]; exact Off.cons hc)
    have nd : digit c → ¬ (nameStart c ∨ c = ':' ∨ c = '<') := by
      intro h
      rintro (h' | rfl | rfl)
      · revert h h'
        unfold digit nameStart letter within
        omega
      · exact absurd h (by decide)
      · exact absurd h (by decide)
    cases htx with
    | sym hs =>
      refine key ?_
      have all : ∀ v ∈ symbols, ∀ d ∈ v.head?, ¬ (nameStart d ∨ d = ':' ∨ d = '<') := by decide +kernel
      exact all v hs c (by rw [e]; rfl)
    | kw hk hv => exact kw_word_iri hk hv h2
    | cap hk => exact kw_word_iri hk rfl h2
    | name h => exact absurd rfl (ht.1 _)
    | bnode h => exact key (by rw [show c = '_' from hh]; decide)
    | ns h => exact absurd rfl (ht.2 _)
    | isA => exact iri_err_word (p := []) (by decide) (by simp) h2
    | «at» h => exact key (by rw [show c = '@' from hh]; decide)
    | lit h =>
      rcases lit_cases h with ⟨d, t', e', hd⟩ | rfl | rfl
      · have : d = c := (List.cons.inj (e'.symm.trans e)).1
        subst this
        rcases hd with rfl | rfl | rfl | rfl | h
        · exact key (by decide)
        · exact key (by decide)
        · exact key (by decide)
        · exact key (by decide)
        · exact key (nd h)
      · exact iri_err_word (c := 't') (p := ['r', 'u', 'e']) (by decide) (by decide) h2
      · exact iri_err_word (c := 'f') (p := ['a', 'l', 's', 'e']) (by decide) (by decide) h2
    | lang h hn => exact key (by rw [show c = '@' from hh]; decide)
    | int h =>
      rcases hh with rfl | rfl | h
      · exact key (by decide)
      · exact key (by decide)
      · exact key (nd h)
    | num h =>
      rcases hh with rfl | rfl | h
      · exact key (by decide)
      · exact key (by decide)
      · exact key (nd h)
    | regex h => exact key (by rw [show c = '/' from hh]; decide)
    | card h => exact key (by rw [show c = '{' from hh]; decide)
    | code h => exact key (by rw [show c = '{' from hh]; decide)

end Shexc

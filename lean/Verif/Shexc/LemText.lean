import Verif.Shexc.SpecText
import Verif.Shexc.Grammar
import Verif.Shexc.Total

/-!
# Lemmas: words are read as they are written
-/

namespace Shexc

open P Spec

/-! ## Runs of parsers -/

variable {α β : Type}

theorem bind_ok {p : P α} {f : α → P β} {i r : Str} {a : α} (h : p i = .ok a r) : (p >>= f) i = f a r := by
  show P.bind p f i = _
  simp [P.bind, h]

theorem pure_ok (a : α) (i : Str) : (Pure.pure a : P α) i = .ok a i := rfl

theorem alt_left {p q : P α} {i r : Str} {a : α} (h : p i = .ok a r) : alt p q i = .ok a r := by simp [alt, h]

theorem alt_right {p q : P α} {i : Str} (h : p i = .err) : alt p q i = q i := by simp [alt, h]

theorem opt_some {p : P α} {i r : Str} {a : α} (h : p i = .ok a r) : opt p i = .ok (some a) r := by simp [opt, h]

theorem opt_none {p : P α} {i : Str} (h : p i = .err) : opt p i = .ok none i := by simp [opt, h]

theorem cut_ok {p : P α} {i r : Str} {a : α} (h : p i = .ok a r) : cut p i = .ok a r := by simp [cut, h]

theorem recognize_ok {p : P α} {w r : Str} {a : α} (h : p (w ++ r) = .ok a r) : recognize p (w ++ r) = .ok w r := by
  simp [recognize, h]

/-- A parser read several times, each time a bit. -/
inductive Steps (p : P α) : List α → Str → Str → Prop where
  | nil {r : Str} : Steps p [] r r
  | cons {a : α} {as : List α} {i j r : Str} (h : p i = .ok a j) (hl : j.length < i.length) (hs : Steps p as j r) :
      Steps p (a :: as) i r

theorem many0Go_steps {p : P α} {as : List α} {i r : Str} (h : Steps p as i r) (hr : p r = .err) :
    ∀ n, i.length ≤ n → many0Go p n i = .ok as r := by
  induction h with
  | @nil r =>
    intro n _
    cases n <;> simp [many0Go, hr]
  | @cons a as i j r h hl hs ih =>
    intro n hn
    cases n with
    | zero => omega
    | succ n =>
      simp only [many0Go, h]
      rw [if_neg (by omega), ih hr n (by omega)]

theorem many0_steps {p : P α} {as : List α} {i r : Str} (h : Steps p as i r) (hr : p r = .err) :
    many0 p i = .ok as r := many0Go_steps h hr _ Nat.le.refl

theorem many1_steps {p : P α} {a : α} {as : List α} {i r : Str} (h : Steps p (a :: as) i r) (hr : p r = .err) :
    many1 p i = .ok (a :: as) r := by
  cases h with
  | cons h hl hs =>
    unfold many1
    rw [bind_ok h, bind_ok (many0_steps hs hr)]
    rfl

theorem many1_err {p : P α} {i : Str} (h : p i = .err) : many1 p i = .err := bind_err h

theorem steps_chars {p : P Char} {R : Char → Str → Prop} {s w r : Str} (h : Chars R s w)
    (hp : ∀ c v r, R c v → p (v ++ r) = .ok c r ∧ v ≠ []) : Steps p s (w ++ r) r := by
  induction h with
  | nil => exact .nil
  | @cons c s v ws h hs ih =>
    have := hp c v (ws ++ r) h
    rw [List.append_assoc]
    refine .cons this.1 ?_ ih
    have : 0 < v.length := List.length_pos_iff.2 this.2
    simp only [List.length_append]
    omega

/-! ## Single characters -/

/-- The text does not go on with such a character. -/
def Off (f : Char → Prop) (r : Str) : Prop := ∀ c ∈ r.head?, ¬ f c

theorem Off.nil {f : Char → Prop} : Off f [] := by simp [Off]

theorem Off.cons {f : Char → Prop} {c : Char} {r : Str} (h : ¬ f c) : Off f (c :: r) := by simpa [Off] using h

theorem Off.mono {f g : Char → Prop} {r : Str} (h : Off f r) (hg : ∀ c, g c → f c) : Off g r :=
  fun c hc hgc => h c hc (hg c hgc)

theorem satisfy_ok {f : Char → Bool} {c : Char} {r : Str} (h : f c = true) : satisfy f (c :: r) = .ok c r := by
  simp [satisfy, h]

theorem satisfy_err {f : Char → Bool} {r : Str} (h : Off (fun c => f c = true) r) : satisfy f r = .err := by
  cases r with
  | nil => rfl
  | cons c r => simp [satisfy, show f c = false by simpa [Off] using h]

theorem char_ok (c : Char) (r : Str) : char c (c :: r) = .ok c r := satisfy_ok (by simp)

theorem char_err {c : Char} {r : Str} (h : Off (· = c) r) : char c r = .err :=
  satisfy_err (h.mono fun d hd => by simpa using hd)

theorem tag_ok (s r : Str) : tag s (s ++ r) = .ok () r := by
  induction s with
  | nil => rfl
  | cons c s ih => simp [tag, ih]

theorem tag_err {c : Char} {s r : Str} (h : Off (· = c) r) : tag (c :: s) r = .err := by
  cases r with
  | nil => rfl
  | cons d r =>
    rw [tag, if_neg]
    intro e
    exact h d (by simp) e.symm

theorem dropWhile_app {f : Char → Bool} {ds r : Str} (h : ∀ c ∈ ds, f c = true) (hr : Off (fun c => f c = true) r) :
    (ds ++ r).takeWhile f = ds ∧ (ds ++ r).dropWhile f = r := by
  induction ds with
  | nil =>
    cases r with
    | nil => exact ⟨rfl, rfl⟩
    | cons c r =>
      have : f c = false := by simpa [Off] using hr
      simp [this]
  | cons c ds ih =>
    have h1 := h c List.mem_cons_self
    have h2 := ih fun d hd => h d (List.mem_cons_of_mem _ hd)
    simp [h1, h2.1, h2.2]

theorem tag_two_err {c d : Char} {i : Str} (h : ∀ b, i ≠ c :: d :: b) : tag [c, d] i = .err := by
  cases i with
  | nil => rfl
  | cons x i =>
    rw [tag]
    split
    · next e =>
      subst e
      cases i with
      | nil => rfl
      | cons y i =>
        rw [tag]
        split
        · next e => subst e; exact absurd rfl (h i)
        · rfl
    · rfl

theorem tag_ok1 (a : Char) (r : Str) : tag [a] (a :: r) = .ok () r := tag_ok [a] r
theorem tag_ok2 (a b : Char) (r : Str) : tag [a, b] (a :: b :: r) = .ok () r := tag_ok [a, b] r
theorem tag_ok3 (a b c : Char) (r : Str) : tag [a, b, c] (a :: b :: c :: r) = .ok () r := tag_ok [a, b, c] r

theorem takeWhile_ok {f : Char → Bool} {ds r : Str} (h : ∀ c ∈ ds, f c = true) (hr : Off (fun c => f c = true) r) :
    P.takeWhile f (ds ++ r) = .ok ds r := by
  have := dropWhile_app h hr
  rw [P.takeWhile, this.1, this.2]

theorem takeWhile1_ok {f : Char → Bool} {ds r : Str} (hn : ds ≠ []) (h : ∀ c ∈ ds, f c = true)
    (hr : Off (fun c => f c = true) r) : P.takeWhile1 f (ds ++ r) = .ok ds r := by
  have := dropWhile_app h hr
  rw [P.takeWhile1, this.1, this.2, if_neg (by simpa using hn)]

theorem takeWhile1_err {f : Char → Bool} {r : Str} (hr : Off (fun c => f c = true) r) : P.takeWhile1 f r = .err := by
  have := (dropWhile_app (ds := []) (by simp) hr).1
  simp only [List.nil_append] at this
  simp [P.takeWhile1, this]

/-! ## Classes of characters -/

theorem le_char (a c : Char) : (a ≤ c) ↔ a.toNat ≤ c.toNat := by
  rw [Char.le_def, UInt32.le_iff_toNat_le]; rfl

theorem lt_char (a c : Char) : (a < c) ↔ a.toNat < c.toNat := by
  rw [Char.lt_def, UInt32.lt_iff_toNat_lt]; rfl

theorem char_eq (a c : Char) : (a = c) ↔ a.toNat = c.toNat := by
  constructor
  · rintro rfl; rfl
  · intro h; rw [← Char.ofNat_toNat a, h, Char.ofNat_toNat]

theorem isAlpha_iff (c : Char) : isAlpha c = true ↔ letter c := by
  simp only [isAlpha, letter, within, Bool.or_eq_true, Bool.and_eq_true, decide_eq_true_eq, le_char]
  exact or_comm

theorem isDigit_iff (c : Char) : isDigit c = true ↔ digit c := by
  simp only [isDigit, digit, within, Bool.and_eq_true, decide_eq_true_eq, le_char]; rfl

theorem inRange_iff (c : Char) (lo hi : Nat) : inRange c lo hi = true ↔ within c lo hi := by
  simp [inRange, within]

theorem isPnCharsBase_iff (c : Char) : isPnCharsBase c = true ↔ nameStart c := by
  simp only [isPnCharsBase, nameStart, Bool.or_eq_true, isAlpha_iff, inRange_iff, or_assoc]

theorem isPnCharsU_iff (c : Char) : isPnCharsU c = true ↔ c = '_' ∨ nameStart c := by
  simp [isPnCharsU, isPnCharsBase_iff]

theorem isPnChars_iff (c : Char) : isPnChars c = true ↔ nameChar c := by
  simp only [isPnChars, nameChar, Bool.or_eq_true, isPnCharsU_iff, isDigit_iff, inRange_iff, beq_iff_eq]
  tauto

theorem isHex_iff (c : Char) : isHex c = true ↔ hex c := by
  simp only [isHex, hex, Bool.or_eq_true, isDigit_iff, Bool.and_eq_true, decide_eq_true_eq, le_char, within]
  have e : ('a'.toNat = 0x61) ∧ ('f'.toNat = 0x66) ∧ ('A'.toNat = 0x41) ∧ ('F'.toNat = 0x46) := by decide
  rw [e.1, e.2.1, e.2.2.1, e.2.2.2]
  tauto

theorem isSpace_iff (c : Char) : isSpace c = true ↔ space c := by
  simp [isSpace, space, or_assoc]

theorem hexDigit_eq {c : Char} (h : hex c) : hexDigit c = hexNum c := by
  unfold hexDigit hexNum
  simp only [hex, digit, within] at h
  have e : ('a'.toNat = 0x61) ∧ ('f'.toNat = 0x66) ∧ ('A'.toNat = 0x41) ∧ ('0'.toNat = 0x30) := by decide
  have hd : isDigit c = true ↔ 0x30 ≤ c.toNat ∧ c.toNat ≤ 0x39 := isDigit_iff c
  by_cases h1 : c.toNat < 0x41
  · rw [if_pos h1, if_pos (hd.2 (by omega)), e.2.2.2]
  · rw [if_neg h1, if_neg (by rw [hd]; omega)]
    by_cases h2 : c.toNat < 0x61
    · rw [if_pos h2, if_neg, e.2.2.1]
      simp only [Bool.and_eq_true, decide_eq_true_eq, le_char, e.1, e.2.1]
      omega
    · rw [if_neg h2, if_pos, e.1]
      simp only [Bool.and_eq_true, decide_eq_true_eq, le_char, e.1, e.2.1]
      omega

theorem foldl_digits (b : Nat) (f : Char → Nat) (ds : Str) : ∀ a,
    ds.foldl (fun n c => n * b + f c) a = Nat.ofDigits b (ds.reverse.map f) + b ^ ds.length * a := by
  induction ds with
  | nil => intro a; simp
  | cons c ds ih =>
    intro a
    rw [List.foldl_cons, ih, List.reverse_cons, List.map_append, Nat.ofDigits_append]
    simp only [List.length_cons, List.length_map, List.length_reverse, List.map_cons, List.map_nil, Nat.ofDigits_singleton]
    ring

theorem hexVal_eq {ds : Str} (h : ∀ d ∈ ds, hex d) : hexVal ds = Nat.ofDigits 16 (ds.reverse.map hexNum) := by
  unfold hexVal
  rw [foldl_digits]
  simp only [mul_zero, add_zero]
  congr 1
  refine List.map_congr_left fun d hd => hexDigit_eq (h d (List.mem_reverse.1 hd))

theorem decVal_eq (ds : Str) : decVal ds = decNum ds := by
  unfold decVal decNum
  rw [foldl_digits 10 (fun c => c.toNat - '0'.toNat)]
  simp only [mul_zero, add_zero]
  rfl

/-! ## Escapes and strings -/

theorem count_hex {ds r : Str} (h : ∀ d ∈ ds, hex d) : count (satisfy isHex) ds.length (ds ++ r) = .ok ds r := by
  induction ds with
  | nil => rfl
  | cons d ds ih =>
    simp only [List.length_cons, List.cons_append, count]
    rw [bind_ok (satisfy_ok ((isHex_iff d).2 (h d List.mem_cons_self))),
      bind_ok (ih fun e he => h e (List.mem_cons_of_mem _ he))]
    rfl

theorem charOf_toNat (c : Char) : charOf c.toNat = some c := by
  unfold charOf
  rw [if_pos (show c.toNat.isValidChar from c.valid), Char.ofNat_toNat]

theorem uchar_ok {c : Char} {w : Str} (h : Numbered c w) (r : Str) : uchar (w ++ r) = .ok c r := by
  unfold uchar
  cases h with
  | @four ds hl hd hv =>
    have h1 : (do tag ['\\', 'u']; count (satisfy isHex) 4 : P (List Char)) ('\\' :: 'u' :: (ds ++ r)) = .ok ds r := by
      rw [bind_ok (tag_ok2 '\\' 'u' (ds ++ r)), ← hl, count_hex hd]
    show (alt _ _ >>= _) ('\\' :: 'u' :: (ds ++ r)) = _
    rw [bind_ok (alt_left h1), hexVal_eq hd, hv, charOf_toNat]
    rfl
  | @eight ds hl hd hv =>
    have h1 : (do tag ['\\', 'U']; count (satisfy isHex) 8 : P (List Char)) ('\\' :: 'U' :: (ds ++ r)) = .ok ds r := by
      rw [bind_ok (tag_ok2 '\\' 'U' (ds ++ r)), ← hl, count_hex hd]
    have h0 : (do tag ['\\', 'u']; count (satisfy isHex) 4 : P (List Char)) ('\\' :: 'U' :: (ds ++ r)) = .err :=
      bind_err (by simp [tag])
    show (alt _ _ >>= _) ('\\' :: 'U' :: (ds ++ r)) = _
    rw [bind_ok ((alt_right h0).trans h1), hexVal_eq hd, hv, charOf_toNat]
    rfl

theorem uchar_err {r : Str} (h : Off (· = '\\') r) : uchar r = .err := by
  refine bind_err ?_
  rw [alt_right (bind_err (tag_err h))]
  exact bind_err (tag_err h)

theorem numbered_ne {c : Char} {w : Str} (h : Numbered c w) : w ≠ [] := by cases h <;> simp

theorem numbered_head {c : Char} {w : Str} (h : Numbered c w) :
    ∃ d v, w = '\\' :: d :: v ∧ (d = 'u' ∨ d = 'U') := by cases h <;> simp

theorem echar_err {r : Str} (h : Off (· = '\\') r) : echar r = .err := bind_err (tag_err h)

theorem stringChar_ok (stop stop' : Str) (hs : '\\' ∈ stop) (hs' : ∀ c ∈ stop, c ∈ stop' ∨ c = '\\') {c : Char}
    {w : Str} (h : CharText stop' c w) (r : Str) : alt (noneOf stop) (alt echar uchar) (w ++ r) = .ok c r ∧ w ≠ [] := by
  cases h with
  | plain h h' =>
    refine ⟨alt_left (satisfy_ok ?_), by simp⟩
    simp only [List.contains_eq_mem, Bool.not_eq_true', decide_eq_false_iff_not]
    intro hc
    rcases hs' _ hc with h2 | h2
    · exact h h2
    · exact h' h2
  | @letter l _ h =>
    refine ⟨?_, by simp⟩
    have h0 : noneOf stop ('\\' :: l :: r) = .err := satisfy_err (Off.cons (by simpa using hs))
    show alt _ _ ('\\' :: l :: r) = _
    rw [alt_right h0]
    refine alt_left ?_
    unfold echar
    rw [bind_ok (tag_ok1 '\\' (l :: r))]
    simp only [letters, List.mem_cons, Prod.mk.injEq, List.not_mem_nil, or_false] at h
    rcases h with ⟨rfl, rfl⟩ | ⟨rfl, rfl⟩ | ⟨rfl, rfl⟩ | ⟨rfl, rfl⟩ | ⟨rfl, rfl⟩ | ⟨rfl, rfl⟩ | ⟨rfl, rfl⟩ |
      ⟨rfl, rfl⟩ <;> rfl
  | numbered h =>
    obtain ⟨d, v, e, hd⟩ := numbered_head h
    refine ⟨?_, numbered_ne h⟩
    have h0 : noneOf stop (w ++ r) = .err := satisfy_err (by rw [e]; exact Off.cons (by simpa using hs))
    have h1 : echar (w ++ r) = .err := by
      rw [e]
      unfold echar
      refine (bind_ok (tag_ok ['\\'] (d :: v ++ r))).trans (bind_err (satisfy_err (Off.cons ?_)))
      rcases hd with rfl | rfl <;> decide
    rw [alt_right h0, alt_right h1]
    exact uchar_ok h r

theorem stringChars_ok (stop stop' : Str) (hs : '\\' ∈ stop) (hs' : ∀ c ∈ stop, c ∈ stop' ∨ c = '\\') {s w : Str}
    (h : Chars (CharText stop') s w) {q : Char} (hq : q ∈ stop) (hq' : q ≠ '\\') (r : Str) :
    stringChars stop (w ++ q :: r) = .ok s (q :: r) := by
  refine many0_steps (steps_chars h fun c v r hv => stringChar_ok stop stop' hs hs' hv r) ?_
  have h0 : noneOf stop (q :: r) = .err := satisfy_err (Off.cons (by simpa using hq))
  rw [alt_right h0, alt_right (echar_err (Off.cons hq')), uchar_err (Off.cons hq')]

theorem charText_head {stop : Str} {c : Char} {w : Str} (h : CharText stop c w) :
    ∃ d v, w = d :: v ∧ (d ∉ stop ∨ d = '\\') := by
  cases h with
  | plain h h' => exact ⟨c, [], rfl, .inl h⟩
  | letter h => exact ⟨_, _, rfl, .inr rfl⟩
  | numbered h => obtain ⟨d, v, e, _⟩ := numbered_head h; exact ⟨_, _, e, .inr rfl⟩

/-- What may not follow a string. -/
def quoteish (c : Char) : Prop := c = '"' ∨ c = '\''

theorem tag3_err {q : Char} {r : Str} (h : ∀ b, r ≠ q :: q :: b) : tag [q, q, q] (q :: r) = .err := by
  rw [tag, if_pos rfl]
  exact tag_two_err h

theorem short_not_long {stop : Str} {q : Char} (hq : q ∈ stop) (hq' : q ≠ '\\') {s w r : Str}
    (h : Chars (CharText stop) s w) (hr : Off (· = q) r) : ∀ b, w ++ q :: r ≠ q :: q :: b := by
  intro b e
  cases h with
  | nil =>
    have h1 : r = q :: b := by simpa using e
    exact hr q (by rw [h1]; rfl) rfl
  | cons h hs =>
    obtain ⟨d, v, rfl, hd⟩ := charText_head h
    have : d = q := by
      have := congrArg List.head? e
      simpa using this
    subst this
    rcases hd with hd | hd
    · exact hd hq
    · exact hq' hd

theorem string_ok {s w r : Str} (h : StringText s w) (hr : Off quoteish r) : string (w ++ r) = .ok s r := by
  have hr1 : Off (· = '\'') r := hr.mono fun c hc => .inr hc
  have hr2 : Off (· = '"') r := hr.mono fun c hc => .inl hc
  unfold string
  cases h with
  | @single w h =>
    simp only [List.cons_append, List.append_assoc, List.nil_append]
    have h1 : stringLong1 ('\'' :: (w ++ '\'' :: r)) = .err :=
      bind_err (tag3_err (short_not_long (by simp) (by decide) h hr1))
    have h2 : stringLong2 ('\'' :: (w ++ '\'' :: r)) = .err := bind_err (tag_err (Off.cons (by decide)))
    rw [alt_right h1, alt_right h2]
    refine alt_left ?_
    unfold string1
    rw [bind_ok (tag_ok1 '\'' _), bind_ok (stringChars_ok _ ['\'', '\n', '\r'] (by simp) (by simp) h (by simp) (by decide) r),
      bind_ok (tag_ok1 '\'' r)]
    rfl
  | @double w h =>
    simp only [List.cons_append, List.append_assoc, List.nil_append]
    have h1 : stringLong1 ('"' :: (w ++ '"' :: r)) = .err := bind_err (tag_err (Off.cons (by decide)))
    have h2 : stringLong2 ('"' :: (w ++ '"' :: r)) = .err :=
      bind_err (tag3_err (short_not_long (by simp) (by decide) h hr2))
    have h3 : string1 ('"' :: (w ++ '"' :: r)) = .err := bind_err (tag_err (Off.cons (by decide)))
    rw [alt_right h1, alt_right h2, alt_right h3]
    unfold string2
    rw [bind_ok (tag_ok1 '"' _), bind_ok (cut_ok (stringChars_ok _ ['"', '\n', '\r'] (by simp) (by simp) h (by simp) (by decide) r)),
      bind_ok (tag_ok1 '"' r)]
    rfl
  | @longSingle w h =>
    simp only [List.cons_append, List.append_assoc, List.nil_append]
    refine alt_left ?_
    unfold stringLong1
    rw [bind_ok (tag_ok3 '\'' '\'' '\'' _),
      bind_ok (cut_ok (stringChars_ok _ ['\''] (by simp) (by simp) h (by simp) (by decide) _)),
      bind_ok (tag_ok3 '\'' '\'' '\'' r)]
    rfl
  | @longDouble w h =>
    simp only [List.cons_append, List.append_assoc, List.nil_append]
    have h1 : stringLong1 ('"' :: '"' :: '"' :: (w ++ '"' :: '"' :: '"' :: r)) = .err :=
      bind_err (tag_err (Off.cons (by decide)))
    rw [alt_right h1]
    refine alt_left ?_
    unfold stringLong2
    rw [bind_ok (tag_ok3 '"' '"' '"' _),
      bind_ok (cut_ok (stringChars_ok _ ['"'] (by simp) (by simp) h (by simp) (by decide) _)),
      bind_ok (tag_ok3 '"' '"' '"' r)]
    rfl

end Shexc

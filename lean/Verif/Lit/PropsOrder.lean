import Verif.Lit.PropsLex

/-!
# Properties: texts after conversion (C60) and the meaning of comparison (C62)
-/

namespace Lit

section
variable {D : Type} (X : Ext D)

/-! ## Specification -/

/-- XSD: the canonical text of an integer, without plus sign or leading zeros. -/
def CanonicalInt (s : Str) (n : Int) : Prop :=
  ∃ ds : Str, (∀ c ∈ ds, c.isDigit = true) ∧ (ds = ['0'] ∨ ∃ c cs, ds = c :: cs ∧ c ≠ '0') ∧
    ((0 ≤ n ∧ s = ds ∧ n = value ds) ∨ (n < 0 ∧ s = '-' :: ds ∧ n = -(value ds : Int)))

/-- Texts are ordered like dictionaries, by code points. -/
def TextBefore (a b : Str) : Prop := List.Lex (fun c d : Char => c.toNat < d.toNat) a b

/-- The two typed literals are numbers. -/
def Numbers (l1 : Str) (d1 : Dt) (l2 : Str) (d2 : Dt) (n1 n2 : Num) : Prop :=
  checkDatatype X l1 d1 = some (.num n1) ∧ checkDatatype X l2 d2 = some (.num n2)

/-- Which literals are compared and by what: numbers by value, texts like dictionaries whatever their
language, booleans with false first, date-times as given. A literal read as a number is not compared
with one whose text is kept. Typed literals which are not both numbers are compared by text when they
have the same datatype. `num`, `txt`, `bool` and `dt` say when two values are related. -/
def Related (num : ℚ → ℚ → Prop) (txt : Str → Str → Prop) (bool : Bool → Bool → Prop) (dt : D → D → Prop) :
    Literal D → Literal D → Prop
  | .num a, .num b => ∃ x y, a.val X = some x ∧ b.val X = some y ∧ num x y
  | .str a _, .str b _ => txt a b
  | .bool a, .bool b => bool a b
  | .datetime a, .datetime b => dt a b
  | .typed l1 d1, .typed l2 d2 =>
      (∃ n1 n2, Numbers X l1 d1 l2 d2 n1 n2 ∧ ∃ x y, n1.val X = some x ∧ n2.val X = some y ∧ num x y) ∨
        ((¬ ∃ n1 n2, Numbers X l1 d1 l2 d2 n1 n2) ∧ d1 = d2 ∧ txt l1 l2)
  | _, _ => False

/-! ## C60 -/

theorem natText_canonical (n : Nat) : natText n = ['0'] ∨ ∃ c cs, natText n = c :: cs ∧ c ≠ '0' := by
  unfold natText natDigits
  split
  · exact .inl rfl
  · rename_i h
    right
    have hne : Nat.digits 10 n ≠ [] := Nat.digits_ne_nil_iff_ne_zero.2 h
    have hl := Nat.getLast_digit_ne_zero 10 h
    obtain ⟨ds, d, hd⟩ : ∃ ds d, Nat.digits 10 n = ds ++ [d] :=
      ⟨_, _, (List.dropLast_append_getLast hne).symm⟩
    have hlt : d < 10 := Nat.digits_lt_base (m := n) (by omega) (by rw [hd]; simp)
    have hd0 : d ≠ 0 := by
      have : (Nat.digits 10 n).getLast hne = d := by simp [hd]
      rw [← this]; exact hl
    refine ⟨Nat.digitChar d, ds.reverse.map Nat.digitChar, by simp [hd], ?_⟩
    interval_cases d <;> first | exact absurd rfl hd0 | decide

theorem intText_canonical (n : Int) : CanonicalInt (intText n) n := by
  refine ⟨natText n.natAbs, natText_digits _, natText_canonical _, ?_⟩
  rw [value_natText]
  unfold intText
  by_cases h : n < 0
  · right; simp only [h, if_true, true_and]; omega
  · left; simp only [h, if_false, true_and]; omega

/-- **C60** (texts). After reading and writing, a boolean is written `true` or `false` and an integer
of a derived type in canonical form, when their text is right; a wrong text is kept. -/
theorem C60_texts (normLang : Str → Option Str) (r : RdfLiteral) (hr : r.WF) (l : Literal D)
    (h : Literal.ofRdf X normLang r = some l) :
    (r.dt = some .boolean →
      ((r.lex = ['t', 'r', 'u', 'e'] ∨ r.lex = ['1']) → (l.toRdf X).lex = ['t', 'r', 'u', 'e']) ∧
      ((r.lex = ['f', 'a', 'l', 's', 'e'] ∨ r.lex = ['0']) → (l.toRdf X).lex = ['f', 'a', 'l', 's', 'e'])) ∧
    (∀ k n, r.dt = some (.int k) → k ≠ .integer → parseInt k r.lex = some n →
      CanonicalInt (l.toRdf X).lex n) ∧
    ((∃ lex dt e, l = .wrong lex dt e) → l.toRdf X = r) := by
  refine ⟨fun hd => ?_, fun k n hd hk hp => ?_, ?_⟩
  · have hc : checkDatatype X r.lex .boolean = some l := by
      have hl : r.lang = none := by
        by_contra hne
        have := hr.2 (by simpa using hne)
        rw [hd] at this; cases this
      simpa [Literal.ofRdf, hd, hl] using h
    simp only [checkDatatype, validate, Option.some.injEq] at hc
    constructor
    · intro ht
      have : parseBool r.lex = some true := by simp [parseBool, ht]
      rw [this] at hc; subst hc; rfl
    · intro hf
      have : parseBool r.lex = some false := by
        rcases hf with hf | hf <;> rw [hf] <;> decide
      rw [this] at hc; subst hc; rfl
  · rcases ofRdf_cases X hr h with ⟨h1, _⟩ | ⟨h1, _⟩ | ⟨dt, ⟨h1, _⟩, e, rfl, hc⟩ |
      ⟨dt, ⟨h1, _⟩, rfl, h2⟩ | ⟨k', n', ⟨h1, _⟩, _, hp', rfl⟩ | ⟨b, ⟨h1, _⟩, _⟩ | ⟨d, ⟨h1, _⟩, _⟩
    · rw [hd] at h1; cases h1
    · rw [hd] at h1; cases h1
    · rw [hd] at h1; cases h1
      rw [((checkDatatype_int X k r.lex).1 n).2 hp] at hc; cases hc
    · rw [hd] at h1; cases h1
      rcases h2 with ⟨h2 | h2 | h2 | h2, _⟩ | ⟨i, h2⟩
      · cases h2; exact absurd rfl hk
      all_goals cases h2
    · rw [hd] at h1; cases h1
      rw [hp] at hp'; cases hp'
      exact intText_canonical n
    · rw [hd] at h1; cases h1
    · rw [hd] at h1; cases h1
  · rintro ⟨lex, dt, e, rfl⟩
    rcases ofRdf_cases X hr h with ⟨_, _, h3⟩ | ⟨_, _, _, _, _, h3⟩ | ⟨dt', ⟨h1, h1'⟩, e', h3, _⟩ |
      ⟨_, _, h3, _⟩ | ⟨_, _, _, _, _, h3⟩ | ⟨_, _, _, h3⟩ | ⟨_, _, _, h3⟩ <;> cases h3
    obtain ⟨lex, dt', lang'⟩ := r
    obtain ⟨⟨w1, w2, w3⟩, _⟩ := hr
    simp only at h1 h1' w1 w2 w3
    subst h1 h1'
    simp only [ne_eq, Option.some.injEq] at w1 w2 w3
    cases dt <;> first | rfl | exact absurd rfl w1 | exact absurd rfl w2 | exact absurd rfl (w3 _ _)

/-! ## C62 -/

theorem cmpStr_lt (a b : Str) : cmpStr a b = .lt ↔ TextBefore a b := by
  unfold TextBefore
  induction a generalizing b with
  | nil => cases b <;> simp [cmpStr]
  | cons c cs ih =>
    cases b with
    | nil => simp [cmpStr]
    | cons d ds =>
      simp only [cmpStr]
      rw [List.cons_lex_cons_iff]
      split
      · rename_i h; simp [h]
      · split
        · rename_i h1 h2
          simp only [reduceCtorEq, false_iff, not_or, not_and]
          exact ⟨h1, fun h => by subst h; omega⟩
        · rename_i h1 h2
          have he : c = d := Char.toNat_inj.1 (by omega)
          rw [ih]; simp [he]

theorem cmpStr_eq (a b : Str) : cmpStr a b = .eq ↔ a = b := by
  induction a generalizing b with
  | nil => cases b <;> simp [cmpStr]
  | cons c cs ih =>
    cases b with
    | nil => simp [cmpStr]
    | cons d ds =>
      simp only [cmpStr]
      split
      · rename_i h; simp only [reduceCtorEq, List.cons.injEq, false_iff, not_and]
        rintro rfl; omega
      · split
        · rename_i h; simp only [reduceCtorEq, List.cons.injEq, false_iff, not_and]
          rintro rfl; omega
        · have he : c = d := Char.toNat_inj.1 (by omega)
          rw [ih]; simp [he]

theorem num_lt (a b : Num) : a.partialCmp X b = some .lt ↔
    ∃ x y, a.val X = some x ∧ b.val X = some y ∧ x < y := by
  unfold Num.partialCmp Num.val
  cases a.toDec X <;> cases b.toDec X <;> simp [Dec.cmp, dec_lt_iff, dec_eq_iff]
  rename_i x y
  rcases lt_trichotomy x.val y.val with h | h | h
  · exact ⟨fun _ => h, fun _ h' => absurd h (not_lt.2 h')⟩
  · simp [h]
  · simp [h.ne', h.le, not_lt.2 h.le]

theorem num_eq (a b : Num) : a.partialCmp X b = some .eq ↔
    ∃ x y, a.val X = some x ∧ b.val X = some y ∧ x = y := by
  unfold Num.partialCmp Num.val
  cases a.toDec X <;> cases b.toDec X <;> simp [Dec.cmp, dec_lt_iff, dec_eq_iff]
  rename_i x y
  rcases lt_trichotomy x.val y.val with h | h | h
  · simp [h, h.ne, h.ne']
  · simp [h]
  · simp [h.ne', h.ne, not_lt.2 h.le]

theorem partialCmp_related (o : Ordering) (num : ℚ → ℚ → Prop) (txt : Str → Str → Prop)
    (bool : Bool → Bool → Prop) (dt : D → D → Prop)
    (hn : ∀ a b : Num, a.partialCmp X b = some o ↔ ∃ x y, a.val X = some x ∧ b.val X = some y ∧ num x y)
    (ht : ∀ a b, cmpStr a b = o ↔ txt a b) (hb : ∀ a b, cmpBool a b = o ↔ bool a b)
    (hd : ∀ a b, X.cmpDT a b = some o ↔ dt a b) (a b : Literal D) :
    a.partialCmp X b = some o ↔ Related X num txt bool dt a b := by
  cases a <;> cases b <;> simp only [Literal.partialCmp, Related, reduceCtorEq]
  · rw [← ht, Option.some.injEq]
  · rename_i l1 d1 l2 d2
    unfold Numbers
    split
    · rename_i n1 n2 e1 e2
      rw [hn]
      constructor
      · rintro ⟨x, y, h⟩
        exact .inl ⟨n1, n2, ⟨e1, e2⟩, x, y, h⟩
      · rintro (⟨m1, m2, ⟨f1, f2⟩, x, y, h⟩ | ⟨h, _⟩)
        · rw [e1] at f1; rw [e2] at f2
          cases f1; cases f2
          exact ⟨x, y, h⟩
        · exact (h ⟨n1, n2, e1, e2⟩).elim
    · rename_i hno
      have hno' : ¬ ∃ n1 n2, checkDatatype X l1 d1 = some (.num n1) ∧ checkDatatype X l2 d2 = some (.num n2) := by
        rintro ⟨n1, n2, e1, e2⟩; exact hno _ _ e1 e2
      constructor
      · intro h
        split at h
        · rename_i hdd
          exact .inr ⟨hno', hdd, (ht _ _).1 (Option.some.inj h)⟩
        · cases h
      · rintro (⟨m1, m2, ⟨f1, f2⟩, _⟩ | ⟨_, hdd, h⟩)
        · exact (hno' ⟨m1, m2, f1, f2⟩).elim
        · rw [if_pos hdd, (ht _ _).2 h]
  · exact hn _ _
  · exact hd _ _
  · rw [← hb, Option.some.injEq]

/-- **C62** (meaning). Comparison answers less exactly when both are numbers and the value is smaller,
both are texts and the first comes before the second, both are booleans and only the second is true, or
the date-time is earlier; it answers equal exactly when the values, the texts, the booleans or the
date-times are. -/
theorem C62_meaning (a b : Literal D) :
    (a.partialCmp X b = some .lt ↔ Related X (· < ·) TextBefore (fun p q => p = false ∧ q = true)
      (fun d e => X.cmpDT d e = some .lt) a b) ∧
    (a.partialCmp X b = some .eq ↔ Related X (· = ·) (· = ·) (· = ·)
      (fun d e => X.cmpDT d e = some .eq) a b) :=
  ⟨partialCmp_related X _ _ _ _ _ (num_lt X) cmpStr_lt
      (fun a b => by cases a <;> cases b <;> simp [cmpBool]) (fun _ _ => Iff.rfl) a b,
    partialCmp_related X _ _ _ _ _ (num_eq X) cmpStr_eq
      (fun a b => by cases a <;> cases b <;> simp [cmpBool]) (fun _ _ => Iff.rfl) a b⟩

end

/-- C60: `"1"^^xsd:boolean` is written `true`. -/
example : ∃ l : Literal Unit, Literal.ofRdf exX some ⟨['1'], some .boolean, none⟩ = some l ∧
    (l.toRdf exX).lex = ['t', 'r', 'u', 'e'] := ⟨.bool true, rfl, rfl⟩

/-- C62: false before true, and `ab` before `b`. -/
example : (Literal.bool (D := Unit) false).partialCmp exX (.bool true) = some .lt ∧
    (Literal.str (D := Unit) ['a', 'b'] none).partialCmp exX (.str ['b'] none) = some .lt := by decide

#print axioms C60_texts
#print axioms C62_meaning

end Lit

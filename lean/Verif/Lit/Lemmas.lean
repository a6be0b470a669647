import Verif.Lit.Spec
import Mathlib.Data.Nat.Digits.Lemmas
import Mathlib.Tactic.Ring
import Mathlib.Tactic.FieldSimp
import Mathlib.Tactic.Positivity
import Mathlib.Tactic.Push

/-!
# Lemmas: literals
-/

namespace Lit

/-! ## Decimals -/

theorem pow_ne (s : Nat) : (10 : ℚ) ^ s ≠ 0 := by positivity

theorem val_eq_iff (m : Int) (s : Nat) (m' : Int) (s' : Nat) :
    (m : ℚ) / 10 ^ s = m' / 10 ^ s' ↔ m * 10 ^ s' = m' * 10 ^ s := by
  rw [div_eq_div_iff (pow_ne s) (pow_ne s')]
  exact_mod_cast Iff.rfl

theorem dec_eq_iff (a b : Dec) : a.eq b = true ↔ a.val = b.val := by
  simp only [Dec.eq, decide_eq_true_eq, Dec.val, val_eq_iff]

theorem dec_lt_iff (a b : Dec) : a.lt b = true ↔ a.val < b.val := by
  simp only [Dec.lt, decide_eq_true_eq, Dec.val]
  rw [div_lt_div_iff₀ (by positivity) (by positivity)]
  exact_mod_cast Iff.rfl

theorem normGo_spec (s : Nat) (m : Int) :
    ∃ k, m = (Dec.normGo m s).m * 10 ^ k ∧ s = (Dec.normGo m s).s + k ∧
      ((Dec.normGo m s).s = 0 ∨ (Dec.normGo m s).m % 10 ≠ 0) := by
  induction s generalizing m with
  | zero => exact ⟨0, by simp [Dec.normGo], by simp [Dec.normGo], Or.inl rfl⟩
  | succ s ih =>
    unfold Dec.normGo
    split
    · rename_i h
      obtain ⟨k, h1, h2, h3⟩ := ih (m / 10)
      refine ⟨k + 1, ?_, by omega, h3⟩
      have hm : m = m / 10 * 10 := by omega
      rw [pow_succ, ← mul_assoc, ← h1]
      exact hm
    · rename_i h
      exact ⟨0, by simp, by simp, Or.inr h⟩

/-- The normal form: the same number, and no trailing zero in the fraction. -/
theorem normalize_spec (d : Dec) : d.normalize.val = d.val ∧
    (d.normalize.s = 0 ∨ d.normalize.m % 10 ≠ 0) := by
  unfold Dec.normalize
  split
  · rename_i h
    exact ⟨by simp [Dec.val, h], Or.inl rfl⟩
  · obtain ⟨k, h1, h2, h3⟩ := normGo_spec d.s d.m
    refine ⟨?_, h3⟩
    simp only [Dec.val, val_eq_iff]
    generalize Dec.normGo d.m d.s = e at h1 h2
    rw [h1, h2, pow_add]; ring

/-- What a number written with a normal decimal looks like with another scale. -/
theorem normal_scale {m i : Int} {s n : Nat} (hn : s = 0 ∨ m % 10 ≠ 0) (h : m * 10 ^ n = i * 10 ^ s) :
    s ≤ n ∧ i = m * 10 ^ (n - s) := by
  have hs : s ≤ n := by
    by_contra hlt
    push Not at hlt
    obtain ⟨k, rfl⟩ := Nat.exists_eq_add_of_lt hlt
    have : m = i * 10 ^ (k + 1) := by
      have h' : m * 10 ^ n = (i * 10 ^ (k + 1)) * 10 ^ n := by rw [h]; ring
      exact mul_right_cancel₀ (by positivity) h'
    rcases hn with hn | hn
    · omega
    · apply hn
      rw [this, pow_succ, ← mul_assoc]
      omega
  refine ⟨hs, ?_⟩
  obtain ⟨k, rfl⟩ := Nat.exists_eq_add_of_le hs
  have h' : i * 10 ^ s = (m * 10 ^ k) * 10 ^ s := by rw [← h]; ring
  rw [Nat.add_sub_cancel_left]
  exact mul_right_cancel₀ (by positivity) h'

theorem normal_unique {a b : Dec} (ha : a.s = 0 ∨ a.m % 10 ≠ 0) (hb : b.s = 0 ∨ b.m % 10 ≠ 0)
    (h : a.val = b.val) : a = b := by
  simp only [Dec.val, val_eq_iff] at h
  obtain ⟨h1, h2⟩ := normal_scale ha h
  obtain ⟨h3, _⟩ := normal_scale hb h.symm
  have hs : a.s = b.s := le_antisymm h1 h3
  obtain ⟨am, as⟩ := a
  obtain ⟨bm, bs⟩ := b
  simp only at hs h2
  subst hs
  simp only [Nat.sub_self, pow_zero, mul_one] at h2
  rw [h2]

theorem normalize_eq {a b : Dec} (h : a.eq b = true) : a.normalize = b.normalize := by
  apply normal_unique (normalize_spec a).2 (normalize_spec b).2
  rw [(normalize_spec a).1, (normalize_spec b).1, ← dec_eq_iff, h]

theorem normalize_idem (a : Dec) : a.normalize.normalize = a.normalize :=
  normalize_eq ((dec_eq_iff _ _).2 (normalize_spec a).1)

/-! ## Equality of numeric literals -/

section
variable {D : Type} (X : Ext D)

theorem same_refl (a : Num) : a.same a = true := by
  cases a <;> simp [Num.same, Dec.eq]

theorem same_toDec {a b : Num} (h : a.same b = true) :
    a = b ∨ ∃ d e, a = .decimal d ∧ b = .decimal e ∧ d.eq e = true := by
  cases a <;> cases b <;> simp_all [Num.same]

theorem num_eq_iff (a b : Num) : a.eq X b = true ↔
    (∃ x, a.val X = some x ∧ b.val X = some x) ∨ (a.val X = none ∧ a = b) := by
  unfold Num.eq Num.val
  cases ha : a.toDec X with
  | some d =>
    cases hb : b.toDec X with
    | some e =>
      simp only [Option.map_some, Option.some.injEq, dec_eq_iff, reduceCtorEq, false_and, or_false]
      exact ⟨fun h => ⟨_, h, rfl⟩, fun ⟨x, h1, h2⟩ => h1.trans h2.symm⟩
    | none =>
      simp only [Option.map_some, Option.map_none, reduceCtorEq, and_false, exists_false, false_and,
        or_self, iff_false, Bool.not_eq_true]
      cases h : a.same b with
      | false => rfl
      | true =>
        rcases same_toDec h with rfl | ⟨d, e, rfl, rfl, _⟩
        · rw [ha] at hb; cases hb
        · simp [Num.toDec] at hb
  | none =>
    have key : a.same b = true ↔ a = b := by
      constructor
      · intro h
        rcases same_toDec h with rfl | ⟨d, e, rfl, rfl, _⟩
        · rfl
        · simp [Num.toDec] at ha
      · rintro rfl; exact same_refl a
    cases hb : b.toDec X <;> simp [key]

theorem num_fed_eq {a b : Num} (h : a.eq X b = true) : a.fed X = b.fed X := by
  rcases (num_eq_iff X a b).1 h with ⟨x, h1, h2⟩ | ⟨_, rfl⟩
  · simp only [Num.val, Option.map_eq_some_iff] at h1 h2
    obtain ⟨d, hd, h1⟩ := h1
    obtain ⟨e, he, h2⟩ := h2
    simp only [Num.fed, hd, he]
    rw [normalize_eq ((dec_eq_iff d e).2 (h1.trans h2.symm))]
  · rfl

end

/-! ## Digits -/

theorem natDigits_ne (n : Nat) : natDigits n ≠ [] := by
  unfold natDigits
  split
  · simp
  · rename_i h
    simp [Nat.digits_ne_nil_iff_ne_zero, h]

theorem natDigits_lt (n : Nat) : ∀ d ∈ natDigits n, d < 10 := by
  intro d hd
  unfold natDigits at hd
  split at hd
  · simp at hd; omega
  · rw [List.mem_reverse] at hd
    exact Nat.digits_lt_base (by omega) hd

theorem natText_length (n : Nat) : (natText n).length = (natDigits n).length := by simp [natText]

theorem digitChar_isDigit : ∀ d < 10, (Nat.digitChar d).isDigit = true := by decide
theorem digitChar_val : ∀ d < 10, (Nat.digitChar d).toNat - 48 = d := by decide

theorem natText_digits (n : Nat) : ∀ c ∈ natText n, c.isDigit = true := by
  intro c hc
  simp only [natText, List.mem_map] at hc
  obtain ⟨d, hd, rfl⟩ := hc
  exact digitChar_isDigit d (natDigits_lt n d hd)

theorem natDigits_length_pos (n : Nat) : 0 < (natDigits n).length :=
  List.length_pos_iff.2 (natDigits_ne n)

/-- The number of digits is the least positive `k` with `n < 10 ^ k`. -/
theorem natDigits_le_iff (n k : Nat) (hk : 0 < k) : (natDigits n).length ≤ k ↔ n < 10 ^ k := by
  unfold natDigits
  split
  · rename_i h
    subst h
    simp only [List.length_cons, List.length_nil]
    exact ⟨fun _ => by positivity, fun _ => by omega⟩
  · rw [List.length_reverse]
    exact Nat.digits_length_le_iff (by omega) n

theorem value_append (a b : Str) : value (a ++ b) = value a * 10 ^ b.length + value b := by
  induction a with
  | nil => simp [value]
  | cons c cs ih =>
    simp only [List.cons_append, value, ih, List.length_append]
    rw [pow_add]; ring

theorem value_natText (n : Nat) : value (natText n) = n := by
  have key : ∀ l : List Nat, (∀ d ∈ l, d < 10) → value (l.reverse.map Nat.digitChar) = Nat.ofDigits 10 l := by
    intro l
    induction l with
    | nil => intro _; rfl
    | cons d l ih =>
      intro h
      have h1 := ih fun x hx => h x (by simp [hx])
      have h2 := digitChar_val d (h d (by simp))
      rw [List.reverse_cons, List.map_append, value_append, h1, Nat.ofDigits_cons]
      simp only [List.map_cons, List.map_nil, value, h2, List.length_singleton, List.length_nil]
      simp only [pow_zero, pow_one, mul_one, add_zero]
      push_cast
      ring
  unfold natText natDigits
  split
  · rename_i h; subst h; rfl
  · rw [key _ fun d hd => Nat.digits_lt_base (by omega) hd, Nat.ofDigits_digits]

/-! ## Texts of decimals -/

theorem dec_text_shape (d : Dec) : ∃ sign whole frac : Str,
    d.text = sign ++ whole ++ (if d.s = 0 then [] else '.' :: frac) ∧
    (sign = [] ∨ sign = ['-']) ∧ (∀ c ∈ whole, c.isDigit = true) ∧ (∀ c ∈ frac, c.isDigit = true) ∧
    frac.length = d.s ∧ whole.length + frac.length = max (natDigits d.m.natAbs).length (d.s + 1) := by
  have hall : ∀ c ∈ List.replicate (d.s + 1 - (natText d.m.natAbs).length) '0' ++ natText d.m.natAbs,
      c.isDigit = true := by
    intro c hc
    rcases List.mem_append.1 hc with hc | hc
    · rw [List.mem_replicate] at hc; rw [hc.2]; decide
    · exact natText_digits _ c hc
  have hlen : (List.replicate (d.s + 1 - (natText d.m.natAbs).length) '0' ++ natText d.m.natAbs).length =
      max (natDigits d.m.natAbs).length (d.s + 1) := by
    simp only [List.length_append, List.length_replicate, natText_length]
    omega
  refine ⟨_, _, _, rfl, ?_, fun c hc => hall c (List.mem_of_mem_take hc),
    fun c hc => hall c (List.mem_of_mem_drop hc), ?_, ?_⟩
  · split <;> simp
  · rw [List.length_drop, hlen]; omega
  · rw [← List.length_append, List.take_append_drop, hlen]

theorem filter_digits {l : Str} (h : ∀ c ∈ l, c.isDigit = true) : l.filter Char.isDigit = l :=
  List.filter_eq_self.2 h

theorem dec_totalDigits (d : Dec) :
    (d.text.filter Char.isDigit).length = max (natDigits d.m.natAbs).length (d.s + 1) := by
  obtain ⟨sign, whole, frac, h, hs, hw, hf, hl, hsum⟩ := dec_text_shape d
  rw [h, List.filter_append, List.filter_append, filter_digits hw]
  have h1 : sign.filter Char.isDigit = [] := by rcases hs with rfl | rfl <;> decide
  rw [h1]
  split
  · rename_i h0
    simp only [List.filter_nil, List.append_nil, List.nil_append]
    rw [hl] at hsum
    omega
  · have h2 : ('.' :: frac).filter Char.isDigit = frac := by
      rw [List.filter_cons_of_neg (by decide), filter_digits hf]
    rw [h2, List.nil_append, List.length_append, hsum]

theorem dec_fractionDigits (d : Dec) : (match d.text.findIdx? (· == '.') with
      | some pos => d.text.length - pos - 1
      | none => 0) = d.s := by
  obtain ⟨sign, whole, frac, h, hs, hw, hf, hl, hsum⟩ := dec_text_shape d
  have hnd : ∀ c ∈ sign ++ whole, (c == '.') = false := by
    intro c hc
    rcases List.mem_append.1 hc with hc | hc
    · rcases hs with rfl | rfl
      · cases hc
      · rw [List.mem_singleton] at hc; subst hc; decide
    · have := hw c hc
      by_contra hcon
      simp only [Bool.not_eq_false, beq_iff_eq] at hcon
      subst hcon
      revert this; decide
  split at h
  · rename_i h0
    rw [List.append_nil] at h
    have : d.text.findIdx? (· == '.') = none := by
      rw [h, List.findIdx?_eq_none_iff]
      exact hnd
    rw [this]
    exact h0.symm
  · have : d.text.findIdx? (· == '.') = some (sign ++ whole).length := by
      rw [h, List.findIdx?_append, List.findIdx?_eq_none_iff.2 hnd]
      simp [List.findIdx?_cons]
    rw [this, h]
    simp only [List.length_append, List.length_cons]
    omega

/-! ## Reading integers -/

theorem digitsVal_some (s : Str) (n : Nat) :
    digitsVal s = some n ↔ (∀ c ∈ s, c.isDigit = true) ∧ n = value s := by
  have key : ∀ (s : Str) (a : Nat), s.foldl (fun a c => 10 * a + (c.toNat - 48)) a = a * 10 ^ s.length + value s := by
    intro s
    induction s with
    | nil => intro a; simp [value]
    | cons c cs ih =>
      intro a
      simp only [List.foldl_cons, ih, value, List.length_cons]
      rw [pow_succ]; ring
  unfold digitsVal
  split
  · rename_i h
    rw [key]
    simp only [List.all_eq_true] at h
    simp only [zero_mul, zero_add, Option.some.injEq]
    exact ⟨fun e => ⟨h, e.symm⟩, fun e => e.2.symm⟩
  · rename_i h
    simp only [List.all_eq_true] at h
    simp only [reduceCtorEq, false_iff]
    exact fun e => h e.1

theorem ranged_some (lo hi n m : Int) : ranged lo hi n = some m ↔ n = m ∧ lo ≤ m ∧ m ≤ hi := by
  unfold ranged
  split
  · rename_i h
    simp only [Option.some.injEq]
    exact ⟨fun e => ⟨e, e ▸ h.1, e ▸ h.2⟩, fun e => e.1⟩
  · rename_i h
    simp only [reduceCtorEq, false_iff]
    rintro ⟨rfl, h1, h2⟩
    exact h ⟨h1, h2⟩

/-- What `str::parse` reads. -/
theorem rustParse_some (signed : Bool) (lo hi : Int) (s : Str) (n : Int) :
    rustParse signed lo hi s = some n ↔
      ∃ minus, IntLex s minus n ∧ (minus = true → signed = true) ∧ lo ≤ n ∧ n ≤ hi := by
  cases s with
  | nil =>
    simp only [rustParse, reduceCtorEq, false_iff]
    rintro ⟨minus, ⟨ds, h1, _, (⟨_, h | h, _⟩ | ⟨_, h, _⟩)⟩, _⟩
    · exact h1 h.symm
    · cases h
    · cases h
  | cons c cs =>
    have hun : rustParse signed lo hi (c :: cs) =
      if (c = '+' ∨ c = '-') ∧ cs = [] then none
      else if c = '+' then (digitsVal cs).bind fun n => ranged lo hi n
      else if c = '-' ∧ signed = true then (digitsVal cs).bind fun n => ranged lo hi (-(n : Int))
      else (digitsVal (c :: cs)).bind fun n => ranged lo hi n := rfl
    have hnd : ∀ {c : Char}, c.isDigit = true → c ≠ '+' ∧ c ≠ '-' := by
      intro c h
      constructor <;> (rintro rfl; revert h; decide)
    rw [hun]
    split
    · rename_i h
      obtain ⟨h, rfl⟩ := h
      simp only [reduceCtorEq, false_iff]
      rintro ⟨minus, ⟨ds, h1, h2, (⟨_, e | e, _⟩ | ⟨_, e, _⟩)⟩, _⟩
      · subst e
        have := hnd (h2 c (by simp))
        rcases h with h | h
        · exact this.1 h
        · exact this.2 h
      · simp only [List.cons.injEq] at e; exact h1 e.2.symm
      · simp only [List.cons.injEq] at e; exact h1 e.2.symm
    · rename_i hne
      split
      · rename_i h
        subst h
        have hcs : cs ≠ [] := fun e => hne ⟨Or.inl rfl, e⟩
        simp only [Option.bind_eq_some_iff, digitsVal_some, ranged_some]
        constructor
        · rintro ⟨v, ⟨h1, rfl⟩, rfl, h2, h3⟩
          exact ⟨false, ⟨cs, hcs, h1, Or.inl ⟨rfl, Or.inr rfl, rfl⟩⟩, by simp, h2, h3⟩
        · rintro ⟨minus, ⟨ds, h1, h2, (⟨_, e | e, rfl⟩ | ⟨_, e, _⟩)⟩, _, h3, h4⟩
          · subst e; exact absurd rfl (hnd (h2 '+' (by simp))).1
          · simp only [List.cons.injEq, true_and] at e
            subst e
            exact ⟨_, ⟨h2, rfl⟩, rfl, h3, h4⟩
          · simp at e
      · rename_i hp
        split
        · rename_i h
          obtain ⟨rfl, hsig⟩ := h
          have hcs : cs ≠ [] := fun e => hne ⟨Or.inr rfl, e⟩
          simp only [Option.bind_eq_some_iff, digitsVal_some, ranged_some]
          constructor
          · rintro ⟨v, ⟨h1, rfl⟩, rfl, h2, h3⟩
            exact ⟨true, ⟨cs, hcs, h1, Or.inr ⟨rfl, rfl, rfl⟩⟩, fun _ => hsig, h2, h3⟩
          · rintro ⟨minus, ⟨ds, h1, h2, (⟨_, e | e, rfl⟩ | ⟨_, e, rfl⟩)⟩, _, h3, h4⟩
            · subst e; exact absurd rfl (hnd (h2 '-' (by simp))).2
            · simp at e
            · simp only [List.cons.injEq, true_and] at e
              subst e
              exact ⟨_, ⟨h2, rfl⟩, rfl, h3, h4⟩
        · rename_i hm
          simp only [Option.bind_eq_some_iff, digitsVal_some, ranged_some]
          constructor
          · rintro ⟨v, ⟨h1, rfl⟩, rfl, h2, h3⟩
            exact ⟨false, ⟨c :: cs, by simp, h1, Or.inl ⟨rfl, Or.inl rfl, rfl⟩⟩, by simp, h2, h3⟩
          · rintro ⟨minus, ⟨ds, h1, h2, (⟨_, e | e, rfl⟩ | ⟨hmin, e, rfl⟩)⟩, hs, h3, h4⟩
            · subst e
              exact ⟨_, ⟨h2, rfl⟩, rfl, h3, h4⟩
            · simp only [List.cons.injEq] at e; exact absurd e.1 hp
            · simp only [List.cons.injEq] at e; exact absurd ⟨e.1, hs hmin⟩ hm

/-- The text of an integer is one way to write it, with a minus exactly when it is negative. -/
theorem intLex_text (n : Int) : IntLex (intText n) (decide (n < 0)) n := by
  refine ⟨natText n.natAbs, ?_, natText_digits _, ?_⟩
  · simp [natText, natDigits_ne]
  · rw [value_natText]
    unfold intText
    by_cases h : n < 0
    · right; simp only [h, decide_true, if_true, true_and]; omega
    · left; simp only [h, decide_false, if_false, true_and, true_or]; omega

end Lit

import Verif.Lit.Lemmas

/-!
# Properties: numeric literals (C47, C48, C57) and bounds (C49)
-/

namespace Lit

/-- An extension for concrete cases: no float converts, nothing parses. -/
def exX : Ext Unit where
  decOfF64 _ := none
  decOfF32 _ := none
  showF64 _ := []
  showF32 _ := []
  parseF64 _ := none
  parseF32 _ := none
  parseDec _ := none
  parseDT _ := none
  eqDT _ _ := true
  cmpDT _ _ := some .eq
  showDT _ := []

section
variable {D : Type} (X : Ext D)

/-! ## C47 -/

/-- **C47**. Equality of numeric literals is reflexive, symmetric and transitive, and equal literals
feed the same to the hasher. This holds whatever floats convert to. -/
theorem C47_equivalence_and_hash :
    (∀ a : Num, a.eq X a = true) ∧
    (∀ a b : Num, a.eq X b = true → b.eq X a = true) ∧
    (∀ a b c : Num, a.eq X b = true → b.eq X c = true → a.eq X c = true) ∧
    ∀ a b : Num, a.eq X b = true → a.fed X = b.fed X := by
  refine ⟨fun a => ?_, fun a b h => ?_, fun a b c h1 h2 => ?_, fun a b => num_fed_eq X⟩
  · rw [num_eq_iff]
    cases h : a.val X with
    | none => exact Or.inr ⟨rfl, rfl⟩
    | some x => exact Or.inl ⟨x, rfl, rfl⟩
  · rw [num_eq_iff] at h ⊢
    rcases h with ⟨x, h1, h2⟩ | ⟨h1, rfl⟩
    · exact Or.inl ⟨x, h2, h1⟩
    · exact Or.inr ⟨h1, rfl⟩
  · rw [num_eq_iff] at h1 h2 ⊢
    rcases h1 with ⟨x, h1, h1'⟩ | ⟨h1, rfl⟩
    · rcases h2 with ⟨y, h2, h2'⟩ | ⟨h2, rfl⟩
      · exact Or.inl ⟨x, h1, by rw [h2'] ; rw [h2] at h1'; exact h1'⟩
      · rw [h1'] at h2; cases h2
    · exact h2.imp id id

/-- **C47** (by value). Integers of less than 96 bits and decimals are equal exactly when they are the
same number, whatever their datatypes. -/
theorem C47_by_value (k k' : IntKind) (n n' : Int) (hn : n.natAbs < 2 ^ 96) (hn' : n'.natAbs < 2 ^ 96)
    (d e : Dec) :
    ((Num.int k n).eq X (.int k' n') = true ↔ n = n') ∧
      ((Num.int k n).eq X (.decimal d) = true ↔ (n : ℚ) = d.val) ∧
      ((Num.decimal d).eq X (.decimal e) = true ↔ d.val = e.val) := by
  simp only [Num.eq, Num.toDec, decOfInt, hn, hn', if_true, dec_eq_iff]
  refine ⟨?_, ?_, trivial⟩ <;> simp [Dec.val]

/-- Beyond 96 bits equality is no longer by value: the same number differs from itself written with
another datatype. -/
theorem C47_large_differ :
    (Num.int .integer (2 ^ 96)).eq exX (.int .nonNegativeInteger (2 ^ 96)) = false := by decide

/-! ## C48 -/

/-- **C48**, what always holds: less-than is irreflexive and never holds in both directions, and the
partial comparison is a strict order on the literals it compares. -/
theorem C48_always :
    (∀ a : Num, a.lessThan X a = false) ∧
    (∀ a b : Num, a.lessThan X b = true → b.lessThan X a = false) ∧
    (∀ a b : Num, a.partialCmp X b = some .lt ↔ b.partialCmp X a = some .gt) ∧
    (∀ a b c : Num, a.partialCmp X b = some .lt → b.partialCmp X c = some .lt →
      a.partialCmp X c = some .lt) ∧
    ∀ a b : Num, (a.partialCmp X b = some .eq → a.eq X b = true) := by
  have hlt : ∀ a b : Dec, a.lt b = true → b.lt a = false := by
    intro a b h
    rw [dec_lt_iff] at h
    rw [← Bool.not_eq_true, dec_lt_iff]
    exact not_lt.2 h.le
  have hself : ∀ a : Dec, a.lt a = false := by
    intro a; rw [← Bool.not_eq_true, dec_lt_iff]; exact lt_irrefl _
  have hopt : ∀ a b, optLt a b = true → optLt b a = false := by
    intro a b h
    cases a <;> cases b <;> simp_all [optLt]
  have hcl : ∀ a b : Dec, a.cmp b = .lt ↔ a.val < b.val := by
    intro a b
    rw [← dec_lt_iff]
    unfold Dec.cmp
    split
    · simp_all
    · split <;> simp_all
  have hcg : ∀ a b : Dec, a.cmp b = .gt ↔ b.val < a.val := by
    intro a b
    unfold Dec.cmp
    split
    · rename_i h
      simp only [reduceCtorEq, false_iff, not_lt]
      exact ((dec_lt_iff _ _).1 h).le
    · rename_i h
      rw [dec_lt_iff, not_lt] at h
      split
      · rename_i h'
        rw [dec_eq_iff] at h'
        simp [h']
      · rename_i h'
        rw [dec_eq_iff] at h'
        simp only [true_iff]
        exact lt_of_le_of_ne h (Ne.symm h')
  refine ⟨fun a => ?_, fun a b h => ?_, fun a b => ?_, fun a b c h1 h2 => ?_, fun a b h => ?_⟩
  · have hoo : ∀ o, optLt o o = false := by intro o; cases o <;> simp [optLt, hself]
    by_cases hi : ∃ n, a = .int .integer n
    · obtain ⟨n, rfl⟩ := hi
      simp [Num.lessThan]
    · rw [← hoo (a.toDec X)]
      unfold Num.lessThan
      split
      · exact absurd ⟨_, rfl⟩ hi
      · rfl
  · by_cases hi : ∃ n m, a = .int .integer n ∧ b = .int .integer m
    · obtain ⟨n, m, rfl, rfl⟩ := hi
      simp only [Num.lessThan, decide_eq_true_eq, decide_eq_false_iff_not] at h ⊢
      omega
    · have e1 : a.lessThan X b = optLt (a.toDec X) (b.toDec X) := by
        unfold Num.lessThan
        split
        · exact absurd ⟨_, _, rfl, rfl⟩ hi
        · rfl
      have e2 : b.lessThan X a = optLt (b.toDec X) (a.toDec X) := by
        unfold Num.lessThan
        split
        · exact absurd ⟨_, _, rfl, rfl⟩ hi
        · rfl
      rw [e1] at h
      rw [e2]
      exact hopt _ _ h
  · unfold Num.partialCmp
    cases a.toDec X <;> cases b.toDec X <;> simp [hcl, hcg]
  · unfold Num.partialCmp at *
    cases ha : a.toDec X <;> cases hb : b.toDec X <;> cases hc : c.toDec X <;> simp_all
    exact h1.trans h2
  · unfold Num.partialCmp at h
    unfold Num.eq
    cases ha : a.toDec X <;> cases hb : b.toDec X <;> simp_all
    unfold Dec.cmp at h
    split at h
    · cases h
    · split at h
      · assumption
      · cases h

/-- **C48**, the part that holds of the whole statement: among literals that convert to decimals
less-than is the order of the numbers, so a strict order, and agrees with the partial comparison and
with equality. Missing: literals that do not convert, for which it fails (`C48_refuted`). -/
theorem C48_convertible_partial (a b : Num) (x y : ℚ) (ha : a.val X = some x) (hb : b.val X = some y) :
    (a.lessThan X b = true ↔ x < y) ∧ (a.lessThanOrEq X b = true ↔ x ≤ y) ∧
      (a.partialCmp X b = some .lt ↔ x < y) ∧ (a.partialCmp X b = some .eq ↔ x = y) ∧
      (a.partialCmp X b = some .gt ↔ y < x) ∧ (a.eq X b = true ↔ x = y) := by
  simp only [Num.val, Option.map_eq_some_iff] at ha hb
  obtain ⟨d, hd, rfl⟩ := ha
  obtain ⟨e, he, rfl⟩ := hb
  have hint : ∀ {n m : Int}, a = .int .integer n → b = .int .integer m → d.val = n ∧ e.val = m := by
    rintro n m rfl rfl
    simp only [Num.toDec, decOfInt] at hd he
    split at hd <;> simp at hd
    split at he <;> simp at he
    subst hd he
    simp [Dec.val]
  have hcmp : d.cmp e = if d.val < e.val then .lt else if d.val = e.val then .eq else .gt := by
    simp only [Dec.cmp, dec_lt_iff, dec_eq_iff]
  have htri := lt_trichotomy d.val e.val
  refine ⟨?_, ?_, ?_, ?_, ?_, ?_⟩
  · unfold Num.lessThan
    split
    · obtain ⟨h1, h2⟩ := hint rfl rfl
      rw [h1, h2]; simp
    · rw [hd, he]; exact dec_lt_iff _ _
  · unfold Num.lessThanOrEq
    split
    · obtain ⟨h1, h2⟩ := hint rfl rfl
      rw [h1, h2]; simp
    · rw [hd, he]
      simp only [optLe, Bool.not_eq_true', ← Bool.not_eq_true, dec_lt_iff, not_lt]
  · simp only [Num.partialCmp, hd, he, Option.bind_eq_bind, Option.bind_some, Option.some.injEq, hcmp]
    split_ifs <;> simp_all
  · simp only [Num.partialCmp, hd, he, Option.bind_eq_bind, Option.bind_some, Option.some.injEq, hcmp]
    split_ifs with h1 h2
    · simpa using h1.ne
    · simp [h2]
    · simp [h2]
  · simp only [Num.partialCmp, hd, he, Option.bind_eq_bind, Option.bind_some, Option.some.injEq, hcmp]
    split_ifs with h1 h2
    · simpa using h1.le
    · simp [h2]
    · rcases htri with h | h | h
      · exact absurd h h1
      · exact absurd h h2
      · simp [h]
  · simp only [Num.eq, hd, he, dec_eq_iff]

end

/-- **C48** is false of the code for values that do not convert: less-than is not transitive, and
disagrees with the partial comparison. -/
theorem C48_refuted :
    (Num.int .integer (2 ^ 100)).lessThan exX (.int .byte 0) = true ∧
      (Num.int .byte 0).lessThan exX (.int .integer 5) = true ∧
      (Num.int .integer (2 ^ 100)).lessThan exX (.int .integer 5) = false ∧
      (Num.int .integer (2 ^ 100)).lessThan exX (.int .integer (2 ^ 101)) = true ∧
      (Num.int .integer (2 ^ 100)).partialCmp exX (.int .integer (2 ^ 101)) = none := by decide

/-! ## C57 -/

/-- **C57** (fraction digits). The fraction digits of a decimal are the least number of digits after
the point that write its value; those of integers are none, and floats have no answer. -/
theorem C57_fraction_digits (d : Dec) (k : IntKind) (n : Int) (b : Nat) :
    (∃ f, (Num.decimal d).fractionDigits = some f ∧ IsFractionDigits d.val f) ∧
      (∃ f, (Num.int k n).fractionDigits = some f ∧ IsFractionDigits n f) ∧
      (Num.double b).fractionDigits = none ∧ (Num.float b).fractionDigits = none := by
  refine ⟨⟨d.normalize.s, ?_, ?_, ?_⟩, ⟨0, rfl, ⟨n, by simp⟩, fun _ _ => Nat.zero_le _⟩, rfl, rfl⟩
  · simp only [Num.fractionDigits]
    exact congrArg some (dec_fractionDigits d.normalize)
  · exact ⟨d.normalize.m, (normalize_spec d).1.symm⟩
  · rintro f ⟨i, hi⟩
    rw [← (normalize_spec d).1, Dec.val, val_eq_iff] at hi
    exact (normal_scale (normalize_spec d).2 hi).1

theorem totalDigits_int (n : Int) : IsTotalDigits n (natDigits n.natAbs).length := by
  have hp := natDigits_length_pos n.natAbs
  refine ⟨⟨hp, n, 0, by simp, ?_, Nat.zero_le _⟩, ?_⟩
  · rw [← natDigits_le_iff _ _ hp]
  · rintro k ⟨hk, i, f, h1, h2, _⟩
    rw [natDigits_le_iff _ _ hk]
    have h1 : (n : ℚ) / 10 ^ 0 = i / 10 ^ f := by simpa using h1
    rw [val_eq_iff, pow_zero, mul_one] at h1
    refine lt_of_le_of_lt ?_ h2
    rw [← h1, Int.natAbs_mul]
    exact Nat.le_mul_of_pos_right _ (by simp [Int.natAbs_pow])

/-- **C57** (total digits), the part that holds: exact for integers, and for decimals of absolute
value at least one or without fraction. Missing: decimals between minus one and one, counted with the
zero before the point (`C57_refuted`). -/
theorem C57_total_digits_partial (d : Dec) (k : IntKind) (n : Int) :
    (∃ t, (Num.int k n).totalDigits = some t ∧ IsTotalDigits n t) ∧
      ((1 ≤ |d.val| ∨ ∃ i : Int, d.val = i) →
        ∃ t, (Num.decimal d).totalDigits = some t ∧ IsTotalDigits d.val t) := by
  refine ⟨⟨_, rfl, by rw [natText_length]; exact totalDigits_int n⟩, fun h => ⟨_, rfl, ?_⟩⟩
  rw [dec_totalDigits]
  obtain ⟨hv, hn⟩ := normalize_spec d
  rw [← hv] at h ⊢
  generalize d.normalize = e at hn h
  -- the fraction is shorter than the digits
  have hlen : e.s = 0 ∨ e.s + 1 ≤ (natDigits e.m.natAbs).length := by
    rcases Nat.eq_zero_or_pos e.s with h0 | h0
    · exact Or.inl h0
    · right
      rcases h with h | ⟨i, h⟩
      · by_contra hcon
        push Not at hcon
        have hlt := (natDigits_le_iff e.m.natAbs e.s h0).1 (by omega)
        have : |e.val| < 1 := by
          rw [Dec.val, abs_div, abs_of_pos (by positivity : (0:ℚ) < 10 ^ e.s), div_lt_one (by positivity)]
          rw [← Int.cast_abs, Int.abs_eq_natAbs]
          exact_mod_cast hlt
        exact absurd h (not_le.2 this)
      · have h : (e.m : ℚ) / 10 ^ e.s = i / 10 ^ 0 := by simpa [Dec.val] using h
        rw [val_eq_iff] at h
        have := (normal_scale hn h).1
        omega
  have hp := natDigits_length_pos e.m.natAbs
  have hmax : max (natDigits e.m.natAbs).length (e.s + 1) = (natDigits e.m.natAbs).length := by omega
  rw [hmax]
  refine ⟨⟨hp, e.m, e.s, rfl, ?_, by omega⟩, ?_⟩
  · rw [← natDigits_le_iff _ _ hp]
  · rintro k ⟨hk, i, f, h1, h2, _⟩
    rw [natDigits_le_iff _ _ hk]
    rw [Dec.val, val_eq_iff] at h1
    obtain ⟨_, rfl⟩ := normal_scale hn h1
    refine lt_of_le_of_lt ?_ h2
    rw [Int.natAbs_mul]
    exact Nat.le_mul_of_pos_right _ (by simp [Int.natAbs_pow])

/-- **C57** is false of the code for total digits below one: `0.5` has one digit and is given two. -/
theorem C57_refuted : (Num.decimal ⟨5, 1⟩).totalDigits = some 2 ∧ IsTotalDigits (Dec.val ⟨5, 1⟩) 1 := by
  refine ⟨by decide, ⟨by omega, 5, 1, by simp [Dec.val], by decide, le_refl _⟩, ?_⟩
  rintro k ⟨hk, _⟩
  exact hk

/-! ## C49 -/

/-- **C49**, the part that holds: bounds up to the largest signed 64-bit number come back, except that
through a binary format zero does not. Missing: zero in binary formats and larger numbers
(`C49_refuted`). -/
theorem C49_round_trip_partial :
    (∀ n, n < 2 ^ 63 → Max.read .text (Max.intMax n).written = .ok (.intMax n)) ∧
    (∀ n, 0 < n → n < 2 ^ 63 → Max.read .binary (Max.intMax n).written = .ok (.intMax n)) ∧
    (∀ f, Max.read f Max.unbounded.written = .ok .unbounded) ∧
    ∀ n : Nat, minRead (minWritten n) = .ok n := by
  refine ⟨fun n hn => ?_, fun n h0 hn => ?_, fun f => ?_, fun n => ?_⟩
  · have h1 : (0 : Int) ≤ n := by omega
    simp only [Max.written, asI64, if_pos hn, Max.read, if_pos h1, Max.visitU64, Int.toNat_natCast]
  · have h1 : ¬ ((n : Int) < -1) := by omega
    have h2 : ¬ ((n : Int) = -1) := by omega
    have h3 : (n : Int) > 0 := by omega
    simp only [Max.written, asI64, hn, if_true, Max.read, Max.visitI64, h1, if_false, h2, Max.ofI64, h3,
      Int.toNat_natCast]
  · cases f <;> decide
  · simp [minRead, minWritten]

/-- **C49** is false of the code: zero panics in binary formats, and the largest number comes back
unbounded. Reading `-1` as a lower bound gives the largest number. -/
theorem C49_refuted :
    Max.read .binary (Max.intMax 0).written = .panic ∧
      Max.read .text (Max.intMax (2 ^ 64 - 1)).written = .ok .unbounded ∧
      Max.read .text (Max.intMax (2 ^ 63)).written = .err ∧
      minRead (-1) = .ok (2 ^ 64 - 1) := by decide

/-! ## Cases -/

/-- C47 applies across datatypes: `5`, `5.0` and `5.00`. -/
example : (Num.int .byte 5).eq exX (.int .long 5) = true ∧
    (Num.int .byte 5).eq exX (.decimal ⟨50, 1⟩) = true ∧
    (Num.decimal ⟨500, 2⟩).fed exX = (Num.int .byte 5).fed exX := by decide

/-- C48 applies: `0.5 < 1`. -/
example : (Num.decimal ⟨5, 1⟩).lessThan exX (.int .integer 1) = true ∧
    (Num.decimal ⟨5, 1⟩).partialCmp exX (.int .integer 1) = some .lt := by decide

/-- C57 applies: `12.340` has two fraction digits and four digits. -/
example : (Num.decimal ⟨12340, 3⟩).fractionDigits = some 2 ∧
    (Num.decimal ⟨12340, 3⟩).totalDigits = some 4 ∧ (Num.int .integer (-120)).totalDigits = some 3 := by
  decide

#print axioms C47_equivalence_and_hash
#print axioms C47_by_value
#print axioms C47_large_differ
#print axioms C48_always
#print axioms C48_convertible_partial
#print axioms C48_refuted
#print axioms C57_fraction_digits
#print axioms C57_total_digits_partial
#print axioms C57_refuted
#print axioms C49_round_trip_partial
#print axioms C49_refuted

end Lit

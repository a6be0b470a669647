import Verif.Qlever.SizeLemmas

/-!
# Properties of limits of memory (C158)
-/

namespace Qlever.Size

/-- C158: a number and a unit, with blanks around and between them, are read as that many bytes, if this fits, and are an error
otherwise. -/
theorem C158_sizes {L : Lib} (hL : L.Std) {u : String} {m : Nat} (hu : (u, m) ∈ units) (n : Nat) (he : Exact n m) {a b t : Str}
    (ha : Blank L a) (hb : Blank L b) (ht : Blank L t) :
    parseSize L (a ++ Nat.toDigits 10 n ++ b ++ u.toList ++ t) = if n * m < 2 ^ 63 then some (n * m) else none := by
  have hn : n ≤ 2 ^ 53 := by
    rcases he with h | ⟨h, _⟩
    · have hm : 1 ≤ m := by
        have : ∀ x ∈ units, 1 ≤ x.2 := by decide
        exact this _ hu
      exact Nat.le_trans (Nat.le_mul_of_pos_right n hm) h
    · exact h
  have key : ∀ (b t : Str), Blank L b → Blank L t → (u = "" → b = []) →
      parseSize L (a ++ (Nat.toDigits 10 n ++ b ++ u.toList) ++ t) = if n * m < 2 ^ 63 then some (n * m) else none := by
    intro b t hb ht hub
    obtain ⟨h1, h2, h3⟩ := strip_text hL hu (toDigits_ne n) (fun c hc => digit_alnum hc) ha hb ht hub
    unfold parseSize
    rw [h1]
    have hne : (Nat.toDigits 10 n ++ b ++ u.toList).isEmpty = false := by
      simp [toDigits_ne n]
    simp only [hne, Bool.false_eq_true, if_false]
    rw [h2]
    dsimp only
    rw [h3, hL.parse_nat n hn]
    dsimp only
    rw [hL.mul_exact n m he]
    have hq : ¬ ((n : Rat) < 0) := by
      rw [Rat.not_lt]; exact_mod_cast Nat.zero_le n
    rw [if_neg hq]
    have hf : ((n * m : Nat) : Rat).floor.toNat = n * m := by
      have : ((n * m : Nat) : Rat) = ((n * m : Nat) : Int) := rfl
      rw [this, Rat.floor_intCast]; rfl
    simp only [toU64, hf]
    by_cases h : n * m < 2 ^ 63
    · rw [Nat.min_eq_left (by omega)]
    · have : ¬ min (n * m) (2 ^ 64 - 1) < 2 ^ 63 := by omega
      rw [if_neg this, if_neg h]
  by_cases h0 : u = ""
  · subst h0
    have := key [] (b ++ t) (by intro c hc; cases hc) (by
      intro c hc
      rcases List.mem_append.1 hc with h | h
      · exact hb c h
      · exact ht c h) (fun _ => rfl)
    simpa using this
  · have := key b t hb ht (fun h => absurd h h0)
    simpa using this

/-- C158: blanks are an error, and so are texts with a character that is in no number and no unit. -/
theorem C158_errors {L : Lib} (hL : L.Std) {s : Str} :
    (Blank L s → parseSize L s = none) ∧
      ((∃ c ∈ s, L.ws c = false ∧ c ∉ "0123456789.+-einfatyEINFATYGMKTgmktB".toList) → parseSize L s = none) := by
  constructor
  · intro h
    have : trim L.ws s = [] := by
      have h1 : s.dropWhile L.ws = [] := by simpa using dropWhile_blank (b := []) h (by simp)
      simp [trim, h1]
    simp [parseSize, this]
  · rintro ⟨c, hc, hw, hn⟩
    have h1 : c ∈ trim L.ws s := mem_trim hc hw
    obtain ⟨u, e, hu⟩ := strip_split (trim L.ws s) suffixes
    have h2 : c ∈ (strip (trim L.ws s) suffixes).1 := by
      rw [e] at h1
      rcases List.mem_append.1 h1 with h | h
      · exact h
      · have h3 : ∀ p ∈ suffixes, ∀ x ∈ p.1, x ∈ "0123456789.+-einfatyEINFATYGMKTgmktB".toList := by decide
        rcases hu with rfl | ⟨m, hm⟩
        · cases h
        · exact absurd (h3 _ hm c h) hn
    have h4 : L.parse (trim L.ws (strip (trim L.ws s) suffixes).1) = none := by
      apply hL.parse_other
      refine ⟨c, mem_trim h2 hw, fun h => hn ?_⟩
      have : ∀ x ∈ "0123456789.+-einfatyEINFATY".toList, x ∈ "0123456789.+-einfatyEINFATYGMKTgmktB".toList := by decide
      exact this c h
    unfold parseSize
    simp [h4]

/-- C158: limits that are not given are not set, and one that is no size is an error. -/
theorem C158_limits (L : Lib) (memory swap : Option Str) :
    limits L memory swap =
      if (∃ s, memory = some s ∧ parseSize L s = none) ∨ (∃ s, swap = some s ∧ parseSize L s = none) then none
      else some (memory.bind (parseSize L), swap.bind (parseSize L)) := by
  unfold limits
  cases memory with
  | none =>
    cases swap with
    | none => simp
    | some t => cases h : parseSize L t <;> simp [h]
  | some s =>
    cases swap with
    | none => cases h : parseSize L s <;> simp [h]
    | some t => cases h : parseSize L s <;> cases h' : parseSize L t <;> simp [h, h']

/-- A library without fractions and without rounding. -/
def plain : Lib where
  ws c := c = ' '
  parse s := if s.all (·.isDigit) then some (.fin (Nat.ofDigitChars 10 s 0 : Nat)) else none
  mul q m := .fin (q * m)

theorem plain_std : plain.Std where
  ws c h := by
    have : c ≠ ' ' := by
      rintro rfl
      revert h; decide
    simpa [plain] using this
  parse_nat n _ := by
    have : (Nat.toDigits 10 n).all (·.isDigit) = true := List.all_eq_true.2 fun c hc => digit_alnum hc
    show (if _ then _ else _) = _
    rw [if_pos this, Nat.ofDigitChars_ten_toDigits]
  parse_other s := by
    rintro ⟨c, hc, hn⟩
    have : ¬ s.all (·.isDigit) = true := by
      intro h
      have hd := List.all_eq_true.1 h c hc
      apply hn
      have h1 := digit_mem hd
      have h2 : ∀ x ∈ "0123456789".toList, x ∈ "0123456789.+-einfatyEINFATY".toList := by decide
      exact h2 c h1
    show (if _ then _ else _) = _
    rw [if_neg this]
  mul_exact n m _ := by simp [plain]

example : ("GB", 10 ^ 9) ∈ units ∧ Exact 2 (10 ^ 9) ∧ Blank plain " ".toList ∧ parseSize plain " 2 GB".toList = some 2000000000 := by
  refine ⟨by decide, .inl (by decide), by unfold Blank; decide, ?_⟩
  have := C158_sizes plain_std (u := "GB") (m := 10 ^ 9) (by decide) 2 (.inl (by decide)) (a := [' ']) (b := [' ']) (t := [])
    (by unfold Blank; decide) (by unfold Blank; decide) (by unfold Blank; decide)
  have e : Nat.toDigits 10 2 = ['2'] := by decide
  simpa [e] using this

/-- Sizes of Docker: a number and one of its units. -/
def dockerUnits : List String := ["b", "k", "m", "g"]

/-- C158, for all sizes that Docker takes, fails: bytes with their unit are an error. -/
theorem C158_docker_refuted : ¬ ∀ (L : Lib), L.Std → ∀ n, n ≤ 1000000 → ∀ u ∈ dockerUnits,
    parseSize L (Nat.toDigits 10 n ++ u.toList) ≠ none := by
  intro h
  refine h plain plain_std 512 (by decide) "b" (by decide) ?_
  exact (C158_errors plain_std).2 ⟨'b', by decide +kernel, by decide, by decide⟩

end Qlever.Size

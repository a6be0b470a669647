import Verif.Qlever.SizeSpec

/-!
# Lemmas on sizes
-/

namespace Qlever.Size

theorem dropWhile_blank {p : Char → Bool} {a b : Str} (ha : ∀ c ∈ a, p c = true) (hb : ∀ c, b.head? = some c → p c = false) :
    (a ++ b).dropWhile p = b := by
  induction a with
  | nil =>
    cases b with
    | nil => rfl
    | cons c b => simp [hb c rfl]
  | cons x a ih =>
    rw [List.cons_append, List.dropWhile_cons, if_pos (ha x (by simp))]
    exact ih fun c hc => ha c (by simp [hc])

theorem trim_pad {p : Char → Bool} {a t b : Str} (ha : ∀ c ∈ a, p c = true) (hb : ∀ c ∈ b, p c = true)
    (h1 : ∀ c, t.head? = some c → p c = false) (h2 : ∀ c, t.getLast? = some c → p c = false) (ht : t ≠ []) :
    trim p (a ++ t ++ b) = t := by
  unfold trim
  rw [List.append_assoc, dropWhile_blank ha]
  · rw [List.reverse_append, dropWhile_blank (by simpa using hb), List.reverse_reverse]
    intro c hc
    exact h2 c (by simpa using hc)
  · intro c hc
    apply h1
    cases t with
    | nil => exact absurd rfl ht
    | cons x t => simpa using hc

theorem toDigits_ne (n : Nat) : Nat.toDigits 10 n ≠ [] := by
  intro h
  have h1 := Nat.ofDigitChars_ten_toDigits (n := n)
  have : n = 0 := by rw [h] at h1; exact h1.symm
  subst this
  exact absurd h (by decide)

theorem suffix_rest {y v u : Str} {c : Char} (hu : c ∉ u) : u <:+ y ++ [c] ++ v ↔ u <:+ v := by
  constructor
  · intro h
    by_cases hl : u.length ≤ v.length
    · exact List.suffix_of_suffix_length_le h (List.suffix_append _ _) hl
    · have h1 : [c] ++ v <:+ y ++ [c] ++ v := by rw [List.append_assoc]; exact List.suffix_append _ _
      have h2 := List.suffix_of_suffix_length_le h1 h (by simp; omega)
      exact absurd (h2.subset (by simp)) hu
  · exact fun h => h.trans (List.suffix_append _ _)

theorem strip_rest {y v : Str} {c : Char} {l : List (Str × Nat)} (hl : ∀ p ∈ l, c ∉ p.1) :
    strip (y ++ [c] ++ v) l = (y ++ [c] ++ (strip v l).1, (strip v l).2) := by
  induction l with
  | nil => rfl
  | cons p l ih =>
    obtain ⟨u, m⟩ := p
    have hu := hl (u, m) (by simp)
    unfold strip
    by_cases h : u <:+ v
    · rw [if_pos (by rw [List.isSuffixOf_iff_suffix, suffix_rest hu]; exact h),
        if_pos (by rw [List.isSuffixOf_iff_suffix]; exact h)]
      have := h.length_le
      have e : (y ++ [c] ++ v).length - u.length = (y ++ [c]).length + (v.length - u.length) := by
        simp only [List.length_append]; omega
      rw [e, List.take_length_add_append]
    · rw [if_neg (by rw [List.isSuffixOf_iff_suffix, suffix_rest hu]; exact h),
        if_neg (by rw [List.isSuffixOf_iff_suffix]; exact h)]
      exact ih fun p hp => hl p (by simp [hp])

/-- Stripping a unit from a text whose rest does not end with a letter. -/
theorem strip_unit {u : String} {m : Nat} (hu : (u, m) ∈ units) (y : Str) {c : Char} (hc : c ∉ "GMKTgmktBi".toList) :
    strip (y ++ [c] ++ u.toList) suffixes = (y ++ [c], m) := by
  have h1 : ∀ p ∈ suffixes, ∀ x ∈ p.1, x ∈ "GMKTgmktBi".toList := by decide
  have h2 : ∀ p ∈ units, strip p.1.toList suffixes = ([], p.2) := by decide +kernel
  rw [strip_rest (fun p hp hx => hc (h1 p hp c hx)), h2 _ hu]
  simp

theorem digit_alnum {n : Nat} {c : Char} (h : c ∈ Nat.toDigits 10 n) : c.isDigit = true :=
  Nat.isDigit_of_mem_toDigits (by omega) (by omega) h

theorem alnum_of_digit {c : Char} (h : c.isDigit = true) : c.isAlphanum = true := by simp [Char.isAlphanum, h]

theorem unit_letters {u : String} {m : Nat} (hu : (u, m) ∈ units) : ∀ c ∈ u.toList, c.isAlphanum = true := by
  have : ∀ x ∈ units, ∀ c ∈ x.1.toList, c.isAlphanum = true := by decide
  exact this _ hu

/-- What is left when a number, blanks and a unit are trimmed and the unit is taken off. -/
theorem strip_text {L : Lib} (hL : L.Std) {u : String} {m : Nat} (hu : (u, m) ∈ units) {t a b d : Str} (hd : d ≠ [])
    (hdig : ∀ c ∈ d, c.isDigit = true) (ha : Blank L a) (hb : Blank L b) (ht : Blank L t) (hub : u = "" → b = []) :
    trim L.ws (a ++ (d ++ b ++ u.toList) ++ t) = d ++ b ++ u.toList ∧
      strip (d ++ b ++ u.toList) suffixes = (d ++ b, m) ∧ trim L.ws (d ++ b) = d := by
  have hws : ∀ c ∈ d, L.ws c = false := fun c hc => hL.ws c (.inl (alnum_of_digit (hdig c hc)))
  refine ⟨?_, ?_, ?_⟩
  · refine trim_pad ha ht ?_ ?_ (by simp [hd])
    · intro c hc
      cases d with
      | nil => exact absurd rfl hd
      | cons x d => simp at hc; subst hc; exact hws x (by simp)
    · intro c hc
      rw [List.getLast?_append] at hc
      cases hul : u.toList.getLast? with
      | some x =>
        rw [hul] at hc
        simp at hc
        subst hc
        exact hL.ws x (.inl (unit_letters hu x (List.mem_of_getLast? hul)))
      | none =>
        have hu0 : u.toList = [] := by simpa using hul
        have : u = "" := by simpa using hu0
        rw [hul, hub this] at hc
        simp at hc
        exact hws c (List.mem_of_getLast? hc)
  · obtain ⟨y, c, e⟩ : ∃ y c, d ++ b = y ++ [c] := by
      rcases List.eq_nil_or_concat (d ++ b) with h | ⟨y, c, h⟩
      · simp [hd] at h
      · exact ⟨y, c, by simpa using h⟩
    rw [e]
    apply strip_unit hu
    have hc : c ∈ d ++ b := by rw [e]; simp
    intro hx
    have hx1 : c.isAlphanum = true ∧ c.isDigit = false := by
      have : ∀ x ∈ "GMKTgmktBi".toList, x.isAlphanum = true ∧ x.isDigit = false := by decide
      exact this c hx
    rcases List.mem_append.1 hc with hc | hc
    · rw [hdig c hc] at hx1; cases hx1.2
    · have h1 := hb c hc
      rw [hL.ws c (.inl hx1.1)] at h1
      cases h1
  · have := trim_pad (p := L.ws) (a := []) (t := d) (b := b) (by simp) hb
      (fun c hc => hws c (List.mem_of_mem_head? hc)) (fun c hc => hws c (List.mem_of_getLast? hc)) hd
    simpa using this

theorem digit_mem {c : Char} (h : c.isDigit = true) : c ∈ "0123456789".toList := by
  have h1 : 48 ≤ c.toNat ∧ c.toNat ≤ 57 := by
    simp only [Char.isDigit, Bool.and_eq_true, decide_eq_true_eq] at h
    exact ⟨h.1, h.2⟩
  have h2 : ∀ n ∈ List.range' 48 10, Char.ofNat n ∈ "0123456789".toList := by decide
  have := h2 c.toNat (by rw [List.mem_range'_1]; omega)
  rwa [Char.ofNat_toNat] at this

theorem mem_dropWhile {p : Char → Bool} {s : Str} {c : Char} (h : c ∈ s) (hp : p c = false) : c ∈ s.dropWhile p := by
  induction s with
  | nil => cases h
  | cons x s ih =>
    rw [List.dropWhile_cons]
    split
    · rename_i hx
      rcases List.mem_cons.1 h with rfl | h
      · rw [hp] at hx; cases hx
      · exact ih h
    · exact h

theorem mem_trim {p : Char → Bool} {s : Str} {c : Char} (h : c ∈ s) (hp : p c = false) : c ∈ trim p s := by
  unfold trim
  rw [List.mem_reverse]
  exact mem_dropWhile (List.mem_reverse.2 (mem_dropWhile h hp)) hp

theorem strip_split (s : Str) (l : List (Str × Nat)) : ∃ u, s = (strip s l).1 ++ u ∧ (u = [] ∨ ∃ m, (u, m) ∈ l) := by
  induction l with
  | nil => exact ⟨[], by simp [strip], .inl rfl⟩
  | cons p l ih =>
    obtain ⟨u, m⟩ := p
    unfold strip
    split
    · rename_i h
      obtain ⟨x, rfl⟩ := List.isSuffixOf_iff_suffix.1 h
      exact ⟨u, by simp, .inr ⟨m, by simp⟩⟩
    · obtain ⟨v, e, h⟩ := ih
      refine ⟨v, e, ?_⟩
      rcases h with h | ⟨m', h⟩
      · exact .inl h
      · exact .inr ⟨m', by simp [h]⟩

end Qlever.Size

import Verif.Mcp.PagesSpec

/-!
# Lemmas on pages
-/

namespace Mcp.Pages

theorem digit_toNat {k : Nat} (h : k < 10) : (Char.ofNat (48 + k)).toNat = 48 + k := by
  have : ∀ k : Fin 10, (Char.ofNat (48 + k.1)).toNat = 48 + k.1 := by decide
  exact this ⟨k, h⟩

theorem step_digit {n k : Nat} (h : k < 10) (hb : 10 * n + k < 2 ^ 64) : step (some n) (Char.ofNat (48 + k)) = some (10 * n + k) := by
  have e := digit_toNat h
  have z : '0'.toNat = 48 := rfl
  have z' : '9'.toNat = 57 := rfl
  simp only [step, e, z, z']
  rw [if_pos (by omega), if_pos (by omega)]
  congr 1
  omega

theorem step_some {m : Option Nat} {c : Char} {n : Nat} (h : step m c = some n) :
    ∃ a k, m = some a ∧ k < 10 ∧ c = Char.ofNat (48 + k) ∧ n = 10 * a + k ∧ n < 2 ^ 64 := by
  cases m with
  | none => simp [step] at h
  | some a =>
    have z : '0'.toNat = 48 := rfl
    have z' : '9'.toNat = 57 := rfl
    simp only [step, z, z'] at h
    split at h
    · rename_i hc
      split at h
      · rename_i hb
        simp only [Option.some.injEq] at h
        refine ⟨a, c.toNat - 48, rfl, by omega, ?_, by omega, by omega⟩
        rw [show 48 + (c.toNat - 48) = c.toNat by omega, Char.ofNat_toNat]
      · simp at h
    · simp at h

theorem foldl_decimal {l : List Char} {n : Nat} (h : Decimal l n) (hb : n < 2 ^ 64) : l.foldl step (some 0) = some n := by
  induction h with
  | nil => rfl
  | snoc k hk _ ih =>
    rw [List.foldl_append, ih (by omega)]
    exact step_digit hk hb

theorem decimal_foldl (r : List Char) (n : Nat) (h : r.reverse.foldl step (some 0) = some n) : Decimal r.reverse n ∧ n < 2 ^ 64 := by
  induction r generalizing n with
  | nil => simp at h; subst h; exact ⟨.nil, by decide⟩
  | cons c r ih =>
    rw [List.reverse_cons, List.foldl_append] at h
    obtain ⟨a, k, h1, h2, rfl, rfl, h4⟩ := step_some h
    rw [List.reverse_cons]
    exact ⟨.snoc k h2 (ih a h1).1, h4⟩

theorem decimal_head {l : List Char} {n : Nat} (h : Decimal l n) : ∀ c ∈ l, c ≠ '+' := by
  induction h with
  | nil => simp
  | snoc k hk _ ih =>
    intro c hc
    rcases List.mem_append.1 hc with hc | hc
    · exact ih c hc
    · rw [List.mem_singleton] at hc
      subst hc
      intro he
      have := congrArg Char.toNat he
      rw [digit_toNat hk] at this
      have z : '+'.toNat = 43 := rfl
      omega

theorem parse_iff (l : List Char) (n : Nat) : parse l = some n ↔ Numeral l n ∧ n < 2 ^ 64 := by
  have key : ∀ d : List Char, (if d = [] then none else d.foldl step (some 0)) = some n ↔ (d ≠ [] ∧ Decimal d n) ∧ n < 2 ^ 64 := by
    intro d
    by_cases hd : d = []
    · simp [hd]
    · rw [if_neg hd]
      constructor
      · intro h
        have := decimal_foldl d.reverse n (by rwa [List.reverse_reverse])
        rw [List.reverse_reverse] at this
        exact ⟨⟨hd, this.1⟩, this.2⟩
      · rintro ⟨⟨_, h⟩, hb⟩
        exact foldl_decimal h hb
  unfold parse
  refine (key _).trans (and_congr_left fun _ => ?_)
  cases l with
  | nil =>
    constructor
    · rintro ⟨h, _⟩; exact absurd rfl h
    · rintro ⟨d, h | h, h1, _⟩
      · exact absurd h.symm h1
      · cases h
  | cons c r =>
    by_cases hc : c = '+'
    · subst hc
      have e : skipPlus ('+' :: r) = r := by simp [skipPlus]
      rw [e]
      constructor
      · rintro ⟨h1, h2⟩; exact ⟨r, .inr rfl, h1, h2⟩
      · rintro ⟨d, h | h, h1, h2⟩
        · exact absurd rfl (decimal_head h2 '+' (h ▸ List.mem_cons_self))
        · obtain ⟨-, rfl⟩ := List.cons.inj h; exact ⟨h1, h2⟩
    · have e : skipPlus (c :: r) = c :: r := by simp [skipPlus, hc]
      rw [e]
      constructor
      · rintro ⟨h1, h2⟩; exact ⟨_, .inl rfl, h1, h2⟩
      · rintro ⟨d, h | h, h1, h2⟩
        · subst h; exact ⟨h1, h2⟩
        · exact absurd (List.cons.inj h).1 hc

theorem decimal_digits (n : Nat) : Decimal (digits n) n := by
  induction n using Nat.strongRecOn with
  | _ n ih =>
    rw [digits]
    split
    · rename_i h
      have := Decimal.snoc n h .nil
      simpa using this
    · have := Decimal.snoc (n % 10) (by omega) (ih (n / 10) (by omega))
      rwa [show 10 * (n / 10) + n % 10 = n by omega] at this

theorem digits_ne (n : Nat) : digits n ≠ [] := by
  rw [digits]; split <;> simp

theorem parse_digits {n : Nat} (h : n < 2 ^ 64) : parse (digits n) = some n :=
  (parse_iff _ _).2 ⟨⟨_, .inl rfl, digits_ne n, decimal_digits n⟩, h⟩

theorem list_at {A : Type} (items : List A) (c : Option (List Char)) (n : Nat) (h : parseCursor c items.length = some n)
    (hn : n ≤ items.length) : list items (some c) =
      some ((items.drop n).take 20, if n + 20 < items.length then some (digits (n + 20)) else none) := by
  simp only [list, h, pageSize, Nat.min_eq_left hn]
  congr 1
  by_cases hl : n + 20 < items.length
  · rw [Nat.min_eq_left (by omega), if_pos hl, List.drop_take, show n + 20 - n = 20 by omega]
  · rw [Nat.min_eq_right (by omega), if_neg (by omega), List.take_length, List.take_of_length_le (by simp; omega), if_neg hl]

/-- The pages from an offset on. -/
def pagesFrom {A : Type} : Nat → List A → List (List A)
  | 0, l => [l]
  | k + 1, l => l.take 20 :: pagesFrom k (l.drop 20)

theorem follow_exists {A : Type} (items : List A) (hb : items.length < 2 ^ 64) (m : Nat) : ∀ (c : Option (List Char)) (n : Nat),
    items.length - n = m → n ≤ items.length → parseCursor c items.length = some n →
    Follow items c (pagesFrom ((items.length - n - 1) / 20) (items.drop n)) := by
  induction m using Nat.strongRecOn with
  | _ m ih =>
    intro c n hm hn hc
    have hl := list_at items c n hc hn
    by_cases hlt : n + 20 < items.length
    · rw [if_pos hlt] at hl
      have e : (items.length - n - 1) / 20 = (items.length - (n + 20) - 1) / 20 + 1 := by omega
      rw [e, pagesFrom, List.drop_drop]
      refine .next hl (ih (items.length - (n + 20)) (by omega) _ (n + 20) rfl (by omega) ?_)
      simp only [parseCursor, parse_digits (show n + 20 < 2 ^ 64 by omega)]
      rw [if_neg (by omega)]
    · rw [if_neg hlt] at hl
      have e : (items.length - n - 1) / 20 = 0 := by omega
      rw [e, pagesFrom]
      rw [List.take_of_length_le (by simp; omega)] at hl
      exact .last hl

theorem follow_unique {A : Type} {items : List A} {c : Option (List Char)} {ps qs : List (List A)} (h : Follow items c ps)
    (h' : Follow items c qs) : ps = qs := by
  induction h generalizing qs with
  | last e =>
    cases h' with
    | last e' => rw [e] at e'; simp at e'; rw [e']
    | next e' _ => rw [e] at e'; simp at e'
  | next e _ ih =>
    cases h' with
    | last e' => rw [e] at e'; simp at e'
    | next e' f =>
      rw [e] at e'
      simp only [Option.some.injEq, Prod.mk.injEq] at e'
      obtain ⟨rfl, rfl⟩ := e'
      rw [ih f]

theorem pagesFrom_flatten {A : Type} (k : Nat) (l : List A) : (pagesFrom k l).flatten = l := by
  induction k generalizing l with
  | zero => simp [pagesFrom]
  | succ k ih => simp [pagesFrom, ih]

theorem pagesFrom_length {A : Type} (k : Nat) (l : List A) : (pagesFrom k l).length = k + 1 := by
  induction k generalizing l with
  | zero => rfl
  | succ k ih => simp [pagesFrom, ih]

theorem lines_ne (l : List Char) : lines l ≠ [] := by
  cases l with
  | nil => simp [lines]
  | cons c l =>
    unfold lines
    split
    · simp
    · split <;> simp

theorem lines_cons (c : Char) (l : List Char) : lines (c :: l) = if c = '\n' then [] :: lines l else
    match lines l with
    | [] => [[c]]
    | x :: xs => (c :: x) :: xs := rfl

theorem lines_append (a b : List Char) : lines (a ++ '\n' :: b) = lines a ++ lines b := by
  induction a with
  | nil => rfl
  | cons c a ih =>
    rw [List.cons_append, lines_cons, lines_cons, ih]
    by_cases hc : c = '\n'
    · simp [hc]
    · simp only [hc, if_false]
      have := lines_ne a
      cases h : lines a with
      | nil => exact absurd h this
      | cons x xs => rfl

theorem lines_one {l : List Char} (h : '\n' ∉ l) : lines l = [l] := by
  induction l with
  | nil => rfl
  | cons c l ih =>
    simp only [List.mem_cons, not_or] at h
    unfold lines
    rw [if_neg (Ne.symm h.1), ih h.2]

/-- What a preview shows of a text. -/
theorem shown_preview (language text : List Char) (m : Nat) (hl : '\n' ∉ language) :
    shown (preview language text m) = (lines (text.take m)).takeWhile fun x => !Closes x := by
  have ht : (if decide (text.length > m) = true then text.take m else text) = text.take m := by
    by_cases h : text.length > m
    · simp [h]
    · simp [h, List.take_of_length_le (Nat.le_of_not_lt h)]
  have hc : Closes "```".toList = true := by decide
  have h0 : '\n' ∉ "```".toList ++ language := by
    rw [List.mem_append]
    rintro (h | h)
    · exact absurd h (by decide)
    · exact hl h
  have hb : ∃ r, lines ("```".toList ++ (if decide (text.length > m) = true then
      "\n\nPreview truncated. Full output is available in structuredContent.".toList else [])) = "```".toList :: r := by
    by_cases h : text.length > m
    · simp only [h, decide_true, if_true]
      exact ⟨_, rfl⟩
    · simp only [h, decide_false, Bool.false_eq_true, if_false]
      exact ⟨[], rfl⟩
  obtain ⟨r, hr⟩ := hb
  unfold shown preview
  simp only [ht]
  rw [show "\n```".toList = '\n' :: "```".toList from rfl]
  rw [show ∀ x : List Char, "```".toList ++ language ++ '\n' :: text.take m ++ '\n' :: "```".toList ++ x =
    ("```".toList ++ language) ++ '\n' :: (text.take m ++ '\n' :: ("```".toList ++ x)) from fun x => by simp]
  rw [lines_append, lines_append, lines_one h0, hr, List.singleton_append, List.drop_one, List.tail_cons, List.takeWhile_append]
  split
  · rename_i h
    rw [List.takeWhile_cons, hc]
    simp only [Bool.not_true, Bool.false_eq_true, if_false, List.append_nil]
    exact ((List.takeWhile_sublist _).eq_of_length h).symm
  · rfl

end Mcp.Pages

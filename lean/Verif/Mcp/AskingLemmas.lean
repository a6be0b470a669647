import Verif.Mcp.AskingSpec

/-!
# Lemmas on words, keywords and lines
-/

namespace Mcp.Asking

open Prefix (Str)

theorem keyword_iff (s : Str) (k : Kind) : keyword s = some k ↔ s = k.name := by
  unfold keyword
  constructor
  · intro h
    split at h
    · cases h; assumption
    · split at h
      · cases h; assumption
      · split at h
        · cases h; assumption
        · split at h
          · cases h; assumption
          · cases h
  · rintro rfl
    cases k <;> decide

theorem splitFrom_word (L : Lib) (w : Str) (hw : ∀ c ∈ w, L.ws c = false) (p s : Str) :
    splitFrom L p (w ++ s) = splitFrom L (p ++ w) s := by
  induction w generalizing p with
  | nil => simp
  | cons c w ih =>
    have hc : L.ws c = false := hw c (by simp)
    simp only [List.cons_append, splitFrom, hc]
    rw [if_neg (by simp), ih (fun d hd => hw d (by simp [hd]))]
    simp

theorem splitFrom_blank (L : Lib) (p b : Str) (hb : BeginsBlank L b) : splitFrom L p b = flush p ++ splitFrom L [] b := by
  cases b with
  | nil => simp [splitFrom, flush]
  | cons c b =>
    have hc : L.ws c = true := hb c (by simp)
    simp [splitFrom, hc, flush]

theorem splitFrom_append (L : Lib) (a b : Str) (ha : EndsBlank L a) (p : Str) (hp : a = [] → p = []) :
    splitFrom L p (a ++ b) = splitFrom L p a ++ splitFrom L [] b := by
  induction a generalizing p with
  | nil => simp [hp rfl, splitFrom, flush]
  | cons c a ih =>
    have ha' : EndsBlank L a := by
      intro d hd
      apply ha d
      cases a with
      | nil => simp at hd
      | cons x a => simpa using hd
    by_cases hc : L.ws c = true
    · simp only [List.cons_append, splitFrom, hc, if_true]
      rw [ih ha' [] (fun _ => rfl)]
      simp
    · simp only [List.cons_append, splitFrom, hc]
      simp only [Bool.false_eq_true, if_false]
      apply ih ha'
      rintro rfl
      exact absurd (ha c (by simp)) hc

theorem firstKeyword_append (L : Lib) (a b : List Str) :
    firstKeyword L (a ++ b) = (firstKeyword L a).or (firstKeyword L b) := by
  induction a with
  | nil => simp [firstKeyword]
  | cons w a ih =>
    simp only [List.cons_append, firstKeyword]
    cases keyword (toUpper L w) <;> simp [ih]

theorem firstKeyword_none (L : Lib) (ws : List Str) : firstKeyword L ws = none ↔ ∀ w ∈ ws, ∀ k, ¬Names L w k := by
  induction ws with
  | nil => simp [firstKeyword]
  | cons w ws ih =>
    simp only [firstKeyword, List.mem_cons, forall_eq_or_imp]
    cases hk : keyword (toUpper L w) with
    | none =>
      simp only [ih]
      constructor
      · intro h
        refine ⟨fun k hn => ?_, h⟩
        rw [(keyword_iff _ k).2 hn] at hk
        cases hk
      · exact fun h => h.2
    | some k =>
      simp only [reduceCtorEq, false_iff, not_and]
      intro h
      exact absurd ((keyword_iff _ k).1 hk) (h k)

/-- A text in which a word stands, as the words before, the word and the words after. -/
theorem split_at (L : Lib) (a w b : Str) (h : IsWord L a w b) :
    splitFrom L [] (a ++ w ++ b) = splitFrom L [] a ++ w :: splitFrom L [] b := by
  obtain ⟨hw, hc, ha, hb⟩ := h
  rw [List.append_assoc, splitFrom_append L a (w ++ b) ha [] (fun _ => rfl), splitFrom_word L w hc, List.nil_append,
    splitFrom_blank L w b hb]
  simp [flush, hw]

/-- Each of the words that are split off is a word of the text. -/
theorem mem_split (L : Lib) (s : Str) (p : Str) (hp : ∀ c ∈ p, L.ws c = false) (w : Str) (hw : w ∈ splitFrom L p s) :
    ∃ a b, p ++ s = a ++ w ++ b ∧ IsWord L a w b := by
  induction s generalizing p with
  | nil =>
    simp only [splitFrom, flush] at hw
    split at hw
    · simp at hw
    · rename_i hne
      simp only [List.mem_singleton] at hw
      subst hw
      exact ⟨[], [], by simp, hne, hp, by simp [EndsBlank], by simp [BeginsBlank]⟩
  | cons c s ih =>
    by_cases hc : L.ws c = true
    · simp only [splitFrom, hc, if_true, List.mem_append] at hw
      rcases hw with hw | hw
      · unfold flush at hw
        split at hw
        · simp at hw
        · rename_i hne
          simp only [List.mem_singleton] at hw
          subst hw
          exact ⟨[], c :: s, by simp, hne, hp, by simp [EndsBlank], by simp [BeginsBlank, hc]⟩
      · obtain ⟨a, b, he, h1, h2, h3, h4⟩ := ih [] (by simp) hw
        refine ⟨p ++ c :: a, b, ?_, h1, h2, ?_, h4⟩
        · rw [List.nil_append] at he
          rw [he]; simp
        · intro d hd
          cases a with
          | nil =>
            simp at hd
            rw [← hd]; exact hc
          | cons x a =>
            apply h3 d
            simpa [List.getLast?_append, List.getLast?_cons] using hd
    · simp only [splitFrom, hc] at hw
      simp only [Bool.false_eq_true, if_false] at hw
      have := ih (p ++ [c]) (by
        intro d hd
        rcases List.mem_append.1 hd with h | h
        · exact hp d h
        · simp at h; rw [h]; simpa using hc) hw
      simpa using this

theorem noKeyword_iff (L : Lib) (s : Str) : queryType L s = none ↔ NoKeyword L s := by
  unfold queryType
  rw [firstKeyword_none]
  constructor
  · rintro h a w b rfl hw
    apply h
    rw [split_at L a w b hw]
    simp
  · intro h w hw
    obtain ⟨a, b, he, hi⟩ := mem_split L s [] (by simp) w hw
    exact h a w b (by simpa using he) hi

theorem firstWord_type (L : Lib) (s : Str) (k : Kind) (h : FirstWord L s k) : queryType L s = some k := by
  obtain ⟨a, w, b, rfl, hw, hn, ha⟩ := h
  have h0 := (noKeyword_iff L a).2 ha
  unfold queryType at h0 ⊢
  rw [split_at L a w b hw, firstKeyword_append, h0]
  simp [firstKeyword, (keyword_iff _ k).2 hn]

/-- If the text has a keyword there is a first one. -/
theorem exists_first (L : Lib) (n : Nat) (s : Str) (hn : s.length ≤ n) (h : ¬NoKeyword L s) : ∃ k, FirstWord L s k := by
  induction n generalizing s with
  | zero =>
    exfalso
    apply h
    rintro a w b rfl hw
    have : w = [] := by
      cases w with
      | nil => rfl
      | cons x w => simp at hn
    exact absurd this hw.1
  | succ n ih =>
    obtain ⟨a, w, b, rfl, hw, k, hk⟩ : ∃ a w b, s = a ++ w ++ b ∧ IsWord L a w b ∧ ∃ k, Names L w k :=
      Classical.byContradiction fun hc => h fun a w b he hw k hk => hc ⟨a, w, b, he, hw, k, hk⟩
    by_cases ha : NoKeyword L a
    · exact ⟨k, a, w, b, rfl, hw, hk, ha⟩
    · have hlen : a.length ≤ n := by
        have : 0 < w.length := List.length_pos_iff.2 hw.1
        simp at hn
        omega
      obtain ⟨k', a', w', b', rfl, ⟨h1, h2, h3, h4⟩, hk', ha'⟩ := ih a hlen ha
      refine ⟨k', a', w', b' ++ (w ++ b), by simp, ⟨h1, h2, h3, ?_⟩, hk', ha'⟩
      intro c hc
      cases b' with
      | cons x b' => exact h4 c (by simpa using hc)
      | nil =>
        exfalso
        obtain ⟨hwn, hwc, hab, -⟩ := hw
        have hl : w' ++ [] ≠ [] := by simpa using h1
        have hg : (a' ++ w' ++ []).getLast? = some (w'.getLast h1) := by
          simp [List.getLast?_append, List.getLast?_eq_some_getLast h1]
        have := hab _ hg
        rw [h2 _ (List.getLast_mem h1)] at this
        cases this

/-- A printable character of ASCII. -/
def Graphic (c : Char) : Prop := 33 ≤ c.toNat ∧ c.toNat < 127

instance (c : Char) : Decidable (Graphic c) := inferInstanceAs (Decidable (_ ∧ _))

theorem graphic_of_upper (c : Char) (h : Graphic c.toUpper) : Graphic c := by
  unfold Char.toUpper at h
  split at h
  · rename_i hr
    obtain ⟨h1, h2⟩ := hr
    have h1 : 97 ≤ c.val.toNat := h1
    have h2 : c.val.toNat ≤ 122 := h2
    show 33 ≤ c.val.toNat ∧ c.val.toNat < 127
    omega
  · exact h

theorem toUpper_ascii {L : Lib} (hL : Ascii L) (w : Str) (hw : ∀ c ∈ w, Graphic c) : toUpper L w = w.map Char.toUpper := by
  induction w with
  | nil => rfl
  | cons c w ih =>
    have hc := hw c (by simp)
    have := ih (fun d hd => hw d (by simp [hd]))
    unfold toUpper at this ⊢
    rw [List.flatMap_cons, this, hL.upper c (by have := hc.2; omega)]
    rfl

theorem ws_graphic {L : Lib} (hL : Ascii L) (w : Str) (hw : ∀ c ∈ w, Graphic c) : ∀ c ∈ w, L.ws c = false :=
  fun c hc => hL.graphic c (hw c hc).1 (hw c hc).2

theorem graphic_name (w : Str) (k : Kind) (h : w.map Char.toUpper = k.name) : ∀ c ∈ w, Graphic c := by
  intro c hc
  apply graphic_of_upper
  have : c.toUpper ∈ k.name := by rw [← h]; exact List.mem_map_of_mem hc
  revert this
  generalize c.toUpper = d
  cases k <;> (intro h; revert h; revert d; decide)

/-- Lines that are read one after the other. -/
theorem linesFrom_line (l : Str) (hl : '\n' ∉ l) (p s : Str) : linesFrom p (l ++ '\n' :: s) = (p ++ l) :: linesFrom [] s := by
  induction l generalizing p with
  | nil => simp [linesFrom]
  | cons c l ih =>
    have hc : c ≠ '\n' := by rintro rfl; simp at hl
    simp only [List.cons_append, linesFrom, hc, if_false]
    rw [ih (by intro h; exact hl (by simp [h]))]
    simp

theorem linesFrom_unlines (ls : List Str) (h : ∀ l ∈ ls, '\n' ∉ l) (s : Str) :
    linesFrom [] (unlines ls ++ s) = ls ++ linesFrom [] s := by
  induction ls with
  | nil => simp [unlines]
  | cons l ls ih =>
    have := linesFrom_line l (h l (by simp)) [] (unlines ls ++ s)
    simp only [unlines, List.flatMap_cons, List.append_assoc, List.cons_append, List.nil_append] at this ⊢
    rw [this]
    have ih := ih (fun x hx => h x (by simp [hx]))
    simp only [unlines] at ih
    rw [ih]

theorem fence_append (s : Str) : fence.isPrefixOf (fence ++ s) = true := by
  simp [fence, List.isPrefixOf]

/-- What is read after a fence begins with a line that begins with it. -/
theorem linesFrom_fence (p s : Str) : ∃ l ls, linesFrom (fence ++ p) s = (fence ++ l) :: ls := by
  induction s generalizing p with
  | nil => exact ⟨p, [], by simp [linesFrom, flush, fence]⟩
  | cons c s ih =>
    unfold linesFrom
    split
    · exact ⟨p, _, rfl⟩
    · rw [List.append_assoc]; exact ih _

theorem takeWhile_fence (ls : List Str) (h : ∀ l ∈ ls, ¬fence <+: l) (l : Str) (xs : List Str) :
    (ls ++ (fence ++ l) :: xs).takeWhile (fun l => !fence.isPrefixOf l) = ls := by
  induction ls with
  | nil => simp [fence_append]
  | cons x ls ih =>
    have hx : fence.isPrefixOf x = false := by
      rw [Bool.eq_false_iff]
      intro hp
      exact h x (by simp) (List.isPrefixOf_iff_prefix.1 hp)
    simp [hx, ih (fun y hy => h y (by simp [hy]))]

theorem join_eq (ls : List Str) : join ls = ['\n'].intercalate ls := by
  induction ls with
  | nil => rfl
  | cons l ls ih =>
    cases ls with
    | nil => simp [join]
    | cons x ls => simp [join, ih]

theorem clean_fenced (L : Lib) (info : Str) (body : List Str) (rest : Str) (hi : '\n' ∉ info) (hb : ∀ l ∈ body, '\n' ∉ l)
    (hf : ∀ l ∈ body, ¬fence <+: l) :
    clean L (fence ++ info ++ '\n' :: unlines body ++ fence ++ rest) = Prefix.trim L.ws (join body) := by
  have hp : fence.isPrefixOf (fence ++ info ++ '\n' :: unlines body ++ fence ++ rest) = true := by
    simp only [List.append_assoc]
    exact fence_append _
  obtain ⟨l, ls, h3⟩ := linesFrom_fence [] rest
  have hl : linesFrom [] (fence ++ info ++ '\n' :: unlines body ++ fence ++ rest) = (fence ++ info) :: (body ++ (fence ++ l) :: ls) := by
    have h1 := linesFrom_line (fence ++ info) (by
      intro h
      rcases List.mem_append.1 h with h | h
      · revert h; decide
      · exact hi h) [] (unlines body ++ (fence ++ rest))
    have h2 := linesFrom_unlines body hb (fence ++ rest)
    have h4 : linesFrom [] (fence ++ rest) = linesFrom (fence ++ []) rest := by
      simp [fence, linesFrom]
    simp only [List.append_assoc, List.cons_append, List.nil_append] at h1 ⊢
    rw [h1, h2, h4, h3]
  unfold clean
  rw [if_pos hp, hl, List.drop_one, List.tail_cons, takeWhile_fence body hf]

end Mcp.Asking

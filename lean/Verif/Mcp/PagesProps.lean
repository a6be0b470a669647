import Verif.Mcp.PagesLemmas

/-!
# Properties of listings and previews of the MCP server (C165, C166)
-/

namespace Mcp.Pages

/-- C165: a client that follows cursors ends, and gets everything once and in order, in as many requests as there are twenties. -/
theorem C165_follow {A : Type} (items : List A) (hb : items.length < 2 ^ 64) :
    (∃ ps, Follow items none ps) ∧
    ∀ ps, Follow items none ps → ps.flatten = items ∧ ps.length = (items.length - 1) / 20 + 1 ∧
      ∀ i, (h : i < ps.length) → ps[i] = (items.drop (20 * i)).take 20 := by
  have hf := follow_exists items hb _ none 0 rfl (by omega) rfl
  refine ⟨⟨_, hf⟩, fun ps h => ?_⟩
  have he := follow_unique h hf
  simp only [Nat.sub_zero, List.drop_zero] at he
  refine ⟨by rw [he, pagesFrom_flatten], by rw [he, pagesFrom_length], ?_⟩
  have key : ∀ (k : Nat) (l : List A), k = (l.length - 1) / 20 → ∀ i, (h : i < (pagesFrom k l).length) →
      (pagesFrom k l)[i] = (l.drop (20 * i)).take 20 := by
    intro k
    induction k with
    | zero =>
      intro l hk i hi
      simp [pagesFrom] at hi
      subst hi
      simp only [pagesFrom, List.getElem_cons_zero, Nat.mul_zero, List.drop_zero]
      rw [List.take_of_length_le (by omega)]
    | succ k ih =>
      intro l hk i hi
      cases i with
      | zero => simp [pagesFrom]
      | succ i =>
        simp only [pagesFrom, List.getElem_cons_succ]
        rw [ih (l.drop 20) (by simp; omega), List.drop_drop, show 20 + 20 * i = 20 * (i + 1) by omega]
  subst he
  intro i hi
  exact key _ items rfl i hi

example : Follow (List.range 45) none [List.range 20, (List.range 40).drop 20, (List.range 45).drop 40] := by
  refine .next (c' := "20".toList) ?_ (.next (c' := "40".toList) ?_ (.last ?_)) <;> decide +kernel

/-- C165: a cursor is refused exactly when it is no numeral or one beyond the end; otherwise the page begins there. Without parameters all
is listed. -/
theorem C165_cursor {A : Type} (items : List A) (hb : items.length < 2 ^ 64) (c : List Char) :
    (list items (some (some c)) = none ↔ ¬ ∃ n, Numeral c n ∧ n ≤ items.length) ∧
    (∀ n, Numeral c n → n ≤ items.length → ∃ next, list items (some (some c)) = some ((items.drop n).take 20, next) ∧
      (next = none ↔ items.length ≤ n + 20) ∧ ∀ c', next = some c' → Numeral c' (n + 20)) ∧
    list items none = some (items, none) := by
  have h2 : ∀ n, Numeral c n → n ≤ items.length → ∃ next, list items (some (some c)) = some ((items.drop n).take 20, next) ∧
      (next = none ↔ items.length ≤ n + 20) ∧ ∀ c', next = some c' → Numeral c' (n + 20) := by
    intro n hn hl
    have hp := (parse_iff c n).2 ⟨hn, by omega⟩
    have hc : parseCursor (some c) items.length = some n := by
      simp only [parseCursor, hp]
      rw [if_neg (by omega)]
    refine ⟨_, list_at items (some c) n hc hl, ?_, ?_⟩
    · split <;> simp <;> omega
    · intro c' h
      split at h
      · simp at h
        subst h
        exact ⟨_, .inl rfl, digits_ne _, decimal_digits _⟩
      · simp at h
  refine ⟨⟨?_, ?_⟩, h2, rfl⟩
  · rintro h ⟨n, hn, hl⟩
    obtain ⟨_, e, _⟩ := h2 n hn hl
    rw [h] at e
    cases e
  · intro h
    cases hp : parse c with
    | none => simp [list, parseCursor, hp]
    | some n =>
      have := (parse_iff c n).1 hp
      have hl : n > items.length := by
        apply Nat.lt_of_not_le
        exact fun hl => h ⟨n, this.1, hl⟩
      simp [list, parseCursor, hp, hl]

example : list [1, 2, 3] (some (some "+02".toList)) = some ([3], none) ∧ list [1, 2, 3] (some (some "4".toList)) = none ∧
    list [1, 2, 3] (some (some "".toList)) = none := by decide +kernel

/-- C166 (part): of a text without lines that close a block, a preview shows exactly its first characters, as many as are allowed, and
says so exactly when they are not all. What is missing: other texts (`C166_fence_refuted`). -/
theorem C166_preview_partial (language text : List Char) (m : Nat) (hl : '\n' ∉ language) :
    (shown (preview language text m) = lines (text.take m) ↔ ∀ x ∈ lines (text.take m), Closes x = false) ∧
    (text.length ≤ m → preview language text m = "```".toList ++ language ++ '\n' :: text ++ "\n```".toList) ∧
    (m < text.length → preview language text m = "```".toList ++ language ++ '\n' :: text.take m ++ "\n```".toList ++
      "\n\nPreview truncated. Full output is available in structuredContent.".toList) := by
  refine ⟨?_, ?_, ?_⟩
  · rw [shown_preview language text m hl]
    constructor
    · intro h x hx
      rw [← h] at hx
      have := List.all_takeWhile (p := fun x => !Closes x) (l := lines (text.take m))
      have := List.all_eq_true.1 this x hx
      simpa using this
    · intro h
      generalize lines (text.take m) = ls at h
      induction ls with
      | nil => rfl
      | cons x ls ih =>
        rw [List.takeWhile_cons, if_pos (by simp [h x List.mem_cons_self]), ih fun y hy => h y (List.mem_cons_of_mem _ hy)]
  · intro h
    have : ¬ text.length > m := by omega
    simp [preview, this]
  · intro h
    have : text.length > m := h
    simp [preview, this]

example : shown (preview "turtle".toList "<a> <b> <c> .\n# end".toList 100) = ["<a> <b> <c> .".toList, "# end".toList] := by decide +kernel

/-- C166, as a whole, fails: a text with a line of three backticks, as a comment of several lines in a literal may have, ends the block, and
what follows is read as Markdown. -/
theorem C166_fence_refuted : ¬ ∀ (language text : List Char) (m : Nat), '\n' ∉ language →
    shown (preview language text m) = lines (text.take m) := by
  intro h
  have := h "turtle".toList "<a> <b> '''\n```\n# title''' .".toList 1200 (by decide)
  exact absurd this (by decide +kernel)

end Mcp.Pages

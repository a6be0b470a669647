import Verif.Mcp.AskingLemmas

/-!
# Properties of the tool that executes queries (C169, C170)
-/

namespace Mcp.Asking

open Prefix (Str)

/-- C169: the kind that the tool takes a query to be is that of the first word of its text that is a keyword in letters of either case;
it is none exactly if no word is one. -/
theorem C169_kind (L : Lib) (q : Str) :
    (∀ k, queryType L q = some k ↔ FirstWord L q k) ∧ (queryType L q = none ↔ NoKeyword L q) := by
  refine ⟨fun k => ⟨fun h => ?_, firstWord_type L q k⟩, noKeyword_iff L q⟩
  have hn : ¬NoKeyword L q := by
    rw [← noKeyword_iff, h]
    simp
  obtain ⟨k', hk'⟩ := exists_first L q.length q (Nat.le_refl _) hn
  have := firstWord_type L q k' hk'
  rw [h] at this
  cases this
  exact hk'

/-- C169 (part): this is the kind of the query if no word before its keyword is one, and white space is around the keyword. What is
missing: comments, and what is written close to the keyword (`C169_select_refuted`, `C169_describe_refuted`). -/
theorem C169_kind_partial (L : Lib) (hL : Ascii L) (p w r : Str) (k : Kind) (hw : w.map Char.toUpper = k.name) (hp : NoKeyword L p)
    (hb : EndsBlank L p) (hr : BeginsBlank L r) : queryType L (p ++ w ++ r) = some k := by
  have hg := graphic_name w k hw
  refine firstWord_type L _ k ⟨p, w, r, rfl, ⟨?_, ws_graphic hL w hg, hb, hr⟩, ?_, hp⟩
  · rintro rfl
    cases k <;> cases hw
  · unfold Names
    rw [toUpper_ascii hL w hg, hw]

/-- The white space and the upper case of ASCII. -/
def asciiLib : Lib := ⟨fun c => c = ' ' || c = '\n' || c = '\t' || c = '\r', fun c => [c.toUpper]⟩

theorem asciiLib_ascii : Ascii asciiLib where
  upper _ _ := rfl
  graphic c h _ := by
    have h1 : c ≠ ' ' := by rintro rfl; exact absurd h (by decide)
    have h2 : c ≠ '\n' := by rintro rfl; exact absurd h (by decide)
    have h3 : c ≠ '\t' := by rintro rfl; exact absurd h (by decide)
    have h4 : c ≠ '\r' := by rintro rfl; exact absurd h (by decide)
    simp [asciiLib, h1, h2, h3, h4]
  blank := rfl
  newline := rfl

example : queryType asciiLib "PREFIX a: <b>\nselect * { }".toList = some .select := by decide

example : "select".toList.map Char.toUpper = Kind.select.name ∧ NoKeyword asciiLib "PREFIX a: <b>\n".toList ∧
    EndsBlank asciiLib "PREFIX a: <b>\n".toList ∧ BeginsBlank asciiLib " * { }".toList := by
  refine ⟨by decide, (noKeyword_iff _ _).1 (by decide), ?_, ?_⟩
  · intro c hc
    have : c = '\n' := by
      have h : "PREFIX a: <b>\n".toList.getLast? = some '\n' := by decide
      rw [h] at hc
      cases hc
      rfl
    rw [this]; rfl
  · intro c hc
    have h : " * { }".toList.head? = some ' ' := by decide
    rw [h] at hc
    cases hc
    rfl

/-- C169, as a whole, fails: a query of the kind `SELECT` is refused, whatever the data, since a word of a comment is a keyword. -/
theorem C169_select_refuted (L : Lib) (hL : Ascii L) : ∃ q, Query q .select ∧
    ∀ (σ : Type) (E : Engine σ) (sample : Str → Option Str) (st : σ), execute L E sample ⟨some q, none, none⟩ st = (st, .toolError) := by
  refine ⟨"# describe\nSELECT * {}".toList, ?_, ?_⟩
  · refine ⟨"# describe\n".toList, "SELECT".toList, " * {}".toList, by decide, ?_, by decide, ?_⟩
    · exact Prologue.comment " describe".toList (by decide) .nil
    · intro c hc
      have h : " * {}".toList.head? = some ' ' := by decide
      rw [h] at hc
      cases hc
      decide
  · have hk : queryType L "# describe\nSELECT * {}".toList = some .describe := by
      refine C169_kind_partial L hL "# ".toList "describe".toList "\nSELECT * {}".toList .describe (by decide) ?_ ?_ ?_
      · rw [← noKeyword_iff]
        have h1 : "# ".toList = ['#'] ++ [' '] := by decide
        unfold queryType
        rw [h1, splitFrom_word L _ (ws_graphic hL _ (by decide))]
        simp only [splitFrom, hL.blank, if_true, flush]
        simp only [List.nil_append, reduceCtorEq, if_false, List.append_nil, firstKeyword]
        rw [toUpper_ascii hL _ (by decide)]
        have : keyword (['#'].map Char.toUpper) = none := by decide
        rw [this]
      · intro c hc
        have h : "# ".toList.getLast? = some ' ' := by decide
        rw [h] at hc
        cases hc
        exact hL.blank
      · intro c hc
        have h : "\nSELECT * {}".toList.head? = some '\n' := by decide
        rw [h] at hc
        cases hc
        exact hL.newline
    intro σ E sample st
    simp only [execute, formatted, guarded]
    rw [if_pos hk]

/-- C169, as a whole, fails: a query of the kind `DESCRIBE` is not refused, since what it describes is written close to the keyword. -/
theorem C169_describe_refuted (L : Lib) (hL : Ascii L) : ∃ q, Query q .describe ∧
    ∀ (σ : Type) (E : Engine σ) (sample : Str → Option Str) (st : σ),
      execute L E sample ⟨some q, none, none⟩ st = perform E q none st := by
  refine ⟨"DESCRIBE<a>".toList, ?_, ?_⟩
  · refine ⟨[], "DESCRIBE".toList, "<a>".toList, by decide, .nil, by decide, ?_⟩
    intro c hc
    have h : "<a>".toList.head? = some '<' := by decide
    rw [h] at hc
    cases hc
    decide
  · have hk : queryType L "DESCRIBE<a>".toList = none := by
      have h1 : "DESCRIBE<a>".toList = "DESCRIBE<a>".toList ++ [] := by simp
      unfold queryType
      rw [h1, splitFrom_word L _ (ws_graphic hL _ (by decide)), List.nil_append]
      have hne : "DESCRIBE<a>".toList ≠ [] := by decide
      simp only [splitFrom, flush]
      rw [if_neg hne]
      simp only [firstKeyword]
      rw [toUpper_ascii hL _ (by decide)]
      have : keyword ("DESCRIBE<a>".toList.map Char.toUpper) = none := by decide
      rw [this]
    intro σ E sample st
    simp only [execute, formatted, guarded, hk]
    simp

/-- C169: a name of a format is read as that format, in letters of either case, and nothing else is. -/
theorem C169_format (s : Str) (f : Format) :
    parseFormat s = some f ↔ ∃ a ∈ f.aliases, a.toList.map Char.toLower = s.map Char.toLower := by
  unfold parseFormat
  constructor
  · intro h
    rw [Option.map_eq_some_iff] at h
    obtain ⟨⟨as, g⟩, h, rfl⟩ := h
    have h1 := List.find?_some h
    have h2 := List.mem_of_find?_eq_some h
    simp only [List.any_eq_true, decide_eq_true_eq] at h1
    obtain ⟨a, ha, he⟩ := h1
    refine ⟨a, ?_, he⟩
    simp only [formats, List.mem_cons, Prod.mk.injEq, List.not_mem_nil, or_false] at h2
    rcases h2 with ⟨rfl, rfl⟩ | ⟨rfl, rfl⟩ | ⟨rfl, rfl⟩ | ⟨rfl, rfl⟩ | ⟨rfl, rfl⟩ | ⟨rfl, rfl⟩ | ⟨rfl, rfl⟩ | ⟨rfl, rfl⟩ | ⟨rfl, rfl⟩ |
      ⟨rfl, rfl⟩ | ⟨rfl, rfl⟩ <;> exact ha
  · rintro ⟨a, ha, he⟩
    rw [← he]
    revert a
    cases f <;> simp only [Format.aliases, List.mem_cons, List.not_mem_nil, or_false] <;> rintro a ha - <;>
      (first | (rcases ha with rfl | rfl <;> decide) | (subst ha; decide))

example : parseFormat "RDF-XML".toList = some .rdfXml ∧ parseFormat "ttl".toList = none := by decide

/-- C169: a client gets an answer exactly if the request has one source, names a format or none, its kind and format are permitted, and
the three calls succeed. The answer has the query that was run, what was written, the format and the number of bytes. -/
theorem C169_answer {σ : Type} (L : Lib) (E : Engine σ) (sample : Str → Option Str) (r : Request) (st st' : σ) (q out fmt : Str) (n : Nat) :
    execute L E sample r st = (st', .answer q out fmt n) ↔
      Source L sample r q ∧ ∃ f, Asked r f ∧ Permitted (queryType L q) f ∧ Runs E q f st st' out ∧
        fmt = (match f with | none => "internal".toList | some g => (g.aliases.headD "").toList) ∧ n = (String.ofList out).utf8ByteSize := by
  have hperf : ∀ q' f, perform E q' f st = (st', .answer q out fmt n) ↔
      q' = q ∧ Runs E q f st st' out ∧ fmt = (match f with | none => "internal".toList | some g => (g.aliases.headD "").toList) ∧
        n = (String.ofList out).utf8ByteSize := by
    intro q' f
    have hf : (f.getD .internal).name = (match f with | none => "internal".toList | some g => (g.aliases.headD "").toList) := by
      cases f with
      | none => rfl
      | some g => cases g <;> rfl
    unfold perform
    constructor
    · intro h
      split at h
      · cases h
      · rename_i s hl
        split at h
        · cases h
        · rename_i s' hr
          split at h
          · cases h
          · rename_i o hw
            cases h
            exact ⟨rfl, ⟨s, hl, hr, hw⟩, hf, rfl⟩
    · rintro ⟨rfl, ⟨s, h1, h2, h3⟩, h4, rfl⟩
      simp only [h1, h2, h3, hf, h4]
  have hguard : ∀ q' f, guarded L E q' f st = (st', .answer q out fmt n) ↔
      q' = q ∧ Permitted (queryType L q) f ∧ Runs E q f st st' out ∧
        fmt = (match f with | none => "internal".toList | some g => (g.aliases.headD "").toList) ∧ n = (String.ofList out).utf8ByteSize := by
    intro q' f
    unfold guarded
    constructor
    · intro h
      split at h
      · cases h
      · rename_i hd
        split at h
        · cases h
        · rename_i hs
          obtain ⟨rfl, h⟩ := (hperf q' f).1 h
          refine ⟨rfl, ⟨hd, fun hk => ?_⟩, h⟩
          cases f with
          | none => exact .inl rfl
          | some g => exact .inr (Classical.byContradiction fun hg => hs ⟨hk, rfl, hg⟩)
    · rintro ⟨rfl, ⟨hd, hs⟩, h⟩
      rw [if_neg hd, if_neg]
      · exact (hperf q' f).2 ⟨rfl, h⟩
      · rintro ⟨hk, h1, h2⟩
        rcases hs hk with rfl | rfl
        · cases h1
        · exact h2 rfl
  have hform : ∀ q', formatted L E q' r.format st = (st', .answer q out fmt n) ↔
      q' = q ∧ ∃ f, Asked r f ∧ Permitted (queryType L q) f ∧ Runs E q f st st' out ∧
        fmt = (match f with | none => "internal".toList | some g => (g.aliases.headD "").toList) ∧ n = (String.ofList out).utf8ByteSize := by
    intro q'
    unfold formatted
    constructor
    · intro h
      split at h
      · rename_i hf
        obtain ⟨rfl, h⟩ := (hguard q' none).1 h
        exact ⟨rfl, none, .inl ⟨hf, rfl⟩, h⟩
      · rename_i s hf
        split at h
        · cases h
        · rename_i g hg
          obtain ⟨rfl, h⟩ := (hguard q' (some g)).1 h
          exact ⟨rfl, some g, .inr ⟨s, g, hf, hg, rfl⟩, h⟩
    · rintro ⟨rfl, f, ⟨hf, rfl⟩ | ⟨s, g, hf, hg, rfl⟩, h⟩
      · simp only [hf]
        exact (hguard q' none).2 ⟨rfl, h⟩
      · simp only [hf, hg]
        exact (hguard q' (some g)).2 ⟨rfl, h⟩
  unfold execute
  constructor
  · intro h
    split at h
    · rename_i q' h1 h2
      obtain ⟨rfl, h⟩ := (hform q').1 h
      exact ⟨.query h1 h2, h⟩
    · rename_i m h1 h2
      split at h
      · cases h
      · rename_i s hs
        obtain ⟨rfl, h⟩ := (hform _).1 h
        exact ⟨.natural h1 h2 hs, h⟩
    · cases h
    · cases h
  · rintro ⟨hs, h⟩
    cases hs with
    | query h1 h2 =>
      simp only [h1, h2]
      exact (hform q).2 ⟨rfl, h⟩
    | natural h1 h2 h3 =>
      simp only [h1, h2, h3]
      exact (hform _).2 ⟨rfl, h⟩

/-- C169: what the tool refuses changes nothing, and nothing else is refused. -/
theorem C169_refused {σ : Type} (L : Lib) (E : Engine σ) (sample : Str → Option Str) (r : Request) (st : σ) :
    ((execute L E sample r st).2 = .toolError → (execute L E sample r st).1 = st) ∧
    ((execute L E sample r st).2 = .toolError ↔
      (r.query.isSome = r.natural.isSome ∨ ∃ q, Source L sample r q ∧ ∀ f, Asked r f → ¬Permitted (queryType L q) f)) := by
  have hperf : ∀ q f, (perform E q f st).2 ≠ .toolError := by
    intro q f
    unfold perform
    repeat' split
    all_goals simp
  have hguard : ∀ q f, (Permitted (queryType L q) f → guarded L E q f st = perform E q f st) ∧
      (¬Permitted (queryType L q) f → guarded L E q f st = (st, .toolError)) := by
    intro q f
    unfold guarded
    constructor
    · rintro ⟨hd, hs⟩
      rw [if_neg hd, if_neg]
      rintro ⟨hk, h1, h2⟩
      rcases hs hk with rfl | rfl
      · cases h1
      · exact h2 rfl
    · intro hp
      split
      · rfl
      · rename_i hd
        rw [if_pos]
        refine Classical.byContradiction fun hs => hp ⟨hd, fun hk => ?_⟩
        cases f with
        | none => exact .inl rfl
        | some g => exact .inr (Classical.byContradiction fun hg => hs ⟨hk, rfl, hg⟩)
  have hform : ∀ q, ((formatted L E q r.format st).2 = .toolError → (formatted L E q r.format st).1 = st) ∧
      ((formatted L E q r.format st).2 = .toolError ↔ ∀ f, Asked r f → ¬Permitted (queryType L q) f) := by
    intro q
    have hone : ∀ f, Asked r f → formatted L E q r.format st = guarded L E q f st := by
      rintro f (⟨hf, rfl⟩ | ⟨s, g, hf, hg, rfl⟩)
      · simp only [formatted, hf]
      · simp only [formatted, hf, hg]
    have huniq : ∀ f g, Asked r f → Asked r g → f = g := by
      rintro f g (⟨h1, rfl⟩ | ⟨s, x, h1, h2, rfl⟩) (⟨h3, rfl⟩ | ⟨t, y, h3, h4, rfl⟩)
      · rfl
      · rw [h1] at h3; cases h3
      · rw [h1] at h3; cases h3
      · rw [h1] at h3; cases h3; rw [h2] at h4; exact h4
    by_cases ha : ∃ f, Asked r f
    · obtain ⟨f, ha⟩ := ha
      rw [hone f ha]
      by_cases hp : Permitted (queryType L q) f
      · rw [(hguard q f).1 hp]
        exact ⟨fun h => absurd h (hperf q f), fun h => absurd h (hperf q f), fun h => absurd hp (h f ha)⟩
      · rw [(hguard q f).2 hp]
        exact ⟨fun _ => rfl, fun _ g hg => by rw [huniq g f hg ha]; exact hp, fun _ => rfl⟩
    · have : formatted L E q r.format st = (st, .toolError) := by
        unfold formatted
        split
        · rename_i hf
          exact absurd ⟨none, .inl ⟨hf, rfl⟩⟩ ha
        · rename_i s hf
          split
          · rfl
          · rename_i g hg
            exact absurd ⟨some g, .inr ⟨s, g, hf, hg, rfl⟩⟩ ha
      rw [this]
      exact ⟨fun _ => rfl, fun _ f hf => absurd ⟨f, hf⟩ ha, fun _ => rfl⟩
  obtain ⟨qq, nn, ff⟩ := r
  cases qq with
  | none =>
    cases nn with
    | none => simp [execute]
    | some m =>
      cases hs : sample m with
      | none =>
        simp only [execute, hs]
        refine ⟨fun h => (nomatch h), fun h => (nomatch h), ?_⟩
        rintro (h | ⟨q, h, -⟩)
        · cases h
        · cases h with
          | query h => cases h
          | natural h1 h2 h3 => cases h2; rw [hs] at h3; cases h3
      | some s =>
        have hex : execute L E sample ⟨none, some m, ff⟩ st = formatted L E (clean L s) ff st := by simp only [execute, hs]
        rw [hex]
        refine ⟨(hform _).1, fun h => .inr ⟨_, .natural rfl rfl hs, (hform _).2.1 h⟩, ?_⟩
        rintro (h | ⟨q, h, hq⟩)
        · cases h
        · cases h with
          | query h => cases h
          | natural h1 h2 h3 => cases h2; rw [hs] at h3; cases h3; exact (hform _).2.2 hq
  | some q =>
    cases nn with
    | some m => simp [execute]
    | none =>
      have hex : execute L E sample ⟨some q, none, ff⟩ st = formatted L E q ff st := rfl
      rw [hex]
      refine ⟨(hform _).1, fun h => .inr ⟨_, .query rfl rfl, (hform _).2.1 h⟩, ?_⟩
      rintro (h | ⟨q', h, hq⟩)
      · cases h
      · cases h with
        | query h1 h2 => cases h1; exact (hform _).2.2 hq
        | natural h => cases h

/-- Counts the queries that it was given, and writes each with its number. -/
def counting : Engine (Nat × Str) where
  load q s := ((s.1 + 1, q), true)
  run s := (s, s.2 ≠ [])
  write _ s := some s.2

example : execute asciiLib counting (fun _ => some "```\nASK { }\n```".toList) ⟨none, some "is there any".toList, some "TURTLE".toList⟩ (0, []) =
    ((1, "ASK { }".toList), .answer "ASK { }".toList "ASK { }".toList "turtle".toList 7) := by rfl

example : (execute asciiLib counting (fun _ => none) ⟨some "SELECT * { }".toList, none, some "csv".toList⟩ (0, [])).2 = .toolError := by rfl

/-- C170 (part): of an answer of the language model that begins with a fence, the query is the lines up to the next fence, without white
space around. What is missing: other text before the fence (`C170_refuted`), `\r` at the end of lines. -/
theorem C170_fenced_partial (L : Lib) (info : Str) (body : List Str) (rest : Str) (hi : '\n' ∉ info) (hb : ∀ l ∈ body, '\n' ∉ l)
    (hf : ∀ l ∈ body, ¬"```".toList <+: l) :
    clean L ("```".toList ++ info ++ '\n' :: unlines body ++ "```".toList ++ rest) = Prefix.trim L.ws (['\n'].intercalate body) := by
  rw [← join_eq]
  exact clean_fenced L info body rest hi hb hf

/-- C170: an answer without a fence at its begin is the query, without white space around. -/
theorem C170_plain (L : Lib) (s : Str) (h : ¬"```".toList <+: s) : clean L s = Prefix.trim L.ws s := by
  unfold clean
  rw [if_neg]
  intro hp
  exact h (List.isPrefixOf_iff_prefix.1 hp)

example : clean asciiLib "```sparql\nSELECT *\n{ }\n```\nThis finds all.".toList = "SELECT *\n{ }".toList := by decide

example : '\n' ∉ "sparql".toList ∧ (∀ l ∈ ["SELECT *".toList, "{ }".toList], '\n' ∉ l) ∧
    ∀ l ∈ ["SELECT *".toList, "{ }".toList], ¬"```".toList <+: l := by decide

/-- C170, as a whole, fails: with the end of a line before the fence, the fences stay in the query. -/
theorem C170_refuted (L : Lib) (hL : Ascii L) :
    clean L ("\n```\nASK {}\n```".toList) = "```\nASK {}\n```".toList := by
  rw [C170_plain L _ (by decide)]
  have h1 : "\n```\nASK {}\n```".toList = ['\n', '`', '`', '`', '\n', 'A', 'S', 'K', ' ', '{', '}', '\n', '`', '`', '`'] := by decide
  have hb : L.ws '`' = false := hL.graphic _ (by decide) (by decide)
  rw [h1]
  simp [Prefix.trim, List.dropWhile, hL.newline, hb]

end Mcp.Asking

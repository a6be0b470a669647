import Verif.Regex.Model
import Mathlib.Data.List.Forall2

/-!
# C148: patterns with flags match as in XPath
-/

namespace Regex

/-! ## Specification -/

/-- Characters that do not stand for themselves in regular expressions of XPath. -/
def xOperators : Str := ".\\?*+{}()[]|^$".toList

/-- Characters that can be escaped in regular expressions of XPath; `\n`, `\r` and `\t` are left out. -/
def xEscapable : Str := "\\|.?*+(){}-[]^$".toList

/-- White space that `x` removes from a regular expression in XPath. -/
def xmlSpace : Str := ['\t', '\n', '\r', ' ']

/-- A text of the grammar of XPath for a sequence of characters, dots and anchors. -/
inductive Writes : List Item → Str → Prop
  | nil : Writes [] []
  | plain {c : Char} {is : List Item} {p : Str} : c ∉ xOperators → Writes is p → Writes (.chr c :: is) (c :: p)
  | escaped {c : Char} {is : List Item} {p : Str} : c ∈ xEscapable → Writes is p → Writes (.chr c :: is) ('\\' :: c :: p)
  | any {is : List Item} {p : Str} : Writes is p → Writes (.any :: is) ('.' :: p)
  | bol {is : List Item} {p : Str} : Writes is p → Writes (.bol :: is) ('^' :: p)
  | eol {is : List Item} {p : Str} : Writes is p → Writes (.eol :: is) ('$' :: p)

/-- With `x`, white space is removed first. -/
def Means (x : Prop) (p : Str) (is : List Item) : Prop :=
  (¬ x → Writes is p) ∧ (x → Writes is (p.filter fun c => decide (c ∉ xmlSpace)))

/-- What a sequence matches after `before`, in XPath with the flags `s`, `m` and `i`. -/
inductive XSeq (same : Char → Char → Prop) (s m i : Prop) : List Item → Str → Str → Prop
  | nil {before rest : Str} : XSeq same s m i [] before rest
  | chr {c d : Char} {is : List Item} {before rest : Str} : c = d ∨ (i ∧ same c d) → XSeq same s m i is (before ++ [d]) rest →
      XSeq same s m i (.chr c :: is) before (d :: rest)
  | any {d : Char} {is : List Item} {before rest : Str} : s ∨ (d ≠ '\n' ∧ d ≠ '\r') → XSeq same s m i is (before ++ [d]) rest →
      XSeq same s m i (.any :: is) before (d :: rest)
  | bol {is : List Item} {before rest : Str} : before = [] ∨ (m ∧ (∃ b, before = b ++ ['\n']) ∧ rest ≠ []) →
      XSeq same s m i is before rest → XSeq same s m i (.bol :: is) before rest
  | eol {is : List Item} {before rest : Str} : rest = [] ∨ (m ∧ ∃ r, rest = '\n' :: r) →
      XSeq same s m i is before rest → XSeq same s m i (.eol :: is) before rest

/-- A text has a part that is matched. -/
def XMatches (same : Char → Char → Prop) (s m i : Prop) (is : List Item) (text : Str) : Prop :=
  ∃ before rest, text = before ++ rest ∧ XSeq same s m i is before rest

/-- The known flags. -/
def known : Str := ['s', 'm', 'i', 'x', 'q']

/-! ## Lemmas -/

variable {E : Engine}

theorem parse_writes {is : List Item} {p : Str} (h : Writes is p) : parse false false p = some is := by
  have hop : ∀ c ∈ xEscapable, c ∈ metaChars := by decide
  have hno : ∀ c : Char, c ∉ xOperators → c ≠ '\\' ∧ c ≠ '.' ∧ c ≠ '^' ∧ c ≠ '$' ∧ c ∉ operators := by
    intro c hc
    have h1 : ∀ d ∈ operators, d ∈ xOperators := by decide
    refine ⟨?_, ?_, ?_, ?_, fun h => hc (h1 c h)⟩ <;> (rintro rfl; exact hc (by decide))
  induction h with
  | nil => rfl
  | @plain c is p hc _ ih =>
    obtain ⟨h1, h2, h3, h4, h5⟩ := hno c hc
    rw [parse.eq_4 _ _ _ (by rintro _ _ rfl; exact absurd rfl h1)]
    simp [h2, h3, h4, h5, ih]
  | @escaped c is p hc _ ih =>
    rw [parse.eq_3, if_pos (Or.inl (hop c hc)), ih]
    rfl
  | any _ ih => rw [parse.eq_4 _ _ _ (by intro _ _ h; exact absurd h (by decide))]; simp [ih]
  | bol _ ih => rw [parse.eq_4 _ _ _ (by intro _ _ h; exact absurd h (by decide))]; simp [ih]
  | eol _ ih => rw [parse.eq_4 _ _ _ (by intro _ _ h; exact absurd h (by decide))]; simp [ih]

theorem parse_space {p : Str} (h1 : '#' ∉ p) (h2 : ∀ c ∈ p, c ∈ patSpace → c ∈ xmlSpace)
    (h3 : ∀ a b c, p = a ++ '\\' :: c :: b → c ∉ xmlSpace) :
    parse true false p = parse false false (p.filter fun c => decide (c ∉ xmlSpace)) := by
  have hsp : ∀ c ∈ xmlSpace, c ∈ patSpace := by decide
  induction hn : p.length using Nat.strongRecOn generalizing p with
  | ind n ih =>
    have tail : ∀ a q : Str, p = a ++ q → a ≠ [] →
        parse true false q = parse false false (q.filter fun c => decide (c ∉ xmlSpace)) := by
      intro a q e ha
      have hl : q.length < n := by
        have := congrArg List.length e
        rw [List.length_append, hn] at this
        have := List.length_pos_iff.2 ha
        omega
      refine ih q.length hl (fun h => h1 (e ▸ List.mem_append_right _ h)) (fun c hc => h2 c (e ▸ List.mem_append_right _ hc)) ?_ rfl
      intro a' b c e'
      refine h3 (a ++ a') b c ?_
      rw [e, e', List.append_assoc]
    match p, h1, h2, h3, hn, tail with
    | [], _, _, _, _, _ => rfl
    | [c], h1, h2, _, _, _ =>
      by_cases hs : c ∈ xmlSpace
      · rw [parse.eq_4 _ _ _ (by intro _ _ _ h; cases h), if_pos ⟨rfl, hsp c hs⟩]
        simp [hs, parse]
      · have hp : c ∉ patSpace := fun h => hs (h2 c List.mem_cons_self h)
        have hh : c ≠ '#' := fun e => h1 (e ▸ List.mem_cons_self)
        rw [List.filter_cons_of_pos (by simpa using hs), List.filter_nil]
        rw [parse.eq_4 _ _ _ (by intro _ _ _ h; cases h), parse.eq_4 _ _ _ (by intro _ _ _ h; cases h)]
        simp [hp, hh, parse]
    | c :: d :: r, h1, h2, h3, hn, tail =>
      by_cases hs : c ∈ xmlSpace
      · have hb : c ≠ '\\' := by rintro rfl; revert hs; decide
        rw [parse.eq_4 _ _ _ (by intro _ _ h; exact absurd h hb), if_pos ⟨rfl, hsp c hs⟩, List.filter_cons_of_neg (by simpa using hs)]
        exact tail [c] _ rfl (by simp)
      · have hp : c ∉ patSpace := fun h => hs (h2 c List.mem_cons_self h)
        have hh : c ≠ '#' := fun e => h1 (e ▸ List.mem_cons_self)
        rw [List.filter_cons_of_pos (by simpa using hs)]
        by_cases hb : c = '\\'
        · subst hb
          have hd : d ∉ xmlSpace := h3 [] r d rfl
          have hdp : d ∉ patSpace := fun h => hd (h2 d (by simp) h)
          rw [List.filter_cons_of_pos (by simpa using hd), parse.eq_3, parse.eq_3, tail ['\\', d] _ rfl (by simp)]
          simp [hdp]
        · rw [parse.eq_4 true c _ (by intro _ _ h; exact absurd h hb), parse.eq_4 false c _ (by intro _ _ h; exact absurd h hb),
            tail [c] _ rfl (by simp)]
          simp [hp, hh]

theorem setFlags_ok {fs : Str} (h : ∀ c ∈ fs, c ∈ known) (f : RFlags) :
    setFlags fs f = .ok ⟨f.s || decide ('s' ∈ fs), f.m || decide ('m' ∈ fs), f.i || decide ('i' ∈ fs), f.x || decide ('x' ∈ fs)⟩ := by
  induction fs generalizing f with
  | nil => simp [setFlags]
  | cons c cs ih =>
    have hc := h c List.mem_cons_self
    have ih := ih fun d hd => h d (List.mem_cons_of_mem _ hd)
    simp only [known, List.mem_cons, List.not_mem_nil, or_false] at hc
    rcases hc with rfl | rfl | rfl | rfl | rfl <;> simp [setFlags, ih]

theorem setFlags_error {fs : Str} {c : Char} {f : RFlags} :
    setFlags fs f = .error c ↔ ∃ a b, fs = a ++ c :: b ∧ (∀ d ∈ a, d ∈ known) ∧ c ∉ known := by
  induction fs generalizing f with
  | nil => simp [setFlags]
  | cons d ds ih =>
    by_cases hd : d ∈ known
    · have e : ∃ f', setFlags (d :: ds) f = setFlags ds f' := by
        simp only [known, List.mem_cons, List.not_mem_nil, or_false] at hd
        rcases hd with rfl | rfl | rfl | rfl | rfl <;> exact ⟨_, rfl⟩
      obtain ⟨f', e⟩ := e
      rw [e, ih]
      constructor
      · rintro ⟨a, b, rfl, h1, h2⟩
        exact ⟨d :: a, b, rfl, by simpa [hd] using h1, h2⟩
      · rintro ⟨a, b, e, h1, h2⟩
        cases a with
        | nil => cases e; exact absurd hd h2
        | cons a0 a => cases e; exact ⟨a, b, rfl, fun x hx => h1 x (List.mem_cons_of_mem _ hx), h2⟩
    · have e : setFlags (d :: ds) f = .error d := by
        simp only [known, List.mem_cons, List.not_mem_nil, or_false, not_or] at hd
        simp [setFlags, hd]
      rw [e]
      constructor
      · intro h
        cases h
        exact ⟨[], ds, rfl, by simp, hd⟩
      · rintro ⟨a, b, e, h1, h2⟩
        cases a with
        | nil => cases e; rfl
        | cons a0 a => cases e; exact absurd (h1 _ List.mem_cons_self) hd

theorem matchHere_iff (hsame : ∀ c, E.same c c = true) {f : RFlags} (is : List Item) : ∀ (before rest : Str),
    (f.s = false → '\r' ∉ rest) → (f.m = true → (before ++ rest).getLast? ≠ some '\n') →
    (matchHere E f is before.getLast? rest = true ↔
      XSeq (fun c d => E.same c d = true) (f.s = true) (f.m = true) (f.i = true) is before rest) := by
  induction is with
  | nil => intro before rest _ _; exact iff_of_true (by simp [matchHere]) .nil
  | cons it is ih =>
    intro before rest hr hl
    have step : ∀ d r, rest = d :: r → (matchHere E f is (some d) r = true ↔
        XSeq (fun c d => E.same c d = true) (f.s = true) (f.m = true) (f.i = true) is (before ++ [d]) r) := by
      intro d r e
      subst e
      have := ih (before ++ [d]) r (fun h => fun h' => hr h (List.mem_cons_of_mem _ h')) (fun h => by simpa using hl h)
      rwa [List.getLast?_append, List.getLast?_singleton, Option.some_or] at this
    cases it with
    | chr c =>
      cases rest with
      | nil => exact iff_of_false (by simp [matchHere]) (fun h => by cases h)
      | cons d r =>
        rw [matchHere, Bool.and_eq_true, step d r rfl]
        constructor
        · rintro ⟨h1, h2⟩
          refine .chr ?_ h2
          split at h1
          · rename_i hi; exact Or.inr ⟨hi, h1⟩
          · exact Or.inl (by simpa using h1)
        · intro h
          cases h with
          | chr h1 h2 =>
            refine ⟨?_, h2⟩
            split
            · rcases h1 with rfl | ⟨_, h1⟩
              · exact hsame c
              · exact h1
            · rename_i hi
              rcases h1 with rfl | ⟨h1, _⟩
              · simp
              · exact absurd h1 hi
    | any =>
      cases rest with
      | nil => exact iff_of_false (by simp [matchHere]) (fun h => by cases h)
      | cons d r =>
        rw [matchHere, Bool.and_eq_true, step d r rfl]
        constructor
        · rintro ⟨h1, h2⟩
          refine .any ?_ h2
          cases hs : f.s with
          | true => exact Or.inl rfl
          | false =>
            rw [hs] at h1
            exact Or.inr ⟨by simpa using h1, fun e => hr hs (e ▸ List.mem_cons_self)⟩
        · intro h
          cases h with
          | any h1 h2 =>
            refine ⟨?_, h2⟩
            rcases h1 with h1 | ⟨h1, _⟩ <;> simp [h1]
    | bol =>
      have e : matchHere E f (.bol :: is) before.getLast? rest =
          ((decide (before.getLast? = none) || (f.m && decide (before.getLast? = some '\n'))) && matchHere E f is before.getLast? rest) := by
        cases rest <;> rfl
      rw [e, Bool.and_eq_true, ih before rest hr hl]
      constructor
      · rintro ⟨h1, h2⟩
        refine .bol ?_ h2
        simp only [Bool.or_eq_true, Bool.and_eq_true, decide_eq_true_eq, List.getLast?_eq_none_iff] at h1
        rcases h1 with h1 | ⟨hm, h1⟩
        · exact Or.inl h1
        · refine Or.inr ⟨hm, ?_, ?_⟩
          · obtain ⟨b, hb⟩ := List.getLast?_eq_some_iff.1 h1
            exact ⟨b, hb⟩
          · rintro rfl
            exact hl hm (by rw [List.append_nil]; exact h1)
      · intro h
        cases h with
        | bol h1 h2 =>
          refine ⟨?_, h2⟩
          rcases h1 with rfl | ⟨hm, ⟨b, rfl⟩, _⟩
          · simp
          · simp [hm]
    | eol =>
      have e : matchHere E f (.eol :: is) before.getLast? rest =
          ((decide (rest = []) || (f.m && decide (rest.head? = some '\n'))) && matchHere E f is before.getLast? rest) := by
        cases rest <;> rfl
      rw [e, Bool.and_eq_true, ih before rest hr hl]
      constructor
      · rintro ⟨h1, h2⟩
        refine .eol ?_ h2
        simp only [Bool.or_eq_true, Bool.and_eq_true, decide_eq_true_eq] at h1
        rcases h1 with h1 | ⟨hm, h1⟩
        · exact Or.inl h1
        · cases rest with
          | nil => exact Or.inl rfl
          | cons d r => exact Or.inr ⟨hm, r, by simp at h1; rw [h1]⟩
      · intro h
        cases h with
        | eol h1 h2 =>
          refine ⟨?_, h2⟩
          rcases h1 with rfl | ⟨hm, r, rfl⟩
          · simp
          · simp [hm]

theorem searchFrom_iff {f : RFlags} (is : List Item) : ∀ (rest before : Str),
    searchFrom E f is before.getLast? rest = true ↔
      ∃ a b, rest = a ++ b ∧ matchHere E f is (before ++ a).getLast? b = true := by
  intro rest
  induction rest with
  | nil =>
    intro before
    rw [searchFrom]
    constructor
    · intro h; exact ⟨[], [], rfl, by simpa using h⟩
    · rintro ⟨a, b, e, h⟩
      obtain ⟨rfl, rfl⟩ := List.append_eq_nil_iff.1 e.symm
      simpa using h
  | cons d r ih =>
    intro before
    have := ih (before ++ [d])
    rw [List.getLast?_append, List.getLast?_singleton, Option.some_or] at this
    rw [searchFrom, Bool.or_eq_true, this]
    constructor
    · rintro (h | ⟨a, b, rfl, h⟩)
      · exact ⟨[], d :: r, rfl, by simpa using h⟩
      · exact ⟨d :: a, b, rfl, by simpa using h⟩
    · rintro ⟨a, b, e, h⟩
      cases a with
      | nil => left; rw [List.nil_append] at e; rw [e]; simpa using h
      | cons a0 a =>
        cases e
        right
        exact ⟨a, b, rfl, by simpa using h⟩

theorem search_iff (hsame : ∀ c, E.same c c = true) {f : RFlags} {is : List Item} {text : Str}
    (hr : f.s = false → '\r' ∉ text) (hl : f.m = true → text.getLast? ≠ some '\n') :
    searchFrom E f is none text = true ↔
      XMatches (fun c d => E.same c d = true) (f.s = true) (f.m = true) (f.i = true) is text := by
  have := searchFrom_iff (E := E) (f := f) is text []
  rw [List.getLast?_nil] at this
  rw [this]
  constructor
  · rintro ⟨a, b, rfl, h⟩
    refine ⟨a, b, rfl, (matchHere_iff hsame is a b (fun h h' => hr h (List.mem_append_right _ h')) hl).1 h⟩
  · rintro ⟨a, b, rfl, h⟩
    exact ⟨a, b, rfl, (matchHere_iff hsame is a b (fun h h' => hr h (List.mem_append_right _ h')) hl).2 h⟩

theorem parse_escape (p : Str) : parse false false (escape p) = some (p.map .chr) := by
  induction p with
  | nil => rfl
  | cons c p ih =>
    rw [escape, List.flatMap_cons]
    by_cases hc : c ∈ metaChars
    · rw [if_pos hc]
      show parse false false ('\\' :: c :: escape p) = _
      rw [parse.eq_3, if_pos (Or.inl hc), ih]
      rfl
    · rw [if_neg hc]
      show parse false false (c :: escape p) = _
      have h1 : ∀ d ∈ operators, d ∈ metaChars := by decide
      have h2 : c ∉ operators := fun h => hc (h1 c h)
      have h3 : c ≠ '\\' ∧ c ≠ '.' ∧ c ≠ '^' ∧ c ≠ '$' := by
        refine ⟨?_, ?_, ?_, ?_⟩ <;> (rintro rfl; exact hc (by decide))
      rw [parse.eq_4 _ _ _ (by intro _ _ h; exact absurd h h3.1)]
      simp [h2, h3, ih]

theorem xseq_chars {same : Char → Char → Prop} {s m i : Prop} {p before rest : Str} :
    XSeq same s m i (p.map .chr) before rest ↔
      ∃ a b, rest = a ++ b ∧ List.Forall₂ (fun c d => c = d ∨ (i ∧ same c d)) p a := by
  induction p generalizing before rest with
  | nil => exact iff_of_true .nil ⟨[], rest, rfl, .nil⟩
  | cons c p ih =>
    constructor
    · intro h
      cases h with
      | chr h1 h2 =>
        obtain ⟨a, b, rfl, h3⟩ := ih.1 h2
        exact ⟨_ :: a, b, rfl, .cons h1 h3⟩
    · rintro ⟨a, b, rfl, h⟩
      cases h with
      | cons h1 h2 => exact .chr h1 (ih.2 ⟨_, b, rfl, h2⟩)

/-! ## C148 -/

/-- **C148**, flags. There is an error for flags exactly if one is not known, and it names the first of these, whatever the
pattern is. -/
theorem C148_flags (p : Str) (flags : Option Str) (c : Char) :
    (new E p flags = .error (.flag c)) ↔
      ∃ a b, flags = some (a ++ c :: b) ∧ (∀ d ∈ a, d ∈ known) ∧ c ∉ known := by
  have key : new E p flags = .error (.flag c) ↔ setFlags (flags.getD []) .none = .error c := by
    unfold new
    simp only
    cases h : setFlags (flags.getD []) .none with
    | error d => simp
    | ok f =>
      simp only
      split
      · simp
      · split <;> simp
  rw [key, setFlags_error]
  cases flags with
  | none => simp
  | some fs => simp

/-- **C148**, the order of flags and their repetition do not matter: with the same flags, both are accepted or both refused,
and the same texts match. -/
theorem C148_set (p fs gs : Str) (h : ∀ c, c ∈ fs ↔ c ∈ gs) (text : Str) :
    (∃ r, new E p (some fs) = .ok r ∧ r.isMatch E text = true) ↔ (∃ r, new E p (some gs) = .ok r ∧ r.isMatch E text = true) := by
  have key : ∀ fs gs : Str, (∀ c, c ∈ fs ↔ c ∈ gs) → (∃ r, new E p (some fs) = .ok r ∧ r.isMatch E text = true) →
      ∃ r, new E p (some gs) = .ok r ∧ r.isMatch E text = true := by
    rintro fs gs h ⟨r, h1, h2⟩
    by_cases hk : ∀ c ∈ fs, c ∈ known
    · have hk' : ∀ c ∈ gs, c ∈ known := fun c hc => hk c ((h c).2 hc)
      unfold new at h1 ⊢
      simp only [Option.getD_some, setFlags_ok hk, setFlags_ok hk', h] at h1 ⊢
      split at h1
      · cases h1
      · rename_i is heq
        rw [heq]
        simp only
        split at h1
        · rename_i hf
          cases h1
          rw [if_pos hf]
          exact ⟨_, rfl, h2⟩
        · cases h1
    · obtain ⟨c, e⟩ : ∃ c, setFlags fs .none = .error c := by
        cases e : setFlags fs .none with
        | error c => exact ⟨c, rfl⟩
        | ok f =>
          exfalso
          apply hk
          intro c hc
          by_contra hcon
          have hfind : ∃ a d b, fs = a ++ d :: b ∧ (∀ x ∈ a, x ∈ known) ∧ d ∉ known := by
            clear e h h1 hk
            induction fs with
            | nil => cases hc
            | cons y ys ih =>
              by_cases hy : y ∈ known
              · rcases List.mem_cons.1 hc with rfl | hc
                · exact absurd hy hcon
                · obtain ⟨a, d, b, rfl, h1, h2⟩ := ih hc
                  exact ⟨y :: a, d, b, rfl, by simpa [hy] using h1, h2⟩
              · exact ⟨[], y, ys, rfl, by simp, hy⟩
          obtain ⟨a, d, b, h1', h2', h3'⟩ := hfind
          have := (setFlags_error (f := .none)).2 ⟨a, b, h1', h2', h3'⟩
          rw [e] at this
          cases this
      unfold new at h1
      simp only [Option.getD_some, e] at h1
      cases h1
  exact ⟨key fs gs h, key gs fs fun c => (h c).symm⟩

/-- **C148** (partial), SHACL. A pattern that is a sequence of characters, dots and anchors, with known flags but without `q`,
is accepted if it is not too large, and a text matches exactly if it does in XPath: if, with `x`, the pattern has no number
sign, no other white space than that of XML and none that is escaped; the text has no carriage return unless there is `s`; and
with `m` it does not end with a line feed.

Missing: number signs (`C148_comment_refuted`), carriage returns (`C148_return_refuted`), line feeds at the end
(`C148_end_refuted`). -/
theorem C148_shacl_partial (hsame : ∀ c, E.same c c = true) (p : Str) (flags : Option Str) (is : List Item)
    (hk : ∀ c ∈ flags.getD [], c ∈ known) (hq : 'q' ∉ flags.getD [])
    (hp : Means ('x' ∈ flags.getD []) p is)
    (hx : 'x' ∈ flags.getD [] → '#' ∉ p ∧ (∀ c ∈ p, c ∈ patSpace → c ∈ xmlSpace) ∧
      ∀ a b c, p = a ++ '\\' :: c :: b → c ∉ xmlSpace)
    (hfit : ∀ f, E.fits f is = true) :
    ∃ r, new E p flags = .ok r ∧ ∀ text, ('s' ∉ flags.getD [] → '\r' ∉ text) →
      ('m' ∈ flags.getD [] → text.getLast? ≠ some '\n') →
      (r.isMatch E text = true ↔
        XMatches (fun c d => E.same c d = true) ('s' ∈ flags.getD []) ('m' ∈ flags.getD []) ('i' ∈ flags.getD []) is text) := by
  have hparse : parse (decide ('x' ∈ flags.getD [])) false p = some is := by
    by_cases h : 'x' ∈ flags.getD []
    · obtain ⟨a, b, c⟩ := hx h
      rw [decide_eq_true h, parse_space a b c]
      exact parse_writes (hp.2 h)
    · rw [decide_eq_false h]
      exact parse_writes (hp.1 h)
  refine ⟨⟨is, ⟨decide ('s' ∈ flags.getD []), decide ('m' ∈ flags.getD []), decide ('i' ∈ flags.getD []),
    decide ('x' ∈ flags.getD [])⟩, p, if flags.getD [] = [] then none else some (flags.getD [])⟩, ?_, ?_⟩
  · unfold new
    simp only [if_neg hq, setFlags_ok hk, RFlags.none, Bool.false_or, hparse, hfit, if_true]
  · intro text h1 h2
    have := search_iff (E := E) hsame (f := ⟨decide ('s' ∈ flags.getD []), decide ('m' ∈ flags.getD []),
      decide ('i' ∈ flags.getD []), decide ('x' ∈ flags.getD [])⟩) (is := is) (text := text)
      (fun h => h1 (by simpa using h)) (fun h => h2 (by simpa using h))
    simp only [decide_eq_true_eq] at this
    exact this

/-- **C148**, `q`. With `q` and without `x` every pattern is accepted if it is not too large, and a text matches exactly if the
pattern occurs in it, where with `i` case does not matter. -/
theorem C148_quoted (hsame : ∀ c, E.same c c = true) (p fs : Str) (hk : ∀ c ∈ fs, c ∈ known) (hq : 'q' ∈ fs) (hx : 'x' ∉ fs)
    (hfit : ∀ f is, E.fits f is = true) :
    ∃ r, new E p (some fs) = .ok r ∧ ∀ text, (r.isMatch E text = true ↔
      ∃ a b c, text = a ++ b ++ c ∧ List.Forall₂ (fun c d => c = d ∨ ('i' ∈ fs ∧ E.same c d = true)) p b) := by
  refine ⟨⟨p.map .chr, ⟨decide ('s' ∈ fs), decide ('m' ∈ fs), decide ('i' ∈ fs), false⟩, escape p,
    if fs = [] then none else some fs⟩, ?_, ?_⟩
  · unfold new
    simp only [Option.getD_some, if_pos hq, setFlags_ok hk, RFlags.none, Bool.false_or, decide_eq_false hx, parse_escape, hfit,
      if_true]
  · intro text
    have hs := searchFrom_iff (E := E) (f := ⟨decide ('s' ∈ fs), decide ('m' ∈ fs), decide ('i' ∈ fs), false⟩)
      (p.map .chr) text []
    rw [List.getLast?_nil] at hs
    refine hs.trans ?_
    have hm : ∀ (f : RFlags), f.i = decide ('i' ∈ fs) → ∀ (p : Str) (q : Option Char) (b : Str),
        matchHere E f (p.map .chr) q b = true ↔
          ∃ a c, b = a ++ c ∧ List.Forall₂ (fun c d => c = d ∨ ('i' ∈ fs ∧ E.same c d = true)) p a := by
      intro f hi p
      induction p with
      | nil => intro q b; exact iff_of_true (by simp [matchHere]) ⟨[], b, rfl, .nil⟩
      | cons x p ih =>
        intro q b
        cases b with
        | nil =>
          refine iff_of_false (by simp [matchHere]) ?_
          rintro ⟨a, c, e, h⟩
          obtain ⟨rfl, _⟩ := List.append_eq_nil_iff.1 e.symm
          cases h
        | cons d b =>
          rw [List.map_cons, matchHere, Bool.and_eq_true, ih, hi]
          constructor
          · rintro ⟨h1, a, c, rfl, h2⟩
            refine ⟨d :: a, c, rfl, .cons ?_ h2⟩
            split at h1
            · rename_i h; exact Or.inr ⟨by simpa using h, h1⟩
            · exact Or.inl (by simpa using h1)
          · rintro ⟨a, c, e, h⟩
            cases h with
            | cons h1 h2 =>
              cases e
              refine ⟨?_, _, c, rfl, h2⟩
              split
              · rcases h1 with rfl | h1
                · exact hsame x
                · exact h1.2
              · rename_i h
                rcases h1 with rfl | h1
                · simp
                · exact absurd (by simpa using h1.1) h
    constructor
    · rintro ⟨a, b, rfl, h⟩
      obtain ⟨b1, b2, rfl, h2⟩ := (hm ⟨_, _, _, _⟩ rfl p _ b).1 h
      exact ⟨a, b1, b2, by rw [List.append_assoc], h2⟩
    · rintro ⟨a, b, c, rfl, h⟩
      exact ⟨a, b ++ c, by rw [List.append_assoc], (hm ⟨_, _, _, _⟩ rfl p _ _).2 ⟨b, c, rfl, h⟩⟩

/-- The engine of the examples. -/
def exEngine : Engine := ⟨fun c d => decide (c.toLower = d.toLower), fun _ _ => true⟩

/-- Whether a text matches, in SHACL. -/
def shaclMatch (p fs text : Str) : Option Bool := match new exEngine p (some fs) with
  | .ok r => some (r.isMatch exEngine text)
  | .error _ => none

/-- **C148** is false of the code for `q` with `x`: in XPath `x` has no effect then, but white space of the pattern is
skipped. -/
theorem C148_quoted_refuted :
    shaclMatch "a b".toList "qx".toList "a b".toList = some false ∧ shaclMatch "a b".toList "qx".toList "ab".toList = some true := by
  decide +kernel

/-- **C148** is false of the code for number signs with `x`: what follows is a comment. -/
theorem C148_comment_refuted :
    Means True "a#b".toList [.chr 'a', .chr '#', .chr 'b'] ∧ shaclMatch "a#b".toList "x".toList "ac".toList = some true ∧
    ¬ XMatches (fun c d => exEngine.same c d = true) False False False [.chr 'a', .chr '#', .chr 'b'] "ac".toList := by
  refine ⟨⟨fun h => absurd trivial h, fun _ => ?_⟩, by decide +kernel, ?_⟩
  · show Writes _ ['a', '#', 'b']
    exact .plain (by decide) (.plain (by decide) (.plain (by decide) .nil))
  · rintro ⟨a, b, e, h⟩
    have h' : XSeq (fun c d => exEngine.same c d = true) False False False (['a', '#', 'b'].map .chr) a b := h
    obtain ⟨x, y, rfl, h2⟩ := xseq_chars.1 h'
    simp only [false_and, or_false] at h2
    have e2 : x = ['a', '#', 'b'] := (List.forall₂_eq_eq_eq ▸ h2 : ['a', '#', 'b'] = x).symm
    subst e2
    have : '#' ∈ "ac".toList := by rw [e]; simp
    revert this
    decide

/-- **C148** is false of the code for carriage returns: a dot matches them without `s`. -/
theorem C148_return_refuted :
    shaclMatch ['.'] [] ['\r'] = some true ∧ ¬ XMatches (fun c d => exEngine.same c d = true) False False False [.any] ['\r'] := by
  refine ⟨by decide +kernel, ?_⟩
  rintro ⟨a, b, e, h⟩
  cases h with
  | @any d _ _ r h1 _ =>
    have : d ∈ a ++ d :: r := by simp
    rw [← e] at this
    rcases h1 with h1 | ⟨_, h1⟩
    · exact h1
    · exact h1 (by simpa using this)

/-- **C148** is false of the code for line feeds at the end: with `m` a line starts after them. -/
theorem C148_end_refuted :
    shaclMatch "^$".toList ['m'] "a\n".toList = some true ∧
    ¬ XMatches (fun c d => exEngine.same c d = true) False True False [.bol, .eol] "a\n".toList := by
  refine ⟨by decide +kernel, ?_⟩
  rintro ⟨a, b, e, h⟩
  cases h with
  | bol h1 h2 =>
    cases h2 with
    | eol h3 _ =>
      have e' : ['a', '\n'] = a ++ b := e
      rcases h1 with rfl | ⟨_, ⟨b', rfl⟩, hb⟩
      · rw [List.nil_append] at e'
        subst e'
        rcases h3 with h3 | ⟨_, r, h3⟩
        · cases h3
        · cases h3
      · cases b with
        | nil => exact hb rfl
        | cons x b =>
          have := congrArg List.length e'
          cases b' with
          | nil => cases e'
          | cons y b' => simp at this; omega

/-- **C148**, ShEx. With flags that are known, different and not `q`, a text matches a pattern in ShEx exactly if it does in
SHACL. -/
theorem C148_shex (p fs text : Str) (hne : fs ≠ []) (hd : fs.Nodup) (hk : ∀ c ∈ fs, c ∈ known) (hq : 'q' ∉ fs)
    (hfit : ∀ f is, E.fits f is = true) :
    checkPattern E text p (some fs) = true ↔ ∃ r, new E p (some fs) = .ok r ∧ r.isMatch E text = true := by
  have hin : ∀ (fs : Str), fs.Nodup → (∀ c ∈ fs, c ∈ known) → 'q' ∉ fs → ∀ f : RFlags,
      (f.s = true → 's' ∉ fs) → (f.m = true → 'm' ∉ fs) → (f.i = true → 'i' ∉ fs) → (f.x = true → 'x' ∉ fs) →
      inlineFlags (fs ++ ')' :: p) f = some (⟨f.s || decide ('s' ∈ fs), f.m || decide ('m' ∈ fs), f.i || decide ('i' ∈ fs),
        f.x || decide ('x' ∈ fs)⟩, p) := by
    intro fs
    induction fs with
    | nil => intro _ _ _ f _ _ _ _; simp [inlineFlags]
    | cons c cs ih =>
      intro hd hk hq f h1 h2 h3 h4
      have hc := hk c List.mem_cons_self
      obtain ⟨hd1, hd2⟩ := List.nodup_cons.1 hd
      have hk' := fun d hd => hk d (List.mem_cons_of_mem _ hd)
      have hq' : 'q' ∉ cs := fun h => hq (List.mem_cons_of_mem _ h)
      have ih := ih hd2 hk' hq'
      simp only [known, List.mem_cons, List.not_mem_nil, or_false] at hc
      simp only [List.mem_cons, not_or] at h1 h2 h3 h4
      rcases hc with rfl | rfl | rfl | rfl | rfl
      · have hf : f.s = false := by cases h : f.s with
          | false => rfl
          | true => exact absurd rfl (h1 h).1
        rw [List.cons_append, inlineFlags, if_neg (by decide), if_pos rfl, hf, if_neg (by simp),
          ih { f with s := true } (fun _ => hd1) (fun h => (h2 h).2) (fun h => (h3 h).2) (fun h => (h4 h).2)]
        simp
      · have hf : f.m = false := by cases h : f.m with
          | false => rfl
          | true => exact absurd rfl (h2 h).1
        rw [List.cons_append, inlineFlags, if_neg (by decide), if_neg (by decide), if_pos rfl, hf, if_neg (by simp),
          ih { f with m := true } (fun h => (h1 h).2) (fun _ => hd1) (fun h => (h3 h).2) (fun h => (h4 h).2)]
        simp
      · have hf : f.i = false := by cases h : f.i with
          | false => rfl
          | true => exact absurd rfl (h3 h).1
        rw [List.cons_append, inlineFlags, if_neg (by decide), if_neg (by decide), if_neg (by decide), if_pos rfl, hf,
          if_neg (by simp),
          ih { f with i := true } (fun h => (h1 h).2) (fun h => (h2 h).2) (fun _ => hd1) (fun h => (h4 h).2)]
        simp
      · have hf : f.x = false := by cases h : f.x with
          | false => rfl
          | true => exact absurd rfl (h4 h).1
        rw [List.cons_append, inlineFlags, if_neg (by decide), if_neg (by decide), if_neg (by decide), if_neg (by decide),
          if_pos rfl, hf, if_neg (by simp),
          ih { f with x := true } (fun h => (h1 h).2) (fun h => (h2 h).2) (fun h => (h3 h).2) (fun _ => hd1)]
        simp
      · exact absurd List.mem_cons_self hq
  have h1 := hin fs hd hk hq .none (by simp [RFlags.none]) (by simp [RFlags.none]) (by simp [RFlags.none]) (by simp [RFlags.none])
  unfold checkPattern new
  simp only [if_neg hne, Option.getD_some, if_neg hq, setFlags_ok hk, compile, List.cons_append, h1]
  cases parse (RFlags.none.x || decide ('x' ∈ fs)) false p with
  | none => simp
  | some is => simp [hfit, RDFRegex.isMatch]

/-- **C148** is false of the code for `q` in ShEx: nothing matches. -/
theorem C148_shex_quoted_refuted (text p : Str) : checkPattern E text p (some ['q']) = false := by
  simp [checkPattern, compile, inlineFlags]

/-- **C148** is false of the code for flags that are repeated in ShEx: nothing matches. -/
theorem C148_shex_repeated_refuted (text p : Str) : checkPattern E text p (some ['i', 'i']) = false := by
  simp [checkPattern, compile, inlineFlags, RFlags.none]

/-! ## Examples -/

/-- A pattern with white space, case and lines. -/
example : (∀ c, exEngine.same c c = true) ∧ (∀ c ∈ "xim".toList, c ∈ known) ∧
    Means ('x' ∈ "xim".toList) "^ a . \\. $".toList [.bol, .chr 'a', .any, .chr '.', .eol] ∧
    shaclMatch "^ a . \\. $".toList "xim".toList "b\nAb.\nc".toList = some true := by
  refine ⟨by simp [exEngine], by decide, ⟨fun h => absurd (by decide) h, fun _ => ?_⟩, by decide +kernel⟩
  show Writes _ ['^', 'a', '.', '\\', '.', '$']
  exact .bol (.plain (by decide) (.any (.escaped (by decide) (.eol .nil))))

/-- A pattern that is quoted, and one in ShEx. -/
example : shaclMatch "a.b".toList "qi".toList "xA.By".toList = some true ∧ shaclMatch "a.b".toList "q".toList "axb".toList = some false ∧
    checkPattern exEngine "xA.By".toList "a.b".toList (some "si".toList) = true ∧
    (match new exEngine ['a'] (some "ig".toList) with | .error (.flag 'g') => true | _ => false) = true := by
  decide +kernel

end Regex

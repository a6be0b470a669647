import Verif.Shexc.LemGram5
import Verif.Shexc.PropsNames

/-!
# C106: the words of the compact syntax are read as they are written

`SpecText.lean` says how strings, names, numbers, literals, patterns, cardinalities and code are written. Each theorem
says that the reader of such a word, on any text of the word and whatever comes after it, gives back what was written
and leaves what comes after it. `C106_refuted` has the words of the ShEx specification on which this fails, which are
left out of the specification of words.
-/

namespace Shexc

open P Spec

/-- What was read. -/
def Res.val {α : Type} : Res α → Option α
  | .ok a _ => some a
  | _ => none

/-- What was read, and what is left. -/
def Res.both {α : Type} : Res α → Option (α × Str)
  | .ok a r => some (a, r)
  | _ => none

/-! ## Words -/

/-- **C106** (partial: quotes inside a long string are escaped): a string is read as what it stands for, in any of the
four ways to write it and with any mixture of escapes. -/
theorem C106_strings_partial {s w : Str} (h : StringText s w) (r : Str) (hr : ∀ c ∈ r.head?, c ≠ '"' ∧ c ≠ '\'') :
    string (w ++ r) = .ok s r :=
  string_ok h fun c hc hq => by
    rcases hq with e | e
    · exact (hr c hc).1 e
    · exact (hr c hc).2 e

/-- **C106** (partial: no dots in prefixes, no escapes in local names, which begin with a character of ASCII): an IRI in
angle brackets or a prefixed name is read as itself. After a prefixed name comes no character that could be a part of
it. -/
theorem C106_names_partial {n : IriRef} {w : Str} (h : NameText n w) (r : Str)
    (hr : (∃ p l, n = .prefixed p l) → ∀ c ∈ r.head?, ¬ sticks (.name n) c) : iri (w ++ r) = .ok n r := by
  refine iri_ok h ?_
  cases n with
  | iri s => trivial
  | prefixed p l => exact fun c hc => hr ⟨p, l, rfl⟩ c hc

/-- **C106** (partial, as for names): the label of a shape is read as itself. -/
theorem C106_labels_partial {l : Label} {w : Str} (h : LabelText l w) (r : Str)
    (hr : ∀ c ∈ r.head?, ¬ sticks (.bnode []) c) : shapeLabel (w ++ r) = .ok l r := by
  refine shapeLabel_ok h ?_
  cases l with
  | iri n =>
    cases n with
    | iri s => trivial
    | prefixed p l => exact hr
  | bnode b => exact hr
  | start => trivial

/-- **C106**: a literal is read as itself: strings with or without a language or a datatype, numbers with their text, and
truth values. After it the reader is in front of the next words. -/
theorem C106_literals_partial (X : Ext) {l : Lit} {ts : List Tok} {w : Str} (h : Spell X.spec (.lit l :: ts) w) :
    ∃ g v, literal X w = .ok l (g ++ v) ∧ Gap false g ∧ Spell X.spec ts v := by
  obtain ⟨u, e, ⟨g, v, hg, rfl, hv⟩, -⟩ := literal_tok h
  exact ⟨g, v, e, hg, hv⟩

/-- **C106** (partial: numbers below 2^127): an integer is read as the number that it stands for. -/
theorem C106_integers_partial {n : Int} {w : Str} (h : IntText n w) (hn : n.natAbs < 2 ^ 127) (r : Str)
    (hr : ∀ c ∈ r.head?, ¬ digit c) : integer (w ++ r) = .ok n r := integer_ok h hn hr

/-- **C106** (partial: decimal numbers whose first digit after the dot is not a zero, not between -1 and 0, and not too
long): a number of a facet is read as the number that it stands for. -/
theorem C106_numbers_partial (X : Ext) {n : Num} {w : Str} (h : NumText X.double n w) (r : Str)
    (hr : ∀ c ∈ r.head?, ¬ digit c ∧ c ≠ 'e' ∧ c ≠ 'E' ∧ c ≠ '.') : rawNumeric X (w ++ r) = .ok n r :=
  rawNumeric_ok X h fun c hc hx => by
    have := hr c hc
    unfold expish at hx
    tauto

/-- **C106**: a language tag is read as its normal form. -/
theorem C106_languages {X : Ext} {t t' : Str} (h : LangName t) (hn : X.lang t = some t') (r : Str)
    (hr : ∀ c ∈ r.head?, ¬ sticks (.lang t') c) : langTag X ('@' :: (t ++ r)) = .ok t' r := langTag_ok X h hn (Off.stkN hr)

/-- **C106** (partial: a pattern does not begin with a star): a pattern is read as what is between the slashes, with its
flags; slashes and characters by number are unescaped, the escapes of regular expressions are kept. -/
theorem C106_patterns_partial {f : Facet} {w : Str} (h : RegexText f w) (r : Str)
    (hr : ∀ c ∈ r.head?, ¬ sticks (.regex f) c) : regexp (w ++ r) = .ok f r := regexp_ok h hr

/-- **C106** (partial: numbers of 32 bits, no space before the first and after the last number): a cardinality in braces
is read as its bounds. -/
theorem C106_cardinalities_partial {m n : Int} {w : Str} (h : CardText m n w) (r : Str) :
    repeatRange (w ++ r) = .ok (m, n) r := repeatRange_ok h

/-- **C106**: code is read as what is written, without the escapes. -/
theorem C106_code {s w : Str} (h : CodeText s w) (r : Str) : code (w ++ r) = .ok (some s) r := code_ok h

/-- **C106**: white space and comments between words are passed over, up to the next word. -/
theorem C106_gaps (X : Ext) {b : Bool} {g v : Str} {ts : List Tok} (hg : Gap b g) (hv : Spell X.spec ts v) :
    tws0 (g ++ v) = .ok () v := tws0_ok hg (sp_noGap hv)

/-- **C106**, what fails of the whole statement. A quote inside a long string makes the reader take the long string for
an empty one. Zeros after the dot of a decimal number are lost (`1.05` is read as 1.5), and so is the sign of a number
between -1 and 0 (`-0.5` is read as 0.5); `.5` is no number. A cardinality of more than 32 bits wraps (`{4294967297}` is
read as `{1}`), and spaces inside the braces are refused. A prefix with two dots in a row is refused. Backslashes in
local names are kept, though they are no part of the name. -/
theorem C106_refuted :
    (string "'''it's'''".toList).both = some ([], "'it's'''".toList) ∧
    (rawNumeric noExt "1.05".toList).val = some (.dec 15 1) ∧
    (rawNumeric noExt "-0.5".toList).val = some (.dec 5 1) ∧
    (rawNumeric noExt ".5".toList).val = none ∧
    (repeatRange "{4294967297}".toList).val = some (1, 1) ∧
    (repeatRange "{ 2}".toList).val = none ∧ (repeatRange "{2 }".toList).val = none ∧
    (iri "a..b:c".toList).val = none ∧
    (iri "a:\\-b".toList).val = some (.prefixed ['a'] ['\\', '-', 'b']) := by
  refine ⟨?_, ?_, ?_, ?_, ?_, ?_, ?_, ?_, ?_⟩ <;> decide +kernel

/-! ## Examples -/

/-- A string with the three kinds of characters: as it is, escaped by a letter, escaped by number. -/
example : StringText "a\n\"b".toList "\"a\\n\\u0022b\"".toList := by
  refine .double (w := "a\\n\\u0022b".toList) ?_
  exact .cons (w := ['a']) (.plain (by decide) (by decide)) (.cons (w := ['\\', 'n']) (.letter (by decide))
    (.cons (w := ['\\', 'u', '0', '0', '2', '2'])
      (.numbered (.four (ds := ['0', '0', '2', '2']) rfl (by unfold hex; decide) (by decide +kernel)))
      (.cons (w := ['b']) (.plain (by decide) (by decide)) .nil)))

/-- A number of a facet. -/
example : NumText (fun _ => none) (.dec (-125) 1) "-12.5".toList :=
  .dec (b := true) (ds := ['1', '2']) (fs := ['5'])
    (.mk (s := ['-']) .minus (by unfold Digits; decide) (by unfold Digits; decide)) (by decide) (fun _ => by decide)
    (by decide) (by decide) (by decide)

/-- A cardinality with a gap. -/
example : CardText 2 5 "{2, 5}".toList :=
  .range (w := ['2']) (v := ['5']) (g := []) (h := [' '])
    ⟨.mk (b := false) (ds := ['2']) .none (by unfold Digits; decide), by decide, by decide⟩
    ⟨.mk (b := false) (ds := ['5']) .none (by unfold Digits; decide), by decide, by decide⟩ .nil (.space (by decide) .nil)

/-- A pattern with an escaped slash and a flag. -/
example : RegexText (.pattern "a/\\.".toList (some ['i'])) "/a\\/\\./i".toList :=
  .mk (w := "a\\/\\.".toList) (fs := ['i'])
    (.cons (p := ['a']) (w := ['a']) (.plain (by decide)) (.cons (p := ['/']) (w := ['\\', '/']) .slash
      (.cons (p := ['\\', '.']) (w := ['\\', '.']) (.kept (by decide)) .nil))) (by decide) (by decide) (by decide)

/-- A literal with a language, before other words. -/
example : Spell (Ext.spec ⟨some, fun _ => none⟩) [.lit (.lang ['a'] ['e', 'n']), .sym [']']] "'a'@en ]".toList := by
  refine .cons (w := "'a'@en".toList) (g := [' ']) (r := [']']) (.lit ?_) (.space (by decide) .nil) (by simp) ?_
  · refine .lang (w := "'a'".toList) (t := ['e', 'n']) (.single (w := ['a']) (.cons (w := ['a']) (.plain (by decide) (by decide)) .nil)) ?_ rfl
    exact ⟨['e', 'n'], [], rfl, by decide, by decide, by simp⟩
  · exact .cons (w := [']']) (g := []) (r := []) (.sym (by decide)) .nil (by simp) .nil

/-- A prefixed name, code and a comment. -/
example : NameText (.prefixed ['e', 'x'] ['p', '1']) "ex:p1".toList ∧ CodeText "a%b".toList "{a\\%b%}".toList ∧
    Gap false " # c\n /* d */".toList := by
  refine ⟨.local (p := ['e', 'x']) (l := ['p', '1']) (.inr ⟨'e', ['x'], rfl, by decide, by decide⟩)
    ⟨'p', ['1'], rfl, by decide, by decide, by decide, by decide⟩ (by unfold NoKeyword; decide +kernel), ?_, ?_⟩
  · exact .mk (w := "a\\%b".toList) (g := []) (.cons (w := ['a']) (.plain (by decide) (by decide))
      (.cons (w := ['\\', '%']) (.escaped (by decide)) (.cons (w := ['b']) (.plain (by decide) (by decide)) .nil))) .nil
  · refine .space (by decide) (.line (cs := [' ', 'c']) (e := '\n') (by decide) (by decide) (.space (by decide)
      (.block (cs := [' ', 'd', ' ']) (g := []) (by decide +kernel) .nil)))

end Shexc

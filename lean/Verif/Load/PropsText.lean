import Verif.Load.LemmasText
import Verif.Load.Props

/-!
# Properties of the texts read when data are loaded (C146)

`ws` is any class of white space that has the line feed and none of the characters of the keywords.
-/

namespace Load

open Prefix (Str PrefixMap)

/-! ## Sources -/

/-- **C146** (sources). A text is refused if it is empty, if it starts as an address of the web and is
none, or if it looks like the name of a file and there is no such file. Else it stands for the standard
input if it is `-`, for that address, for that file, or for itself. -/
theorem C146_source (w : World) (s : Str) (src : Source) :
    fromStr w s = some src ↔
      (s = ['-'] ∧ src = .stdin) ∨
      (WebLike s ∧ w.urlOk s = true ∧ src = .url s) ∨
      (s ≠ [] ∧ s ≠ ['-'] ∧ ¬ WebLike s ∧ FileLike s ∧ w.pathExists s = true ∧ w.isDir s = false ∧ src = .path s) ∨
      (¬ WebLike s ∧ ¬ FileLike s ∧ src = .str s) := by
  have hnil : FileLike [] := Or.inl (by simp)
  have hdash : FileLike ['-'] := (pathLike_iff _).1 (by decide +kernel)
  have hwd : ¬ WebLike ['-'] := by rw [webLike_iff]; decide +kernel
  have hwn : ¬ WebLike [] := by rw [webLike_iff]; decide +kernel
  unfold fromStr
  by_cases h0 : s = []
  · subst h0
    simp [hnil, hwn]
  rw [if_neg (by simpa using h0)]
  by_cases h1 : s = ['-']
  · subst h1
    simp only [if_true, Option.some.injEq, true_and, hwd, hdash, ne_eq, not_true_eq_false, false_and, and_false, or_false, false_or]
    exact eq_comm
  rw [if_neg h1]
  by_cases hw : WebLike s
  · have hx := (webLike_iff s).1 hw
    by_cases hp : (chars "http://").isPrefixOf s = true
    · rw [if_pos hp]
      cases w.urlOk s
      · simp [h1, hw]
      · simp only [if_true, Option.some.injEq, h1, hw, true_and, false_and, and_false, not_true_eq_false, or_false, false_or]
        exact eq_comm
    · rw [if_neg hp, if_pos (hx.resolve_left hp)]
      cases w.urlOk s
      · simp [h1, hw]
      · simp only [if_true, Option.some.injEq, h1, hw, true_and, false_and, and_false, not_true_eq_false, or_false, false_or]
        exact eq_comm
  · have hx : ¬ _ := fun h => hw ((webLike_iff s).2 h)
    rw [not_or] at hx
    rw [if_neg hx.1, if_neg hx.2]
    by_cases hf : FileLike s
    · rw [if_pos ((pathLike_iff s).2 hf)]
      cases w.pathExists s
      · simp [h1, hw, hf]
      · cases w.isDir s
        · simp only [Bool.not_true, Bool.false_eq_true, if_false, Option.some.injEq, h0, h1, hw, hf, ne_eq, not_false_eq_true,
            not_true_eq_false, true_and, false_and, and_false, or_false, false_or]
          exact eq_comm
        · simp [h1, hw, hf]
    · rw [if_neg (fun h => hf ((pathLike_iff s).1 h))]
      simp only [Option.some.injEq, h1, hw, hf, not_false_eq_true, true_and, false_and, and_false, false_or]
      exact eq_comm

/-- A world with one file. -/
def oneFile (f : String) : World := ⟨fun s => s == chars f, fun _ => false, fun _ => true⟩

/-- A file that is there, a text and an address. -/
example : fromStr (oneFile "data.ttl") (chars "data.ttl") = some (.path (chars "data.ttl")) ∧
    fromStr (oneFile "data.ttl") (chars "<a> <b> <c>.") = some (.str (chars "<a> <b> <c>.")) ∧
    fromStr (oneFile "data.ttl") (chars "https://ex.org/a b") = some (.url (chars "https://ex.org/a b")) := by
  decide +kernel

/-- **C146** (sources, refuted). The documentation of `from_str` says that an existing file becomes a path
and that everything else becomes a string. A file whose name has a space becomes a string, and a word that
names no file is refused. -/
theorem C146_source_refuted :
    (¬ ∀ (w : World) (s : Str), s ≠ ['-'] → ¬ WebLike s → w.pathExists s = true → w.isDir s = false →
        fromStr w s = some (.path s)) ∧
      ¬ ∀ (w : World) (s : Str), s ≠ [] → s ≠ ['-'] → ¬ WebLike s → w.pathExists s = false →
        fromStr w s = some (.str s) := by
  refine ⟨?_, ?_⟩
  · intro h
    have := h (oneFile "my data") (chars "my data") (by decide +kernel)
      (by rw [webLike_iff]; decide +kernel) (by decide +kernel) rfl
    exact absurd this (by decide +kernel)
  · intro h
    have := h (oneFile "data.ttl") (chars "word") (by decide +kernel) (by decide +kernel)
      (by rw [webLike_iff]; decide +kernel) (by decide +kernel)
    exact absurd this (by decide +kernel)

/-! ## Declarations of a user -/

/-- **C146** (declarations). The text of a name, a colon, spaces and an IRI in angle brackets declares
exactly this name for this IRI, if neither has white space at its ends, none has a line feed and the IRI
has no `<`. -/
theorem C146_declaration (ws : Char → Bool) (n i : Str) (k : Nat) (hn : Trimmed ws n n) (hi : Trimmed ws i i)
    (hnl : '\n' ∉ n) (hil : '\n' ∉ i) (hlt : '<' ∉ i) (p j : Str) :
    DeclText ws (n ++ ':' :: (List.replicate k ' ' ++ '<' :: (i ++ ['>']))) p j ↔ p = n ∧ j = i := by
  have hd : DeclText ws (n ++ ':' :: (List.replicate k ' ' ++ '<' :: (i ++ ['>']))) n i := by
    refine ⟨?_, n, i, ⟨k, rfl⟩, ?_, hn, hi⟩
    · simp [hnl, hil]
    · rintro a b ⟨k', h⟩
      rcases List.append_eq_append_iff.1 h with ⟨q, hq, hx⟩ | ⟨q, hq, -⟩
      · cases q with
        | nil => simp [hq]
        | cons c q =>
          exfalso
          simp only [List.cons_append, List.cons.injEq] at hx
          obtain ⟨-, hx⟩ := hx
          have hrep : ∀ (k : Nat) (q : Str), List.replicate k ' ' ++ '<' :: (i ++ ['>']) =
              q ++ ':' :: (List.replicate k' ' ' ++ '<' :: (b ++ ['>'])) → False := by
            intro k
            induction k with
            | zero =>
              intro q hq
              cases q with
              | nil => simp at hq
              | cons c q =>
                simp only [List.replicate_zero, List.nil_append, List.cons_append, List.cons.injEq] at hq
                have : '<' ∈ i ++ ['>'] := by
                  rw [hq.2]
                  simp
                simp [hlt] at this
            | succ k ih =>
              intro q hq
              cases q with
              | nil => simp [List.replicate_succ] at hq
              | cons c q =>
                simp only [List.replicate_succ, List.cons_append, List.cons.injEq] at hq
                exact ih q hq.2
          exact hrep k q hx
      · rw [hq]
        simp
  constructor
  · intro h
    exact declText_unique h hd
  · rintro ⟨rfl, rfl⟩
    exact hd

/-- An ordinary declaration. -/
example : Trimmed sp (chars "ex") (chars "ex") ∧ Trimmed sp (chars "http://ex.org/") (chars "http://ex.org/") ∧
    '<' ∉ chars "http://ex.org/" :=
  ⟨(trim_iff _ _ _).2 (by decide +kernel), (trim_iff _ _ _).2 (by decide +kernel), by decide +kernel⟩

/-- **C146** (keywords, refuted). A declaration as it is written in SPARQL or ShExC does not declare its
name but the keyword and the name; one as it is written in Turtle, with a full stop, declares nothing. -/
theorem C146_keyword_refuted :
    (¬ ∀ (ws : Char → Bool), SaneSpace ws → ws ' ' = true → ∀ p i : Str,
        DeclText ws (chars "PREFIX ex: <http://ex.org/>") p i → p = chars "ex") ∧
      ∀ (ws : Char → Bool) (s p i : Str), ¬ DeclText ws (s ++ ['.']) p i := by
  refine ⟨?_, ?_⟩
  · intro h
    have hd : DeclText sp (chars "PREFIX ex: <http://ex.org/>") (chars "PREFIX ex") (chars "http://ex.org/") :=
      (captures_iff _ _ _ _).2 ⟨chars "PREFIX ex", chars "http://ex.org/", by decide +kernel⟩
    exact absurd (h sp ⟨rfl, by decide +kernel⟩ rfl _ _ hd) (by decide +kernel)
  · rintro ws s p i ⟨-, a, b, h, -⟩
    have := ((shape_iff _ _ _).1 h).1
    simp at this

/-! ## Declarations put in front of a document -/

open Classical in
/-- **C146** (default prefixes). What is put in front of a document are the declarations, in the syntax
asked for and in the order of the defaults, of the default prefixes that the document does not declare at
the start of a line; the document must not declare a prefix named as the keyword itself. -/
theorem C146_header (ws : Char → Bool) (hw : SaneSpace ws) (defaults : Option PrefixMap) (s : Str) (d : Directive)
    (hk : ∀ k, IsKeyword d k → ¬ DeclaresAtLine ws d s k) :
    (defaults = none → header ws defaults s d = []) ∧
      ∀ pm, defaults = some pm → header ws defaults s d =
        ((pm.map.filter fun e => ¬ DeclaresAtLine ws d s e.1).map fun e => declLine d e.1 e.2).flatten := by
  refine ⟨fun h => by rw [h]; rfl, ?_⟩
  rintro pm rfl
  have hl : ∀ a i, headerLine d a i = declLine d a i := by
    intro a i
    cases d <;> rfl
  have hf : (pm.map.filter fun e => !(declared ws d s).contains e.1) =
      pm.map.filter fun e => decide (¬ DeclaresAtLine ws d s e.1) := by
    refine List.filter_congr ?_
    intro e _
    have := declared_iff hw d s e.1 hk
    by_cases hd : DeclaresAtLine ws d s e.1
    · have hm := this.2 hd
      simp [hd, hm]
    · have hm : e.1 ∉ declared ws d s := fun h => hd (this.1 h)
      simp [hd, hm]
  simp only [header, hl, hf]
  cases hp : pm.map with
  | nil => rfl
  | cons e l => rfl

/-- Two defaults, one of which the document declares. -/
def twoDefaults : PrefixMap := ⟨[(chars "ex", chars "http://ex.org/"), (chars "a", chars "http://a.org/")], false⟩

example : SaneSpace sp ∧
    header sp (some twoDefaults) (chars "# data\n  @prefix  ex : <x> .\nex:a a:b a:c .") .turtle =
      chars "@prefix a: <http://a.org/> .\n" ∧
    header sp (some twoDefaults) (chars "prefix a: <x>\n<S> {}") .sparql = chars "PREFIX ex: <http://ex.org/>\n" := by
  refine ⟨⟨rfl, by decide +kernel⟩, ?_, ?_⟩ <;> decide +kernel

/-- **C146** (default prefixes held back). Without condition on the document: a default is held back only
if the document has its declaration at the start of a line. -/
theorem C146_held_back (ws : Char → Bool) (hw : SaneSpace ws) (pm : PrefixMap) (s : Str) (d : Directive)
    (al iri : Str) (h : (al, iri) ∈ pm.map) (hd : ¬ DeclaresAtLine ws d s al) :
    ∃ pre post : Str, header ws (some pm) s d = pre ++ declLine d al iri ++ post := by
  have hl : headerLine d al iri = declLine d al iri := by cases d <;> rfl
  have hm : (al, iri) ∈ pm.map.filter fun e => !(declared ws d s).contains e.1 := by
    rw [List.mem_filter]
    refine ⟨h, ?_⟩
    have : al ∉ declared ws d s := fun hx => hd (declared_sound hw d s al hx)
    simp [this]
  obtain ⟨l1, l2, hl12⟩ := List.append_of_mem hm
  have hne : pm.map.isEmpty = false := by
    cases hp : pm.map with
    | nil => rw [hp] at h; simp at h
    | cons _ _ => rfl
  refine ⟨(l1.map fun e => headerLine d e.1 e.2).flatten, (l2.map fun e => headerLine d e.1 e.2).flatten, ?_⟩
  simp only [header, hne, hl12, ← hl]
  simp

/-- A default the document does not declare. -/
example : ¬ DeclaresAtLine sp .turtle [] (chars "ex") ∧ (chars "ex", chars "http://ex.org/") ∈ twoDefaults.map := by
  refine ⟨?_, by decide +kernel⟩
  rintro ⟨pre, w1, k, w2, w3, post, h, -⟩
  simp at h

/-- **C146** (default prefixes, refuted). It is not so that a default is put in front of every document
that does not declare it: what stands at the start of a line inside a literal counts as a declaration. -/
theorem C146_header_refuted :
    ¬ ∀ (pm : PrefixMap) (pre lit post al iri : Str),
      (al, iri) ∈ pm.map → ¬ (chars "@prefix") <:+: pre → ¬ (chars "@prefix") <:+: post → ¬ ['"'] <:+: lit →
        header sp (some pm) (pre ++ chars "\"\"\"" ++ lit ++ chars "\"\"\"" ++ post) .turtle ≠ [] := by
  intro h
  refine h ⟨[(chars "ex", chars "http://ex.org/")], false⟩ (chars "<s> <p> ") (chars "\n@prefix ex: <x> .\n")
    (chars " ; <q> ex:a .") (chars "ex") (chars "http://ex.org/") (by simp) ?_ ?_ ?_ ?_
  · rw [← List.isInfixOf_internal_iff_isInfix]
    decide +kernel
  · decide +kernel
  · decide +kernel
  · decide +kernel

#print axioms C146_source
#print axioms C146_source_refuted
#print axioms C146_declaration
#print axioms C146_keyword_refuted
#print axioms C146_header
#print axioms C146_held_back
#print axioms C146_header_refuted

end Load

import Verif.Answers.Lemmas

/-! # C143: answers to queries are shown as they are -/

namespace Answers
open Prefix (PrefixMap)

variable {T L U : Type}

/-- **C143** (variables). The value of a variable is the one at its place. -/
theorem C143_find (s : Sol T) (hn : s.vars.Nodup) (v : Str) (t : T) :
    s.get v = some t ↔ ∃ i : Nat, s.vars[i]? = some v ∧ s.vals[i]? = some (some t) := by
  constructor
  · intro h
    have h' := h
    unfold Sol.get at h
    split at h
    · simp at h
    · rename_i i hi
      rw [List.findIdx?_eq_some_iff_getElem] at hi
      obtain ⟨hl, he, _⟩ := hi
      refine ⟨i, by rw [List.getElem?_eq_getElem hl]; simpa using he, ?_⟩
      unfold Sol.at at h
      split at h
      · rename_i x hx
        rw [hx, h]
      · simp at h
  · rintro ⟨i, h1, h2⟩
    rw [get_at hn h1, Sol.at, h2]

example : (Sol.mk [['x'], ['y']] [none, some 7]).get ['y'] = some 7 := by decide +kernel

/-- **C143** (conversion). A converted answer has the converted value for each variable, and the same variables. -/
theorem C143_convert (f : T → U) (s : Sol T) (v : Str) :
    (s.convert f).get v = (s.get v).map f ∧ (s.convert f).vars = s.vars := by
  refine ⟨?_, rfl⟩
  simp only [Sol.get, Sol.convert]
  cases s.vars.findIdx? (fun x => decide (x = v)) with
  | none => rfl
  | some i => simp only [Sol.at, List.getElem?_map]; cases s.vals[i]? <;> rfl

example : ((Sol.mk [['x'], ['y']] [none, some 7]).convert (· + 1)).get ['y'] = some 8 := by decide +kernel

/-- **C143** (CSV). If all answers have the same variables, at least one, and their values can be converted, then the table is
written, and what is read from it is a header with the variables and a row for each answer, with the value of each
variable in its column; whatever characters there are in the values. -/
theorem C143_csv (O : Outside T L) (q : Sols T) (vs : List Str) (hne : q.rows ≠ []) (hn : vs.Nodup) (hv : vs ≠ [])
    (h : ∀ s ∈ q.rows, Readable O s ∧ s.vars = vs) :
    (csvTable O q).2 = true ∧
    ∃ g, Grid O q.pm vs q.rows g ∧ readCsv (csvTable O q).1 = (vs.map fun v => "?".toList ++ v) :: g := by
  obtain ⟨rows, pm⟩ := q
  cases rows with
  | nil => exact absurd rfl hne
  | cons s rows =>
    simp only at h
    have hs : s.vars = vs := (h s (by simp)).2
    simp only [csvTable, hs, List.length_map]
    refine ⟨?_, ?_⟩
    · rw [csvRows_ok]
      exact fun x hx => ⟨(h x hx).1, by rw [(h x hx).2]⟩
    · obtain ⟨g, hg, hr⟩ := csvRows_read (O := O) (pm := pm) hn hv (s :: rows) h
      refine ⟨g, hg, ?_⟩
      rw [readCsv, readGo_record (by simpa using hv)]
      have : (vs.map varText) = vs.map fun v => "?".toList ++ v := rfl
      rw [this]
      exact congrArg _ hr

/-- **C143** (errors of CSV). Writing a table as CSV succeeds exactly if all answers have as many variables as the first,
and the values can be converted. -/
theorem C143_csv_iff (O : Outside T L) (s : Sol T) (rows : List (Sol T)) (pm : PrefixMap) :
    (csvTable O ⟨s :: rows, pm⟩).2 = true ↔ ∀ r ∈ s :: rows, Readable O r ∧ r.vars.length = s.vars.length := by
  simp only [csvTable, List.length_map]
  exact csvRows_ok _

/-- **C143** (tables). A table of answers with the same variables is drawn exactly if their values can be converted; the grid
has a header with the variables after an empty corner, and a row for each answer, with its number, from one, and the
value of each variable in its column. -/
theorem C143_table (draw : Style → List (List Str) → Str) (O : Outside T L) (o : Opts) (q : Sols T) (vs : List Str)
    (hne : q.rows ≠ []) (hn : vs.Nodup) (h : ∀ s ∈ q.rows, s.vars = vs) :
    ((asciiTable draw O o q).2 = true ↔ ∀ s ∈ q.rows, Readable O s) ∧
    ((asciiTable draw O o q).2 = true → ∃ g, Grid O q.pm vs q.rows g ∧
      (asciiTable draw O o q).1 = draw (o.style.getD .modernRounded)
        (([] :: vs.map fun v => "?".toList ++ v) ::
          g.zipIdx.map fun e => (toString (e.2 + 1)).toList :: e.1) ++ "\n".toList) := by
  obtain ⟨rows, pm⟩ := q
  cases rows with
  | nil => exact absurd rfl hne
  | cons s rows =>
    simp only at h
    have hs : s.vars = vs := h s (by simp)
    have hok := gridRows_ok (O := O) (pm := pm) (s :: rows) 0
    simp only [asciiTable, hs]
    cases hg : gridRows O pm 0 (s :: rows) with
    | none =>
      rw [hg] at hok
      simpa using hok
    | some rs =>
      rw [hg] at hok
      refine ⟨by simpa using hok, fun _ => ?_⟩
      obtain ⟨g, h1, h2⟩ := gridRows_read hn _ _ _ hg h
      refine ⟨g, h1, ?_⟩
      subst h2
      have : ∀ n : Nat, (toString n).toList = Nat.toDigits 10 n := fun n => by simp [toString, Nat.repr]
      simp only [this]
      rfl

/-- **C143** (JSON). The map of an answer has the text of the value of each variable that is bound, and no other entry; no
variable occurs twice. -/
theorem C143_json (O : Outside T L) (s : Sol T) (hn : s.vars.Nodup) :
    (∀ v x, (v, x) ∈ s.entries O ↔ ∃ t, s.get v = some t ∧ x = O.text t) ∧ ((s.entries O).map Prod.fst).Nodup := by
  constructor
  · intro v x
    simp only [Sol.entries, List.mem_filterMap, Option.map_eq_some_iff, Prod.mk.injEq, Prod.exists]
    constructor
    · rintro ⟨v', o, hm, t, rfl, rfl, rfl⟩
      obtain ⟨i, hi⟩ := List.mem_iff_getElem?.1 hm
      rw [List.getElem?_zip_eq_some] at hi
      exact ⟨t, (C143_find s hn _ _).2 ⟨i, hi.1, hi.2⟩, rfl⟩
    · rintro ⟨t, ht, rfl⟩
      obtain ⟨i, h1, h2⟩ := (C143_find s hn _ _).1 ht
      refine ⟨v, some t, List.mem_iff_getElem?.2 ⟨i, ?_⟩, t, rfl, rfl, rfl⟩
      rw [List.getElem?_zip_eq_some]
      exact ⟨h1, h2⟩
  · have : ((s.entries O).map Prod.fst).Sublist s.vars := by
      unfold Sol.entries
      obtain ⟨vars, vals⟩ := s
      simp only
      clear hn
      induction vars generalizing vals with
      | nil => simp
      | cons v vars ih =>
        cases vals with
        | nil => simp
        | cons o vals =>
          cases o with
          | none => simpa using (ih vals).trans (List.sublist_cons_self _ _)
          | some t => simpa using (ih vals).cons_cons v
    exact this.nodup hn

/-- **C143** (several sources). A query is answered exactly if each source answers it; the answers are those of the first source,
of the second, and so on, with their terms converted; an alias has the meaning that the last source with it gives. -/
theorem C143_select (f : T → U) (p : Option (Sols T) × PrefixMap) (es : List (Option (Sols T) × PrefixMap))
    (hp : ∀ e ∈ p :: es, (e.2.map.map Prod.fst).Nodup) :
    ((∃ q, select f p es = some q) ↔ ∀ e ∈ p :: es, e.1 ≠ none) ∧
    ∀ q, select f p es = some q →
      (∃ as : List (Sols T), (p :: es).map Prod.fst = as.map some ∧
        q.rows = (as.map fun a => a.rows.map (Sol.convert f)).flatten ∧ q.count = (as.map Sols.count).sum) ∧
      ∀ al, q.pm.find al = lastFind ((p :: es).map Prod.snd) al := by
  have key : ∀ q, select f p es = some q ↔ ∃ as : List (Sols T), (p :: es).map Prod.fst = as.map some ∧
      q.rows = as.flatMap (fun a => a.rows.map (Sol.convert f)) ∧
      q.pm = ((p :: es).map Prod.snd).foldl (fun m e => m.merge e) PrefixMap.new := by
    intro q
    have := selectFrom_iff (f := f) (p :: es) Sols.empty q
    simp only [Sols.empty, List.nil_append, List.foldl_cons] at this
    rw [List.foldl_map, List.foldl_cons, ← this]
    obtain ⟨a, pm⟩ := p
    cases a <;> simp [select, selectFrom, Sols.empty, Sols.extend]
  constructor
  · constructor
    · rintro ⟨q, hq⟩ e he
      obtain ⟨as, h1, _⟩ := (key q).1 hq
      have : e.1 ∈ (p :: es).map Prod.fst := List.mem_map_of_mem he
      rw [h1, List.mem_map] at this
      obtain ⟨a, _, ha⟩ := this
      simp [← ha]
    · intro h
      have : ∃ as : List (Sols T), (p :: es).map Prod.fst = as.map some := by
        generalize p :: es = l at h
        induction l with
        | nil => exact ⟨[], rfl⟩
        | cons e l ih =>
          obtain ⟨as, has⟩ := ih fun e he => h e (List.mem_cons_of_mem _ he)
          cases he : e.1 with
          | none => exact absurd he (h e (by simp))
          | some a => exact ⟨a :: as, by simp [he, has]⟩
      obtain ⟨as, has⟩ := this
      exact ⟨⟨_, _⟩, (key _).2 ⟨as, has, rfl, rfl⟩⟩
  · intro q hq
    obtain ⟨as, h1, h2, h3⟩ := (key q).1 hq
    refine ⟨⟨as, h1, by rw [h2, List.flatMap_def], ?_⟩, fun al => ?_⟩
    · rw [Sols.count, h2, List.length_flatMap]
      simp only [List.length_map]
      rfl
    · rw [h3, foldl_merge_find _ _ al]
      · simp [PrefixMap.find, PrefixMap.new, Prefix.imGet]
      · intro m hm
        obtain ⟨e, he, rfl⟩ := List.mem_map.1 hm
        exact hp e he

/-- **C143** (several sources, yes or no). The answer is yes exactly if a source says so and those before it say no; it is no
exactly if all do; otherwise there is an error of the first source that does not say no. -/
theorem C143_ask (l : List (Option Bool)) :
    (ask l = some true ↔ ∃ a b, l = a ++ some true :: b ∧ ∀ x ∈ a, x = some false) ∧
    (ask l = some false ↔ ∀ x ∈ l, x = some false) ∧
    (ask l = none ↔ ∃ a b, l = a ++ none :: b ∧ ∀ x ∈ a, x = some false) := by
  have cons_ex : ∀ (y : Option Bool) (l : List (Option Bool)), y ≠ some false →
      ((∃ a b, some false :: l = a ++ y :: b ∧ ∀ x ∈ a, x = some false) ↔
        ∃ a b, l = a ++ y :: b ∧ ∀ x ∈ a, x = some false) := by
    intro y l hy
    constructor
    · rintro ⟨a, b, he, ha⟩
      cases a with
      | nil =>
        simp only [List.nil_append, List.cons.injEq] at he
        exact absurd he.1.symm hy
      | cons c a =>
        simp only [List.cons_append, List.cons.injEq] at he
        exact ⟨a, b, he.2, fun x hx => ha x (by simp [hx])⟩
    · rintro ⟨a, b, rfl, ha⟩
      exact ⟨some false :: a, b, rfl, by simpa using ha⟩
  have head : ∀ (x y : Option Bool) (l : List (Option Bool)), x ≠ some false →
      ((∃ a b, x :: l = a ++ y :: b ∧ ∀ z ∈ a, z = some false) ↔ x = y) := by
    intro x y l hx
    constructor
    · rintro ⟨a, b, he, ha⟩
      cases a with
      | nil => simpa using (List.cons.inj he).1
      | cons c a =>
        have h1 := ha c (by simp)
        have h2 : x = c := by simpa using (List.cons.inj he).1
        exact absurd (h2.trans h1) hx
    · rintro rfl
      exact ⟨[], l, rfl, by simp⟩
  induction l with
  | nil => simp [ask]
  | cons x l ih =>
    rcases x with _ | _ | _
    · refine ⟨?_, ?_, ?_⟩
      · rw [head _ _ _ (by simp)]; simp [ask]
      · simp [ask]
      · rw [head _ _ _ (by simp)]; simp [ask]
    · refine ⟨?_, ?_, ?_⟩
      · rw [cons_ex _ _ (by simp)]; exact ih.1
      · simpa [ask] using ih.2.1
      · rw [cons_ex _ _ (by simp)]; exact ih.2.2
    · refine ⟨?_, ?_, ?_⟩
      · rw [head _ _ _ (by simp)]; simp [ask]
      · simp [ask]
      · rw [head _ _ _ (by simp)]; simp [ask]

example : ask [some false, some true, none] = some true := rfl

/-- **C143** (several sources, graphs). A graph is made exactly if each source makes one; its text is that of the first, of the
second, and so on. -/
theorem C143_construct (es : List (Option Str)) (p : Option Str) (s : Str) :
    construct p es = some s ↔ ∃ ss : List Str, p :: es = ss.map some ∧ s = ss.flatten := by
  unfold construct
  induction es generalizing p with
  | nil =>
    constructor
    · rintro rfl; exact ⟨[s], rfl, by simp⟩
    · rintro ⟨ss, h, rfl⟩
      cases ss with
      | nil => simp at h
      | cons a ss =>
        simp only [List.map_cons, List.cons.injEq] at h
        have : ss = [] := by simpa using h.2.symm
        subst this
        simp [h.1]
  | cons e es ih =>
    rw [List.foldl_cons, ih]
    constructor
    · rintro ⟨ss, h, rfl⟩
      cases ss with
      | nil => simp at h
      | cons a ss =>
        simp only [List.map_cons, List.cons.injEq, Option.bind_eq_some_iff, Option.map_eq_some_iff] at h
        obtain ⟨⟨o, rfl, x, rfl, rfl⟩, h2⟩ := h
        exact ⟨o :: x :: ss, by simp [h2], by simp⟩
    · rintro ⟨ss, h, rfl⟩
      match ss, h with
      | o :: x :: ss, h =>
        simp only [List.map_cons, List.cons.injEq] at h
        obtain ⟨rfl, rfl, hh⟩ := h
        exact ⟨(o ++ x) :: ss, by simp [hh], by simp⟩

example : construct (some ['a']) [some ['b'], some ['c']] = some ['a', 'b', 'c'] := rfl

/-- **C143** (formats). Answers are written exactly in the formats for tables and JSON; JSON has no further conditions, the two
formats of drawings have those of the table, and CSV its own. -/
theorem C143_formats (draw : Style → List (List Str) → Str) (json : List (List (Str × Str)) × PrefixMap → Str)
    (O : Outside T L) (f : Option RFormat) (q : Sols T) :
    (serialize draw json O f (some (.select q))).2 = true ↔
      (f = none ∨ f = some .internal ∨ f = some .markdown) ∧ (q.rows = [] ∨ ∀ s ∈ q.rows, Readable O s) ∨
      f = some .csv ∧ (∀ s ∈ q.rows.head?, ∀ r ∈ q.rows, Readable O r ∧ r.vars.length = s.vars.length) ∨
      f = some .json := by
  have ha : ∀ o, (asciiTable draw O o q).2 = true ↔ (q.rows = [] ∨ ∀ s ∈ q.rows, Readable O s) := by
    intro o
    obtain ⟨rows, pm⟩ := q
    cases rows with
    | nil => simp [asciiTable]
    | cons s rows =>
      have hok := gridRows_ok (O := O) (pm := pm) (s :: rows) 0
      simp only [asciiTable]
      cases hg : gridRows O pm 0 (s :: rows) with
      | none => rw [hg] at hok; simpa using hok
      | some rs => rw [hg] at hok; simpa using hok
  have hc : (csvTable O q).2 = true ↔ ∀ s ∈ q.rows.head?, ∀ r ∈ q.rows, Readable O r ∧ r.vars.length = s.vars.length := by
    obtain ⟨rows, pm⟩ := q
    cases rows with
    | nil => simp [csvTable]
    | cons s rows => rw [C143_csv_iff]; simp
  rcases f with _ | f
  · simp [serialize, writeTable, ha]
  · cases f <;> simp [serialize, writeTable, ha, hc]

/-- **C143** (kinds). A query that asks for answers, a graph or yes or no keeps what the sources say, and fails if they do. -/
theorem C143_run (sel : Option (Sols T)) (con : Option Str) (as : Option Bool) :
    (∀ q, runQuery .select sel con as = .ok (.select q) ↔ sel = some q) ∧
    (∀ s, runQuery .construct sel con as = .ok (.construct s : Result T) ↔ con = some s) ∧
    (∀ b, runQuery .ask sel con as = .ok (.ask b : Result T) ↔ as = some b) ∧
    ∀ k, k ≠ .describe → runQuery k sel con as ≠ .panic := by
  refine ⟨?_, ?_, ?_, ?_⟩
  · intro q; cases sel <;> simp [runQuery]
  · intro q; cases con <;> simp [runQuery]
  · intro q; cases as <;> simp [runQuery]
  · intro k hk
    cases k
    · cases sel <;> simp [runQuery]
    · cases con <;> simp [runQuery]
    · cases as <;> simp [runQuery]
    · exact absurd rfl hk

/-- **C143** is false of the code for queries that describe: they panic, whatever the sources say. -/
theorem C143_describe_refuted (sel : Option (Sols T)) (con : Option Str) (as : Option Bool) :
    runQuery .describe sel con as = .panic := rfl

/-- **C143** is false of the code for Markdown: what is written is what is written without it. -/
theorem C143_markdown_refuted (draw : Style → List (List Str) → Str) (json : List (List (Str × Str)) × PrefixMap → Str)
    (O : Outside T L) (q : Sols T) :
    serialize draw json O (some .markdown) (some (.select q)) = serialize draw json O none (some (.select q)) := rfl

/-- Terms that are texts: an IRI if they begin with `h`, and otherwise a literal. -/
def exOut : Outside Str Str where
  text t := t
  obj t := if t.head? = some 'h' then some (.iri t) else some (.lit t)
  lit l := '"' :: l ++ ['"']
  litQ _ l := '"' :: l ++ ['"']

/-- Two sources with the variables in different orders. -/
def exFirst : Option (Sols Str) × PrefixMap :=
  (some ⟨[⟨["x".toList, "y".toList], [some "h:a".toList, some "1,2".toList]⟩], .new⟩, .new)

def exSecond : Option (Sols Str) × PrefixMap :=
  (some ⟨[⟨["y".toList, "x".toList], [some "3".toList, some "h:b".toList]⟩], .new⟩, .new)

/-- **C143** is false of the code without the same order of variables: the answers of two sources can have them in different
orders, and then a table shows values in the columns of other variables. -/
theorem C143_columns_refuted :
    (select id exFirst [exSecond]).map (fun q => readCsv (csvTable exOut q).1) =
      some [["?x".toList, "?y".toList], ["<h:a>".toList, "\"1,2\"".toList], ["\"3\"".toList, "<h:b>".toList]] ∧
    (select id exFirst [exSecond]).map (fun q => q.rows.map fun s => s.get "x".toList) =
      some [some "h:a".toList, some "h:b".toList] := by
  constructor <;> decide +kernel

/-- **C143** is false of the code for no answers: what is written is read as a table with a column `No results`. -/
theorem C143_empty_refuted (O : Outside T L) (pm : PrefixMap) :
    readCsv (csvTable O (⟨[], pm⟩ : Sols T)).1 = [["No results".toList]] := by
  show readCsv "No results".toList = _
  decide +kernel

/-- The hypotheses of `C143_csv` are met by an answer with a comma and quotation marks. -/
example : ∃ q : Sols Str, q.rows ≠ [] ∧ (∀ s ∈ q.rows, Readable exOut s ∧ s.vars = ["x".toList, "y".toList]) ∧
    readCsv (csvTable exOut q).1 = [["?x".toList, "?y".toList], ["\"1,\n2\"".toList, []]] := by
  refine ⟨⟨[⟨["x".toList, "y".toList], [some "1,\n2".toList, none]⟩], .new⟩, by simp, ?_, by decide +kernel⟩
  intro s _
  refine ⟨fun i _ t _ => ?_, by simp_all⟩
  simp only [exOut]
  split <;> simp

example : (select id exFirst [exSecond]).map (·.count) = some 2 ∧ (select id exFirst [(none, .new)]).isNone := by
  decide +kernel

example : (Sol.mk ["x".toList, "y".toList] [some "1".toList, none]).entries exOut = [("x".toList, "1".toList)] := by
  decide +kernel

example : asciiTable (fun _ g => g.flatten.flatten) exOut .default ⟨[⟨["x".toList], [some "7".toList]⟩], .new⟩ =
    ("?x1\"7\"\n".toList, true) := by decide +kernel

example : (serialize (fun _ _ => []) (fun _ => []) exOut (some .turtle) (some (.select ⟨[], .new⟩))).2 = false := rfl

#print axioms C143_find
#print axioms C143_convert
#print axioms C143_csv
#print axioms C143_csv_iff
#print axioms C143_table
#print axioms C143_json
#print axioms C143_select
#print axioms C143_ask
#print axioms C143_construct
#print axioms C143_formats
#print axioms C143_run

end Answers

import Verif.Shacl.SparqlTextLemmas
import Verif.Shacl.PrimProps

/-!
# Properties: texts in SPARQL queries, and SPARQL-based constraints

C127: terms and paths are read back from the texts that are written for them. C128: where the focus node and the path are
put in the query of a constraint; what is reported for the solutions.
-/

namespace Shacl
open Lit

/-! ## C127 -/

/-- **C127**, terms. IRIs and literals, with any characters in the text of the literal, are read back from what is written
for them, as nothing else, and what follows is left; if what follows does not go on with a language tag. -/
theorem C127_terms (t : WTerm) (ht : t.Fine) (rest : Str) (hr : ∀ c, rest.head? = some c → ¬ TagChar c) (t' : WTerm)
    (rest' : Str) : ReadsTerm (t.text ++ rest) t' rest' ↔ t' = t ∧ rest' = rest := by
  constructor
  · intro h
    obtain ⟨rfl, rfl⟩ := reads_det h (reads_text ht hr)
    exact ⟨rfl, rfl⟩
  · rintro ⟨rfl, rfl⟩
    exact reads_text ht hr

/-- **C127** (partial), paths. A path without empty lists is read from its text as a path that relates the same nodes in
all graphs, and what follows is left, if it does not begin with an operator of paths.

Missing: empty alternatives and sequences (`C127_paths_refuted`). -/
theorem C127_paths_partial (p : Path Str) (hp : PathFine p) (rest : Str)
    (hr : ∀ c, rest.head? = some c → c ∉ ['*', '+', '?', '/', '|']) :
    ∃ q N, (∀ n, N ≤ n → readAlt n (pathText p ++ rest) = some (q, rest)) ∧
      ∀ (g : Graph Term Str) (x y : Term), Rel g q x y ↔ Rel g p x y := by
  have h := alt_elt (elt_text p hp rest fun c h h' => hr c h (by
    simp only [List.mem_cons, List.not_mem_nil, or_false] at h' ⊢; tauto)) fun c h => by
      have := hr c h
      simp only [List.mem_cons, List.not_mem_nil, or_false, not_or] at this
      exact ⟨this.2.2.2.1, this.2.2.2.2⟩
  obtain ⟨q, hq, N, hn⟩ := h
  exact ⟨q, N, hn, hq⟩

/-- **C127** is false of the code for empty alternatives and sequences, whose text is `()` and is not a path, whatever
follows. -/
theorem C127_paths_refuted (rest : Str) (n : Nat) :
    readAlt n (pathText (.alt []) ++ rest) = none ∧ readAlt n (pathText (.seq []) ++ rest) = none := by
  have h : readAlt n ('(' :: ')' :: rest) = none := by
    have h1 : ∀ n, readPrim n (')' :: rest) = none := by
      intro n; cases n <;> simp [readPrim]
    have h2 : ∀ n, readMod n (')' :: rest) = none := by
      intro n
      cases n with
      | zero => rfl
      | succ n => rw [readMod, h1]
    have h3 : ∀ n, readElt n (')' :: rest) = none := by
      intro n
      cases n with
      | zero => rfl
      | succ n => rw [readElt, h2]; simp
    have h4 : ∀ n, readSeq n (')' :: rest) = none := by
      intro n
      cases n with
      | zero => rfl
      | succ n => rw [readSeq, h3]
    have h5 : ∀ n, readAlt n (')' :: rest) = none := by
      intro n
      cases n with
      | zero => rfl
      | succ n => rw [readAlt, h4]
    have g1 : ∀ n, readPrim n ('(' :: ')' :: rest) = none := by
      intro n
      cases n with
      | zero => rfl
      | succ n => rw [readPrim, h5]
    have g2 : ∀ n, readMod n ('(' :: ')' :: rest) = none := by
      intro n
      cases n with
      | zero => rfl
      | succ n => rw [readMod, g1]
    have g3 : ∀ n, readElt n ('(' :: ')' :: rest) = none := by
      intro n
      cases n with
      | zero => rfl
      | succ n => rw [readElt, g2]; simp
    have g4 : ∀ n, readSeq n ('(' :: ')' :: rest) = none := by
      intro n
      cases n with
      | zero => rfl
      | succ n => rw [readSeq, g3]
    cases n with
    | zero => rfl
    | succ n => rw [readAlt, g4]
  exact ⟨by simpa [pathText, joinText] using h, by simpa [pathText, joinText] using h⟩

/-- A text with quotes and backslashes, followed by a bracket. -/
example : (WTerm.lit "a\" ) } \\".toList (.lang "en".toList)).Fine ∧
    (WTerm.lit "a\" ) } \\".toList (.lang "en".toList)).text = "\"a\\\" ) } \\\\\"@en".toList ∧
    ∀ c, ([')'] : Str).head? = some c → ¬ TagChar c := by
  refine ⟨⟨by simp, ?_⟩, by decide +kernel, ?_⟩
  · intro c hc
    have : c = 'e' ∨ c = 'n' := by simpa using hc
    rcases this with rfl | rfl <;> exact Or.inl (by decide)
  · intro c h
    cases h
    rintro (h | h)
    · exact absurd h (by decide)
    · exact absurd h (by decide)

/-- An inverse, a repetition and alternatives. -/
example : pathText (.seq [.inv (.pred ['p']), .star (.alt [.pred ['q'], .pred ['r']])]) = "(^(<p>)/((<q>|<r>))*)".toList ∧
    PathFine (.seq [.inv (.pred ['p']), .star (.alt [.pred ['q'], .pred ['r']])]) ∧
    ((readAlt 60 "(^(<p>)/((<q>|<r>))*) ?x".toList).map fun r => (pathText r.1, r.2)) =
      some ("(^(<p>)/((<q>|<r>))*)".toList, " ?x".toList) := by
  refine ⟨by decide +kernel, ?_, by decide +kernel⟩
  simp [PathFine, PathsFine, IriChar]

/-! ## C128: the text of the query -/

theorem before_append {pat : Str} (hp : pat ≠ []) (b : Str) : ∀ a : Str, ∃ pre r,
    before pat (a ++ pat ++ b) = some pre ∧ a = pre ++ r
  | [] => by
    cases pat with
    | nil => exact absurd rfl hp
    | cons c pat => exact ⟨[], [], by simp [before], rfl⟩
  | c :: a => by
    simp only [List.cons_append, before]
    split
    · exact ⟨[], c :: a, rfl, rfl⟩
    · obtain ⟨pre, r, h, rfl⟩ := before_append hp b a
      exact ⟨c :: pre, r, by rw [h]; rfl, rfl⟩

theorem ascii_size {c : Char} (h : c.toNat < 128) : c.utf8Size = 1 := by
  have : c.val ≤ 127 := by
    have : c.val.toNat < 128 := h
    exact UInt32.le_iff_toNat_le.2 (by simp; omega)
  simp [Char.utf8Size, this]

theorem bytes_ascii : ∀ {s : Str}, (∀ c ∈ s, c.toNat < 128) → bytes s = s.length
  | [], _ => rfl
  | c :: s, h => by
    have := bytes_ascii fun c h' => h c (List.mem_cons_of_mem _ h')
    simp only [bytes, List.map_cons, List.sum_cons, List.length_cons] at this ⊢
    rw [this, ascii_size (h c List.mem_cons_self)]
    omega

theorem cut_ascii : ∀ (a b : Str), (∀ c ∈ a, c.toNat < 128) → cutBytes a.length (a ++ b) = some (a, b)
  | [], b, _ => by simp [cutBytes]
  | c :: a, b, h => by
    simp only [List.length_cons, List.cons_append, cutBytes, ascii_size (h c List.mem_cons_self)]
    simp [cut_ascii a b fun c h' => h c (List.mem_cons_of_mem _ h')]

theorem before_brace : ∀ (a b : Str), (∀ c ∈ a, c ≠ '{') → before ['{'] (a ++ '{' :: b) = some a
  | [], b, _ => by simp [before]
  | c :: a, b, h => by
    have hc : ('{' == c) = false := by
      rw [Bool.eq_false_iff]
      exact fun e => h c List.mem_cons_self (beq_iff_eq.1 e).symm
    have ih := before_brace a b fun c h' => h c (List.mem_cons_of_mem _ h')
    simp only [List.cons_append, before, List.isPrefixOf, hc, Bool.false_and, Bool.false_eq_true, if_false, ih, Option.map_some]

theorem upper_ascii {c : Char} (h : c.toNat < 128) : c.toUpper.toNat < 128 := by
  simp only [Char.toUpper]
  split
  · rename_i hc
    have h1 : c.val.toNat < 128 := h
    have h2 : (97 : UInt32) ≤ c.val := hc.1
    have h3 := UInt32.le_iff_toNat_le.1 h2
    simp at h3
    simp only [Char.toNat]
    simp [UInt32.toNat_add]
    omega
  · exact h

/-- **C128** (partial), the focus node. If the text before the first brace is ASCII and has the word `WHERE` in it, in any
case, then the clause with the focus node is put right after this brace.

Missing: queries without the word, with the word before another brace, or with other characters
(`C128_inject_refuted`). -/
theorem C128_inject_partial (upper : Char → Str) (hu : ∀ c, c.toNat < 128 → upper c = [c.toUpper]) (head rest v : Str)
    (ha : ∀ c ∈ head, c.toNat < 128 ∧ c ≠ '{')
    (hw : ∃ a w b, head = a ++ w ++ b ∧ w.map Char.toUpper = ['W', 'H', 'E', 'R', 'E']) :
    inject upper (head ++ '{' :: rest) v = some (head ++ '{' :: ' ' :: v ++ rest) := by
  obtain ⟨a, w, b, rfl, hw⟩ := hw
  have hup : ∀ s : Str, (∀ c ∈ s, c.toNat < 128) → s.flatMap upper = s.map Char.toUpper := by
    intro s hs
    induction s with
    | nil => rfl
    | cons c s ih =>
      rw [List.flatMap_cons, hu c (hs c List.mem_cons_self), ih fun c h => hs c (List.mem_cons_of_mem _ h)]
      rfl
  obtain ⟨pre, r, h1, h2⟩ := before_append (pat := kwWhere) (by simp [kwWhere])
    ((b ++ '{' :: rest).flatMap upper) (a.map Char.toUpper)
  have htext : (a ++ w ++ b ++ '{' :: rest).flatMap upper = a.map Char.toUpper ++ kwWhere ++
      (b ++ '{' :: rest).flatMap upper := by
    rw [List.append_assoc, List.flatMap_append, List.flatMap_append, hup a, hup w, hw]
    · rfl
    · intro c hc; exact (ha c (by simp [hc])).1
    · intro c hc; exact (ha c (by simp [hc])).1
  obtain ⟨a1, a2, rfl, h3, h4⟩ := List.map_eq_append_iff.1 h2
  have hb : bytes pre = a1.length := by
    rw [← h3, bytes_ascii, List.length_map]
    intro c hc
    obtain ⟨d, hd, rfl⟩ := List.mem_map.1 hc
    exact upper_ascii (ha d (by simp [hd])).1
  have hcut : cutBytes a1.length (a1 ++ a2 ++ w ++ b ++ '{' :: rest) = some (a1, a2 ++ w ++ b ++ '{' :: rest) := by
    have := cut_ascii a1 (a2 ++ w ++ b ++ '{' :: rest) fun c hc => (ha c (by simp [hc])).1
    simpa using this
  have hbr : before ['{'] (a2 ++ w ++ b ++ '{' :: rest) = some (a2 ++ w ++ b) := by
    apply before_brace
    intro c hc
    exact (ha c (by simp only [List.mem_append] at hc ⊢; tauto)).2
  simp only [inject, htext, h1, hb, hcut, hbr]
  congr 1
  have : (a2 ++ w ++ b ++ '{' :: rest).drop ((a2 ++ w ++ b).length + 1) = rest := by
    have e : a2 ++ w ++ b ++ '{' :: rest = (a2 ++ w ++ b ++ ['{']) ++ rest := by simp
    have l : (a2 ++ w ++ b).length + 1 = (a2 ++ w ++ b ++ ['{']).length := by simp; omega
    rw [e, l, List.drop_left]
  rw [this]
  simp

/-- `to_uppercase`, for ASCII and one other letter, which becomes three. -/
def upperEx (c : Char) : Str := if c = 'ΐ' then ['Ι', '̈', '́'] else [c.toUpper]

/-- **C128** is false of the code for queries without the word `WHERE`, which SPARQL does not ask for: the clause comes
before the query. With the word in a comment, before a brace, the clause gets into the comment. With letters that become
longer the clause comes before the query, or there is a panic. -/
theorem C128_inject_refuted :
    inject upperEx "SELECT ?this { ?this ?p ?o }".toList "V".toList = some "V SELECT ?this { ?this ?p ?o }".toList ∧
    inject upperEx "# where {\nSELECT ?this WHERE { ?this ?p ?o }".toList "V".toList =
      some "# where { V\nSELECT ?this WHERE { ?this ?p ?o }".toList ∧
    inject upperEx "SELECT (\"ΐΐ\" AS ?x) WHERE { ?this ?p ?o }".toList "V".toList =
      some "V SELECT (\"ΐΐ\" AS ?x) WHERE { ?this ?p ?o }".toList ∧
    inject upperEx "SELECT (\"ΐΐ\" AS ?x) WHERE #é\n{ ?this ?p ?o }".toList "V".toList = none := by
  decide +kernel

/-- The word in lower case, with a variable before it that has it in its name. -/
example : inject upperEx "SELECT ?whereabouts where { ?this ?p ?o }".toList "V".toList =
    some "SELECT ?whereabouts where { V ?this ?p ?o }".toList ∧
    (∀ c, c.toNat < 128 → upperEx c = [c.toUpper]) ∧
    ("SELECT ?whereabouts where ".toList.all fun c => c.toNat < 128 && c != '{') = true := by
  refine ⟨by decide +kernel, ?_, by decide +kernel⟩
  intro c h
  have : c ≠ 'ΐ' := by
    rintro rfl
    exact absurd h (by decide +kernel)
  simp [upperEx, this]

theorem replace_none {new : Str} : ∀ (n : Nat) (a : Str), ¬ kwPath <:+: a → replaceAll kwPath new n a = a
  | 0, _, _ => rfl
  | _ + 1, [], _ => rfl
  | n + 1, c :: a, h => by
    have h1 : kwPath.isPrefixOf (c :: a) = false := by
      rw [Bool.eq_false_iff, ne_eq, List.isPrefixOf_iff_prefix]
      exact fun h' => h h'.isInfix
    simp only [replaceAll, h1, Bool.false_eq_true, if_false]
    rw [replace_none n a fun h' => h (h'.trans (List.suffix_cons c a).isInfix)]

theorem replace_append {new : Str} (s : Str) : ∀ (n : Nat) (a : Str), ¬ kwPath <:+: a → a.length < n →
    replaceAll kwPath new n (a ++ kwPath ++ s) = a ++ new ++ replaceAll kwPath new (n - a.length - 1) s
  | 0, a, _, hn => by omega
  | n + 1, [], h, hn => by
    have : ∃ c t, kwPath = c :: t := ⟨_, _, rfl⟩
    simp [kwPath, replaceAll]
  | n + 1, c :: a, h, hn => by
    have h1 : kwPath.isPrefixOf (c :: (a ++ kwPath ++ s)) = false := by
      rw [Bool.eq_false_iff, ne_eq, List.isPrefixOf_iff_prefix]
      intro hp
      by_cases hl : 5 ≤ (c :: a).length
      · exact h (List.prefix_of_prefix_length_le hp (l₂ := c :: a)
          ⟨kwPath ++ s, by simp⟩ (by simpa [kwPath] using hl)).isInfix
      · match a, hl with
        | [], _ => simp [kwPath] at hp
        | [a1], _ => simp [kwPath] at hp
        | [a1, a2], _ => simp [kwPath] at hp
        | [a1, a2, a3], _ => simp [kwPath] at hp
        | _ :: _ :: _ :: _ :: _, hl => exact absurd (by simp) hl
    simp only [List.cons_append, replaceAll, h1, Bool.false_eq_true, if_false]
    have := replace_append (new := new) s n a (fun h' => h (h'.trans (List.suffix_cons c a).isInfix))
      (by simp at hn; omega)
    rw [this]
    simp

/-- **C128**, the path. All occurrences of `$PATH` in a query are replaced by the text of the path, and nothing else. -/
theorem C128_path (new : Str) : ∀ (parts : List Str) (_ : ∀ a ∈ parts, ¬ "$PATH".toList <:+: a) (n : Nat)
    (_ : ("$PATH".toList.intercalate parts).length ≤ n),
    replaceAll kwPath new n ("$PATH".toList.intercalate parts) = new.intercalate parts
  | [], _, n, _ => by cases n <;> rfl
  | [a], h, n, _ => by
    have : ∀ s : Str, s.intercalate [a] = a := by intro s; simp [List.intercalate]
    rw [this, this]
    exact replace_none n a (h a (by simp))
  | a :: b :: l, h, n, hn => by
    have e : ∀ s : Str, s.intercalate (a :: b :: l) = a ++ s ++ s.intercalate (b :: l) := by
      intro s; simp [List.intercalate]
    rw [e] at hn ⊢
    rw [e]
    simp only [List.length_append] at hn
    have h5 : "$PATH".toList.length = 5 := rfl
    have hk : "$PATH".toList = kwPath := rfl
    rw [hk] at hn ⊢
    have hl : kwPath.length = 5 := rfl
    rw [replace_append _ n a (h a (by simp)) (by omega)]
    have ih := C128_path new (b :: l) (fun a h' => h a (List.mem_cons_of_mem _ h')) (n - a.length - 1)
      (by rw [hk]; omega)
    rw [hk] at ih
    rw [ih]

/-! ## C128: the results -/

section
variable {D : Type} (E : Env D) (X : SparqlExt)

/-- What SHACL says of the result for a solution of the query for a focus node (5.3.2): the path is that of the solution, or
else that of the shape; the value is that of the solution, or else, for a node shape, the focus node; the message is the
text of the literal of the solution, or else that of the constraint. -/
structure Expected (message : Str) (path : Option (Path Str)) (x : Term) (r : Row) (h : SparqlHit D) : Prop where
  focus : some h.focus = E.obj x
  bound_path : ∀ i, r ['p', 'a', 't', 'h'] = some (.iri i) → h.path = some (.pred i)
  shape_path : (∀ i, r ['p', 'a', 't', 'h'] ≠ some (.iri i)) → h.path = path
  bound_value : ∀ t, r ['v', 'a', 'l', 'u', 'e'] = some t → h.value = E.obj t
  node_value : r ['v', 'a', 'l', 'u', 'e'] = none → path = none → h.value = E.obj x
  no_value : r ['v', 'a', 'l', 'u', 'e'] = none → path ≠ none → h.value = none
  bound_message : ∀ l, r ['m', 'e', 's', 's', 'a', 'g', 'e'] = some (.lit l) → h.message = l.lex
  own_message : r ['m', 'e', 's', 's', 'a', 'g', 'e'] = none → h.message = message

variable {E X}

/-- **C128** (partial), results. If all queries are answered, then there is one result for each solution, in the order of
the focus nodes and the solutions, as SHACL says.

Missing: solutions with `?message`, which is reported with its quotes, and solutions without `?value` for property shapes,
which get the focus node as value (`C128_results_refuted`). -/
theorem C128_results_partial (c : SparqlC) (hc : c.deactivated ≠ some true) (path : Option (Path Str)) (xs : List Term)
    (rows : Term → List Row)
    (hx : ∀ x ∈ xs, E.obj x ≠ none ∧ ∃ q, sparqlQuery X c path x = some q ∧ X.store q = some (rows x))
    (hr : ∀ x ∈ xs, ∀ r ∈ rows x, r vFailure = none ∧ (r vThis = none ∨ r vThis = some x) ∧
      (∀ t, r vValue = some t → E.obj t ≠ none) ∧ (r vValue ≠ none ∨ path = none) ∧ r vMessage = none) :
    ∃ hs, sparqlConstraint E X c path xs = .ok hs ∧
      List.Forall₂ (fun (xr : Term × Row) h => Expected E c.message path xr.1 xr.2 h)
        (xs.flatMap fun x => (rows x).map fun r => (x, r)) hs := by
  simp only [sparqlConstraint, hc, if_false]
  induction xs with
  | nil => exact ⟨[], rfl, .nil⟩
  | cons x xs ih =>
    obtain ⟨hs', h1, h2⟩ := ih (fun x h => hx x (List.mem_cons_of_mem _ h)) fun x h => hr x (List.mem_cons_of_mem _ h)
    obtain ⟨ho, q, hq, hst⟩ := hx x List.mem_cons_self
    have hrow : ∃ hs, (rows x).mapM (sparqlRow E X c path x) = some hs ∧
        List.Forall₂ (fun (xr : Term × Row) h => Expected E c.message path xr.1 xr.2 h)
          ((rows x).map fun r => (x, r)) hs := by
      have hr := hr x List.mem_cons_self
      generalize rows x = rs at hr
      clear hst
      induction rs with
      | nil => exact ⟨[], rfl, .nil⟩
      | cons r rs ih =>
        obtain ⟨hs, e1, e2⟩ := ih fun r h => hr r (List.mem_cons_of_mem _ h)
        obtain ⟨hf, ht, hv, hv', hm⟩ := hr r List.mem_cons_self
        obtain ⟨o, ho⟩ := Option.ne_none_iff_exists'.1 ho
        have hthis : (r vThis).getD x = x := by rcases ht with h | h <;> simp [h]
        have hrow : sparqlRow E X c path x r = some
            { focus := o
              path := ((r vPath).bind fun t => match E.obj t with
                | some (.iri i) => some (.pred i)
                | _ => none).or path
              value := ((r vValue).bind E.obj).or (E.obj x)
              message := c.message } := by
          simp only [sparqlRow, hf, hthis, ho, hm, Option.map_some]
          rfl
        refine ⟨_ :: hs, by simp only [List.mapM_cons, hrow, e1]; rfl, ?_⟩
        rw [List.map_cons]
        refine .cons ?_ e2
        constructor
        · exact ho.symm
        · intro i h
          have : r vPath = some (.iri i) := h
          simp [this, Env.obj]
        · intro h
          have hp : (r vPath).bind (fun t => match E.obj t with
              | some (.iri i) => some (Path.pred i)
              | _ => none) = none := by
            cases h' : r vPath with
            | none => rfl
            | some t =>
              cases t with
              | iri i => exact absurd h' (h i)
              | bnode b => rfl
              | lit l =>
                simp only [Option.bind_some, Env.obj]
                cases Literal.ofRdf E.X E.norm l <;> rfl
          simp [hp]
        · intro t h
          have : r vValue = some t := h
          obtain ⟨o', ho'⟩ := Option.ne_none_iff_exists'.1 (hv t this)
          simp [this, ho']
        · intro h _
          have : r vValue = none := h
          simp [this]
        · intro h hp
          have : r vValue = none := h
          rcases hv' with h' | h'
          · exact absurd this h'
          · exact absurd h' hp
        · intro l h
          have : r vMessage = some (.lit l) := h
          rw [hm] at this
          cases this
        · intro _; rfl
    obtain ⟨hs, e1, e2⟩ := hrow
    refine ⟨hs ++ hs', by simp only [sparqlLoop, hq, hst, e1, h1], ?_⟩
    rw [List.flatMap_cons]
    exact List.rel_append e2 h2

/-- **C128**, errors. A query that is not answered, or a solution in which `?failure` is true, makes the whole an error,
whatever was found for the focus nodes before. -/
theorem C128_errors (c : SparqlC) (hc : c.deactivated ≠ some true) (path : Option (Path Str)) (xs : List Term) (x : Term)
    (ys : List Term)
    (hp : ∀ y ∈ xs, sparqlQuery X c path y ≠ none) (q : Str) (hq : sparqlQuery X c path x = some q)
    (h : X.store q = none ∨ ∃ rows r t, X.store q = some rows ∧ r ∈ rows ∧ r vFailure = some t ∧
      E.obj t = some (.lit (.bool true))) :
    sparqlConstraint E X c path (xs ++ x :: ys) = .err := by
  simp only [sparqlConstraint, hc, if_false]
  induction xs with
  | nil =>
    simp only [List.nil_append, sparqlLoop, hq]
    rcases h with h | ⟨rows, r, t, h, hr, hf, ht⟩
    · rw [h]
    · rw [h]
      have : rows.mapM (sparqlRow E X c path x) = none := by
        induction rows with
        | nil => cases hr
        | cons r' rows ih =>
          rw [List.mapM_cons]
          cases hr with
          | head =>
            have : sparqlRow E X c path x r = none := by simp [sparqlRow, hf, ht]
            rw [this]; rfl
          | tail _ hr =>
            clear h
            have ih : rows.mapM (sparqlRow E X c path x) = none := by
              clear ih
              induction rows with
              | nil => cases hr
              | cons r'' rows ih =>
                rw [List.mapM_cons]
                cases hr with
                | head =>
                  have : sparqlRow E X c path x r = none := by simp [sparqlRow, hf, ht]
                  rw [this]; rfl
                | tail _ hr =>
                  rw [ih hr]
                  cases sparqlRow E X c path x r'' <;> rfl
            rw [ih]
            cases sparqlRow E X c path x r' <;> rfl
      simp only [this]
  | cons y xs ih =>
    have ih := ih fun y h => hp y (List.mem_cons_of_mem _ h)
    obtain ⟨q', hq'⟩ := Option.ne_none_iff_exists'.1 (hp y List.mem_cons_self)
    simp only [List.cons_append, sparqlLoop, hq']
    cases X.store q' with
    | none => rfl
    | some rows =>
      simp only
      cases rows.mapM (sparqlRow E X c path y) with
      | none => rfl
      | some hs => simp only [ih]

/-- **C128**: a constraint that is deactivated reports nothing and asks no query. -/
theorem C128_deactivated (c : SparqlC) (hc : c.deactivated = some true) (path : Option (Path Str)) (xs : List Term) :
    sparqlConstraint E X c path xs = .ok [] := by
  simp [sparqlConstraint, hc]

end

/-- A store with one solution for each query. -/
def oneRow (r : Row) : SparqlExt := ⟨upperEx, fun t => match t with
  | .lit l => '"' :: l.lex ++ ['"']
  | .iri i => '<' :: i ++ ['>']
  | .bnode b => '_' :: ':' :: b, fun _ => some [r]⟩

/-- The constraint of the examples. -/
def exC : SparqlC := ⟨"SELECT ?this WHERE { ?this $PATH 1 }".toList, none, none, ['m']⟩

/-- What is reported, if there is no error. -/
def hits {α : Type} : Outcome (List α) → Option (List α)
  | .ok hs => some hs
  | _ => none

/-- The IRI of a value. -/
def iriOf {D : Type} : Option (Ob D) → Option Str
  | some (.iri i) => some i
  | _ => none

/-- **C128** is false of the code for messages, which keep their quotes, and for values of property shapes, which are not
left out. -/
theorem C128_results_refuted :
    ((hits (sparqlConstraint exEnv (oneRow fun v => if v = vMessage then some (.lit ⟨['a'], none, none⟩) else none) exC none
      [.iri ['x']])).map fun hs => hs.map (·.message)) = some [['"', 'a', '"']] ∧
    ((hits (sparqlConstraint exEnv (oneRow fun _ => none) exC (some (.pred ['p'])) [.iri ['x']])).map fun hs =>
      hs.map fun h => iriOf h.value) = some [some ['x']] := by
  constructor <;> decide +kernel

/-- The query for the node `x` and the path `p`. -/
example : sparqlQuery (oneRow fun _ => none) exC (some (.pred ['p'])) (.iri ['x']) =
    some "SELECT ?this WHERE { VALUES ?this { <x> } ?this <p> 1 }".toList := by decide +kernel

/-- A node shape with one solution that binds a value. -/
example : ((hits (sparqlConstraint exEnv (oneRow fun v => if v = vValue then some (.iri ['y']) else none) exC none
    [.iri ['x']])).map fun hs => hs.map fun h => (iriOf h.value, h.message)) = some [(some ['y'], ['m'])] := by
  decide +kernel

/-- `$this` is left; the name of a longer variable is not. -/
example : replaceAll kwPath "<p>".toList 40 "$this $PATH ?x . ?x $PATH $PATHS".toList =
    "$this <p> ?x . ?x <p> <p>S".toList := by decide +kernel

/-- A store whose answer for the node `y` has a solution with `?failure`. -/
def failingStore : SparqlExt := { oneRow fun _ => none with
  store := fun q => if q = "SELECT ?this WHERE { VALUES ?this { <y> } ?this  1 }".toList then
    some [fun v => if v = vFailure then some (.lit ⟨"true".toList, some .boolean, none⟩) else none] else some [] }

/-- The second query has a solution with `?failure`. -/
example : (hits (sparqlConstraint exEnv failingStore exC none [.iri ['x'], .iri ['z']])).isSome = true ∧
    (hits (sparqlConstraint exEnv failingStore exC none [.iri ['x'], .iri ['y'], .iri ['z']])).isSome = false := by
  decide +kernel

end Shacl

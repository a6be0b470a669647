import Verif.Shexc.PropsText

/-!
# C107: schemas in the compact syntax are read as they are written

`SpecGram.lean` says how the words of a schema are put together: relations between lists of words and syntax trees, for
any depth of brackets. The theorems say that the reader gives back the statements that were written, that the text
stands for one schema only, and that the layout does not matter. `C107_refuted` has what fails of the ShEx
specification, which is left out of the grammar.
-/

namespace Shexc

open P Spec

/-- **C107** (partial: for the grammar of `SpecGram.lean`, which leaves out what `C107_refuted` and `C106_refuted` show,
and actions at the beginning): the reader reads a text of the grammar completely, and gives the statements that are
written in it, in their order. Brackets may be as deep as they like. -/
theorem C107_statements_partial (X : Ext) {w : Str} {ss : List Statement} (h : SchemaText X.spec w ss) :
    statements X w = .ok (ss.map toStmt) [] := by
  obtain ⟨c, rfl, hl, hc⟩ := statements_tok h
  exact hc _ hl

/-- **C107** (partial, as above): a shape expression is read as it is written, and what may follow it is left. -/
theorem C107_expressions_partial (X : Ext) {ts rest : List Tok} {e : SE} {s : Statement} {us : List Tok} {w : Str}
    (he : ShapeExpr ts e) (hs : StatementText us s) (h : Spell X.spec (ts ++ (us ++ rest)) w) :
    ∃ u, shapeExpression X w = .ok e u ∧ Spell X.spec (us ++ rest) u := by
  obtain ⟨t, vs, rfl, ht⟩ := statement_head hs
  obtain ⟨u, e1, h1, -⟩ := shapeExpression_tok he (rest := t :: vs ++ rest) (head_cons (stmtWord_stop ht false)) h
  exact ⟨u, e1, h1⟩

theorem toStmt_inj : Function.Injective toStmt := by
  intro a b h
  cases a <;> cases b <;> simp_all [toStmt]

/-- **C107**: the grammar is not ambiguous: a text stands for one list of statements. -/
theorem C107_unambiguous (X : Ext) {w : Str} {ss ss' : List Statement} (h : SchemaText X.spec w ss)
    (h' : SchemaText X.spec w ss') : ss = ss' := by
  have e := C107_statements_partial X h
  rw [C107_statements_partial X h'] at e
  have e : ss'.map toStmt = ss.map toStmt := by injection e
  exact (List.map_injective_iff.mpr toStmt_inj e).symm

/-- **C107** (partial, as above): the layout does not matter: two texts with the same words, however they are spelled
and whatever is between them, are read to the same schema, or refused both. -/
theorem C107_layout_partial (X : Ext) (I : Iris) (base : Option Str) {g g' v v' : Str} {ts : List Tok}
    {ss : List Statement} (hs : Seq StatementText ts ss) (hg : Gap true g) (hg' : Gap true g') (h : Spell X.spec ts v)
    (h' : Spell X.spec ts v') : parse X I base (g ++ v) = parse X I base (g' ++ v') := by
  have e := parseGo_of_statements X I _ { env := { base := base } } _ _ _
    (C107_statements_partial X ⟨g, ts, v, hg, rfl, h, hs⟩)
  have e' := parseGo_of_statements X I _ { env := { base := base } } _ _ _
    (C107_statements_partial X ⟨g', ts, v', hg', rfl, h', hs⟩)
  exact e.trans e'.symm

/-- **C107** (partial, as above and as `C105`): a text of the grammar all of whose names stand for something is accepted.
The shapes of the schema are those that are written, in their order, with every name replaced by what it stands for. -/
theorem C107_schema_partial (X : Ext) (I : Iris) (base : Option Str) {w : Str} {ss : List Statement}
    (h : SchemaText X.spec w ss) (hn : NsEnd (ss.map toStmt))
    (hd : ∀ pre a l e post, ss = pre ++ .decl a l e :: post →
      ∀ n ∈ declNames l e, ∃ n', Means I base (pre.map toStmt) n n')
    (hs : ∀ pre e post, ss = pre ++ .start e :: post → ∀ n ∈ e.names, ∃ n', Means I base (pre.map toStmt) n n') :
    ∃ S, parse X I base w = .ok S ∧ S.decls.length = declCount (ss.map toStmt) ∧
      ∀ pre a l e post, ss = pre ++ .decl a l e :: post →
        ∃ ρ, (∀ r ∈ declNames l e, Means I base (pre.map toStmt) r (ρ r)) ∧
          S.decls[declCount (pre.map toStmt)]? = some ⟨l.rename ρ, e.rename ρ, a⟩ := by
  have hst := C107_statements_partial X h
  have ok : ∃ S, parse X I base w = .ok S := by
    by_contra hcon
    push Not at hcon
    obtain ⟨pre, s, post, e1, n, hno, hm⟩ := C105_unresolved_partial X I base w _ _ hst hn hcon
    obtain ⟨pre', s', rfl, rfl, hs'⟩ := List.map_eq_append_iff.mp e1
    obtain ⟨a, post', rfl, rfl, rfl⟩ := List.map_eq_cons_iff.mp hs'
    rcases hm with ⟨ab, l, e, hx, hm⟩ | ⟨e, hx, hm⟩
    · cases a <;> simp only [toStmt, reduceCtorEq, Stmt.decl.injEq] at hx
      obtain ⟨rfl, rfl, rfl⟩ := hx
      exact hno (hd pre' _ _ _ post' rfl n hm)
    · cases a <;> simp only [toStmt, reduceCtorEq, Stmt.start.injEq] at hx
      subst hx
      exact hno (hs pre' _ post' rfl n hm)
  obtain ⟨S, hS⟩ := ok
  refine ⟨S, hS, ?_⟩
  obtain ⟨ss', h1, h2, h3⟩ := C105_names_partial X I base w S hS
  rw [hst] at h1
  have e : ss' = ss.map toStmt := by injection h1 with h; exact h.symm
  subst e
  refine ⟨h2, ?_⟩
  rintro pre a l e post rfl
  refine h3 (pre.map toStmt) a l e (post.map toStmt) (by simp [toStmt]) ?_
  intro p ns hp
  exact hn p ns (by simp only [List.map_append, List.mem_append]; exact .inl hp)

/-! ## What fails -/

/-- Of a triple constraint: whether it has a label, its bounds, whether it has actions. -/
structure Constraint where
  label : Bool
  min : Option Int
  max : Option Int
  acts : Bool
  deriving DecidableEq

/-- The triple constraint of each shape. -/
def Out.constraints : Out → Option (List (Option Constraint))
  | .ok S => some (S.decls.map fun d => match d.expr with
    | .shape _ _ (some (.tc id _ _ _ _ mn mx acts _)) _ _ _ => some ⟨id.isSome, mn, mx, acts.isSome⟩
    | _ => none)
  | _ => none

/-- The facets of each shape. -/
def Out.facets : Out → Option (List (Option (List Facet)))
  | .ok S => some (S.decls.map fun d => match d.expr with | .nc nc => nc.facets | _ => none)
  | _ => none

/-- The labels of the shapes and whether they are abstract. -/
def Out.abstracts : Out → Option (List (Label × Bool))
  | .ok S => some (S.decls.map fun d => (d.label, d.abs))
  | _ => none

/-- **C107**, what fails of the whole statement, texts of the ShEx grammar that are refused: two patterns with white
space between them; a pattern after a reference; a value after an excluded literal; a name whose prefix begins like a
keyword, at the beginning of a statement and after a property; a facet of numbers that is not written in capitals;
annotations of a shape at the start. -/
theorem C107_refuted :
    (parse noExt anyIris none "<S> IRI /a/ /b/".toList).labels = none ∧
    (parse noExt anyIris none "<S> @<T> /a/".toList).labels = none ∧
    (parse noExt anyIris none "<S> ['a'~ - 'b' 'c']".toList).labels = none ∧
    (parse noExt anyIris none "PREFIX base: <x:/> base:S {}".toList).labels = none ∧
    (parse noExt anyIris none "PREFIX irix: <x:/> <S> {<p> irix:a}".toList).labels = none ∧
    (parse noExt anyIris none "<S> LITERAL mininclusive 3".toList).labels = none ∧
    (parse noExt anyIris none "start={} // <a> 1".toList).labels = none := by
  refine ⟨?_, ?_, ?_, ?_, ?_, ?_, ?_⟩ <;> decide +kernel

/-- **C107**, what fails of the whole statement, texts that are read as something else: a number after a stem of literals
is taken for an excluded literal; a name after the keyword it begins with; an excluded name that begins with `true` for
the literal and another name; the label, the bounds and the actions of a triple constraint in brackets are lost, and a
negative number of digits wraps. -/
theorem C107_misread_refuted :
    (parse noExt anyIris none "<S> ['a'~ -5]".toList).values =
      some [some [.litStemRange (some ['a']) (some [.exact ['5']])]] ∧
    (parse noExt anyIris none "PREFIX abstracts: <x:/> PREFIX s: <y:/> abstracts:x {}".toList).abstracts =
      some [(.iri (.iri "y:/x".toList), true)] ∧
    (parse noExt anyIris none "PREFIX true: <x:/> PREFIX : <y:/> <S> [. - true:x]".toList).values =
      some [some [.litStemRange none (some [.exact "true".toList]), .obj (.iri (.iri "y:/x".toList))]] ∧
    (parse noExt anyIris none "<S> {($<a> <p> .)}".toList).constraints = some [some ⟨false, none, none, false⟩] ∧
    (parse noExt anyIris none "<S> {(<p> . {2}){3}}".toList).constraints = some [some ⟨false, some 3, some 3, false⟩] ∧
    (parse noExt anyIris none "<S> {(<p> . %<a>{b%})}".toList).constraints = some [some ⟨false, none, none, false⟩] ∧
    (parse noExt anyIris none "<S> LITERAL TOTALDIGITS -1".toList).facets =
      some [some [.totalDigits 18446744073709551615]] := by
  refine ⟨?_, ?_, ?_, ?_, ?_, ?_, ?_⟩ <;> decide +kernel

/-- **C107**, what fails of the whole statement, texts outside the ShEx grammar that are accepted: nothing after `OR` and
after `AND`. -/
theorem C107_accepted_refuted :
    (parse noExt anyIris none "<S> IRI OR".toList).labels = some [.iri (.iri ['S'])] ∧
    (parse noExt anyIris none "<S> IRI AND".toList).labels = some [.iri (.iri ['S'])] := by
  refine ⟨?_, ?_⟩ <;> decide +kernel

/-! ## The hypotheses can be met -/

/-- The words of a small schema. -/
def sampleWords : List Tok :=
  [.kw "PREFIX", .ns ['e'], .name (.iri ['x', ':', '/']), .name (.prefixed ['e'] ['S']), .kw "IRI", .cap "CLOSED", .sym ['{'],
    .name (.prefixed ['e'] ['p']), .at (.iri (.prefixed ['e'] ['S'])), .sym ['+'], .sym ['}']]

/-- What they stand for. -/
def sampleStatements : List Statement :=
  [.pfx ['e'] ['x', ':', '/'],
    .decl false (.iri (.prefixed ['e'] ['S'])) (.and [.nc { kind := some .iri, facets := none },
      .shape (some true) none (some (.tc none none none (.prefixed ['e'] ['p'])
        (some (.ref (.iri (.prefixed ['e'] ['S'])))) (some 1) (some (-1)) none none)) none none none])]

theorem sample_grammar : Seq StatementText sampleWords sampleStatements := by
  refine .cons (ts := [_, _, _]) (StatementText.pfx ['e'] ['x', ':', '/']) (.cons
    (ts := [_, _, _, _, _, _, _, _]) (us := []) (StatementText.decl (LabelWord.iri _) ⟨3, ?_⟩) .nil)
  have hr : (Level 1).inline [.at (.iri (.prefixed ['e'] ['S']))] (.ref (.iri (.prefixed ['e'] ['S']))) :=
    .mk (.one (.mk (.one (.plain (.shape (.ref _))))))
  have ht : (Level 2).triple [.name (.prefixed ['e'] ['p']), .at (.iri (.prefixed ['e'] ['S'])), .sym ['+']]
      (.tc none none none (.prefixed ['e'] ['p']) (some (.ref (.iri (.prefixed ['e'] ['S'])))) (some 1) (some (-1))
        none none) :=
    .single (.single (us := []) (.constraint (ct := [_]) .none .none (.name _) hr .plus .nil .nil) .none)
  exact .mk (.one (.mk (.one (.plain (.kindShape (ts := [_]) (.mk .iri .none)
    (.shape (.outer (qt := [_]) (Seq.cons (ts := [_]) QualText.closed Seq.nil) (.some ht) .nil .nil)))))))

/-- The text, with a comment and few spaces. -/
theorem sample_text : SchemaText (Ext.spec noExt)
    "# a\nPREFIX e:<x:/>e:S Iri CLOSED{e:p @e:S +}".toList sampleStatements := by
  refine ⟨"# a\n".toList, sampleWords, "PREFIX e:<x:/>e:S Iri CLOSED{e:p @e:S +}".toList,
    .line (cs := [' ', 'a']) (e := '\n') (by decide) (by decide) .nil, rfl, ?_, sample_grammar⟩
  have hp : PrefixName ['e'] := .inr ⟨'e', [], rfl, by decide, by decide⟩
  have hS : NameText (.prefixed ['e'] ['S']) ['e', ':', 'S'] :=
    .local hp ⟨'S', [], rfl, by decide, by decide, by decide, by decide⟩ (by unfold NoKeyword; decide +kernel)
  have hP : NameText (.prefixed ['e'] ['p']) ['e', ':', 'p'] :=
    .local hp ⟨'p', [], rfl, by decide, by decide, by decide, by decide⟩ (by unfold NoKeyword; decide +kernel)
  have sp : Gap false [' '] := .space (by decide) .nil
  refine .cons (w := "PREFIX".toList) (g := [' ']) (r := "e:<x:/>e:S Iri CLOSED{e:p @e:S +}".toList)
    (.kw (by decide) (by decide)) sp (by simp) ?_
  refine .cons (w := ['e', ':']) (g := []) (r := "<x:/>e:S Iri CLOSED{e:p @e:S +}".toList) (.ns hp) .nil
    (fun _ c _ => by simp [sticks]) ?_
  refine .cons (w := "<x:/>".toList) (g := []) (r := "e:S Iri CLOSED{e:p @e:S +}".toList)
    (.name (.iri (.mk (w := ['x', ':', '/']) (.cons (w := ['x']) (.plain (by decide) (by decide))
      (.cons (w := [':']) (.plain (by decide) (by decide))
        (.cons (w := ['/']) (.plain (by decide) (by decide)) .nil)))))) .nil (fun _ c _ => by simp [sticks]) ?_
  refine .cons (w := ['e', ':', 'S']) (g := [' ']) (r := "Iri CLOSED{e:p @e:S +}".toList) (.name hS) sp (by simp) ?_
  refine .cons (w := "Iri".toList) (g := [' ']) (r := "CLOSED{e:p @e:S +}".toList) (.kw (by decide) (by decide)) sp
    (by simp) ?_
  refine .cons (w := "CLOSED".toList) (g := []) (r := "{e:p @e:S +}".toList) (.cap (by decide)) .nil
    (fun _ c hc => by
      obtain rfl : '{' = c := by simpa using hc
      unfold sticks
      decide) ?_
  refine .cons (w := ['{']) (g := []) (r := "e:p @e:S +}".toList) (.sym (by decide)) .nil
    (fun _ c _ => by simp [sticks]) ?_
  refine .cons (w := ['e', ':', 'p']) (g := [' ']) (r := "@e:S +}".toList) (.name hP) sp (by simp) ?_
  refine .cons (w := "@e:S".toList) (g := [' ']) (r := "+}".toList) (.at (.iri hS)) sp (by simp) ?_
  refine .cons (w := ['+']) (g := []) (r := ['}']) (.sym (by decide)) .nil (fun _ c _ => by simp [sticks]) ?_
  exact .cons (w := ['}']) (g := []) (r := []) (.sym (by decide)) .nil (by simp) .nil

/-- It is read, and gives the schema that `C107_schema_partial` says. -/
example : ∃ S, parse noExt anyIris none "# a\nPREFIX e:<x:/>e:S Iri CLOSED{e:p @e:S +}".toList = .ok S ∧
    S.decls.length = 1 := by
  have hm : ∀ n ∈ [IriRef.prefixed ['e'] ['S'], .prefixed ['e'] ['p']],
      ∃ n', Means anyIris none [.pfx ['e'] ['x', ':', '/']] n n' := by
    intro n hn
    simp only [List.mem_cons, List.not_mem_nil, or_false] at hn
    rcases hn with rfl | rfl <;> exact ⟨_, .prefixed (ns := ['x', ':', '/']) (by decide) (fun _ => rfl)⟩
  have hn : NsEnd (sampleStatements.map toStmt) := by
    intro p ns h
    simp only [sampleStatements, toStmt, List.map_cons, List.map_nil, List.mem_cons, Stmt.pfx.injEq, List.not_mem_nil,
      or_false, reduceCtorEq] at h
    obtain ⟨-, rfl⟩ := h
    decide
  have hd : ∀ pre a l e post, sampleStatements = pre ++ .decl a l e :: post →
      ∀ n ∈ declNames l e, ∃ n', Means anyIris none (pre.map toStmt) n n' := by
    intro pre a l e post h
    rcases pre with _ | ⟨x, _ | ⟨y, _ | ⟨z, t⟩⟩⟩ <;>
      simp only [sampleStatements, List.nil_append, List.cons_append, List.cons.injEq, reduceCtorEq, false_and, and_false,
        Statement.decl.injEq, List.nil_eq, List.append_eq_nil_iff] at h
    obtain ⟨rfl, ⟨rfl, rfl, rfl⟩, rfl⟩ := h
    intro n hn
    refine hm n ?_
    revert hn
    revert n
    decide +kernel
  have hs : ∀ pre e post, sampleStatements = pre ++ .start e :: post →
      ∀ n ∈ e.names, ∃ n', Means anyIris none (pre.map toStmt) n n' := by
    intro pre e post h
    exact absurd (h ▸ List.mem_append_right pre (List.mem_cons_self ..) : Statement.start e ∈ sampleStatements)
      (by simp [sampleStatements])
  obtain ⟨S, h1, h2, -⟩ := C107_schema_partial noExt anyIris none sample_text hn hd hs
  exact ⟨S, h1, h2⟩

end Shexc

import Verif.Shexc.PropsGram
import Verif.Shexc.LemPrint6

/-!
# C108: writing a schema in the compact syntax

`SpecPrint.lean` describes, without the reader and the printer, schemas that can be written and read back, and what the
printer does not support. `C108_refuted` has schemas for which the round trip fails.
-/

namespace Shexc

open P Spec

/-- **C108** (partial: for the schemas that `Printable` describes; `C108_refuted` shows that the round trip fails for
others): whatever way the printer lays a schema out, the reader gives back the schema. -/
theorem C108_round_trip_partial (X : Ext) (I : Iris) (base : Option Str) {S : Schema} {w : Str} (h : Printable I S)
    (hw : Written S w) (hb : S.env.base = none → base = none) : parse X I base w = .ok S := by
  have hst := C107_statements_partial X (written_text (X := X) h hw)
  have e := parseGo_of_statements X I _ { env := { base := base } } _ _ _ hst
  rw [fold_written h base hb] at e
  exact e

/-- **C108** (partial, as above): they are written. -/
theorem C108_written_partial {I : Iris} {S : Schema} (h : Printable I S) : ∃ w, Written S w := by
  obtain ⟨d, h1, -⟩ := W.schema (X := ⟨fun _ => none, fun _ => none⟩) h
  exact ⟨d.flat, d, h1, d.layout_flat⟩

/-- **C108** (partial, as above): different schemas are written differently. -/
theorem C108_injective_partial {I : Iris} {S S' : Schema} {w : Str} (h : Printable I S) (h' : Printable I S')
    (hb : S.env.base = none ↔ S'.env.base = none) (hw : Written S w) (hw' : Written S' w) : S = S' := by
  have X : Ext := ⟨fun _ => none, fun _ => none⟩
  have e := C108_round_trip_partial X I S.env.base h hw id
  have e' := C108_round_trip_partial X I S.env.base h' hw' hb.2
  rw [e] at e'
  injection e'

/-- **C108**: the printer panics if, and only if, the start or a shape has an expression inside that is not supported:
an alternative of triple expressions, a reference to a triple expression, a value other than IRIs and numbers, an
annotation with a literal other than strings and numbers. Otherwise the schema is written. -/
theorem C108_panics_iff (S : Schema) : (¬ ∃ w, Written S w) ↔
    ∃ e, (S.start = some e ∨ ∃ ds, S.shapes = some ds ∧ ∃ d ∈ ds, d.expr = e) ∧
      ∃ x, Within (.se e) x ∧ Unsupported x := by
  have h1 : (¬ ∃ w, Written S w) ↔ Pp.schema S = none := by
    constructor
    · intro h
      cases hd : Pp.schema S with
      | none => rfl
      | some d => exact absurd ⟨d.flat, d, hd, d.layout_flat⟩ h
    · rintro h ⟨w, d, hd, -⟩
      rw [h] at hd
      cases hd
  rw [h1, schema_none]
  constructor
  · rintro (⟨e, h, hb⟩ | ⟨ds, h, d, hd, hb⟩)
    · exact ⟨e, .inl h, hb⟩
    · exact ⟨d.expr, .inr ⟨ds, h, d, hd, rfl⟩, hb⟩
  · rintro ⟨e, h | ⟨ds, h, d, hd, rfl⟩, hb⟩
    · exact .inl ⟨e, h, hb⟩
    · exact .inr ⟨ds, h, d, hd, hb⟩

/-! ## What fails -/

mutual
/-- The structure of a shape expression as a list of numbers: operators, numbers of things, bounds. -/
def SE.code : SE → List Int
  | .or es => 1 :: SE.codes es
  | .and es => 2 :: SE.codes es
  | .not e => 3 :: SE.code e
  | .nc c => [4, c.values.elim 0 fun vs => (vs.map fun v => match v with | .obj (.lit (.num _)) => 2 | _ => 1).sum]
  | .shape _ extra te acts anns ext =>
    5 :: (extra.elim 0 fun l => l.length) :: (ext.elim 0 fun l => l.length) :: (acts.elim 0 fun l => l.length) ::
      (anns.elim 0 fun l => l.length) :: TE.codeOpt te
  | .external => [6]
  | .ref _ => [7]
def SE.codes : List SE → List Int
  | [] => [-1]
  | e :: es => SE.code e ++ SE.codes es
def SE.codeOpt : Option SE → List Int
  | none => [0]
  | some e => SE.code e
def TE.code : TE → List Int
  | .each id es mn mx acts anns =>
    8 :: (if id.isSome then 1 else 0) :: mn.getD (-2) :: mx.getD (-2) :: (acts.elim 0 fun l => l.length) ::
      (anns.elim 0 fun l => l.length) :: TE.codes es
  | .one id es mn mx acts anns =>
    9 :: (if id.isSome then 1 else 0) :: mn.getD (-2) :: mx.getD (-2) :: (acts.elim 0 fun l => l.length) ::
      (anns.elim 0 fun l => l.length) :: TE.codes es
  | .tc id _ _ _ v mn mx acts anns =>
    10 :: (if id.isSome then 1 else 0) :: mn.getD (-2) :: mx.getD (-2) :: (acts.elim 0 fun l => l.length) ::
      (anns.elim 0 fun l => l.length) :: SE.codeOpt v
  | .ref _ => [11]
def TE.codes : List TE → List Int
  | [] => [-1]
  | e :: es => TE.code e ++ TE.codes es
def TE.codeOpt : Option TE → List Int
  | none => [0]
  | some e => TE.code e
end

/-- The imports, and the structure of each shape with whether it is abstract. -/
structure Code where
  imports : Option (List IriRef)
  shapes : List (Bool × List Int)
  deriving DecidableEq

def Schema.code (S : Schema) : Code := ⟨S.imports, S.decls.map fun d => (d.abs, d.expr.code)⟩

def Out.code : Out → Option Code
  | .ok S => some S.code
  | _ => none

def Out.refused : Out → Bool
  | .error => true
  | _ => false

/-- A schema with one shape. -/
def oneShape (e : SE) : Schema := { shapes := some [⟨.iri (.iri ['S']), e, false⟩] }

/-- References to shapes A, B and C. -/
def toA : SE := .ref (.iri (.iri ['A']))
def toB : SE := .ref (.iri (.iri ['B']))
def toC : SE := .ref (.iri (.iri ['C']))

/-- A shape with one triple expression. -/
def braces (t : TE) : SE := .shape none none (some t) none none none

/-- A triple constraint with bounds. -/
def bounded (mn mx : Option Int) : TE := .tc none none none (.iri ['p']) none mn mx none none

/-- The flat text of a schema: the one that is chosen when everything fits in its line. -/
def flatText (S : Schema) : Str := ((Pp.schema S).map Doc.flat).getD []

theorem written_flat {S : Schema} (h : (Pp.schema S).isSome) : Written S (flatText S) := by
  unfold flatText
  cases hd : Pp.schema S with
  | none => rw [hd] at h; cases h
  | some d => exact ⟨d, hd, d.layout_flat⟩

/-- Schemas whose text is refused: bounds two and three, and a bound above only; two parents; a string with a quotation
mark; a least value; a pattern with a slash; two facets of strings; annotations and actions of one triple constraint; a
reference to the start; a negation of a negation; a disjunction of nothing. -/
def refusedSchemas : List Schema :=
  [oneShape (braces (bounded (some 2) (some 3))),
    oneShape (braces (bounded none (some 2))),
    oneShape (.shape none none none none none (some [.iri (.iri ['A']), .iri (.iri ['B'])])),
    oneShape (.shape none none none none (some [⟨.iri ['p'], .lit (.str ['a', '"', 'b'])⟩]) none),
    oneShape (.nc { kind := some .literal, facets := some [.minInc (.int 5)] }),
    oneShape (.nc { facets := some [.pattern ['a', '/', 'b'] none] }),
    oneShape (.nc { facets := some [.minLength 3, .maxLength 4] }),
    oneShape (braces (.tc none none none (.iri ['p']) none none none (some [⟨.iri ['a'], some ['b']⟩])
      (some [⟨.iri ['q'], .iri (.iri ['x'])⟩]))),
    oneShape (.ref .start),
    oneShape (.not (.not toA)),
    oneShape (.or [])]

/-- Schemas whose text is read as another schema: the negation of a conjunction, and a conjunction with a disjunction
inside (there are no brackets); an abstract shape; bounds of a group; a label of a triple expression; actions of a shape;
a number in a value set; an import that a prefix is declared for, whose name is not resolved when it is read. -/
def changedSchemas : List Schema :=
  [oneShape (.not (.and [toA, toB])),
    oneShape (.and [.or [toA, toB], toC]),
    { shapes := some [⟨.iri (.iri ['S']), toA, true⟩] },
    oneShape (braces (.each none [bounded none none, bounded none none] (some 0) (some (-1)) none none)),
    oneShape (braces (.tc (some (.iri (.iri ['l']))) none none (.iri ['p']) none none none none none)),
    oneShape (.shape none none none (some [⟨.iri ['a'], none⟩]) none none),
    oneShape (.nc { values := some [.obj (.lit (.num (.int 5)))] }),
    { imports := some [.iri ['x', ':', '/', 'a']], env := { pm := some ⟨[(['e'], ['x', ':', '/'])], false⟩ } }]

/-- **C108**, what fails of the whole statement: schemas that are written as a text that is refused, and schemas that are
written as a text of another schema. -/
theorem C108_refuted :
    (∀ S ∈ refusedSchemas, ∃ w, Written S w ∧ parse noExt anyIris none w = .error) ∧
    ∀ S ∈ changedSchemas, ∃ w S', Written S w ∧ parse noExt anyIris none w = .ok S' ∧ S'.code ≠ S.code := by
  constructor
  · intro S hS
    have key : ∀ S ∈ refusedSchemas, (Pp.schema S).isSome = true ∧
        (parse noExt anyIris none (flatText S)).refused = true := by decide +kernel
    obtain ⟨h1, h2⟩ := key S hS
    refine ⟨_, written_flat h1, ?_⟩
    cases h : parse noExt anyIris none (flatText S) with
    | error => rfl
    | _ => rw [h] at h2; cases h2
  · intro S hS
    have key : ∀ S ∈ changedSchemas, (Pp.schema S).isSome = true ∧
        (parse noExt anyIris none (flatText S)).code ≠ none ∧
        (parse noExt anyIris none (flatText S)).code ≠ some S.code := by decide +kernel
    obtain ⟨h1, h2, h3⟩ := key S hS
    cases h : parse noExt anyIris none (flatText S) with
    | ok S' =>
      refine ⟨_, S', written_flat h1, h, ?_⟩
      rw [h] at h3
      intro e
      exact h3 (congrArg some e)
    | _ => rw [h] at h2; exact absurd rfl h2

theorem iriChars {s : Str} (h : ∀ c ∈ s, 0x20 < c.toNat ∧ c ∉ ['<', '>', '"', '{', '}', '|', '^', '`', '\\']) :
    Chars IriChar s s := by
  induction s with
  | nil => exact .nil
  | cons c s ih =>
    exact .cons (w := [c]) (.plain (h c (by simp)).1 (h c (by simp)).2) (ih fun d hd => h d (by simp [hd]))

/-- Without prefixes every IRI can be written that has no characters to be escaped. -/
theorem readable_new {s : Str} (h : Chars IriChar s s) : Readable anyIris none .new s where
  valid := rfl
  absolute := fun _ h => by cases h
  short := fun _ _ _ h => by cases h.1
  whole := fun _ => h

theorem notAnd_printable : Printable anyIris (oneShape (.and [.not toA, toB])) where
  prefixes := fun _ h => by cases h
  base := fun _ h => by cases h
  imports := .none
  startActs := rfl
  start := fun _ h => by cases h
  shapes := by
    refine .some (by simp) fun d hd => ?_
    obtain rfl := List.mem_singleton.1 hd
    refine ⟨.iri (readable_new (iriChars (by decide))), .inl ⟨0, .single (.and fun x hx => ?_)⟩, rfl⟩
    simp only [List.mem_cons, List.not_mem_nil, or_false] at hx
    rcases hx with rfl | rfl
    · exact .not (.ref (.iri (readable_new (iriChars (by decide)))))
    · exact .plain (.ref (.iri (readable_new (iriChars (by decide)))))

/-- **C108**, what is lost of the meaning: the negation of the conjunction of A and B is written as the conjunction of the
negation of A with B, and read as such. -/
theorem C108_negation_refuted (X : Ext) : ∃ w, Written (oneShape (.not (.and [toA, toB]))) w ∧
    parse X anyIris none w = .ok (oneShape (.and [.not toA, toB])) := by
  refine ⟨_, written_flat (by decide +kernel), ?_⟩
  have e : flatText (oneShape (.not (.and [toA, toB]))) = flatText (oneShape (.and [.not toA, toB])) := by decide +kernel
  rw [e]
  exact C108_round_trip_partial X anyIris none notAnd_printable (written_flat (by decide +kernel)) fun _ => rfl

/-! ## The hypotheses can be met -/

/-- A schema with a prefix, a base, an import, a start and three shapes. -/
def sampleSchema : Schema where
  imports := some [.iri ['o', ':', 'i']]
  start := some (.ref (.iri (.iri ['x', ':', '/', 'S'])))
  shapes := some [
    ⟨.iri (.iri ['x', ':', '/', 'S']), .shape (some true) (some [.iri ['x', ':', '/', 'p']])
      (some (.each none [
        .tc none none (some true) (.iri ['x', ':', '/', 'p'])
          (some (.or [.and [.not (.ref (.bnode ['b'])), .nc { kind := some .iri }],
            .nc { values := some [.obj (.iri (.iri ['o', ':', 'v']))] }])) (some 1) (some (-1)) none none,
        .tc none none none (.iri ['o', ':', 'q']) none none none (some [⟨.iri ['x', ':', '/', 'a'], some ['c']⟩]) none]
        none none none none)) none none none, false⟩,
    ⟨.bnode ['b'], .shape none none none none (some [⟨.iri ['o', ':', 'q'], .lit (.str ['h', 'i'])⟩])
      (some [.iri (.iri ['x', ':', '/', 'S'])]), false⟩,
    ⟨.iri (.iri ['x', ':', '/', 'p']), .nc { datatype := some (.iri ['o', ':', 'd']), facets := some [.maxLength 12] },
      false⟩]
  env := { base := some ['o', ':'], pm := some ⟨[(['e'], ['x', ':', '/'])], false⟩ }

example : String.ofList (flatText sampleSchema) = "prefix e: <x:/>\nbase <o:>\nimport <o:i>\nstart = @e:S\n\
    e:S CLOSED EXTRA e:p{ ^e:p NOT @_:b AND IRI OR  [ <o:v> ] +; <o:q> .%e:a{c%}\n }\n\
    _:b EXTENDS @e:S {  } // <o:q> \"hi\"\ne:p <o:d> MaxLength 12\n" := by decide +kernel

/-- The IRIs of the sample. -/
theorem sample_readable {s : Str} (h1 : Chars IriChar s s)
    (h2 : ∀ rest, s = ['x', ':', '/'] ++ rest → NameText (.prefixed ['e'] rest) ('e' :: ':' :: rest)) :
    Readable anyIris (some ['o', ':']) ⟨[(['e'], ['x', ':', '/'])], false⟩ s where
  valid := rfl
  absolute := fun _ _ => rfl
  short := by
    rintro al ns rest ⟨hf, rfl⟩ -
    simp only [Prefix.PrefixMap.find, Prefix.imGet] at hf
    split at hf
    · rename_i he
      cases he
      cases hf
      exact ⟨.inl rfl, h2 rest rfl⟩
    · cases hf
  whole := fun _ => h1

theorem sample_other {s : Str} (h1 : Chars IriChar s s) (h2 : s.head? ≠ some 'x') :
    Readable anyIris (some ['o', ':']) ⟨[(['e'], ['x', ':', '/'])], false⟩ s :=
  sample_readable h1 fun rest h => absurd (by rw [h]; rfl) h2

theorem sample_short {c : Char} (h : 0x20 < c.toNat ∧ c ∉ ['<', '>', '"', '{', '}', '|', '^', '`', '\\'])
    (h1 : LocalName [c]) (h2 : NoKeyword ['e', ':', c]) :
    Readable anyIris (some ['o', ':']) ⟨[(['e'], ['x', ':', '/'])], false⟩ ['x', ':', '/', c] := by
  refine sample_readable (iriChars ?_) fun rest hr => ?_
  · intro d hd
    simp only [List.mem_cons, List.not_mem_nil, or_false] at hd
    rcases hd with rfl | rfl | rfl | rfl
    · decide
    · decide
    · decide
    · exact h
  · simp only [List.cons_append, List.nil_append, List.cons.injEq, true_and] at hr
    subst hr
    exact .local (.inr ⟨'e', [], rfl, by decide, by decide⟩) h1 h2

/-- It can be written, and read back. -/
theorem sample_printable : Printable anyIris sampleSchema := by
  have hb : BnodeName ['b'] := ⟨'b', [], rfl, by decide, by decide, by decide, by decide⟩
  have nS := sample_short (c := 'S') (by decide) ⟨'S', [], rfl, by decide, by decide, by decide, by decide⟩
    (by unfold NoKeyword; decide +kernel)
  have np := sample_short (c := 'p') (by decide) ⟨'p', [], rfl, by decide, by decide, by decide, by decide⟩
    (by unfold NoKeyword; decide +kernel)
  have na := sample_short (c := 'a') (by decide) ⟨'a', [], rfl, by decide, by decide, by decide, by decide⟩
    (by unfold NoKeyword; decide +kernel)
  have nq := sample_other (s := ['o', ':', 'q']) (iriChars (by decide)) (by decide)
  have nv := sample_other (s := ['o', ':', 'v']) (iriChars (by decide)) (by decide)
  have nd := sample_other (s := ['o', ':', 'd']) (iriChars (by decide)) (by decide)
  refine ⟨?_, ?_, ?_, rfl, ?_, ?_⟩
  · intro m hm
    cases hm
    refine ⟨by simp, .change (.declare ['e'] ['x', ':', '/']) .new, rfl, fun e he => ?_⟩
    obtain rfl := List.mem_singleton.1 he
    exact ⟨.inr ⟨'e', [], rfl, by decide, by decide⟩, iriChars (by decide)⟩
  · intro b hb
    cases hb
    exact iriChars (by decide)
  · refine .some (by simp) fun r hr => ?_
    obtain rfl := List.mem_singleton.1 hr
    refine .iri (iriChars (by decide)) ?_
    rintro al ns rest ⟨hf, he⟩
    simp only [sampleSchema, Option.getD_some, Prefix.PrefixMap.find, Prefix.imGet] at hf
    split at hf
    · cases hf
      exact absurd (congrArg List.head? he) (by simp)
    · cases hf
  · intro e he
    cases he
    exact ⟨0, .single (.single (.plain (.ref (.iri nS))))⟩
  · refine .some (by simp) fun d hd => ?_
    simp only [List.mem_cons, List.not_mem_nil, or_false] at hd
    rcases hd with rfl | rfl | rfl
    · refine ⟨.iri nS, .inl ⟨2, .single (.single (.plain (.shape .some (.some (by simp) ?_) ?_ .none (by simp) (.inl rfl)
        (by simp))))⟩, rfl⟩
      · intro r hr
        obtain rfl := List.mem_singleton.1 hr
        exact .mk np
      · intro t ht
        cases ht
        refine .each fun x hx => ?_
        simp only [List.mem_cons, List.not_mem_nil, or_false] at hx
        rcases hx with rfl | rfl
        · refine .tc .none .some (.mk np) ?_ .plus .none .none (.inl rfl) (.inl rfl)
          intro v hv
          cases hv
          refine ⟨.or fun y hy => ?_, by simp⟩
          simp only [List.mem_cons, List.not_mem_nil, or_false] at hy
          rcases hy with rfl | rfl
          · refine .and fun z hz => ?_
            simp only [List.mem_cons, List.not_mem_nil, or_false] at hz
            rcases hz with rfl | rfl
            · exact .not (.ref (.bnode hb))
            · exact .plain (.nc (.kind .iri .none))
          · refine .single (.plain (.nc (.values (fun v hv => ?_) .none)))
            obtain rfl := List.mem_singleton.1 hv
            exact .iri nv
        · refine .tc .none .none (.mk nq) (by simp) .none (.some (by simp) fun a ha => ?_) .none (.inr rfl) (.inr (.inl rfl))
          obtain rfl := List.mem_singleton.1 ha
          exact .mk (.mk na) (.cons (w := ['c']) (.plain (by decide) (by decide)) .nil)
    · refine ⟨.bnode hb, .inl ⟨0, .single (.single (.plain (.shape .none .none (by simp) (.some (by simp) fun a ha => ?_) ?_
        (.inr rfl) (by simp))))⟩, rfl⟩
      · obtain rfl := List.mem_singleton.1 ha
        exact ⟨.mk nq, .str (.cons (w := ['h']) (.plain (by decide) (by decide))
          (.cons (w := ['i']) (.plain (by decide) (by decide)) .nil))⟩
      · intro ls hl
        cases hl
        exact ⟨_, rfl, .iri nS⟩
    · exact ⟨.iri np, .inl ⟨0, .single (.single (.plain (.nc (.datatype (.mk nd) (.one (.maxLength (by decide)))))))⟩, rfl⟩

/-- The round trip of the sample, in any layout. -/
example (w : Str) (hw : Written sampleSchema w) : parse noExt anyIris none w = .ok sampleSchema :=
  C108_round_trip_partial noExt anyIris none sample_printable hw (by intro h; cases h)

/-- A layout with line breaks. -/
example : ∃ w, Written sampleSchema w ∧ '\n' ∈ w := ⟨_, written_flat (by decide +kernel), by decide +kernel⟩

/-- A schema that the printer panics on: an alternative in a value of a group. -/
example : ¬ ∃ w, Written (oneShape (braces (.each none [bounded none none,
    .tc none none none (.iri ['p']) (some (braces (.one none [] none none none none))) none none none none]
      none none none none))) w :=
  (C108_panics_iff _).2 ⟨_, .inr ⟨_, rfl, _, List.mem_singleton_self _, rfl⟩, _,
    .step .shape (.step (.each (List.mem_cons_of_mem _ (List.mem_singleton_self _))) (.step .tc (.step .shape .refl))), .one⟩

end Shexc

import Verif.Shexc.Chars

/-!
# Model: the grammar of the compact syntax

One definition for each function of shex_ast/src/compact/shex_grammar.rs (line numbers are of that file). The two
variants of a function for inline and for other shape expressions are one definition with a flag. The recursion of the
grammar goes through `Rec`, the parsers for what is inside brackets, which are made with fuel.
-/

namespace Shexc

open P

/-- The parsers that the grammar comes back to: `shape_expression`, `inline_shape_expression` and
`triple_expression`. -/
structure Rec where
  shape : P SE
  inline : P SE
  triple : P TE

/-! ## Lists with separators -/

/-- `if let Ok((left, _)) = tws0(i)` (2190-2192). -/
def skip (i : Str) : Str :=
  match tws0 i with
  | .ok _ r => r
  | _ => i

/-- The loop of `many1_sep` (2200-2222), with fuel: it ends where no separator follows, and also when what follows a
separator cannot be read, be it an error or a failure: then the separator is dropped. -/
def manySepGo {α : Type} (p : P α) (sep : P Unit) : Nat → P (List α)
  | 0, i =>
    match sep (skip i) with
    | .ok _ _ => .deep
    | .panic => .panic
    | .deep => .deep
    | _ => .ok [] (skip i)
  | n + 1, i =>
    match sep (skip i) with
    | .ok _ r =>
      match p (skip r) with
      | .ok a r' =>
        match manySepGo p sep n r' with
        | .ok as r'' => .ok (a :: as) r''
        | .err => .err
        | .fail => .fail
        | .panic => .panic
        | .deep => .deep
      | .panic => .panic
      | .deep => .deep
      | _ => .ok [] (skip r)
    | .panic => .panic
    | .deep => .deep
    | _ => .ok [] (skip i)

/-- `many1_sep` (2180-2223), the list of what was read. -/
def many1Sep {α : Type} (p : P α) (sep : P Unit) : P (List α) := fun i =>
  match p (skip i) with
  | .ok a r =>
    match manySepGo p sep r.length r with
    | .ok as r' => .ok (a :: as) r'
    | .err => .err
    | .fail => .fail
    | .panic => .panic
    | .deep => .deep
  | .err => .err
  | .fail => .fail
  | .panic => .panic
  | .deep => .deep

/-- `make_shape_or` (180-186). -/
def mkOr : List SE → SE
  | [e] => e
  | es => .or es

/-- `make_shape_and` (198-204). -/
def mkAnd : List SE → SE
  | [e] => e
  | es => .and es

/-! ## Facets -/

/-- `min_length`, `max_length`, `length` (478-491), in the order of `string_length` (474-476). -/
def stringLength : P Facet :=
  alt (do tagNoCase "MINLENGTH".toList; tws0; let n ← posInteger; return .minLength n)
    (alt (do tagNoCase "MAXLENGTH".toList; tws0; let n ← posInteger; return .maxLength n)
      (do tagNoCase "LENGTH".toList; tws0; let n ← posInteger; return .length n))

/-- `string_facet` (465-471). -/
def stringFacet : P Facet := alt stringLength regexp

/-- `numeric_range` (544-552): the keywords are in capitals only. -/
def numericRange : P (Num → Facet) :=
  alt (do tokenTws "MININCLUSIVE".toList; return .minInc)
    (alt (do tokenTws "MAXINCLUSIVE".toList; return .maxInc)
      (alt (do tokenTws "MINEXCLUSIVE".toList; return .minExc)
        (do tokenTws "MAXEXCLUSIVE".toList; return .maxExc)))

/-- `numeric_length` (535-541). -/
def numericLength : P (Nat → Facet) :=
  alt (do tokenTws "TOTALDIGITS".toList; return .totalDigits)
    (do tokenTws "FRACTIONDIGITS".toList; return .fractionDigits)

/-- `numeric_facet` with `numeric_range_lit` and `numeric_length_int` (505-533). -/
def numericFacet (X : Ext) : P Facet :=
  alt (do let f ← numericRange; let v ← cut (rawNumeric X); return f v)
    (do let f ← numericLength; let n ← integer; return f (wrap64 n))

/-- `xs_facet` (460-462). -/
def xsFacet (X : Ext) : P Facet := alt stringFacet (numericFacet X)

/-! ## Values -/

/-- `iri_exclusion` (993-1000). -/
def iriExclusion : P (Excl IriRef) := do
  tokenTws ['-']
  let r ← iri
  tws0
  let t ← opt (tokenTws ['~'])
  return if t.isSome then .stem r else .exact r

/-- `literal_exclusion` (1039-1046). -/
def litExclusion (X : Ext) : P (Excl Str) := do
  tokenTws ['-']
  let l ← literal X
  let t ← opt (tokenTws ['~'])
  return if t.isSome then .stem l.lexical else .exact l.lexical

/-- `language_exclusion` (1109-1116). -/
def langExclusion (X : Ext) : P (Excl Str) := do
  tokenTws ['-']
  let l ← langTag X
  tws0
  let t ← opt (tokenTws ['~'])
  return if t.isSome then .stem l else .exact l

/-- `exclusion_plus` (936-961). -/
def exclusionPlus (X : Ext) : P Value := do
  tokenTws ['.']
  alt (do let es ← many1 (litExclusion X); return .litStemRange none (some es))
    (alt (do let es ← many1 (langExclusion X); return .langStemRange none (some es))
      (do let es ← many1 iriExclusion; return .iriStemRange none (some es)))

/-- `iri_range` with `tilde_iri_exclusion` (964-985). -/
def iriRange : P Value := do
  let r ← iri
  tws0
  let s ← opt (do let _ ← char '~'; tws0; many0 iriExclusion)
  return match s with
    | none => .obj (.iri r)
    | some [] => .iriStem r
    | some es => .iriStemRange (some r) (some es)

/-- `literal_range` with `tilde_literal_exclusion` (987-990, 1003-1021). -/
def litRange (X : Ext) : P Value := do
  let l ← literal X
  tws0
  let s ← opt (do tokenTws ['~']; many0 (litExclusion X))
  return match s with
    | none => .obj (.lit l)
    | some [] => .litStem l.lexical
    | some es => .litStemRange (some l.lexical) (some es)

/-- `language_range1` (1058-1080). -/
def langRange1 (X : Ext) : P Value := do
  let t ← langTag X
  tws0
  let s ← opt (do tokenTws ['~']; many0 (langExclusion X))
  return match s with
    | none => .lang t
    | some [] => .langStem (some t)
    | some es => .langStemRange (some t) (some es)

/-- `language_range2` (1083-1101). -/
def langRange2 (X : Ext) : P Value := do
  tokenTws ['@']
  tokenTws ['~']
  let es ← many0 (langExclusion X)
  return if es.isEmpty then .langStem none else .langStemRange none (some es)

/-- `value_set_value` with `language_range` (928-933, 1050-1055). -/
def value (X : Ext) : P Value :=
  alt (exclusionPlus X) (alt iriRange (alt (litRange X) (alt (langRange1 X) (langRange2 X))))

/-- `value_set` (916-924). -/
def valueSet (X : Ext) : P NC := do
  tokenTws ['[']
  let vs ← many0 (value X)
  tokenTws [']']
  return { values := some vs }

/-! ## Node constraints -/

/-- `non_literal_kind` (450-457). -/
def nonLiteralKind : P Kind :=
  alt (do tokenTwsNoCase "IRI".toList; return .iri)
    (alt (do tokenTwsNoCase "BNODE".toList; return .bnode)
      (do tokenTwsNoCase "NONLITERAL".toList; return .nonLiteral))

/-- `non_lit_node_constraint` with `non_literal_kind_string_facets` and `string_facets` (429-447). -/
def nonLit : P NC :=
  alt (do
      let k ← nonLiteralKind
      let fs ← many0 stringFacet
      return NC.withFacets { kind := some k } fs)
    (do let fs ← many1 stringFacet; return NC.withFacets {} fs)

/-- `lit_node_constraint` with `literal_facets`, `datatype_facets`, `value_set_facets` and `numeric_facets` (380-426,
1472-1475). -/
def lit (X : Ext) : P NC :=
  alt (do
      tagNoCase "LITERAL".toList
      tws0
      let fs ← many0 (xsFacet X)
      return NC.withFacets { kind := some .literal } fs)
    (alt (do
        let d ← iri
        tws0
        let fs ← many0 (xsFacet X)
        return NC.withFacets { datatype := some d } fs)
      (alt (do
          let c ← valueSet X
          tws0
          let fs ← many0 (xsFacet X)
          return c.withFacets fs)
        (do let fs ← many1 (numericFacet X); return NC.withFacets {} fs)))

/-! ## Shapes -/

/-- `shape_ref` with `at_pname_ln`, `at_pname_ns` and `at_shape_expr_label` (367-374, 1624-1634). -/
def shapeRef : P Label :=
  alt (do let _ ← char '@'; tws0; let r ← pnameLn; return .iri r)
    (alt (do let _ ← char '@'; tws0; let r ← pnameNsIri; return .iri r)
      (do let _ ← char '@'; shapeLabel))

/-- `Qualifier` (grammar_structs.rs:33-37). -/
inductive Qual where
  | closed
  | extra (ps : List IriRef)
  | ext (l : Label)
  deriving DecidableEq, Repr

/-- `qualifier` with `extension`, `closed` and `extra_property_set` (651-688). -/
def qualifier : P Qual :=
  alt (alt (do tokenTwsNoCase "extends".toList; let l ← shapeRef; return .ext l)
      (do tokenTws ['&']; let l ← shapeRef; return .ext l))
    (alt (do tokenTws "CLOSED".toList; return .closed)
      (do
        tokenTws "EXTRA".toList
        let ps ← cut (many1 (do let p ← predicate; tws0; return p))
        return .extra ps))

/-- The flag of a shape (570-574). -/
def closedOf (qs : List Qual) : Option Bool := if qs.contains .closed then some true else none

/-- The properties that a shape leaves open (576-588). -/
def extraOf (qs : List Qual) : List IriRef :=
  (qs.map fun q => match q with | .extra ps => ps | _ => []).flatten

/-- The shapes that a shape extends (577-583). -/
def extendsOf (qs : List Qual) : List Label :=
  qs.filterMap fun q => match q with | .ext l => some l | _ => none

/-- A list that is left out when it is empty (589-595). -/
def nonEmpty {α : Type} (l : List α) : Option (List α) := if l.isEmpty then none else some l

/-- `iri_or_literal` (1141-1146). -/
def iriOrLit (X : Ext) : P ObjVal := alt (do let r ← iri; return .iri r) (do let l ← literal X; return .lit l)

/-- `annotation` (1130-1138). -/
def annotation (X : Ext) : P Annot := do
  tokenTws ['/', '/']
  let p ← cut predicate
  tws0
  let o ← cut (iriOrLit X)
  return ⟨p, o⟩

/-- `semantic_actions` (1149-1156). -/
def semActs : P (Option (List SemAct)) := do
  let cs ← many0 codeDecl
  return nonEmpty cs

/-- `maybe_triple_expr` (635-637). -/
def maybeTriple (R : Rec) : P (Option TE) :=
  alt (do let t ← R.triple; return some t) (do tws0; return none)

/-- `shape_definition` (556-606) and, with the flag, `inline_shape_definition` (609-633), which has neither annotations
nor actions and panics (`todo!()`) when the shape extends another one. -/
def shapeDef (X : Ext) (inl : Bool) (R : Rec) : P SE := do
  let qs ← many0 qualifier
  tokenTws ['{']
  let te ← maybeTriple R
  tokenTws ['}']
  if inl then
    if (extendsOf qs).isEmpty then return .shape (closedOf qs) (nonEmpty (extraOf qs)) te none none none
    else crash
  else
    let anns ← many0 (annotation X)
    tws0
    let acts ← semActs
    return .shape (closedOf qs) (nonEmpty (extraOf qs)) te acts (nonEmpty anns) (nonEmpty (extendsOf qs))

/-- `shape_or_ref` and `inline_shape_or_ref` (354-364). -/
def shapeOrRef (X : Ext) (inl : Bool) (R : Rec) : P SE :=
  alt (shapeDef X inl R) (do let l ← shapeRef; return .ref l)

/-- A node constraint with the shape that follows it: `non_lit_opt_shape_or_ref` (252-274) and
`non_lit_inline_opt_shape_or_ref` (308-321). -/
def andAfter (inl : Bool) (c : NC) : Option SE → SE
  | none => .nc c
  | some (.and es) => if inl then .and [.nc c, .and es] else .and (.nc c :: es)
  | some e => .and [.nc c, e]

/-- `shape_atom` (236-250) and `inline_shape_atom` (291-305) with their parts (252-351). -/
def shapeAtom (X : Ext) (inl : Bool) (R : Rec) : P SE :=
  alt (do
      let c ← nonLit
      tws0
      let e ← opt (shapeOrRef X inl R)
      return andAfter inl c e)
    (alt (do let c ← lit X; return .nc c)
      (alt (do
          let e ← shapeOrRef X inl R
          let c ← opt nonLit
          return match c with
            | none => e
            | some c => .and [e, .nc c])
        (alt (do
            let _ ← char '('
            tws0
            let e ← R.shape
            tws0
            let _ ← char ')'
            return e)
          (do tws0; let _ ← char '.'; return .any))))

/-- `shape_not` and `inline_shape_not` (212-229). -/
def shapeNot (X : Ext) (inl : Bool) (R : Rec) : P SE := do
  let n ← opt (tokenTwsNoCase "NOT".toList)
  let e ← shapeAtom X inl R
  return if n.isSome then .not e else e

/-- `shape_and` and `inline_shape_and` (194-209). -/
def shapeAnd (X : Ext) (inl : Bool) (R : Rec) : P SE := do
  let es ← many1Sep (shapeNot X inl R) (tokenTwsNoCase "AND".toList)
  return mkAnd es

/-- `shape_or` and `inline_shape_or` (176-191), which are `shape_expression` and `inline_shape_expression`
(166-173). -/
def shapeOr (X : Ext) (inl : Bool) (R : Rec) : P SE := do
  let es ← many1Sep (shapeAnd X inl R) (tokenTwsNoCase "OR".toList)
  return mkOr es

/-! ## Triple expressions -/

/-- `rest_range` with `integer_or_star` (1601-1614). -/
def restRange : P (Option Int) := do
  tokenTws [',']
  opt (alt (do let n ← integer; return wrap32 n) (do tokenTws ['*']; return -1))

/-- `repeat_range` (1581-1597). -/
def repeatRange : P (Int × Int) := do
  tag ['{']
  let m ← integer
  let r ← opt restRange
  cut (tag ['}'])
  return match r with
    | none => (wrap32 m, wrap32 m)
    | some none => (wrap32 m, -1)
    | some (some n) => (wrap32 m, n)

/-- `cardinality` (893-913, grammar_structs.rs:46-65). -/
def cardinality : P (Int × Int) :=
  alt (do let _ ← char '+'; return (1, -1))
    (alt (do let _ ← char '*'; return (0, -1))
      (alt (do let _ ← char '?'; return (0, 1)) repeatRange))

/-- `sense_flags` with its parts (856-890): whether the constraint is negated and whether it is inverse. -/
def senseFlags : P (Option Bool × Option Bool) :=
  alt (do
      tokenTws ['!']
      let i ← opt (tokenTws ['^'])
      return (some true, i.map fun _ => true))
    (do
      tokenTws ['^']
      let n ← opt (tokenTws ['!'])
      return (n.map fun _ => true, some true))

/-- `triple_constraint` (819-854). -/
def tripleConstraint (X : Ext) (R : Rec) : P TE := do
  let sf ← opt senseFlags
  tws0
  let p ← predicate
  tws0
  let se ← R.inline
  tws0
  let card ← opt cardinality
  tws0
  let anns ← many0 (annotation X)
  tws0
  let acts ← semActs
  let (neg, inv) := sf.getD (none, none)
  return .tc none neg inv p (if se.isAny then none else some se) (card.map (·.1)) (card.map (·.2)) acts (nonEmpty anns)

/-- The cardinality after the brackets (803-806). -/
def TE.putCard (card : Option (Int × Int)) (te : TE) : Option TE :=
  match card with
  | some c => te.withCard (some c.1) (some c.2)
  | none => some te

/-- The annotations after the brackets (807-809). -/
def TE.putAnns (anns : List Annot) (te : TE) : Option TE := if anns.isEmpty then some te else te.withAnns (some anns)

/-- `bracketed_triple_expr` (789-816): what is written after the brackets replaces what the expression has. -/
def bracketed (X : Ext) (R : Rec) : P TE := do
  tokenTws ['(']
  let te ← cut R.triple
  cut (tokenTws [')'])
  let card ← cut (opt cardinality)
  tws0
  let anns ← many0 (annotation X)
  tws0
  let acts ← semActs
  let te ← orCrash (te.putCard card)
  let te ← orCrash (te.putAnns anns)
  orCrash (te.withActs acts)

/-- `unary_triple_expr` with `include_`, `unary_triple_expr_opt1` and `triple_expr_label_opt` (763-786, 1119-1127). -/
def unary (X : Ext) (R : Rec) : P TE :=
  alt (do tokenTws ['&']; let l ← cut tripleLabel; return .ref l)
    (do
      let id ← opt (do let _ ← char '$'; tws0; tripleLabel)
      tws0
      let te ← alt (bracketed X R) (tripleConstraint X R)
      orCrash (te.withId id))

/-- `TripleExpr::each_of` (triple_expr.rs:109-122). -/
def mkEach (es : List TE) : TE := .each none es none none none none

/-- `TripleExpr::one_of` (triple_expr.rs:124-137). -/
def mkOne (es : List TE) : TE := .one none es none none none none

/-- `multi_element_group` with `rest_unary_triple_expr` (739-759). -/
def multiGroup (X : Ext) (R : Rec) : P TE := do
  let t ← unary X R
  tws0
  let ts ← many1 (do tokenTws [';']; unary X R)
  tws0
  let _ ← opt (char ';')
  return mkEach (t :: ts)

/-- `single_element_group` (733-736). -/
def singleGroup (X : Ext) (R : Rec) : P TE := do
  let t ← unary X R
  tws0
  let _ ← opt (char ';')
  return t

/-- `group_triple_expr` (728-730). -/
def group (X : Ext) (R : Rec) : P TE := alt (multiGroup X R) (singleGroup X R)

/-- `multi_element_one_of` with `rest_group_triple_expr` (704-725). -/
def multiOne (X : Ext) (R : Rec) : P TE := do
  let t ← group X R
  tws0
  let ts ← many1 (do tokenTws ['|']; group X R)
  return mkOne (t :: ts)

/-- `triple_expression` and `one_of_triple_expr` (691-701). -/
def tripleExpr (X : Ext) (R : Rec) : P TE := alt (multiOne X R) (group X R)

/-- The recursion of the grammar, with fuel for the brackets that are open. -/
def recs (X : Ext) : Nat → Rec
  | 0 => ⟨fun _ => .deep, fun _ => .deep, fun _ => .deep⟩
  | n + 1 => ⟨shapeOr X false (recs X n), shapeOr X true (recs X n), tripleExpr X (recs X n)⟩

/-- `shape_expression` (166-168). Every bracket is one character of the input, so its length is enough fuel
(`C104`). -/
def shapeExpression (X : Ext) : P SE := fun i => (recs X (i.length + 1)).shape i

/-- `inline_shape_expression` (171-173). -/
def inlineShapeExpression (X : Ext) : P SE := fun i => (recs X (i.length + 1)).inline i

/-! ## Statements -/

/-- `ShExStatement` (grammar_structs.rs:6-30). -/
inductive Stmt where
  | pfx (alias iri : Str)
  | base (iri : Str)
  | imp (r : IriRef)
  | startActs (acts : List SemAct)
  | start (e : SE)
  | decl (abs : Bool) (l : Label) (e : SE)

/-- `base_decl` (53-61). -/
def baseDecl : P Stmt := do
  tagNoCase "BASE".toList
  tws0
  let s ← cut iriRef
  return .base s

/-- `prefix_decl` (64-79). -/
def prefixDecl : P Stmt := do
  tagNoCase "PREFIX".toList
  tws0
  let a ← cut pnameNs
  tws0
  let s ← cut iriRef
  return .pfx a s

/-- `import_decl` (83-92). -/
def importDecl : P Stmt := do
  tagNoCase "IMPORT".toList
  tws0
  let r ← cut iri
  return .imp r

/-- `start` (100-115). -/
def startDecl (X : Ext) : P Stmt := do
  tagNoCase "START".toList
  tws0
  let _ ← cut (char '=')
  tws0
  let e ← cut (inlineShapeExpression X)
  return .start e

/-- `shape_expr_decl` with `shape_expr_or_external` and `external` (129-163). -/
def shapeDecl (X : Ext) : P Stmt := do
  let a ← opt (tokenTwsNoCase "abstract".toList)
  let l ← shapeLabel
  tws0
  let e ← cut (alt (shapeExpression X) (do tagNoCase "EXTERNAL".toList; return .external))
  return .decl a.isSome l e

/-- `shex_statement` with `directive` and `start_actions` (40-50, 118-121). -/
def statement (X : Ext) : P Stmt :=
  alt (alt baseDecl (alt prefixDecl importDecl))
    (alt (startDecl X) (alt (shapeDecl X) (do let cs ← many1 codeDecl; return .startActs cs)))

/-- `StatementIterator` (shex_parser.rs:84-150) run to its end, with fuel: the statements of a text, or the error, or a
panic. -/
def statementsGo (X : Ext) : Nat → Str → Res (List Stmt)
  | _, [] => .ok [] []
  | 0, _ => .deep
  | n + 1, c :: i =>
    match statement X (c :: i) with
    | .ok s r =>
      match statementsGo X n (skip r) with
      | .ok ss r' => .ok (s :: ss) r'
      | .err => .err
      | .fail => .fail
      | .panic => .panic
      | .deep => .deep
    | .panic => .panic
    | .deep => .deep
    | _ => .fail

/-- The statements of a text: every statement is at least one character long. -/
def statements (X : Ext) (i : Str) : Res (List Stmt) := statementsGo X i.length (skip i)

end Shexc

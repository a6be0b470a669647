import Verif.Shacl.Path

/-!
# Model: parsers of the nodes of a graph; lists and SHACL paths

`CO` is `rudof_rdf/src/rdf_core/parser/rdf_node_parser/combinators.rs`; beside it, `UT` is `utils.rs` and
`PR`, `PM`, `VL`, `FO`, `LI`, `SP` are `property.rs`, `primitive.rs`, `validation.rs`, `focus.rs`, `list.rs`, `shacl.rs`
in `constructors`.

A parser works on a graph with a focus node, which it may move; it does not put the focus back unless said so. In
all uses modelled a focus is set first, so the focus is a term (not an `Option`). Triple terms are not modelled, nor
are failures of the access to the graph, nor the texts of errors. `L` is the type of the literals. The values of a
property come in a hash set made anew at each reading, so their order is a parameter `ord` that may be different at
each reading: the state counts the readings.
-/

namespace Rd

/-- The IRIs that the parsers name (`vocabs/{rdf,rdfs,shacl}.rs`). -/
inductive Voc where
  | type | first | rest | nil | rdfsClass
  | NodeShape | PropertyShape | Shape
  | path | alternativePath | zeroOrMorePath | oneOrMorePath | zeroOrOnePath | inversePath
  | targetClass | targetNode | targetSubjectsOf | targetObjectsOf
  | cls | datatype | nodeKind | minCount | maxCount
  | minExclusive | minInclusive | maxExclusive | maxInclusive
  | minLength | maxLength | pattern | flags | uniqueLang | languageIn
  | equals | disjoint | lessThan | lessThanOrEquals
  | and | or | not | xone | node | property
  | qualifiedValueShape | qualifiedMinCount | qualifiedMaxCount | qualifiedValueShapesDisjoint
  | closed | ignoredProperties | hasValue | isIn | sparql | select | deactivated
  | severity | message | name | description | order | reifierShape | reificationRequired
  | IRI | Literal | BlankNode | BlankNodeOrIRI | BlankNodeOrLiteral | IRIOrLiteral
  | Violation | Warning | Info | Debug | Trace
deriving DecidableEq

/-- IRIs: those named, and all others. -/
inductive Iri where
  | v (k : Voc)
  | o (s : String)
deriving DecidableEq

/-- Terms. -/
inductive Tm (L : Type) where
  | iri (i : Iri)
  | bnode (s : String)
  | lit (l : L)
deriving DecidableEq

/-- `term_as_subject` fails: the term cannot be a subject. -/
def Tm.isLit {L : Type} : Tm L → Bool
  | .lit _ => true
  | _ => false

/-- A graph, and the order in which hash sets are traversed, reading by reading. -/
structure Gr (L : Type) where
  ts : List (Tm L × Iri × Tm L)
  ord : Nat → List (Tm L) → List (Tm L)

/-- The focus node, and how many sets have been read so far. -/
structure St (L : Type) where
  focus : Tm L
  reads : Nat

/-- How a parser ends: with a value, an error, a panic, or not at all. -/
inductive Res (A : Type) where
  | ok (a : A)
  | err
  | panic
  | loop
deriving DecidableEq

/-- `RDFNodeParse::parse_focused` (`core.rs`). -/
abbrev Pr (L A : Type) := St L → Res A × St L

section
variable {L A B : Type}

/-- `SuccessParser` (VL 185-209). -/
def ret (a : A) : Pr L A := fun s => (.ok a, s)

/-- An error. -/
def fail : Pr L A := fun s => (.err, s)

/-- `todo!()`. -/
def panic : Pr L A := fun s => (.panic, s)

/-- `Then` (CO 385-399), and the sequence with `?`; also `And`, `With`, `Map`, `FlatMap` (CO 121-135, 209-223, 254-355). -/
def andThen (p : Pr L A) (f : A → Pr L B) : Pr L B := fun s =>
  match p s with
  | (.ok a, s') => f a s'
  | (.err, s') => (.err, s')
  | (.panic, s') => (.panic, s')
  | (.loop, s') => (.loop, s')

instance : Monad (Pr L) where
  pure := ret
  bind := andThen

/-- `Or` (CO 74-91): the second starts at the focus where the first has failed. -/
def orElse (p q : Pr L A) : Pr L A := fun s =>
  match p s with
  | (.err, s') => q s'
  | r => r

/-- `Optional` (CO 31-46). -/
def optional (p : Pr L A) : Pr L (Option A) := fun s =>
  match p s with
  | (.ok a, s') => (.ok (some a), s')
  | (.err, s') => (.ok none, s')
  | (.panic, s') => (.panic, s')
  | (.loop, s') => (.loop, s')

/-- `Not` (CO 162-179). -/
def notP (p : Pr L A) : Pr L Unit := fun s =>
  match p s with
  | (.ok _, s') => (.err, s')
  | (.err, s') => (.ok (), s')
  | (.panic, s') => (.panic, s')
  | (.loop, s') => (.loop, s')

/-- `FocusParser` (FO 25-39), `TermParser` (PM 64-77). -/
def getFocus : Pr L (Tm L) := fun s => (.ok s.focus, s)

/-- `set_focus`, `SetFocusParser` (FO 58-68). -/
def setFocus (t : Tm L) : Pr L Unit := fun s => (.ok (), { s with focus := t })

/-- A value or an error. -/
def lift (o : Option A) : Pr L A := fun s =>
  match o with
  | some a => (.ok a, s)
  | none => (.err, s)

/-- A `for` loop over a vector that collects results, with `?`. -/
def each (f : A → Pr L B) : List A → Pr L (List B)
  | [] => ret []
  | a :: l => do
    let b ← f a
    let bs ← each f l
    ret (b :: bs)

variable [DecidableEq L] (g : Gr L)

/-- The set of the objects of triples with this subject and predicate (`triples_matching`). -/
def Gr.objs (s : Tm L) (p : Iri) : List (Tm L) :=
  if s.isLit then [] else ((g.ts.filter fun t => decide (t.1 = s ∧ t.2.1 = p)).map fun t => t.2.2).dedup

/-- `ValuesPropertyParser` (PR 36-57): empty when the focus cannot be a subject. -/
def values (p : Iri) : Pr L (List (Tm L)) := fun s =>
  (.ok (g.ord s.reads (g.objs s.focus p)), { s with reads := s.reads + 1 })

/-- `NonEmptyValuesPropertyParser` (PR 74-92). -/
def nonEmpty (p : Iri) : Pr L (List (Tm L)) := do
  let vs ← values g p
  match vs with
  | [] => fail
  | v :: vs => ret (v :: vs)

/-- `SingleValuePropertyParser` (PR 115-140): any one of the values. -/
def single (p : Iri) : Pr L (Tm L) := do
  let vs ← values g p
  match vs with
  | [] => fail
  | v :: _ => ret v

/-- `rdf:nil` as a term. -/
def nilT : Tm L := .iri (.v .nil)

/-- `parse_list_recursive` (UT 290-330) with at most so many calls. -/
def listRec : Nat → List (Tm L) → Pr L (List (Tm L))
  | 0, _ => fun s => (.loop, s)
  | n + 1, visited => do
    let focus ← getFocus
    if focus = nilT then ret [] else do
      let first ← single g (.v .first)
      let rest ← single g (.v .rest)
      if rest ∈ visited then fail else do
        setFocus rest
        let l ← listRec n (visited ++ [rest])
        ret (first :: l)

/-- `ListParser` (LI 24-38). More calls than these are never made (`C116_ends`). -/
def listP : Pr L (List (Tm L)) := do
  let focus ← getFocus
  listRec g (g.ts.length + 2) [focus]

/-- `parse_sequence` (SP 105-121), given the parser of paths. -/
def seqP (path : Tm L → Pr L (Shacl.Path Iri)) : Pr L (Shacl.Path Iri) := do
  let ts ← listP g
  let ps ← each path ts
  ret (.seq ps)

/-- `parse_alternative` (SP 123-143). -/
def altP (path : Tm L → Pr L (Shacl.Path Iri)) : Pr L (Shacl.Path Iri) := do
  let l ← single g (.v .alternativePath)
  setFocus l
  let ts ← listP g
  let ps ← each path ts
  ret (.alt ps)

/-- `parse_zero_or_more`, `parse_one_or_more`, `parse_zero_or_one`, `parse_inverse` (SP 145-182). -/
def unP (path : Tm L → Pr L (Shacl.Path Iri)) (p : Voc) (k : Shacl.Path Iri → Shacl.Path Iri) :
    Pr L (Shacl.Path Iri) := do
  let t ← single g (.v p)
  let q ← path t
  ret (k q)

/-- `try_parse_complex_path` (SP 62-103). -/
def complexP (path : Tm L → Pr L (Shacl.Path Iri)) : Pr L (Shacl.Path Iri) :=
  orElse (seqP g path) <| orElse (altP g path) <|
  orElse (unP g path .zeroOrMorePath .star) <| orElse (unP g path .oneOrMorePath .plus) <|
  orElse (unP g path .zeroOrOnePath .opt) (unP g path .inversePath .inv)

/-- `ShaclPathParser` (SP 31-60) with at most so many nested calls. -/
def pathP : Nat → Tm L → Pr L (Shacl.Path Iri)
  | 0, _ => fun s => (.loop, s)
  | n + 1, t => do
    setFocus t
    match t with
    | .iri i => ret (.pred i)
    | .bnode _ => complexP g (pathP n)
    | .lit _ => fail

end

end Rd

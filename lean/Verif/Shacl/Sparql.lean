import Verif.Shacl.Target

/-!
# Model: SHACL constraints and targets in the SPARQL mode

`CM` is `shacl/src/validator/constraints/mod.rs`, `ES` is `shacl/src/validator/engine/sparql.rs`; the others are files of
`shacl/src/validator/constraints/core/{other,property_pair,string_based,value,value_range}`.

In this mode the validators write a query for a focus node or a value node and give it to the store. The model has the
queries as trees instead of texts (that IRIs and literals are read back from their texts is C127); a text that is no query,
because of a blank node in an expression, is `none`. The store answers with `none` for an error. Otherwise as in `Prim`.
-/

namespace Shacl
open Lit

/-- Variables of a query: those with a name, and labels of blank nodes, which stand for variables in a pattern. -/
inductive QVar where
  | named (s : Str)
  | label (s : Str)
deriving DecidableEq

/-- Subjects and objects of patterns. -/
inductive QTerm where
  | iri (s : Str)
  | lit (r : RdfLiteral)
  | var (v : QVar)
deriving DecidableEq

/-- Predicates of patterns. -/
inductive QPred where
  | iri (s : Str)
  | var (s : Str)
deriving DecidableEq

/-- Expressions of filters. -/
inductive QExpr where
  | const (b : Bool)
  | int (n : Int)
  | term (t : Term)
  | var (s : Str)
  | isIri (e : QExpr)
  | isLiteral (e : QExpr)
  | lt (a b : QExpr)
  | le (a b : QExpr)
  | ge (a b : QExpr)
  | str (e : QExpr)
  | strlen (e : QExpr)
  | regex (e : QExpr) (pattern : Str) (flags : Option Str)
  | coalesce (a b : QExpr)
  | not (e : QExpr)
  | notIn (e : QExpr) (iris : List Str)

/-- `{ s p o . BIND (e AS ?v) FILTER (f) }`. -/
structure QGroup where
  triple : Option (QTerm × QPred × QTerm)
  bind : Option (Str × QExpr)
  filter : Option QExpr

/-- The forms of queries that are written. -/
inductive Query where
  /-- `ASK { .. }` -/
  | ask (G : QGroup)
  /-- `SELECT ?v .. WHERE { .. }` -/
  | select (vars : List Str) (G : QGroup)
  /-- `SELECT DISTINCT ?v WHERE { .. }` -/
  | distinct (v : Str) (G : QGroup)
  /-- `ASK { s path o }` -/
  | askPath (s : Term) (p : Path Str) (o : Term)
  /-- `SELECT DISTINCT ?v WHERE { ?v path o }` -/
  | distinctPath (v : Str) (p : Path Str) (o : Term)

/-- `QuerySolution::find_solution`. -/
abbrev Row := Str → Option Term

/-- `QueryRDF`: the answers of the store. -/
structure Answers where
  ask : Query → Option Bool
  select : Query → Option (List Row)

/-- `query_ask` of a text that may not be a query. -/
def Answers.askText (Q : Answers) (t : Option Query) : Option Bool := t.bind Q.ask

/-- `query_select` of a text that may not be a query. -/
def Answers.selectText (Q : Answers) (t : Option Query) : Option (List Row) := t.bind Q.select

section
variable {D : Type} (E : Env D)

/-- The literal that `object_as_sparql` writes (CM 406-415): the text with the language or else the datatype; nothing for
an unresolved datatype. -/
def Literal.written (l : Literal D) : Option RdfLiteral :=
  match l.lang with
  | some g => some ⟨l.lexicalForm E.X, none, some g⟩
  | none =>
    match l.datatype with
    | .prefixed _ _ => none
    | .string => some ⟨l.lexicalForm E.X, none, none⟩
    | d => some ⟨l.lexicalForm E.X, some d, none⟩

/-- `object_as_sparql` (CM 402-418): the term that is written, none for blank nodes. -/
def Env.ground : Ob D → Option Term
  | .iri s => some (.iri s)
  | .bnode _ => none
  | .lit l => (Literal.written E l).map .lit

/-- `term_as_sparql` (CM 422-425). -/
def Env.groundTerm (t : Term) : Option Term := (E.obj t).bind E.ground

/-- A term formatted into a pattern (`{}`). -/
def QTerm.shown : Term → QTerm
  | .iri s => .iri s
  | .bnode s => .var (.label s)
  | .lit r => .lit r

/-- A term formatted into an expression, where blank nodes are no syntax. -/
def QExpr.shown : Term → Option QExpr
  | .bnode _ => none
  | t => some (.term t)

/-- `ASK { FILTER(e) }`. -/
def askFilter (e : QExpr) : Query := .ask ⟨none, none, some e⟩

/-- `validate_ask_with_opt` (CM 369-393), with `apply`: no query or an error of the store is no violation. -/
def Env.askEach (Q : Answers) (x : Term) (vs : List Term) (query : Term → Option Query) : List (Hit D) :=
  E.each x vs fun v =>
    match query v with
    | none => false
    | some q =>
      match Q.ask q with
      | some b => !b
      | none => false

/-- `value/node_kind.rs` 94-118. -/
def Env.kindQuery (k : NodeKind) (v : Term) : Option Query :=
  match v with
  | .bnode _ => some (askFilter (.const (k == .bnode || k == .bnodeOrIri || k == .bnodeOrLit)))
  | .iri _ => (E.groundTerm v).map fun t =>
      askFilter (if k == .iri || k == .bnodeOrIri || k == .iriOrLit then .isIri (.term t) else .const false)
  | .lit _ => (E.groundTerm v).map fun t =>
      askFilter (if k == .lit || k == .iriOrLit || k == .bnodeOrLit then .isLiteral (.term t) else .const false)

/-- `query_fn` of the files of `value_range` (66-75). -/
def Env.rangeQuery (test : Term → QExpr) (v : Term) : Option Query :=
  if v.isLit then (E.groundTerm v).map fun t => askFilter (.coalesce (test t) (.const false))
  else some (askFilter (.const false))

/-- `validate_sparql` of the files of `value_range` (61-85): no results for a bound that cannot be written. -/
def Env.rangeSparql (Q : Answers) (bound : Literal D) (test : Term → Term → QExpr) (x : Term) (vs : List Term) :
    List (Hit D) :=
  match E.ground (.lit bound) with
  | none => []
  | some b => E.askEach Q x vs (E.rangeQuery (test b))

/-- `query_fn` of `string_based/{min,max}_length.rs` (73-81) and `pattern.rs` (71-79). -/
def Env.stringQuery (test : QExpr → QExpr) (v : Term) : Option Query :=
  if v.isBlank then some (askFilter (.const false))
  else (E.groundTerm v).map fun t => askFilter (test (.str (.term t)))

/-- `string_based/pattern.rs` 54-91. -/
def Env.patternSparql (Q : Answers) (pattern : Str) (flags : Option Str) (x : Term) (vs : List Term) : List (Hit D) :=
  E.askEach Q x vs (E.stringQuery fun e => .regex e pattern flags)

/-- `rdf:type/rdfs:subClassOf*`. -/
def instancePath : Path Str := .seq [.pred rdfType, .star (.pred subClassOf)]

/-- `blank_is_instance` (`value/class.rs` 125-134). -/
def blankIsInstance (g : Graph Term Str) (v c : Term) : Bool :=
  (g.objectsOr v rdfType).any fun t => t == c || (g.objectsOr t subClassOf).contains c

/-- The loop of `value/class.rs` 91-118. -/
def Env.classLoop (Q : Answers) (g : Graph Term Str) (c : Ob D) (written : Term) : List Term → Outcome (List (Hit D))
  | [] => .ok []
  | v :: vs =>
    let conforms : Option Bool :=
      if v.isLit then some false
      else if v.isBlank then some (blankIsInstance g v (E.term c))
      else Q.askText ((E.groundTerm v).map fun t => .askPath t instancePath written)
    match conforms with
    | none => .err
    | some b =>
      match classLoop Q g c written vs with
      | .ok hs => .ok (if b then hs else ⟨E.obj v, none⟩ :: hs)
      | o => o

/-- `value/class.rs` 71-121: no results for a class that is a blank node. -/
def Env.classSparql (Q : Answers) (g : Graph Term Str) (c : Ob D) (x : Term) (vs : List Term) : Outcome (List (Hit D)) :=
  match E.ground c with
  | none => .ok []
  | some w =>
    match E.obj x with
    | none => .err
    | some _ => E.classLoop Q g c w vs

/-- The variable `o` of the queries. -/
def vO : Str := ['o']
/-- The variable `p`. -/
def vP : Str := ['p']
/-- The variable `other`. -/
def vOther : Str := ['o', 't', 'h', 'e', 'r']
/-- The variable `lt`, or `lte`. -/
def vLt : Str := ['l', 't']
/-- The variable `this`. -/
def vThis : Str := ['t', 'h', 'i', 's']
/-- The variable `any`. -/
def vAny : Str := ['a', 'n', 'y']

/-- `property_pair/equals.rs` 95-135. -/
def Env.equalsSparql (Q : Answers) (p : Str) (x : Term) (vs : List Term) : Outcome (List (Hit D)) :=
  match Q.select (.select [vO] ⟨some (.shown x, .iri p, .var (.named vO)), none, none⟩) with
  | none => .err
  | some rows =>
    match E.obj x with
    | none => .err
    | some _ =>
      let ps := (rows.filterMap fun r => r vO).dedup
      .ok ((ps.filter fun t => !vs.contains t).map (fun t => ⟨E.obj t, none⟩) ++
        (vs.filter fun t => !ps.contains t).map fun t => ⟨E.obj t, none⟩)

/-- The loop of `property_pair/disjoint.rs` 83-98. -/
def Env.disjointAsks (Q : Answers) (p : Str) (x : Term) : List Term → Outcome (List (Hit D))
  | [] => .ok []
  | v :: vs =>
    match Q.ask (.ask ⟨some (.shown x, .iri p, .shown v), none, none⟩) with
    | none => .err
    | some b =>
      match disjointAsks Q p x vs with
      | .ok hs => .ok (if b then ⟨E.obj v, none⟩ :: hs else hs)
      | o => o

/-- `property_pair/disjoint.rs` 77-101. -/
def Env.disjointSparql (Q : Answers) (p : Str) (x : Term) (vs : List Term) : Outcome (List (Hit D)) :=
  match E.obj x with
  | none => .err
  | some _ => E.disjointAsks Q p x vs

/-- The query of `property_pair/less_than{,_or_equals}.rs` (113-119). -/
def lessQuery (strict : Bool) (p : Str) (x v : Term) : Option Query :=
  (QExpr.shown v).map fun e =>
    .select [vOther] ⟨some (.shown x, .iri p, .var (.named vOther)),
      some (vLt, .coalesce (if strict then .lt e (.var vOther) else .le e (.var vOther)) (.const false)),
      some (.not (.var vLt))⟩

/-- The loop of `property_pair/less_than.rs` 112-137: a result for each row. -/
def Env.lessSelects (Q : Answers) (strict : Bool) (p : Str) (x : Term) : List Term → Outcome (List (Hit D))
  | [] => .ok []
  | v :: vs =>
    match Q.selectText (lessQuery strict p x v) with
    | none => .err
    | some rows =>
      match lessSelects Q strict p x vs with
      | .ok hs => .ok (rows.map (fun _ => ⟨E.obj v, none⟩) ++ hs)
      | o => o

/-- `property_pair/less_than.rs` 106-141. -/
def Env.lessSparql (Q : Answers) (strict : Bool) (p : Str) (x : Term) (vs : List Term) : Outcome (List (Hit D)) :=
  match E.obj x with
  | none => .err
  | some _ => E.lessSelects Q strict p x vs

/-- The row of `sh:closed` (`other/closed.rs` 134-145): the predicate has to be an IRI. -/
def Env.closedRow (r : Row) : Option (Hit D) :=
  match r vP with
  | some (.iri p) => some ⟨(r vO).bind E.obj, some p⟩
  | _ => none

/-- `other/closed.rs` 84-162. Blank nodes are looked up in the graph. -/
def Env.closedSparql (Q : Answers) (g : Graph Term Str) (allowed : List Str) (x : Term) : Outcome (List (Hit D)) :=
  match E.obj x with
  | none => .err
  | some _ =>
    if x.isBlank then
      .ok ((g.triples.filter fun t => decide (t.1 = x ∧ t.2.1 ∉ allowed)).map fun t => ⟨E.obj t.2.2, some t.2.1⟩)
    else
      match Q.select (.select [vP, vO] ⟨some (.shown x, .var vP, .var (.named vO)), none,
        if allowed.isEmpty then none else some (.notIn (.var vP) allowed)⟩) with
      | none => .err
      | some rows => .ok (rows.filterMap E.closedRow)

/-- `validate_sparql` of the components, for one focus node with its value nodes. Those that have one function for both
modes (CM 133-146) are as in the other mode. Patterns are `patternSparql`. -/
def Prim.evalSparql (Q : Answers) (g : Graph Term Str) (allowed : List Str) (x : Term) (vs : List Term) :
    Prim D → Outcome (List (Hit D))
  | .cls c => E.classSparql Q g c x vs
  | .nodeKind k => .ok (E.askEach Q x vs (E.kindQuery k))
  | .minExclusive l => .ok (E.rangeSparql Q l (fun b v => .lt (.term b) (.term v)) x vs)
  | .minInclusive l => .ok (E.rangeSparql Q l (fun b v => .le (.term b) (.term v)) x vs)
  | .maxExclusive l => .ok (E.rangeSparql Q l (fun b v => .lt (.term v) (.term b)) x vs)
  | .maxInclusive l => .ok (E.rangeSparql Q l (fun b v => .le (.term v) (.term b)) x vs)
  | .minLength n => .ok (E.askEach Q x vs (E.stringQuery fun e => .ge (.strlen e) (.int n)))
  | .maxLength n => .ok (E.askEach Q x vs (E.stringQuery fun e => .le (.strlen e) (.int n)))
  | .equals p => E.equalsSparql Q p x vs
  | .disjoint p => E.disjointSparql Q p x vs
  | .lessThan p => E.lessSparql Q true p x vs
  | .lessThanOrEquals p => E.lessSparql Q false p x vs
  | .closed b => if b then E.closedSparql Q g allowed x else .ok []
  | c => Prim.eval E g allowed x vs c

/-- `select` (`engine/mod.rs` 131-147): the set of the values of a variable. -/
def Answers.values (Q : Answers) (v : Str) (q : Query) : Option (List Term) :=
  (Q.select q).map fun rows => (rows.filterMap fun r => r v).dedup

/-- The targets of the SPARQL mode (ES 60-125): a class that is a blank node is an error. -/
def Env.targetSparql (Q : Answers) : Target D → Option (List Term)
  | .node o => if (E.term o).isBlank then none else some [E.term o]
  | .cls c | .implicit c => (E.ground c).bind fun w => Q.values vThis (.distinctPath vThis instancePath w)
  | .subjectsOf p =>
    Q.values vThis (.distinct vThis ⟨some (.var (.named vThis), .iri p, .var (.named vAny)), none, none⟩)
  | .objectsOf p =>
    Q.values vThis (.distinct vThis ⟨some (.var (.named vAny), .iri p, .var (.named vThis)), none, none⟩)

/-- `Engine::focus_nodes` (`engine/mod.rs` 50-69): errors are dropped. -/
def Env.focusSparql (Q : Answers) (ts : List (Target D)) : List Term :=
  (ts.flatMap fun t => (E.targetSparql Q t).getD []).dedup

end

end Shacl

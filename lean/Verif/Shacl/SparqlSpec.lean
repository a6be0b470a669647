import Verif.Shacl.Sparql
import Verif.Shacl.PathSpec

/-!
# Specification: answers to SPARQL queries

What SPARQL 1.1 says about the queries of `Sparql`. Operators on literals and regular expressions are parameters.
-/

namespace Shacl
open Lit

/-- `<` and `<=` of literals, and `REGEX`; `none` is an error of types. -/
structure Operators where
  lt : RdfLiteral → RdfLiteral → Option Bool
  le : RdfLiteral → RdfLiteral → Option Bool
  regex : Str → Str → Option Str → Option Bool

/-- Values of expressions. -/
inductive Val where
  | term (t : Term)
  | bool (b : Bool)
  | int (n : Int)
  | text (s : Str)
deriving DecidableEq

/-- A value as a term. -/
def Val.toTerm : Val → Term
  | .term t => t
  | .bool b => .lit ⟨if b then ['t', 'r', 'u', 'e'] else ['f', 'a', 'l', 's', 'e'], some .boolean, none⟩
  | .int n => .lit ⟨intText n, some (.int .integer), none⟩
  | .text s => .lit ⟨s, none, none⟩

/-- Bindings of variables. -/
abbrev Binding := QVar → Option Val

section
variable (O : Operators)

/-- 17.3, 17.4: the value of an expression, `none` for an error. -/
def QExpr.value (μ : Binding) : QExpr → Option Val
  | .const b => some (.bool b)
  | .int n => some (.int n)
  | .term t => some (.term t)
  | .var s => μ (.named s)
  | .isIri e =>
    match value μ e with
    | some (.term (.iri _)) => some (.bool true)
    | some _ => some (.bool false)
    | none => none
  | .isLiteral e =>
    match value μ e with
    | some (.term (.iri _)) => some (.bool false)
    | some (.term (.bnode _)) => some (.bool false)
    | some _ => some (.bool true)
    | none => none
  | .lt a b =>
    match value μ a, value μ b with
    | some (.int m), some (.int n) => some (.bool (decide (m < n)))
    | some (.term (.lit r)), some (.term (.lit r')) => (O.lt r r').map .bool
    | _, _ => none
  | .le a b =>
    match value μ a, value μ b with
    | some (.int m), some (.int n) => some (.bool (decide (m ≤ n)))
    | some (.term (.lit r)), some (.term (.lit r')) => (O.le r r').map .bool
    | _, _ => none
  | .ge a b =>
    match value μ a, value μ b with
    | some (.int m), some (.int n) => some (.bool (decide (n ≤ m)))
    | some (.term (.lit r)), some (.term (.lit r')) => (O.le r' r).map .bool
    | _, _ => none
  | .str e =>
    match value μ e with
    | some (.term (.iri s)) => some (.text s)
    | some (.term (.lit r)) => some (.text r.lex)
    | _ => none
  | .strlen e =>
    match value μ e with
    | some (.text s) => some (.int s.length)
    | _ => none
  | .regex e p f =>
    match value μ e with
    | some (.text s) => (O.regex s p f).map .bool
    | _ => none
  | .coalesce a b => (value μ a).orElse fun _ => value μ b
  | .not e =>
    match value μ e with
    | some (.bool b) => some (.bool !b)
    | _ => none
  | .notIn e l =>
    match value μ e with
    | some (.term (.iri s)) => some (.bool (decide (s ∉ l)))
    | some _ => some (.bool true)
    | none => none

/-- A term at a place of a pattern: a constant has to be the term, a variable gets it or has it. -/
def QTerm.fit (t : Term) (μ : Binding) : QTerm → Option Binding
  | .iri s => if t = .iri s then some μ else none
  | .lit r => if t = .lit r then some μ else none
  | .var v =>
    match μ v with
    | none => some (Function.update μ v (some (.term t)))
    | some w => if w = .term t then some μ else none

/-- A predicate at its place of a pattern. -/
def QPred.fit (q : Str) (μ : Binding) : QPred → Option Binding
  | .iri s => if q = s then some μ else none
  | .var v => QTerm.fit (.iri q) μ (.var (.named v))

/-- The bindings with which a triple is an instance of a pattern. -/
def fits (s : QTerm) (p : QPred) (o : QTerm) (t : Term × Str × Term) : Option Binding :=
  (s.fit t.1 fun _ => none).bind fun μ => (p.fit t.2.1 μ).bind fun μ => o.fit t.2.2 μ

/-- 18.5: the solutions of a group. -/
def solutions (g : Graph Term Str) (G : QGroup) : List Binding :=
  let start : List Binding :=
    match G.triple with
    | none => [fun _ => none]
    | some (s, p, o) => g.triples.filterMap (fits s p o)
  let bound :=
    match G.bind with
    | none => start
    | some (v, e) => start.map fun μ =>
        match e.value O μ with
        | none => μ
        | some w => Function.update μ (.named v) (some w)
  match G.filter with
  | none => bound
  | some f => bound.filter fun μ => f.value O μ == some (.bool true)

/-- The row of a solution. -/
def row (vars : List Str) (μ : Binding) : Row := fun v => if v ∈ vars then (μ (.named v)).map Val.toTerm else none

/-- The store answers queries about a graph as SPARQL says. Solutions come in any order. -/
structure Correct (g : Graph Term Str) (Q : Answers) : Prop where
  ask : ∀ G, Q.ask (.ask G) = some (!(solutions O g G).isEmpty)
  select : ∀ vars G, ∃ rows, Q.select (.select vars G) = some rows ∧ rows.Perm ((solutions O g G).map (row vars))
  distinct : ∀ v G, ∃ rows, Q.select (.distinct v G) = some rows ∧ rows.Nodup ∧
    ∀ r, r ∈ rows ↔ ∃ μ ∈ solutions O g G, r = row [v] μ
  askPath : ∀ s p o, ∃ b, Q.ask (.askPath s p o) = some b ∧ (b = true ↔ Rel g p s o)
  distinctPath : ∀ v p q o, ∃ rows, Q.select (.distinctPath v (.seq [.pred p, q]) o) = some rows ∧ rows.Nodup ∧
    ∀ r, r ∈ rows ↔ ∃ x, Rel g (.seq [.pred p, q]) x o ∧ r = fun w => if w = v then some x else none

end

end Shacl

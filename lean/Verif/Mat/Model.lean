import Verif.Shexc.Ast
import Verif.Prefix.Model

/-!
# Model: graphs made from a ShEx schema and a map

`Materializer` (shex_ast/src/materialize/materializer.rs). The syntax tree is that of `Verif/Shexc`. Recursion is
bounded by a number of steps; what ends with some number is what the code computes.
-/

namespace Mat

open Shexc (SE TE NC IriRef Label SemAct Str)

/-- Terms (`Node`, `Object`, rudof_rdf/src/rdf_core/term/triple.rs:179-190), without triple terms; a literal by its
text. -/
inductive Term where
  | iri (s : Str)
  | bnode (s : Str)
  | literal (s : Str)
  deriving DecidableEq, Repr

/-- Triples. -/
abbrev Triple := Term × Str × Term

/-- What is outside: white space, names as the prefixes of the schema resolve them (`none` where
`Schema::resolve_iriref` panics, shex_ast/src/ast/schema.rs:148-162; `none` where `PrefixMap::resolve` fails), which
texts are IRIs, and the name of the n-th blank node of `add_bnode`. -/
structure Env where
  ws : Char → Bool
  resolve : IriRef → Option Str
  qname : Str → Option Str
  validIri : Str → Bool
  fresh : Nat → Str

/-- The parts of a schema that are used (shex_ast/src/ast/schema.rs:18-50). -/
structure Schema where
  start : Option SE
  shapes : List (Label × SE)

/-- `MapState` (shex_ast/src/ir/actions/map_state.rs:10-26). -/
abbrev MapState := Str → Option Term

/-- What a call ends with: `MaterializeError` (materializer.rs:11-26), a panic, or no more steps. -/
inductive Res (α : Type) where
  | ok (a : α)
  | noStart
  | notFound (l : Label)
  | notSubject
  | panic
  | fuel
  deriving DecidableEq, Repr

/-- The graph that is built: the counter of blank nodes, and the triples in the order they are added. -/
structure St where
  next : Nat
  graph : List Triple
  deriving DecidableEq, Repr

/-- `add_triple` (rudof_rdf/src/rdf_impl/oxigraph/in_memory.rs:989-998): a triple is in a graph once. -/
def St.add (σ : St) (t : Triple) : St := if t ∈ σ.graph then σ else { σ with graph := σ.graph ++ [t] }

/-- `add_bnode` (in_memory.rs:974-980). -/
def newBnode (E : Env) (σ : St) : Term × St := (.bnode (E.fresh (σ.next + 1)), { σ with next := σ.next + 1 })

/-- A loop with `?`. -/
def steps {α : Type} (f : α → St → Res St) : List α → St → Res St
  | [], σ => .ok σ
  | a :: as, σ => match f a σ with
    | .ok σ' => steps f as σ'
    | r => r

/-- `MAP_EXTENSION_IRI` (materializer.rs:9). -/
def mapIri : Str := "http://shex.io/extensions/Map/".toList

/-- `IriS::parse_turtle` (rudof_iri/src/iri/iris.rs:157-168). -/
def parseTurtle (E : Env) (s : Str) : Option Str :=
  let s := Prefix.trim E.ws s
  if s.head? = some '<' ∧ s.getLast? = some '>' then
    let inner := (s.drop 1).dropLast
    if E.validIri inner then some inner else none
  else none

/-- The IRI of the code of an action (materializer.rs:277-283). -/
def mapKey (E : Env) (code : Str) : Option Str :=
  let s := Prefix.trim E.ws code
  (parseTurtle E s).or (E.qname s)

/-- One action of `apply_map_actions` (materializer.rs:272-294). -/
def applyAct (E : Env) (M : MapState) (s : Term) (p : Str) (a : SemAct) (σ : St) : Res St :=
  match E.resolve a.name with
  | none => .panic
  | some n =>
    if n = mapIri then
      match a.code with
      | none => .ok σ
      | some code =>
        match mapKey E code with
        | none => .ok σ
        | some k => match M k with
          | none => .ok σ
          | some v => .ok (σ.add (s, p, v))
    else .ok σ

/-- `find_shape_by_label` (materializer.rs:116-127). -/
def find (S : Schema) (l : Label) : Option SE := (S.shapes.find? fun d => decide (d.1 = l)).map Prod.snd

mutual
/-- `generate_shape_expr` with `generate_shape` (materializer.rs:129-178). -/
def genSE (E : Env) (S : Schema) (M : MapState) : Nat → SE → Term → St → Res St
  | 0, _, _, _ => .fuel
  | n + 1, .shape _ _ (some te) _ _ _, s, σ => genTE E S M n te s σ
  | n + 1, .ref l, s, σ => match find S l with
    | none => .notFound l
    | some e => genSE E S M n e s σ
  | _ + 1, _, _, σ => .ok σ
/-- `generate_triple_expr` (materializer.rs:180-256). -/
def genTE (E : Env) (S : Schema) (M : MapState) : Nat → TE → Term → St → Res St
  | 0, _, _, _ => .fuel
  | n + 1, .each _ es _ _ _ _, s, σ => steps (fun e σ => genTE E S M n e s σ) es σ
  | n + 1, .one _ es _ _ _ _, s, σ => steps (fun e σ => genTE E S M n e s σ) es σ
  | n + 1, .tc _ _ _ p v _ _ acts _, s, σ =>
    match E.resolve p with
    | none => .panic
    | some p' =>
      match v with
      | some (.ref l) =>
        let (b, σ) := newBnode E σ
        let σ := σ.add (s, p', b)
        match find S l with
        | none => .notFound l
        | some e => genSE E S M n e b σ
      | some (.shape c x te a b' ext) =>
        let (b, σ) := newBnode E σ
        let σ := σ.add (s, p', b)
        genSE E S M n (.shape c x te a b' ext) b σ
      | _ => match acts with
        | none => .ok σ
        | some acts => steps (applyAct E M s p') acts σ
  | _ + 1, .ref _, _, σ => .ok σ
end

/-- `find_start_shape_expr` (materializer.rs:104-114). -/
def startShape (S : Schema) : Option SE := S.start.or (S.shapes.head?.map Prod.snd)

/-- The root (materializer.rs:79-92). -/
def root (E : Env) : Option Term → Res (Term × St)
  | some (.literal _) => .notSubject
  | some t => .ok (t, { next := 0, graph := [] })
  | none => .ok (newBnode E { next := 0, graph := [] })

/-- `materialize` (materializer.rs:64-98) with a bound on the steps. -/
def materialize (E : Env) (S : Schema) (M : MapState) (init : Option Term) (n : Nat) : Res (List Triple) :=
  match root E init with
  | .ok (s, σ) => match startShape S with
    | none => .noStart
    | some e => match genSE E S M n e s σ with
      | .ok σ => .ok σ.graph
      | .noStart => .noStart
      | .notFound l => .notFound l
      | .notSubject => .notSubject
      | .panic => .panic
      | .fuel => .fuel
  | _ => .notSubject

end Mat

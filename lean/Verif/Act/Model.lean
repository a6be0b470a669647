import Verif.Prefix.Model

/-!
# Semantic actions

A model of the actions of ShEx schemas: the registry of extensions, the extensions Test and Map
(shex_ast/src/ir/actions), the conditions that run them (shex_ast/src/ast/cond_kind.rs) and the
actions at the start (shex_validation/src/engine.rs). Texts are lists of characters; nodes and
predicates are written by the functions of `Shows`.
-/

namespace Act

abbrev Text := List Char

/-- `SemanticActionContext` without the registry (semantic_action_context.rs:12-20). -/
structure Ctx (N P : Type) where
  s : Option N
  p : Option P
  o : Option N

/-- `new_start_act_context` (semantic_action_context.rs:23-30). -/
def Ctx.start {N P : Type} : Ctx N P := ⟨none, none, none⟩

/-- `triple` (semantic_action_context.rs:43-50). -/
def Ctx.triple {N P : Type} (s : N) (p : P) (o : N) : Ctx N P := ⟨some s, some p, some o⟩

/-- `subject` (semantic_action_context.rs:52-59). -/
def Ctx.subject {N P : Type} (s : N) : Ctx N P := ⟨some s, none, none⟩

/-- `Display` of nodes and predicates; `char::is_whitespace`; which texts `IriS::new` takes. -/
structure Shows (N P : Type) where
  node : N → Text
  pred : P → Text
  ws : Char → Bool
  isIri : Text → Bool

/-- `SemanticActionError` (semantic_action_error.rs); `notAttached` is the error of cond_kind.rs:127. -/
inductive Err where
  | invalidTest (code : Text)
  | invalidParameter
  | noObject
  | fail (message : Text)
  | unknown (iri : Text)
  | notAttached
  deriving DecidableEq

/-- What actions change: the lines that were printed and `MapState` (map_state.rs:8-12), last
insertion of a key first. -/
structure World (N : Type) where
  out : List Text
  map : List (Text × N)
  deriving DecidableEq

/-- `MapState::get` (map_state.rs:19-21). -/
def World.get {N : Type} (w : World N) (k : Text) : Option N :=
  (w.map.find? fun e => e.1 == k).map fun e => e.2

/-- `MapState::insert` (map_state.rs:15-17). -/
def World.insert {N : Type} (w : World N) (k : Text) (v : N) : World N :=
  { w with map := (k, v) :: w.map.filter fun e => e.1 != k }

/-- `println!` (test_action_extension.rs:92). -/
def World.print {N : Type} (w : World N) (line : Text) : World N := { w with out := w.out ++ [line] }

/-- What running something gives: the error, if any, and the world after. -/
abbrev Res (N : Type) := Option Err × World N

/-! ## Test -/

/-- The words `fail` and `print`. -/
inductive Directive where
  | fail
  | print
  deriving DecidableEq

/-- The variables `s`, `p` and `o`. -/
inductive Particle where
  | s
  | p
  | o
  deriving DecidableEq

/-- The groups two and three of the regular expression: the text between the quotes, or a particle. -/
inductive Arg where
  | quoted (inner : Text)
  | particle (x : Particle)
  deriving DecidableEq

/-- ` *` in the regular expression. -/
def spaces : Text → Text
  | ' ' :: cs => spaces cs
  | cs => cs

/-- A word of the regular expression. -/
def word : Text → Text → Option Text
  | [], cs => some cs
  | w :: ws, c :: cs => if w = c then word ws cs else none
  | _ :: _, [] => none

/-- `(fail|print)`. -/
def directive (cs : Text) : Option (Directive × Text) :=
  match word ['f', 'a', 'i', 'l'] cs with
  | some r => some (.fail, r)
  | none => (word ['p', 'r', 'i', 'n', 't'] cs).map fun r => (.print, r)

/-- `(?:[^\\"]|\\\\|\\")*"`: the text before the quote, and what follows it. -/
def quotedBody : Text → Option (Text × Text)
  | [] => none
  | '"' :: cs => some ([], cs)
  | ['\\'] => none
  | '\\' :: c :: cs =>
    if c = '\\' ∨ c = '"' then (quotedBody cs).map fun r => ('\\' :: c :: r.1, r.2) else none
  | c :: cs => (quotedBody cs).map fun r => (c :: r.1, r.2)

/-- `(?:("(?:[^\\"]|\\\\|\\")*")|([spo]))`. -/
def arg : Text → Option (Arg × Text)
  | '"' :: cs => (quotedBody cs).map fun r => (.quoted r.1, r.2)
  | 's' :: cs => some (.particle .s, cs)
  | 'p' :: cs => some (.particle .p, cs)
  | 'o' :: cs => some (.particle .o, cs)
  | _ => none

/-- `re.captures(code)` (test_action_extension.rs:50-56) for the regular expression
`^ *(fail|print) *\( *(?:("(?:[^\\"]|\\\\|\\")*")|([spo])) *\) *$`. Each of its alternatives and
repetitions is decided by the next character, so it is matched from left to right. -/
def captures (code : Text) : Option (Directive × Arg) :=
  match directive (spaces code) with
  | none => none
  | some (d, r) =>
    match word ['('] (spaces r) with
    | none => none
    | some r =>
      match arg (spaces r) with
      | none => none
      | some (a, r) =>
        match word [')'] (spaces r) with
        | none => none
        | some r => if spaces r = [] then some (d, a) else none

/-- `str::replace` for a pattern of two characters. -/
def replace2 (a b : Char) (new : Text) : Text → Text
  | x :: y :: cs => if x = a ∧ y = b then new ++ replace2 a b new cs else x :: replace2 a b new (y :: cs)
  | cs => cs

/-- The message (test_action_extension.rs:61-88): a quoted text without its escapes, or the value of
the variable, empty if there is none. -/
def message {N P : Type} (S : Shows N P) (ctx : Ctx N P) : Arg → Text
  | .quoted inner => replace2 '\\' '"' ['"'] (replace2 '\\' '\\' ['\\'] inner)
  | .particle .s => (ctx.s.map S.node).getD []
  | .particle .p => (ctx.p.map S.pred).getD []
  | .particle .o => (ctx.o.map S.node).getD []

/-- `TestActionExtension::run_action` (test_action_extension.rs:41-98). -/
def testRun {N P : Type} (S : Shows N P) (param : Option Text) (ctx : Ctx N P) (w : World N) : Res N :=
  match param with
  | none => (none, w)
  | some code =>
    match captures code with
    | none => (some (.invalidTest code), w)
    | some (.print, a) => (none, w.print (message S ctx a))
    | some (.fail, a) => (some (.fail (message S ctx a)), w)

/-! ## Map -/

/-- `str::trim`. -/
def trim (ws : Char → Bool) (t : Text) : Text := ((t.dropWhile ws).reverse.dropWhile ws).reverse

/-- `IriS::parse_turtle` (rudof_iri/src/iri/iris.rs:157-168). -/
def parseTurtle {N P : Type} (S : Shows N P) (t : Text) : Option Text :=
  let t := trim S.ws t
  if t.head? = some '<' ∧ t.getLast? = some '>' then
    let inner := (t.drop 1).dropLast
    if S.isIri inner then some inner else none
  else none

/-- `MapActionExtension::run_action` (map_action_extension.rs:43-66). -/
def mapRun {N P : Type} (S : Shows N P) (param : Option Text) (ctx : Ctx N P) (w : World N) : Res N :=
  match param with
  | none => (some .invalidParameter, w)
  | some t =>
    match parseTurtle S (trim S.ws t) with
    | none => (some .invalidParameter, w)
    | some iri =>
      match ctx.o with
      | none => (some .noObject, w)
      | some o => (none, w.insert iri o)

/-! ## The registry -/

/-- A `SemanticActionExtension` (semantic_action_extension.rs): its IRI and what it runs. -/
structure Extension (N P : Type) where
  iri : Text
  run : Option Text → Ctx N P → World N → Res N

/-- `find` in `run_action` and `find_code` (semantic_actions_registry.rs:66-70, 83-87). -/
def find {N P : Type} (reg : List (Extension N P)) (name : Text) : Option (Extension N P) :=
  reg.find? fun e => Prefix.equalWithoutFragment e.iri name

/-- `SemanticActionsRegistry::run_action` (semantic_actions_registry.rs:77-91). -/
def runAction {N P : Type} (reg : List (Extension N P)) (name : Text) (param : Option Text)
    (ctx : Ctx N P) (w : World N) : Res N :=
  match find reg name with
  | none => (some (.unknown name), w)
  | some e => e.run param ctx w

/-- `http://shex.io/extensions/Test/` (test_action_extension.rs:34). -/
def testIri : Text := "http://shex.io/extensions/Test/".toList

/-- `http://shex.io/extensions/Map/` (map_action_extension.rs:36). -/
def mapIri : Text := "http://shex.io/extensions/Map/".toList

/-- The registry of `AST2IR::new` and of `rudof_lib` (ast2ir.rs:43-46, load_shex_schema.rs:144-147). -/
def standard {N P : Type} (S : Shows N P) : List (Extension N P) :=
  [⟨testIri, testRun S⟩, ⟨mapIri, mapRun S⟩]

/-- `SemAct` (shex_ast/src/ir/sem_act.rs). -/
structure SemAct where
  name : Text
  code : Option Text

/-! ## Conditions -/

/-- The parts of a `MatchCond` that matter here: an action, or any other condition on the value. -/
inductive Cond (N : Type) where
  | action (a : SemAct)
  | value (ok : N → Bool)

/-- `sem_acts_to_conds` (ast2ir.rs:866-877); `none` is the error for an action that is not in the
registry. -/
def actsToConds {N P : Type} (reg : List (Extension N P)) (acts : List SemAct) :
    Option (List (Cond N)) :=
  acts.mapM fun a => if (find reg a.name).isSome then some (.action a) else none

/-- `value_expr2match_cond` (ast2ir.rs:652-757) for a value expression whose condition is given: the
condition is pushed after the actions. -/
def matchCond {N P : Type} (reg : List (Extension N P)) (acts : List SemAct) (cond : Cond N) :
    Option (List (Cond N)) :=
  (actsToConds reg acts).map fun as => if !as.isEmpty then as ++ [cond] else [cond]

/-- `MatchCond::matches` for `And` (rbe/src/match_cond.rs:82-86) with `CondKind::eval`
(cond_kind.rs:122-131): whether there was no error, and the world after. `reg` is the registry of
the context. -/
def evalConds {N P : Type} (reg : Option (List (Extension N P))) (ctx : Ctx N P) (v : N) :
    List (Cond N) → World N → Bool × World N
  | [], w => (true, w)
  | .value ok :: cs, w => if ok v then evalConds reg ctx v cs w else (false, w)
  | .action a :: cs, w =>
    match reg with
    | none => (false, w)
    | some r =>
      match runAction r a.name a.code ctx w with
      | (some _, w') => (false, w')
      | (none, w') => evalConds reg ctx v cs w'

/-! ## Actions at the start -/

/-- `check_start_acts` (engine.rs:2074-2087). -/
def checkStartActs {N P : Type} (reg : List (Extension N P)) :
    List SemAct → World N → Bool × World N
  | [], w => (true, w)
  | a :: as, w =>
    match runAction reg a.name a.code Ctx.start w with
    | (some _, w') => (false, w')
    | (none, w') => checkStartActs reg as w'

/-- `validate_pending` (engine.rs:79-111) for the pairs of a node and a shape that are pending;
`prove` answers for a pair and may change the world. The verdicts in the order of the pairs. -/
def validatePending {N P A : Type} (reg : List (Extension N P)) (start : List SemAct)
    (prove : A → World N → Bool × World N) : List A → World N → List Bool × World N
  | [], w => ([], w)
  | a :: as, w =>
    let r := match checkStartActs reg start w with
      | (false, w') => (false, w')
      | (true, w') => prove a w'
    let rest := validatePending reg start prove as r.2
    (r.1 :: rest.1, rest.2)

end Act

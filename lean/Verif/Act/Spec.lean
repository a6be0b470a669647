import Verif.Act.Model

/-!
# What semantic actions should do

Written from http://shex.io/extensions/Test/, http://shex.io/extensions/Map/ and the semantics of
ShEx, without the functions of the model that read the code of actions.
-/

namespace Act

/-- Spaces. -/
def sp (n : Nat) : Text := List.replicate n ' '

/-- The words of the directives. -/
def Directive.written : Directive → Text
  | .fail => "fail".toList
  | .print => "print".toList

/-- What may be printed: a text or a part of the triple. -/
inductive Msg where
  | text (m : Text)
  | var (x : Particle)

/-- A text with its quotes and backslashes escaped. -/
def escape (m : Text) : Text :=
  m.flatMap fun c => if c = '\\' then ['\\', '\\'] else if c = '"' then ['\\', '"'] else [c]

/-- How a message is written. -/
def Msg.written : Msg → Text
  | .text m => '"' :: (escape m ++ ['"'])
  | .var .s => ['s']
  | .var .p => ['p']
  | .var .o => ['o']

/-- `code` is a directive with a message, with spaces between the words. -/
def Written (code : Text) (d : Directive) (m : Msg) : Prop :=
  ∃ i j k l n, code = sp i ++ d.written ++ sp j ++ ['('] ++ sp k ++ m.written ++ sp l ++ [')'] ++ sp n

/-- The text of a message for a triple; variables without a value have none. -/
def Msg.says {N P : Type} (S : Shows N P) (ctx : Ctx N P) : Msg → Text
  | .text m => m
  | .var .s => (ctx.s.map S.node).getD []
  | .var .p => (ctx.p.map S.pred).getD []
  | .var .o => (ctx.o.map S.node).getD []

/-- The key `iri` of an action of Map: `<iri>` with white space around it. -/
def Key {N P : Type} (S : Shows N P) (code iri : Text) : Prop :=
  S.isIri iri = true ∧ ∃ a b, (∀ c ∈ a, S.ws c = true) ∧ (∀ c ∈ b, S.ws c = true) ∧
    code = a ++ '<' :: (iri ++ '>' :: b)

/-- Two IRIs that differ in the fragment only. -/
def SameBut (a b : Text) : Prop :=
  ∃ p x y, '#' ∉ p ∧ a = p ++ x ∧ b = p ++ y ∧
    (x = [] ∨ ∃ x', x = '#' :: x') ∧ (y = [] ∨ ∃ y', y = '#' :: y')

/-- An action in a world is run by the first extension with its IRI; it has the effect `w'` and the
error `e`, if any. -/
def RunsAs {N P : Type} (reg : List (Extension N P)) (ctx : Ctx N P) (a : SemAct) (w : World N)
    (e : Option Err) (w' : World N) : Prop :=
  ((∀ x ∈ reg, ¬SameBut x.iri a.name) ∧ e = some (.unknown a.name) ∧ w' = w) ∨
  ∃ pre x post, reg = pre ++ x :: post ∧ (∀ y ∈ pre, ¬SameBut y.iri a.name) ∧ SameBut x.iri a.name ∧
    x.run a.code ctx w = (e, w')

/-- Actions run one after the other until one fails. -/
inductive Runs {N P : Type} (reg : List (Extension N P)) (ctx : Ctx N P) :
    List SemAct → World N → Bool → World N → Prop
  | done (w) : Runs reg ctx [] w true w
  | fail {a as w e w'} : RunsAs reg ctx a w (some e) w' → Runs reg ctx (a :: as) w false w'
  | next {a as w w' ok w''} : RunsAs reg ctx a w none w' → Runs reg ctx as w' ok w'' →
      Runs reg ctx (a :: as) w ok w''

/-- An action of the standard extensions that succeeds at the start, where there is no triple, with
the lines it prints. -/
def Starts {N P : Type} (S : Shows N P) (a : SemAct) (lines : List Text) : Prop :=
  SameBut testIri a.name ∧ ((a.code = none ∧ lines = []) ∨
    ∃ code m, a.code = some code ∧ Written code .print m ∧
      lines = [m.says S (Ctx.start : Ctx N P)])

end Act

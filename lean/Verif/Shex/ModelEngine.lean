import Mathlib.Data.List.Basic

/-!
# Model: the recursive ShEx engine

`Engine::prove` and its helpers over an abstract system of obligations. An obligation is a pair
(node, shape index); what a shape expression says about a node, given the typing of its
references, is the field `check` (modelled concretely in `Shex/ModelShape.lean`). Reasons and error
payloads are dropped: `Either::Right` is `true`, `Either::Left` is `false`.
-/

namespace Shex

/-- What the engine asks of a schema and a data graph. -/
structure Sys (α : Type) where
  /-- `Engine::dep` (shex_validation/src/engine.rs:230-276); `none` is the error
  `ShapeExprNotFound` or an error of the graph. -/
  dep : α → Option (List α)
  /-- The pairs of the node and each of `schema.descendants(idx)` (engine.rs:356, 388). -/
  desc : α → List α
  /-- `schema.is_abstract(idx)` (engine.rs:355). -/
  abstr : α → Bool
  /-- `check_node_shape_expr` (engine.rs:463-608) under a typing (`RefTyping::contains`);
  `none` is an error. -/
  check : α → (α → Bool) → Option Bool
  /-- Iteration order of the hash set `cleaned_candidates` (engine.rs:315-316), which may differ
  from call to call; the first argument counts the calls made so far, so that every call has an
  order of its own. -/
  order : Nat → List α → List α

/-- The fields `typing` and `hyp_touched` of `Engine` (engine.rs:48-58). The field `calls` is not in
the code: it numbers the calls, to give each its own iteration order. -/
structure St (α : Type) where
  cache : α → Option Bool
  touched : Bool
  calls : Nat

/-- Result of a call: out of stack, an `Err`, or a value. -/
inductive Out (X : Type) where
  | fuel
  | err
  | ok (x : X)
  deriving DecidableEq

/-- `Engine::new` (engine.rs:61-72). -/
def St.init {α : Type} : St α := ⟨fun _ => none, false, 0⟩

variable {α : Type} [DecidableEq α]

/-- The loop over the cleaned candidates (engine.rs:316-325): the candidates that passed. -/
def runAll (p : α → St α → Out (Bool × St α)) : List α → List α → St α → Out (List α × St α)
  | [], T, s => .ok (T, s)
  | y :: ys, T, s =>
    match p y s with
    | .fuel => .fuel
    | .err => .err
    | .ok (b, s') => runAll p ys (if b then y :: T else T) s'

/-- `check_descendants` (engine.rs:417-461). -/
def firstOk (p : α → St α → Out (Bool × St α)) : List α → St α → Out (Bool × St α)
  | [], s => .ok (false, s)
  | d :: ds, s =>
    match p d s with
    | .fuel => .fuel
    | .err => .err
    | .ok (true, s') => .ok (true, s')
    | .ok (false, s') => firstOk p ds s'

/-- `check_node_idx` (engine.rs:337-415); `p` is `prove` with the current hypotheses. -/
def checkIdx (S : Sys α) (p : α → St α → Out (Bool × St α)) (x : α) (T : α → Bool) (s : St α) :
    Out (Bool × St α) :=
  if S.abstr x then
    if (S.desc x).isEmpty then .err else firstOk p (S.desc x) s
  else
    match S.check x T with
    | none => .err
    | some true => .ok (true, s)
    | some false => firstOk p (S.desc x) s

/-- `Engine::prove` (engine.rs:284-335). The first argument is the available recursion depth. The
vector of hypotheses is only read as a set, so the new hypothesis is put in front. -/
def prove (S : Sys α) : Nat → α → List α → St α → Out (Bool × St α)
  | 0, _, _, _ => .fuel
  | n + 1, x, H, s =>
    match s.cache x with
    | some b => .ok (b, s)
    | none =>
      match S.dep x with
      | none => .err
      | some ds =>
        let hyp := x :: H
        let s0 : St α :=
          { s with touched := ds.any fun y => decide (y ∈ hyp), calls := s.calls + 1 }
        let cleaned := S.order s.calls (ds.filter fun y => decide (y ∉ hyp))
        match runAll (fun y s => prove S n y hyp s) cleaned [] s0 with
        | .fuel => .fuel
        | .err => .err
        | .ok (T, s1) =>
          match checkIdx S (fun y s => prove S n y hyp s) x
              (fun y => decide (y ∈ T) || decide (y ∈ hyp)) s1 with
          | .fuel => .fuel
          | .err => .err
          | .ok (b, s2) =>
            .ok (b,
              { cache := if s2.touched then s2.cache
                  else fun y => if y = x then some b else s2.cache y
                touched := s.touched || s2.touched
                calls := s2.calls })

/-- `validate_pending` (engine.rs:79-116) without start actions: each query is proved with an
empty list of hypotheses on the state left by the previous ones. -/
def queries (S : Sys α) (n : Nat) : List α → St α → Out (List Bool × St α)
  | [], s => .ok ([], s)
  | x :: xs, s =>
    match prove S n x [] s with
    | .fuel => .fuel
    | .err => .err
    | .ok (b, s') =>
      match queries S n xs s' with
      | .fuel => .fuel
      | .err => .err
      | .ok (bs, s'') => .ok (b :: bs, s'')

end Shex

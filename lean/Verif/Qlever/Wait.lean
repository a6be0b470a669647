import Verif.Qlever.Command

/-!
# Model: waiting for a server

* QS = `rudof_rdf/src/rdf_impl/qlever/server.rs`

Times are in milliseconds. What the server answers to each request and how long this takes is given; an endpoint that is no URL is a
server that never answers, at once. Simplified: sleeping takes no longer than asked for, and the code itself takes no time. A
timeout so large that the deadline is no instant, at which the code panics (QS 223), is not modelled.
-/

namespace Qlever.Wait

/-- How long a request takes, and whether its answer is a success. -/
structure Answer where
  took : Nat
  ok : Bool

/-- What `wait_until_responsive` returns, when, and after how many requests. -/
structure Waited where
  ok : Bool
  time : Nat
  requests : Nat
  deriving DecidableEq

/-- The loop of `wait_until_responsive` (QS 227-246), with fuel for its turns. -/
def loop (answer : Nat → Answer) (deadline : Nat) : Nat → Nat → Nat → Nat → Option Waited
  | 0, _, _, _ => none
  | fuel + 1, i, now, backoff =>
    let now := now + (answer i).took
    if (answer i).ok then some ⟨true, now, i + 1⟩
    else if now ≥ deadline then some ⟨false, now, i + 1⟩
    else loop answer deadline fuel (i + 1) (now + backoff) (min (backoff * 2) 2000)

/-- `wait_until_responsive` (QS 221-247), begun at a time, with a timeout in seconds. -/
def wait (answer : Nat → Answer) (fuel start timeoutSecs : Nat) : Option Waited :=
  loop answer (start + timeoutSecs * 1000) fuel 0 start 100

end Qlever.Wait

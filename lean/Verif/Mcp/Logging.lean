/-!
# Model: notifications of the log of the MCP server

* LG = `rudof_mcp/src/service/logging.rs`

Times are natural numbers, of any unit. Simplified: `elapsed` and the start of a window read the same time; values of fields are texts;
an object of JSON is the list of its members.
-/

namespace Mcp.Log

/-- `LoggingLevel` (`rmcp`). -/
inductive Level where
  | emergency | alert | critical | error | warning | notice | info | debug
  deriving DecidableEq

/-- `level_to_value` (LG 34-43, 55-61). -/
def Level.value : Level → Nat
  | .emergency => 0
  | .alert => 1
  | .critical => 2
  | .error => 3
  | .warning => 4
  | .notice => 5
  | .info => 6
  | .debug => 7

/-- `should_log` (LG 71-75). -/
def shouldLog (level min : Level) : Bool := level.value ≤ min.value

/-- `LogRateLimiter` (LG 78-84). -/
structure Limiter where
  started : Nat
  emitted : Nat
  max : Nat
  window : Nat

/-- `should_emit` (LG 102-115). -/
def shouldEmit (now : Nat) (l : Limiter) : Bool × Limiter :=
  let l := if now - l.started ≥ l.window then { l with started := now, emitted := 0 } else l
  if l.emitted < l.max then (true, { l with emitted := l.emitted + 1 }) else (false, l)

/-- Calls of `should_emit`, one after the other. -/
def run : List Nat → Limiter → List Bool × Limiter
  | [], l => ([], l)
  | t :: ts, l =>
    let r := shouldEmit t l
    let rs := run ts r.2
    (r.1 :: rs.1, rs.2)

/-- `send_log` up to the notification (LG 194-212): whether there is one, and the limiter after. -/
def sendLog (min : Option Level) (now : Nat) (level : Level) (l : Limiter) : Bool × Limiter :=
  match min with
  | none => (false, l)
  | some m => if shouldLog level m then shouldEmit now l else (false, l)

/-- Messages, one after the other: which of them are sent. -/
def sendAll (min : Option Level) : List (Nat × Level) → Limiter → List Bool
  | [], _ => []
  | (t, v) :: ms, l => (sendLog min t v l).1 :: sendAll min ms (sendLog min t v l).2

/-- `MAX_TEXT_FIELD_CHARS` (LG 52). -/
def maxChars : Nat := 2048

/-- `truncate_text` (LG 117-125). -/
def truncate (l : List Char) : List Char :=
  if l.length ≤ maxChars then l else l.take maxChars ++ "...[truncated]".toList

/-- `Map::insert`. -/
def insert (m : List (String × List Char)) (k : String) (v : List Char) : List (String × List Char) :=
  m.filter (·.1 ≠ k) ++ [(k, v)]

/-- `LogData::to_json` (LG 157-164). -/
def toJson (message : List Char) (fields : List (String × List Char)) : List (String × List Char) :=
  fields.foldl (fun m f => insert m f.1 f.2) (insert [] "message" (truncate message))

end Mcp.Log

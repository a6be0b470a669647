import Verif.Mcp.Logging

/-!
# Specification: what a log may send
-/

namespace Mcp.Log

/-- How many messages are sent. -/
def sent (bs : List Bool) : Nat := bs.count true

/-- The messages sent, by their times. -/
def sentTimes (ts : List Nat) (bs : List Bool) : List Nat := (ts.zip bs).filterMap fun x => if x.2 then some x.1 else none

/-- Levels by RFC 5424, from the most to the least severe. -/
def severities : List Level := [.emergency, .alert, .critical, .error, .warning, .notice, .info, .debug]

/-- One level is as severe as another, or more so: it stands at the same place or before it. -/
def AtLeast (a b : Level) : Prop := ∃ l m r, severities = l ++ a :: m ++ r ∧ (a = b ∨ b ∈ m)

end Mcp.Log

import Verif.Mcp.Loading
import Verif.Load.Spec

/-!
# Specification: what a client is told and what is kept
-/

namespace Mcp.Loading

open Load Prefix

variable {G P : Type}

/-- The lines of triples: none is broken, and each begins with a term. -/
def TripleLines (ws : Char → Bool) (ls : List Str) : Prop := ∀ l ∈ ls, '\n' ∉ l ∧ ∃ c, l.head? = some c ∧ ws c = false ∧ c ≠ '#'

/-- The text of lines, each ended by a line feed. -/
def ended (ls : List Str) : Str := ls.flatMap (· ++ ['\n'])

/-- Clients that wait for each other: the events of their calls. -/
def calls (cs : List (Nat × Request)) : List Event := cs.flatMap fun c => [.lock c.1 c.2, .persist c.1]

/-- What is kept is what there is. -/
def Kept (ser : Option (Data G P) → Option Str) (s : Server G P) : Prop := s.disk = ser s.mem

/-- Texts of RDF data can be read again. -/
def Reload (e : Env G P) (ser : Option (Data G P) → Option Str) : Prop :=
  ∀ r t, ser (some (.rdf r)) = some t → ∀ base, ∃ pm, e.read .ntriples base .strict (some t) (e.emptyGraph, PrefixMap.new) =
    ((r.store.1, pm), true)

end Mcp.Loading

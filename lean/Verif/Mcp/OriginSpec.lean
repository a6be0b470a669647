import Verif.Mcp.Origin

/-!
# Specification: origins that may be served
-/

namespace Mcp

variable {Ip : Type}

/-- A host may be served: it is an address in some network that is allowed, or it is `localhost` and one of its addresses is in one. -/
def HostAllowed (L : Lib Ip) (c : OriginConfig Ip) (h : List Char) : Prop :=
  (∃ ip, L.parse h = some ip ∧ ∃ n ∈ c.networks, n ip = true) ∨
  (h = "localhost".toList ∧ ∃ n ∈ c.networks, n L.v4 = true ∨ n L.v6 = true)

/-- A port, with its colon, or nothing. -/
def IsPort (p : List Char) : Prop := p = [] ∨ ∃ ds, p = ':' :: ds ∧ ∀ d ∈ ds, d.isDigit = true

/-- Origins as browsers write them: a scheme, a host (a name, an address, or an address in brackets) and perhaps a port. -/
def IsOrigin (o h : List Char) : Prop :=
  ∃ s p, (s = "http://".toList ∨ s = "https://".toList) ∧ IsPort p ∧
    ((o = s ++ (h ++ p) ∧ ∀ x ∈ h, x ≠ ':' ∧ x ≠ '/' ∧ x ≠ '[' ∧ x ≠ ']' ∧ x ≠ '@') ∨
     (o = s ++ ('[' :: (h ++ ']' :: p)) ∧ ∀ x ∈ h, x ≠ '[' ∧ x ≠ ']'))

/-- The host of a URL with a scheme: what follows the user, and comes before the port and the path. -/
def urlHost (o : List Char) : List Char :=
  let rest := (o.dropWhile (· ≠ '/')).drop 2
  let authority := rest.takeWhile fun x => x ≠ '/' ∧ x ≠ '?' ∧ x ≠ '#'
  let place := (authority.reverse.takeWhile (· ≠ '@')).reverse
  match place with
  | '[' :: r => r.takeWhile (· ≠ ']')
  | r => r.takeWhile (· ≠ ':')

end Mcp

/-!
# Model: guards of the MCP server

* MW = `rudof_mcp/src/server/streamable_http/middleware.rs`

Texts are lists of characters. Parameters: `IpAddr::from_str`, the addresses `127.0.0.1` and `::1`, and the networks that are allowed,
each given by the addresses it contains. Left out: the texts of answers, and all headers but the two that are looked at.
-/

namespace Mcp

/-- Addresses (`std::net`, `ipnetwork`). -/
structure Lib (Ip : Type) where
  parse : List Char → Option Ip
  v4 : Ip
  v6 : Ip

variable {Ip : Type}

/-- `OriginConfig` (MW 21-27). -/
structure OriginConfig (Ip : Type) where
  networks : List (Ip → Bool)
  allowMissing : Bool

/-- `find` with a character. -/
def find (c : Char) (l : List Char) : Option Nat := l.findIdx? (· == c)

/-- `without_protocol` (MW 103-106). -/
def withoutProtocol (o : List Char) : List Char :=
  if "https://".toList.isPrefixOf o then o.drop 8
  else if "http://".toList.isPrefixOf o then o.drop 7
  else o

/-- `extract_host_from_origin` (MW 101-122); `none` is a panic of the slice. -/
def extractHost (o : List Char) : Option (List Char) :=
  let w := withoutProtocol o
  match find '[' w, find ']' w with
  | some s, some e => if e < s + 1 then none else some ((w.take e).drop (s + 1))
  | _, _ => some (w.take (((find ':' w).or (find '/' w)).getD w.length))

/-- `is_ip_allowed` (MW 95-97). -/
def ipAllowed (c : OriginConfig Ip) (ip : Ip) : Bool := c.networks.any fun n => n ip

/-- `is_allowed_origin` (MW 71-92); `none` is a panic. -/
def isAllowedOrigin (L : Lib Ip) (c : OriginConfig Ip) (o : List Char) : Option Bool :=
  match extractHost o with
  | none => none
  | some h =>
    match L.parse h with
    | some ip => some (ipAllowed c ip)
    | none => if h = "localhost".toList then some (ipAllowed c L.v4 || ipAllowed c L.v6) else some false

/-- What is done with a request: it is given to the service, answered with a status, or the handler panics. -/
inductive Reply where
  | service
  | status (n : Nat)
  | panic
  deriving DecidableEq

/-- A header: absent, not a text (`to_str` fails), or a text. -/
inductive Header where
  | absent
  | opaque
  | text (l : List Char)

/-- `SUPPORTED_PROTOCOL_VERSIONS` (MW 15). -/
def versions : List (List Char) := ["2025-11-25".toList, "2025-06-18".toList, "2025-03-26".toList]

/-- `protocol_version_guard` (MW 151-185), before `next`. -/
def versionGuard (version : Header) (next : Reply) : Reply :=
  match version with
  | .text v => if v ∈ versions then next else .status 400
  | .opaque => .status 400
  | .absent => next

/-- `origin_guard` (MW 200-236), before `next`. -/
def originGuard (L : Lib Ip) (c : OriginConfig Ip) (origin : Header) (next : Reply) : Reply :=
  match origin with
  | .text o =>
    match isAllowedOrigin L c o with
    | none => .panic
    | some true => next
    | some false => .status 403
  | .opaque => .status 403
  | .absent => if c.allowMissing then next else .status 403

/-- `with_guards` (MW 135-141): the last layer is the first to see a request. -/
def withGuards (L : Lib Ip) (c : OriginConfig Ip) (origin version : Header) : Reply :=
  originGuard L c origin (versionGuard version .service)

end Mcp

import Verif.Qlever.Command

/-!
# Model: the command of the server

* QS = `rudof_rdf/src/rdf_impl/qlever/server.rs`
* CP = `rudof_rdf/src/rdf_impl/qlever/cli_probe.rs`

Simplified: numbers are natural numbers (of 16, 32 and 64 bits in the code; only their digits matter).
-/

namespace Qlever

/-- What of `QleverConfig` the command of the server depends on. -/
structure ServerConfig where
  port : Nat
  token : Option Str
  queries : Option Nat
  memory : Option Str
  cache : Option Str
  entry : Option Str
  lazyCache : Option Str
  entries : Option Nat
  noPatterns : Bool
  noTrick : Bool
  text : Bool
  onlyPso : Bool
  timeout : Option Str
  rows : Option Nat
  throwUnbound : Bool

/-- `server_cmd` (CP 38-43). -/
def serverName : Bool → Str
  | true => "ServerMain".toList
  | false => "qlever-server".toList

/-- A flag with a value, if there is one. -/
def valued (flag : String) (v : Option Str) : List Str :=
  match v with
  | some v => [flag.toList, v]
  | none => []

/-- A flag without value. -/
def switch (flag : String) (b : Bool) : List Str := if b then [flag.toList] else []

/-- The text of a number. -/
def number (n : Nat) : Str := Nat.toDigits 10 n

/-- The arguments of the server (QS 158-215). -/
def serverArgs (v1 : Bool) (name : Str) (c : ServerConfig) : List Str :=
  [serverName v1, "-i".toList, name, "-p".toList, number c.port] ++
  (valued "-a" c.token ++ (valued "-j" (c.queries.map number) ++ (valued "-m" c.memory ++ (valued "-c" c.cache ++
  (valued "-e" c.entry ++ (valued "-E" c.lazyCache ++ (valued "-k" (c.entries.map number) ++
  (switch "-P" c.noPatterns ++ (switch "-T" c.noTrick ++ (switch "-t" c.text ++ (switch "-o" c.onlyPso ++
  (valued "-s" c.timeout ++ (valued "-S" (c.rows.map number) ++
  (if c.throwUnbound then ["--throw-on-unbound-variables".toList, "true".toList] else []))))))))))))))

/-- `build_server_cmd` (QS 157-218); its `shell_quote` (QS 261-272) is that of the index builder. -/
def serverCmd (v1 : Bool) (name : Str) (c : ServerConfig) : Str := shellJoin (serverArgs v1 name c)

end Qlever

/-!
# Model: the state that the MCP server keeps between runs

* ST = `rudof_mcp/src/service/state.rs`

The text of the state comes in pieces, as `serde_json::to_writer_pretty` writes it. Simplified: a disk has room for so many more characters
of the file; other failures are given (`Env`); the process may end between two writes, the system does not.
-/

namespace Mcp.State

/-- A path: what is before the extension, and the extension. -/
structure Path where
  stem : String
  ext : Option String
  deriving DecidableEq

/-- `path.with_extension("tmp")` (ST 162). -/
def Path.tmp (p : Path) : Path := { p with ext := some "tmp" }

/-- The files and their texts. -/
abbrev Fs := Path → Option (List Char)

/-- A file is given a text. -/
def Fs.set (fs : Fs) (p : Path) (c : Option (List Char)) : Fs := fun q => if q = p then c else fs q

/-- `fs::rename`. -/
def Fs.rename (fs : Fs) (a b : Path) : Fs := fun q => if q = b then fs a else if q = a then none else fs q

/-- What may fail besides writing (ST 158, 164, 170), and the room of the disk. -/
structure Env where
  mkdir : Bool
  create : Bool
  rename : Bool
  room : Nat

/-- Capacity of `BufWriter::new`. -/
def capacity : Nat := 8192

/-- `BufWriter::write_all` of the pieces, and the drop of the writer, whose flush ignores errors (ST 165-166): what reaches the disk,
write by write, and whether an error was seen. -/
def write (cap room : Nat) (buf : List Char) : List (List Char) → List (List Char) × Bool
  | [] => ([buf.take room], true)
  | p :: ps =>
    let full := decide (p.length > cap - buf.length)
    let out := if full then buf else []
    let rest := if full then [] else buf
    if out.length ≤ room then
      if p.length ≥ cap then
        if p.length ≤ room - out.length then
          let r := write cap (room - out.length - p.length) rest ps
          (out :: p :: r.1, r.2)
        else ([out, p.take (room - out.length)], false)
      else
        let r := write cap (room - out.length) (rest ++ p) ps
        (out :: r.1, r.2)
    else ([out.take room], false)

/-- The files after each write. -/
def states (fs : Fs) (t : Path) (done : List Char) : List (List Char) → List Fs
  | [] => []
  | c :: cs => fs.set t (some (done ++ c)) :: states fs t (done ++ c) cs

/-- `save_state_to_path` (ST 153-174): the files at each moment, the files at its end, and whether it returns `Ok`. -/
def save (e : Env) (fs : Fs) (path : Path) (pieces : List (List Char)) : List Fs × Fs × Bool :=
  if !e.mkdir || !e.create then ([fs], fs, false)
  else
    let w := write capacity e.room [] pieces
    let seen := fs :: fs.set path.tmp (some []) :: states fs path.tmp [] w.1
    let written := fs.set path.tmp (some w.1.flatten)
    if w.2 && e.rename then (seen ++ [written.rename path.tmp path], written.rename path.tmp path, true)
    else (seen, written, false)

/-- `load_state` (ST 104-137), with what reads a text. -/
def load {S : Type} (parse : List Char → Option S) (fs : Fs) (path : Path) : Option S := (fs path).bind parse

end Mcp.State

import Verif.Qlever.Command

/-!
# Model: running the index builder in a container

* IB = `rudof_rdf/src/rdf_impl/qlever/index_builder.rs`

What Docker, the container and the decompressor do is given as a `World`. Simplified: the tasks that are joined (IB 431) are given by
what each of them ends with; texts of errors of Docker are left out; chunks of logs are texts (each is decoded on its own in the code).
-/

namespace Qlever.OneShot

abbrev Byte := UInt8

/-- `QleverError`, as far as it is returned here. -/
inductive Err
  | limits
  | docker
  | io
  | exit (status : Int) (logs : Str)
  | decompressor (status : Int) (tail : List Byte)
  deriving DecidableEq

/-- How feeding the container ends (IB 355-371): all was written and the input closed; the container closed its input (`BrokenPipe`,
`WriteZero`) or ended before; another error. -/
inductive Pump
  | done
  | closed
  | failed
  deriving DecidableEq

/-- How the decompressor ends (IB 442-456): by itself, by a signal, waiting for it fails, or it is still running five seconds after the
container has ended. -/
inductive Child
  | exited (code : Int)
  | signal
  | waitError
  | late
  deriving DecidableEq

/-- What happens outside of the code. -/
structure World where
  /-- `host_config_with_limits` is not an error (IB 478-500). -/
  limits : Bool
  create : Bool
  attach : Bool
  start : Bool
  spawn : Bool
  /-- Chunks of the output of the container; `none` is an error. -/
  logs : List (Option Str)
  /-- First answer of `wait_container`, if there is one and no error. -/
  wait : Option Int
  /-- Answer of `inspect_container`: its state, with `OOMKilled` and `ExitCode`. -/
  inspect : Option (Option (Option Bool × Option Int))
  pump : Pump
  child : Child
  /-- Chunks of the messages of the decompressor; `none` is an error, and an empty one the end. -/
  stderr : List (Option (List Byte))
  /-- `remove_container` removes it. -/
  remove : Bool

/-- What is returned, and whether a container is left. -/
structure Outcome where
  result : Except Err Unit
  left : Bool

/-- `log_buf` (IB 262-269, 377-391): reading ends at the first error. -/
def logBuf : List (Option Str) → Str
  | [] => []
  | none :: _ => []
  | some c :: l => c ++ logBuf l

/-- `STDERR_TAIL_LIMIT` (IB 292). -/
def tailLimit : Nat := 4096

/-- `stderr_task` (IB 394-409). -/
def drain (tail : List Byte) : List (Option (List Byte)) → Option (List Byte)
  | [] => some tail
  | none :: _ => none
  | some c :: l =>
    if c.isEmpty then some tail
    else
      let t := tail ++ c
      drain (if t.length > tailLimit then t.drop (t.length - tailLimit) else t) l

/-- `inspect_post_exit` (IB 504-514). -/
def inspectPostExit (w : World) : Bool × Option Int :=
  match w.inspect with
  | some (some (oom, code)) => (oom.getD false, code)
  | some none => (false, none)
  | none => (false, none)

/-- The hint of `container_nonzero_exit` (IB 520-523). -/
def oomHint : Str :=
  ("OOM-killed: the QLever container was terminated by the OOM killer. " ++
    "Lower memory usage with QleverConfig::parser_parallel=Some(false), " ++
    "QleverConfig::stxxl_memory, and/or cap with QleverConfig::container_memory.\n" ++ "---\n").toList

/-- `container_nonzero_exit` (IB 518-531). -/
def nonzeroExit (status : Int) (oom : Bool) (logs : Str) : Err :=
  .exit status (if oom then oomHint ++ logs else logs)

/-- `exit_code` (IB 277-279, 432-433). -/
def exitCode (w : World) : Int := (w.wait.or (inspectPostExit w).2).getD (-1)

/-- `run_one_shot` (IB 230-289). -/
def run (w : World) : Outcome :=
  if !w.limits then ⟨.error .limits, false⟩
  else if !w.create then ⟨.error .docker, false⟩
  else if !w.start then ⟨.error .docker, true⟩
  else if exitCode w ≠ 0 then ⟨.error (nonzeroExit (exitCode w) (inspectPostExit w).1 (logBuf w.logs)), !w.remove⟩
  else ⟨.ok (), !w.remove⟩

/-- `child_status` (IB 442-456): the default is success. -/
def childSuccess : Child → Bool
  | .exited c => c = 0
  | .signal => false
  | .waitError => true
  | .late => true

/-- `child_status.code().unwrap_or(-1)` (IB 469). -/
def childCode : Child → Int
  | .exited c => c
  | .signal => -1
  | .waitError => 0
  | .late => 0

/-- `run_one_shot_with_stdin` (IB 298-474). -/
def runFed (w : World) : Outcome :=
  if !w.limits then ⟨.error .limits, false⟩
  else if !w.create then ⟨.error .docker, false⟩
  else if !w.attach then ⟨.error .docker, true⟩
  else if !w.start then ⟨.error .docker, true⟩
  else if !w.spawn then ⟨.error .io, true⟩
  else if w.pump = .failed ∧ exitCode w = 0 then ⟨.error .io, true⟩
  else if exitCode w ≠ 0 then ⟨.error (nonzeroExit (exitCode w) (inspectPostExit w).1 (logBuf w.logs)), !w.remove⟩
  else if !childSuccess w.child then
    ⟨.error (.decompressor (childCode w.child) ((drain [] w.stderr).getD [])), !w.remove⟩
  else ⟨.ok (), !w.remove⟩

/-- One call of `build_index` with a compressed input (IB 67-135): what happens, the exit code of the container, and the bytes it read.
Simplified: the builder finishes an index of what it read exactly when it ends with 0. -/
structure Attempt where
  world : World
  code : Int
  got : List Byte

/-- The builder was run with the decompressor feeding it. -/
def Attempt.ran (a : Attempt) : Bool :=
  a.world.limits && a.world.create && a.world.attach && a.world.start && a.world.spawn

/-- `build_index` (IB 79-83, 97-134): the index in its directory afterwards, and the one that is served. -/
def load (disk : Option (List Byte)) (a : Attempt) : Option (List Byte) × Option (List Byte) :=
  match disk with
  | some b => (some b, some b)
  | none =>
    let disk' := if a.ran && a.code = 0 then some a.got else none
    match (runFed a.world).result with
    | .ok _ => (disk', disk')
    | .error _ => (disk', none)

end Qlever.OneShot

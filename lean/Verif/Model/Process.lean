import Verif.Model.Options
import Verif.Base.Str

/-!
# Linters that are run as processes

`edulint/linting/process_handler.py` and `lint_in_subprocess` of `edulint/linting/linting.py`.

Time is counted in milliseconds from the start of the process. A process is given by how it ends if it is left alone and if it is asked to end, by what it writes, and by the
moment at which nobody has its output open any longer: processes that it started itself may keep it open after its end. The kernel ends a process that is killed at once.

Not modelled: `os.nice`, logging, `atexit` itself (that `__kill_children` is called at the end of the program), the reading of the input by the process, exceptions other than
`TimeoutExpired` while waiting.
-/

namespace Verif.Process

abbrev Bytes := List UInt8

/-- A process that was started, `subprocess.Popen`, `edulint/linting/process_handler.py:68`. -/
structure Child where
  /-- The moment of its end and its status, if it is left alone; `none` if it never ends. -/
  ends : Option (Nat × Int)
  /-- How long after being asked to end it does, and its status; `none` if it refuses to. -/
  term : Option (Nat × Int)
  /-- If the process ends at the given moment, when is its output closed by everybody that has it open? -/
  eof : Nat → Nat
  /-- What is written to the two outputs, if the process ends at the given moment. -/
  output : Nat → Bytes × Bytes

/-- The present moment, and how the process ended or will end unless something is done. -/
structure Sys where
  now : Nat
  fate : Option (Nat × Int)
  deriving DecidableEq, Repr

/-- `Popen.poll`: the status of the process, if it ended, used in `edulint/linting/process_handler.py:38,52`. -/
def poll (s : Sys) : Option Int :=
  match s.fate with
  | some (e, status) => if e ≤ s.now then some status else none
  | none => none

/-- `Popen.kill`, used in `edulint/linting/process_handler.py:48,80`. A process that is killed has the status -9. -/
def kill (s : Sys) : Sys := if (poll s).isSome then s else { s with fate := some (s.now, -9) }

/-- The earlier one of two ends. -/
def earlier : Option (Nat × Int) → Option (Nat × Int) → Option (Nat × Int)
  | none, f => f
  | f, none => f
  | some a, some b => if b.1 < a.1 then some b else some a

/-- `Popen.terminate`, used in `edulint/linting/process_handler.py:42`. -/
def terminate (c : Child) (s : Sys) : Sys :=
  if (poll s).isSome then s else { s with fate := earlier s.fate (c.term.map fun t => (s.now + t.1, t.2)) }

/-- `Popen.wait(timeout=…)`, used in `edulint/linting/process_handler.py:45`: `false` for `TimeoutExpired`. -/
def waitWithin (timeout : Nat) (s : Sys) : Bool × Sys :=
  match s.fate with
  | some (e, _) => if e ≤ s.now + timeout then (true, { s with now := max s.now e }) else (false, { s with now := s.now + timeout })
  | none => (false, { s with now := s.now + timeout })

/-- `Popen.communicate()`, used in `edulint/linting/process_handler.py:81`: it waits until the process ended and its output was closed; `none` if it waits forever. -/
def communicate (c : Child) (s : Sys) : Option ((Bytes × Bytes) × Sys) :=
  match s.fate with
  | some (e, _) => some (c.output e, { s with now := max s.now (max e (c.eof e)) })
  | none => none

/-- `Popen.communicate(timeout=…)`, used in `edulint/linting/process_handler.py:54-56,74-76`: `none` for `TimeoutExpired`. -/
def communicateWithin (c : Child) (timeout : Nat) (s : Sys) : Option (Bytes × Bytes) × Sys :=
  match communicate c s with
  | some (o, s') => if s'.now ≤ s.now + timeout then (some o, s') else (none, { s with now := s.now + timeout })
  | none => (none, { s with now := s.now + timeout })

/-- `__kill_children`, `edulint/linting/process_handler.py:37-61`: the state after it, and whether it is reported that the process refused to die. The grace period is that of
line 26. -/
def killChildren (c : Child) (s : Sys) : Sys × Bool :=
  if (poll s).isSome then (s, false)
  else
    let w := waitWithin 200 (terminate c s)
    let s := if w.1 then w.2 else kill w.2
    match poll s with
    | some status =>
      if status ≠ 0 then
        let r := communicateWithin c 200 s
        (r.2, r.1.isNone)
      else (s, false)
    | none => (s, false)

/-- What is returned if the process did not end in time, `edulint/linting/process_handler.py:11`. -/
def sigkillStatus : Int := 9

/-- `edulint/linting/process_handler.py:12`. -/
def sigtermStatus : Int := 15

/-- `__start_process`, `edulint/linting/process_handler.py:63-85`, without the decoding: what is returned, and the state after it; `none` if it never returns. -/
def startProcess (c : Child) (timeout : Nat) : Option ((Int × Bytes × Bytes) × Sys) :=
  let s0 : Sys := { now := 0, fate := c.ends }
  match communicateWithin c timeout s0 with
  | (some o, s) =>
    match poll s with
    | some status => some ((status, o.1, o.2), (killChildren c s).1)
    | none => none
  | (none, s) =>
    match communicate c (kill s) with
    | some (o, s) => some ((sigkillStatus, o.1, o.2), (killChildren c s).1)
    | none => none

/-- Decoding of the outputs, `edulint/linting/process_handler.py:85`. -/
def decoded (decode : Bytes → Except PyErr Str) (r : Int × Bytes × Bytes) : Except PyErr (Int × Str × Str) :=
  match decode r.2.1, decode r.2.2 with
  | .ok o, .ok e => .ok (r.1, o, e)
  | .error x, _ => .error x
  | .ok _, .error x => .error x

/-- `ProcessHandler.run`, `edulint/linting/process_handler.py:87-110`. `start` starts a process with the given arguments, or fails to. -/
def run (start : List Str → Except PyErr Child) (decode : Bytes → Except PyErr Str) (command : Option (List Str)) (timeout : Nat) : Option (Except PyErr (Int × Str × Str)) :=
  match command with
  | none => some (.ok (-1, [], "No command provided".toList))
  | some command =>
    match start command with
    | .error x => some (.error x)
    | .ok c =>
      match startProcess c timeout with
      | none => none
      | some (r, _) => some (decoded decode r)

/-- `is_status_code_by_timeout`, `edulint/linting/process_handler.py:125-127`. -/
def byTimeout (status : Int) : Bool := [sigtermStatus, sigkillStatus].contains status

inductive Result where
  | returned (status : Int) (out err : Str)
  | timeoutError
  | other (x : PyErr)
  deriving DecidableEq, Repr

/-- The arguments of the process, `edulint/linting/linting.py:110`. -/
def command (executable : Str) (linter : Linter) (linterArgs config files : List Str) : List Str :=
  [executable, "-m".toList, linter.toName] ++ linterArgs ++ config ++ files

/-- `lint_in_subprocess`, `edulint/linting/linting.py:107-117`; `none` if it never returns. -/
def lintInSubprocess (start : List Str → Except PyErr Child) (decode : Bytes → Except PyErr Str) (executable : Str) (linter : Linter) (linterArgs config files : List Str) :
    Option Result :=
  match run start decode (some (command executable linter linterArgs config files)) 1000000 with
  | none => none
  | some (.error x) => some (.other x)
  | some (.ok (status, out, err)) => if byTimeout status then some .timeoutError else some (.returned status out err)

end Verif.Process

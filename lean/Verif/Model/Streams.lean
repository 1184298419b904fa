import Verif.Base.Str

/-!
How the output of the linters is caught: `lint_flake8` and `lint_pylint`, `edulint/linting/linting.py:158-218`.

Linters are programs that write texts and end in some way; what they write does not depend on what was written before.
-/

namespace Verif.Streams

/-- Streams are numbered; `out` and `err` are those that `sys.stdout` and `sys.stderr` are, `text` is what was written to each one, `next` the number of a new one. -/
structure World where
  out : Nat
  err : Nat
  text : Nat → Str
  next : Nat

/-- What a linter does: `print`, write to `sys.stderr`, to the output of its reporter, or to a stream that it knew before it was run (as handlers of loggers do). -/
inductive Act where
  | print (t : Str)
  | warn (t : Str)
  | report (t : Str)
  | held (i : Nat) (t : Str)
  deriving DecidableEq

/-- How it ends: it returns, raises `SystemExit` (`none` if its argument is no number), or another exception. -/
inductive End where
  | done
  | exit (code : Option Int)
  | raised
  deriving DecidableEq

structure Prog where
  acts : List Act
  ends : End

/-- `write` of a stream -/
def World.write (w : World) (i : Nat) (t : Str) : World := { w with text := fun j => if j = i then w.text j ++ t else w.text j }

/-- `reporter` is the stream of the reporter. -/
def Act.exec (reporter : Nat) (w : World) : Act → World
  | .print t => w.write w.out t
  | .warn t => w.write w.err t
  | .report t => w.write reporter t
  | .held i t => w.write i t

/-- `StringIO()`: a new, empty stream -/
def World.new (w : World) : World × Nat := ({ w with text := fun j => if j = w.next then [] else w.text j, next := w.next + 1 }, w.next)

/-- What is left: the exception, or the return code, what was written to the stream with problems, and to the one with errors. -/
inductive Caught where
  | raised
  | result (code : Option Int) (outs errs : Str)
  deriving DecidableEq

/-- `lint_flake8`, `edulint/linting/linting.py:161-182`; its formatter prints. -/
def flake8 (w : World) (p : Prog) : World × Caught :=
  let (w, newOut) := w.new
  let oldOut := w.out
  let w := { w with out := newOut }
  let (w, newErr) := w.new
  let oldErr := w.err
  let w := { w with err := newErr }
  let w := p.acts.foldl (Act.exec newOut) w
  match p.ends with
  | .raised => (w, .raised)
  | .done => ({ w with out := oldOut, err := oldErr }, .result (some 0) (w.text newOut) (w.text newErr))
  | .exit code => ({ w with out := oldOut, err := oldErr }, .result code (w.text newOut) (w.text newErr))

/-- `lint_pylint`, `edulint/linting/linting.py:195-214` -/
def pylint (w : World) (p : Prog) : World × Caught :=
  let (w, output) := w.new
  let (w, newErr) := w.new
  let oldErr := w.err
  let w := { w with err := newErr }
  let w := p.acts.foldl (Act.exec output) w
  match p.ends with
  | .raised => (w, .raised)
  | .done => ({ w with err := oldErr }, .result (some 0) (w.text output) (w.text newErr))
  | .exit code => ({ w with err := oldErr }, .result code (w.text output) (w.text newErr))

/-- Runs of linters one after another, as `lint` and `lint_many` have them, `edulint/linting/linting.py:284-315`; `true` is flake8. An exception ends them. -/
def runs (w : World) : List (Bool × Prog) → World × List Caught
  | [] => (w, [])
  | (isFlake8, p) :: rest =>
    match (if isFlake8 then flake8 w p else pylint w p) with
    | (w, .raised) => (w, [.raised])
    | (w, c) => let (w, cs) := runs w rest; (w, c :: cs)

/-- What the interpreter does with an exception that nobody catches: the traceback is written to `sys.stderr`. -/
def traceback (w : World) (t : Str) : World := w.write w.err t

end Verif.Streams

import Verif.Model.Analyses

/-!
How the analysis of variables is hooked into Pylint, `edulint/linting/analyses/patcher.py:36-55`, and what becomes of it when Pylint is run more than once in
a process: `lint_many` runs it for each configuration, `edulint/linting/linting.py:189-218, 284-315`, and so does each call of `check_code`.

Pylint, which is not part of the package, calls `register` of each plugin once for each `Run`. What `PyLinter.get_ast` itself needs and gives is left open: `parse`
is the tree that it returns for a file (`None` if the file cannot be parsed), `need` is how many calls it and the analysis need to be nested. Of calls, `free`
can be nested where `get_ast` is called; with more Python raises `RecursionError`. An analysis visits all nodes anew and replaces what the one before
has left, so that only its own outcome remains.
-/

namespace Verif.Patch

open Verif.Analyses (Module Outcome runAnalyses)

variable (parse : Str → Option Module) (need : Nat)

/-- `PyLinter.get_ast` where it was replaced a number of times, `edulint/linting/analyses/patcher.py:39-45`: the tree and the outcomes of all analyses of it. -/
def getAst : (patches free : Nat) → Str → Except PyErr (Option Module × List Outcome)
  | 0, free, file => if free < need then .error .recursionError else .ok (parse file, [])
  | _ + 1, 0, _ => .error .recursionError
  | patches + 1, free + 1, file =>
    match getAst patches free file with
    | .error x => .error x
    | .ok (none, os) => .ok (none, os)
    | .ok (some m, os) => .ok (some m, os ++ [runAnalyses m])

/-- A run of Pylint: whether the configuration has it load `edulint.linting.analyses.patcher`, as `edulint/config/files/full.toml:4-5` has, and the files. -/
structure PylintRun where
  plugin : Bool
  files : List Str

/-- `register`, `edulint/linting/analyses/patcher.py:51-55`, with `patch_ast_transforms` (36-48), if it is called: how often `get_ast` was replaced then. -/
def PylintRun.register (r : PylintRun) (patches : Nat) : Nat := if r.plugin then patches + 1 else patches

/-- The trees of the files, one after another; an exception ends the run. -/
def asts (patches free : Nat) : List Str → Except PyErr (List (Str × Option Module × List Outcome))
  | [] => .ok []
  | f :: fs =>
    match getAst parse need patches free f with
    | .error x => .error x
    | .ok r =>
      match asts patches free fs with
      | .error x => .error x
      | .ok rs => .ok ((f, r) :: rs)

/-- Runs in one process, `edulint/linting/linting.py:189-206` for each -/
def runs (free : Nat) : (patches : Nat) → List PylintRun → List (Except PyErr (List (Str × Option Module × List Outcome)))
  | _, [] => []
  | patches, r :: rs => asts parse need (r.register patches) free r.files :: runs free (r.register patches) rs

/-- The result of a run after others in a new process. -/
def runAfter (free : Nat) (before : List PylintRun) (r : PylintRun) : Option (Except PyErr (List (Str × Option Module × List Outcome))) :=
  (runs parse need free 0 (before ++ [r])).getLast?

end Verif.Patch

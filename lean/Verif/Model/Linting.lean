import Verif.Model.Tweakers
import Verif.Model.Report
import Verif.Model.Translate

/-!
`edulint/linting/linting.py`: running the linters and processing what they found; and the check command of
`edulint/edulint.py`.
-/

namespace Verif

/-- What can go wrong while linting: a linter failed (`EduLintLinterFailedException`), its output is not
JSON (`JSONDecodeError`), or any other exception. -/
inductive LintErr where
  | linterFailed
  | jsonError
  | py (e : PyErr)
  deriving DecidableEq, Repr

/-- The standard output of a linter: nothing, something that is not JSON, or the reported problems. -/
inductive LinterOut (ρ : Type) where
  | empty
  | notJson
  | problems (l : List ρ)

/-- One run of a linter: the return code and the output. The code is 0 unless the linter ends with
`SystemExit`; `none` is a `SystemExit` whose argument is not a number,
`edulint/linting/linting.py:169-173,202-206`. -/
structure LinterRun (ρ : Type) where
  code : Option Int
  out : LinterOut ρ

/-- The fields of a flake8 message, `edulint/linting/linting.py:28-35`. -/
structure Flake8Raw where
  filename : Str
  line : Int
  column : Int
  code : Str
  text : Str

/-- The fields of a pylint message, `edulint/linting/linting.py:52-66`. -/
structure PylintRaw where
  path : Str
  line : Int
  column : Int
  messageId : Str
  message : Str
  endLine : Option Int
  endColumn : Option Int
  symbol : Str

/-- Everything linting depends on besides the files and the configuration. -/
structure LintEnv where
  fs : FsEnv
  tr : TrEnv
  /-- The order in which Python iterates over the set of the given strings. -/
  setOrder : List Str → List Str
  /-- flake8 run with the given arguments on the given paths. -/
  flake8 : List Str → List Str → LinterRun Flake8Raw
  /-- pylint run with the given arguments on the given paths. -/
  pylint : List Str → List Str → LinterRun PylintRaw

/-- `flake8_to_problem`, `edulint/linting/linting.py:28-45`. -/
def flake8ToProblem (fs : FsEnv) (enablers : Dict Str Str) (raw : Flake8Raw) : Except PyErr Problem :=
  match properPath fs raw.filename with
  | .error e => .error e
  | .ok path =>
    .ok { source := .flake8, enabledBy := Dict.get? enablers raw.code, path := path, line := raw.line,
          column := raw.column, code := raw.code, text := raw.text }

/-- Components of `Path(s).resolve()`. -/
def resolved (fs : FsEnv) (s : Str) : List Str :=
  let p := PPath.parse s
  fs.resolve (if p.root = 0 then fs.cwd ++ p.parts else p.parts)

/-- The number of leading components of the current directory (root included) that the loop in
`edulint/linting/linting.py:83-85` leaves in `i`: the first difference, or the last compared index. -/
def loopIndex : List Str → List Str → Nat
  | [_], _ :: _ => 0
  | _ :: _, [_] => 0
  | a :: as, b :: bs => if a ≠ b then 0 else loopIndex as bs + 1
  | _, _ => 0

/-- `get_used_filename`, `edulint/linting/linting.py:68-88`. -/
def usedFilename (fs : FsEnv) (files : List Str) (path : Str) : Except PyErr Str :=
  if isOutOfFile path then .ok path
  else
    let abs := resolved fs path
    match files.find? fun fd => (resolved fs fd).isPrefixOf abs with
    | none => .error .assertionError
    | some fd =>
      if (PPath.parse fd).root ≠ 0 then .ok (showPath 1 abs)
      else
        let cwdParts := ['/'] :: fs.cwd
        let absParts := ['/'] :: abs
        let i := loopIndex cwdParts absParts
        -- `Path(..., "/", ...)` starts again at the root
        if i = 0 then .ok (showPath 1 abs)
        else .ok (showPath 0 (List.replicate (cwdParts.length - i) ['.', '.'] ++ absParts.drop i))

/-- `pylint_to_problem`, `edulint/linting/linting.py:52-104`. -/
def pylintToProblem (fs : FsEnv) (files : List Str) (enablers : Dict Str Str) (raw : PylintRaw) :
    Except PyErr Problem :=
  match usedFilename fs files raw.path with
  | .error e => .error e
  | .ok used =>
    match properPath fs used with
    | .error e => .error e
    | .ok path =>
      .ok { source := .pylint,
            enabledBy := (Dict.get? enablers raw.messageId).or (Dict.get? enablers raw.symbol),
            path := path, line := raw.line, column := raw.column, code := raw.messageId,
            text := raw.message, endLine := raw.endLine, endColumn := raw.endColumn,
            symbol := some raw.symbol }

/-- `list(map(f, l))` for a function that can raise. -/
def mapE {α β : Type} (f : α → Except PyErr β) : List α → Except PyErr (List β)
  | [] => .ok []
  | a :: as =>
    match f a with
    | .error e => .error e
    | .ok b =>
      match mapE f as with
      | .error e => .error e
      | .ok bs => .ok (b :: bs)

/-- Return codes taken for a failure of the linter, `edulint/linting/linting.py:133-135`. -/
def failureCode : Linter → Option Int → Bool
  | .flake8, code => code ≠ some 0 && code ≠ some 1
  | .pylint, code => code = some 32
  | .edulint, _ => false

/-- `process_results`, `edulint/linting/linting.py:120-148`. -/
def processResults {ρ : Type} (linter : Linter) (toProblem : ρ → Except PyErr Problem) (run : LinterRun ρ) :
    Except LintErr (List Problem) :=
  if failureCode linter run.code then .error .linterFailed
  else match run.out with
    | .empty => .ok []
    | .notJson => .error .jsonError
    | .problems l =>
      match mapE toProblem l with
      | .error e => .error (.py e)
      | .ok ps => .ok ps

/-- `list(config[option])` for a list option. -/
def listOption (config : ImmutableConfig) (o : Opt) : Except PyErr (List Str) :=
  match config.getItem o with
  | .error e => .error e
  | .ok (.list l) => .ok l
  | .ok _ => .error .typeError

/-- `lint_edulint`, `edulint/linting/linting.py:151-155`. -/
def lintEdulint (env : LintEnv) (items : List Item) (config : ImmutableConfig) : Except PyErr (List Problem) :=
  match listOption config .ignoreInfileConfigFor with
  | .error e => .error e
  | .ok [] => .ok []
  | .ok l => .ok (reportInfile items (env.setOrder (expandIgnored l)) config.enablers)

/-- `lint_flake8`, `edulint/linting/linting.py:158-186`. -/
def lintFlake8 (env : LintEnv) (files : List Str) (config : ImmutableConfig) : Except LintErr (List Problem) :=
  match listOption config .flake8 with
  | .error e => .error (.py e)
  | .ok args =>
    processResults .flake8 (flake8ToProblem env.fs config.enablers)
      (env.flake8 ("--format=json".toList :: args) files)

/-- `lint_pylint`, `edulint/linting/linting.py:189-218`. -/
def lintPylint (env : LintEnv) (files : List Str) (config : ImmutableConfig) : Except LintErr (List Problem) :=
  match listOption config .pylint with
  | .error e => .error (.py e)
  | .ok args =>
    processResults .pylint (pylintToProblem env.fs files config.enablers)
      (env.pylint ("--recursive=y".toList :: args) files)

/-- `lint`, `edulint/linting/linting.py:284-294`. -/
def lint (env : LintEnv) (items : List Item) (config : ImmutableConfig) : Except LintErr (List Problem) :=
  let files := items.map (·.path)
  match lintEdulint env items config with
  | .error e => .error (.py e)
  | .ok edulint =>
    match config.getItem .noFlake8 with
    | .error e => .error (.py e)
    | .ok noFlake8 =>
      match if noFlake8.truthy then .ok [] else lintFlake8 env files config with
      | .error e => .error e
      | .ok flake8 =>
        match lintPylint env files config with
        | .error e => .error e
        | .ok pylint =>
          match applyTweaks tweakers config (applyOverrides overriders (edulint ++ flake8 ++ pylint)) with
          | .error e => .error (.py e)
          | .ok tweaked =>
            match sortProblems files tweaked with
            | .error e => .error (.py e)
            | .ok sorted => .ok sorted

/-- `lint_many`, `edulint/linting/linting.py:308-315`. -/
def lintMany (env : LintEnv) : List RunGroup → Except LintErr (List Problem)
  | [] => .ok []
  | g :: gs =>
    match lint env g.items g.config with
    | .error e => .error e
    | .ok ps =>
      match mapE (translateProblem env.tr g.lang) ps with
      | .error e => .error (.py e)
      | .ok ps =>
        match lintMany env gs with
        | .error e => .error e
        | .ok rest => .ok (ps ++ rest)

/-- A path on the command line: what lies there, if anything. -/
structure GivenPath where
  path : Str
  tree : Option FTree

/-- The paths if all exist, `edulint/edulint.py:162-167`. -/
def existing : List GivenPath → Option (List Item)
  | [] => some []
  | g :: gs =>
    match g.tree with
    | none => none
    | some t =>
      match existing gs with
      | none => none
      | some is => some (⟨g.path, t⟩ :: is)

/-- `_check_code`, `edulint/edulint.py:158-178`: `none` if a path does not exist or a linter failed; other
exceptions are not caught. -/
def checkCode (env : Env) (lenv : LintEnv) (fuel : Nat) (given : List GivenPath) (options : List Str) :
    Except PyErr (Option (List RunGroup × List Problem)) :=
  match existing given with
  | none => .ok none
  | some items =>
    match getConfigMany env fuel items options with
    | .error e => .error e
    | .ok groups =>
      match lintMany lenv groups with
      | .error (.py e) => .error e
      | .error _ => .ok none
      | .ok problems =>
        match sortProblems (given.map (·.path)) problems with
        | .error e => .error e
        | .ok sorted => .ok (some (groups, sorted))

/-- The return value of `check_and_print`, `edulint/edulint.py:181-202`. -/
def checkReturn : Except PyErr (Option (List RunGroup × List Problem)) → Except PyErr Nat
  | .error e => .error e
  | .ok none => .ok 2
  | .ok (some (_, problems)) => .ok (if problems.length = 0 then 0 else 1)

/-- The exit status of the process. `main` (`edulint/edulint.py:289-301`) is wrapped in `logger.catch`, which
logs any exception and returns `None`; `SystemExit(None)` (`edulint/__main__.py:4`) is status 0. -/
def exitStatus : Except PyErr Nat → Nat
  | .error _ => 0
  | .ok n => n

/-! ### Printing -/

/-- Something printed in plain text mode. -/
inductive Printed where
  | header (path : Str)
  | problem (p : Problem)
  deriving DecidableEq, Repr

/-- The loop of `check_and_print`, `edulint/edulint.py:192-200`; `prev` is the path of `prev_problem`. -/
def printLoop (single : Bool) : Option Str → List Problem → List Printed
  | _, [] => []
  | prev, p :: ps =>
    if !single && decide (prev ≠ some p.path) then
      .header p.path :: .problem p :: printLoop single (some p.path) ps
    else .problem p :: printLoop single prev ps

/-- `checks_single_file`, `edulint/edulint.py:188`. -/
def checksSingleFile : List Item → Bool
  | [⟨_, .file _⟩] => true
  | _ => false

/-- `Problem.__str__`, `edulint/linting/problem.py:101-103`. -/
def Problem.str (p : Problem) : Str :=
  p.path ++ ':' :: intStr p.line ++ ':' :: intStr p.column ++ ": ".toList ++ p.code ++ ' ' :: p.text ++
    match p.enabledBy with
    | none => []
    | some e => " [".toList ++ e ++ "]".toList

/-- The printed line, `edulint/edulint.py:197,200`. -/
def Printed.str : Printed → Str
  | .header path => "****************** ".toList ++ basename path
  | .problem p => p.str

end Verif

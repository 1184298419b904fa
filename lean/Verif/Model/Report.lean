import Verif.Model.Problem
import Verif.Model.Regex

/-!
`edulint/linting/nonparsing_checkers.py`: reporting in-file configuration that is to be ignored.
-/

namespace Verif

/-- The patterns of `CONFIG_PATTERNS`, `edulint/linting/nonparsing_checkers.py:11-21`: all have the shape
`(.*)#\s*(…)`; this is the part in the second group. -/
inductive Magic where
  | noqa
  | flake8Noqa
  | pylintDisable
  | pylintEnable
  deriving DecidableEq, Repr

/-- The second group of a pattern, as atoms. -/
def Magic.atoms : Magic → List Atom
  | .noqa => litsI "noqa".toList
  | .flake8Noqa => litsI "flake8:".toList ++ [.star (· = ' ')] ++ litsI "noqa".toList
  | .pylintDisable => litsI "pylint:".toList ++ [.star rxSpace] ++ litsI "disable".toList
  | .pylintEnable => litsI "pylint:".toList ++ [.star rxSpace] ++ litsI "enable".toList

@[inherit_doc Magic] def Magic.pattern (m : Magic) : List Atom :=
  .star dot :: .one (· == '#') :: .star rxSpace :: m.atoms

/-- `CONFIG_PATTERNS`, `edulint/linting/nonparsing_checkers.py:11-21`. -/
def configPatterns : Linter → List Magic
  | .flake8 => [.noqa, .flake8Noqa]
  | .pylint => [.pylintDisable, .pylintEnable]
  | .edulint => []

/-- `path.endswith(".py")`, `edulint/linting/nonparsing_checkers.py:28`. -/
def endsWithPy (p : Str) : Bool := ".py".toList.isSuffixOf p

mutual
/-- `to_file_paths` for one path, `edulint/linting/nonparsing_checkers.py:24-31`: paths with their lines. -/
def treePaths (path : Str) : FTree → List (Str × List Str)
  | .file lines => if endsWithPy path then [(path, lines)] else []
  | .dir entries => forestPaths path entries
/-- The recursion over `os.listdir`. -/
def forestPaths (path : Str) : FForest → List (Str × List Str)
  | .nil => []
  | .cons name tree rest => treePaths (joinPath path name) tree ++ forestPaths path rest
end

/-- `.*from\s+ib111\s+import`, `edulint/linting/nonparsing_checkers.py:53`. -/
def ib111Pattern : List Atom :=
  .star dot :: litsI "from".toList ++ [.one rxSpace, .star rxSpace] ++ litsI "ib111".toList ++
    [.one rxSpace, .star rxSpace] ++ litsI "import".toList

/-- The set of ignored linters after `all` is expanded, `edulint/linting/nonparsing_checkers.py:37-38`; the
order of a set is not determined, so it is a parameter: any list with these elements. -/
def expandIgnored (ignored : List Str) : List Str :=
  if ignored.contains "all".toList then
    (ignored.filter (· ≠ "all".toList)) ++ Linter.all.map Linter.toName
  else ignored

/-- `patterns`, `edulint/linting/nonparsing_checkers.py:40-50`. -/
def reportPatterns (order : List Str) : List Magic :=
  order.flatMap fun name =>
    match Linter.safeFromName name with
    | none => []
    | some l => configPatterns l

/-- The body of the loops, `edulint/linting/nonparsing_checkers.py:58-72`. -/
def reportLine (enabler : Option Str) (path : Str) (i : Nat) (line : Str) (m : Magic) : List Problem :=
  match matchSeq m.pattern line with
  | none => []
  | some ps =>
    let group1 := ((ps.take 1).flatten)
    let group2 := ((ps.drop 3).flatten)
    if !containsStr "noqa".toList (lower group2) || (matchSeq ib111Pattern line).isNone then
      [{ source := .edulint, enabledBy := enabler, path := path, line := i, column := group1.length,
         code := "EDL001".toList, text := "Forbidden magic comment '".toList ++ group2 ++ ['\''],
         endLine := some i, endColumn := some line.length }]
    else []

/-- The loop over the lines of a file, which are numbered from 1; a line includes its line break,
`edulint/linting/nonparsing_checkers.py:56`. -/
def reportLines (enabler : Option Str) (pats : List Magic) (path : Str) : Nat → List Str → List Problem
  | _, [] => []
  | i, line :: rest =>
    pats.flatMap (reportLine enabler path i line) ++ reportLines enabler pats path (i + 1) rest

/-- `report_infile_config`, `edulint/linting/nonparsing_checkers.py:34-73`, for one order of the set. -/
def reportInfile (items : List Item) (order : List Str) (enablers : Dict Str Str) : List Problem :=
  (items.flatMap fun it => treePaths it.path it.tree).flatMap fun f =>
    reportLines (Dict.get? enablers "EDL001".toList) (reportPatterns order) f.1 1 f.2

end Verif

import Verif.Model.Paths
import Verif.Model.ConfigMany

/-!
Problems, overriding (`edulint/linting/overrides.py`) and ordering (`edulint/linting/linting.py: sort`).
-/

namespace Verif

/-- `Problem`, `edulint/linting/problem.py:11-38`. -/
structure Problem where
  source : Linter
  enabledBy : Option Str
  path : Str
  line : Int
  column : Int
  code : Str
  text : Str
  endLine : Option Int := none
  endColumn : Option Int := none
  symbol : Option Str := none
  deriving DecidableEq, Repr

/-- `OVERRIDERS`, `edulint/linting/overrides.py:7-37`. -/
def overriders : Dict Str (List Str) :=
  [("C0104".toList, ["R6307".toList, "R6609".toList, "F841".toList, "W0613".toList]),
   ("C0103".toList, ["R6307".toList, "R6609".toList, "F841".toList, "W0613".toList]),
   ("E225".toList, ["R6609".toList]),
   ("R1705".toList, ["R1703".toList, "R6201".toList]),
   ("R6610".toList, ["R6608".toList]),
   ("W0107".toList, ["W0101".toList]),
   ("C0201".toList, ["C0206".toList]),
   ("R6216".toList, ["R6211".toList, "R6212".toList, "R6214".toList, "R6215".toList]),
   ("R6213".toList, ["R6216".toList]),
   ("R6221".toList, ["R6222".toList]),
   ("R6218".toList, ["R6222".toList])]

/-- `codes_on_lines[(problem.path, problem.line)]`, `edulint/linting/linting.py:222-227`: the codes found at a
place (as a list instead of a set). -/
def codesOnLine (problems : List Problem) (path : Str) (line : Int) : List Str :=
  (problems.filter fun p => p.path = path ∧ p.line = line).map (·.code)

/-- `apply_overrides`, `edulint/linting/linting.py:221-235`. -/
def applyOverrides (table : Dict Str (List Str)) (problems : List Problem) : List Problem :=
  problems.filter fun p =>
    let o := (Dict.get? table p.code).getD []
    !(o.any fun c => (codesOnLine problems p.path p.line).contains c)

/-- `needle in hay` for strings. -/
def containsStr (needle : Str) : Str → Bool
  | [] => needle.isPrefixOf []
  | c :: hay => needle.isPrefixOf (c :: hay) || containsStr needle hay

/-- `is_pylint_out_of_file_problem`, `edulint/linting/linting.py:48-49`. -/
def isOutOfFile (path : Str) : Bool :=
  containsStr "command line".toList (lower path) || containsStr "configuration file".toList (lower path)

/-- `get_file_or_dir_index`, `edulint/linting/linting.py:263-271`; `i` is the index of the first path. -/
def pathIndexFrom (path : PPath) : Int → List Str → Except PyErr Int
  | _, [] => .error .assertionError
  | i, fd :: fds =>
    if PPath.parse fd = path ∨ (PPath.parse fd).isParentOf path then .ok i
    else pathIndexFrom path (i + 1) fds

@[inherit_doc pathIndexFrom]
def pathIndex (files : List Str) (path : Str) : Except PyErr Int :=
  if isOutOfFile path then .ok (-1) else pathIndexFrom (PPath.parse path) 0 files

/-- `<=` of Python strings: by code points. -/
def strLe : Str → Str → Bool
  | [], _ => true
  | _ :: _, [] => false
  | a :: as, b :: bs => if a = b then strLe as bs else a.toNat < b.toNat

/-- Comparison of the keys `(index, path, line, column)`, `edulint/linting/linting.py:273-280`. -/
def keyLe (a b : Int × Problem) : Bool :=
  if a.1 ≠ b.1 then a.1 < b.1
  else if a.2.path ≠ b.2.path then strLe a.2.path b.2.path
  else if a.2.line ≠ b.2.line then a.2.line < b.2.line
  else a.2.column ≤ b.2.column

/-- Inserting before the first element that is not smaller. -/
def insertKey (x : Int × Problem) : List (Int × Problem) → List (Int × Problem)
  | [] => [x]
  | y :: ys => if keyLe x y then x :: y :: ys else y :: insertKey x ys

/-- `list.sort`: a stable sort. -/
def stableSort (l : List (Int × Problem)) : List (Int × Problem) := l.foldr insertKey []

/-- The keys are computed first, one by one. -/
def withIndices (files : List Str) : List Problem → Except PyErr (List (Int × Problem))
  | [] => .ok []
  | p :: ps =>
    match pathIndex files p.path with
    | .error e => .error e
    | .ok i =>
      match withIndices files ps with
      | .error e => .error e
      | .ok r => .ok ((i, p) :: r)

/-- `sort`, `edulint/linting/linting.py:260-281`. -/
def sortProblems (files : List Str) (problems : List Problem) : Except PyErr (List Problem) :=
  match withIndices files problems with
  | .error e => .error e
  | .ok l => .ok ((stableSort l).map (·.2))

end Verif

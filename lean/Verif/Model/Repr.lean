import Verif.Model.Linting

/-!
How problems are shown by `repr`, `edulint/linting/problem.py:80-99`.
-/

namespace Verif.Repr

/-- A value of an attribute of a problem. -/
inductive Attr where
  | linter (l : Linter)
  | none
  | str (s : Str)
  | int (n : Int)
  deriving DecidableEq

def Attr.ofStr : Option Str → Attr
  | .none => .none
  | some s => .str s

def Attr.ofInt : Option Int → Attr
  | .none => .none
  | some n => .int n

/-- `fields(Problem)` with `getattr`, `edulint/linting/problem.py:14-38`: in the order of the declarations. -/
def attrs (p : Problem) : List (Str × Attr) :=
  [("source".toList, .linter p.source), ("enabled_by".toList, .ofStr p.enabledBy), ("path".toList, .str p.path), ("line".toList, .int p.line),
   ("column".toList, .int p.column), ("code".toList, .str p.code), ("text".toList, .str p.text), ("end_line".toList, .ofInt p.endLine),
   ("end_column".toList, .ofInt p.endColumn), ("symbol".toList, .ofStr p.symbol)]

/-- `has_value`, `edulint/linting/problem.py:80-86`. -/
def Attr.hasValue : Attr → Bool
  | .none => false
  | .str s => !s.isEmpty
  | .int n => decide (0 ≤ n)
  | .linter _ => true

/-- `edulint/linting/problem.py:94-96`; nothing in a string is escaped. -/
def Attr.show : Attr → Str
  | .none => "None".toList
  | .str s => '"' :: s ++ ['"']
  | .int n => intStr n
  | .linter l => l.toName

/-- `get_attrvals`, `edulint/linting/problem.py:89-97`. -/
def attrVals (p : Problem) : List Str := ((attrs p).filter fun a => a.2.hasValue).map fun a => a.1 ++ '=' :: a.2.show

/-- `Problem.__repr__`, `edulint/linting/problem.py:88-99`. -/
def repr (p : Problem) : Str := "Problem(".toList ++ joinWith ", ".toList (attrVals p) ++ ")".toList

end Verif.Repr

import Verif.Base.Str

/-!
Complex expressions that are used repeatedly: `duplicate-exprs`, `edulint/linting/checkers/old_duplication_checker.py:24-151` and
`edulint/linting/checkers/old_duplication_checker.py:399-417`.

A node is its kind, a label (names, operators and all else that is in its text) and its children, as of `get_children`; of a comparison, these are the left operand and
those of the operators. A node in a module is the path to it, from the root.
-/

namespace Verif.DupExprs

/-- Classes of nodes; `listed` are those with a method of the visitor that have no case in `_compute_complexity`, `other` are those with neither. -/
inductive Kind where
  | binOp
  | boolOp
  | compare
  | name
  | const
  | attribute
  | subscript
  | call (function : Str)
  | listed
  | assign
  | assert
  | other
  deriving DecidableEq

inductive Tree where
  | node (k : Kind) (label : Str) (children : List Tree)

/-- `EXPR_FUNCTIONS`, `edulint/linting/checkers/old_duplication_checker.py:25-43` -/
def exprFunctions : List Str :=
  ["abs", "max", "min", "round", "sqrt", "len", "all", "any", "sum", "map", "filter", "sorted", "reversed", "int", "str", "ord", "chr"].map String.toList

/-- When `InvalidExpression` is raised, `edulint/linting/checkers/old_duplication_checker.py:53-57`; the first argument is the kind of the parent. -/
def invalid (parent : Kind) : Kind → Bool
  | .attribute => parent = .assign
  | .subscript => parent = .assign
  | .call f => f ∉ exprFunctions
  | _ => false

/-- What is added for a node with some number of children, `edulint/linting/checkers/old_duplication_checker.py:59-74`. -/
def extra (n : Nat) : Kind → Nat
  | .binOp => 2
  | .boolOp => n - 1
  | .compare => n - 1
  | .name => 1
  | .const => 1
  | .attribute => 1
  | _ => 0

mutual
/-- `_compute_complexity`, `edulint/linting/checkers/old_duplication_checker.py:50-74`; nothing if `InvalidExpression` is raised. -/
def complexity (parent : Kind) : Tree → Option Nat
  | .node k _ ts => if invalid parent k then none else (complexityAll k ts).map (extra ts.length k + ·)

def complexityAll (parent : Kind) : List Tree → Option Nat
  | [] => some 0
  | t :: ts => (complexity parent t).bind fun n => (complexityAll parent ts).map (n + ·)
end

/-- Whether the visitor has a method that calls `_process_expr`, `edulint/linting/checkers/old_duplication_checker.py:96-151`. -/
def isListed : Kind → Bool
  | .binOp => true
  | .boolOp => true
  | .compare => true
  | .attribute => true
  | .subscript => true
  | .call _ => true
  | .listed => true
  | _ => false

/-- A node in the module. -/
abbrev Occ := List Nat × Tree

mutual
/-- The visitor, `edulint/linting/checkers/old_duplication_checker.py:76-151`: nodes that are added to `long_expressions`, in order. -/
def collect (path : List Nat) (parent : Kind) : Tree → List Occ
  | .node k l ts =>
    if k = .assert then []
    else if isListed k then
      match complexity parent (.node k l ts) with
      | none => collectAll path 0 k ts
      | some n => if n ≥ 8 then (path, .node k l ts) :: collectAll path 0 k ts else []
    else collectAll path 0 k ts

/-- `visit_many(node.get_children())`, with the index of the first child. -/
def collectAll (path : List Nat) (i : Nat) (parent : Kind) : List Tree → List Occ
  | [] => []
  | t :: ts => collect (path ++ [i]) parent t ++ collectAll path (i + 1) parent ts
end

/-- `long_expressions[s]`; `str` is `as_string`. -/
def exprs (str : Tree → Str) (occs : List Occ) (s : Str) : List Occ := occs.filter fun o => str o.2 = s

/-- The keys of `long_expressions`, in order of insertion. -/
def keys (str : Tree → Str) : List Occ → List Str
  | [] => []
  | o :: occs => str o.2 :: (keys str occs).filter (· ≠ str o.2)

/-- The loop of `duplicate_exprs`, `edulint/linting/checkers/old_duplication_checker.py:403-417`: texts that are reported and all nodes with them. The keys are sorted by
the length of the first character, which does not change the order. -/
def report (str : Tree → Str) (occs : List Occ) : List (List Nat) → List Str → List (Str × List Occ)
  | _, [] => []
  | emitted, s :: ks =>
    let es := exprs str occs s
    if es.length ≥ 2 then
      if (es.head?.map (·.1.dropLast)).all (· ∉ emitted) then (s, es) :: report str occs (emitted ++ es.map (·.1)) ks else report str occs (emitted ++ es.map (·.1)) ks
    else report str occs emitted ks

/-- `duplicate_exprs`, `edulint/linting/checkers/old_duplication_checker.py:399-417` -/
def duplicateExprs (str : Tree → Str) (root : Tree) : List (Str × List Occ) :=
  let occs := collect [] .other root
  report str occs [] (keys str occs)

end Verif.DupExprs

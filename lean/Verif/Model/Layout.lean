import Verif.Base.Str

/-!
# Where statements are written

`_check_else_if` and `_check_loop_else` of `edulint/linting/checkers/local_defects.py`, for programs as they are written: with `elif` and `else`, and columns.

The tree that the checks get does not distinguish `elif` from an `if` in an `else`, except by columns.
-/

namespace Verif.Layout

/-- `for`, `async for` and `while`. -/
inductive Kind where
  | for
  | asyncFor
  | while
  deriving DecidableEq, Repr

/-! ### Programs as they are written -/

mutual
/-- A statement; `tag` tells statements apart, tests and headers are not looked at. -/
inductive Stmt where
  | simple (tag : Nat)
  | ifS (tag test : Nat) (body : Suite) (tail : Tail)
  | loop (tag : Nat) (kind : Kind) (head : Nat) (body : Suite) (tail : Tail)
  /-- `def`, `class`, `with`, `try`, `match`: a statement with some suites. -/
  | group (tag : Nat) (suites : Suites)
/-- What follows the body of an `if` or a loop; the latter have no `elif`. -/
inductive Tail where
  | none
  | elif (tag test : Nat) (body : Suite) (tail : Tail)
  | els (suite : Suite)
/-- Statements after a colon, in the same line or in lines of their own; `col` is the column of the first one. -/
inductive Suite where
  | mk (col : Nat) (inline : Bool) (stmts : Stmts)
inductive Stmts where
  | nil
  | cons (s : Stmt) (rest : Stmts)
inductive Suites where
  | nil
  | cons (s : Suite) (rest : Suites)
end

def Suite.col : Suite → Nat
  | .mk col _ _ => col

/-! ### Their trees -/

mutual
/-- Nodes of `astroid`, with `col_offset`. -/
inductive Node where
  | simple (tag col : Nat)
  | ifN (tag col test : Nat) (body orelse : Nodes)
  | loop (tag col : Nat) (kind : Kind) (head : Nat) (body orelse : Nodes)
  | group (tag col : Nat) (parts : Nodes)
inductive Nodes where
  | nil
  | cons (n : Node) (rest : Nodes)
end

def Node.col : Node → Nat
  | .simple _ c | .ifN _ c _ _ _ | .loop _ c _ _ _ _ | .group _ c _ => c

def Nodes.append : Nodes → Nodes → Nodes
  | .nil, m => m
  | .cons n l, m => .cons n (l.append m)

mutual
/-- The tree of a statement at a column: an `elif` is an `if` in the `orelse` of the `if` before it, at the column of the `elif`. Statements after the first one of a suite are
taken to be at the same column, which makes a difference for none of the checks. -/
def Stmt.node (c : Nat) : Stmt → Node
  | .simple tag => .simple tag c
  | .ifS tag test body tail => .ifN tag c test body.nodes (tail.nodes c)
  | .loop tag kind head body tail => .loop tag c kind head body.nodes (tail.nodes c)
  | .group tag suites => .group tag c suites.nodes
def Tail.nodes (c : Nat) : Tail → Nodes
  | .none => .nil
  | .elif tag test body tail => .cons (.ifN tag c test body.nodes (tail.nodes c)) .nil
  | .els suite => suite.nodes
def Suite.nodes : Suite → Nodes
  | .mk col _ stmts => stmts.nodes col
def Stmts.nodes (c : Nat) : Stmts → Nodes
  | .nil => .nil
  | .cons s rest => .cons (s.node c) (rest.nodes c)
def Suites.nodes : Suites → Nodes
  | .nil => .nil
  | .cons s rest => s.nodes.append rest.nodes
end

/-! ### The checks -/

/-- `_check_else_if`, `edulint/linting/checkers/local_defects.py:176-181`: the tag of the node in the message. -/
def elseIf : Node → List Nat
  | .ifN _ _ _ (.cons b _) (.cons (.ifN tag col _ _ _) .nil) => if b.col = col then [tag] else []
  | _ => []

/-- `_check_loop_else`, `edulint/linting/checkers/local_defects.py:172-174`, as called at lines 718-725: the tag of the node and the name in the message. -/
def loopElse : Node → List (Nat × Str)
  | .loop tag _ .for _ _ (.cons _ _) => [(tag, "for".toList)]
  | .loop tag _ .while _ _ (.cons _ _) => [(tag, "while".toList)]
  | _ => []

mutual
/-- All messages of a check: nodes are visited before their children. -/
def Node.all {α : Type} (check : Node → List α) : Node → List α
  | .simple tag col => check (.simple tag col)
  | .ifN tag col test body orelse => check (.ifN tag col test body orelse) ++ (body.all check ++ orelse.all check)
  | .loop tag col kind head body orelse => check (.loop tag col kind head body orelse) ++ (body.all check ++ orelse.all check)
  | .group tag col parts => check (.group tag col parts) ++ parts.all check
def Nodes.all {α : Type} (check : Node → List α) : Nodes → List α
  | .nil => []
  | .cons n rest => n.all check ++ rest.all check
end

end Verif.Layout

import Verif.Model.Expr

/-!
Statements as trees, how many there are (`get_statements_count` of `edulint/linting/analyses/utils.py`), the messages about long code
(`edulint/linting/checkers/basic_checker.py`) and about early returns (`edulint/linting/checkers/local_defects.py`).

An `elif` is an `if` that is alone in the `else` of another one, as it is in the trees that are checked. Blocks of statements that Python's grammar
requires are not empty. Asynchronous functions, loops and `with` are like the others.
-/

namespace Verif.Py.Code

/-- What ends a block. -/
inductive Jump where
  | return_ | break_ | continue_
  deriving DecidableEq

/-- Statements. Those without statements inside are told apart by numbers. -/
inductive Stmt where
  | simple (n : Nat)
  | jump (k : Jump) (n : Nat)
  | import_ (n : Nat)
  | def_ (isClass : Bool) (n : Nat) (body : List Stmt)
  | loop (isFor : Bool) (n : Nat) (body orelse : List Stmt)
  | if_ (test : Expr) (body orelse : List Stmt)
  | try_ (body : List Stmt) (handlers : List (List Stmt)) (orelse final : List Stmt)
  | with_ (n : Nat) (body : List Stmt)
  | match_ (n : Nat) (cases : List (List Stmt))

/-- `is_main_block`, `edulint/linting/analyses/utils.py:503-517`, of an `if` with the given condition. -/
def isMain : Expr → Bool
  | .compare (.name x) [(.eq, .const (.str s))] => decide (x = "__name__".toList) && decide (s = "__main__".toList)
  | _ => false

/-- `has_elif_block` of astroid. -/
def hasElif : List Stmt → Bool
  | [.if_ _ _ _] => true
  | _ => false

mutual
/-- `get_statements_count`, `edulint/linting/analyses/utils.py:528-563`, of a statement. -/
def count (defs main : Bool) : Stmt → Nat
  | .simple _ => 1
  | .jump _ _ => 1
  | .import_ _ => if defs then 1 else 0
  | .def_ _ _ body => if defs then 1 + countAll defs main body else 0
  | .loop _ _ body orelse => 1 + countAll defs main body + (if orelse.isEmpty then 0 else 1) + countAll defs main orelse
  | .if_ test body orelse =>
    if isMain test && !main then 0
    else 1 + countAll defs main body + (if orelse.isEmpty || hasElif orelse then 0 else 1) + countAll defs main orelse
  | .try_ body handlers orelse final =>
    2 + countAll defs main body + countLists defs main handlers + countAll defs main orelse + countAll defs main final
  | .with_ _ body => 1 + countAll defs main body
  | .match_ _ _ => 1

/-- The inner function `count`, `edulint/linting/analyses/utils.py:531-532`. -/
def countAll (defs main : Bool) : List Stmt → Nat
  | [] => 0
  | s :: b => count defs main s + countAll defs main b

/-- The sum over the handlers, `edulint/linting/analyses/utils.py:555`. -/
def countLists (defs main : Bool) : List (List Stmt) → Nat
  | [] => 0
  | b :: bs => countAll defs main b + countLists defs main bs
end

/-- `LongCodeChecker.visit_module`, `edulint/linting/checkers/basic_checker.py:75-81`: the counts of the message. -/
def longScript (body : List Stmt) : Option (Nat × Nat) :=
  if countAll false false body > 20 then some (countAll false false body, 20) else none

/-- `LongCodeChecker.visit_functiondef`, `edulint/linting/checkers/basic_checker.py:83-89`: the counts of the message. -/
def longFunction (body : List Stmt) : Option (Nat × Nat) :=
  if countAll false false body > 20 then some (countAll false false body, 20) else none

/-! ### Early returns -/

mutual
/-- `ends_block`, `edulint/linting/checkers/local_defects.py:463-470` -/
def endsBlock : Stmt → Bool
  | .if_ _ body orelse => lastEnds body && !orelse.isEmpty && lastEnds orelse
  | .jump _ _ => true
  | _ => false

/-- `ends_block(block[-1])` -/
def lastEnds : List Stmt → Bool
  | [] => false
  | s :: b => if b.isEmpty then endsBlock s else lastEnds b
end

mutual
/-- `large_terminated_if_elif_block`, `edulint/linting/checkers/local_defects.py:472-481` -/
def largeTerminated : Stmt → Bool
  | .if_ _ body orelse =>
    lastEnds body && decide (countAll true true body > 2) && (orelse.isEmpty || largeTerminatedOnly orelse)
  | _ => false

/-- `len(node.orelse) == 1 and large_terminated_if_elif_block(node.orelse[0])` -/
def largeTerminatedOnly : List Stmt → Bool
  | [] => false
  | s :: b => b.isEmpty && largeTerminated s
end

/-- `large_terminated_if_elif_block` of the statement before, if there is one (local_defects.py:472-484) -/
def prevLarge : Option Stmt → Bool
  | some s => largeTerminated s
  | none => false

/-- `_check_use_early_return`, `edulint/linting/checkers/local_defects.py:462-499`, of an `if` with the given branches: is it reported? `prev` and
`next` are the statements before and after it in its block. -/
def earlyReturn (isElif : Bool) (prev : Option Stmt) (body orelse : List Stmt) (next : Option Stmt) : Bool :=
  if isElif || prevLarge prev then false
  else
    match (if !orelse.isEmpty then some orelse else if lastEnds body then next.map ([·]) else none) with
    | none => false
    | some last => lastEnds last && decide (countAll true true last ≤ 2) && decide (countAll true true body ≥ 4)

end Verif.Py.Code

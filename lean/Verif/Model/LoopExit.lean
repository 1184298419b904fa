import Verif.Base.Str

/-!
Which loops are not looked at by the search for infinite ones, `edulint/linting/checkers/unsuited_loop.py:236-249`.
-/

namespace Verif.LoopExit

/-- What is called: a name, an attribute of a name, or anything else. -/
inductive Func where
  | name (x : Str)
  | attr (module : Str) (x : Str)
  | other
deriving DecidableEq

/-- Kinds of nodes. -/
inductive Kind where
  | brk | cont | ret | raise | assert_ | yield_ | yieldFrom
  | call (f : Func)
  | while_ | for_
  | funcDef | classDef | lambda
  | try_ | tryStar
  | other
deriving DecidableEq

/-- Syntax trees: the nodes in an `else` of a loop are apart from the others. -/
inductive Node where
  | mk (kind : Kind) (parts orelse : List Node)

def Node.kind : Node → Kind
  | .mk k _ _ => k

/-- `get_children` of astroid -/
def Node.children : Node → List Node
  | .mk _ ps os => ps ++ os

mutual
def Node.size : Node → Nat
  | .mk _ ps os => 1 + sizes ps + sizes os

def sizes : List Node → Nat
  | [] => 0
  | n :: ns => n.size + sizes ns
end

/-- `condition_met_in_ast`, `edulint/linting/analyses/utils.py:299-309`: what is popped is the first of the list. `fuel` bounds the iterations. -/
def search (condition : Node → Bool) : Nat → List Node → Bool
  | 0, _ => false
  | _ + 1, [] => false
  | fuel + 1, n :: stack => if condition n then true else search condition fuel (n.children.reverse ++ stack)

/-- `condition_met_in_ast`, `edulint/linting/analyses/utils.py:299-309`; each node is popped at most once, `C158_search`. -/
def conditionMet (n : Node) (condition : Node → Bool) : Bool := search condition (n.size + 1) [n]

/-- `is_exit_call`, `edulint/linting/analyses/utils.py:312-332` -/
def isExitCall (n : Node) : Bool :=
  match n.kind with
  | .call (.name x) => decide (x = "exit".toList ∨ x = "quit".toList)
  | .call (.attr m x) => decide (x = "exit".toList ∨ x = "_exit".toList) && decide (m = "sys".toList ∨ m = "os".toList)
  | _ => false

/-- `isinstance(n, (*END_NODES, nodes.Assert, nodes.Yield, nodes.YieldFrom))`, `edulint/linting/analyses/z3_block_analysis.py:42-47` and
`edulint/linting/checkers/unsuited_loop.py:239` -/
def isEnd (n : Node) : Bool :=
  match n.kind with
  | .brk | .cont | .raise | .ret | .assert_ | .yield_ | .yieldFrom => true
  | _ => false

/-- `contains_node_of_type_or_exit`, `edulint/linting/analyses/utils.py:339-340` -/
def contains (n : Node) : Bool := conditionMet n fun n => isEnd n || isExitCall n

/-- `is_in_try_block`, `edulint/linting/analyses/utils.py:287-296`; `parents` are the kinds of the nodes around the node, from the closest. -/
def isInTry : List Kind → Bool
  | [] => false
  | k :: parents => if k = .try_ ∨ k = .tryStar then true else isInTry parents

/-- Whether a loop is looked at, `edulint/linting/checkers/unsuited_loop.py:238-241` -/
def lookedAt (loop : Node) (parents : List Kind) : Bool := !(isInTry parents || contains loop)

/-- `_check_infinite_loop`, `edulint/linting/checkers/unsuited_loop.py:237-249`; `found` is what is reported if the loop is looked at
(`Verif/Model/Z3Block.lean`). -/
def checkInfiniteLoop (loop : Node) (parents : List Kind) (found : Option Str) : Option Str := if lookedAt loop parents then found else none

end Verif.LoopExit

import Verif.Model.DupBlocks
import Verif.Model.DupSequence

/-!
Which blocks of a file are compared by `duplicate-blocks` and `duplicate-sequence`: `CollectBlocksVisitor`,
`edulint/linting/checkers/old_duplication_checker.py:154-219`, and the two checks for whole files.

A statement has lines, the trees of the expressions that it starts with, and the statements in it. A block that is collected is paired with the class of the
node that it is in, which is `block[0].parent` later.
-/

namespace Verif.CollectBlocks

/-- What of a node is not statements. -/
structure Info where
  first : Nat
  last : Nat
  heads : List DupBlocks.Tree

mutual
inductive Stmt where
  /-- A statement without statements in it. -/
  | simple (i : Info) (l : DupBlocks.Label)
  | ite (i : Info) (body orelse : List Stmt)
  | loop (i : Info) (isFor : Bool) (body orelse : List Stmt)
  | with_ (i : Info) (body : List Stmt)
  | try_ (i : Info) (body : List Stmt) (handlers : List Handler) (orelse finalbody : List Stmt)
  | func (i : Info) (body : List Stmt)
  | asyncFunc (i : Info) (body : List Stmt)
  | cls (i : Info) (body : List Stmt)
  /-- Others, as `match`, `async for`, `async with` and `try` with `except*`. -/
  | other (i : Info) (name : Str) (bodies : List (List Stmt))

inductive Handler where
  | mk (i : Info) (body : List Stmt)
end

def Stmt.info : Stmt → Info
  | .simple i _ | .ite i _ _ | .loop i _ _ _ | .with_ i _ | .try_ i _ _ _ _ | .func i _ | .asyncFunc i _ | .cls i _ | .other i _ _ => i

def Handler.body : Handler → List Stmt
  | .mk _ b => b

def Stmt.isIf : Stmt → Bool
  | .ite _ _ _ => true
  | _ => false

/-- `If.has_elif_block` of `astroid`: `len(self.orelse) == 1 and isinstance(self.orelse[0], If)`. -/
def hasElif : List Stmt → Bool
  | [s] => s.isIf
  | _ => false

/-- The test of the main block, `edulint/linting/analyses/utils.py:509-516`. -/
def isMainTest : DupBlocks.Tree → Bool
  | .node (.compare [op]) [.node (.name x) _, .node (.const _ t) _] => op = "==".toList && x = "__name__".toList && t = "__main__".toList
  | _ => false

/-- `is_main_block`, `edulint/linting/analyses/utils.py:503-517`; only the string is written as `__main__`. -/
def isMain : Stmt → Bool
  | .ite i _ _ => match i.heads with
    | [t] => isMainTest t
    | _ => false
  | _ => false

/-- `isinstance(b, (nodes.FunctionDef, nodes.ClassDef))`, `edulint/linting/checkers/old_duplication_checker.py:214`; asynchronous functions are a subclass. -/
def isDef : Stmt → Bool
  | .func _ _ | .asyncFunc _ _ | .cls _ _ => true
  | _ => false

/-- The class of the parent and the statements. -/
abbrev Found := Str × List Stmt

def loopClass (isFor : Bool) : Str := if isFor then "For".toList else "While".toList

mutual
/-- `visit`, `edulint/linting/analyses/utils.py:107-108`: the methods of `CollectBlocksVisitor`, `edulint/linting/checkers/old_duplication_checker.py:158-206`, and
`generic_visit`, `edulint/linting/analyses/utils.py:114-115`, for other statements; expressions contain no statements. -/
def visit : Stmt → List Found
  | .simple _ _ => []
  | .ite _ body orelse =>
    [("If".toList, body)] ++ (if decide (orelse.length > 0) && !hasElif orelse then [("If".toList, orelse)] else []) ++ visitMany body ++ visitMany orelse
  | .loop _ f body orelse =>
    [(loopClass f, body)] ++ (if orelse.length > 0 then [(loopClass f, orelse)] else []) ++ visitMany body ++ visitMany orelse
  | .with_ _ body => [("With".toList, body)] ++ visitMany body
  | .try_ _ body handlers orelse finalbody =>
    [("Try".toList, body)] ++ (if handlers.length > 0 then handlers.map fun h => ("ExceptHandler".toList, h.body) else []) ++
      (if orelse.length > 0 then [("Try".toList, orelse)] else []) ++ (if finalbody.length > 0 then [("Try".toList, finalbody)] else []) ++
      visitMany body ++ visitHandlers handlers ++ visitMany orelse ++ visitMany finalbody
  | .func _ body => [("FunctionDef".toList, body)] ++ visitMany body
  | .asyncFunc _ body => visitMany body
  | .cls _ body => visitMany body
  | .other _ _ bodies => visitBodies bodies

/-- `visit_many`, `edulint/linting/analyses/utils.py:110-111` -/
def visitMany : List Stmt → List Found
  | [] => []
  | s :: ss => visit s ++ visitMany ss

/-- `[stmt for h in node.handlers for stmt in h.body]`, visited, `edulint/linting/checkers/old_duplication_checker.py:199` -/
def visitHandlers : List Handler → List Found
  | [] => []
  | .mk _ body :: hs => visitMany body ++ visitHandlers hs

/-- Children of other nodes. -/
def visitBodies : List (List Stmt) → List Found
  | [] => []
  | b :: bs => visitMany b ++ visitBodies bs
end

/-- `visit_module`, `edulint/linting/checkers/old_duplication_checker.py:208-219` -/
def visitModule (m : List Stmt) : List Found := [("Module".toList, m.filter fun s => !isDef s && !isMain s)] ++ visitMany m

/-- The key of the sort; the first statement starts, the last one ends. -/
def firstLine : List Stmt → Nat
  | [] => 0
  | s :: _ => s.info.first

@[inherit_doc firstLine]
def lastLine (b : List Stmt) : Nat := match b.getLast? with
  | none => 0
  | some s => s.info.last

/-- `key(b) <= key(b')` for the keys of `edulint/linting/checkers/old_duplication_checker.py:482` and `:661` -/
def keyLe (b b' : Found) : Bool :=
  decide (firstLine b.2 < firstLine b'.2) || (decide (firstLine b.2 = firstLine b'.2) && decide (lastLine b.2 ≤ lastLine b'.2))

/-- `get_lines_between(block[0], block[-1], including_last=True)`, `edulint/linting/analyses/utils.py:495-500`, for a block of a file. -/
def lineCount (b : List Stmt) : Nat := lastLine b - firstLine b + 1

/-- The blocks of `duplicate_sequence`, `edulint/linting/checkers/old_duplication_checker.py:657-661` -/
def sequenceBlocks (m : List Stmt) : List Found := ((visitModule m).filter fun b => decide (b.2.length > 0)).mergeSort keyLe

/-- `duplicate_sequence` for a file, `edulint/linting/checkers/old_duplication_checker.py:654-665`: the block and the report; `tree` is what is compared of
statements. -/
def fileSequences (tree : Stmt → DupSequence.Tree) (m : List Stmt) : List (Found × DupSequence.Report) :=
  (sequenceBlocks m).flatMap fun b => if b.2.length ≥ 2 then (DupSequence.processBlock (b.2.map tree)).map fun r => (b, r) else []

mutual
/-- What of a statement is compared by `duplicate_blocks`: the expressions are children, and the statements in it. -/
def toTree : Stmt → DupBlocks.Tree
  | .simple i l => .node l i.heads
  | .ite i body orelse => .node (.other "If".toList []) (i.heads ++ toTrees body ++ toTrees orelse)
  | .loop i f body orelse => .node (.other (loopClass f) []) (i.heads ++ toTrees body ++ toTrees orelse)
  | .with_ i body => .node (.other "With".toList []) (i.heads ++ toTrees body)
  | .try_ i body handlers orelse finalbody =>
    .node (.other "Try".toList []) (i.heads ++ toTrees body ++ handlerTrees handlers ++ toTrees orelse ++ toTrees finalbody)
  | .func i body => .node (.other "FunctionDef".toList []) (i.heads ++ toTrees body)
  | .asyncFunc i body => .node (.other "AsyncFunctionDef".toList []) (i.heads ++ toTrees body)
  | .cls i body => .node (.other "ClassDef".toList []) (i.heads ++ toTrees body)
  | .other i name bodies => .node (.other name []) (i.heads ++ bodyTrees bodies)

@[inherit_doc toTree]
def toTrees : List Stmt → List DupBlocks.Tree
  | [] => []
  | s :: ss => toTree s :: toTrees ss

@[inherit_doc toTree]
def handlerTrees : List Handler → List DupBlocks.Tree
  | [] => []
  | .mk i body :: hs => .node (.other "ExceptHandler".toList []) (i.heads ++ toTrees body) :: handlerTrees hs

@[inherit_doc toTree]
def bodyTrees : List (List Stmt) → List DupBlocks.Tree
  | [] => []
  | b :: bs => toTrees b ++ bodyTrees bs
end

def toBlock (b : Found) : DupBlocks.Block := ⟨toTrees b.2, b.1, firstLine b.2, lastLine b.2⟩

/-- The blocks of `duplicate_blocks`, `edulint/linting/checkers/old_duplication_checker.py:469-482` -/
def comparedBlocks (m : List Stmt) : List Found :=
  ((visitModule m).filter fun b => decide (b.2.length > 0) && decide (lineCount b.2 ≥ 3)).mergeSort keyLe

/-- `duplicate_blocks` for a file, `edulint/linting/checkers/old_duplication_checker.py:466-506`. -/
def fileBlocks (m : List Stmt) : List (DupBlocks.Block × DupBlocks.Block) := DupBlocks.scan 0 ((comparedBlocks m).map toBlock)

end Verif.CollectBlocks

import Verif.Model.Flow

/-!
What can go wrong while a control flow graph is built: blocks are removed from `unreachable_blocks`, which raises
`KeyError` if they are not there (`edulint/linting/analyses/cfg/graph.py:77, 98`); edges are added to a list that is
iterated over if a block is merged into itself (`edulint/linting/analyses/cfg/graph.py:72-74, 93-95`), which ends only when
there is no memory left; and `add_CF_statement` asserts what a
block begins or ends with (`edulint/linting/analyses/cfg/graph.py:214-245`).

The functions here do the same as those of `Verif/Model/Flow.lean`; besides, they keep `unreachable_blocks` and `cfg_loc` of the
statement that was visited, and can raise.
-/

namespace Verif.Flow

/-- The graph, the current block and `unreachable_blocks` -/
structure Work where
  g : Graph
  c : Nat
  unreach : List Nat

/-- `unreachable_blocks.remove(block)` -/
def remove (u : List Nat) (b : Nat) : Except PyErr (List Nat) := if b ∈ u then .ok (u.filter (· != b)) else .error .keyError

/-- `create_block` without a predecessor, `edulint/linting/analyses/cfg/graph.py:41-44` -/
def Work.new (w : Work) : Work := ⟨w.g.new, w.c, w.g.count :: w.unreach⟩

/-- The current block is another one. -/
def Work.at (w : Work) (c : Nat) : Work := { w with c := c }

/-- `add_statement` to the current block -/
def Work.add (w : Work) (l : Nat) : Work := { w with g := w.g.add w.c l }

/-- `link_or_merge`, `edulint/linting/analyses/cfg/graph.py:54-79` -/
def Work.linkOrMerge (w : Work) (s t : Nat) : Except PyErr Work :=
  if w.g.locs s = [] then
    if s = t ∧ s ≠ w.g.start ∧ w.g.edges.any (·.2 == s) = true then .error .memoryError
    else
      match remove w.unreach s with
      | .error x => .error x
      | .ok u => .ok ⟨w.g.linkOrMerge s t, w.c, u⟩
  else .ok ⟨w.g.linkOrMerge s t, w.c, w.unreach⟩

/-- `multiple_link_or_merge`, `edulint/linting/analyses/cfg/graph.py:81-101` -/
def Work.multiple (w : Work) (s : Nat) (ts : List Nat) : Except PyErr Work :=
  if w.g.locs s = [] then
    if s ∈ ts ∧ w.g.edges.any (·.2 == s) = true then .error .memoryError
    else
      match remove w.unreach s with
      | .error x => .error x
      | .ok u => .ok ⟨w.g.multiple s ts, w.c, u⟩
  else .ok ⟨w.g.multiple s ts, w.c, w.unreach⟩

/-- `create_block` with a predecessor; the new block is the current one. -/
def Work.newFrom (w : Work) (pred : Nat) : Except PyErr Work := ((w.new).at w.g.count).linkOrMerge pred w.g.count

/-- `cfg_loc`: a block and a position in it -/
abbrev Loc := Nat × Nat

/-- `self.locs[pos].node` -/
def Graph.node (g : Graph) (l : Loc) : Except PyErr Nat :=
  match (g.locs l.1)[l.2]? with
  | none => .error .indexError
  | some n => .ok n

/-- `assert self.locs[pos].node == node` -/
def Graph.expect (g : Graph) (l : Loc) (node : Nat) : Except PyErr Unit :=
  match g.node l with
  | .error x => .error x
  | .ok n => if n = node then .ok () else .error .assertionError

/-- `add_CF_statement` of `if` and `for`, `edulint/linting/analyses/cfg/graph.py:218-226`: the node comes last. -/
def Graph.cfLast (g : Graph) (b node : Nat) : Except PyErr Loc :=
  match g.expect (b, (g.locs b).length - 1) node with
  | .error x => .error x
  | .ok () => .ok (b, (g.locs b).length - 1)

/-- `add_CF_statement` of `while`, `edulint/linting/analyses/cfg/graph.py:221-223`: the node comes first. -/
def Graph.cfFirst (g : Graph) (b node : Nat) : Except PyErr Loc :=
  match g.expect (b, 0) node with
  | .error x => .error x
  | .ok () => .ok (b, 0)

/-- `add_CF_statement` of `try`, `edulint/linting/analyses/cfg/graph.py:227-230`, called for the block of the first statement
in it, whose `cfg_loc` is `first` (`edulint/linting/analyses/cfg/visitor.py:402`). -/
def Graph.cfTry (g : Graph) (first : Loc) : Except PyErr Loc :=
  match g.node first with
  | .error x => .error x
  | .ok n => g.cfFirst first.1 n

/-- `add_CF_statement` of a clause, `edulint/linting/analyses/cfg/graph.py:231-235` and
`edulint/linting/analyses/cfg/visitor.py:374-379`; `h` is the block of the clause. -/
def Graph.cfClause (g : Graph) (h : Nat) (name : Option Nat) (first : Loc) : Except PyErr Unit :=
  match g.node first with
  | .error x => .error x
  | .ok n =>
    match g.node ((if g.locs h = [] then first.1 else h), 0) with
    | .error x => .error x
    | .ok m => if name = some m ∨ m = n then .ok () else .error .assertionError

/-- After both branches of an `if`, `edulint/linting/analyses/cfg/visitor.py:200-208` -/
def joinE (w : Work) (end1 end2 : Nat) : Except PyErr Work :=
  ((w.new.at w.g.count).linkOrMerge end1 w.g.count).bind fun w1 => w1.linkOrMerge end2 w.g.count

/-- As `loopHead` -/
def loopHeadE (header : Nat) (w : Work) : Except PyErr Work :=
  (((w.new.at w.g.count).add header).linkOrMerge w.c w.g.count).bind fun w1 => w1.new.newFrom w.g.count

/-- As `loopBack` -/
def loopBackE (header : Nat) (w : Work) : Except PyErr Work :=
  (w.linkOrMerge w.c header).bind fun w1 => w1.newFrom header

/-- As `tryBlock` -/
def tryBlockE (w : Work) : Except PyErr Work := if w.g.locs w.c = [] then .ok w else w.newFrom w.c

/-- As `tryEnd` -/
def tryEndE (k : Nat) (w : Work) (after : List Nat) : Except PyErr Work :=
  (w.linkOrMerge k w.c).bind fun w1 =>
  (w1.multiple w.c after).bind fun w2 => (w2.at (k + 2)).linkOrMerge (k + 1) (k + 2)

/-- `statement.body[0]` -/
def firstLoc : Option Loc → Except PyErr Loc
  | none => .error .indexError
  | some l => .ok l

mutual
/-- `node.accept(self)`, and `cfg_loc` of the statement -/
def visitE : Stmt → List Exits → Work → Except PyErr (Work × Loc)
  | .simple l, _, w => .ok (w.add l, (w.c, (w.g.locs w.c).length))
  | .jump j l, bd, w =>
    .ok (⟨(jumped bd j l w.g w.c).new, (jumped bd j l w.g w.c).count, (jumped bd j l w.g w.c).count :: w.unreach⟩,
      (w.c, (w.g.locs w.c).length))
  | .cond t body orelse, bd, w =>
    ((w.add t).g.cfLast w.c t).bind fun loc =>
    ((w.add t).newFrom w.c).bind fun w1 =>
    (visitBodyE body bd w1).bind fun r2 =>
    match orelse with
    | .nil => (joinE r2.1 r2.1.c w.c).bind fun w3 => .ok (w3, loc)
    | .cons s rest =>
      (r2.1.newFrom w.c).bind fun w3 =>
      (visitE s bd w3).bind fun r4 =>
      (visitBodyE rest bd r4.1).bind fun r5 =>
      (joinE r5.1 r2.1.c r5.1.c).bind fun w6 => .ok (w6, loc)
  | .loop t body orelse, bd, w =>
    ((w.g.new.add w.g.count t).cfFirst w.g.count t).bind fun loc =>
    (loopHeadE t w).bind fun w1 =>
    (visitBodyE body (loopExits w.g :: bd) w1).bind fun r2 =>
    (loopBackE w.g.count r2.1).bind fun w3 =>
    (visitBodyE orelse bd w3).bind fun r4 =>
    ((r4.1.at (w.g.count + 1)).linkOrMerge r4.1.c (w.g.count + 1)).bind fun w5 => .ok (w5, loc)
  | .each i t body orelse, bd, w =>
    ((w.add i).g.cfLast w.c i).bind fun loc =>
    (loopHeadE t (w.add i)).bind fun w1 =>
    (visitBodyE body (loopExits w.g :: bd) w1).bind fun r2 =>
    (loopBackE w.g.count r2.1).bind fun w3 =>
    (visitBodyE orelse bd w3).bind fun r4 =>
    ((r4.1.at (w.g.count + 1)).linkOrMerge r4.1.c (w.g.count + 1)).bind fun w5 => .ok (w5, loc)
  | .enter i is body, bd, w =>
    (visitBodyE body bd { w with g := (w.g.add w.c i).adds w.c is }).bind fun r1 =>
    .ok (r1.1, (w.c, (w.g.locs w.c).length))
  | .try_ first rest handlers orelse _, bd, w0 =>
    (tryBlockE w0).bind fun w =>
    (visitHandlersE handlers w.g.count ([(.raise none, w.g.count + 2)] :: bd) w.new.new.new).bind fun r1 =>
    match orelse with
    | .nil =>
      (visitE first r1.2.2 (r1.1.at w.c)).bind fun r5 =>
      (visitBodyE rest r1.2.2 r5.1).bind fun r6 =>
      (r6.1.g.cfTry r5.2).bind fun loc =>
      (tryEndE w.g.count r6.1 (r1.2.1 ++ [w.g.count + 1])).bind fun w7 => .ok (w7, loc)
    | .cons s os =>
      (visitE s r1.2.2 (r1.1.new.at r1.1.g.count)).bind fun r2 =>
      (visitBodyE os r1.2.2 r2.1).bind fun r3 =>
      (r3.1.linkOrMerge r3.1.c (w.g.count + 1)).bind fun w4 =>
      (visitE first r1.2.2 (w4.at w.c)).bind fun r5 =>
      (visitBodyE rest r1.2.2 r5.1).bind fun r6 =>
      (r6.1.g.cfTry r5.2).bind fun loc =>
      (tryEndE w.g.count r6.1 (r1.2.1 ++ [r1.1.g.count])).bind fun w7 => .ok (w7, loc)

/-- `for child in body: child.accept(self)`, and `cfg_loc` of the first one -/
def visitBodyE : Body → List Exits → Work → Except PyErr (Work × Option Loc)
  | .nil, _, w => .ok (w, none)
  | .cons s rest, bd, w =>
    (visitE s bd w).bind fun r1 => (visitBodyE rest bd r1.1).bind fun r2 => .ok (r2.1, some r1.2)

/-- The clauses of a `try`. -/
def visitHandlersE : Handlers → Nat → List Exits → Work → Except PyErr (Work × List Nat × List Exits)
  | .nil, _, bd, w => .ok (w, [], bd)
  | .cons exceptions name body rest, k, bd, w =>
    (visitHandlersE rest k bd w).bind fun r1 =>
    (visitBodyE body (clauseExits exceptions r1.1.g.count ++ r1.2.2)
      ⟨addName name r1.1.g.new r1.1.g.count, r1.1.g.count, r1.1.g.count :: r1.1.unreach⟩).bind fun r2 =>
    (firstLoc r2.2).bind fun first =>
    (r2.1.g.cfClause r1.1.g.count name first).bind fun _ =>
    (r2.1.linkOrMerge r2.1.c (k + 1)).bind fun w3 =>
    .ok (w3, r1.2.1 ++ [r1.1.g.count], clauseExits exceptions r1.1.g.count ++ r1.2.2)
end

/-- `visit_module`, `edulint/linting/analyses/cfg/visitor.py:73-83` -/
def moduleGraphE (p : Body) : Except PyErr Graph :=
  (visitBodyE p [] ⟨Graph.init, 0, [1, 0]⟩).bind fun r =>
  (r.1.linkOrMerge r.1.c Graph.end_).bind fun w => .ok w.g

/-- `visit_functiondef`, `edulint/linting/analyses/cfg/visitor.py:135-158` -/
def functionGraphE (args : Nat) (p : Body) : Except PyErr Graph :=
  (((⟨Graph.init, 0, [1, 0]⟩ : Work).add args).newFrom 0).bind fun w0 =>
  (visitBodyE p [[(.ret, Graph.end_), (.raise none, Graph.end_)]] w0).bind fun r =>
  (r.1.linkOrMerge r.1.c Graph.end_).bind fun w => .ok w.g

/-- `visit_classdef`, `edulint/linting/analyses/cfg/visitor.py:95-108` -/
def classGraphE (p : Body) : Except PyErr Graph :=
  (visitBodyE p [] ⟨Graph.init.new, 2, [2, 1, 0]⟩).bind fun r =>
  (r.1.linkOrMerge r.1.c Graph.end_).bind fun w => .ok w.g

end Verif.Flow

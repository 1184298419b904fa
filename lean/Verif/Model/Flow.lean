import Verif.Base.Str

/-!
Construction of control flow graphs, `edulint/linting/analyses/cfg/visitor.py` and the graph operations it uses,
`edulint/linting/analyses/cfg/graph.py:25-101`.

What a block lists (`CFGBlock.locs`) are locations: simple statements, tests of `if` and `while`, the iterated expressions
and the targets of `for`, the items of `with`, the names given to caught exceptions, and jumps. Locations are numbered.
An `if` or a loop itself is not in a block, so `add_CF_statement` is not modelled, nor are labels of edges, which are only
drawn, nor `unreachable_blocks`, which nothing reads.

`match` statements, asynchronous loops, definitions of functions and of classes are locations as a whole
(`edulint/linting/analyses/cfg/visitor.py:58-61, 89-90, 129-130`); functions and classes have graphs of their own. The option
`functions` is not used by edulint (`edulint/linting/analyses/patcher.py:18`), nor is `separate-condition-blocks`.
-/

namespace Verif.Flow

/-- `break`, `continue`, `return` and `raise`; the first name in a `raise`, if there is one
(`_get_raise_exc`, `edulint/linting/analyses/cfg/visitor.py:445-458`). -/
inductive Jump where
  | brk | cont | ret
  | raise (name : Option Str)
deriving DecidableEq

mutual
/-- Statements. -/
inductive Stmt where
  /-- anything that is added as a whole -/
  | simple (loc : Nat)
  | jump (j : Jump) (loc : Nat)
  | cond (test : Nat) (body orelse : Body)
  | loop (test : Nat) (body orelse : Body)
  | each (iter target : Nat) (body orelse : Body)
  /-- context expressions and the names given to them -/
  | enter (item : Nat) (items : List Nat) (body : Body)
  /-- `first` and `rest` are the body of `try`. -/
  | try_ (first : Stmt) (rest : Body) (handlers : Handlers) (orelse finally_ : Body)

/-- Lists of statements. -/
inductive Body where
  | nil
  | cons (s : Stmt) (rest : Body)

/-- The clauses of a `try`: names of exceptions in the clause, the name given to the exception, and the body. -/
inductive Handlers where
  | nil
  | cons (exceptions : List Str) (name : Option Nat) (body : Body) (rest : Handlers)
end

/-! ### Graphs -/

/-- `ControlFlowGraph`. Blocks are numbered as they are created; an edge is in `successors` of its source and in
`predecessors` of its target. The order of edges is the order they are created in. The block where the program ends has
the number 1. -/
structure Graph where
  count : Nat
  locs : Nat → List Nat
  edges : List (Nat × Nat)
  start : Nat

/-- `ControlFlowGraph.__init__`, `edulint/linting/analyses/cfg/graph.py:25-30` -/
def Graph.init : Graph := ⟨2, fun _ => [], [], 0⟩

/-- `self.end` -/
def Graph.end_ : Nat := 1

/-- `create_block` without a predecessor, `edulint/linting/analyses/cfg/graph.py:41-44`; the new block has the number
`count`. -/
def Graph.new (g : Graph) : Graph := { g with count := g.count + 1 }

/-- `add_statement`, `edulint/linting/analyses/cfg/graph.py:208-212`. `is_jump` always is `False`: it asks for the class of the
`CFGLoc`, `edulint/linting/analyses/cfg/graph.py:247-255`. -/
def Graph.add (g : Graph) (b l : Nat) : Graph :=
  { g with locs := fun b' => if b' = b then g.locs b ++ [l] else g.locs b' }

/-- Several statements in turn -/
def Graph.adds (g : Graph) (b : Nat) : List Nat → Graph
  | [] => g
  | l :: ls => (g.add b l).adds b ls

/-- `link`, `edulint/linting/analyses/cfg/graph.py:49-52` -/
def Graph.link (g : Graph) (s t : Nat) : Graph := { g with edges := g.edges ++ [(s, t)] }

/-- `edge.target = target`, `edulint/linting/analyses/cfg/graph.py:72-74` -/
def retarget (s t : Nat) (e : Nat × Nat) : Nat × Nat := if e.2 = s then (e.1, t) else e

/-- `link_or_merge`, `edulint/linting/analyses/cfg/graph.py:54-79` -/
def Graph.linkOrMerge (g : Graph) (s t : Nat) : Graph :=
  if g.locs s = [] then
    if s = g.start then { g with start := t } else { g with edges := g.edges.map (retarget s t) }
  else g.link s t

/-- `create_block` with a predecessor, `edulint/linting/analyses/cfg/graph.py:41-47` -/
def Graph.newFrom (g : Graph) (pred : Nat) : Graph := g.new.linkOrMerge pred g.count

/-- Links to each of the targets -/
def Graph.links (g : Graph) (s : Nat) : List Nat → Graph
  | [] => g
  | t :: ts => (g.link s t).links s ts

/-- `multiple_link_or_merge`, `edulint/linting/analyses/cfg/graph.py:81-101` -/
def Graph.multiple (g : Graph) (s : Nat) (ts : List Nat) : Graph :=
  if g.locs s = [] then
    { g with edges := g.edges.filter (fun e => e.2 != s) ++
        (g.edges.filter (fun e => e.2 == s)).flatMap (fun e => ts.map (fun t => (e.1, t))) }
  else g.links s ts

/-! ### Building -/

/-- An entry of `_control_boundaries`: where jumps lead. -/
abbrev Exits := List (Jump × Nat)

/-- `exits[…]` -/
def Exits.get (ex : Exits) (j : Jump) : Option Nat := (ex.find? (fun e => e.1 == j)).map (·.2)

/-- `type(node).__name__` -/
def Jump.kind : Jump → Jump
  | .raise _ => .raise none
  | j => j

/-- Where a jump leads, `edulint/linting/analyses/cfg/visitor.py:317-327`; boundaries are listed from the top of the stack. -/
def jumpTo (j : Jump) : List Exits → Option Nat
  | [] => none
  | ex :: rest =>
    match ex.get j with
    | some t => some t
    | none =>
      match ex.get j.kind with
      | some t => some t
      | none => jumpTo j rest

/-- The graph after `_visit_jump` added its edge, `edulint/linting/analyses/cfg/visitor.py:315-327`. -/
def jumped (bd : List Exits) (j : Jump) (l : Nat) (g : Graph) (c : Nat) : Graph :=
  match jumpTo j bd with
  | some t => (g.add c l).link c t
  | none => g.add c l

/-- The boundaries added for a clause of a `try`, `edulint/linting/analyses/cfg/visitor.py:357-366`, in front of the others -/
def clauseExits (exceptions : List Str) (h : Nat) : List Exits :=
  match exceptions with
  | [] => [[(.raise none, h)]]
  | _ => (exceptions.map (fun n => [(.raise (some n), h)])).reverse

/-- Whether there are no statements. -/
def Body.isNil : Body → Bool
  | .nil => true
  | .cons _ _ => false

/-- What is known while statements are visited: the graph and the current block -/
abbrev State := Graph × Nat

/-- The name that a clause gives to the exception, `edulint/linting/analyses/cfg/visitor.py:368-369` -/
def addName (name : Option Nat) (g : Graph) (h : Nat) : Graph :=
  match name with
  | some l => g.add h l
  | none => g

/-- The block that a `try` begins with, `edulint/linting/analyses/cfg/visitor.py:336-338` -/
def tryBlock (st : State) : State := if st.1.locs st.2 = [] then st else (st.1.newFrom st.2, st.1.count)

/-- The end of `visit_while` and `visit_for`: the last block of the body leads back to the header, another block is made for
what follows the loop, `edulint/linting/analyses/cfg/visitor.py:238-246, 280-288`. -/
def loopBack (header : Nat) (st : State) : State :=
  ((st.1.linkOrMerge st.2 header).newFrom header, (st.1.linkOrMerge st.2 header).count)

/-- The beginning of `visit_while` and the middle of `visit_for` until the body is visited,
`edulint/linting/analyses/cfg/visitor.py:215-235, 264-277`: the block of the header has the number `count`, the block after
the loop the next one, and the body the one after that. -/
def loopHead (header : Nat) (st : State) : State :=
  let g := (st.1.new.add st.1.count header).linkOrMerge st.2 st.1.count
  (g.new.newFrom st.1.count, st.1.count + 2)

/-- Where `break` and `continue` lead in a loop. -/
def loopExits (g : Graph) : Exits := [(.brk, g.count + 1), (.cont, g.count)]

/-- After both branches of an `if`, `edulint/linting/analyses/cfg/visitor.py:200-208` -/
def join (g : Graph) (end1 end2 : Nat) : State :=
  ((g.new.linkOrMerge end1 g.count).linkOrMerge end2 g.count, g.count)

/-- Three blocks more, for a `try`, `edulint/linting/analyses/cfg/visitor.py:342-345` -/
def Graph.new3 (g : Graph) : Graph := g.new.new.new

/-- The end of `visit_try`, `edulint/linting/analyses/cfg/visitor.py:408-411`; `k` is the number of the first of the three blocks. -/
def tryEnd (k : Nat) (st : State) (after : List Nat) : State :=
  (((st.1.linkOrMerge k st.2).multiple st.2 after).linkOrMerge (k + 1) (k + 2), k + 2)

mutual
/-- `node.accept(self)`; `bd` is `_control_boundaries`. -/
def visit : Stmt → List Exits → State → State
  -- `visit_generic`, lines 58-61
  | .simple l, _, (g, c) => (g.add c l, c)
  -- `_visit_jump`, lines 308-329
  | .jump j l, bd, (g, c) => ((jumped bd j l g c).new, (jumped bd j l g c).count)
  -- `visit_if`, lines 164-208
  | .cond t body orelse, bd, (g, c) =>
    let st1 := visitBody body bd ((g.add c t).newFrom c, g.count)
    match orelse with
    | .nil => join st1.1 st1.2 c
    | .cons s rest =>
      let st2 := visitBody rest bd (visit s bd (st1.1.newFrom c, st1.1.count))
      join st2.1 st1.2 st2.2
  -- `visit_while`, lines 210-252
  | .loop t body orelse, bd, (g, c) =>
    let st1 := visitBody body (loopExits g :: bd) (loopHead t (g, c))
    let st2 := visitBody orelse bd (loopBack g.count st1)
    (st2.1.linkOrMerge st2.2 (g.count + 1), g.count + 1)
  -- `visit_for`, lines 254-294
  | .each i t body orelse, bd, (g, c) =>
    let st1 := visitBody body (loopExits g :: bd) (loopHead t (g.add c i, c))
    let st2 := visitBody orelse bd (loopBack g.count st1)
    (st2.1.linkOrMerge st2.2 (g.count + 1), g.count + 1)
  -- `visit_with`, lines 413-425
  | .enter i is body, bd, (g, c) => visitBody body bd ((g.add c i).adds c is, c)
  -- `visit_try`, lines 331-411
  | .try_ first rest handlers orelse _, bd, st =>
    let (g, c) := tryBlock st
    let k := g.count
    let (g1, hs, bd1) := visitHandlers handlers k ([(.raise none, k + 2)] :: bd) g.new3
    match orelse with
    | .nil => tryEnd k (visitBody rest bd1 (visit first bd1 (g1, c))) (hs ++ [k + 1])
    | .cons s os =>
      let st2 := visitBody os bd1 (visit s bd1 (g1.new, g1.count))
      let g2 := st2.1.linkOrMerge st2.2 (k + 1)
      tryEnd k (visitBody rest bd1 (visit first bd1 (g2, c))) (hs ++ [g1.count])

/-- `for child in body: child.accept(self)` -/
def visitBody : Body → List Exits → State → State
  | .nil, _, st => st
  | .cons s rest, bd, st => visitBody rest bd (visit s bd st)

/-- The clauses of a `try`, from the last to the first, `edulint/linting/analyses/cfg/visitor.py:350-382`; `k` is the number of the
first of the three blocks. The graph, the first blocks of the clauses, and the boundaries with those of the clauses. -/
def visitHandlers : Handlers → Nat → List Exits → Graph → Graph × List Nat × List Exits
  | .nil, _, bd, g => (g, [], bd)
  | .cons exceptions name body rest, k, bd, g =>
    let (g1, hs, bd1) := visitHandlers rest k bd g
    let bd2 := clauseExits exceptions g1.count ++ bd1
    let st := visitBody body bd2 (addName name g1.new g1.count, g1.count)
    (st.1.linkOrMerge st.2 (k + 1), hs ++ [g1.count], bd2)
end

/-- `visit_module`, `edulint/linting/analyses/cfg/visitor.py:73-83` -/
def moduleGraph (p : Body) : Graph :=
  let st := visitBody p [] (Graph.init, 0)
  st.1.linkOrMerge st.2 Graph.end_

/-- `visit_functiondef`, `edulint/linting/analyses/cfg/visitor.py:135-158`; `args` is the location of the arguments. -/
def functionGraph (args : Nat) (p : Body) : Graph :=
  let g := Graph.init.add 0 args
  let st := visitBody p [[(.ret, Graph.end_), (.raise none, Graph.end_)]] (g.newFrom 0, g.count)
  st.1.linkOrMerge st.2 Graph.end_

/-- `visit_classdef`, `edulint/linting/analyses/cfg/visitor.py:95-108`, outside of functions and of `try` -/
def classGraph (p : Body) : Graph :=
  let st := visitBody p [] (Graph.init.new, Graph.init.count)
  st.1.linkOrMerge st.2 Graph.end_

end Verif.Flow

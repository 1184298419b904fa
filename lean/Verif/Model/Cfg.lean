import Verif.Base.Str

/-!
Traversals of control flow graphs, `edulint/linting/analyses/cfg/graph.py`.

A block is its `id`; `succ b` are the targets of `b.successors` in order. Blocks of one graph have
different ids (`edulint/linting/analyses/cfg/graph.py:41-44`), so that comparing blocks and comparing
their ids is the same. Generators are modelled by the lists of what they yield.
-/

namespace Verif.Cfg

variable (succ : Nat → List Nat)

/-! ### `get_blocks` -/

/-- The state of the loop of `get_blocks`: its stack (the top first), the visited blocks, and what has been
yielded. -/
structure Dfs where
  stack : List (Nat × Nat)
  visited : List Nat
  out : List Nat
  deriving DecidableEq

/-- The state before the loop, `edulint/linting/analyses/cfg/graph.py:105-106`. -/
def Dfs.init (start : Nat) : Dfs := ⟨[(0, start)], [start], []⟩

/-- One iteration, `edulint/linting/analyses/cfg/graph.py:108-122`. Nothing happens if the stack is empty. -/
def Dfs.step (s : Dfs) : Dfs :=
  match s.stack with
  | [] => s
  | (i, b) :: rest =>
    let out := if i = 0 then s.out ++ [b] else s.out
    match (succ b)[i]? with
    | none => ⟨rest, s.visited, out⟩
    | some next =>
      if next ∈ s.visited then ⟨(i + 1, b) :: rest, s.visited, out⟩
      else ⟨(0, next) :: (i + 1, b) :: rest, s.visited ++ [next], out⟩

/-- The state after some number of iterations. -/
def Dfs.run : Nat → Dfs → Dfs
  | 0, s => s
  | n + 1, s => Dfs.run n (s.step succ)

/-- `get_blocks` yields `blocks`: after some number of iterations the stack is empty.
`edulint/linting/analyses/cfg/graph.py:103-122`. -/
def Yields (start : Nat) (blocks : List Nat) : Prop :=
  ∃ n, ((Dfs.init start).run succ n).stack = [] ∧ ((Dfs.init start).run succ n).out = blocks

/-! ### Recursive traversals -/

/-- Calls `f` for each of the blocks in turn, passing the visited blocks on. -/
def visitAll {α : Type} (f : Nat → List Nat → Except PyErr (List α × List Nat)) :
    List Nat → List Nat → Except PyErr (List α × List Nat)
  | [], visited => .ok ([], visited)
  | b :: bs, visited =>
    match f b visited with
    | .error x => .error x
    | .ok (out, visited) =>
      match visitAll f bs visited with
      | .error x => .error x
      | .ok (out', visited) => .ok (out ++ out', visited)

/-- `_get_blocks_postorder`, `edulint/linting/analyses/cfg/graph.py:129-137`; the first argument is how deep
Python lets it recurse. -/
def postorderFrom : Nat → Nat → List Nat → Except PyErr (List Nat × List Nat)
  | 0, _, _ => .error .recursionError
  | limit + 1, b, visited =>
    if b ∈ visited then .ok ([], visited)
    else
      match visitAll (postorderFrom limit) (succ b) (b :: visited) with
      | .error x => .error x
      | .ok (out, visited) => .ok (out ++ [b], visited)

/-- `get_blocks_postorder`, `edulint/linting/analyses/cfg/graph.py:124-127`. -/
def postorder (limit start : Nat) : Except PyErr (List Nat) :=
  match postorderFrom succ limit start [] with
  | .error x => .error x
  | .ok (out, _) => .ok out

/-- Follows the edges of `b` from index `i` on: `edulint/linting/analyses/cfg/graph.py:149-151`. An edge is its
source and its index among the edges of the source. -/
def visitEdges (f : Nat → List Nat → Except PyErr (List (Nat × Nat) × List Nat)) (b : Nat) :
    Nat → List Nat → List Nat → Except PyErr (List (Nat × Nat) × List Nat)
  | _, [], visited => .ok ([], visited)
  | i, t :: ts, visited =>
    match f t visited with
    | .error x => .error x
    | .ok (out, visited) =>
      match visitEdges f b (i + 1) ts visited with
      | .error x => .error x
      | .ok (out', visited) => .ok ((b, i) :: out ++ out', visited)

/-- `_get_edges`, `edulint/linting/analyses/cfg/graph.py:143-151`. -/
def edgesFrom : Nat → Nat → List Nat → Except PyErr (List (Nat × Nat) × List Nat)
  | 0, _, _ => .error .recursionError
  | limit + 1, b, visited =>
    if b ∈ visited then .ok ([], visited)
    else visitEdges (edgesFrom limit) b 0 (succ b) (b :: visited)

/-- `get_edges`, `edulint/linting/analyses/cfg/graph.py:139-141`. -/
def edges (limit start : Nat) : Except PyErr (List (Nat × Nat)) :=
  match edgesFrom succ limit start [] with
  | .error x => .error x
  | .ok (out, _) => .ok out

/-! ### `update_block_reachability` -/

/-- What `update_block_reachability` changes: the blocks with `reachable` set, and `unreachable_blocks`. -/
structure Flags where
  reachable : List Nat
  unreachable : List Nat

/-- `update_block_reachability` where `get_blocks` yields `blocks`,
`edulint/linting/analyses/cfg/graph.py:153-157`. -/
def Flags.update (f : Flags) (blocks : List Nat) : Flags :=
  blocks.foldl (fun f b => ⟨b :: f.reachable, if b ∈ f.unreachable then f.unreachable.filter (· ≠ b) else f.unreachable⟩) f

end Verif.Cfg

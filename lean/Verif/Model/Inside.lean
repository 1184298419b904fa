import Verif.Model.TraverseFlow
import Verif.Model.FlowRun

/-!
The locations in statements, `edulint/linting/analyses/cfg/utils.py:426-588`: `syntactic_children_locs`,
`get_locs_in_and_after_from` and what they use. `include_stmt_locs` is false.

The statements are those of a `Body`, in a program of which `g` is the graph. What a node has as `cfg_loc` is given by the location
that the block has at that position: the test of an `if` or a `while`, what a `for` iterates over, the first item of a `with`, and
what the first statement of a `try` begins with (`edulint/linting/analyses/cfg/graph.py:208-245`).
-/

namespace Verif.Inside

open Verif.Flow (Stmt Body Handlers)
open Verif.Traverse (Loc Args ofFlow locAt expand begin yielding init)

/-- The location that a statement begins with: `unwrap(node.cfg_loc)`, `edulint/linting/analyses/cfg/utils.py:10-12`. -/
def first : Stmt → Nat
  | .simple l => l
  | .jump _ l => l
  | .cond t _ _ => t
  | .loop t _ _ => t
  | .each i _ _ _ => i
  | .enter i _ _ => i
  | .try_ s _ _ _ _ => first s

/-- The statements, without those in them. -/
def stmts : Body → List Stmt
  | .nil => []
  | .cons s rest => s :: stmts rest

/-- The block and the position of a location. -/
def place (g : Flow.Graph) (l : Nat) : Option Loc :=
  (List.range g.count).findSome? fun b => if l ∈ g.locs b then some (b, (g.locs b).idxOf l) else none

/-- `[n.cfg_loc for n in syntactic]`, `edulint/linting/analyses/cfg/utils.py:477`: the statements with the places of their
locations. Nothing if one of them has none, which raises an `AttributeError`. -/
def placed (g : Flow.Graph) : List Stmt → Option (List (Stmt × Loc))
  | [] => some []
  | s :: ss =>
    match place g (first s), placed g ss with
    | some x, some ps => some ((s, x) :: ps)
    | _, _ => none

/-- `stop_on`, `edulint/linting/analyses/cfg/utils.py:541-545`: the last location of the part is none in the statements. -/
def stopOn (g : Flow.Graph) (b : Body) (block hi : Nat) : Bool :=
  match locAt g (block, hi - 1) with
  | some l => !b.locations.contains l
  | none => true

/-- Inserts by the position. -/
def insert (a : Stmt × Loc) : List (Stmt × Loc) → List (Stmt × Loc)
  | [] => [a]
  | c :: cs => if a.2.2 ≤ c.2.2 then a :: c :: cs else c :: insert a cs

/-- `sorted(locs, key=lambda loc: loc.pos)`, `edulint/linting/analyses/cfg/utils.py:552`; sorting is stable. -/
def sorted : List (Stmt × Loc) → List (Stmt × Loc)
  | [] => []
  | a :: as => insert a (sorted as)

/-- The location at the position is in the statement. -/
def isIn (g : Flow.Graph) (s : Stmt) (block i : Nat) : Bool :=
  match locAt g (block, i) with
  | some l => s.locations.contains l
  | none => false

/-- The positions of the locations of the statement in the block it begins in, until one that is not in it,
`edulint/linting/analyses/cfg/utils.py:553-564`. -/
def covered (g : Flow.Graph) (s : Stmt) (x : Loc) : List Nat :=
  match s with
  | .simple _ => [x.2]
  | .jump _ _ => [x.2]
  | s => (List.range' x.2 ((g.locs x.1).length - x.2)).takeWhile (isIn g s x.1)

/-- `block_locs[block]`, `edulint/linting/analyses/cfg/utils.py:551-564` -/
def blockLocs (g : Flow.Graph) (ps : List (Stmt × Loc)) (block : Nat) : List Nat :=
  ((sorted ps).filter fun a => a.2.1 == block).flatMap fun a => covered g a.1 a.2

/-- The rest of `_get_conseq_partition` from within a sequence of positions. -/
def conseqsFrom (lo last : Nat) : List Nat → List (Nat × Nat)
  | [] => [(lo, last + 1)]
  | p :: ps => if last + 1 = p then conseqsFrom lo p ps else (lo, last + 1) :: conseqsFrom p p ps

/-- `_get_conseq_partition`, `edulint/linting/analyses/cfg/utils.py:517-533`: of each sequence of positions, the first one and the
one after the last. -/
def conseqs : List Nat → List (Nat × Nat)
  | [] => []
  | p :: ps => conseqsFrom p p ps

/-- What is yielded: whether it is in the statements, the block, the first position and the one after the last. -/
abbrev Part := Bool × Nat × Nat × Nat

/-- `edulint/linting/analyses/cfg/utils.py:581-588` -/
def between (block len : Nat) : List (Nat × Nat) → List Part
  | [] => []
  | [c] => (true, block, c.1, c.2) :: (if c.2 < len then [(false, block, c.2, len)] else [])
  | c :: d :: cs => (true, block, c.1, c.2) :: (false, block, c.2, d.1) :: between block len (d :: cs)

/-- What is yielded for a part of a block, `edulint/linting/analyses/cfg/utils.py:572-588`. -/
def partsOf (g : Flow.Graph) (b : Body) (ps : List (Stmt × Loc)) (t : Nat × Nat × Nat) : List Part :=
  let len := (g.locs t.1).length
  let whole := [(!stopOn g b t.1 t.2.2, t.1, t.2.1, t.2.2)]
  match conseqs (blockLocs g ps t.1) with
  | [] => whole
  | [c] => if len ≤ c.2 then whole else between t.1 len [c]
  | cs => between t.1 len cs

/-! ### The traversal -/

/-- The arguments besides `stop_on_block`, `edulint/linting/analyses/cfg/utils.py:566-571`. -/
def args : Args := ⟨.successors, fun _ => false, true, true⟩

/-- One iteration of the loop over the stack, `edulint/linting/analyses/cfg/utils.py:92-135`, with `stop_on_block` and without
`stop_on_loc`. -/
def advance (G : Traverse.Graph) (stop : Nat → Nat → Nat → Bool) (s : Traverse.State) (f : Traverse.Frame) :
    Except PyErr Traverse.State :=
  if f.i = 0 then
    let s := { s with out := s.out ++ yielding (true, f.lo, f.hi) f.block }
    if stop f.block f.lo f.hi then .ok s else expand G args s f.block f.lo f.hi 0
  else expand G args s f.block f.lo f.hi f.i

/-- One step of `essor_blocks_from_locs`, `edulint/linting/analyses/cfg/utils.py:42-168`, with `stop_on_block` and without
`stop_on_loc`. -/
def step (G : Traverse.Graph) (stop : Nat → Nat → Nat → Bool) (s : Traverse.State) : Except PyErr Traverse.State :=
  match s.stack with
  | f :: rest => advance G stop { s with stack := rest } f
  | [] =>
    match s.todo with
    | [] => .ok s
    | l :: todo => begin G args { s with todo := todo } l

def run (G : Traverse.Graph) (stop : Nat → Nat → Nat → Bool) : Nat → Traverse.State → Except PyErr Traverse.State
  | 0, s => .ok s
  | n + 1, s =>
    match step G stop s with
    | .error x => .error x
    | .ok s => run G stop n s

/-- `successor_blocks_from_locs` with `stop_on_block`, `edulint/linting/analyses/cfg/utils.py:566-571`, yields `out`. -/
def Blocks (G : Traverse.Graph) (stop : Nat → Nat → Nat → Bool) (starts : List Loc) (out : List (Nat × Nat × Nat)) : Prop :=
  ∃ n s, run G stop n (init starts) = .ok s ∧ s.stack = [] ∧ s.todo = [] ∧ s.out = out

/-- `get_locs_in_and_after_from`, `edulint/linting/analyses/cfg/utils.py:536-588`, from one location. -/
def InAndAfter (g : Flow.Graph) (start : Loc) (b : Body) (parts : List Part) : Prop :=
  ∃ ps out, placed g (stmts b) = some ps ∧ Blocks (ofFlow g) (fun block _ hi => stopOn g b block hi) [start] out ∧
    parts = out.flatMap (partsOf g b ps)

/-- `syntactic_children_locs_from`, `edulint/linting/analyses/cfg/utils.py:454-504`, without the locations in functions and
classes. -/
def Children (g : Flow.Graph) (start : Loc) (b : Body) (locs : List Loc) : Prop :=
  ∃ parts, InAndAfter g start b parts ∧
    locs = (parts.filter (·.1)).flatMap fun p => (List.range' p.2.2.1 (p.2.2.2 - p.2.2.1)).map fun i => (p.2.1, i)

/-- `syntactic_children_locs`, `edulint/linting/analyses/cfg/utils.py:426-451`, of statements. -/
def Inside (g : Flow.Graph) (b : Body) (locs : List Loc) : Prop :=
  ∃ s ss x, stmts b = s :: ss ∧ place g (first s) = some x ∧ Children g x b locs

end Verif.Inside

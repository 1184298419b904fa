import Verif.Model.Flow

/-!
What is asked of control flow graphs: which blocks can be reached (`edulint/linting/analyses/cfg/graph.py:103-122, 153-157`),
and the checker for loops with one iteration (`edulint/linting/checkers/python_ta_checkers.py:80-105`).
-/

namespace Verif.Flow

/-- `[edge.target for edge in block.successors]` -/
def Graph.succs (g : Graph) (b : Nat) : List Nat := (g.edges.filter (fun e => e.1 == b)).map (·.2)

/-- The loop of `get_blocks`, `edulint/linting/analyses/cfg/graph.py:108-122`: what it yields in the given number of steps. -/
def Graph.walkBlocks (g : Graph) : Nat → List (Nat × Nat) → List Nat → List Nat
  | 0, _, _ => []
  | _ + 1, [], _ => []
  | f + 1, (i, b) :: stack, visited =>
    (if i = 0 then [b] else []) ++
      match (g.succs b)[i]? with
      | none => g.walkBlocks f stack visited
      | some n =>
        if n ∈ visited then g.walkBlocks f ((i + 1, b) :: stack) visited
        else g.walkBlocks f ((0, n) :: (i + 1, b) :: stack) (n :: visited)

/-- No more steps than this are made. -/
def Graph.steps (g : Graph) : Nat := ((List.range g.count).map (fun b => (g.succs b).length + 1)).sum

/-- `get_blocks`, `edulint/linting/analyses/cfg/graph.py:103-122`. Those are the blocks with `reachable`,
`edulint/linting/analyses/cfg/graph.py:153-157`. -/
def Graph.blocks (g : Graph) : List Nat := g.walkBlocks (g.steps + 1) [(0, g.start)] [g.start]

/-- `cfg_loc.block`: the block that the location was added to -/
def Graph.blockOf (g : Graph) (l : Nat) : Option Nat := (List.range g.count).find? (fun b => l ∈ g.locs b)

/-- What the checker knows about a loop: where it starts, which locations are in it (`parent_of`), and what it iterates
over, for `for`. -/
structure Loop where
  start : Nat
  inside : List Nat
  iter : Option Nat

/-- `for pred in preds`, `edulint/linting/checkers/python_ta_checkers.py:99-105` -/
def onlyOnce (g : Graph) (ℓ : Loop) : List (Nat × Nat) → Except PyErr Bool
  | [] => .ok true
  | (p, _) :: preds =>
    match g.locs p with
    | [] => .error .indexError
    | stmt :: _ =>
      if stmt ∈ ℓ.inside ∧ p ∈ g.blocks then
        if ℓ.iter = some stmt then onlyOnce g ℓ preds else .ok false
      else onlyOnce g ℓ preds

/-- `_check_one_iteration`, `edulint/linting/checkers/python_ta_checkers.py:80-105` -/
def oneIteration (g : Graph) (ℓ : Loop) : Except PyErr Bool :=
  match g.blockOf ℓ.start with
  | none => .ok false
  | some b =>
    match g.edges.filter (fun e => e.2 == b) with
    | [] => .ok false
    | preds => onlyOnce g ℓ preds

end Verif.Flow

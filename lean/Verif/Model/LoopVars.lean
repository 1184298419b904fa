import Verif.Model.UseFor
import Verif.Model.ConstValue

/-!
Structures that are modified while they are iterated over, and control variables that are changed,
`edulint/linting/checkers/unsuited_loop.py:332-395`.
-/

namespace Verif.LoopVars

open Verif.Flow (Stmt Body Handlers)
open Verif.Inside (Inside)
open Verif.Cfg (Event EventType Item)
open Verif.Uses (usesOf)
open Verif.UseFor (eventsIn)
open Verif.Py (Expr rangeParams)

/-! ### The end of a block -/

/-- `isinstance(node, (nodes.Break, nodes.Return))` -/
def quits : Stmt → Bool
  | .jump .brk _ => true
  | .jump .ret _ => true
  | _ => false

/-- The same of the last of the statements. -/
def quitting : Body → Bool
  | .nil => false
  | .cons s .nil => quits s
  | .cons _ rest => quitting rest

mutual
/-- Whether the block that the statement with this location is in is left at its end; `last` says so for the block of the statement. -/
def endsStmt (l : Nat) (last : Bool) : Stmt → Option Bool
  | .simple k => if k = l then some last else none
  | .jump _ k => if k = l then some last else none
  | .cond t b e => if t = l then some last else (endsBody l (quitting b) b).or (endsBody l (quitting e) e)
  | .loop t b e => if t = l then some last else (endsBody l (quitting b) b).or (endsBody l (quitting e) e)
  | .each i t b e => if i = l ∨ t = l then some last else (endsBody l (quitting b) b).or (endsBody l (quitting e) e)
  | .enter i is b => if i = l ∨ l ∈ is then some last else endsBody l (quitting b) b
  | .try_ f r hs e fin =>
    (endsStmt l (quitting (.cons f r)) f).or ((endsBody l (quitting (.cons f r)) r).or
      ((endsIn l hs).or ((endsBody l (quitting e) e).or (endsBody l (quitting fin) fin))))
/-- The same for statements that are all in one block. -/
def endsBody (l : Nat) (last : Bool) : Body → Option Bool
  | .nil => none
  | .cons s rest => (endsStmt l last s).or (endsBody l last rest)
/-- The same for the clauses of a `try`; what follows a clause is another. -/
def endsIn (l : Nat) : Handlers → Option Bool
  | .nil => none
  | .cons _ name b rest => if name = some l then some false else (endsBody l (quitting b) b).or (endsIn l rest)
end

/-- `isinstance(self._get_last_block_line(event.node), (nodes.Break, nodes.Return))`,
`edulint/linting/checkers/unsuited_loop.py:332-344` and `366-368`, of an event at the location in the body of a loop -/
def ends (b : Body) (l : Nat) : Bool := (endsBody l (quitting b) b).getD false

/-! ### Structures -/

/-- The statement is not compound, so that its location has it as the node. -/
def whole : Stmt → List Nat
  | .simple l => [l]
  | .jump _ l => [l]
  | _ => []

/-- `get_cfg_loc(event.node).node.parent == node`, `edulint/linting/checkers/unsuited_loop.py:360` -/
def top (b : Body) (l : Nat) : Bool := ((Inside.stmts b).flatMap whole).contains l

/-- The loop over the events, `edulint/linting/checkers/unsuited_loop.py:357-372`; `direct` is `is_direct_modify`,
`edulint/linting/analyses/var_events.py:69-74`. -/
def modified (b : Body) (direct : Nat → Bool) : List (Nat × Event) → List (Nat × Event)
  | [] => []
  | (l, e) :: es =>
    if (e.type = .assign ∨ e.type = .reassign) ∧ top b l = true then []
    else if e.type = .modify ∧ direct e.node = true ∧ ends b l = false then (l, e) :: modified b direct es
    else modified b direct es

/-- `modifying-iterated-structure` is reported for these events, `edulint/linting/checkers/unsuited_loop.py:346-372`, for a loop with the
body `b` over the variable `v`, if it is over one. -/
def Modifying (g : Flow.Graph) (items : Nat → List Item) (direct : Nat → Bool) (v : Option Nat) (b : Body) (r : List (Nat × Event)) : Prop :=
  match v with
  | none => r = []
  | some v => ∃ locs, Inside g b locs ∧ r = modified b direct (eventsIn g items [v] locs)

/-! ### Control variables -/

/-- What is reported of an event. -/
inductive Message where
  | shadows | changing
deriving DecidableEq

/-- What is reported of an event, `edulint/linting/checkers/unsuited_loop.py:386-395`; `target` says whether a node is the target of a
loop. -/
def messageOf (definitions : List (Event × Event)) (target : Nat → Bool) (e : Event) : Option Message :=
  if target e.node then some .shadows
  else if (usesOf definitions e).length = 0 then some .changing
  else none

/-- `loop-shadows-control-variable` and `changing-control-variable`, `edulint/linting/checkers/unsuited_loop.py:374-395`, for a loop over
`iter` with the body `b`. `v` is the variable and its name if the target is one. -/
def Changing (g : Flow.Graph) (items : Nat → List Item) (definitions : List (Event × Event)) (target : Nat → Bool) (iter : Expr)
    (v : Option (Nat × Str)) (b : Body) (r : List (Event × Message)) : Prop :=
  match rangeParams iter, v with
  | some _, some (v, name) =>
    if startsWith name "_".toList = true then r = []
    else ∃ locs, Inside g b locs ∧
      r = (eventsIn g items [v] locs).filterMap fun e => (messageOf definitions target e.2).map fun m => (e.2, m)
  | _, _ => r = []

end Verif.LoopVars

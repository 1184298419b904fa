import Verif.Model.PyInt
import Verif.Model.Modified
import Verif.Model.Uses

/-! Loops that are reported to be `for` loops, `edulint/linting/checkers/unsuited_loop.py:110-234`. -/

namespace Verif.UseFor

open Verif.Flow (Stmt Body Handlers)
open Verif.Traverse (Loc locAt)
open Verif.Inside (Inside modifying place first)
open Verif.Cfg (Event Item)
open Verif.Uses (ownEvents labels usesOf)
open Verif.Py (CmpOp)

/-! ### What an assignment changes -/

/-- An operand: the variable itself, a constant that is an integer (for which C33 is about `get_const_value`), a constant of another
kind (of a text, for instance, there is no `-`), or something else. -/
inductive Operand where
  | self
  | const (c : Int)
  | text
  | other (name : Nat)
deriving DecidableEq

/-- `+`, `-` and other operators -/
inductive Op where
  | add | sub | other
deriving DecidableEq

/-- What assigns to the variable: an augmented assignment, an assignment (of the result of an operator, or of anything else), or
anything else: a target of a loop or a part of one, a call of a method, and so on. -/
inductive Write where
  | aug (op : Op) (value : Operand)
  | assign (op : Op) (left right : Operand)
  | value
  | other
deriving DecidableEq

/-- `get_const_value`; a text is there, but no number. -/
inductive Const where
  | int (c : Int) | text | none

def constOf : Operand → Const
  | .const c => .int c
  | .text => .text
  | .self => .none
  | .other _ => .none

/-- `const if op == "+" else -const`, `edulint/linting/checkers/unsuited_loop.py:131-134`; a text that is returned is not a number,
which is all that matters. -/
def signed : Op → Const → Except PyErr (Option Int)
  | _, .none => .ok none
  | .add, .int c => .ok (some c)
  | .add, .text => .ok none
  | _, .int c => .ok (some (-c))
  | _, .text => .error .typeError

/-- The constant of an assignment, `edulint/linting/checkers/unsuited_loop.py:127-130`: the second test overrides the first. -/
def other (left right : Operand) : Const :=
  if right = .self then constOf left else if left = .self then constOf right else .none

/-- `get_change_value`, `edulint/linting/checkers/unsuited_loop.py:113-134` -/
def changeValue : Write → Except PyErr (Option Int)
  | .aug .other _ => .ok none
  | .aug op value => signed op (constOf value)
  | .assign .other _ _ => .ok none
  | .assign op left right => signed op (other left right)
  | .value => .ok none
  | .other => .ok none

/-- The combination of two changes, `edulint/linting/checkers/unsuited_loop.py:221`. -/
def both (r c : Option Int) : Option Int := if c ≠ none ∧ r ≠ none ∧ c = r then c else none

/-- `reduce(...)`, `edulint/linting/checkers/unsuited_loop.py:220-223`; there is at least one event. -/
def reduced : List (Option Int) → Option Int
  | [] => none
  | c :: cs => cs.foldl both c

/-! ### The test -/

/-- A side of the comparison: the variable, or an expression with variables in it. -/
inductive Side where
  | var (v : Nat)
  | expr (vars : List Nat)
deriving DecidableEq

/-- The variables of all events in it. -/
def Side.events : Side → List Nat
  | .var v => [v]
  | .expr vars => vars

/-- A comparison with one operator. -/
structure Test where
  left : Side
  op : CmpOp
  right : Side

/-- `vars_in(test).keys()` -/
def Test.vars (T : Test) : List Nat := (T.left.events ++ T.right.events).eraseDups

/-- `test.ops[0][0] in ("<", "<=", ">", ">=")`, `edulint/linting/checkers/unsuited_loop.py:206` -/
def Test.ordered (T : Test) : Bool := T.op == .lt || T.op == .le || T.op == .gt || T.op == .ge

/-- `var_can_be_from_range`, `edulint/linting/checkers/unsuited_loop.py:136-138` -/
def Test.fromRange (T : Test) (v : Nat) : Bool :=
  (T.left.events ++ T.right.events).count v == 1 && (T.left == .var v || T.right == .var v)

/-- `changes_towards_limit`, `edulint/linting/checkers/unsuited_loop.py:195-200` -/
def Test.towards (T : Test) (v : Nat) (change : Int) : Bool :=
  if T.left.events.contains v then
    decide (change > 0) && (T.op == .lt || T.op == .le) || decide (change < 0) && (T.op == .gt || T.op == .ge)
  else
    decide (change < 0) && (T.op == .lt || T.op == .le) || decide (change > 0) && (T.op == .gt || T.op == .ge)

/-! ### The loop -/

/-- A `while`. -/
structure Loop where
  test : Nat
  body : Body
  orelse : Body

def Loop.stmt (L : Loop) : Stmt := .loop L.test L.body L.orelse

/-- `node in loc.node.node_ancestors()`, `edulint/linting/checkers/unsuited_loop.py:167` -/
def Loop.has (L : Loop) (l : Nat) : Bool := L.stmt.locations.contains l

/-- The locations in loops within statements. -/
def loopLocs : Stmt → List Nat
  | .loop t b e => (Stmt.loop t b e).locations
  | .each i t b e => (Stmt.each i t b e).locations
  | _ => []

/-- `event_in_loop`, `edulint/linting/checkers/unsuited_loop.py:184-190`, of an event at the location -/
def Loop.inner (L : Loop) (l : Nat) : Bool := (L.body.parts.flatMap loopLocs).contains l

/-- The jump leaves a loop or a function. -/
def leaving : Stmt → List Nat
  | .jump .brk l => [l]
  | .jump .ret l => [l]
  | _ => []

/-- `isinstance(loc.node, (nodes.Break, nodes.Return))` -/
def leaves (p : Body) (l : Nat) : Bool := (p.parts.flatMap leaving).contains l

mutual
/-- Whether the loop with this test has a next sibling, if it is in the statement; `next` says whether that has one. -/
def followedStmt (t : Nat) (next : Bool) : Stmt → Option Bool
  | .simple _ => none
  | .jump _ _ => none
  | .cond _ b e => (followed t b).or (followed t e)
  | .loop t' b e => if t' = t then some next else (followed t b).or (followed t e)
  | .each _ _ b e => (followed t b).or (followed t e)
  | .enter _ _ b => followed t b
  | .try_ f r hs e l => (followedStmt t (!r.isNil) f).or ((followed t r).or ((followedIn t hs).or ((followed t e).or (followed t l))))
/-- `node.next_sibling() is not None`, `edulint/linting/checkers/unsuited_loop.py:153`, for the loop with this test -/
def followed (t : Nat) : Body → Option Bool
  | .nil => none
  | .cons s rest => (followedStmt t (!rest.isNil) s).or (followed t rest)
/-- The same in clauses of a `try`. -/
def followedIn (t : Nat) : Handlers → Option Bool
  | .nil => none
  | .cons _ _ b rest => (followed t b).or (followedIn t rest)
end

/-- The graph, while `None` is at the end of a block, `edulint/linting/checkers/unsuited_loop.py:153-154`. -/
def graphWith (g : Flow.Graph) (none_ : Option Nat) : Traverse.Graph :=
  { Traverse.ofFlow g with len := fun b => (g.locs b).length + if none_ = some b then 1 else 0 }

/-- `stop_on`, `edulint/linting/checkers/unsuited_loop.py:140-150`, where `at_` are the locations of the events -/
def stopOn (g : Flow.Graph) (p : Body) (at_ : List Nat) (x : Loc) : Bool :=
  match locAt g x with
  | none => true
  | some l => leaves p l || at_.contains l

/-- The test in the loop, `edulint/linting/checkers/unsuited_loop.py:165-176`; `outside` says whether one of the values of the events
is used outside of the loop. -/
def Loop.bad (L : Loop) (g : Flow.Graph) (p : Body) (outside : Bool) (x : Loc) : Bool :=
  match locAt g x with
  | none => true
  | some l => !L.has l || leaves p l && outside

/-- Where `None` is put: nowhere if the loop has a next sibling, and at the end of the block of the test otherwise. -/
def noneAt : Option Bool → Nat → Option Nat
  | some true, _ => none
  | _, b => some b

/-- `event_on_every_path`, `edulint/linting/checkers/unsuited_loop.py:152-182`. Functions that are defined in the loop are not
explored; what is found in them can only make the result false. -/
def Loop.EveryPath (L : Loop) (g : Flow.Graph) (p : Body) (at_ : List Nat) (outside : Bool) (r : Bool) : Prop :=
  ∃ s rest x y locs, L.body = .cons s rest ∧ place g (first s) = some x ∧ place g L.test = some y ∧
    Traverse.Locs (graphWith g (noneAt (followed L.test p) y.1)) ⟨.successors, stopOn g p at_, true, true⟩ [x] locs ∧
    r = !locs.any (L.bad g p outside)

/-! ### The check -/

/-- `get_events_for(test_vars, node.body, MODIFYING_EVENTS)`, `edulint/linting/checkers/unsuited_loop.py:214`, with the locations they
are at. -/
def eventsAt (items : Nat → List Item) (vars : List Nat) (l : Nat) : List (Nat × Event) :=
  vars.flatMap fun v => ((ownEvents (items l)).filter fun e => e.var == v && modifying e.type).map fun e => (l, e)

def eventsIn (g : Flow.Graph) (items : Nat → List Item) (vars : List Nat) (locs : List Loc) : List (Nat × Event) :=
  (labels g locs).flatMap (eventsAt items vars)

/-- `len(events_by_var) == 1`, `edulint/linting/checkers/unsuited_loop.py:216-219`, and the variable -/
def onlyVar : List (Nat × Event) → Option Nat
  | [] => none
  | e :: es => if es.all fun e' => e'.2.var == e.2.var then some e.2.var else none

/-- `modification_after_modification`, `edulint/linting/checkers/unsuited_loop.py:192-193` -/
def again (definitions : List (Event × Event)) : List (Nat × Event) → Bool
  | [] => false
  | e :: es => (e :: es).any fun e' => usesOf definitions e'.2 != usesOf definitions e.2

/-- A value of one of the events is used outside of the loop, `edulint/linting/checkers/unsuited_loop.py:170-174`; `home` is
`get_cfg_loc`. -/
def Loop.usedOutside (L : Loop) (definitions : List (Event × Event)) (home : Nat → Nat) (evs : List (Nat × Event)) : Bool :=
  evs.any fun e => (usesOf definitions e.2).any fun u => !L.has (home u.node)

/-- The last condition, `edulint/linting/checkers/unsuited_loop.py:227-234`. -/
def Loop.holds (L : Loop) (T : Test) (definitions : List (Event × Event)) (evs : List (Nat × Event)) (v : Nat) (change : Int)
    (every : Bool) : Bool :=
  T.fromRange v && T.towards v change && !again definitions evs && !(evs.any fun e => L.inner e.1) && every

/-- Whether `use-for-loop` is reported for the events, `edulint/linting/checkers/unsuited_loop.py:216-234`. `write` has what the
nodes of events are. -/
def Loop.Decides (L : Loop) (g : Flow.Graph) (p : Body) (T : Test) (write : Nat → Write) (definitions : List (Event × Event))
    (home : Nat → Nat) (evs : List (Nat × Event)) (r : Except PyErr Bool) : Prop :=
  match onlyVar evs, evs.mapM (fun e => changeValue (write e.2.node)) with
  | none, _ => r = .ok false
  | some _, .error x => r = .error x
  | some v, .ok cs =>
    match reduced cs with
    | none => r = .ok false
    | some change =>
      if change = 1 ∨ change = -1 then
        ∃ every, L.EveryPath g p (evs.map (·.1)) (L.usedOutside definitions home evs) every ∧ r = .ok (L.holds T definitions evs v change every)
      else r = .ok false

/-- Whether `use-for-loop` is reported, `edulint/linting/checkers/unsuited_loop.py:202-234`, for a loop whose test is a comparison
with one operator. `g` is the graph of the statements `p`. -/
def Loop.Checks (L : Loop) (g : Flow.Graph) (p : Body) (T : Test) (items : Nat → List Item) (write : Nat → Write)
    (definitions : List (Event × Event)) (home : Nat → Nat) (r : Except PyErr Bool) : Prop :=
  if T.ordered = true ∧ T.vars ≠ [] then
    ∃ locs, Inside g L.body locs ∧ L.Decides g p T write definitions home (eventsIn g items T.vars locs) r
  else r = .ok false

end Verif.UseFor

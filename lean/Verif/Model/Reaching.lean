import Verif.Model.Cfg

/-!
Reaching definitions, `collect_reaching_definitions` of `edulint/linting/analyses/data_dependency.py`.

Blocks of all graphs of a file have different numbers, variables are their positions in `variables`
(`edulint/linting/analyses/data_dependency.py:416`), and an event is identified by its variable, its node and
its type (`edulint/linting/analyses/var_events.py:36-52`). Dictionaries with a default are functions;
entries of positions that are not variables are not looked at.

What `make_up_calls` (`edulint/linting/analyses/data_dependency.py:354-411`) adds for functions that are never
called concerns only variables that are used outside of their scope; see `Verif/Model/MadeUp.lean`. Which functions
a call may call (`edulint/linting/analyses/data_dependency.py:193-212`) is given.
-/

namespace Verif.Cfg

/-- `VarEventType`, `edulint/linting/analyses/var_events.py:28-33`. -/
inductive EventType where
  | assign | reassign | modify | read | delete
  deriving DecidableEq

/-- `event.type in GENERATING_EVENTS`, `edulint/linting/analyses/data_dependency.py:34`. -/
def EventType.generates : EventType → Bool
  | .read | .modify => true
  | _ => false

/-- `event.type in KILLING_EVENTS`, `edulint/linting/analyses/data_dependency.py:28-33`. -/
def EventType.kills : EventType → Bool
  | .assign | .reassign | .delete | .modify => true
  | .read => false

/-- `VarEvent`, `edulint/linting/analyses/var_events.py:36-56`, without the links to other events. -/
structure Event where
  var : Nat
  node : Nat
  type : EventType
  deriving DecidableEq

/-- What happens to variables at a location of a block: first the events in functions that may be called there,
then its own events. -/
inductive Item where
  | called (e : Event)
  | own (e : Event)
  deriving DecidableEq

/-- The graphs of a file: for each block its locations with their items, and the targets of its edges. `nodes`
are all blocks. -/
structure Prog where
  nodes : List Nat
  succ : Nat → List Nat
  locs : Nat → List (List Item)
  /-- `len(variables)` -/
  vars : Nat

/-- What happens to variables in a block, in the order of the loops of `collect_original_kills`,
`edulint/linting/analyses/data_dependency.py:192-257`. -/
def Prog.items (P : Prog) (b : Nat) : List Item := (P.locs b).flatten

/-! ### Within a block -/

def setAt {α : Type} (f : Nat → α) (k : Nat) (x : α) : Nat → α := fun j => if j = k then x else f j

/-- `if kill_event not in event.definitions: event.definitions.append(kill_event)` for all events of a list;
`links` are pairs of an event and one of its definitions.
`edulint/linting/analyses/data_dependency.py:246-249`. -/
def addLinks (links : List (Event × Event)) (e : Event) (ds : List Event) : List (Event × Event) :=
  ds.foldl (fun links d => if (e, d) ∈ links then links else links ++ [(e, d)]) links

/-- The state of the loops of `collect_original_kills`: `gens` and `kill` of a block, and the links of all
events. -/
structure Scan where
  gens : Nat → List Event
  kill : Nat → List (List Event)
  definitions : List (Event × Event)
  redefines : List (Event × Event)

/-- `kill[var_i][-1]`, where there is nothing to iterate over if `kill[var_i]` is empty. -/
def lastKills (kill : List (List Event)) : List Event := kill.getLast?.getD []

/-- The reaction to a generating event, `edulint/linting/analyses/data_dependency.py:221-228` and
`edulint/linting/analyses/data_dependency.py:242-249`. -/
def Scan.generate (s : Scan) (e : Event) : Scan :=
  if e.type.generates then
    if s.kill e.var = [] then { s with gens := setAt s.gens e.var (s.gens e.var ++ [e]) }
    else { s with definitions := addLinks s.definitions e (lastKills (s.kill e.var)) }
  else s

/-- One event in a function that may be called, `edulint/linting/analyses/data_dependency.py:220-238`. Its kills
are added to the previous ones. -/
def Scan.called (s : Scan) (e : Event) : Scan :=
  let s := s.generate e
  if e.type.kills then
    if s.kill e.var = [] then { s with kill := setAt s.kill e.var [[e]] }
    else
      { s with
        redefines := addLinks s.redefines e (lastKills (s.kill e.var))
        kill := setAt s.kill e.var ((s.kill e.var).dropLast ++ [lastKills (s.kill e.var) ++ [e]]) }
  else s

/-- One event of the location, `edulint/linting/analyses/data_dependency.py:240-257`. -/
def Scan.own (s : Scan) (e : Event) : Scan :=
  let s := s.generate e
  if e.type.kills then
    { s with
      redefines := addLinks s.redefines e (lastKills (s.kill e.var))
      kill := setAt s.kill e.var (s.kill e.var ++ [[e]]) }
  else s

def Scan.item (s : Scan) : Item → Scan
  | .called e => s.called e
  | .own e => s.own e

/-- The part of `collect_original_kills` for one block, given the links found so far,
`edulint/linting/analyses/data_dependency.py:191-259`. -/
def scanBlock (P : Prog) (definitions redefines : List (Event × Event)) (b : Nat) : Scan :=
  (P.items b).foldl Scan.item ⟨fun _ => [], fun _ => [], definitions, redefines⟩

/-- `original_gens_kills[…][0]` of a block; it does not depend on the links. -/
def Prog.gens (P : Prog) (b : Nat) : Nat → List Event := (scanBlock P [] [] b).gens

/-- `original_gens_kills[…][1]` of a block. -/
def Prog.kill (P : Prog) (b : Nat) : Nat → List (List Event) := (scanBlock P [] [] b).kill

/-- The links found within the blocks of a graph. -/
def scanAll (P : Prog) (blocks : List Nat) (links : List (Event × Event) × List (Event × Event)) :
    List (Event × Event) × List (Event × Event) :=
  blocks.foldl (fun links b => ((scanBlock P links.1 links.2 b).definitions, (scanBlock P links.1 links.2 b).redefines)) links

/-! ### Between blocks -/

/-- The blocks enumerated by `successor_blocks_from_locs` from the first location of the start,
`edulint/linting/analyses/cfg/utils.py:88-135`: the traversal is that of `get_blocks` but does not enter blocks
without locations. -/
def Prog.inner (P : Prog) (b : Nat) : List Nat := (P.succ b).filter fun c => !(P.locs c).isEmpty

/-- The number of a block: its index in `index_to_block`, the blocks of earlier graphs included. -/
def number (base : Nat) (order : List Nat) (b : Nat) : Nat := base + order.idxOf b

/-- `collect_computed_kills`, `edulint/linting/analyses/data_dependency.py:263-283`. -/
def initComputed (P : Prog) (base : Nat) (order : List Nat) (b v : Nat) : Nat :=
  if (P.kill b v).length > 0 then 1 <<< number base order b else 0

/-- The sources of the edges to a block: `edge.source for edge in block.predecessors`. -/
def Prog.preds (P : Prog) (b : Nat) : List Nat := P.nodes.flatMap fun p => ((P.succ p).filter (· = b)).map fun _ => p

/-- `collect_kills_from_parents`, `edulint/linting/analyses/data_dependency.py:285-304`. -/
def initParents (P : Prog) (reachable : Nat → Bool) (base : Nat) (order : List Nat) (b v : Nat) : Nat :=
  ((P.preds b).filter reachable).foldl (fun result p => result ||| initComputed P base order p v) 0

/-- The state of the loop of `fixpoint`. -/
structure Fix where
  queue : List Nat
  computed : Nat → Nat → Nat
  parents : Nat → Nat → Nat

/-- The value of a variable in `all_parent_kills` of a successor after an iteration of the loop,
`edulint/linting/analyses/data_dependency.py:327-329`; `updated` has the new values of the variables that were updated. -/
def Fix.merged (updated : Nat → Option Nat) (parents : Nat → Nat → Nat) (c v : Nat) : Nat :=
  match updated v with
  | some val => parents c v ||| val
  | none => parents c v

/-- Whether a successor gets to know a new block, `edulint/linting/analyses/data_dependency.py:327-328`. -/
def Fix.isNew (P : Prog) (updated : Nat → Option Nat) (parents : Nat → Nat → Nat) (c : Nat) : Bool :=
  (List.range P.vars).any fun v =>
    match updated v with
    | some val => decide (val &&& parents c v ≠ val)
    | none => false

/-- The loop over the edges to successors, `edulint/linting/analyses/data_dependency.py:322-331`. Or-ing a value that
is already there changes nothing. -/
def Fix.pass (P : Prog) (updated : Nat → Option Nat) (s : Fix) : List Nat → Fix
  | [] => s
  | c :: cs =>
    if (P.locs c).isEmpty then Fix.pass P updated s cs
    else
      Fix.pass P updated
        { s with
          parents := setAt s.parents c (Fix.merged updated s.parents c)
          queue := if Fix.isNew P updated s.parents c = true ∧ c ∉ s.queue then s.queue ++ [c] else s.queue } cs

/-- The variables whose value changes when a block is processed,
`edulint/linting/analyses/data_dependency.py:316-320`. -/
def Fix.updated (P : Prog) (s : Fix) (b v : Nat) : Option Nat :=
  if v < P.vars ∧ s.computed b v ≠ s.parents b v ∧ (P.kill b v).length = 0 then some (s.parents b v) else none

/-- One iteration of `fixpoint`, `edulint/linting/analyses/data_dependency.py:311-331`. Nothing happens if the
queue is empty. -/
def Fix.step (P : Prog) (s : Fix) : Fix :=
  match s.queue with
  | [] => s
  | b :: queue =>
    Fix.pass P (s.updated P b)
      ⟨queue, setAt s.computed b fun v => (s.updated P b v).getD (s.computed b v), s.parents⟩ (P.succ b)

/-- The state after some number of iterations. -/
def Fix.run (P : Prog) : Nat → Fix → Fix
  | 0, s => s
  | n + 1, s => Fix.run P n (s.step P)

/-- The state before the loop, `edulint/linting/analyses/data_dependency.py:309`. -/
def Fix.init (P : Prog) (reachable : Nat → Bool) (base : Nat) (order : List Nat) : Fix :=
  ⟨order, initComputed P base order, initParents P reachable base order⟩

/-- What is computed for one graph: its blocks in the order of their numbers, the first number, and
`all_parent_kills`. -/
structure Phase where
  base : Nat
  order : List Nat
  parents : Nat → Nat → Nat

/-- The loop over all graphs with `base` blocks in the previous ones,
`edulint/linting/analyses/data_dependency.py:423-437`. -/
inductive Phases (P : Prog) (reachable : Nat → Bool) : Nat → List Nat → List Phase → Prop
  | nil {base : Nat} : Phases P reachable base [] []
  | cons {base start n : Nat} {starts order : List Nat} {phases : List Phase} :
    Yields P.inner start order →
    ((Fix.init P reachable base order).run P n).queue = [] →
    Phases P reachable (base + order.length) starts phases →
    Phases P reachable base (start :: starts) (⟨base, order, ((Fix.init P reachable base order).run P n).parents⟩ :: phases)

/-- `ones_indices`, `edulint/linting/analyses/data_dependency.py:124-130`. -/
def onesIndices (n : Nat) : List Nat := (List.range (Nat.log2 n + 1)).filter fun i => n.testBit i

/-- The kills of a variable that reach a block: `original_gens_kills[index][1][var_i][-1]` for all indices,
`edulint/linting/analyses/data_dependency.py:342-343`. -/
def reachingKills (P : Prog) (indexToBlock : List Nat) (val v : Nat) : List Event :=
  (onesIndices val).flatMap fun index =>
    match indexToBlock[index]? with
    | some b => lastKills (P.kill b v)
    | none => []

/-- The links that `connect_events` adds for a block, `edulint/linting/analyses/data_dependency.py:335-352`. -/
def connectBlock (P : Prog) (indexToBlock : List Nat) (parents : Nat → Nat) (b : Nat) :
    List (Event × Event) × List (Event × Event) :=
  ((List.range P.vars).flatMap fun v =>
      (reachingKills P indexToBlock (parents v) v).flatMap fun d => (P.gens b v).map fun e => (e, d),
   (List.range P.vars).flatMap fun v =>
      (reachingKills P indexToBlock (parents v) v).flatMap fun d => ((P.kill b v).head?.getD []).map fun e => (e, d))

/-- The definitions of events and what events redefine after `collect_reaching_definitions` without
`make_up_calls`. -/
def links (P : Prog) (phases : List Phase) : List (Event × Event) × List (Event × Event) :=
  let indexToBlock := phases.flatMap Phase.order
  let inner := scanAll P indexToBlock ([], [])
  (inner.1 ++ phases.flatMap fun ph => ph.order.flatMap fun b => (connectBlock P indexToBlock (ph.parents b) b).1,
   inner.2 ++ phases.flatMap fun ph => ph.order.flatMap fun b => (connectBlock P indexToBlock (ph.parents b) b).2)

end Verif.Cfg

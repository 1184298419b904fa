import Verif.Base.Str

/-!
Traversals of control flow graphs from locations, `edulint/linting/analyses/cfg/utils.py:15-168, 223-383`.

A block is its `id` (blocks of one graph have different ids, `edulint/linting/analyses/cfg/graph.py:41-44`), a location is
its block and its position in `locs` of the block. Generators are modelled by the lists of what they yield.
`stop_on_block` is `None`, as in all calls besides that in `get_locs_in_and_after_from`, for which see `Model/Inside.lean`.
-/

namespace Verif.Traverse

/-- The targets of the edges from a block, the sources of the edges to a block, and the number of its locations. -/
structure Graph where
  succ : Nat → List Nat
  pred : Nat → List Nat
  len : Nat → Nat

/-- `Direction`, `edulint/linting/analyses/cfg/utils.py:15-17` -/
inductive Dir where
  | successors
  | predecessors
  deriving DecidableEq

/-- `get_essors`, `edulint/linting/analyses/cfg/utils.py:35-39` -/
def Graph.essors (G : Graph) : Dir → Nat → List Nat
  | .successors => G.succ
  | .predecessors => G.pred

abbrev Loc := Nat × Nat

/-- The arguments `direction`, `stop_on_loc` (if it is `None`, it is never true), `include_start` and `include_end`. -/
structure Args where
  dir : Dir
  stop : Loc → Bool
  includeStart : Bool
  includeEnd : Bool

/-- The positions `from_pos, …, to_pos - 1` in the order in which they are gone through,
`edulint/linting/analyses/cfg/utils.py:66-69, 262-265`. -/
def positions (dir : Dir) (lo hi : Nat) : List Nat :=
  match dir with
  | .successors => List.range' lo (hi - lo)
  | .predecessors => (List.range' lo (hi - lo)).reverse

/-- What is left of a part of a block if the traversal stops at `i`, `edulint/linting/analyses/cfg/utils.py:74-83`. -/
def cut (dir : Dir) (includeEnd : Bool) (lo hi i : Nat) : Nat × Nat :=
  match dir, includeEnd with
  | .successors, true => (lo, i + 1)
  | .predecessors, true => (i, hi)
  | .successors, false => (lo, i)
  | .predecessors, false => (i + 1, hi)

/-- `triage_block`, `edulint/linting/analyses/cfg/utils.py:51-86`: whether to stop, and which part of the block to yield. -/
def triage (c : Args) (b lo hi : Nat) : Bool × Nat × Nat :=
  match (positions c.dir lo hi).find? fun i => c.stop (b, i) with
  | none => (false, lo, hi)
  | some i => (true, cut c.dir c.includeEnd lo hi i)

/-- An element of the stack; `is_first` makes no difference without `stop_on_block`. -/
structure Frame where
  block : Nat
  lo : Nat
  hi : Nat
  i : Nat
  deriving DecidableEq

/-- The state of the traversal: the locations from which it has yet to start, the stack (the top first), the dictionary
`visited`, and what has been yielded. -/
structure State where
  todo : List Loc
  stack : List Frame
  visited : Nat → Option (Nat × Nat)
  out : List (Nat × Nat × Nat)

def setVisited (visited : Nat → Option (Nat × Nat)) (b lo hi : Nat) : Nat → Option (Nat × Nat) :=
  fun b' => if b' = b then some (lo, hi) else visited b'

/-- `visited[essor] = 0, len(essor.locs)` and `stack.append((essor, lo, hi, False, 0))` -/
def State.push (G : Graph) (s : State) (e lo hi : Nat) : State :=
  { s with stack := ⟨e, lo, hi, 0⟩ :: s.stack, visited := setVisited s.visited e 0 (G.len e) }

/-- `edulint/linting/analyses/cfg/utils.py:113-135` -/
def enter (G : Graph) (c : Args) (s : State) (e : Nat) : Except PyErr State :=
  if G.len e = 0 then .ok s
  else
    match s.visited e with
    | none => .ok (s.push G e 0 (G.len e))
    | some (vfrom, vto) =>
      if vfrom = 0 ∧ vto = G.len e then .ok s
      else
        match c.dir with
        | .successors => if vto = G.len e then .ok (s.push G e 0 vfrom) else .error .assertionError
        | .predecessors => if vfrom = 0 then .ok (s.push G e vto (G.len e)) else .error .assertionError

/-- `edulint/linting/analyses/cfg/utils.py:109-111` -/
def atEnd (G : Graph) (dir : Dir) (b lo hi : Nat) : Bool :=
  match dir with
  | .successors => decide (hi = G.len b)
  | .predecessors => decide (lo = 0)

/-- `edulint/linting/analyses/cfg/utils.py:103-135`; `s` has the stack without the frame. -/
def expand (G : Graph) (c : Args) (s : State) (b lo hi i : Nat) : Except PyErr State :=
  match (G.essors c.dir b)[i]? with
  | none => .ok s
  | some e =>
    let s := { s with stack := ⟨b, lo, hi, i + 1⟩ :: s.stack }
    if atEnd G c.dir b lo hi then enter G c s e else .ok s

/-- `yield current_block, from_pos, to_pos` unless nothing is left, `edulint/linting/analyses/cfg/utils.py:98-99` -/
def yielding (t : Bool × Nat × Nat) (b : Nat) : List (Nat × Nat × Nat) :=
  if t.2.1 ≠ t.2.2 then [(b, t.2.1, t.2.2)] else []

/-- `edulint/linting/analyses/cfg/utils.py:92-135` -/
def advance (G : Graph) (c : Args) (s : State) (f : Frame) : Except PyErr State :=
  if f.i = 0 then
    let t := triage c f.block f.lo f.hi
    let s := { s with out := s.out ++ yielding t f.block }
    if t.1 then .ok s else expand G c s f.block t.2.1 t.2.2 0
  else expand G c s f.block f.lo f.hi f.i

/-- The position of the first location, in the direction, that the traversal starts with,
`edulint/linting/analyses/cfg/utils.py:144, 159`. -/
def startLo (c : Args) (pos : Nat) : Nat := if c.includeStart then pos else pos + 1

/-- `edulint/linting/analyses/cfg/utils.py:148, 165` -/
def startHi (c : Args) (pos : Nat) : Nat := if c.includeStart then pos + 1 else pos

/-- `edulint/linting/analyses/cfg/utils.py:139-168`, `unwrap` (10-12) included; `s` has the other locations. -/
def begin (G : Graph) (c : Args) (s : State) (l : Loc) : Except PyErr State :=
  let b := l.1
  let pos := l.2
  if G.len b ≤ pos then .error .indexError
  else
    match s.visited b with
    | none =>
      match c.dir with
      | .successors =>
        .ok { s with visited := setVisited s.visited b (startLo c pos) (G.len b),
                     stack := [⟨b, startLo c pos, G.len b, 0⟩] }
      | .predecessors =>
        .ok { s with visited := setVisited s.visited b 0 (startHi c pos), stack := [⟨b, 0, startHi c pos, 0⟩] }
    | some (vfrom, vto) =>
      if vfrom ≤ pos ∧ pos < vto then .ok s
      else
        match c.dir with
        | .successors =>
          if vto = G.len b then
            .ok { s with visited := setVisited s.visited b (startLo c pos) vto, stack := [⟨b, startLo c pos, vfrom, 0⟩] }
          else .error .assertionError
        | .predecessors =>
          if vfrom = 0 then
            .ok { s with visited := setVisited s.visited b vfrom (startHi c pos), stack := [⟨b, vto, startHi c pos, 0⟩] }
          else .error .assertionError

/-- One step of `essor_blocks_from_locs`, `edulint/linting/analyses/cfg/utils.py:42-168`: an iteration of the loop over the
stack or, if the stack is empty, the start from the next location. -/
def step (G : Graph) (c : Args) (s : State) : Except PyErr State :=
  match s.stack with
  | f :: rest => advance G c { s with stack := rest } f
  | [] =>
    match s.todo with
    | [] => .ok s
    | l :: todo => begin G c { s with todo := todo } l

def run (G : Graph) (c : Args) : Nat → State → Except PyErr State
  | 0, s => .ok s
  | n + 1, s =>
    match step G c s with
    | .error x => .error x
    | .ok s => run G c n s

def init (starts : List Loc) : State := ⟨starts, [], fun _ => none, []⟩

/-- `essor_blocks_from_locs` yields `out`, `edulint/linting/analyses/cfg/utils.py:42-168`. -/
def Blocks (G : Graph) (c : Args) (starts : List Loc) (out : List (Nat × Nat × Nat)) : Prop :=
  ∃ n s, run G c n (init starts) = .ok s ∧ s.stack = [] ∧ s.todo = [] ∧ s.out = out

/-- The locations of parts of blocks, `edulint/linting/analyses/cfg/utils.py:259-267`. -/
def locsOf (dir : Dir) (out : List (Nat × Nat × Nat)) : List Loc :=
  out.flatMap fun t => (positions dir t.2.1 t.2.2).map fun i => (t.1, i)

/-- `essor_locs_from_locs` without `explore_functions` and `explore_classes` yields `locs`,
`edulint/linting/analyses/cfg/utils.py:223-269`. -/
def Locs (G : Graph) (c : Args) (starts : List Loc) (locs : List Loc) : Prop :=
  ∃ out, Blocks G c starts out ∧ locs = locsOf c.dir out

mutual
/-- `essor_locs_from_locs` with `explore_functions`, `edulint/linting/analyses/cfg/utils.py:223-269`. Where functions are
defined, and with `explore_classes` classes, `inner` has the locations of the arguments of these functions, or those of the
functions in the bodies of these classes (233-257). -/
inductive Explores (G : Graph) (c : Args) (inner : Loc → List Loc) : List Loc → List Loc → Prop
  | mk {starts locs out} : Locs G c starts locs → ExploresEach G c inner locs out → Explores G c inner starts out

/-- Each location and then what is in the functions that are defined there. -/
inductive ExploresEach (G : Graph) (c : Args) (inner : Loc → List Loc) : List Loc → List Loc → Prop
  | nil : ExploresEach G c inner [] []
  | cons {l ls sub out} : ExploresInner G c inner (inner l) sub → ExploresEach G c inner ls out →
      ExploresEach G c inner (l :: ls) (l :: (sub ++ out))

/-- One function after the other. -/
inductive ExploresInner (G : Graph) (c : Args) (inner : Loc → List Loc) : List Loc → List Loc → Prop
  | nil : ExploresInner G c inner [] []
  | cons {f fs sub out} : Explores G c inner [f] sub → ExploresInner G c inner fs out →
      ExploresInner G c inner (f :: fs) (sub ++ out)
end

end Verif.Traverse

import Verif.Base.Str

/-!
Blocks with few differences: `duplicate-blocks`, `edulint/linting/checkers/old_duplication_checker.py:419-506`.

A node is what of it is compared, and its children, as of `get_children`. Other nodes are the class and what is not compared: names that are assigned to, operators of
augmented assignments, and which children are which, as how many of the children of an `if` are in its `else`. That one class is a subclass of another one is left
out.
-/

namespace Verif.DupBlocks

/-- What `update_diffs` looks at; for constants, `value` is the same if they are equal for Python, and `text` is what `str` makes of it. -/
inductive Label where
  | compare (ops : List Str)
  | binOp (op : Str)
  | boolOp (op : Str)
  | name (x : Str)
  | const (value : Nat) (text : Str)
  | attribute (attr : Str)
  | unaryOp (op : Str)
  | other (cls : Str) (rest : List Str)
  deriving DecidableEq

inductive Tree where
  | node (l : Label) (children : List Tree)

/-- `isinstance(stmt1, type(stmt2))` -/
def sameClass : Label → Label → Bool
  | .compare _, .compare _ => true
  | .binOp _, .binOp _ => true
  | .boolOp _, .boolOp _ => true
  | .name _, .name _ => true
  | .const _ _, .const _ _ => true
  | .attribute _, .attribute _ => true
  | .unaryOp _, .unaryOp _ => true
  | .other c _, .other c' _ => c = c'
  | _, _ => false

abbrev Diffs := List (Str × Str)

/-- `current_diffs.add(p)` -/
def add (p : Str × Str) (d : Diffs) : Diffs := if p ∈ d then d else p :: d

/-- The loop over operators of comparisons, `edulint/linting/checkers/old_duplication_checker.py:424-426`. -/
def addOps : List Str → List Str → Diffs → Diffs
  | o :: os, o' :: os', d => addOps os os' (if o ≠ o' then add (o, o') d else d)
  | _, _, d => d

/-- `update_diffs`, `edulint/linting/checkers/old_duplication_checker.py:420-439`; nothing if it returns `False`. -/
def update : Label → Label → Diffs → Option Diffs
  | .compare os, .compare os', d => some (addOps os os' d)
  | .binOp o, .binOp o', d => some (if o ≠ o' then add (o, o') d else d)
  | .boolOp o, .boolOp o', d => if o ≠ o' then none else some d
  | .name x, .name x', d => some (if x ≠ x' then add (x, x') d else d)
  | .const v t, .const v' t', d => some (if v ≠ v' then add (t, t') d else d)
  | .attribute a, .attribute a', d => some (if a ≠ a' then add (a, a') d else d)
  | .unaryOp o, .unaryOp o', d => some (if o ≠ o' then add (o, o') d else d)
  | _, _, d => some d

mutual
/-- One iteration of the loop of `duplicate_blocks`, `edulint/linting/checkers/old_duplication_checker.py:449-463`. -/
def dup (max : Nat) : Tree → Tree → Diffs → Option Diffs
  | .node l cs, .node l' cs', d =>
    if !sameClass l l' || cs.length ≠ cs'.length then none
    else
      match update l l' d with
      | none => none
      | some d => if d.length > max then none else dupAll max cs cs' d

/-- The inner `duplicate_blocks`, `edulint/linting/checkers/old_duplication_checker.py:441-464`: the differences, or nothing if it returns `False`. -/
def dupAll (max : Nat) : List Tree → List Tree → Diffs → Option Diffs
  | [], [], d => some d
  | t :: ts, t' :: ts', d =>
    match dup max t t' d with
    | none => none
    | some d => dupAll max ts ts' d
  | _, _, _ => none
end

/-- A block: its statements, the class of the parent, the first and the last line. -/
structure Block where
  stmts : List Tree
  parent : Str
  first : Nat
  last : Nat

/-- Whether a pair is reported if it is looked at, `edulint/linting/checkers/old_duplication_checker.py:490-496`, but for lines. -/
def alike (b b' : Block) : Bool := b.parent = b'.parent && (dupAll 3 b.stmts b'.stmts []).isSome

/-- The loops over blocks, `edulint/linting/checkers/old_duplication_checker.py:483-506`: the pairs that are reported; `closed` is `max_closed_line`. -/
def scan : Nat → List Block → List (Block × Block)
  | _, [] => []
  | closed, b :: rest =>
    match if b.last ≤ closed then none else rest.find? (alike b) with
    | none => scan closed rest
    | some b' => (b, b') :: scan b.last rest

/-- `duplicate_blocks`, `edulint/linting/checkers/old_duplication_checker.py:466-506`, for blocks sorted by their first and last lines: those with three lines at least are
compared. -/
def duplicateBlocks (blocks : List Block) : List (Block × Block) :=
  scan 0 (blocks.filter fun b => !b.stmts.isEmpty && decide (b.last - b.first + 1 ≥ 3))

end Verif.DupBlocks

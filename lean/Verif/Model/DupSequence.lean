import Verif.Base.Str

/-!
Sequences of similar subblocks: `duplicate-sequence`, `edulint/linting/checkers/old_duplication_checker.py:508-665`.

A node is a constant, or what of it is compared, what is not (operators of augmented assignments, which children are which), whether nothing is reported for nodes of this kind
(assertions, imports, block comments and calls of `print`), and its children, as of `get_children`. Classes of nodes and types of values are compared for equality, no one
is a subclass of another one (`bool` is not one of `int`).
-/

namespace Verif.DupSequence

/-- The value of a constant. -/
inductive Val where
  | int (n : Int)
  | other (type text : Str)
  deriving DecidableEq

/-- `isinstance(stmt1.value, type(stmt2.value))` -/
def sameType : Val → Val → Bool
  | .int _, .int _ => true
  | .other t _, .other t' _ => t = t'
  | _, _ => false

inductive Tree where
  | const (v : Val)
  | node (compared rest : Str) (never : Bool) (children : List Tree)

/-- The result of `get_single_diff` that is not `None`: nothing is `(None, None), []`. -/
abbrev Diff := Option ((Val × Val) × List Nat)

mutual
/-- `get_single_diff`, `edulint/linting/checkers/old_duplication_checker.py:540-584` -/
def single : Tree → Tree → Option Diff
  | .const v, .const v' => if !sameType v v' then none else if v = v' then some none else some (some ((v, v'), []))
  | .node c _ never ts, .node c' _ _ ts' => if c ≠ c' || never then none else if ts.length ≠ ts'.length then none else singleList 0 none ts ts'
  | _, _ => none

/-- The loop of `get_single_diff_list`, `edulint/linting/checkers/old_duplication_checker.py:525-538`. -/
def singleList (i : Nat) (result : Diff) : List Tree → List Tree → Option Diff
  | t :: ts, t' :: ts' =>
    match single t t' with
    | none => none
    | some sub =>
      if result.isSome && result.map Prod.fst ≠ sub.map Prod.fst then none
      else
        match sub with
        | none => singleList (i + 1) result ts ts'
        | some (d, path) => singleList (i + 1) (some (d, path ++ [i])) ts ts'
  | _, _ => some result
end

/-- `get_single_diff_list`, `edulint/linting/checkers/old_duplication_checker.py:519-538` -/
def getSingleDiffList (ts ts' : List Tree) : Option Diff := if ts.length ≠ ts'.length then none else singleList 0 none ts ts'

/-- `can_use_range`, `edulint/linting/checkers/old_duplication_checker.py:509-517` -/
def isRange : List (Option Val) → Bool
  | some (.int a) :: some (.int b) :: rest => go (b - a) b rest
  | l => l.all (· = none)
where
  go (step : Int) : Int → List (Option Val) → Bool
    | _, [] => true
    | a, some (.int b) :: rest => a + step = b && go step b rest
    | _, _ :: _ => false

/-- The subblocks of a given length: `block[i : i + subblock_len]` for all `i`, the last one may be shorter; `fuel` is the length of the block. -/
def chunks (len : Nat) : Nat → List Tree → List (List Tree)
  | 0, _ => []
  | _ + 1, [] => []
  | fuel + 1, t :: ts => (t :: ts).take len :: chunks len fuel ((t :: ts).drop len)

/-- The loop of `get_seq_diffs`, `edulint/linting/checkers/old_duplication_checker.py:587-615`. -/
def seqDiffs (path : Option (List Nat)) (diffs : List (Option Val)) : List (List Tree) → List (Option Val)
  | c :: c' :: rest =>
    match getSingleDiffList c c' with
    | none => diffs
    | some sub =>
      let subpath := (sub.map Prod.snd).getD []
      if path.isSome && path ≠ some [] && subpath ≠ [] && path ≠ some subpath then diffs
      else if path = some [] && subpath ≠ [] && decide (diffs.length ≥ 4) then diffs
      else
        seqDiffs (if path = none || (path = some [] && subpath ≠ []) then some subpath else path)
          (if diffs = [] then [sub.map (·.1.1), sub.map (·.1.2)] else diffs ++ [sub.map (·.1.2)]) (c' :: rest)
  | _ => diffs

/-- `get_seq_diffs`, `edulint/linting/checkers/old_duplication_checker.py:586-615` -/
def getSeqDiffs (block : List Tree) (len start : Nat) : List (Option Val) := seqDiffs none [] (chunks len block.length (block.drop start))

/-- When a message is added, `edulint/linting/checkers/old_duplication_checker.py:627-629`. -/
def enough (diffs : List (Option Val)) : Bool := (decide (diffs.length ≥ 4) && isRange diffs) || decide (diffs.length ≥ 5)

/-- What is reported: where it starts, the length of the subblocks and their number. -/
structure Report where
  start : Nat
  len : Nat
  count : Nat
  deriving DecidableEq

/-- The inner loop of `process_block`, `edulint/linting/checkers/old_duplication_checker.py:625-650`. -/
def find (block : List Tree) (start : Nat) : Option Report :=
  ((List.range (block.length / 4)).map fun k => Report.mk start (k + 1) (getSeqDiffs block (k + 1) start).length).find?
    fun r => enough (getSeqDiffs block r.len start)

/-- The outer loop of `process_block`, `edulint/linting/checkers/old_duplication_checker.py:623-652`; `fuel` is the number of iterations. -/
def process (block : List Tree) : Nat → Nat → List Report
  | 0, _ => []
  | fuel + 1, start =>
    if start + 1 < block.length then
      match find block start with
      | some r => r :: process block fuel (start + r.count * r.len)
      | none => process block fuel (start + 1)
    else []

/-- `process_block`, `edulint/linting/checkers/old_duplication_checker.py:617-652` -/
def processBlock (block : List Tree) : List Report := if block.length / 4 = 0 then [] else process block block.length 0

end Verif.DupSequence

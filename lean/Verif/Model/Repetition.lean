import Verif.Model.InRange

/-!
Repeated code: how a block is split into repetitions and which loop is suggested instead of them
(`edulint/linting/checkers/duplication`), and code shared by all branches of an `if`
(`edulint/linting/checkers/old_duplication_checker.py`).
-/

namespace Verif.Py

/-! ### Splitting a block -/

/-- Elements `i`, `i + len`, … of `range(0, end, len)` are the starts of the parts:
`[block[i : i + subblock_len] for i in range(0, end, subblock_len)]`,
`edulint/linting/checkers/duplication/utils.py:87`. -/
def subblocks {σ : Type} (block : List σ) (stop len : Nat) : List (List σ) :=
  (pyRange 0 stop len).map fun i => (block.drop i.toNat).take len

/-- `get_loop_repetitions`, `edulint/linting/checkers/duplication/utils.py:80-88`, as the list of what it
yields. -/
def loopRepetitions {σ : Type} (block : List σ) : List (Nat × List (List σ)) :=
  (pyRange block.length 0 (-1)).flatMap fun stop =>
    (pyRange 1 (stop / 2 + 1) 1).flatMap fun len =>
      if stop % len ≠ 0 then [] else [((stop / len * len).toNat, subblocks block stop.toNat len.toNat)]

/-! ### The suggested range -/

/-- The loop of `to_range_args` after `start` and `step` are known: the last value.
`edulint/linting/checkers/duplication/duplicate_sequence.py:41-52`. -/
def rangeLoop (step previous : Int) : List (Option Int) → Option Int
  | [] => some previous
  | Option.none :: _ => Option.none
  | some s :: rest => if s - previous ≠ step then Option.none else rangeLoop step s rest

/-- `to_range_args`, `edulint/linting/checkers/duplication/duplicate_sequence.py:37-54`. A value that is
not an `int` is `none`. For fewer than two values `step` is `None` and comparing it with `0` raises. -/
def toRangeArgs : List (Option Int) → Except PyErr (Option (Int × Int × Int))
  | [] => .error .typeError
  | Option.none :: _ => .ok Option.none
  | [some _] => .error .typeError
  | some _ :: Option.none :: _ => .ok Option.none
  | some start :: some s :: rest =>
    match rangeLoop (s - start) s rest with
    | Option.none => .ok Option.none
    | some previous => .ok (some (start, previous + (if s - start > 0 then 1 else -1), s - start))

/-- `new_node(nodes.Const, value=i)`; a negative number is printed with its sign. -/
def intNode (i : Int) : Expr :=
  if i < 0 then .unary .neg (.const (.int i.natAbs)) else .const (.int i.natAbs)

/-- `to_range_node`, `edulint/linting/checkers/duplication/duplicate_sequence.py:57-70`. -/
def toRangeNode : Int × Int × Int → Expr
  | (start, stop, step) =>
    .call (.name "range".toList)
      (if step ≠ 1 then [intNode start, intNode stop, intNode step]
       else if start ≠ 0 then [intNode start, intNode stop]
       else [intNode stop])

/-- The variable of the suggested loop,
`edulint/linting/checkers/duplication/duplicate_sequence.py:341-342`. -/
def loopVar : Expr := .name ['i']

/-- What replaces the values of one place where the repetitions differ, if the range is shared by several
places: `edulint/linting/checkers/duplication/duplicate_sequence.py:276-282`. -/
def sharedUse : Int × Int × Int → Expr
  | (start, _, step) =>
    let use := if step ≠ 1 then .bin .mul loopVar (intNode step) else loopVar
    if start ≠ 0 then .bin .add use (intNode start) else use

/-- `consolidate_ranges`, `edulint/linting/checkers/duplication/duplicate_sequence.py:271-285`, for uses
that are the loop variable. The bounds are those of the last range. -/
def consolidateRanges (ranges : List (Int × Int × Int)) : Except PyErr (Expr × List Expr) :=
  match ranges with
  | [args] => .ok (toRangeNode args, [loopVar])
  | _ =>
    match ranges.getLast? with
    | Option.none => .error .assertionError
    | some (start, stop, step) =>
      if step = 0 then .error .zeroDivisionError
      else .ok (toRangeNode (0, (stop - start - 1).fdiv step + 1, 1), ranges.map sharedUse)

/-- What is suggested for repetitions that differ in some places. -/
inductive LoopSuggestion where
  /-- no loop -/
  | nothing
  /-- `NoSubseqToLoop` is raised -/
  | noSubsequence
  /-- a loop over a list of values -/
  | collection
  /-- `for i in iter:` with an expression for each of the places -/
  | range (iter : Expr) (uses : List Expr)
  deriving DecidableEq

/-- `to_range_args` for each of the places. -/
def allRangeArgs : List (List Val) → Except PyErr (List (Option (Int × Int × Int)))
  | [] => .ok []
  | s :: rest =>
    match toRangeArgs (s.map Val.asInt) with
    | .error x => .error x
    | .ok r =>
      match allRangeArgs rest with
      | .error x => .error x
      | .ok rs => .ok (r :: rs)

/-- `get_nice_iters`, `edulint/linting/checkers/duplication/duplicate_sequence.py:288-331`, for repetitions
that differ in the values of constants; `seqs` has for each such place the values in the repetitions.
What is suggested for a place where the values do not form a range
(`edulint/linting/checkers/duplication/duplicate_sequence.py:253-268`) is given by `isCollection`, and
one-character strings (`edulint/linting/checkers/duplication/duplicate_sequence.py:103-128`) are not
treated as their codes. -/
def niceIters (isCollection : List Val → Bool) (seqs : List (List Val)) (count : Nat) : Except PyErr LoopSuggestion :=
  match seqs with
  | [] => .ok (.range (.call (.name "range".toList) [intNode count]) [])
  | _ =>
    match allRangeArgs seqs with
    | .error x => .error x
    | .ok iters =>
      if (seqs.zip iters).any fun p => p.2.isNone && !isCollection p.1 then .ok .nothing
      else if (iters.filterMap id).length ≠ 0 ∧ (iters.filterMap id).length ≠ iters.length then .ok .nothing
      else if (iters.filterMap id).length = 0 then .ok .collection
      else if (iters.filterMap id).eraseDups.length > 2 then .ok .noSubsequence
      else
        match consolidateRanges (iters.filterMap id) with
        | .error x => .error x
        | .ok (iter, uses) => .ok (.range iter uses)

/-! ### Branches with common code -/

/-- A statement: `as_string()`, its first and last line, and whether it is a `return`. -/
structure Stmt where
  text : Str
  fromLine : Nat
  toLine : Nat
  isReturn : Bool
  deriving DecidableEq

/-- An `if` with its branches. -/
inductive IfChain where
  /-- `if …: body else: orelse`, where `orelse` is not a single `if`; no `else` if it is empty -/
  | ifElse (body orelse : List Stmt)
  /-- `if …: body elif …` -/
  | ifElif (body : List Stmt) (rest : IfChain)

/-- `extract_branch_bodies` of an `if` with an `else` branch,
`edulint/linting/checkers/old_duplication_checker.py:261-272` and
`edulint/linting/checkers/old_duplication_checker.py:301-302`. `none` if some value of the conditions
leads to no branch. -/
def IfChain.branches : IfChain → Option (List (List Stmt))
  | .ifElse body orelse => if orelse = [] then Option.none else some [body, orelse]
  | .ifElif body rest =>
    match rest.branches with
    | Option.none => Option.none
    | some bs => some (body :: bs)

/-- The loop of `get_stmts_difference` from index `i` with `fuel` indices left. -/
def differenceFrom (reference : List Str) (compare : List (List Str)) : Nat → Nat → Nat
  | i, 0 => i
  | i, fuel + 1 =>
    if compare.any fun b => decide (reference[i]? ≠ b[i]?) then i
    else differenceFrom reference compare (i + 1) fuel

/-- `min(map(len, branches))`. -/
def minLength {σ : Type} : List (List σ) → Nat
  | [] => 0
  | [b] => b.length
  | b :: bs => min b.length (minLength bs)

/-- `get_stmts_difference`, `edulint/linting/checkers/old_duplication_checker.py:274-282`; the statement
at index `-i - 1` is the one at index `i` of the reversed branch. Branches are not empty. -/
def stmtsDifference (branches : List (List Stmt)) (forward : Bool) : Nat :=
  match branches.map fun b => (if forward then b else b.reverse).map Stmt.text with
  | [] => 0
  | reference :: compare => differenceFrom reference compare 0 (minLength branches)

/-- The lines reported by `add_message`, `edulint/linting/checkers/old_duplication_checker.py:284-299`, with
`get_lines_between`, `edulint/linting/analyses/utils.py:495-500`. -/
def linesDifference (reference : List Stmt) (n : Nat) (forward : Bool) : Except PyErr Int :=
  match reference[if forward then 0 else reference.length - n]?,
      reference[if forward then n - 1 else reference.length - 1]? with
  | some first, some last =>
    if first.fromLine ≤ last.fromLine then .ok (last.toLine - first.fromLine + 1) else .error .assertionError
  | _, _ => .error .indexError

/-- The part of `duplicate_if_branches` about code after the `if`,
`edulint/linting/checkers/old_duplication_checker.py:314-321`. -/
def duplicateSuffix (branches : List (List Stmt)) : Except PyErr (List (Int × Bool)) :=
  match branches with
  | [] => .error .indexError
  | reference :: _ =>
    if stmtsDifference branches false ≥ 1 then
      if stmtsDifference branches false = 1 ∧ (reference.getLast?.map Stmt.isReturn) = some true then .ok []
      else
        match linesDifference reference (stmtsDifference branches false) false with
        | .error x => .error x
        | .ok n => .ok [(n, false)]
    else .ok []

/-- `duplicate_if_branches`, `edulint/linting/checkers/old_duplication_checker.py:260-321`: the numbers of
lines to be moved, with whether they are to be moved before the `if`. `isElif` is `is_parents_elif`,
`edulint/linting/analyses/utils.py:472-479`. -/
def duplicateIfBranches (isElif : Bool) (node : IfChain) : Except PyErr (List (Int × Bool)) :=
  if isElif then .ok []
  else
    match node.branches with
    | Option.none => .ok []
    | some [] => .error .indexError
    | some (reference :: compare) =>
      if stmtsDifference (reference :: compare) true ≥ 1 then
        match linesDifference reference (stmtsDifference (reference :: compare) true) true with
        | .error x => .error x
        | .ok n =>
          if (reference :: compare).any fun b => decide (stmtsDifference (reference :: compare) true = b.length) then
            .ok [(n, true)]
          else
            match duplicateSuffix (reference :: compare) with
            | .error x => .error x
            | .ok ms => .ok ((n, true) :: ms)
      else duplicateSuffix (reference :: compare)

end Verif.Py

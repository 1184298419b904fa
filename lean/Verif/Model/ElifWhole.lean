import Verif.Model.Elif

/-!
Which part of an `if` statement with `elif` is simplified, `edulint/linting/checkers/simplifiable_if.py:644-665, 1015-1060`.

Whether a test is pure (`is_pure_expression`), whether its variables are numbers (`initialize_variables`, whose result does not depend on the variables that are there
already) and whether a test is the negation of another one (`is_negation`) is given. Branches are numbered from 1.
-/

namespace Verif.Elif

/-- A test of an `if` or `elif`. -/
structure Entry (α ν : Type) where
  pure : Bool
  initialized : Bool
  test : Test α ν

section
variable {α ν : Type}

/-- The tests that can be translated, `edulint/linting/checkers/simplifiable_if.py:652-655` -/
def Entry.fine (e : Entry α ν) : Bool := e.pure && e.initialized

/-- Reports with branches numbered from another one. -/
def Report.shift (k : Nat) : Report ν → Report ν
  | .reorder order => .reorder (order.map fun p => (p.1 + k, p.2))
  | .alwaysTrue n => .alwaysTrue (n + k)
  | .redundant n isOr operands => .redundant (n + k) isOr operands
  | .alwaysFalse n => .alwaysFalse (n + k)
  | .unreachable n => .unreachable (n + k)

/-- `_check_elif_instead_of_else`, `edulint/linting/checkers/simplifiable_if.py:1015-1039`, from branch `n` on: what it reports, or `none` if it reports nothing. -/
def elifInsteadOfElse (negation : Entry α ν → Entry α ν → Bool) (hasElse : Bool) : List (Entry α ν) → Nat → Option (List (Report ν))
  | a :: b :: es, n =>
    if a.pure && b.pure && negation a b then
      some (.alwaysTrue (n + 1) :: ((List.range es.length).map fun k => .unreachable (n + 2 + k)) ++
        if hasElse then [.unreachable (n + 2 + es.length)] else [])
    else elifInsteadOfElse negation hasElse (b :: es) (n + 1)
  | _, _ => none

/-- `_test_pureness_and_initialize_variables_for_if`, `edulint/linting/checkers/simplifiable_if.py:644-665`: the branches after the first one whose test is a problem. -/
def afterProblem : List (Entry α ν) → Option (Nat × List (Entry α ν))
  | [] => none
  | e :: es => if e.fine then (afterProblem es).map fun p => (p.1 + 1, p.2) else some (1, es)

theorem afterProblem_length : ∀ {es : List (Entry α ν)} {k : Nat} {rest : List (Entry α ν)}, afterProblem es = some (k, rest) → rest.length < es.length
  | [], _, _, h => by cases h
  | e :: es, k, rest, h => by
    rw [afterProblem] at h
    split at h
    · cases ha : afterProblem es with
      | none => simp [ha] at h
      | some p =>
        simp only [ha, Option.map_some, Option.some.injEq, Prod.mk.injEq] at h
        have := afterProblem_length (es := es) (k := p.1) (rest := p.2) ha
        rw [← h.2, List.length_cons]
        omega
    · simp only [Option.some.injEq, Prod.mk.injEq] at h
      simp [← h.2]

/-- `_check_for_redundant_condition_part_in_if`, `edulint/linting/checkers/simplifiable_if.py:1041-1093`, for an `if` that is no `elif`, or for branches of one if reordering is skipped. -/
def checkWhole (imp : Cond α → Cond α → Bool) (short : ν → Bool) (simple : List (Cond α × ν)) (negation : Entry α ν → Entry α ν → Bool) (hasElse : Bool)
    (skipReordering : Bool) (es : List (Entry α ν)) : Except PyErr (List (Report ν)) :=
  if es.length < 2 then .ok []
  else
    match (if skipReordering then none else elifInsteadOfElse negation hasElse es 1) with
    | some reports => .ok reports
    | none =>
      match _h : afterProblem es with
      | some (k, rest) => (checkWhole imp short simple negation hasElse true rest).map fun rs => rs.map (Report.shift k)
      | none => checkIf imp short simple skipReordering (es.map (·.test)) hasElse
termination_by es.length
decreasing_by exact afterProblem_length _h

end

end Verif.Elif

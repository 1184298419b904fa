import Verif.Base.Str

/-!
Which checks are executed: `only_required_for_messages` and the conditions on `is_message_enabled` in the visits of the checkers.

What the checks find is given. In pylint, a visit with `only_required_for_messages` is executed if any of the messages is enabled, and a message that was never
registered counts as enabled. Messages that are enabled or disabled by comments in the file are not modelled.
-/

namespace Verif.Requirements

/-- What is executed in a visit if any of the messages of `guard` is enabled (or if it is empty), with the messages that may be added. -/
structure Check where
  guard : List Str
  emits : List Str

/-- A visit with the messages that it is required for; `none` if it is always. -/
structure Visit where
  required : Option (List Str)
  checks : List Check

/-- `linter.is_message_enabled`: the state of a message is set when it is registered. -/
def isEnabled (state : Str → Option Bool) (m : Str) : Bool := (state m).getD true

/-- A visit is executed. -/
def runs (state : Str → Option Bool) (v : Visit) : Bool :=
  match v.required with
  | none => true
  | some ms => ms.any (isEnabled state)

/-- A check is executed. -/
def executed (state : Str → Option Bool) (c : Check) : Bool := c.guard.isEmpty || c.guard.any (isEnabled state)

/-- The messages that are reported at one node, where `found` tells what the checks find; `add_message` omits those that are not enabled. -/
def report (state : Str → Option Bool) (found : Check → Str → Bool) (v : Visit) : List Str :=
  if runs state v then
    v.checks.flatMap fun c => if executed state c then c.emits.filter fun m => found c m && isEnabled state m else []
  else []

/-- `NoGlobalVars.visit_module`, `edulint/linting/checkers/basic_checker.py:25-56`. -/
def globalVarsModule : Visit where
  required := none
  checks := [⟨[], ["no-global-vars".toList]⟩]

/-- `LongCodeChecker.visit_module`, `edulint/linting/checkers/basic_checker.py:75-81`. -/
def longCodeModule : Visit where
  required := some ["long-script".toList]
  checks := [⟨[], ["long-script".toList]⟩]

/-- `LongCodeChecker.visit_functiondef`, `edulint/linting/checkers/basic_checker.py:83-89`. -/
def longCodeFunctionDef : Visit where
  required := some ["long-function".toList]
  checks := [⟨[], ["long-function".toList]⟩]

/-- `Local.visit_call`, `edulint/linting/checkers/local_defects.py:707-711`. -/
def localCall : Visit where
  required := some ["use-append".toList, "use-isdecimal".toList, "use-integral-division".toList]
  checks :=
    [⟨[], ["use-append".toList]⟩,
     ⟨[], ["use-isdecimal".toList]⟩,
     ⟨[], ["use-integral-division".toList]⟩]

/-- `Local.visit_augassign`, `edulint/linting/checkers/local_defects.py:713-716`. -/
def localAugAssign : Visit where
  required := some ["use-append".toList, "redundant-arithmetic".toList]
  checks :=
    [⟨[], ["use-append".toList]⟩,
     ⟨[], ["redundant-arithmetic".toList]⟩]

/-- `Local.visit_while`, `edulint/linting/checkers/local_defects.py:718-720`. -/
def localWhile : Visit where
  required := some ["no-loop-else".toList]
  checks := [⟨[], ["no-loop-else".toList]⟩]

/-- `Local.visit_for`, `edulint/linting/checkers/local_defects.py:722-725`. -/
def localFor : Visit where
  required := some ["no-loop-else".toList, "at-most-one-iteration-for-loop".toList]
  checks :=
    [⟨[], ["no-loop-else".toList]⟩,
     ⟨[], ["at-most-one-iteration-for-loop".toList]⟩]

/-- `Local.visit_if`, `edulint/linting/checkers/local_defects.py:727-731`. -/
def localIf : Visit where
  required := some ["use-elif".toList, "redundant-elif".toList, "use-early-return".toList]
  checks :=
    [⟨[], ["use-elif".toList]⟩,
     ⟨[], ["redundant-elif".toList, "unreachable-else".toList]⟩,
     ⟨[], ["use-early-return".toList]⟩]

/-- `Local.visit_binop`, `edulint/linting/checkers/local_defects.py:733-740`. -/
def localBinOp : Visit where
  required := some ["no-repeated-op".toList, "redundant-arithmetic".toList, "do-not-multiply-mutable".toList, "use-ord-letter".toList]
  checks :=
    [⟨[], ["no-repeated-op".toList]⟩,
     ⟨[], ["redundant-arithmetic".toList]⟩,
     ⟨[], ["do-not-multiply-mutable".toList]⟩,
     ⟨[], ["use-ord-letter".toList]⟩]

/-- `Local.visit_assign`, `edulint/linting/checkers/local_defects.py:742-744`. -/
def localAssign : Visit where
  required := some ["use-augmented-assign".toList]
  checks := [⟨[], ["use-augmented-assign".toList]⟩]

/-- `Local.visit_annassign`, `edulint/linting/checkers/local_defects.py:746-748`. -/
def localAnnAssign : Visit where
  required := some ["use-augmented-assign".toList]
  checks := [⟨[], ["use-augmented-assign".toList]⟩]

/-- `Local.visit_compare`, `edulint/linting/checkers/local_defects.py:750-760`. -/
def localCompare : Visit where
  required := some ["no-is-bool".toList, "magical-constant-in-ord-compare".toList, "in-range-instead-of-compare-small".toList, "in-range-instead-of-compare-step".toList,
    "in-range-instead-of-compare".toList]
  checks :=
    [⟨[], ["no-is-bool".toList]⟩,
     ⟨[], ["use-literal-letter".toList]⟩,
     ⟨[], ["in-range-instead-of-compare-small".toList, "in-range-instead-of-compare".toList, "in-range-instead-of-compare-step".toList]⟩]

/-- `NoDuplicateCode.visit_if`, `edulint/linting/checkers/old_duplication_checker.py:255-258`. -/
def oldDuplicationIf : Visit where
  required := some ["duplicate-if-branches".toList, "duplicate-seq-ifs".toList]
  checks :=
    [⟨[], ["duplicate-if-branches".toList]⟩,
     ⟨[], ["duplicate-seq-ifs".toList]⟩]

/-- `NoDuplicateCode.visit_module`, `edulint/linting/checkers/old_duplication_checker.py:667-671`. -/
def oldDuplicationModule : Visit where
  required := some ["duplicate-exprs".toList, "duplicate-blocks".toList, "duplicate-sequence".toList]
  checks :=
    [⟨[], ["duplicate-exprs".toList]⟩,
     ⟨[], ["duplicate-blocks".toList]⟩,
     ⟨[], ["duplicate-sequence".toList]⟩]

/-- `InvalidForTargetChecker.visit_for`, `edulint/linting/checkers/python_ta_checkers.py:40-44`. -/
def forTargetFor : Visit where
  required := some ["invalid-for-target".toList]
  checks := [⟨[], ["invalid-for-target".toList]⟩]

/-- `InvalidForTargetChecker.visit_comprehension`, `edulint/linting/checkers/python_ta_checkers.py:46-50`. -/
def forTargetComprehension : Visit where
  required := some ["invalid-for-target".toList]
  checks := [⟨[], ["invalid-for-target".toList]⟩]

/-- `OneIterationChecker.visit_for`, `edulint/linting/checkers/python_ta_checkers.py:70-73`. -/
def oneIterationFor : Visit where
  required := some ["one-iteration".toList]
  checks := [⟨[], ["one-iteration".toList]⟩]

/-- `OneIterationChecker.visit_while`, `edulint/linting/checkers/python_ta_checkers.py:75-78`. -/
def oneIterationWhile : Visit where
  required := some ["one-iteration".toList]
  checks := [⟨[], ["one-iteration".toList]⟩]

/-- `ShadowingInComprehensionChecker.visit_comprehension`, `edulint/linting/checkers/python_ta_checkers.py:121-135`. -/
def shadowingComprehension : Visit where
  required := some ["shadowing-in-comprehension".toList]
  checks := [⟨[], ["shadowing-in-comprehension".toList]⟩]

/-- `TopLevelCodeChecker.visit_module`, `edulint/linting/checkers/python_ta_checkers.py:152-161`. -/
def topLevelModule : Visit where
  required := some ["forbidden-top-level-code".toList]
  checks := [⟨[], ["forbidden-top-level-code".toList]⟩]

/-- `SimplifiableIf.visit_if`, `edulint/linting/checkers/simplifiable_if.py:1343-1389`. -/
def simplifiableIf : Visit where
  required := some ["simplifiable-if-return".toList, "simplifiable-if-return-conj".toList, "simplifiable-if-assignment".toList, "simplifiable-if-assignment-conj".toList,
    "simplifiable-if-pass".toList, "no-value-in-one-branch-return".toList, "simplifiable-if-nested".toList, "simplifiable-if-seq".toList,
    "redundant-condition-part-in-elif-reorder".toList, "redundant-condition-part-in-elif".toList, "condition-always-true-in-elif".toList,
    "condition-always-false-in-elif".toList, "unreachable-elif-else".toList, "use-if-elif-else".toList, "use-if-elif-else-modifying".toList]
  checks :=
    [⟨["simplifiable-if-return".toList, "simplifiable-if-return-conj".toList, "simplifiable-if-assignment".toList, "simplifiable-if-assignment-conj".toList,
       "simplifiable-if-pass".toList, "no-value-in-one-branch-return".toList, "simplifiable-if-nested".toList, "simplifiable-if-seq".toList],
       ["simplifiable-if-pass".toList, "no-value-in-one-branch-return".toList, "simplifiable-if-nested".toList, "simplifiable-if-seq".toList,
       "simplifiable-if-return".toList, "simplifiable-if-return-conj".toList, "simplifiable-if-assignment".toList, "simplifiable-if-assignment-conj".toList]⟩,
     ⟨["redundant-condition-part-in-elif-reorder".toList, "redundant-condition-part-in-elif".toList, "condition-always-true-in-elif".toList,
       "condition-always-false-in-elif".toList, "unreachable-elif-else".toList], ["redundant-condition-part-in-elif-reorder".toList,
       "condition-always-true-in-elif".toList, "redundant-condition-part-in-elif".toList, "condition-always-false-in-elif".toList, "unreachable-elif-else".toList]⟩,
     ⟨["use-if-elif-else".toList, "use-if-elif-else-modifying".toList], ["use-if-elif-else".toList, "use-if-elif-else-modifying".toList]⟩]

/-- `SimplifiableIf.visit_ifexp`, `edulint/linting/checkers/simplifiable_if.py:1391-1404`. -/
def simplifiableIfExp : Visit where
  required := some ["simplifiable-if-expr".toList, "simplifiable-if-expr-conj".toList]
  checks := [⟨[], ["simplifiable-if-expr".toList, "simplifiable-if-expr-conj".toList]⟩]

/-- `SimplifiableIf.visit_boolop`, `edulint/linting/checkers/simplifiable_if.py:2280-2290`; the condition is at `edulint/linting/checkers/simplifiable_if.py:2274-2278`. -/
def simplifiableBoolOp : Visit where
  required := some ["simplifiable-with-abs".toList, "redundant-compare-in-condition".toList, "redundant-compare-avoidable-with-max-min".toList,
    "using-compare-instead-of-equal".toList, "simplifiable-test-by-equals".toList, "redundant-condition-part".toList, "condition-always-true-or-false".toList]
  checks :=
    [⟨[], ["redundant-compare-in-condition".toList, "using-compare-instead-of-equal".toList, "simplifiable-with-abs".toList,
       "redundant-compare-avoidable-with-max-min".toList, "simplifiable-test-by-equals".toList]⟩,
     ⟨["redundant-condition-part".toList, "condition-always-true-or-false".toList], ["condition-always-true-or-false".toList, "redundant-condition-part".toList]⟩]

/-- `SimplifiableIf.visit_compare`, `edulint/linting/checkers/simplifiable_if.py:2292-2310`. -/
def simplifiableCompare : Visit where
  required := some ["condition-always-true-or-false".toList]
  checks := [⟨[], ["condition-always-true-or-false".toList]⟩]

/-- `UnsuitedLoop.visit_while`, `edulint/linting/checkers/unsuited_loop.py:251-261`. -/
def unsuitedWhile : Visit where
  required := some ["no-while-true".toList, "use-for-loop".toList, "explicit-infinite-loop".toList, "implicit-infinite-loop".toList]
  checks :=
    [⟨[], ["no-while-true".toList]⟩,
     ⟨[], ["use-for-loop".toList]⟩,
     ⟨["implicit-infinite-loop".toList, "explicit-infinite-loop".toList], ["explicit-infinite-loop".toList, "implicit-infinite-loop".toList]⟩]

/-- `UnsuitedLoop.visit_for`, `edulint/linting/checkers/unsuited_loop.py:515-527`. -/
def unsuitedFor : Visit where
  required := some ["use-tighter-boundaries".toList, "modifying-iterated-structure".toList, "changing-control-variable".toList, "loop-shadows-control-variable".toList,
    "use-enumerate".toList, "use-foreach".toList]
  checks :=
    [⟨[], ["use-tighter-boundaries".toList]⟩,
     ⟨[], ["modifying-iterated-structure".toList]⟩,
     ⟨[], ["loop-shadows-control-variable".toList, "changing-control-variable".toList]⟩,
     ⟨[], ["use-enumerate".toList, "use-foreach".toList]⟩]

/-- The visits of the checkers besides that of the duplication checker, whose messages depend on each other (see `IfAttempts`). -/
def visits : List Visit := [globalVarsModule, longCodeModule, longCodeFunctionDef, localCall, localAugAssign, localWhile, localFor, localIf, localBinOp, localAssign,
  localAnnAssign, localCompare, oldDuplicationIf, oldDuplicationModule, forTargetFor, forTargetComprehension, oneIterationFor, oneIterationWhile, shadowingComprehension,
  topLevelModule, simplifiableIf, simplifiableIfExp, simplifiableBoolOp, simplifiableCompare, unsuitedWhile, unsuitedFor]

/-- The messages, `edulint/linting/checkers/basic_checker.py:17-23`. -/
def globalVarsMsgs : List (Str × Str) := [("R6401".toList, "no-global-vars".toList)]

/-- The messages, `edulint/linting/checkers/basic_checker.py:61-73`. -/
def longCodeMsgs : List (Str × Str) := [("R6701".toList, "long-script".toList), ("R6702".toList, "long-function".toList)]

/-- The messages, `edulint/linting/checkers/duplication/checker.py:271-371`. -/
def duplicationMsgs : List (Str × Str) := [("R6501".toList, "identical-if-branches".toList), ("R6502".toList, "identical-if-branches-part".toList), ("R6503".toList,
  "identical-seq-ifs".toList), ("R6504".toList, "identical-seq-elifs".toList), ("R6551".toList, "similar-block-to-function".toList), ("R6552".toList,
  "similar-block-to-loop-range".toList), ("R6560".toList, "similar-block-to-loop-collection".toList), ("R6553".toList, "similar-block-to-loop-merge".toList),
  ("R6554".toList, "similar-block-to-call".toList), ("R6555".toList, "similar-if-to-use".toList), ("R6556".toList, "similar-if-into-block".toList), ("R6557".toList,
  "similar-if-to-untwisted".toList), ("R6558".toList, "similar-if-to-expr".toList), ("R6559".toList, "similar-if-to-extracted".toList), ("R6561".toList,
  "similar-if-to-list".toList), ("R6562".toList, "similar-if-to-dict".toList)]

/-- The messages, `edulint/linting/checkers/local_defects.py:24-127`. -/
def localMsgs : List (Str × Str) := [("R6600".toList, "noop".toList), ("R6601".toList, "use-append".toList), ("R6602".toList, "use-integral-division".toList),
  ("R6603".toList, "use-isdecimal".toList), ("R6604".toList, "no-loop-else".toList), ("R6605".toList, "use-elif".toList), ("R6606".toList,
  "at-most-one-iteration-for-loop".toList), ("R6607".toList, "no-repeated-op".toList), ("R6608".toList, "redundant-arithmetic".toList), ("R6609".toList,
  "use-augmented-assign".toList), ("R6610".toList, "do-not-multiply-mutable".toList), ("R6611".toList, "redundant-elif".toList), ("R6612".toList,
  "unreachable-else".toList), ("R6613".toList, "no-is-bool".toList), ("R6614".toList, "use-ord-letter".toList), ("R6615".toList, "use-literal-letter".toList),
  ("R6616".toList, "use-early-return".toList), ("R6617".toList, "in-range-instead-of-compare-small".toList), ("R6618".toList, "in-range-instead-of-compare".toList),
  ("R6619".toList, "in-range-instead-of-compare-step".toList)]

/-- The messages, `edulint/linting/checkers/old_duplication_checker.py:224-253`. -/
def oldDuplicationMsgs : List (Str × Str) := [("R6595".toList, "duplicate-if-branches".toList), ("R6596".toList, "duplicate-seq-ifs".toList), ("R6597".toList,
  "duplicate-exprs".toList), ("R6598".toList, "duplicate-blocks".toList), ("R6599".toList, "duplicate-sequence".toList)]

/-- The messages, `edulint/linting/checkers/python_ta_checkers.py:27-34`. -/
def forTargetMsgs : List (Str × Str) := [("E9984".toList, "invalid-for-target".toList)]

/-- The messages, `edulint/linting/checkers/python_ta_checkers.py:57-64`. -/
def oneIterationMsgs : List (Str × Str) := [("E9996".toList, "one-iteration".toList)]

/-- The messages, `edulint/linting/checkers/python_ta_checkers.py:110-116`. -/
def shadowingMsgs : List (Str × Str) := [("E9988".toList, "shadowing-in-comprehension".toList)]

/-- The messages, `edulint/linting/checkers/python_ta_checkers.py:140-147`. -/
def topLevelMsgs : List (Str × Str) := [("E9992".toList, "forbidden-top-level-code".toList)]

/-- The messages, `edulint/linting/checkers/simplifiable_if.py:281-423`. -/
def simplifiableMsgs : List (Str × Str) := [("R6201".toList, "simplifiable-if-return".toList), ("R6202".toList, "simplifiable-if-return-conj".toList), ("R6203".toList,
  "simplifiable-if-assignment".toList), ("R6210".toList, "simplifiable-if-assignment-conj".toList), ("R6204".toList, "simplifiable-if-expr".toList), ("R6209".toList,
  "simplifiable-if-expr-conj".toList), ("R6205".toList, "simplifiable-if-pass".toList), ("R6206".toList, "no-value-in-one-branch-return".toList), ("R6207".toList,
  "simplifiable-if-nested".toList), ("R6208".toList, "simplifiable-if-seq".toList), ("R6211".toList, "simplifiable-with-abs".toList), ("R6212".toList,
  "redundant-compare-in-condition".toList), ("R6213".toList, "redundant-compare-avoidable-with-max-min".toList), ("R6214".toList, "using-compare-instead-of-equal".toList),
  ("R6215".toList, "simplifiable-test-by-equals".toList), ("R6216".toList, "redundant-condition-part".toList), ("R6217".toList, "unreachable-elif-else".toList),
  ("R6218".toList, "condition-always-true-in-elif".toList), ("R6219".toList, "redundant-condition-part-in-elif".toList), ("R6220".toList,
  "redundant-condition-part-in-elif-reorder".toList), ("R6221".toList, "condition-always-false-in-elif".toList), ("R6222".toList, "condition-always-true-or-false".toList),
  ("R6223".toList, "use-if-elif-else".toList), ("R6224".toList, "use-if-elif-else-modifying".toList)]

/-- The messages, `edulint/linting/checkers/unsuited_loop.py:39-100`. -/
def unsuitedMsgs : List (Str × Str) := [("R6301".toList, "no-while-true".toList), ("R6302".toList, "use-tighter-boundaries".toList), ("R6303".toList,
  "modifying-iterated-structure".toList), ("R6304".toList, "changing-control-variable".toList), ("R6305".toList, "use-for-loop".toList), ("R6306".toList,
  "loop-shadows-control-variable".toList), ("R6307".toList, "use-foreach".toList), ("R6308".toList, "use-enumerate".toList), ("R6309".toList,
  "explicit-infinite-loop".toList), ("R6310".toList, "implicit-infinite-loop".toList)]

/-- The messages of each checker. -/
def messages : List (List (Str × Str)) := [globalVarsMsgs, longCodeMsgs, duplicationMsgs, localMsgs, oldDuplicationMsgs, forTargetMsgs, oneIterationMsgs, shadowingMsgs,
  topLevelMsgs, simplifiableMsgs, unsuitedMsgs]

end Verif.Requirements

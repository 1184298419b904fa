import Verif.Base.Str

/-!
Which messages are reported for one `if`, `edulint/linting/checkers/duplication/duplicate_if.py:926-1130`.

What the attempts look at and what they find is given.
-/

namespace Verif.IfAttempts

/-- Messages. -/
inductive Sym where
  /-- `identical-if-branches-part` -/
  | part
  /-- `identical-if-branches` -/
  | branches
  /-- `identical-seq-ifs` -/
  | seqIfs
  /-- `identical-seq-elifs` -/
  | seqElifs
  /-- `similar-if-to-untwisted` -/
  | untwisted
  /-- `similar-if-to-use` -/
  | use
  /-- `similar-if-into-block` -/
  | block
  /-- `similar-if-to-list` -/
  | list
  /-- `similar-if-to-dict` -/
  | dict
  /-- `similar-if-to-expr` -/
  | expr
  /-- `similar-if-to-extracted` -/
  | extracted
deriving DecidableEq

/-- What is known of an `if`. -/
structure If where
  /-- it is an `elif` of another one -/
  isElif : Bool
  endsWithElse : Bool
  /-- all branches of the `if` around it have an `if` -/
  oneOfParents : Bool
  /-- it is the first of those that follow each other -/
  first : Bool
  /-- what is reported by `identical_before_after_branch`, `edulint/linting/checkers/duplication/duplicate_if.py:198-251` -/
  part : List Sym
  /-- what is reported by `identical_seq_ifs`, `edulint/linting/checkers/duplication/duplicate_if.py:257-307` -/
  seq : List Sym
  /-- the number of what differs between the branches, if these are similar -/
  avars : Option Nat
  otherDuplication : Bool
  testsChange : Bool
  called : Bool
  /-- there is such a way to write it, and it is shorter -/
  untwisted : Bool
  use : Bool
  block : Bool
  expr : Bool
  extracted : Bool
  /-- what is reported by `get_fixed_by_container` -/
  container : Option Sym

/-- `shared_for_similar`, `edulint/linting/checkers/duplication/duplicate_if.py:926-933` -/
def If.similar (f : If) : Bool := f.endsWithElse && !f.oneOfParents && f.avars.isSome && !f.otherDuplication

/-- `FixAttempt`, `edulint/linting/checkers/duplication/duplicate_if.py:941-952`: `found` is what is reported, and whether the attempt is successful. -/
structure Attempt where
  symbols : List Sym
  run : If → Bool
  found : If → List Sym × Bool
  checkEnabled : Bool
  firstBody : Bool

/-- One message, if there is such a way to write it. -/
def one (s : Sym) (b : Bool) : List Sym × Bool := (if b then [s] else [], b)

/-- The attempts, `edulint/linting/checkers/duplication/duplicate_if.py:989-1117`. `get_fixed_by_container` returns nothing or `False`. -/
def attempts : List Attempt := [
  ⟨[.part], (·.endsWithElse), fun f => (f.part, !f.part.isEmpty), false, true⟩,
  ⟨[.seqIfs, .seqElifs], fun _ => true, fun f => (f.seq, !f.seq.isEmpty), false, true⟩,
  ⟨[.branches], (·.similar), fun f => one .branches (f.avars == some 0), false, false⟩,
  ⟨[.untwisted], fun f => f.similar && !f.testsChange, fun f => one .untwisted f.untwisted, true, false⟩,
  ⟨[.use], fun f => f.similar && !f.testsChange, fun f => one .use f.use, true, false⟩,
  ⟨[.block], fun f => f.similar && !f.testsChange, fun f => one .block f.block, true, false⟩,
  ⟨[.list, .dict], fun f => !f.oneOfParents && f.first, fun f => (f.container.toList, false), true, false⟩,
  ⟨[.expr], fun f => f.similar && !f.testsChange && !f.called, fun f => one .expr f.expr, true, false⟩,
  ⟨[.extracted], fun f => f.similar && !f.called, fun f => one .extracted f.extracted, true, false⟩]

/-- The loop, `edulint/linting/checkers/duplication/duplicate_if.py:1118-1130` -/
def tryAll (enabled : Sym → Bool) (f : If) : List Attempt → List Sym × Bool × Bool
  | [] => ([], false, false)
  | a :: as =>
    if (!a.checkEnabled || a.symbols.any enabled) && a.run f then
      if (a.found f).2 then ((a.found f).1, true, a.firstBody) else ((a.found f).1 ++ (tryAll enabled f as).1, (tryAll enabled f as).2)
    else tryAll enabled f as

/-- `duplicate_in_if`, `edulint/linting/checkers/duplication/duplicate_if.py:983-1130`: what is reported, as messages that are not enabled are not, whether there
is a duplication, and whether the first branch is looked at further. -/
def duplicateInIf (enabled : Sym → Bool) (f : If) : List Sym × Bool × Bool :=
  if f.isElif then ([], false, false) else ((tryAll enabled f attempts).1.filter enabled, (tryAll enabled f attempts).2)

end Verif.IfAttempts

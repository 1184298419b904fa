import Verif.Base.Str
import Verif.Model.LoopMerge

/-!
Blocks that could be calls of a new function: `similar_to_function`, `edulint/linting/checkers/duplication/duplicate_block.py:39-145`, with the
numbers of tokens and of statements, `edulint/linting/analyses/utils.py:528-597`.

Trees have only what matters for the numbers: names, constants and operators are not told apart. What the analysis of data says is given: which
variables are defined before a block and used in it, which are used after it, and how many statements leave it. Values that differ among blocks
are nodes, names or constants; lists do not occur, as anti-unification goes into those of the same length and ends at others. There is one value
for each block. Asynchronous loops are not told apart from the others (astroid visits them as other nodes, so that their `else` is not a token).
-/

namespace Verif.Extract

/-- The shape of a syntax tree. -/
inductive T where
  /-- a place where blocks differ, `AunifyVar` -/
  | hole (v : Nat)
  /-- any other node, be it an expression or a statement -/
  | node (kids : List T)
  /-- an expression that is a statement, `nodes.Expr` -/
  | value (e : T)
  /-- `a if b else c` -/
  | ifExp (test body orelse : T)
  /-- `if`, `for` and `while`; `isMain` is `is_main_block` -/
  | branch (isIf isMain : Bool) (head body orelse : List T)
  /-- a function or a class -/
  | def_ (head body : List T)
  | import_
  | try_ (body handlers orelse final : List T)
  | handler (head body : List T)
  | with_ (head body : List T)

/-- `has_elif_block` of astroid. -/
def hasElif : List T → Bool
  | [.branch true _ _ _ _] => true
  | _ => false

/-- `has_else_block`, `edulint/linting/analyses/utils.py:482-485`, of a statement -/
def hasElse (isIf : Bool) (orelse : List T) : Bool := !orelse.isEmpty && (!isIf || !hasElif orelse)

mutual
/-- `TokenCountingVisitor.visit`, `edulint/linting/analyses/utils.py:566-589`, with `generic_visit`, `edulint/linting/analyses/utils.py:114-119` -/
def tok : T → Nat
  | .hole _ => 1
  | .node kids => toks kids + 1
  | .value e => tok e
  | .ifExp a b c => tok a + tok b + tok c + 1 + 1
  | .branch isIf _ head body orelse => toks head + toks body + toks orelse + 1 + (if hasElse isIf orelse then 1 else 0)
  | .def_ head body => toks head + toks body + 1
  | .import_ => 1
  | .try_ body handlers orelse final => toks body + toks handlers + toks orelse + toks final + 1
  | .handler head body => toks head + toks body + 1
  | .with_ head body => toks head + toks body + 1

/-- `get_token_count` of a list, `edulint/linting/analyses/utils.py:592-597`: the one that `combine` adds is taken off. -/
def toks : List T → Nat
  | [] => 0
  | t :: ts => tok t + toks ts
end

mutual
/-- `get_statements_count`, `edulint/linting/analyses/utils.py:528-563` -/
def count (defs main : Bool) : T → Nat
  | .def_ _ body => if defs then 1 + counts defs main body else 0
  | .import_ => if defs then 1 else 0
  | .branch isIf isMain _ body orelse =>
    if isMain && !main then 0 else 1 + counts defs main body + (if hasElse isIf orelse then 1 else 0) + counts defs main orelse
  | .try_ body handlers orelse final => 2 + counts defs main body + handled defs main handlers + counts defs main orelse + counts defs main final
  | .with_ _ body => 1 + counts defs main body
  | _ => 1

/-- `get_statements_count` of a list, `edulint/linting/analyses/utils.py:531-535` -/
def counts (defs main : Bool) : List T → Nat
  | [] => 0
  | t :: ts => count defs main t + counts defs main ts

/-- The sum over the handlers, `edulint/linting/analyses/utils.py:555` -/
def handled (defs main : Bool) : List T → Nat
  | [] => 0
  | .handler _ body :: hs => counts defs main body + handled defs main hs
  | _ :: hs => handled defs main hs
end

/-- What is in one of the blocks where they differ: values with the same `key` are equal for Python, `type` is their type, and `tree` is what `to_node`
gives for it, `edulint/linting/checkers/duplication/utils.py:91-97`. -/
structure Sub where
  key : Nat
  type : Nat
  tree : T

/-- `type_mismatch` without anything that is allowed, `edulint/linting/checkers/duplication/utils.py:25-33`; there is one list of values for each
place where blocks differ. -/
def typeMismatch (avars : List (List Sub)) : Bool :=
  avars.any fun subs => subs.any fun a => subs.any fun b => a.type != b.type

/-- `seen`, `edulint/linting/checkers/duplication/duplicate_block.py:41-48` -/
def seen : List (List Sub) → List (List Sub) → List (List Sub)
  | acc, [] => acc
  | acc, a :: as => if acc.any (fun b => b.map (·.key) == a.map (·.key)) then seen acc as else seen (acc ++ [a]) as

/-- Variables are told apart by their names and scopes, `edulint/linting/analyses/var_events.py:22-25`. -/
structure Var where
  name : Str
  scope : Nat
  deriving DecidableEq

/-- What is known about the blocks: the line and the statements of each, what they have in common, where they differ, for each the variables that are
defined before and those that are used after, and how many of the statements in common leave it. -/
structure Blocks where
  parts : List (Nat × List T)
  core : List T
  avars : List (List Sub)
  before : List (List Var)
  after : List (List Var)
  control : Nat

/-- A name or a constant. -/
def leaf : T := .node []

/-- `extra_args`, `edulint/linting/checkers/duplication/duplicate_block.py:51-53` -/
def extra (B : Blocks) : List Var := B.before.flatten.eraseDups

/-- `return_vals_needed`, `edulint/linting/checkers/duplication/duplicate_block.py:54-56` -/
def returned (B : Blocks) : Nat := (B.after.map (·.length)).sum

/-- What the call of the new function has for the block `i`, `edulint/linting/checkers/duplication/duplicate_block.py:62` and `66-67` -/
def args (B : Blocks) (i : Nat) : List T :=
  (seen [] B.avars).filterMap (fun s => s[i]?.map (·.tree)) ++ (extra B).map fun _ => leaf

/-- The call, `edulint/linting/checkers/duplication/duplicate_block.py:63-68` -/
def call (B : Blocks) (i : Nat) : T := .node (leaf :: args B i)

/-- `if <r0> is None: return`, `edulint/linting/checkers/duplication/duplicate_block.py:84-92` -/
def leaves : T := .branch true false [.node [leaf, leaf]] [leaf] []

/-- What replaces the block `i`, `edulint/linting/checkers/duplication/duplicate_block.py:69-93` -/
def replaced (B : Blocks) (i : Nat) : List T :=
  if returned B + B.control = 0 then [call B i]
  else .node (List.replicate (B.control + returned B) leaf ++ [call B i]) :: List.replicate B.control leaves

/-- `calls`, `edulint/linting/checkers/duplication/duplicate_block.py:60-93` -/
def calls (B : Blocks) : List T := (List.range B.parts.length).flatMap (replaced B)

/-- The new function, `edulint/linting/checkers/duplication/duplicate_block.py:96-105` -/
def function (B : Blocks) : T := .def_ [.node ((seen [] B.avars).map (fun _ => leaf) ++ (extra B).map fun _ => leaf)] B.core

/-- `similar_to_function`, `edulint/linting/checkers/duplication/duplicate_block.py:107-145`: the arguments of the message. -/
def toFunction (B : Blocks) : Option (Nat × Nat × List Nat) :=
  if typeMismatch B.avars then none
  else if LoopMerge.saves (B.parts.map fun p => toks p.2).sum (B.parts.map fun p => counts false true p.2).sum
      (toks (calls B) + tok (function B)) (counts false true (calls B) + count false true (function B)) then
    some (B.parts.length, counts false true B.core, B.parts.map (·.1))
  else none

end Verif.Extract

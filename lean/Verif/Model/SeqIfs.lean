import Verif.Base.Str

/-!
`if`s that follow each other and have the same bodies: `duplicate-seq-ifs`, `edulint/linting/checkers/old_duplication_checker.py:323-397`.

An `if` with its `elif`s is a chain. Conditions are of any type, and so are bodies, which are compared as a whole instead of by the texts of their statements.
Lines and columns of messages are left out.
-/

namespace Verif.SeqIfs

/-- An `if` with its `elif`s, and whether there is an `else`. -/
structure Chain (C B : Type) where
  branches : List (C × B)
  hasElse : Bool

/-- A statement of a block. -/
inductive Stmt (C B : Type) where
  | chain (c : Chain C B)
  | other (n : Nat)

/-- An `if` or an `elif` of `seq_ifs`: the chain that it is in, its place in it, its condition and its body. -/
structure Branch (C B : Type) where
  chain : Nat
  pos : Nat
  cond : C
  body : B

/-- The branches of a chain, `extract_from_elif`, `edulint/linting/checkers/old_duplication_checker.py:328-339`. -/
def number (k : Nat) (c : Chain C B) : List (Branch C B) :=
  c.branches.zipIdx.map fun p => ⟨k, p.2, p.1.1, p.1.2⟩

/-- `extract_from_siblings`, `edulint/linting/checkers/old_duplication_checker.py:341-349`. -/
def siblings : Nat → List (Stmt C B) → List (Branch C B)
  | k, .chain c :: rest => if c.hasElse then [] else number k c ++ siblings (k + 1) rest
  | _, _ => []

/-- `seq_ifs[start].parent in seq_ifs[i].node_ancestors()`, `edulint/linting/checkers/old_duplication_checker.py:355`: the parent of an `if` is the parent of all
that follows, the parent of an `elif` is the `if` or `elif` before. -/
def below (start b : Branch C B) : Bool := start.pos == 0 || start.chain == b.chain

/-- The branches counted by `same_ifs_count`, `edulint/linting/checkers/old_duplication_checker.py:351-364`, after the first one. -/
def same [DecidableEq B] (start : Branch C B) (rest : List (Branch C B)) : List (Branch C B) :=
  rest.takeWhile fun b => below start b && decide (b.body = start.body)

/-- The loop, `edulint/linting/checkers/old_duplication_checker.py:381-397`: the branches that are taken together; `limit` is at least their number. -/
def runs [DecidableEq B] : Nat → List (Branch C B) → List (List (Branch C B))
  | 0, _ => []
  | _, [] => []
  | limit + 1, b :: rest => (b :: same b rest) :: runs limit (rest.drop (same b rest).length)

/-- The branches that are looked at for an `if` that is no `elif`, `edulint/linting/checkers/old_duplication_checker.py:366-379`; `prev` is the statement before
it. -/
def seqIfs (prev : Option (Stmt C B)) (c : Chain C B) (rest : List (Stmt C B)) : List (Branch C B) :=
  match prev with
  | some (.chain p) => if !p.hasElse || c.hasElse then [] else number 0 c ++ siblings 1 rest
  | _ => if c.hasElse then [] else number 0 c ++ siblings 1 rest

/-- `duplicate_seq_ifs`, `edulint/linting/checkers/old_duplication_checker.py:323-397`: the branches for which there is one message, for each message. -/
def duplicateSeqIfs [DecidableEq B] (prev : Option (Stmt C B)) (c : Chain C B) (rest : List (Stmt C B)) : List (List (Branch C B)) :=
  (runs (seqIfs prev c rest).length (seqIfs prev c rest)).filter fun r => decide (r.length > 1)

/-- All messages for the statements of a block. -/
def messages [DecidableEq B] : Option (Stmt C B) → List (Stmt C B) → List (List (Branch C B))
  | _, [] => []
  | prev, .chain c :: rest => duplicateSeqIfs prev c rest ++ messages (some (.chain c)) rest
  | _, .other n :: rest => messages (some (.other n)) rest

end Verif.SeqIfs

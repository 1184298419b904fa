import Verif.Base.Str

/-!
Code that branches of `if`s have in common, `edulint/linting/checkers/duplication/duplicate_if.py`, and what `if`s do.

Statements are compared as trees instead of as texts. Statements other than `if` and `return` are not looked into.
An `elif` is an `if` that is alone in the `else` of another one, as it is in the trees that are checked.
-/

namespace Verif.Py.Branches

/-- Conditions. -/
inductive Test where
  | atom (n : Nat)
  | and_ (a b : Test)
  | or_ (a b : Test)
  | not_ (a : Test)
  deriving DecidableEq

/-- Statements as far as the checks look into them. -/
inductive Stmt where
  | if_ (test : Test) (body orelse : List Stmt)
  | simple (isReturn : Bool) (n : Nat)

abbrev Block := List Stmt

mutual
def Stmt.beq : Stmt → Stmt → Bool
  | .if_ t b e, .if_ t' b' e' => decide (t = t') && beqBlock b b' && beqBlock e e'
  | .simple r n, .simple r' n' => decide (r = r') && decide (n = n')
  | _, _ => false

def beqBlock : List Stmt → List Stmt → Bool
  | [], [] => true
  | s :: b, s' :: b' => Stmt.beq s s' && beqBlock b b'
  | _, _ => false
end

mutual
theorem Stmt.beq_iff : ∀ a b : Stmt, Stmt.beq a b = true ↔ a = b
  | .if_ t b e, s => by
    cases s <;> simp [Stmt.beq]
    rw [beqBlock_iff b, beqBlock_iff e]; simp [and_assoc]
  | .simple r n, s => by cases s <;> simp [Stmt.beq]

theorem beqBlock_iff : ∀ a b : List Stmt, beqBlock a b = true ↔ a = b
  | [], b => by cases b <;> simp [beqBlock]
  | s :: a, b => by
    cases b <;> simp [beqBlock]
    rw [Stmt.beq_iff s, beqBlock_iff a]
end

instance : DecidableEq Stmt := fun a b => decidable_of_iff (Stmt.beq a b = true) (Stmt.beq_iff a b)

/-- An `if` statement. -/
structure If where
  test : Test
  body : Block
  orelse : Block

def If.stmt (i : If) : Stmt := .if_ i.test i.body i.orelse

/-! ### The branches of an `if` -/

mutual
/-- `count_nested_ifs`, `edulint/linting/checkers/duplication/duplicate_if.py:54-59` -/
def nestedIfs : List Stmt → Nat
  | [] => 0
  | s :: b => if b.isEmpty then nestedIn s else 0

def nestedIn : Stmt → Nat
  | .if_ _ b e => max (nestedIfs b) (nestedIfs e) + 1
  | .simple _ _ => 0
end

/-- `has_elif_block` of astroid. -/
def hasElif : Block → Bool
  | [.if_ _ _ _] => true
  | _ => false

/-- `has_else_block`, `edulint/linting/analyses/utils.py:482-485`, for `if` statements. -/
def hasElse (orelse : Block) : Bool := !orelse.isEmpty && !hasElif orelse

mutual
/-- The `elif`s, `edulint/linting/checkers/duplication/duplicate_if.py:65-70`. -/
def elifs : List Stmt → List If
  | [] => []
  | s :: b => if b.isEmpty then elifsIn s else []

def elifsIn : Stmt → List If
  | .if_ t b e => ⟨t, b, e⟩ :: elifs e
  | .simple _ _ => []
end

/-- What the last `if` has in its `else`. -/
def elseOf : List If → Block
  | [] => []
  | [i] => i.orelse
  | _ :: is => elseOf is

/-- `extract_from_elif`, `edulint/linting/checkers/duplication/duplicate_if.py:47-74`, without the second parameter. -/
def extractFromElif (i : If) : Bool × List If :=
  if hasElse i.orelse then (true, [i])
  else
    let result := i :: elifs i.orelse
    let nested := nestedIfs i.body
    if nested = 0 ∨ result.length ≤ nested then (hasElse (elseOf result), result)
    else (true, result.take (result.length - nested))

/-- `get_bodies`, `edulint/linting/checkers/duplication/duplicate_if.py:77-83` -/
def getBodies : List If → List Block
  | [] => []
  | [i] => if i.orelse.isEmpty then [i.body] else [i.body, i.orelse]
  | i :: is => i.body :: getBodies is

/-! ### `identical-if-branches` and `identical-if-branches-part` -/

/-- How many statements the first branch has in common with all of the others, from the beginning. -/
def commonPrefix : Block → List Block → Nat
  | [], _ => 0
  | s :: ref, compare =>
    if compare.all (fun b => decide (b.head? = some s)) then commonPrefix ref (compare.map List.tail) + 1 else 0

/-- `get_stmts_difference`, `edulint/linting/checkers/duplication/duplicate_if.py:202-210`. `none` stands for an exception:
when a branch is empty, `i` has no value. -/
def stmtsDifference (branches : List Block) (forward : Bool) : Option Nat :=
  match branches with
  | [] => none
  | ref :: compare =>
    if (ref :: compare).any List.isEmpty then none
    else if forward then some (commonPrefix ref compare)
    else some (commonPrefix ref.reverse (compare.map List.reverse))

/-- What is reported about the branches. -/
inductive Msg where
  | identical
  | before (count : Nat)
  | after (count : Nat)
  deriving DecidableEq

def isReturn : Stmt → Bool
  | .simple r _ => r
  | _ => false

/-- `edulint/linting/checkers/duplication/duplicate_if.py:242-251` -/
def identicalAfter (branches : List Block) : Option (List Msg) :=
  match stmtsDifference branches false with
  | none => none
  | some n =>
    if 1 ≤ n then
      if n = 1 ∧ (((branches.head?.bind List.getLast?).map isReturn).getD false) = true then some []
      else some [.after n]
    else some []

/-- `identical_before_after_branch`, `edulint/linting/checkers/duplication/duplicate_if.py:198-251`: messages in the order in which
they are added. The numbers of statements stand for the numbers of lines. -/
def identicalBranches (branches : List Block) : Option (List Msg) :=
  match stmtsDifference branches true with
  | none => none
  | some n =>
    if 1 ≤ n then
      if branches.all (fun b => decide (n = b.length)) then some [.identical]
      else if branches.any (fun b => decide (n = b.length)) then some [.before n]
      else (identicalAfter branches).map (.before n :: ·)
    else identicalAfter branches

/-- The first attempt of `duplicate_in_if`, `edulint/linting/checkers/duplication/duplicate_if.py:989-998`. -/
def checkBranches (i : If) : Option (List Msg) :=
  if (extractFromElif i).1 then identicalBranches (getBodies (extractFromElif i).2) else some []

/-! ### `identical-seq-ifs` and `identical-seq-elifs` -/

/-- An `if` in a sequence of `if`s and their `elif`s: which of the neighbouring statements it is in, and how deep. -/
structure Entry where
  sib : Nat
  depth : Nat
  node : If

/-- `edulint/linting/checkers/duplication/duplicate_if.py:265`: the parent of `a` is among the ancestors of `b`. `b` comes after `a`.
The parent of an `elif` is the `if` or `elif` before it. All of the neighbours have the same parent. -/
def parentIn (a b : Entry) : Bool := decide (a.depth = 0) || decide (a.sib = b.sib)

/-- `same_ifs_count`, `edulint/linting/checkers/duplication/duplicate_if.py:261-274`, less the first one. -/
def sameIfs (start : Entry) : List Entry → Nat
  | [] => 0
  | e :: es => if parentIn start e && decide (start.node.body = e.node.body) then sameIfs start es + 1 else 0

/-- Which `if` the message is about, and of how many. -/
structure Group where
  sib : Nat
  depth : Nat
  count : Nat
  deriving DecidableEq

/-- The loop of `identical_seq_ifs`, `edulint/linting/checkers/duplication/duplicate_if.py:288-305`: the first `skip` ones belong
to the previous message. -/
def groupsFrom : Nat → List Entry → List Group
  | _, [] => []
  | skip + 1, _ :: es => groupsFrom skip es
  | 0, e :: es =>
    (if sameIfs e es = 0 then [] else [⟨e.sib, e.depth, sameIfs e es + 1⟩]) ++ groupsFrom (sameIfs e es) es

/-- `if`s one below the other. -/
def entriesFrom (sib : Nat) : Nat → List If → List Entry
  | _, [] => []
  | d, i :: is => ⟨sib, d, i⟩ :: entriesFrom sib (d + 1) is

/-- One of the neighbours, `edulint/linting/checkers/duplication/duplicate_if.py:89-93`: the result of `extract_from_elif` is a
pair, which is true in any case. -/
def entriesOf (sib : Nat) (i : If) : List Entry :=
  entriesFrom sib 0 (i :: if hasElse i.orelse then [] else elifs i.orelse)

/-- `extract_from_siblings`, `edulint/linting/checkers/duplication/duplicate_if.py:86-94` -/
def siblingEntries : Nat → List Stmt → List Entry
  | k, .if_ t b e :: next => entriesOf k ⟨t, b, e⟩ ++ siblingEntries (k + 1) next
  | _, _ => []

/-- `seq_ifs`, `edulint/linting/checkers/duplication/duplicate_if.py:872-880` -/
def seqIfs (prev : Option Stmt) (i : If) (next : List Stmt) : Option (List Entry) :=
  match prev with
  | some (.if_ t b e) =>
    if (extractFromElif ⟨t, b, e⟩).1 then some (entriesFrom 0 0 (extractFromElif i).2 ++ siblingEntries 1 next) else none
  | _ => some (entriesFrom 0 0 (extractFromElif i).2 ++ siblingEntries 1 next)

/-- `identical_seq_ifs`, `edulint/linting/checkers/duplication/duplicate_if.py:257-307`, for an `if`, the statement before it and
those after it. The first component is true if the message is `identical-seq-elifs`. -/
def identicalSeqIfs (prev : Option Stmt) (i : If) (next : List Stmt) : Bool × List Group :=
  if (extractFromElif i).1 then (true, groupsFrom 0 (entriesFrom 0 0 (extractFromElif i).2))
  else
    match seqIfs prev i next with
    | none => (false, [])
    | some es => (false, groupsFrom 0 es)

/-! ### `similar-if-to-untwisted` -/

/-- `get_fixed_by_restructuring_twisted`, `edulint/linting/checkers/duplication/duplicate_if.py:367-417`, for an `if` with an
`else`, both with an `if` and nothing else in them. The variants of the core are the `if`s it was made of. There has to be a core,
which depends on more than is looked at here. -/
def untwisted (i : If) : Option If :=
  match i.body, i.orelse with
  | [.if_ t₁ a b], [.if_ t₂ c d] =>
    if decide ((extractFromElif i).2.length > 1) || b.isEmpty || d.isEmpty then none
    else if a = d ∧ b = c then some ⟨.or_ (.and_ i.test t₁) (.and_ (.not_ i.test) (.not_ t₂)), a, b⟩
    else if a = c ∧ b = d then some ⟨.or_ (.and_ i.test t₁) (.and_ (.not_ i.test) t₂), a, b⟩
    else none
  | _, _ => none

/-! ### What the messages suggest -/

/-- `if`s, each in the `else` of the one before. -/
def chain : List If → Block → Block
  | [], e => e
  | i :: is, e => [.if_ i.test i.body (chain is e)]

/-- The same changes in all of the branches. -/
def mapBodies (f : Block → Block) (ifs : List If) : List If := ifs.map fun i => { i with body := f i.body }

/-- `identical-if-branches`: only a branch is left. `identical-if-branches-part`: the common statements of the branches are moved
before the `if`, or after it. -/
def suggested (i : If) : Msg → Block
  | .identical => i.body
  | .before k =>
    i.body.take k ++
      chain (mapBodies (List.drop k) (extractFromElif i).2) ((elseOf (extractFromElif i).2).drop k)
  | .after k =>
    chain (mapBodies (fun b => b.take (b.length - k)) (extractFromElif i).2)
        ((elseOf (extractFromElif i).2).take ((elseOf (extractFromElif i).2).length - k)) ++
      i.body.drop (i.body.length - k)

/-- The conditions of `n` more `if`s are joined with that of an `if` by `or`. The next one is the `elif`, if there is any, and the next
of the neighbours otherwise. There is no way to join them if there is an `else` in between. -/
def join (t : Test) (b : Block) : Nat → Block → List Stmt → Option (List Stmt)
  | 0, e, next => some (.if_ t b e :: next)
  | n + 1, [.if_ t' _ e'], next => join (.or_ t t') b n e' next
  | n + 1, [], .if_ t' _ e' :: next => join (.or_ t t') b n e' next
  | _ + 1, _, _ => none

/-- The same for an `elif`, the given number of `elif`s below. -/
def joinAt (n : Nat) : Nat → Stmt → Option Block
  | 0, .if_ t b e => join t b n e []
  | d + 1, .if_ t b [s] => (joinAt n d s).map fun e => [.if_ t b e]
  | _, _ => none

/-- The `if`s a message is about. -/
def groupEntries (es : List Entry) (g : Group) : List Entry :=
  (es.dropWhile fun x => !(decide (x.sib = g.sib) && decide (x.depth = g.depth))).take g.count

/-- No `if` has an `else`, if the next one is another of the neighbours. -/
def noElseBetween : List Entry → Prop
  | [] => True
  | [_] => True
  | a :: b :: es => (a.sib ≠ b.sib → a.node.orelse = []) ∧ noElseBetween (b :: es)

/-! ### What `if`s do -/

/-- How an execution ends. -/
inductive Out where
  | normal | brk | cont
  | ret (v : Int)
  | raise (x : PyErr)
  deriving DecidableEq

/-- What conditions and simple statements do. Conditions can raise, and change the state. -/
structure Lang (S : Type) where
  test : Nat → S → Except PyErr Bool × S
  simple : Bool → Nat → S → Out → S → Prop

section
variable {S : Type} (L : Lang S)

/-- The truth value of a condition, and the state afterwards. -/
def Lang.eval : Test → S → Except PyErr Bool × S
  | .atom n, s => L.test n s
  | .and_ a b, s =>
    match Lang.eval a s with
    | (.ok true, s') => Lang.eval b s'
    | r => r
  | .or_ a b, s =>
    match Lang.eval a s with
    | (.ok false, s') => Lang.eval b s'
    | r => r
  | .not_ a, s =>
    match Lang.eval a s with
    | (.ok v, s') => (.ok !v, s')
    | r => r

mutual
/-- What executing a statement may do. -/
inductive Run : Stmt → S → Out → S → Prop
  | then_ {t b e s s1 o s2} : L.eval t s = (.ok true, s1) → RunB b s1 o s2 → Run (.if_ t b e) s o s2
  | else_ {t b e s s1 o s2} : L.eval t s = (.ok false, s1) → RunB e s1 o s2 → Run (.if_ t b e) s o s2
  | raise {t b e s x s1} : L.eval t s = (.error x, s1) → Run (.if_ t b e) s (.raise x) s1
  | simple {r n s o s'} : L.simple r n s o s' → Run (.simple r n) s o s'

/-- One after the other. -/
inductive RunB : List Stmt → S → Out → S → Prop
  | nil {s} : RunB [] s .normal s
  | next {st b s s1 o s2} : Run st s .normal s1 → RunB b s1 o s2 → RunB (st :: b) s o s2
  | leave {st b s s1 o} : Run st s o s1 → o ≠ .normal → RunB (st :: b) s o s1
end

/-- Both may do the same. -/
def Same (a b : Block) : Prop := ∀ s o s', RunB L a s o s' ↔ RunB L b s o s'

end

end Verif.Py.Branches

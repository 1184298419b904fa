import Verif.Base.Str

/-!
What is suggested for `if`s whose branches are similar, `edulint/linting/checkers/duplication/duplicate_if.py:424-628`, and what programs do.

What the branches have in common, the core, is code with holes, numbered from 0; for each branch there is something to fill each hole with. Calls with more
arguments are nested.
-/

namespace Verif.SimilarIf

/-- Expressions. -/
inductive Expr where
  | const (k : Nat)
  | bool (b : Bool)
  | name (x : Str)
  | hole (i : Nat)
  /-- a call, or anything else that may change the state -/
  | call (f : Nat) (a b : Expr)
  /-- an operator that computes its value from those of the operands -/
  | op (f : Nat) (a b : Expr)
  | not_ (a : Expr)
  /-- `and`, `or` -/
  | bool_ (isAnd : Bool) (a b : Expr)
  /-- `a if c else b` -/
  | tern (c a b : Expr)
deriving DecidableEq

/-- Statements. -/
inductive Stmt where
  | assign (x : Str) (e : Expr)
  | expr (e : Expr)
  | ret (e : Expr)
  | brk
  | cont
  | if_ (c : Expr) (body orelse : List Stmt)
  | while_ (c : Expr) (body orelse : List Stmt)
  | for_ (x : Str) (it : Expr) (body orelse : List Stmt)
  /-- `try` with one handler for all exceptions -/
  | try_ (body handler orelse final : List Stmt)

abbrev Block := List Stmt

/-! ### Filling holes -/

/-- The holes of an expression are filled. -/
def Expr.fill (σ : Nat → Expr) : Expr → Expr
  | .const k => .const k
  | .bool b => .bool b
  | .name x => .name x
  | .hole i => σ i
  | .call f a b => .call f (a.fill σ) (b.fill σ)
  | .op f a b => .op f (a.fill σ) (b.fill σ)
  | .not_ a => .not_ (a.fill σ)
  | .bool_ c a b => .bool_ c (a.fill σ) (b.fill σ)
  | .tern c a b => .tern (c.fill σ) (a.fill σ) (b.fill σ)

mutual
def Stmt.fill (σ : Nat → Expr) : Stmt → Stmt
  | .assign x e => .assign x (e.fill σ)
  | .expr e => .expr (e.fill σ)
  | .ret e => .ret (e.fill σ)
  | .brk => .brk
  | .cont => .cont
  | .if_ c b o => .if_ (c.fill σ) (fillB σ b) (fillB σ o)
  | .while_ c b o => .while_ (c.fill σ) (fillB σ b) (fillB σ o)
  | .for_ x e b o => .for_ x (e.fill σ) (fillB σ b) (fillB σ o)
  | .try_ b h o f => .try_ (fillB σ b) (fillB σ h) (fillB σ o) (fillB σ f)

/-- The holes of statements are filled. -/
def fillB (σ : Nat → Expr) : List Stmt → List Stmt
  | [] => []
  | s :: ss => s.fill σ :: fillB σ ss
end

/-- `contains_avar`, `edulint/linting/analyses/antiunify.py:252-266`, of an expression -/
def Expr.holey : Expr → Bool
  | .const _ => false
  | .bool _ => false
  | .name _ => false
  | .hole _ => true
  | .call _ a b => a.holey || b.holey
  | .op _ a b => a.holey || b.holey
  | .not_ a => a.holey
  | .bool_ _ a b => a.holey || b.holey
  | .tern c a b => c.holey || a.holey || b.holey

mutual
/-- `contains_avar`, `edulint/linting/analyses/antiunify.py:252-266`, of a statement -/
def Stmt.holey : Stmt → Bool
  | .assign _ e => e.holey
  | .expr e => e.holey
  | .ret e => e.holey
  | .brk => false
  | .cont => false
  | .if_ c b o => c.holey || holeyB b || holeyB o
  | .while_ c b o => c.holey || holeyB b || holeyB o
  | .for_ _ e b o => e.holey || holeyB b || holeyB o
  | .try_ b h o f => holeyB b || holeyB h || holeyB o || holeyB f

/-- `contains_avar`, `edulint/linting/analyses/antiunify.py:252-266`, of statements -/
def holeyB : List Stmt → Bool
  | [] => false
  | s :: ss => s.holey || holeyB ss
end

/-! ### Suggestions -/

/-- `create_ifs`, `edulint/linting/checkers/duplication/duplicate_if.py:97-111`, with the bodies that are put in afterwards: one more than tests. -/
def createIfs : List Expr → List Block → Block
  | [], bs => bs.head?.getD []
  | [t], bs => [.if_ t (bs.head?.getD []) (bs.tail.head?.getD [])]
  | t :: ts, bs => [.if_ t (bs.head?.getD []) (createIfs ts bs.tail)]

/-- A node around a hole. -/
inductive Anc where
  /-- with the number of arguments -/
  | call (args : Nat)
  | binop
  /-- `return` or an assignment -/
  | store
  | other
deriving DecidableEq

/-- A hole with what it is filled with in each of the branches. -/
structure Avar where
  subs : List Expr
  /-- it is a constant, not a name -/
  const : Bool
  /-- what is around it in the statement, from within; the last one is the statement -/
  around : List Anc
deriving DecidableEq

/-- What is counted, `edulint/linting/analyses/utils.py`. -/
structure Count where
  tokensE : Expr → Nat
  tokens : Block → Nat
  stmts : Block → Nat

/-- What is to be changed: numbers of tokens and statements afterwards, and what is in the message. -/
structure Fixed (α : Type) where
  tokens : Int
  stmts : Nat
  args : α
deriving DecidableEq

/-- `saves_enough_tokens`, `edulint/linting/checkers/duplication/utils.py:70-77`, with a ratio of 0 or 0.2 -/
def saves (ratio : Bool) (tokensBefore stmtsBefore : Nat) (tokensAfter : Int) (stmtsAfter : Nat) : Bool :=
  decide (stmtsAfter ≤ stmtsBefore + 1) && decide (if ratio then 5 * tokensAfter < 4 * tokensBefore else tokensAfter < tokensBefore)

/-- `get_fixed_by_if_to_use`, `edulint/linting/checkers/duplication/duplicate_if.py:424-444` -/
def toUse (n : Count) (tests : List Expr) (core : Block) (avars : List Avar) : Option (Fixed Unit) :=
  match tests, avars with
  | [t], [a] =>
    match a.subs with
    | [.bool _, .bool _] => if a.around.head? = some .store then none else some ⟨(n.tokens core : Int) - 1 + n.tokensE t, n.stmts core, ()⟩
    | _ => none
  | _, _ => none

/-- `edulint/linting/checkers/duplication/duplicate_if.py:455-470`, for what is around a hole; `called` is `has_parent_call`. -/
def complexFrom : Bool → List Anc → Bool
  | _, [] => false
  | called, .call n :: l => called || decide (n > 1) || complexFrom true l
  | _, .binop :: _ => true
  | called, .store :: l => complexFrom called l
  | called, .other :: l => complexFrom called l

/-- `is_part_of_complex_expression`, `edulint/linting/checkers/duplication/duplicate_if.py:453-472` -/
def isComplex (avars : List Avar) : Bool := avars.any fun a => complexFrom false a.around

/-- `edulint/linting/checkers/duplication/duplicate_if.py:490-494`: without a value where the assertion fails. -/
def ternary : List Expr → List Expr → Option Expr
  | [], [e] => some e
  | t :: ts, e :: es => (ternary ts es).map fun r => .tern t e r
  | _, _ => none

/-- All of the expressions. -/
def ternaries (tests : List Expr) : List Avar → Option (List Expr)
  | [] => some []
  | a :: as =>
    match ternary tests a.subs, ternaries tests as with
    | some e, some es => some (e :: es)
    | _, _ => none

/-- `isinstance(test, nodes.BoolOp)` -/
def Expr.isBoolOp : Expr → Bool
  | .bool_ _ _ _ => true
  | _ => false

/-- `get_fixed_by_ternary`, `edulint/linting/checkers/duplication/duplicate_if.py:476-502`; the message has the first expression. -/
def toExpr (n : Count) (tests : List Expr) (core : Block) (avars : List Avar) : Option (Fixed (List Expr)) :=
  if decide (tests.length > 1) && tests.any Expr.isBoolOp then none
  else if decide (avars.length > 1) && !avars.all (·.const) then none
  else if isComplex avars then none
  else
    match ternaries tests avars with
    | none => none
    | some es => some ⟨(n.tokens core : Int) - avars.length + (es.map n.tokensE).sum, n.stmts core, es⟩

/-- The code that is suggested: holes are filled with conditional expressions. -/
def withTernaries (es : List Expr) (core : Block) : Block := fillB (fun i => es[i]?.getD (.hole i)) core

/-- `if_can_be_moved`, `edulint/linting/checkers/duplication/duplicate_if.py:526-536` -/
def canMove : Stmt → Bool
  | .if_ c b o => !c.holey && (holeyB b != holeyB o)
  | .while_ c b o => !c.holey && (holeyB b != holeyB o)
  | .for_ _ e b o => !e.holey && (holeyB b != holeyB o)
  | .try_ b h o f => ([holeyB b, holeyB h, holeyB o, holeyB f].filter id).length == 1
  | _ => false

/-- The statements up to the last with a hole, and the rest, `edulint/linting/checkers/duplication/duplicate_if.py:544-551`. -/
def upTo : Block → Block × Block
  | [] => ([], [])
  | s :: ss => if holeyB ss then (s :: (upTo ss).1, (upTo ss).2) else if s.holey then ([s], ss) else ([], s :: ss)

mutual
/-- `get_fixed_by_moving_if_rec`, `edulint/linting/checkers/duplication/duplicate_if.py:539-566`, for a list with a hole in it; `ifs` makes the `if` with the
given statements in all of its branches. -/
def moveB (ifs : Block → Block) : List Stmt → List Stmt
  | [] => []
  | s :: ss =>
    if !s.holey then s :: moveB ifs ss
    else if !holeyB ss && canMove s then moveS ifs s :: ss
    else ifs (upTo (s :: ss)).1 ++ (upTo (s :: ss)).2

/-- `get_fixed_by_moving_if_rec`, `edulint/linting/checkers/duplication/duplicate_if.py:568-584`, for a statement -/
def moveS (ifs : Block → Block) : Stmt → Stmt
  | .if_ c b o => .if_ c (if holeyB b then moveB ifs b else b) (if holeyB o then moveB ifs o else o)
  | .while_ c b o => .while_ c (if holeyB b then moveB ifs b else b) (if holeyB o then moveB ifs o else o)
  | .for_ x e b o => .for_ x e (if holeyB b then moveB ifs b else b) (if holeyB o then moveB ifs o else o)
  | .try_ b h o f =>
    .try_ (if holeyB b then moveB ifs b else b) (if holeyB h then moveB ifs h else h) (if holeyB o then moveB ifs o else o) (if holeyB f then moveB ifs f else f)
  | s => s
end

/-- What the holes are filled with in a branch. -/
def fillOf (avars : List Avar) (k : Nat) (i : Nat) : Expr := ((avars[i]?.map (·.subs)).getD [])[k]?.getD (.hole i)

/-- The bodies of the branches. -/
def variants (tests : List Expr) (avars : List Avar) (b : Block) : List Block := (List.range (tests.length + 1)).map fun k => fillB (fillOf avars k) b

/-- The code that is suggested: the `if` is moved into the statements. -/
def moved (tests : List Expr) (avars : List Avar) (core : Block) : Block := moveB (fun b => createIfs tests (variants tests avars b)) core

/-- The code that is counted: the branches have holes. -/
def movedCore (tests : List Expr) (core : Block) : Block := moveB (fun b => createIfs tests (List.replicate (tests.length + 1) b)) core

/-- `get_fixed_by_moving_if`, `edulint/linting/checkers/duplication/duplicate_if.py:588-606`. What holes are filled with is a name or a constant here, and then
it is not counted. -/
def intoBlock (n : Count) (tests : List Expr) (core : Block) : Option (Fixed Unit) :=
  match core with
  | [] => none
  | s :: _ => if canMove s then some ⟨n.tokens (movedCore tests core), n.stmts (movedCore tests core), ()⟩ else none

/-- What is assigned to the variables in a branch, `edulint/linting/checkers/duplication/duplicate_if.py:615-621`. -/
def assigns (names : Nat → Str) (avars : List Avar) (k : Nat) : Block :=
  (List.range avars.length).map fun i => .assign (names i) (fillOf avars k i)

/-- The `if` that assigns to the variables, `edulint/linting/checkers/duplication/duplicate_if.py:614-621`. -/
def assignIfs (names : Nat → Str) (tests : List Expr) (avars : List Avar) : Block :=
  createIfs tests ((List.range (tests.length + 1)).map (assigns names avars))

/-- `get_fixed_by_vars`, `edulint/linting/checkers/duplication/duplicate_if.py:613-628` -/
def toExtracted (n : Count) (names : Nat → Str) (tests : List Expr) (core : Block) (avars : List Avar) : Fixed Unit :=
  ⟨(n.tokens (assignIfs names tests avars) : Int) + n.tokens core, n.stmts (assignIfs names tests avars) + n.stmts core, ()⟩

/-- The code that is suggested: variables are assigned to first, and the holes are filled with these. -/
def withVars (names : Nat → Str) (tests : List Expr) (avars : List Avar) (core : Block) : Block :=
  assignIfs names tests avars ++ fillB (fun i => if i < avars.length then .name (names i) else .hole i) core

/-- The `if` that there is. -/
def original (tests : List Expr) (avars : List Avar) (core : Block) : Block := createIfs tests (variants tests avars core)

/-! ### Whether variables of conditions change -/

/-- Whether a hole may be reached if something ends in a way. -/
structure Live where
  normal : Bool
  brk : Bool
  cont : Bool
  ret : Bool
  raise : Bool
deriving DecidableEq

/-- No hole may be reached afterwards. -/
def Live.none : Live := ⟨false, false, false, false, false⟩

/-- `finally` is executed in between; it is given by what it needs. -/
def Live.through (final : Live → Bool) (l : Live) : Live :=
  ⟨final l, final { l with normal := l.brk }, final { l with normal := l.cont }, final { l with normal := l.ret }, final { l with normal := l.raise }⟩

mutual
/-- Whether a hole may be reached from the start of a statement: all paths through the program are considered, and any expression may raise an exception. -/
def live : Stmt → Live → Bool
  | .assign _ e, l => e.holey || l.raise || l.normal
  | .expr e, l => e.holey || l.raise || l.normal
  | .ret e, l => e.holey || l.raise || l.ret
  | .brk, l => l.brk
  | .cont, l => l.cont
  | .if_ c b o, l => c.holey || l.raise || liveB b l || liveB o l
  | .while_ c b o, l => c.holey || l.raise || liveB o l || liveB b { l with normal := false, cont := false, brk := l.normal }
  | .for_ _ e b o, l => e.holey || l.raise || (liveB o l || liveB b { l with normal := false, cont := false, brk := l.normal })
  | .try_ b h o f, l =>
    liveB b { l.through (liveB f) with normal := liveB o (l.through (liveB f)), raise := liveB h (l.through (liveB f)) }

/-- Whether a hole may be reached from the start of statements. -/
def liveB : List Stmt → Live → Bool
  | [], l => l.normal
  | s :: ss, l => live s { l with normal := liveB ss l }
end

/-- The same at the head of a `while`. -/
def liveWhile (c : Expr) (b o : Block) (l : Live) : Bool :=
  c.holey || l.raise || liveB o l || liveB b { l with normal := false, cont := false, brk := l.normal }

/-- The same at the head of a `for`, after the expression is evaluated. -/
def liveFor (b o : Block) (l : Live) : Bool := liveB o l || liveB b { l with normal := false, cont := false, brk := l.normal }

mutual
/-- None of the variables is assigned to where a hole may be reached: at the location of the assignment or afterwards. -/
def safe (xs : List Str) : Stmt → Live → Bool
  | .assign x e, l => !(xs.contains x && (e.holey || l.normal))
  | .expr _, _ => true
  | .ret _, _ => true
  | .brk, _ => true
  | .cont, _ => true
  | .if_ _ b o, l => safeB xs b l && safeB xs o l
  | .while_ c b o, l =>
    safeB xs b { l with normal := liveWhile c b o l, cont := liveWhile c b o l, brk := l.normal } && safeB xs o l
  | .for_ x e b o, l =>
    !(xs.contains x && (e.holey || liveFor b o l)) &&
      safeB xs b { l with normal := liveFor b o l, cont := liveFor b o l, brk := l.normal } && safeB xs o l
  | .try_ b h o f, l =>
    safeB xs b { l.through (liveB f) with normal := liveB o (l.through (liveB f)), raise := liveB h (l.through (liveB f)) } &&
      safeB xs h (l.through (liveB f)) && safeB xs o (l.through (liveB f)) &&
      safeB xs f l && safeB xs f { l with normal := l.brk } && safeB xs f { l with normal := l.cont } && safeB xs f { l with normal := l.ret } &&
      safeB xs f { l with normal := l.raise }

/-- The same for statements. -/
def safeB (xs : List Str) : List Stmt → Live → Bool
  | [], _ => true
  | s :: ss, l => safe xs s { l with normal := liveB ss l } && safeB xs ss l
end

/-- The variables of an expression. -/
def Expr.vars : Expr → List Str
  | .const _ => []
  | .bool _ => []
  | .name x => [x]
  | .hole _ => []
  | .call _ a b => a.vars ++ b.vars
  | .op _ a b => a.vars ++ b.vars
  | .not_ a => a.vars
  | .bool_ _ a b => a.vars ++ b.vars
  | .tern c a b => c.vars ++ a.vars ++ b.vars

/-- `test_variables_change`, `edulint/linting/checkers/duplication/duplicate_if.py:161-169`, with `is_changed_between`,
`edulint/linting/analyses/data_dependency.py:632-640`: some location that may be executed before a hole, or the one that it is at, assigns to a variable of a
condition. Only paths within the branches are considered here, and values are not modified. -/
def testsChange (tests : List Expr) (core : Block) : Bool := !safeB (tests.flatMap Expr.vars) core .none

/-! ### What is reported -/

/-- `fixes_and_saves_enough_tokens`, `edulint/linting/checkers/duplication/duplicate_if.py:955-973`, for one message -/
def ifSaves {α : Type} (n : Count) (ratio : Bool) (tests : List Expr) (avars : List Avar) (core : Block) : Option (Fixed α) → Option α
  | none => none
  | some f => if saves ratio (n.tokens (original tests avars core)) (n.stmts (original tests avars core)) f.tokens f.stmts then some f.args else none

/-- `similar-if-to-use`, `edulint/linting/checkers/duplication/duplicate_if.py:1036-1052`, for branches that can be compared -/
def reportUse (n : Count) (tests : List Expr) (avars : List Avar) (core : Block) : Option Unit :=
  if testsChange tests core then none else ifSaves n false tests avars core (toUse n tests core avars)

/-- `similar-if-into-block`, `edulint/linting/checkers/duplication/duplicate_if.py:1053-1069`; without the lines that are in the message -/
def reportBlock (n : Count) (tests : List Expr) (avars : List Avar) (core : Block) : Option Unit :=
  if testsChange tests core then none else ifSaves n false tests avars core (intoBlock n tests core)

/-- `similar-if-to-expr`, `edulint/linting/checkers/duplication/duplicate_if.py:1081-1099`. Holes are not called here. -/
def reportExpr (n : Count) (tests : List Expr) (avars : List Avar) (core : Block) : Option (List Expr) :=
  if testsChange tests core then none else ifSaves n true tests avars core (toExpr n tests core avars)

/-- `similar-if-to-extracted`, `edulint/linting/checkers/duplication/duplicate_if.py:1100-1116`. Holes are not called here. -/
def reportVars (n : Count) (names : Nat → Str) (tests : List Expr) (avars : List Avar) (core : Block) : Option Unit :=
  ifSaves n true tests avars core (some (toExtracted n names tests core avars))

/-! ### What programs do -/

/-- Variables have values; everything else is the world. -/
structure State (V W : Type) where
  env : Str → V
  world : W

/-- What operators and functions do. -/
structure Interp (V W : Type) where
  const : Nat → V
  bool : Bool → V
  truth : V → Bool
  truth_bool : ∀ b, truth (bool b) = b
  op : Nat → V → V → Except PyErr V
  call : Nat → V → V → State V W → Except PyErr V × State V W
  iter : V → State V W → Except PyErr (List V) × State V W

section
variable {V W : Type} (I : Interp V W)

/-- The value of an expression and the state afterwards. Holes have no value. -/
def eval : Expr → State V W → Except PyErr V × State V W
  | .const k, s => (.ok (I.const k), s)
  | .bool b, s => (.ok (I.bool b), s)
  | .name x, s => (.ok (s.env x), s)
  | .hole _, s => (.error .assertionError, s)
  | .call f a b, s =>
    match eval a s with
    | (.error e, s) => (.error e, s)
    | (.ok v, s) =>
      match eval b s with
      | (.error e, s) => (.error e, s)
      | (.ok w, s) => I.call f v w s
  | .op f a b, s =>
    match eval a s with
    | (.error e, s) => (.error e, s)
    | (.ok v, s) =>
      match eval b s with
      | (.error e, s) => (.error e, s)
      | (.ok w, s) => (I.op f v w, s)
  | .not_ a, s =>
    match eval a s with
    | (.error e, s) => (.error e, s)
    | (.ok v, s) => (.ok (I.bool !(I.truth v)), s)
  | .bool_ c a b, s =>
    match eval a s with
    | (.error e, s) => (.error e, s)
    | (.ok v, s) => if I.truth v = c then eval b s else (.ok v, s)
  | .tern c a b, s =>
    match eval c s with
    | (.error e, s) => (.error e, s)
    | (.ok v, s) => if I.truth v then eval a s else eval b s

/-- How statements end. -/
inductive Out (V : Type) where
  | normal
  | brk
  | cont
  | ret (v : V)
  | raise (e : PyErr)

/-- How statements end and the state afterwards, or nothing if a loop does not end with as many iterations as are allowed. -/
abbrev Res (V W : Type) := Option (Out V × State V W)

/-- What is done with the value of an expression. -/
def andThen (r : Except PyErr V × State V W) (k : V → State V W → Res V W) : Res V W :=
  match r with
  | (.error e, s) => some (.raise e, s)
  | (.ok v, s) => k v s

/-- What is done after statements that end normally. -/
def next (r : Res V W) (k : State V W → Res V W) : Res V W :=
  match r with
  | some (.normal, s) => k s
  | r => r

/-- `while`, for a condition, a body and an `else`, with at most so many iterations. -/
def loop (c : State V W → Except PyErr V × State V W) (body orelse : State V W → Res V W) : Nat → State V W → Res V W
  | 0, _ => none
  | n + 1, s =>
    andThen (c s) fun v s =>
      if I.truth v then
        match body s with
        | some (.normal, s) => loop c body orelse n s
        | some (.cont, s) => loop c body orelse n s
        | some (.brk, s) => some (.normal, s)
        | r => r
      else orelse s

/-- A variable is assigned to. -/
def State.set (s : State V W) (x : Str) (v : V) : State V W := { s with env := fun y => if y = x then v else s.env y }

/-- `for`, for the values that are left. -/
def forLoop (x : Str) (body orelse : State V W → Res V W) : List V → State V W → Res V W
  | [], s => orelse s
  | v :: vs, s =>
    match body (s.set x v) with
    | some (.normal, s) => forLoop x body orelse vs s
    | some (.cont, s) => forLoop x body orelse vs s
    | some (.brk, s) => some (.normal, s)
    | r => r

/-- `try` without `finally` -/
def tryExcept (body handler orelse : State V W → Res V W) (s : State V W) : Res V W :=
  match body s with
  | some (.normal, s) => orelse s
  | some (.raise _, s) => handler s
  | r => r

/-- `finally` -/
def finally_ (r : Res V W) (final : State V W → Res V W) : Res V W :=
  match r with
  | none => none
  | some (o, s) =>
    match final s with
    | some (.normal, s) => some (o, s)
    | r => r

mutual
/-- What a statement does, with at most `n` iterations of each loop. -/
def run (n : Nat) : Stmt → State V W → Res V W
  | .assign x e, s => andThen (eval I e s) fun v s => some (.normal, s.set x v)
  | .expr e, s => andThen (eval I e s) fun _ s => some (.normal, s)
  | .ret e, s => andThen (eval I e s) fun v s => some (.ret v, s)
  | .brk, s => some (.brk, s)
  | .cont, s => some (.cont, s)
  | .if_ c b o, s => andThen (eval I c s) fun v s => if I.truth v then runB n b s else runB n o s
  | .while_ c b o, s => loop I (eval I c) (runB n b) (runB n o) n s
  | .for_ x e b o, s =>
    andThen (eval I e s) fun v s =>
      match I.iter v s with
      | (.error e, s) => some (.raise e, s)
      | (.ok vs, s) => forLoop x (runB n b) (runB n o) vs s
  | .try_ b h o f, s => finally_ (tryExcept (runB n b) (runB n h) (runB n o) s) (runB n f)

/-- What statements do. -/
def runB (n : Nat) : List Stmt → State V W → Res V W
  | [], s => some (.normal, s)
  | t :: ts, s => next (run n t s) (runB n ts)
end

end

end Verif.SimilarIf

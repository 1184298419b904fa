import Verif.Model.LocalDefects

/-!
Checks of loops, `edulint/linting/checkers/unsuited_loop.py:102-108, 263-328`, and what loops do.

Texts are compared as expressions. The body of a `for` is not empty.
-/

namespace Verif.Py.Loops

mutual
/-- Statements as far as the checks look into them. -/
inductive Stmt where
  | if_ (test : Expr) (body orelse : Block)
  | brk
  | cont
  | other (n : Nat)

inductive Block where
  | nil
  | cons (s : Stmt) (b : Block)
end

/-- `for target in iter:` with a body, and what `else:` has. -/
structure For where
  target : Expr
  iter : Expr
  first : Stmt
  rest : Block
  orelse : Block

/-- `while test:` -/
structure While where
  test : Expr
  body : Block
  orelse : Block

def Block.append : Block → Block → Block
  | .nil, c => c
  | .cons s b, c => .cons s (b.append c)

def For.body (f : For) : Block := .cons f.first f.rest

/-! ### `use-tighter-boundaries` -/

section
variable (R : FoldSem Val)

/-- `compares_to_start`, `edulint/linting/checkers/unsuited_loop.py:267-272` -/
def comparesToStart (left right var start : Expr) : Bool :=
  (decide (left = var) && decide (right = start)) || (decide (left = start) && decide (right = var))

/-- The first alternative of `is_last_before_end`, `edulint/linting/checkers/unsuited_loop.py:279-282` -/
def isDifference (stop step : Expr) : Expr → Bool
  | .bin .sub l r => decide (l = stop) && decide (r = step)
  | _ => false

/-- `is_last_before_end`, `edulint/linting/checkers/unsuited_loop.py:274-288` -/
def isLastBeforeEnd (node stop step : Expr) : Except PyErr Bool :=
  match constInt R node with
  | .error x => .error x
  | .ok n =>
    match constInt R stop with
    | .error x => .error x
    | .ok b =>
      match constInt R step with
      | .error x => .error x
      | .ok c =>
        .ok (isDifference stop step node ||
          match n, b, c with
          | some n, some b, some c => decide (n = b - c)
          | _, _, _ => false)

/-- `compares_to_last_before_end`, `edulint/linting/checkers/unsuited_loop.py:290-296` -/
def comparesToLast (left right var stop step : Expr) : Except PyErr Bool :=
  match (if left = var then isLastBeforeEnd R right stop step else .ok false) with
  | .error x => .error x
  | .ok true => .ok true
  | .ok false =>
    match isLastBeforeEnd R left stop step with
    | .error x => .error x
    | .ok b => .ok (b && decide (right = var))

/-- The argument of the message: which iteration "never happens". -/
inductive Which where
  | first
  | last
  deriving DecidableEq

/-- `edulint/linting/checkers/unsuited_loop.py:323`, of the only statement in the `if`. -/
def leaves : Stmt → Bool
  | .brk => true
  | .cont => true
  | _ => false

/-- `edulint/linting/checkers/unsuited_loop.py:315-328`, for the first statement of the body. -/
def tighterIn (var start stop step : Expr) : Stmt → Except PyErr (Option Which)
  | .if_ (.compare left [(.eq, right)]) (.cons s .nil) _ =>
    if leaves s then
      if comparesToStart left right var start then .ok (some .first)
      else
        match comparesToLast R left right var stop step with
        | .error x => .error x
        | .ok true => .ok (some .last)
        | .ok false => .ok none
    else .ok none
  | _ => .ok none

/-- `_check_use_tighter_bounds`, `edulint/linting/checkers/unsuited_loop.py:263-328` -/
def tighter (f : For) : Except PyErr (Option Which) :=
  match rangeParams f.iter with
  | none => .ok none
  | some (start, stop, step) => tighterIn R f.target start stop step f.first

/-! ### `no-while-true` -/

/-- The last statement is `break`. -/
def endsInBreak : Block → Bool
  | .nil => false
  | .cons .brk .nil => true
  | .cons _ b => endsInBreak b

/-- `_check_no_while_true`, `edulint/linting/checkers/unsuited_loop.py:102-108`: the condition whose negation is suggested.
`Const.bool_value` is the truth value of the constant. -/
def noWhileTrue (w : While) : Except PyErr (Option Expr) :=
  match w.test with
  | .const v =>
    match (intSem R).truth ((intSem R).lit v) with
    | .error x => .error x
    | .ok false => .ok none
    | .ok true =>
      match w.body with
      | .nil => .error .indexError
      | .cons (.if_ test body _) _ => .ok (if endsInBreak body then some test else none)
      | .cons _ _ => .ok none
  | _ => .ok none

end

/-! ### What loops do -/

/-- The values of variables, and everything else there is. -/
structure St (W : Type) where
  env : Env Val
  world : W

def St.set {W : Type} (s : St W) (x : Str) (v : Val) : St W :=
  { s with env := fun y => if y = x then .ok v else s.env y }

/-- How an execution ends. -/
inductive Out where
  | normal | brk | cont
  | ret (v : Val)
  | raise (x : PyErr)

/-- What expressions mean, and what may happen when other statements are executed. Expressions have no side effects. -/
structure Lang (W : Type) where
  R : FoldSem Val
  other : Nat → St W → Out → St W → Prop

section
variable {W : Type} (L : Lang W)

/-- The truth value of a condition. -/
def Lang.truth (s : St W) (e : Expr) : Except PyErr Bool := truthOf (intSem L.R).toSem s.env e

/-- The value of an expression. -/
def Lang.value (s : St W) (e : Expr) : Except PyErr Val := eval (intSem L.R).toSem s.env e

mutual
/-- What executing a statement may do. -/
inductive Run : Stmt → St W → Out → St W → Prop
  | then_ {t b e s o s'} : L.truth s t = .ok true → RunB b s o s' → Run (.if_ t b e) s o s'
  | else_ {t b e s o s'} : L.truth s t = .ok false → RunB e s o s' → Run (.if_ t b e) s o s'
  | raise {t b e s x} : L.truth s t = .error x → Run (.if_ t b e) s (.raise x) s
  | brk {s} : Run .brk s .brk s
  | cont {s} : Run .cont s .cont s
  | other {n s o s'} : L.other n s o s' → Run (.other n) s o s'

/-- One after the other. -/
inductive RunB : Block → St W → Out → St W → Prop
  | nil {s} : RunB .nil s .normal s
  | next {st b s s1 o s2} : Run st s .normal s1 → RunB b s1 o s2 → RunB (.cons st b) s o s2
  | leave {st b s s1 o} : Run st s o s1 → o ≠ .normal → RunB (.cons st b) s o s1
end

/-- A `for` loop with the given values left. -/
inductive Each (x : Str) (body orelse : Block) : List Int → St W → Out → St W → Prop
  | done {s o s'} : RunB L orelse s o s' → Each x body orelse [] s o s'
  | next {v vs s o s1 o' s2} : RunB L body (s.set x (.int v)) o s1 → o = .normal ∨ o = .cont →
      Each x body orelse vs s1 o' s2 → Each x body orelse (v :: vs) s o' s2
  | brk {v vs s s1} : RunB L body (s.set x (.int v)) .brk s1 → Each x body orelse (v :: vs) s .normal s1
  | leave {v vs s o s1} : RunB L body (s.set x (.int v)) o s1 → o ≠ .normal → o ≠ .cont → o ≠ .brk →
      Each x body orelse (v :: vs) s o s1

/-- A `for` loop over a range. -/
inductive For.Run (f : For) : St W → Out → St W → Prop
  | run {x s a b c o s'} : f.target = .name x → L.value s f.iter = .ok (.range a b c) →
      Each L x f.body f.orelse (pyRange a b c) s o s' → For.Run f s o s'
  | raise {s x} : L.value s f.iter = .error x → For.Run f s (.raise x) s

/-- A `while` loop. -/
inductive While.Run (f : While) : St W → Out → St W → Prop
  | done {s o s'} : L.truth s f.test = .ok false → RunB L f.orelse s o s' → While.Run f s o s'
  | raise {s x} : L.truth s f.test = .error x → While.Run f s (.raise x) s
  | next {s o s1 o' s2} : L.truth s f.test = .ok true → RunB L f.body s o s1 → o = .normal ∨ o = .cont →
      While.Run f s1 o' s2 → While.Run f s o' s2
  | brk {s s1} : L.truth s f.test = .ok true → RunB L f.body s .brk s1 → While.Run f s .normal s1
  | leave {s o s1} : L.truth s f.test = .ok true → RunB L f.body s o s1 → o ≠ .normal → o ≠ .cont → o ≠ .brk →
      While.Run f s o s1

/-- The states in which a `while` loop starts its iterations. -/
inductive While.Starts (f : While) (s : St W) : Nat → St W → Prop
  | first : L.truth s f.test = .ok true → While.Starts f s 0 s
  | next {n s1 o s2} : While.Starts f s n s1 → RunB L f.body s1 o s2 → o = .normal ∨ o = .cont →
      L.truth s2 f.test = .ok true → While.Starts f s (n + 1) s2

end

/-- The states differ in the value of `x` at most. -/
def SameBut {W : Type} (x : Str) (s s' : St W) : Prop := s.world = s'.world ∧ ∀ y, y ≠ x → s.env y = s'.env y

/-- `for target in range(start, stop, step)` -/
def For.over (f : For) (start stop step : Expr) : For := { f with iter := .call (.name "range".toList) [start, stop, step] }

end Verif.Py.Loops

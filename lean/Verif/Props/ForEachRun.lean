import Verif.Model.ForEach

/-!
What the statements of `Verif.Model.ForEach` do, for any objects and operations of them, and loops over indices and over elements. Lists are objects
whose elements the state tells.
-/

namespace Verif.ForEach

/-- The result of an operation: a value or an exception, and the new state. -/
abbrev Ans (V H α : Type) := Except V α × H

/-- What operations do with objects `V` in states `H`. -/
structure Sem (V H : Type) where
  const : Nat → V
  /-- whole numbers -/
  num : Nat → V
  /-- the elements of an object if it is a list -/
  items : V → H → Option (List V)
  unbound : Str → V
  truth : V → H → Ans V H Bool
  sub : V → V → H → Ans V H V
  attr : Str → V → H → Ans V H V
  call : V → V → H → Ans V H V
  /-- call of the method with the given name of an object; the bound method was found before -/
  method : Str → V → V → V → H → Ans V H V
  op : Nat → V → V → H → Ans V H V
  /-- operators of augmented assignment -/
  aug : Nat → V → V → H → Ans V H V
  setItem : V → V → V → H → Ans V H Unit
  delItem : V → V → H → Ans V H Unit
  setAttr : Str → V → V → H → Ans V H Unit
  iter : V → H → Ans V H V
  next : V → H → Ans V H (Option V)

variable {V H : Type}

/-- The values of variables. -/
abbrev Env (V : Type) := Str → Option V

def Env.set (env : Env V) (x : Str) (a : V) : Env V := fun y => if y = x then some a else env y

def Ans.bind {α β : Type} (r : Ans V H α) (k : α → H → Ans V H β) : Ans V H β :=
  match r with
  | (.ok a, h) => k a h
  | (.error e, h) => (.error e, h)

def found (P : Sem V H) (x : Str) (h : H) : Option V → Ans V H V
  | some a => (.ok a, h)
  | none => (.error (P.unbound x), h)

def eval (P : Sem V H) (env : Env V) : E → H → Ans V H V
  | .name x, h => found P x h (env x)
  | .const n, h => (.ok (P.const n), h)
  | .sub a b, h => (eval P env a h).bind fun x h => (eval P env b h).bind fun y h => P.sub x y h
  | .attr m a, h => (eval P env a h).bind fun x h => P.attr m x h
  | .call f b, h => (eval P env f h).bind fun x h => (eval P env b h).bind fun y h => P.call x y h
  | .method m a b, h => (eval P env a h).bind fun x h => (P.attr m x h).bind fun f h => (eval P env b h).bind fun y h => P.method m x f y h
  | .op n a b, h => (eval P env a h).bind fun x h => (eval P env b h).bind fun y h => P.op n x y h
  | .both isOr a b, h => (eval P env a h).bind fun x h => (P.truth x h).bind fun t h => if t = isOr then (.ok x, h) else eval P env b h
  | .ite c a b, h => (eval P env c h).bind fun x h => (P.truth x h).bind fun t h => if t then eval P env a h else eval P env b h

/-- How statements end. -/
inductive Out (V : Type) where
  | normal | brk | cont
  | ret (a : V)
  | exc (a : V)

abbrev Res (V H : Type) := Option (Out V × Env V × H)

def thenDo {α : Type} (env : Env V) (r : Ans V H α) (k : α → H → Res V H) : Res V H :=
  match r with
  | (.ok a, h) => k a h
  | (.error e, h) => some (.exc e, env, h)

def andThen (r : Res V H) (k : Env V → H → Res V H) : Res V H :=
  match r with
  | some (.normal, env, h) => k env h
  | r => r

/-- What a loop does after an execution of its body. -/
def after (r : Res V H) (k : Env V → H → Res V H) : Res V H :=
  match r with
  | some (.normal, env, h) => k env h
  | some (.cont, env, h) => k env h
  | some (.brk, env, h) => some (.normal, env, h)
  | r => r

def whileLoop (test : Env V → H → Ans V H Bool) (body : Env V → H → Res V H) : Nat → Env V → H → Res V H
  | 0, _, _ => none
  | fuel + 1, env, h =>
    thenDo env (test env h) fun t h => if t then after (body env h) (whileLoop test body fuel) else some (.normal, env, h)

def forNext (x : Str) (body : Env V → H → Res V H) (again : Env V → H → Res V H) (env : Env V) (h : H) : Option V → Res V H
  | some a => after (body (env.set x a) h) again
  | none => some (.normal, env, h)

def forLoop (P : Sem V H) (it : V) (x : Str) (body : Env V → H → Res V H) : Nat → Env V → H → Res V H
  | 0, _, _ => none
  | fuel + 1, env, h => thenDo env (P.next it h) fun a h => forNext x body (forLoop P it x body fuel) env h a

/-- The execution of statements; `none` if more than the given number of iterations of a loop are needed. -/
def exec (P : Sem V H) (fuel : Nat) : S → Env V → H → Res V H
  | .skip, env, h => some (.normal, env, h)
  | .expr e, env, h => thenDo env (eval P env e h) fun _ h => some (.normal, env, h)
  | .assign x e, env, h => thenDo env (eval P env e h) fun a h => some (.normal, env.set x a, h)
  | .assignItem a b e, env, h =>
    thenDo env (eval P env e h) fun y h => thenDo env (eval P env a h) fun x h => thenDo env (eval P env b h) fun i h =>
      thenDo env (P.setItem x i y h) fun _ h => some (.normal, env, h)
  | .assignAttr m a e, env, h =>
    thenDo env (eval P env e h) fun y h => thenDo env (eval P env a h) fun x h =>
      thenDo env (P.setAttr m x y h) fun _ h => some (.normal, env, h)
  | .augName n x e, env, h =>
    thenDo env (found P x h (env x)) fun a h => thenDo env (eval P env e h) fun y h =>
      thenDo env (P.aug n a y h) fun r h => some (.normal, env.set x r, h)
  | .augItem n a b e, env, h =>
    thenDo env (eval P env a h) fun x h => thenDo env (eval P env b h) fun i h => thenDo env (P.sub x i h) fun o h =>
      thenDo env (eval P env e h) fun y h => thenDo env (P.aug n o y h) fun r h =>
        thenDo env (P.setItem x i r h) fun _ h => some (.normal, env, h)
  | .del a b, env, h =>
    thenDo env (eval P env a h) fun x h => thenDo env (eval P env b h) fun i h =>
      thenDo env (P.delItem x i h) fun _ h => some (.normal, env, h)
  | .brk, env, h => some (.brk, env, h)
  | .cont, env, h => some (.cont, env, h)
  | .ret e, env, h => thenDo env (eval P env e h) fun a h => some (.ret a, env, h)
  | .seq s t, env, h => andThen (exec P fuel s env h) (exec P fuel t)
  | .if_ c s t, env, h =>
    thenDo env ((eval P env c h).bind P.truth) fun v h => if v then exec P fuel s env h else exec P fuel t env h
  | .while_ c s, env, h => whileLoop (fun env h => (eval P env c h).bind P.truth) (exec P fuel s) fuel env h
  | .for_ x e s, env, h => thenDo env ((eval P env e h).bind P.iter) fun it h => forLoop P it x (exec P fuel s) fuel env h

/-- `for i in range(len(xs))` with the given numbers still to come -/
def rangeLoop (P : Sem V H) (i : Str) (body : Env V → H → Res V H) : List Nat → Env V → H → Res V H
  | [], env, h => some (.normal, env, h)
  | k :: ks, env, h => after (body (env.set i (P.num k)) h) (rangeLoop P i body ks)

/-- What a loop over elements does with the next element. -/
def eachNext (bind : V → Env V → Env V) (body : Env V → H → Res V H) (again : Env V → H → Res V H) (env : Env V) (h : H) : Option V → Res V H
  | some a => after (body (bind a env) h) again
  | none => some (.normal, env, h)

/-- A loop over the elements of the list from the one with the given index; `bind` assigns to the targets. -/
def eachLoop (P : Sem V H) (list : V) (bind : Nat → V → Env V → Env V) (body : Env V → H → Res V H) : Nat → Nat → Env V → H → Res V H
  | 0, _, _, _ => none
  | fuel + 1, k, env, h => eachNext (bind k) body (eachLoop P list bind body fuel (k + 1)) env h ((P.items list h).getD [])[k]?

/-- `for i in range(len(xs)): body`, for a list with the given number of elements -/
def runRange (P : Sem V H) (fuel : Nat) (i : Str) (body : S) (length : Nat) : Env V → H → Res V H :=
  rangeLoop P i (exec P fuel body) (List.range length)

/-- `for v in xs: body` -/
def runForeach (P : Sem V H) (fuel : Nat) (v : Str) (list : V) (body : S) (steps : Nat) : Env V → H → Res V H :=
  eachLoop P list (fun _ a env => env.set v a) (exec P fuel body) steps 0

/-- `for i, v in enumerate(xs): body` -/
def runEnumerate (P : Sem V H) (fuel : Nat) (i v : Str) (list : V) (body : S) (steps : Nat) : Env V → H → Res V H :=
  eachLoop P list (fun k a env => (env.set i (P.num k)).set v a) (exec P fuel body) steps 0

/-! ### Rewriting -/

/-- `xs[i]` becomes `v`. -/
def E.rew (i xs v : Str) : E → E
  | .name x => .name x
  | .const n => .const n
  | .sub a b => if a = .name xs ∧ b = .name i then .name v else .sub (a.rew i xs v) (b.rew i xs v)
  | .attr m a => .attr m (a.rew i xs v)
  | .call f b => .call (f.rew i xs v) (b.rew i xs v)
  | .method m a b => .method m (a.rew i xs v) (b.rew i xs v)
  | .op n a b => .op n (a.rew i xs v) (b.rew i xs v)
  | .both o a b => .both o (a.rew i xs v) (b.rew i xs v)
  | .ite c a b => .ite (c.rew i xs v) (a.rew i xs v) (b.rew i xs v)

/-- `xs[i]` becomes `v` wherever it is evaluated. -/
def S.rew (i xs v : Str) : S → S
  | .skip => .skip
  | .expr e => .expr (e.rew i xs v)
  | .assign x e => .assign x (e.rew i xs v)
  | .assignItem a b e => .assignItem (a.rew i xs v) (b.rew i xs v) (e.rew i xs v)
  | .assignAttr m a e => .assignAttr m (a.rew i xs v) (e.rew i xs v)
  | .augName n x e => .augName n x (e.rew i xs v)
  | .augItem n a b e => .augItem n (a.rew i xs v) (b.rew i xs v) (e.rew i xs v)
  | .del a b => .del (a.rew i xs v) (b.rew i xs v)
  | .brk => .brk
  | .cont => .cont
  | .ret e => .ret (e.rew i xs v)
  | .seq s t => .seq (s.rew i xs v) (t.rew i xs v)
  | .if_ c s t => .if_ (c.rew i xs v) (s.rew i xs v) (t.rew i xs v)
  | .while_ c s => .while_ (c.rew i xs v) (s.rew i xs v)
  | .for_ x e s => .for_ x (e.rew i xs v) (s.rew i xs v)

/-- The names in an expression. -/
def E.names : E → List Str
  | .name x => [x]
  | .const _ => []
  | .attr _ a => a.names
  | .sub a b | .call a b | .method _ a b | .op _ a b | .both _ a b => a.names ++ b.names
  | .ite c a b => c.names ++ a.names ++ b.names

/-- The names in statements, including those assigned to. -/
def S.names : S → List Str
  | .skip | .brk | .cont => []
  | .expr e | .ret e => e.names
  | .assign x e | .augName _ x e => x :: e.names
  | .assignItem a b e | .augItem _ a b e => a.names ++ b.names ++ e.names
  | .assignAttr _ a e => a.names ++ e.names
  | .del a b => a.names ++ b.names
  | .seq s t => s.names ++ t.names
  | .if_ c s t => c.names ++ s.names ++ t.names
  | .while_ c s => c.names ++ s.names
  | .for_ x e s => x :: e.names ++ s.names

/-- The methods that change a list. -/
def listMethods : List Str := ["append", "clear", "extend", "insert", "pop", "remove", "reverse", "sort"].map String.toList

/-- The value of no expression but `xs` itself is that of `xs`: `xs` is neither an operand of `and` and `or` nor the result of a conditional
expression. -/
def E.single (xs : Str) : E → Prop
  | .name _ | .const _ => True
  | .attr _ a => a.single xs
  | .sub a b | .call a b | .method _ a b | .op _ a b => a.single xs ∧ b.single xs
  | .both _ a b => a ≠ .name xs ∧ b ≠ .name xs ∧ a.single xs ∧ b.single xs
  | .ite c a b => a ≠ .name xs ∧ b ≠ .name xs ∧ c.single xs ∧ a.single xs ∧ b.single xs

/-- The list gets no other name. -/
def S.single (xs : Str) : S → Prop
  | .skip | .brk | .cont => True
  | .expr e | .ret e => e.single xs
  | .assign _ e => e ≠ .name xs ∧ e.single xs
  | .augName _ _ e => e.single xs
  | .assignItem a b e | .augItem _ a b e => a.single xs ∧ b.single xs ∧ e.single xs
  | .assignAttr _ a e => a.single xs ∧ e.single xs
  | .del a b => a.single xs ∧ b.single xs
  | .seq s t => s.single xs ∧ t.single xs
  | .if_ c s t => c.single xs ∧ s.single xs ∧ t.single xs
  | .while_ c s => c.single xs ∧ s.single xs
  | .for_ _ e s => e.single xs ∧ s.single xs

/-- No method that changes lists is called of `xs` itself. -/
def E.calm (xs : Str) : E → Prop
  | .name _ | .const _ => True
  | .attr _ a => a.calm xs
  | .method m a b => (a = .name xs → m ∉ listMethods) ∧ a.calm xs ∧ b.calm xs
  | .sub a b | .call a b | .op _ a b | .both _ a b => a.calm xs ∧ b.calm xs
  | .ite c a b => c.calm xs ∧ a.calm xs ∧ b.calm xs

/-- No item of `xs` itself is deleted. -/
def S.undeleted (xs : Str) : S → Prop
  | .del a _ => a ≠ .name xs
  | .seq s t | .if_ _ s t => s.undeleted xs ∧ t.undeleted xs
  | .while_ _ s | .for_ _ _ s => s.undeleted xs
  | _ => True

/-- Does a block end with `break` or `return`? -/
def S.leaves : S → Bool
  | .seq _ t => t.leaves
  | .brk => true
  | .ret _ => true
  | _ => false

/-- No method that changes lists is called of `xs` itself in blocks that end with `break` or `return`; is the statement itself in such a block? -/
def S.settled (xs : Str) (leaves : Bool) : S → Prop
  | .skip | .brk | .cont => True
  | .expr e | .ret e | .assign _ e | .augName _ _ e => leaves = true → e.calm xs
  | .assignItem a b e | .augItem _ a b e => leaves = true → a.calm xs ∧ b.calm xs ∧ e.calm xs
  | .assignAttr _ a e => leaves = true → a.calm xs ∧ e.calm xs
  | .del a b => leaves = true → a.calm xs ∧ b.calm xs
  | .seq s t => s.settled xs leaves ∧ t.settled xs leaves
  | .if_ c s t => (leaves = true → c.calm xs) ∧ s.settled xs s.leaves ∧ t.settled xs t.leaves
  | .while_ c s => (leaves = true → c.calm xs) ∧ s.settled xs s.leaves
  | .for_ _ e s => (leaves = true → e.calm xs) ∧ s.settled xs s.leaves

/-- An operation neither changes the list nor gives it. -/
def Keeps (P : Sem V H) (l : V) (h : H) (r : Ans V H V) : Prop := P.items l r.2 = P.items l h ∧ ∀ x, r.1 = .ok x → x ≠ l

/-- No other object leads to the list `l`: no operation gives it, and only operations that are applied to it change it. -/
structure Alone (P : Sem V H) (l : V) : Prop where
  const : ∀ n, P.const n ≠ l
  num : ∀ n, P.num n ≠ l
  truth : ∀ x h, P.items l (P.truth x h).2 = P.items l h
  sub : ∀ a b h, Keeps P l h (P.sub a b h)
  attr : ∀ m a h, Keeps P l h (P.attr m a h)
  call : ∀ f a h, Keeps P l h (P.call f a h)
  method : ∀ m a f b h, (a ≠ l ∨ m ∉ listMethods → P.items l (P.method m a f b h).2 = P.items l h) ∧
    ∀ x, (P.method m a f b h).1 = .ok x → x ≠ l
  op : ∀ n a b h, Keeps P l h (P.op n a b h)
  aug : ∀ n a b h, a ≠ l → Keeps P l h (P.aug n a b h)
  setItem : ∀ a b c h, a ≠ l → P.items l (P.setItem a b c h).2 = P.items l h
  delItem : ∀ a b h, a ≠ l → P.items l (P.delItem a b h).2 = P.items l h
  setAttr : ∀ m a b h, a ≠ l → P.items l (P.setAttr m a b h).2 = P.items l h
  iter : ∀ a h, Keeps P l h (P.iter a h)
  next : ∀ a h, P.items l (P.next a h).2 = P.items l h ∧ ∀ x, (P.next a h).1 = .ok (some x) → x ≠ l

/-- Indexing a list gives its element and changes nothing. -/
def Indexes (P : Sem V H) (l : V) : Prop :=
  ∀ h vs k a, P.items l h = some vs → vs[k]? = some a → P.sub l (P.num k) h = (.ok a, h)

/-- The same result, but for some variables. -/
def SameBut (xs : List Str) : Res V H → Res V H → Prop
  | none, none => True
  | some (o, env, h), some (o', env', h') => o = o' ∧ h = h' ∧ ∀ y, y ∉ xs → env y = env' y
  | _, _ => False

end Verif.ForEach

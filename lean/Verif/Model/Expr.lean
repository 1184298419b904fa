import Verif.Base.Str
import Verif.Base.Dict

/-!
Python expressions as the checkers see them (nodes of `astroid`), their meaning, and how a piece of
text reads as an expression.

The node classes are those the code under /repo/edulint/linting distinguishes:
`Const`, `Name`, `UnaryOp`, `BinOp`, `BoolOp`, `Compare`, `Call`, `Attribute`, `Subscript`, `IfExp`;
`other` stands for displays, comprehensions and the like. Keyword and starred arguments of calls,
slices, `lambda`, `await`, `yield` and `:=` are not modelled.

Trusted: that `astroid` builds these trees from source text the way Python's grammar prescribes and
that `as_string` prints a tree as a text that reads back as that tree.  Neither `astroid` nor Python
is part of the repository; the meaning below follows the Python language reference
(sections 6.5-6.13 of the expressions chapter).
-/

namespace Verif.Py

/-- Values of `nodes.Const`. In source text numbers have no sign (`-1` is a `UnaryOp`). Floating
point numbers and the remaining kinds are opaque. -/
inductive Lit where
  | none
  | bool (b : Bool)
  | int (n : Nat)
  | str (s : Str)
  | float (text : Str)
  | other (text : Str)
  deriving DecidableEq, Repr

/-- `UnaryOp.op`. -/
inductive UnOp where
  | pos | neg | not | invert
  deriving DecidableEq, Repr

/-- `BinOp.op`. -/
inductive BinOp where
  | add | sub | mul | div | floordiv | mod | pow | matmul | lshift | rshift | bitor | bitxor | bitand
  deriving DecidableEq, Repr

/-- Operators in `Compare.ops`. -/
inductive CmpOp where
  | lt | le | eq | ne | ge | gt | is | isNot | isIn | notIn
  deriving DecidableEq, Repr

/-- Expressions. -/
inductive Expr where
  | const (v : Lit)
  | name (x : Str)
  | unary (op : UnOp) (e : Expr)
  | bin (op : BinOp) (l r : Expr)
  | boolOp (isOr : Bool) (values : List Expr)
  | compare (left : Expr) (ops : List (CmpOp × Expr))
  | call (f : Expr) (args : List Expr)
  | attr (e : Expr) (a : Str)
  | subscript (e i : Expr)
  | ifExp (test body orelse : Expr)
  | other (tag : Str) (children : List Expr)
  deriving Repr

mutual
/-- Equality of expressions, decided by comparing the trees. -/
def Expr.beq : Expr → Expr → Bool
  | .const v, .const w => v == w
  | .name x, .name y => x == y
  | .unary o e, .unary p f => o == p && Expr.beq e f
  | .bin o l r, .bin p l' r' => o == p && Expr.beq l l' && Expr.beq r r'
  | .boolOp o vs, .boolOp p ws => o == p && Expr.beqList vs ws
  | .compare l os, .compare l' os' => Expr.beq l l' && Expr.beqOps os os'
  | .call f as, .call g bs => Expr.beq f g && Expr.beqList as bs
  | .attr e a, .attr f b => Expr.beq e f && a == b
  | .subscript e i, .subscript f j => Expr.beq e f && Expr.beq i j
  | .ifExp t a b, .ifExp t' a' b' => Expr.beq t t' && Expr.beq a a' && Expr.beq b b'
  | .other t es, .other u fs => t == u && Expr.beqList es fs
  | _, _ => false

def Expr.beqList : List Expr → List Expr → Bool
  | [], [] => true
  | e :: es, f :: fs => Expr.beq e f && Expr.beqList es fs
  | _, _ => false

def Expr.beqOps : List (CmpOp × Expr) → List (CmpOp × Expr) → Bool
  | [], [] => true
  | (o, e) :: es, (p, f) :: fs => o == p && Expr.beq e f && Expr.beqOps es fs
  | _, _ => false
end

mutual
theorem Expr.beq_iff : ∀ a b : Expr, Expr.beq a b = true ↔ a = b
  | .const v, b => by cases b <;> simp [Expr.beq]
  | .name x, b => by cases b <;> simp [Expr.beq]
  | .unary o e, b => by
    cases b <;> simp [Expr.beq]
    rw [Expr.beq_iff e]; simp
  | .bin o l r, b => by
    cases b <;> simp [Expr.beq]
    rw [Expr.beq_iff l, Expr.beq_iff r]; simp [and_assoc]
  | .boolOp o vs, b => by
    cases b <;> simp [Expr.beq]
    rw [Expr.beqList_iff vs]; simp
  | .compare l os, b => by
    cases b <;> simp [Expr.beq]
    rw [Expr.beq_iff l, Expr.beqOps_iff os]
  | .call f as, b => by
    cases b <;> simp [Expr.beq]
    rw [Expr.beq_iff f, Expr.beqList_iff as]
  | .attr e a, b => by
    cases b <;> simp [Expr.beq]
    rw [Expr.beq_iff e]; simp
  | .subscript e i, b => by
    cases b <;> simp [Expr.beq]
    rw [Expr.beq_iff e, Expr.beq_iff i]
  | .ifExp t x y, b => by
    cases b <;> simp [Expr.beq]
    rw [Expr.beq_iff t, Expr.beq_iff x, Expr.beq_iff y]; simp [and_assoc]
  | .other t es, b => by
    cases b <;> simp [Expr.beq]
    rw [Expr.beqList_iff es]; simp

theorem Expr.beqList_iff : ∀ a b : List Expr, Expr.beqList a b = true ↔ a = b
  | [], b => by cases b <;> simp [Expr.beqList]
  | e :: es, b => by
    cases b <;> simp [Expr.beqList]
    rw [Expr.beq_iff e, Expr.beqList_iff es]

theorem Expr.beqOps_iff : ∀ a b : List (CmpOp × Expr), Expr.beqOps a b = true ↔ a = b
  | [], b => by cases b <;> simp [Expr.beqOps]
  | (o, e) :: es, b => by
    rcases b with _ | ⟨⟨p, f⟩, fs⟩ <;> simp [Expr.beqOps]
    rw [Expr.beq_iff e, Expr.beqOps_iff es]
end

instance : DecidableEq Expr := fun a b =>
  decidable_of_iff (Expr.beq a b = true) (Expr.beq_iff a b)

/-! ### Meaning -/

/-- What the meaning of expressions depends on: a type of values with the operations of Python.
Operations can raise. Calls and attribute access are functions of their operands: expressions with
side effects are outside of the model. -/
structure Sem (V : Type) where
  lit : Lit → V
  ofBool : Bool → V
  truth : V → Except PyErr Bool
  /-- `+`, `-` and `~`; `not` is given by `truth`. -/
  unary : UnOp → V → Except PyErr V
  binary : BinOp → V → V → Except PyErr V
  cmp : CmpOp → V → V → Except PyErr V
  call : V → List V → Except PyErr V
  attr : V → Str → Except PyErr V
  item : V → V → Except PyErr V
  other : Str → List V → Except PyErr V

/-- Values of variables; an unbound variable raises. -/
abbrev Env (V : Type) := Str → Except PyErr V

section eval
variable {V : Type} (S : Sem V) (env : Env V)

mutual
/-- The value of an expression. Operands are evaluated from left to right; `and`, `or` and chains of
comparisons stop at the first operand that decides. -/
def eval : Expr → Except PyErr V
  | .const v => .ok (S.lit v)
  | .name x => env x
  | .unary op e =>
    match eval e with
    | .error x => .error x
    | .ok v =>
      if op = .not then
        match S.truth v with
        | .error x => .error x
        | .ok b => .ok (S.ofBool (!b))
      else S.unary op v
  | .bin op l r =>
    match eval l with
    | .error x => .error x
    | .ok a =>
      match eval r with
      | .error x => .error x
      | .ok b => S.binary op a b
  | .boolOp isOr vs => evalBool isOr vs
  | .compare l ops =>
    match eval l with
    | .error x => .error x
    | .ok a => evalCmp a ops
  | .call f args =>
    match eval f with
    | .error x => .error x
    | .ok g =>
      match evalAll args with
      | .error x => .error x
      | .ok vs => S.call g vs
  | .attr e a =>
    match eval e with
    | .error x => .error x
    | .ok v => S.attr v a
  | .subscript e i =>
    match eval e with
    | .error x => .error x
    | .ok v =>
      match eval i with
      | .error x => .error x
      | .ok w => S.item v w
  | .ifExp t a b =>
    match eval t with
    | .error x => .error x
    | .ok v =>
      match S.truth v with
      | .error x => .error x
      | .ok c => if c then eval a else eval b
  | .other t es =>
    match evalAll es with
    | .error x => .error x
    | .ok vs => S.other t vs

def evalAll : List Expr → Except PyErr (List V)
  | [] => .ok []
  | e :: es =>
    match eval e with
    | .error x => .error x
    | .ok v =>
      match evalAll es with
      | .error x => .error x
      | .ok vs => .ok (v :: vs)

/-- `a and b and …` (`isOr = false`) or `a or b or …`. A `BoolOp` has at least two operands. -/
def evalBool (isOr : Bool) : List Expr → Except PyErr V
  | [] => .error .assertionError
  | e :: es =>
    match eval e with
    | .error x => .error x
    | .ok v =>
      match es with
      | [] => .ok v
      | _ :: _ =>
        match S.truth v with
        | .error x => .error x
        | .ok b => if b = isOr then .ok v else evalBool isOr es

/-- The rest of a chain of comparisons, after the value of its left operand is known. -/
def evalCmp (a : V) : List (CmpOp × Expr) → Except PyErr V
  | [] => .ok a
  | (op, e) :: rest =>
    match eval e with
    | .error x => .error x
    | .ok b =>
      match S.cmp op a b with
      | .error x => .error x
      | .ok v =>
        match rest with
        | [] => .ok v
        | _ :: _ =>
          match S.truth v with
          | .error x => .error x
          | .ok t => if t then evalCmp b rest else .ok v
end

/-- The truth value of a condition. -/
def truthOf (e : Expr) : Except PyErr Bool :=
  match eval S env e with
  | .error x => .error x
  | .ok v => S.truth v

end eval

/-! ### Text

A text is a list of tokens. `Reads p toks e` says that the tokens read as the expression `e` by the
rules of Python's grammar for precedence level `p` or tighter (section 6.17 of the language
reference; level 0 is a conditional expression, level 13 an atom, call, attribute or subscript). -/

inductive Tok where
  | lit (v : Lit)
  | ident (x : Str)
  | sym (s : String)
  /-- a bracketed expression that is not looked into -/
  | bracketed (tag : Str) (children : List Expr)
  /-- characters that do not form a token (such as an unfinished string) -/
  | bad
  deriving DecidableEq

def UnOp.tok : UnOp → Tok
  | .pos => .sym "+" | .neg => .sym "-" | .not => .sym "not" | .invert => .sym "~"

def BinOp.tok : BinOp → Tok
  | .add => .sym "+" | .sub => .sym "-" | .mul => .sym "*" | .div => .sym "/"
  | .floordiv => .sym "//" | .mod => .sym "%" | .pow => .sym "**" | .matmul => .sym "@"
  | .lshift => .sym "<<" | .rshift => .sym ">>" | .bitor => .sym "|" | .bitxor => .sym "^"
  | .bitand => .sym "&"

def CmpOp.toks : CmpOp → List Tok
  | .lt => [.sym "<"] | .le => [.sym "<="] | .eq => [.sym "=="] | .ne => [.sym "!="]
  | .ge => [.sym ">="] | .gt => [.sym ">"] | .is => [.sym "is"] | .isNot => [.sym "is", .sym "not"]
  | .isIn => [.sym "in"] | .notIn => [.sym "not", .sym "in"]

/-- Precedence levels of binary operators. -/
def BinOp.prec : BinOp → Nat
  | .bitor => 5 | .bitxor => 6 | .bitand => 7 | .lshift | .rshift => 8 | .add | .sub => 9
  | .mul | .div | .floordiv | .mod | .matmul => 10 | .pow => 12

/-- The keyword of a `BoolOp`. -/
def boolTok (isOr : Bool) : Tok := if isOr then .sym "or" else .sym "and"

/-- `or` binds weaker than `and`. -/
def boolPrec (isOr : Bool) : Nat := if isOr then 1 else 2

mutual
inductive Reads : Nat → List Tok → Expr → Prop
  | lit (v : Lit) : Reads 13 [.lit v] (.const v)
  | name (x : Str) : Reads 13 [.ident x] (.name x)
  | bracketed (t : Str) (es : List Expr) : Reads 13 [.bracketed t es] (.other t es)
  | paren {t e} : Reads 0 t e → Reads 13 (.sym "(" :: (t ++ [.sym ")"])) e
  | call {t f u as} : Reads 13 t f → ReadsArgs u as →
      Reads 13 (t ++ .sym "(" :: (u ++ [.sym ")"])) (.call f as)
  | attr {t e} (a : Str) : Reads 13 t e → Reads 13 (t ++ [.sym ".", .ident a]) (.attr e a)
  | subscript {t e u i} : Reads 13 t e → Reads 0 u i →
      Reads 13 (t ++ .sym "[" :: (u ++ [.sym "]"])) (.subscript e i)
  | pow {t l u r} : Reads 13 t l → Reads 11 u r →
      Reads 12 (t ++ BinOp.tok .pow :: u) (.bin .pow l r)
  | unary {op t e} : op ≠ .not → Reads 11 t e → Reads 11 (op.tok :: t) (.unary op e)
  | bin {op t l u r} : op ≠ .pow → Reads op.prec t l → Reads (op.prec + 1) u r →
      Reads op.prec (t ++ op.tok :: u) (.bin op l r)
  | compare {t l u op ops} : Reads 5 t l → ReadsOps u (op :: ops) →
      Reads 4 (t ++ u) (.compare l (op :: ops))
  | not {t e} : Reads 3 t e → Reads 3 (UnOp.tok .not :: t) (.unary .not e)
  | boolOp {isOr t v w vs} : ReadsBool isOr t (v :: w :: vs) →
      Reads (boolPrec isOr) t (.boolOp isOr (v :: w :: vs))
  | ifExp {t a u c w b} : Reads 1 t a → Reads 1 u c → Reads 0 w b →
      Reads 0 (t ++ .sym "if" :: (u ++ .sym "else" :: w)) (.ifExp c a b)
  | weaken {p t e} : Reads (p + 1) t e → Reads p t e

/-- Arguments of a call, separated by commas. -/
inductive ReadsArgs : List Tok → List Expr → Prop
  | nil : ReadsArgs [] []
  | one {t e} : Reads 0 t e → ReadsArgs t [e]
  | cons {t e u f es} : Reads 0 t e → ReadsArgs u (f :: es) →
      ReadsArgs (t ++ .sym "," :: u) (e :: f :: es)

/-- Operands separated by `and` or `or`. -/
inductive ReadsBool : Bool → List Tok → List Expr → Prop
  | one {isOr t e} : Reads (boolPrec isOr + 1) t e → ReadsBool isOr t [e]
  | cons {isOr t e u f es} : Reads (boolPrec isOr + 1) t e → ReadsBool isOr u (f :: es) →
      ReadsBool isOr (t ++ boolTok isOr :: u) (e :: f :: es)

/-- Comparison operators with their right operands. -/
inductive ReadsOps : List Tok → List (CmpOp × Expr) → Prop
  | one {op t e} : Reads 5 t e → ReadsOps (op.toks ++ t) [(op, e)]
  | cons {op t e u o os} : Reads 5 t e → ReadsOps u (o :: os) →
      ReadsOps (op.toks ++ (t ++ u)) ((op, e) :: o :: os)
end

/-- How tightly the text of an expression binds. -/
def Expr.prec : Expr → Nat
  | .unary op _ => if op = .not then 3 else 11
  | .bin op _ _ => op.prec
  | .boolOp isOr _ => boolPrec isOr
  | .compare _ _ => 4
  | .ifExp _ _ _ => 0
  | _ => 13

/-- Parentheses where the text binds weaker than its surroundings need. -/
def wrap (p : Nat) (e : Expr) (t : List Tok) : List Tok :=
  if p ≤ e.prec then t else .sym "(" :: (t ++ [.sym ")"])

mutual
/-- `node.as_string()`: the text of an expression with the parentheses it needs. -/
def Expr.text : Expr → List Tok
  | .const v => [.lit v]
  | .name x => [.ident x]
  | .unary op e => op.tok :: wrap (if op = .not then 3 else 11) e e.text
  | .bin op l r =>
    wrap (if op = .pow then 13 else op.prec) l l.text
      ++ op.tok :: wrap (if op = .pow then 11 else op.prec + 1) r r.text
  | .boolOp isOr vs => textBool isOr vs
  | .compare l ops => wrap 5 l l.text ++ textOps ops
  | .call f as => wrap 13 f f.text ++ .sym "(" :: (textArgs as ++ [.sym ")"])
  | .attr e a => wrap 13 e e.text ++ [.sym ".", .ident a]
  | .subscript e i => wrap 13 e e.text ++ .sym "[" :: (i.text ++ [.sym "]"])
  | .ifExp c a b =>
    wrap 1 a a.text ++ .sym "if" :: (wrap 1 c c.text ++ .sym "else" :: b.text)
  | .other t es => [.bracketed t es]

def textArgs : List Expr → List Tok
  | [] => []
  | e :: es =>
    match es with
    | [] => e.text
    | _ :: _ => e.text ++ .sym "," :: textArgs es

def textBool (isOr : Bool) : List Expr → List Tok
  | [] => []
  | e :: es =>
    match es with
    | [] => wrap (boolPrec isOr + 1) e e.text
    | _ :: _ => wrap (boolPrec isOr + 1) e e.text ++ boolTok isOr :: textBool isOr es

def textOps : List (CmpOp × Expr) → List Tok
  | [] => []
  | (op, e) :: rest => op.toks ++ (wrap 5 e e.text ++ textOps rest)
end

mutual
/-- Trees that are built from source text: a `BoolOp` has at least two operands, a `Compare` at
least one operator. -/
def Expr.Ok : Expr → Prop
  | .const _ => True
  | .name _ => True
  | .unary _ e => e.Ok
  | .bin _ l r => l.Ok ∧ r.Ok
  | .boolOp _ vs => 2 ≤ vs.length ∧ OkAll vs
  | .compare l ops => 1 ≤ ops.length ∧ l.Ok ∧ OkOps ops
  | .call f as => f.Ok ∧ OkAll as
  | .attr e _ => e.Ok
  | .subscript e i => e.Ok ∧ i.Ok
  | .ifExp c a b => c.Ok ∧ a.Ok ∧ b.Ok
  | .other _ _ => True

def OkAll : List Expr → Prop
  | [] => True
  | e :: es => e.Ok ∧ OkAll es

def OkOps : List (CmpOp × Expr) → Prop
  | [] => True
  | (_, e) :: es => e.Ok ∧ OkOps es
end

end Verif.Py

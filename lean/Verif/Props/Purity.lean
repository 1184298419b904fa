import Verif.Model.Purity
import Verif.Model.BoolOps

/-!
C144: Evaluating a pure expression changes nothing.

Evaluation is given by what operators, functions and so on do: they may raise and change the state, which has all variables, objects, and what is printed
and read.
-/

namespace Verif.Purity

/-- A computation: an exception or a value, and the state afterwards. -/
abbrev M (S E V : Type) := S → Except E V × S

def M.bind {S E V W : Type} (m : M S E V) (f : V → M S E W) : M S E W := fun s =>
  match m s with
  | (.error e, s) => (.error e, s)
  | (.ok v, s) => f v s

def M.pure {S E V : Type} (v : V) : M S E V := fun s => (.ok v, s)

/-- What expressions depend on. -/
structure World (S E V : Type) where
  lit : Str → V
  read : Str → S → Except E V
  unary : Str → V → M S E V
  bin : Str → V → V → M S E V
  /-- one comparison -/
  compare : Str → V → V → M S E V
  truth : V → M S E Bool
  getattr : V → Str → M S E V
  getitem : V → V → M S E V
  build : Display → List V → M S E V
  call : V → List V → M S E V
  /-- calls with keywords or stars -/
  callWith : Ex → List Ex → List (Option Str × Ex) → M S E V
  /-- the other kinds of expressions -/
  rest : Ex → M S E V

variable {S E V : Type} (W : World S E V)

mutual
/-- Evaluation, from left to right. -/
def eval : Ex → M S E V
  | .const t => M.pure (W.lit t)
  | .name x => fun s => (W.read x s, s)
  | .unary op e => M.bind (eval e) (W.unary op)
  | .bin op l r => M.bind (eval l) fun v => M.bind (eval r) fun w => W.bin op v w
  | .boolOp isOr es => evalBool isOr es
  | .compare l ops => M.bind (eval l) fun v => evalOps v v ops
  | .attribute e a => M.bind (eval e) fun v => W.getattr v a
  | .display k es => M.bind (evalAll es) (W.build k)
  | .subscript true e i => M.bind (eval e) fun v => M.bind (eval i) fun w => W.getitem v w
  | .subscript false e i => W.rest (.subscript false e i)
  | .call f args keywords =>
    if keywords.isEmpty && !args.any Ex.isStarred then M.bind (eval f) fun v => M.bind (evalAll args) (W.call v)
    else W.callWith f args keywords
  | .starred e => W.rest (.starred e)
  | .other k es => W.rest (.other k es)

def evalAll : List Ex → M S E (List V)
  | [] => M.pure []
  | e :: es => M.bind (eval e) fun v => M.bind (evalAll es) fun vs => M.pure (v :: vs)

/-- `and` and `or`: the first value that decides, or the last one. Python has at least two operands. -/
def evalBool (isOr : Bool) : List Ex → M S E V
  | [] => M.pure (W.lit [])
  | [e] => eval e
  | e :: e' :: es => M.bind (eval e) fun v => M.bind (W.truth v) fun b => if b = isOr then M.pure v else evalBool isOr (e' :: es)

/-- `v` is the value before the comparisons; `r` is the result so far. A chain ends with the first result that is false. -/
def evalOps (v r : V) : List (Str × Ex) → M S E V
  | [] => M.pure r
  | [(op, e)] => M.bind (eval e) fun w => W.compare op v w
  | (op, e) :: o :: es => M.bind (eval e) fun w => M.bind (W.compare op v w) fun r => M.bind (W.truth r) fun b => if b then evalOps w r (o :: es) else M.pure r
end

/-- Nothing is changed. -/
def Silent {V : Type} (m : M S E V) : Prop := ∀ s, (m s).2 = s

/-- Operators, attributes, subscripts and displays change nothing; so do the functions of Python with the given names. -/
structure World.Plain (bound : Str → Bool) : Prop where
  unary : ∀ op v, Silent (W.unary op v)
  bin : ∀ op v w, Silent (W.bin op v w)
  compare : ∀ op v w, Silent (W.compare op v w)
  truth : ∀ v, Silent (W.truth v)
  getattr : ∀ v a, Silent (W.getattr v a)
  getitem : ∀ v w, Silent (W.getitem v w)
  build : ∀ k vs, Silent (W.build k vs)
  call : ∀ x ∈ ["abs", "max", "min", "round", "sqrt", "len", "sum", "sorted", "reversed", "int", "float", "str", "ord", "chr", "isinstance"].map String.toList,
    bound x = false → ∀ s v, W.read x s = .ok v → ∀ vs, Silent (W.call v vs)

mutual
/-- All functions that are called are names. -/
def NameCalls : Ex → Prop
  | .const _ | .name _ => True
  | .unary _ e => NameCalls e
  | .bin _ l r => NameCalls l ∧ NameCalls r
  | .boolOp _ es => AllNameCalls es
  | .compare l ops => NameCalls l ∧ OpsNameCalls ops
  | .attribute e _ => NameCalls e
  | .display _ es => AllNameCalls es
  | .subscript _ e i => NameCalls e ∧ NameCalls i
  | .call f args _ => (∃ x, f = .name x) ∧ AllNameCalls args
  | .starred e => NameCalls e
  | .other _ es => AllNameCalls es

def AllNameCalls : List Ex → Prop
  | [] => True
  | e :: es => NameCalls e ∧ AllNameCalls es

def OpsNameCalls : List (Str × Ex) → Prop
  | [] => True
  | (_, e) :: es => NameCalls e ∧ OpsNameCalls es
end

variable {W}

theorem Silent.bind {V U : Type} {m : M S E V} {f : V → M S E U} (hm : Silent m) (hf : ∀ v, Silent (f v)) : Silent (M.bind m f) := by
  intro s
  have := hm s
  unfold M.bind
  revert this
  rcases m s with ⟨r, s'⟩
  rintro rfl
  cases r with
  | error e => rfl
  | ok v => exact hf v _

theorem silent_pure {V : Type} (v : V) : Silent (M.pure v : M S E V) := fun _ => rfl

section
variable {bound : Str → Bool} {infer : Ex → Option Str} (hW : W.Plain bound) (hi : ∀ x n, bound x = false → infer (.name x) = some n → n = x)

include hW hi

mutual
theorem eval_silent : ∀ e, isPure bound infer e = true → NameCalls e → Silent (eval W e)
  | .const _, _, _ => by rw [eval]; exact silent_pure _
  | .name x, _, _ => by rw [eval]; exact fun _ => rfl
  | .unary op e, h, hn => by
    rw [isPure] at h
    rw [NameCalls] at hn
    rw [eval]
    exact (eval_silent e h hn).bind (hW.unary op)
  | .bin op l r, h, hn => by
    rw [isPure, Bool.and_eq_true] at h
    rw [NameCalls] at hn
    rw [eval]
    exact (eval_silent l h.1 hn.1).bind fun v => (eval_silent r h.2 hn.2).bind fun w => hW.bin op v w
  | .boolOp isOr es, h, hn => by
    rw [isPure] at h
    rw [NameCalls] at hn
    rw [eval]
    exact evalBool_silent isOr es h hn
  | .compare l ops, h, hn => by
    rw [isPure, Bool.and_eq_true] at h
    rw [NameCalls] at hn
    rw [eval]
    exact (eval_silent l h.1 hn.1).bind fun v => evalOps_silent v v ops h.2 hn.2
  | .attribute e a, h, hn => by
    rw [isPure] at h
    rw [NameCalls] at hn
    rw [eval]
    exact (eval_silent e h hn).bind fun v => hW.getattr v a
  | .display k es, h, hn => by
    rw [isPure] at h
    rw [NameCalls] at hn
    rw [eval]
    exact (evalAll_silent es h hn).bind (hW.build k)
  | .subscript true e i, h, hn => by
    rw [isPure, Bool.true_and, Bool.and_eq_true] at h
    rw [NameCalls] at hn
    rw [eval]
    exact (eval_silent e h.1 hn.1).bind fun v => (eval_silent i h.2 hn.2).bind fun w => hW.getitem v w
  | .subscript false e i, h, _ => by rw [isPure] at h; cases h
  | .call f args keywords, h, hn => by
    rw [isPure, Bool.and_eq_true, Bool.and_assoc, Bool.and_eq_true] at h
    rw [NameCalls] at hn
    rw [eval, if_pos h.1.2]
    obtain ⟨⟨x, rfl⟩, hn⟩ := hn
    obtain ⟨⟨hb, -⟩, ha⟩ := h
    unfold pureBuiltin isBuiltin at hb
    rw [Bool.and_eq_true, Bool.not_eq_true'] at hb
    obtain ⟨hx, hb⟩ := hb
    have hx' : x ∈ pureFunctions := by
      cases hin : infer (.name x) with
      | none => simp [hin] at hb
      | some n =>
        simp only [hin, decide_eq_true_eq] at hb
        rwa [hi x n hx hin] at hb
    intro s
    rw [eval]
    unfold M.bind
    dsimp only
    cases hr : W.read x s with
    | error _ => rfl
    | ok v =>
      exact ((evalAll_silent args ha hn).bind (hW.call x hx' hx s v hr)) s
  | .starred _, h, _ => by rw [isPure] at h; cases h
  | .other _ _, h, _ => by rw [isPure] at h; cases h

theorem evalAll_silent : ∀ es, allPure bound infer es = true → AllNameCalls es → Silent (evalAll W es)
  | [], _, _ => by rw [evalAll]; exact silent_pure _
  | e :: es, h, hn => by
    rw [allPure, Bool.and_eq_true] at h
    rw [AllNameCalls] at hn
    rw [evalAll]
    exact (eval_silent e h.1 hn.1).bind fun v => (evalAll_silent es h.2 hn.2).bind fun vs => silent_pure _

theorem evalBool_silent (isOr : Bool) : ∀ es, allPure bound infer es = true → AllNameCalls es → Silent (evalBool W isOr es)
  | [], _, _ => by rw [evalBool]; exact silent_pure _
  | [e], h, hn => by
    rw [allPure, Bool.and_eq_true] at h
    rw [AllNameCalls] at hn
    rw [evalBool]
    exact eval_silent e h.1 hn.1
  | e :: e' :: es, h, hn => by
    rw [allPure, Bool.and_eq_true] at h
    rw [AllNameCalls] at hn
    rw [evalBool]
    refine (eval_silent e h.1 hn.1).bind fun v => (hW.truth v).bind fun b => ?_
    split
    · exact silent_pure _
    · exact evalBool_silent isOr (e' :: es) h.2 hn.2

theorem evalOps_silent (v r : V) : ∀ ops, opsPure bound infer ops = true → OpsNameCalls ops → Silent (evalOps W v r ops)
  | [], _, _ => by rw [evalOps]; exact silent_pure _
  | [(op, e)], h, hn => by
    rw [opsPure, Bool.and_eq_true] at h
    rw [OpsNameCalls] at hn
    rw [evalOps]
    exact (eval_silent e h.1 hn.1).bind fun w => hW.compare op v w
  | (op, e) :: o :: es, h, hn => by
    rw [opsPure, Bool.and_eq_true] at h
    rw [OpsNameCalls] at hn
    rw [evalOps]
    refine (eval_silent e h.1 hn.1).bind fun w => (hW.compare op v w).bind fun r => (hW.truth r).bind fun b => ?_
    split
    · exact evalOps_silent w r (o :: es) h.2 hn.2
    · exact silent_pure _
end

end

/-- C144: Evaluating a pure expression leaves the state as it is, also if an exception is raised, if operators, attributes, subscripts and displays do, and all
functions that it calls are names. Missing: functions that are attributes. -/
theorem C144_silent_partial {bound : Str → Bool} {infer : Ex → Option Str} (hW : W.Plain bound)
    (hi : ∀ x n, bound x = false → infer (.name x) = some n → n = x) {e : Ex} (hp : isPure bound infer e = true) (hn : NameCalls e) (s : S) : (eval W e s).2 = s :=
  eval_silent hW hi e hp hn s

/-- C144: So two such expressions can be evaluated in either order, or more often, with the same results. -/
theorem C144_order_partial {bound : Str → Bool} {infer : Ex → Option Str} (hW : W.Plain bound)
    (hi : ∀ x n, bound x = false → infer (.name x) = some n → n = x) {a b : Ex} (ha : isPure bound infer a = true) (hb : isPure bound infer b = true)
    (hna : NameCalls a) (hnb : NameCalls b) (s : S) :
    eval W a (eval W b s).2 = eval W a s ∧ eval W b (eval W a s).2 = eval W b s ∧ eval W a (eval W a s).2 = eval W a s := by
  rw [eval_silent hW hi a ha hna, eval_silent hW hi b hb hnb]
  exact ⟨rfl, rfl, rfl⟩

/-! ### What is pure -/

mutual
/-- The nodes of an expression, without those of functions that are called. -/
def nodes : Ex → List Ex
  | .const t => [.const t]
  | .name x => [.name x]
  | .unary op e => .unary op e :: nodes e
  | .bin op l r => .bin op l r :: (nodes l ++ nodes r)
  | .boolOp o es => .boolOp o es :: nodesAll es
  | .compare l ops => .compare l ops :: (nodes l ++ nodesOps ops)
  | .attribute e a => .attribute e a :: nodes e
  | .display k es => .display k es :: nodesAll es
  | .subscript load e i => .subscript load e i :: (nodes e ++ nodes i)
  | .call f args keywords => .call f args keywords :: nodesAll args
  | .starred e => .starred e :: nodes e
  | .other k es => .other k es :: nodesAll es

def nodesAll : List Ex → List Ex
  | [] => []
  | e :: es => nodes e ++ nodesAll es

def nodesOps : List (Str × Ex) → List Ex
  | [] => []
  | (_, e) :: es => nodes e ++ nodesOps es
end

/-- Nodes that no pure expression has. -/
inductive Bad (bound : Str → Bool) (infer : Ex → Option Str) : Ex → Prop
  | other (k : Str) (es : List Ex) : Bad bound infer (.other k es)
  | starred (e : Ex) : Bad bound infer (.starred e)
  | target (e i : Ex) : Bad bound infer (.subscript false e i)
  | keyword (f : Ex) (args : List Ex) (k : Option Str × Ex) (ks : List (Option Str × Ex)) : Bad bound infer (.call f args (k :: ks))
  | star (f e : Ex) (before after : List Ex) (ks : List (Option Str × Ex)) : Bad bound infer (.call f (before ++ .starred e :: after) ks)
  | bound (x : Str) (args : List Ex) (ks : List (Option Str × Ex)) (h : bound x = true) : Bad bound infer (.call (.name x) args ks)
  | function (f : Ex) (args : List Ex) (ks : List (Option Str × Ex))
      (h : ∀ n ∈ ["abs", "max", "min", "round", "sqrt", "len", "sum", "sorted", "reversed", "int", "float", "str", "ord", "chr", "isinstance"].map String.toList,
        infer f ≠ some n) : Bad bound infer (.call f args ks)

theorem bad_call {bound : Str → Bool} {infer : Ex → Option Str} {f : Ex} {args : List Ex} {ks : List (Option Str × Ex)} :
    (pureBuiltin bound infer f && ks.isEmpty && !args.any Ex.isStarred) = true ↔ ¬ Bad bound infer (.call f args ks) := by
  constructor
  · intro h hb
    simp only [Bool.and_eq_true, Bool.not_eq_true', List.any_eq_false, pureBuiltin] at h
    obtain ⟨⟨⟨h1, h2⟩, h3⟩, h4⟩ := h
    cases hb with
    | keyword => simp at h3
    | star _ e => exact h4 (.starred e) (by simp) rfl
    | bound x _ _ hx => simp [isBuiltin, hx] at h1
    | function _ _ _ hf =>
      cases hin : infer f with
      | none => simp [hin] at h2
      | some n =>
        simp only [hin, decide_eq_true_eq] at h2
        exact hf n h2 hin
  · intro h
    have hks : ks = [] := by
      cases ks with
      | nil => rfl
      | cons k ks => exact absurd (.keyword f args k ks) h
    have hst : args.any Ex.isStarred = false := by
      rw [List.any_eq_false]
      intro e he hs
      obtain ⟨b, a, rfl⟩ := List.append_of_mem he
      cases e <;> simp [Ex.isStarred] at hs
      exact h (.star f _ b a ks)
    have hbi : isBuiltin bound f = true := by
      cases f <;> simp only [isBuiltin]
      rename_i x
      cases hx : bound x with
      | false => rfl
      | true => exact absurd (.bound x args ks hx) h
    have hfn : ∃ n ∈ pureFunctions, infer f = some n := Classical.byContradiction fun hc =>
      h (.function f args ks fun n hn he => hc ⟨n, hn, he⟩)
    obtain ⟨n, hn, he⟩ := hfn
    simp [pureBuiltin, hks, hst, hbi, he, hn]

mutual
theorem pure_nodes {bound : Str → Bool} {infer : Ex → Option Str} : ∀ e, isPure bound infer e = true ↔ ∀ d ∈ nodes e, ¬ Bad bound infer d
  | .const t => by simp only [isPure, nodes, List.mem_singleton, forall_eq, true_iff]; exact fun h => nomatch h
  | .name x => by simp only [isPure, nodes, List.mem_singleton, forall_eq, true_iff]; exact fun h => nomatch h
  | .unary op e => by
    rw [isPure, nodes, List.forall_mem_cons, pure_nodes e]
    exact ⟨fun h => ⟨(fun h => nomatch h), h⟩, And.right⟩
  | .bin op l r => by
    rw [isPure, nodes, List.forall_mem_cons, List.forall_mem_append, Bool.and_eq_true, pure_nodes l, pure_nodes r]
    exact ⟨fun h => ⟨(fun h => nomatch h), h⟩, And.right⟩
  | .boolOp o es => by
    rw [isPure, nodes, List.forall_mem_cons, pure_nodesAll es]
    exact ⟨fun h => ⟨(fun h => nomatch h), h⟩, And.right⟩
  | .compare l ops => by
    rw [isPure, nodes, List.forall_mem_cons, List.forall_mem_append, Bool.and_eq_true, pure_nodes l, pure_nodesOps ops]
    exact ⟨fun h => ⟨(fun h => nomatch h), h⟩, And.right⟩
  | .attribute e a => by
    rw [isPure, nodes, List.forall_mem_cons, pure_nodes e]
    exact ⟨fun h => ⟨(fun h => nomatch h), h⟩, And.right⟩
  | .display k es => by
    rw [isPure, nodes, List.forall_mem_cons, pure_nodesAll es]
    exact ⟨fun h => ⟨(fun h => nomatch h), h⟩, And.right⟩
  | .subscript load e i => by
    rw [isPure, nodes, List.forall_mem_cons, List.forall_mem_append, Bool.and_eq_true, Bool.and_eq_true, pure_nodes e, pure_nodes i]
    refine and_congr_left fun _ => ?_
    cases load with
    | true => exact ⟨(fun _ h => nomatch h), fun _ => rfl⟩
    | false => exact ⟨(fun h => nomatch h), fun h => absurd (.target e i) h⟩
  | .call f args ks => by
    rw [isPure, nodes, List.forall_mem_cons, Bool.and_eq_true, pure_nodesAll args, bad_call]
  | .starred e => by
    rw [isPure, nodes, List.forall_mem_cons]
    exact ⟨(fun h => nomatch h), fun h => absurd (.starred e) h.1⟩
  | .other k es => by
    rw [isPure, nodes, List.forall_mem_cons]
    exact ⟨(fun h => nomatch h), fun h => absurd (.other k es) h.1⟩

theorem pure_nodesAll {bound : Str → Bool} {infer : Ex → Option Str} : ∀ es, allPure bound infer es = true ↔ ∀ d ∈ nodesAll es, ¬ Bad bound infer d
  | [] => by simp [allPure, nodesAll]
  | e :: es => by rw [allPure, nodesAll, List.forall_mem_append, Bool.and_eq_true, pure_nodes e, pure_nodesAll es]

theorem pure_nodesOps {bound : Str → Bool} {infer : Ex → Option Str} : ∀ es, opsPure bound infer es = true ↔ ∀ d ∈ nodesOps es, ¬ Bad bound infer d
  | [] => by simp [opsPure, nodesOps]
  | (_, e) :: es => by rw [opsPure, nodesOps, List.forall_mem_append, Bool.and_eq_true, pure_nodes e, pure_nodesOps es]
end

/-- C144: An expression is pure exactly if no node in it, outside of functions that are called, is of another kind than names, constants, operators, comparisons,
attributes, subscripts that are read, displays, and calls, without keywords and stars, of what is not a variable and is inferred as a function with one of the names. -/
theorem C144_pure (bound : Str → Bool) (infer : Ex → Option Str) (e : Ex) : isPure bound infer e = true ↔ ∀ d ∈ nodes e, ¬ Bad bound infer d :=
  pure_nodes e

/-! ### The expressions of other models -/

mutual
/-- An expression of `Verif.Py` here; operators do not matter. -/
def ofExpr (display : Str → Bool) : Py.Expr → Ex
  | .const _ => .const []
  | .name x => .name x
  | .unary _ e => .unary [] (ofExpr display e)
  | .bin _ l r => .bin [] (ofExpr display l) (ofExpr display r)
  | .boolOp o es => .boolOp o (ofExprs display es)
  | .compare l ops => .compare (ofExpr display l) (ofOps display ops)
  | .call f args => .call (ofExpr display f) (ofExprs display args) []
  | .attr e a => .attribute (ofExpr display e) a
  | .subscript e i => .subscript true (ofExpr display e) (ofExpr display i)
  | .ifExp t a b => .other "IfExp".toList [ofExpr display t, ofExpr display a, ofExpr display b]
  | .other t es => if display t then .display .list (ofExprs display es) else .other t (ofExprs display es)

def ofExprs (display : Str → Bool) : List Py.Expr → List Ex
  | [] => []
  | e :: es => ofExpr display e :: ofExprs display es

def ofOps (display : Str → Bool) : List (Py.CmpOp × Py.Expr) → List (Str × Ex)
  | [] => []
  | (_, e) :: es => ([], ofExpr display e) :: ofOps display es
end

theorem ofExpr_notStarred (display : Str → Bool) (e : Py.Expr) : (ofExpr display e).isStarred = false := by
  cases e with
  | other t es => rw [ofExpr]; split <;> rfl
  | _ => rw [ofExpr]; rfl

theorem ofExprs_notStarred (display : Str → Bool) : ∀ es : List Py.Expr, (ofExprs display es).any Ex.isStarred = false
  | [] => by rw [ofExprs]; rfl
  | e :: es => by rw [ofExprs, List.any_cons, ofExpr_notStarred, ofExprs_notStarred display es]; rfl

mutual
theorem isPure_ofExpr (bound : Str → Bool) (infer : Ex → Option Str) (display : Str → Bool) :
    ∀ e, Py.BoolOps.isPure (fun f => pureBuiltin bound infer (ofExpr display f)) display e = isPure bound infer (ofExpr display e)
  | .const _ | .name _ => by simp only [Py.BoolOps.isPure, ofExpr, isPure]
  | .unary _ e => by rw [Py.BoolOps.isPure, ofExpr, isPure, isPure_ofExpr _ _ _ e]
  | .bin _ l r => by rw [Py.BoolOps.isPure, ofExpr, isPure, isPure_ofExpr _ _ _ l, isPure_ofExpr _ _ _ r]
  | .boolOp _ es => by rw [Py.BoolOps.isPure, ofExpr, isPure, allPure_ofExprs _ _ _ es]
  | .compare l ops => by rw [Py.BoolOps.isPure, ofExpr, isPure, isPure_ofExpr _ _ _ l, opsPure_ofOps _ _ _ ops]
  | .call f args => by
    rw [Py.BoolOps.isPure, ofExpr, isPure, allPure_ofExprs _ _ _ args, ofExprs_notStarred]
    simp
  | .attr e _ => by rw [Py.BoolOps.isPure, ofExpr, isPure, isPure_ofExpr _ _ _ e]
  | .subscript e i => by rw [Py.BoolOps.isPure, ofExpr, isPure, isPure_ofExpr _ _ _ e, isPure_ofExpr _ _ _ i, Bool.true_and]
  | .ifExp _ _ _ => by rw [Py.BoolOps.isPure, ofExpr, isPure]
  | .other t es => by
    rw [Py.BoolOps.isPure, ofExpr]
    split
    · rename_i h
      rw [isPure, h, Bool.true_and, allPure_ofExprs _ _ _ es]
    · rename_i h
      rw [isPure, Bool.eq_false_iff.2 h, Bool.false_and]

theorem allPure_ofExprs (bound : Str → Bool) (infer : Ex → Option Str) (display : Str → Bool) :
    ∀ es, Py.BoolOps.allPure (fun f => pureBuiltin bound infer (ofExpr display f)) display es = allPure bound infer (ofExprs display es)
  | [] => by rw [Py.BoolOps.allPure, ofExprs, allPure]
  | e :: es => by rw [Py.BoolOps.allPure, ofExprs, allPure, isPure_ofExpr _ _ _ e, allPure_ofExprs _ _ _ es]

theorem opsPure_ofOps (bound : Str → Bool) (infer : Ex → Option Str) (display : Str → Bool) :
    ∀ es, Py.BoolOps.opsPure (fun f => pureBuiltin bound infer (ofExpr display f)) display es = opsPure bound infer (ofOps display es)
  | [] => by rw [Py.BoolOps.opsPure, ofOps, opsPure]
  | (_, e) :: es => by rw [Py.BoolOps.opsPure, ofOps, opsPure, isPure_ofExpr _ _ _ e, opsPure_ofOps _ _ _ es]
end

/-- C144: What other models take for pure is what is pure here. -/
theorem C144_models (bound : Str → Bool) (infer : Ex → Option Str) (display : Str → Bool) (e : Py.Expr) :
    Py.BoolOps.isPure (fun f => pureBuiltin bound infer (ofExpr display f)) display e = isPure bound infer (ofExpr display e) :=
  isPure_ofExpr bound infer display e

/-! ### Examples -/

/-- A state is what is left to be read and what was printed. Values are numbers; a function is its number, and 7 is an iterator: comparing with it takes from it. -/
def exWorld : World (List Int × List Int) Unit Int where
  lit t := t.length
  read x _ := if x = "input".toList then .ok 1 else if x = "abs".toList then .ok 2 else if x = "it".toList then .ok 7 else .ok 3
  unary _ v s := (.ok (-v), s)
  bin _ v w s := (.ok (v + w), s)
  compare _ v w s := (.ok (if v = w then 1 else 0), if w = 7 then (s.1.tail, s.2) else s)
  truth v s := (.ok (v ≠ 0), s)
  getattr v a s := (.ok (v + 100 * a.length), s)
  getitem v w s := (.ok (v + w), s)
  build _ vs s := (.ok vs.length, s)
  call f vs s :=
    if f = 1 then (.ok (s.1.headD 0), (s.1.tail, s.2)) else if f = 2 then (.ok ((vs.headD 0).natAbs : Int), s)
    else if 303 = f then (.ok 0, (s.1, s.2 ++ [5])) else (.ok 0, s)
  callWith _ _ _ s := (.ok 0, s)
  rest _ s := (.ok 0, s)

def exBound (x : Str) : Bool := x = "a".toList
/-- The name of a function is that of the attribute. -/
def exInfer : Ex → Option Str
  | .name x => some x
  | .attribute _ a => some a
  | _ => none

/-- `abs(x + 1) < 2 and not y` is pure; `input()` and `f(x)` for a variable `f` are not. -/
example : isPure exBound exInfer (.boolOp false [.compare (.call (.name "abs".toList) [.bin "+".toList (.name "x".toList) (.const "1".toList)] []) [("<".toList, .const "2".toList)],
      .unary "not".toList (.name "y".toList)]) = true ∧
    isPure exBound exInfer (.call (.name "input".toList) [] []) = false ∧ isPure exBound exInfer (.call (.name "a".toList) [] []) = false ∧
    isPure exBound exInfer (.call (.name "abs".toList) [] [(none, .name "d".toList)]) = false := by
  decide +kernel

/-- A world with just integers satisfies what the theorems need. -/
example : (World.mk (S := List Int) (E := Unit) (V := Int) (fun t => t.length) (fun x _ => .ok x.length) (fun _ v s => (.ok (-v), s)) (fun _ v w s => (.ok (v + w), s))
    (fun _ v w s => (.ok (v - w), s)) (fun v s => (.ok (v ≠ 0), s)) (fun v _ s => (.ok v, s)) (fun v _ s => (.ok v, s)) (fun _ vs s => (.ok vs.length, s))
    (fun f vs s => (.ok f, if f = 5 then s ++ vs else s)) (fun _ _ _ s => (.ok 0, 1 :: s)) (fun _ s => (.error (), 2 :: s))).Plain (fun x => x.length = 5) := by
  refine ⟨fun _ _ _ => rfl, fun _ _ _ _ => rfl, fun _ _ _ _ => rfl, fun _ _ => rfl, fun _ _ _ => rfl, fun _ _ _ => rfl, fun _ _ _ => rfl, ?_⟩
  intro x hx hb s v hv vs s'
  simp only [Except.ok.injEq] at hv
  simp only [decide_eq_false_iff_not] at hb
  subst hv
  have : ((x.length : Nat) : Int) ≠ 5 := by omega
  simp [this]

/-- The property fails for methods: `a.sum()` is pure although it may print something. -/
theorem C144_method_counterexample :
    isPure exBound exInfer (.call (.attribute (.name "a".toList) "sum".toList) [] []) = true ∧
    (eval exWorld (.call (.attribute (.name "a".toList) "sum".toList) [] []) ([], [])).2 = ([], [5]) := by
  decide +kernel

/-- It also fails for what is before the method: `Decimal(input()).sqrt()` is pure although it reads something. -/
theorem C144_receiver_counterexample :
    isPure exBound exInfer (.call (.attribute (.call (.name "Decimal".toList) [.call (.name "input".toList) [] []] []) "sqrt".toList) [] []) = true ∧
    (eval exWorld (.call (.attribute (.call (.name "Decimal".toList) [.call (.name "input".toList) [] []] []) "sqrt".toList) [] []) ([4], [])).2 = ([], []) := by
  decide +kernel

/-- Operators can change the values that they are for: `x in it` is pure although it takes from an iterator. -/
theorem C144_iterator_counterexample :
    isPure exBound exInfer (.compare (.name "x".toList) [("in".toList, .name "it".toList)]) = true ∧
    (eval exWorld (.compare (.name "x".toList) [("in".toList, .name "it".toList)]) ([4], [])).2 = ([], []) := by
  decide +kernel

end Verif.Purity

import Verif.Model.InRange
import Verif.Lemmas.PyInt
import Verif.Lemmas.Parse
import Verif.Props.LocalDefects

/-! C35: the comparison suggested instead of a test of membership in a range. -/

namespace Verif.Py

variable (R : FoldSem Val)

/-- An expression that evaluates to an integer. -/
def EvalInt (env : Env Val) (e : Expr) (i : Int) : Prop :=
  ∃ v, eval (intSem R).toSem env e = .ok v ∧ v.asInt = some i

theorem eval_compare {env : Env Val} {l r : Expr} {op : CmpOp} {a b : Int} {c : Bool}
    (hl : EvalInt R env l a) (hr : EvalInt R env r b) (hc : intCmp op a b = some c) :
    eval (intSem R).toSem env (.compare l [(op, r)]) = .ok (.bool c) := by
  obtain ⟨v, hv, hva⟩ := hl
  obtain ⟨w, hw, hwb⟩ := hr
  simp only [eval, evalCmp, hv, hw]
  rw [intSem_cmp R hva hwb hc]

theorem evalInt_bin {env : Env Val} {l r : Expr} {op : BinOp} {a b c : Int}
    (hl : EvalInt R env l a) (hr : EvalInt R env r b) (hc : intBin op a b = some (.ok (.int c))) :
    EvalInt R env (.bin op l r) c := by
  obtain ⟨v, hv, hva⟩ := hl
  obtain ⟨w, hw, hwb⟩ := hr
  refine ⟨.int c, ?_, rfl⟩
  simp only [eval, hv, hw]
  exact intSem_binary R hva hwb hc

/-- Operands of `and` and `or` that are truth values. -/
theorem evalBool_map {α : Type} {env : Env Val} (isOr : Bool) (g : α → Expr) (b : α → Bool)
    (hg : ∀ i, eval (intSem R).toSem env (g i) = .ok (.bool (b i))) :
    ∀ vals : List α, vals ≠ [] → evalBool (intSem R).toSem env isOr (vals.map g) =
      .ok (.bool (if isOr then vals.any b else vals.all b))
  | [], h => absurd rfl h
  | [i], _ => by
    rw [List.map_cons, List.map_nil, evalBool, hg]
    cases isOr <;> simp
  | i :: j :: vals, _ => by
    have ih := evalBool_map isOr g b hg (j :: vals) (by simp)
    rw [List.map_cons] at ih
    rw [List.map_cons, List.map_cons, evalBool, hg]
    simp only [intSem_truth_bool, ih]
    cases isOr <;> cases hb : b i <;> simp [hb]

/-- The expression written by `intToks`. -/
def intExpr (i : Int) : Expr :=
  if i < 0 then .unary .neg (.const (.int i.natAbs)) else .const (.int i.natAbs)

theorem reads_intToks (i : Int) : Reads 11 (intToks i) (intExpr i) := by
  unfold intToks intExpr
  split
  · exact Reads.unary (op := .neg) (by decide) ((Reads.lit _).mono (by decide))
  · exact (Reads.lit _).mono (by decide)

theorem evalInt_intExpr (env : Env Val) (i : Int) : EvalInt R env (intExpr i) i := by
  unfold intExpr
  split
  · refine ⟨.int (-(i.natAbs : Int)), ?_, ?_⟩
    · simp only [eval, intSem_lit_int]
      rw [if_neg (by decide)]
      exact (intSem_unary R rfl).1
    · simp only [Val.asInt, Option.some.injEq]; omega
  · refine ⟨.int (i.natAbs : Int), ?_, ?_⟩
    · simp only [eval, intSem_lit_int]
    · simp only [Val.asInt, Option.some.injEq]; omega

/-- A natural number is written without a sign. -/
theorem reads_natToks (n : Nat) : Reads 13 (intToks n) (intExpr n) := by
  unfold intToks intExpr
  rw [if_neg (by omega), if_neg (by omega)]
  exact Reads.lit _

theorem isVar_prec {e : Expr} (h : isVar e = true) : e.prec = 13 := by
  cases e <;> simp [isVar] at h <;> rfl

theorem pyRange_shift (a c d s : Int) : pyRange (a + c) (a + d) s = (pyRange c d s).map (a + ·) := by
  have h : rangeLen (a + c) (a + d) s = rangeLen c d s := by
    unfold rangeLen
    have h1 : a + d - (a + c) = d - c := by omega
    have h2 : a + c - (a + d) = c - d := by omega
    rw [h1, h2]
  simp only [pyRange, h, List.map_map]
  congr 1
  funext i
  simp only [Function.comp]
  omega

/-! ### Lists of values -/

section small
variable {env : Env Val} {var : Expr} {x : Int}

/-- A comparison in the list. -/
def smallCmp (isIn : Bool) (var e : Expr) : Expr := .compare var [(if isIn then .eq else .ne, e)]

theorem cmp_tok (isIn : Bool) : [Tok.sym (if isIn then "==" else "!=")] = (if isIn then CmpOp.eq else .ne).toks := by
  cases isIn <;> rfl

theorem bool_tok (isIn : Bool) : Tok.sym (if isIn then "or" else "and") = boolTok isIn := by
  cases isIn <;> rfl

theorem reads_smallCmp (isIn : Bool) (hok : var.Ok) (hvar : isVar var = true) {t : List Tok} {e : Expr}
    (ht : Reads 5 t e) : Reads 4 (var.text ++ .sym (if isIn then "==" else "!=") :: t) (smallCmp isIn var e) := by
  have hv : Reads 5 var.text var := reads_text_at hok (by rw [isVar_prec hvar]; decide)
  have := Reads.compare hv (ReadsOps.one (op := if isIn then .eq else .ne) ht)
  rw [← cmp_tok] at this
  exact this

theorem reads_smallToks (isIn : Bool) (hok : var.Ok) (hvar : isVar var = true) (f : Int → List Tok) (g : Int → Expr)
    (hfg : ∀ i, Reads 5 (f i) (g i)) : ∀ vals : List Int, vals ≠ [] →
    ReadsBool isIn (smallToks isIn var (vals.map f)) (vals.map fun i => smallCmp isIn var (g i))
  | [], h => absurd rfl h
  | [i], _ => by
    simp only [List.map, smallToks]
    exact .one ((reads_smallCmp isIn hok hvar (hfg i)).mono (by cases isIn <;> decide))
  | i :: j :: vals, _ => by
    have ih := reads_smallToks isIn hok hvar f g hfg (j :: vals) (by simp)
    simp only [List.map_cons] at ih
    simp only [List.map_cons, smallToks, bool_tok]
    have := ReadsBool.cons ((reads_smallCmp isIn hok hvar (hfg i)).mono (by cases isIn <;> decide)) ih
    simpa using this

/-- The list of comparisons with all values of a range tests membership in it. -/
theorem small_equivalent (isIn : Bool) (hok : var.Ok) (hvar : isVar var = true) (hx : EvalInt R env var x)
    (f : Int → List Tok) (g : Int → Expr) (hfg : ∀ i, Reads 5 (f i) (g i)) (base : Int)
    (hg : ∀ i, EvalInt R env (g i) (base + i)) (vals : List Int) :
    ∃ e, Reads 0 (smallToks isIn var (vals.map f)) e ∧
      eval (intSem R).toSem env e =
        .ok (.bool (if isIn then (vals.map (base + ·)).contains x else !(vals.map (base + ·)).contains x)) := by
  have hcmp : ∀ i, eval (intSem R).toSem env (smallCmp isIn var (g i)) =
      .ok (.bool (if isIn then decide (x = base + i) else decide (x ≠ base + i))) := by
    intro i
    cases isIn
    · exact eval_compare R hx (hg i) rfl
    · exact eval_compare R hx (hg i) rfl
  have hval : (if isIn then vals.any (fun i => if isIn then decide (x = base + i) else decide (x ≠ base + i))
      else vals.all (fun i => if isIn then decide (x = base + i) else decide (x ≠ base + i))) =
      (if isIn then (vals.map (base + ·)).contains x else !(vals.map (base + ·)).contains x) := by
    cases isIn
    · rw [Bool.eq_iff_iff]
      simp only [Bool.false_eq_true, if_false, List.all_eq_true, decide_eq_true_eq, Bool.not_eq_true',
        List.contains_eq_mem, List.mem_map, decide_eq_false_iff_not, not_exists, not_and]
      exact ⟨fun h i hi he => h i hi he.symm, fun h i hi he => h i hi he.symm⟩
    · rw [Bool.eq_iff_iff]
      simp only [if_true, List.any_eq_true, decide_eq_true_eq, List.contains_eq_mem, List.mem_map]
      exact ⟨fun ⟨i, hi, he⟩ => ⟨i, hi, he.symm⟩, fun ⟨i, hi, he⟩ => ⟨i, hi, he.symm⟩⟩
  rw [← hval]
  match vals with
  | [] =>
    refine ⟨.const (.bool (!isIn)), (Reads.lit _).mono (by decide), ?_⟩
    cases isIn <;> simp [eval]
  | [i] =>
    refine ⟨smallCmp isIn var (g i), (reads_smallCmp isIn hok hvar (hfg i)).mono (by decide), ?_⟩
    rw [hcmp]
    cases isIn <;> simp
  | i :: j :: vals =>
    refine ⟨.boolOp isIn ((i :: j :: vals).map fun i => smallCmp isIn var (g i)), ?_, ?_⟩
    · exact (Reads.boolOp (reads_smallToks isIn hok hvar f g hfg (i :: j :: vals) (by simp))).mono (Nat.zero_le _)
    · rw [eval]
      exact evalBool_map R isIn _ _ hcmp _ (by simp)

end small

/-! ### Bounds -/

/-- The expression written by `plusToks`. -/
def plusExpr (var : Expr) (value : Int) : Expr :=
  if value = 0 then var else .bin (if value > 0 then .add else .sub) var (intExpr value.natAbs)

theorem reads_plusToks {var : Expr} (hok : var.Ok) (hvar : isVar var = true) (i : Int) :
    Reads 9 (plusToks var i) (plusExpr var i) := by
  have hv : Reads 9 var.text var := reads_text_at hok (by rw [isVar_prec hvar]; decide)
  unfold plusToks plusExpr
  split
  · exact hv
  · split
    · exact Reads.bin (op := .add) (by decide) hv ((reads_natToks _).mono (by decide))
    · exact Reads.bin (op := .sub) (by decide) hv ((reads_natToks _).mono (by decide))

theorem evalInt_plusExpr {env : Env Val} {var : Expr} {x : Int} (hx : EvalInt R env var x) (i : Int) :
    EvalInt R env (plusExpr var i) (x + i) := by
  unfold plusExpr
  split
  · rename_i h; subst h; simpa using hx
  · split
    · refine evalInt_bin R hx (evalInt_intExpr R env _) ?_
      simp only [intBin, Option.some.injEq, Except.ok.injEq, Val.int.injEq]; omega
    · refine evalInt_bin R hx (evalInt_intExpr R env _) ?_
      simp only [intBin, Option.some.injEq, Except.ok.injEq, Val.int.injEq]; omega

theorem litInt_spec (env : Env Val) {c : Lit} {i : Int} (h : litInt c = some i) : EvalInt R env (.const c) i := by
  cases c with
  | int n => simp [litInt] at h; subst h; exact ⟨.int n, by simp [eval], rfl⟩
  | bool b => simp only [litInt, Option.some.injEq] at h; subst h; exact ⟨.bool b, by simp [eval], rfl⟩
  | _ => simp [litInt] at h

theorem evalInt_unique {env : Env Val} {e : Expr} {i j : Int} (h : EvalInt R env e i) (h' : EvalInt R env e j) :
    i = j := by
  obtain ⟨v, hv, hi⟩ := h
  obtain ⟨w, hw, hj⟩ := h'
  rw [hv] at hw; cases hw
  rw [hi] at hj; exact Option.some.inj hj

/-- The variable and the number a bound is written as. -/
theorem valuePlusConstant_spec {env : Env Val} {e var : Expr} {c : Int} (h : valuePlusConstant e = some (var, c))
    (hok : e.Ok) : isVar var = true ∧ var.Ok ∧ ∀ i, EvalInt R env var i → EvalInt R env e (i + c) := by
  unfold valuePlusConstant at h
  split at h
  · rename_i hv; cases h; exact ⟨hv, hok, fun i hi => by simpa using hi⟩
  · split at h
    · rename_i op l r
      split at h
      · rename_i hop
        simp only [Expr.Ok] at hok
        split at h
        · rename_i c'
          split at h
          · rename_i hl
            cases hc : litInt c' with
            | none => simp [hc] at h
            | some k =>
              simp only [hc, Option.map_some, Option.some.injEq, Prod.mk.injEq] at h
              obtain ⟨rfl, rfl⟩ := h
              refine ⟨hl, hok.1, fun i hi => ?_⟩
              rcases hop with rfl | rfl
              · exact evalInt_bin R hi (litInt_spec R env hc) (by simp [intBin])
              · refine evalInt_bin R hi (litInt_spec R env hc) ?_
                simp only [intBin, reduceCtorEq, if_false, Option.some.injEq, Except.ok.injEq, Val.int.injEq]
                omega
          · cases h
        · rename_i c' _
          split at h
          · rename_i hl
            obtain ⟨hl, rfl⟩ := hl
            cases hc : litInt c' with
            | none => simp [hc] at h
            | some k =>
              simp only [hc, Option.map_some, Option.some.injEq, Prod.mk.injEq] at h
              obtain ⟨rfl, rfl⟩ := h
              refine ⟨hl, hok.2, fun i hi => ?_⟩
              refine evalInt_bin R (litInt_spec R env hc) hi ?_
              simp only [intBin, Option.some.injEq, Except.ok.injEq, Val.int.injEq]
              omega
          · cases h
        · cases h
      · cases h
    · cases h

/-- A range given by a variable and numbers. -/
theorem valuePlusConstant_int {env : Env Val} {e var : Expr} {c : Int} (h : valuePlusConstant e = some (var, c))
    (hint : ∃ i, EvalInt R env e i) (hops : ∀ op l r, e = .bin op l r → (∃ i, EvalInt R env l i) ∧ ∃ i, EvalInt R env r i) :
    ∃ i, EvalInt R env var i := by
  unfold valuePlusConstant at h
  split at h
  · cases h; exact hint
  · split at h
    · rename_i op l r hnv
      clear hnv
      obtain ⟨h1, h2⟩ := hops op l r rfl
      split at h
      · split at h
        · rename_i c'
          split at h
          · cases hc : litInt c' with
            | none => simp [hc] at h
            | some k =>
              simp only [hc, Option.map_some, Option.some.injEq, Prod.mk.injEq] at h
              rw [← h.1]; exact h1
          · cases h
        · rename_i c' _
          split at h
          · cases hc : litInt c' with
            | none => simp [hc] at h
            | some k =>
              simp only [hc, Option.map_some, Option.some.injEq, Prod.mk.injEq] at h
              rw [← h.1]; exact h2
          · cases h
        · cases h
      · cases h
    · cases h

section bounds
variable {env : Env Val} {var start stop : Expr} {x a b : Int}

/-- The comparisons with both bounds. -/
def boundsExprs (isIn : Bool) (var start stop : Expr) (step : Int) : Expr × Expr :=
  let lc := if step < 0 then CmpOp.lt else .le
  let rc := if step < 0 then CmpOp.le else .lt
  let left := if step < 0 then stop else start
  let right := if step < 0 then start else stop
  if isIn then (.compare left [(lc, var)], .compare var [(rc, right)])
  else (.compare var [(rc, left)], .compare right [(lc, var)])

theorem reads_cmp {t u : List Tok} {l r : Expr} (op : CmpOp) (hl : Reads 5 t l) (hr : Reads 5 u r) :
    Reads 4 (t ++ (op.toks ++ u)) (.compare l [(op, r)]) :=
  Reads.compare hl (ReadsOps.one hr)

theorem bounds_split (isIn : Bool) (hvar : Reads 5 var.text var) (hstart : Reads 5 start.text start)
    (hstop : Reads 5 stop.text stop) (step : Int) :
    ∃ t u, boundsToks isIn var start stop step = t ++ boolTok (!isIn) :: u ∧
      Reads 4 t (boundsExprs isIn var start stop step).1 ∧ Reads 4 u (boundsExprs isIn var start stop step).2 := by
  unfold boundsToks boundsExprs
  cases isIn <;> by_cases hs : step < 0 <;> simp only [hs, if_true, if_false, Bool.false_eq_true]
  · exact ⟨_, _, by simp [boolTok]; rfl, reads_cmp .le hvar hstop, reads_cmp .lt hstart hvar⟩
  · exact ⟨_, _, by simp [boolTok]; rfl, reads_cmp .lt hvar hstart, reads_cmp .le hstop hvar⟩
  · exact ⟨_, _, by simp [boolTok]; rfl, reads_cmp .lt hstop hvar, reads_cmp .le hvar hstart⟩
  · exact ⟨_, _, by simp [boolTok]; rfl, reads_cmp .le hstart hvar, reads_cmp .lt hvar hstop⟩

/-- Within the bounds. -/
def inBounds (a b x step : Int) : Bool := decide (0 < step ∧ a ≤ x ∧ x < b ∨ step < 0 ∧ b < x ∧ x ≤ a)

theorem eval_bounds (isIn : Bool) (hx : EvalInt R env var x) (ha : EvalInt R env start a) (hb : EvalInt R env stop b)
    {step : Int} (hs : step ≠ 0) :
    ∃ p q, eval (intSem R).toSem env (boundsExprs isIn var start stop step).1 = .ok (.bool p) ∧
      eval (intSem R).toSem env (boundsExprs isIn var start stop step).2 = .ok (.bool q) ∧
      inBounds a b x step = (if isIn then p && q else !(p || q)) := by
  unfold boundsExprs inBounds
  cases isIn <;> by_cases h : step < 0 <;> simp only [h, if_true, if_false, Bool.false_eq_true]
  · refine ⟨_, _, eval_compare R hx hb rfl, eval_compare R ha hx rfl, ?_⟩
    rw [Bool.eq_iff_iff]; simp; omega
  · refine ⟨_, _, eval_compare R hx ha rfl, eval_compare R hb hx rfl, ?_⟩
    rw [Bool.eq_iff_iff]; simp; omega
  · refine ⟨_, _, eval_compare R hb hx rfl, eval_compare R hx ha rfl, ?_⟩
    rw [Bool.eq_iff_iff]; simp; omega
  · refine ⟨_, _, eval_compare R ha hx rfl, eval_compare R hx hb rfl, ?_⟩
    rw [Bool.eq_iff_iff]; simp; omega

/-- The remainder of the first value. -/
def residueExpr (start : Expr) (startVal : Option Int) (step : Int) : Expr :=
  match startVal with
  | some a => intExpr (a.fmod step.natAbs)
  | Option.none => .bin .mod start (intExpr step.natAbs)

/-- The comparison of remainders. -/
def stepExpr (isIn : Bool) (var start : Expr) (startVal : Option Int) (step : Int) : Expr :=
  .compare (.bin .mod var (intExpr step.natAbs)) [(if isIn then .eq else .ne, residueExpr start startVal step)]

theorem reads_addBrackets {e : Expr} (hok : e.Ok) (hp : 5 ≤ e.prec) : Reads 13 (addBrackets e) e := by
  have h := reads_text e hok
  unfold addBrackets
  split
  · exact Reads.paren (h.mono (Nat.zero_le _))
  · exact Reads.paren (h.mono (Nat.zero_le _))
  · rename_i h1 h2
    have : e.prec = 13 := by
      cases e with
      | bin op l r => exact absurd rfl (h1 op l r)
      | unary op l => exact absurd rfl (h2 op l)
      | boolOp o vs => cases o <;> simp [Expr.prec, boolPrec] at hp
      | compare l ops => simp [Expr.prec] at hp
      | ifExp t u v => simp [Expr.prec] at hp
      | _ => rfl
    rwa [this] at h

theorem reads_stepExpr (isIn : Bool) (hvar : Reads 13 var.text var) (hok : start.Ok) (hp : 5 ≤ start.prec)
    (startVal : Option Int) (step : Int) :
    ∃ t, stepToks isIn var start startVal step = boolTok (!isIn) :: t ∧
      Reads 4 t (stepExpr isIn var start startVal step) := by
  refine ⟨_, by unfold stepToks; rw [show boolTok (!isIn) = .sym (if isIn then "and" else "or") by cases isIn <;> rfl], ?_⟩
  have h1 : Reads 5 (var.text ++ BinOp.tok .mod :: intToks step.natAbs) (.bin .mod var (intExpr step.natAbs)) :=
    (Reads.bin (op := .mod) (by decide) (hvar.mono (by decide)) ((reads_natToks _).mono (by decide))).mono (by decide)
  have h2 : Reads 5 (residueToks start startVal step) (residueExpr start startVal step) := by
    cases startVal with
    | some a => exact (reads_intToks _).mono (by decide)
    | none =>
      exact (Reads.bin (op := .mod) (by decide) ((reads_addBrackets hok hp).mono (by decide))
        ((reads_natToks _).mono (by decide))).mono (by decide)
  have := reads_cmp (if isIn then .eq else .ne) h1 h2
  rw [← cmp_tok] at this
  simpa [BinOp.tok, stepExpr] using this

theorem eval_stepExpr (isIn : Bool) (hx : EvalInt R env var x) (ha : EvalInt R env start a) {startVal : Option Int}
    (hsv : ∀ i, startVal = some i → i = a) {step : Int} (hs : step ≠ 0) :
    eval (intSem R).toSem env (stepExpr isIn var start startVal step) =
      .ok (.bool (if isIn then decide (x.fmod step.natAbs = a.fmod step.natAbs)
        else decide (x.fmod step.natAbs ≠ a.fmod step.natAbs))) := by
  have hn : (step.natAbs : Int) ≠ 0 := by omega
  have hmod : ∀ (e : Expr) (i : Int), EvalInt R env e i →
      EvalInt R env (.bin .mod e (intExpr step.natAbs)) (i.fmod step.natAbs) := fun e i hi =>
    evalInt_bin R hi (evalInt_intExpr R env _) (by simp only [intBin, if_neg hn])
  have hr : EvalInt R env (residueExpr start startVal step) (a.fmod step.natAbs) := by
    cases startVal with
    | some i => rw [← hsv i rfl]; exact evalInt_intExpr R env _
    | none => exact hmod _ _ ha
  unfold stepExpr
  cases isIn
  · exact eval_compare R (hmod _ _ hx) hr rfl
  · exact eval_compare R (hmod _ _ hx) hr rfl

end bounds

/-- What is known about a bound. -/
theorem boundValue_some {e : Expr} {o : Option Int} (h : boundValue R e = .ok (some o)) (env : Env Val) :
    ∀ i, o = some i → EvalInt R env e i := by
  unfold boundValue at h
  rintro i rfl
  cases hc : constValue (intSem R) e with
  | error x => simp [hc] at h
  | ok r =>
    cases r with
    | none => simp [hc] at h
    | some v =>
      cases v <;> simp [hc] at h
      subst h
      exact ⟨_, C33_value (intSem R) env e _ hc, rfl⟩

/-- A bound that evaluates to an integer; if it is a sum or another operation, so do its operands. -/
def IntBound (env : Env Val) (e : Expr) : Prop :=
  (∃ i, EvalInt R env e i) ∧ ∀ op l r, e = .bin op l r → (∃ i, EvalInt R env l i) ∧ ∃ i, EvalInt R env r i

/-- **C35**, partial: the comparison suggested instead of `x in range(…)` or `x not in range(…)` is an expression
with the same value whenever `x` and the bounds evaluate to integers. Missing: bounds that need
parentheses in a comparison, for which it is false (`C35_counterexample`). -/
theorem C35_partial {env : Env Val} (hb : Builtins env) (onlyInt pure : Expr → Bool) {var rhs start stop step : Expr}
    {op : CmpOp} {t : List Tok} (h : inRange R onlyInt pure (.compare var [(op, rhs)]) = .ok (some t))
    (hok : var.Ok ∧ start.Ok ∧ stop.Ok) (hp : rangeParams rhs = some (start, stop, step))
    (hprec : 5 ≤ start.prec ∧ 5 ≤ stop.prec)
    (hx : ∃ i, EvalInt R env var i) (hstart : IntBound R env start) (hstop : IntBound R env stop) :
    ∃ e, ReadsAs 0 t e ∧
      eval (intSem R).toSem env e = eval (intSem R).toSem env (.compare var [(op, rhs)]) := by
  suffices hsuff : ∃ e, Reads 0 t e ∧
      eval (intSem R).toSem env e = eval (intSem R).toSem env (.compare var [(op, rhs)]) by
    obtain ⟨e, h1, h2⟩ := hsuff
    exact ⟨e, h1.as, h2⟩
  obtain ⟨hokv, hoka, hokb⟩ := hok
  obtain ⟨x, hx⟩ := hx
  obtain ⟨⟨a, ha⟩, hao⟩ := hstart
  obtain ⟨⟨b, hb'⟩, hbo⟩ := hstop
  unfold inRange at h
  simp only [] at h
  split at h
  · cases h
  · rename_i hcond
    simp only [not_or, not_and, ne_eq, Classical.not_not, Bool.not_eq_true, Bool.not_eq_false'] at hcond
    obtain ⟨hop, hvar, _⟩ := hcond
    have hop : op = if decide (op = .isIn) then .isIn else .notIn := by
      by_cases hi : op = .isIn
      · simp [hi]
      · rw [hop hi]; rfl
    simp only [hp] at h
    split at h
    · cases h
    · cases h
    · cases h
    · rename_i startVal stopVal stepVal h1 h2 h3
      split at h
      · cases h
      · rename_i hcond
        simp only [not_or] at hcond
        obtain ⟨_, _, hs⟩ := hcond
        have hsv := boundValue_some R h1 env
        have hev := boundValue_some R h2 env
        have hst := boundValue_some R h3 env stepVal rfl
        have horig : eval (intSem R).toSem env (.compare var [(op, rhs)]) =
            .ok (.bool (if decide (op = .isIn) then (pyRange a b stepVal).contains x
              else !(pyRange a b stepVal).contains x)) := by
          obtain ⟨v, hv, hvx⟩ := hx
          obtain ⟨va, hva, hvai⟩ := ha
          obtain ⟨vb, hvb, hvbi⟩ := hb'
          obtain ⟨vs, hvs, hvsi⟩ := hst
          have hr := eval_range R hb hp hva hvai hvb hvbi hvs hvsi
          rw [if_neg hs] at hr
          simp only [eval, evalCmp, hv, hr]
          by_cases hi : op = .isIn
          · simp only [hi, decide_true, if_true, (intSem_in R hvx).1]
          · simp only [hi, decide_false] at hop
            simp only [Bool.false_eq_true, if_false] at hop
            subst hop
            simp only [reduceCtorEq, decide_false, (intSem_in R hvx).2]
            rfl
        rw [horig]
        have hvar13 : Reads 13 var.text var := reads_text_at hokv (Nat.le_of_eq (isVar_prec hvar).symm)
        split at h
        · rename_i values hvalues
          simp only [Except.ok.injEq, Option.some.injEq] at h
          subst h
          unfold allValues at hvalues
          split at hvalues
          · rename_i i j
            split at hvalues
            · cases hvalues
            · simp only [Option.some.injEq] at hvalues
              subst hvalues
              have hi := evalInt_unique R (hsv i rfl) ha
              have hj := evalInt_unique R (hev j rfl) hb'
              subst hi; subst hj
              have := small_equivalent R (decide (op = .isIn)) hokv hvar hx intToks intExpr
                (fun k => (reads_intToks k).mono (by decide)) 0
                (fun k => by simpa using evalInt_intExpr R env k) (pyRange i j stepVal)
              simpa using this
          · split at hvalues
            · cases hvalues
            · rename_i val1 c1 hv1
              split at hvalues
              · cases hvalues
              · rename_i val2 c2 hv2
                split at hvalues
                · cases hvalues
                · rename_i hne
                  have hne : val1 = val2 := by simpa using hne
                  subst hne
                  split at hvalues
                  · cases hvalues
                  · simp only [Option.some.injEq] at hvalues
                    subst hvalues
                    obtain ⟨hvv, hvok, hva⟩ := valuePlusConstant_spec R (env := env) hv1 hoka
                    obtain ⟨_, _, hvb⟩ := valuePlusConstant_spec R (env := env) hv2 hokb
                    obtain ⟨i, hi⟩ := valuePlusConstant_int R hv1 ⟨a, ha⟩ hao
                    have hia := evalInt_unique R (hva i hi) ha
                    have hib := evalInt_unique R (hvb i hi) hb'
                    subst hia; subst hib
                    have := small_equivalent R (decide (op = .isIn)) hokv hvar hx (plusToks val1) (plusExpr val1)
                      (fun k => (reads_plusToks hvok hvv k).mono (by decide)) i
                      (fun k => evalInt_plusExpr R hi k) (pyRange c1 c2 stepVal)
                    rw [pyRange_shift]
                    exact this
          · cases hvalues
        · have hmem := mem_pyRange_mod (start := a) (stop := b) (x := x) hs
          obtain ⟨t1, t2, ht, hr1, hr2⟩ := bounds_split (decide (op = .isIn)) (hvar13.mono (by decide))
            (reads_text_at hoka hprec.1) (reads_text_at hokb hprec.2) stepVal
          obtain ⟨p, q, hp1, hq1, hpq⟩ := eval_bounds R (decide (op = .isIn)) hx ha hb' hs
          split at h
          · rename_i hs1
            simp only [Except.ok.injEq, Option.some.injEq] at h
            subst h
            refine ⟨.boolOp (!decide (op = .isIn)) [(boundsExprs (decide (op = .isIn)) var start stop stepVal).1,
              (boundsExprs (decide (op = .isIn)) var start stop stepVal).2], ?_, ?_⟩
            · rw [ht]
              exact (Reads.boolOp (ReadsBool.cons (hr1.mono (by cases decide (op = CmpOp.isIn) <;> decide))
                (ReadsBool.one (hr2.mono (by cases decide (op = CmpOp.isIn) <;> decide))))).mono (Nat.zero_le _)
            · have hin : (pyRange a b stepVal).contains x = inBounds a b x stepVal := by
                rw [Bool.eq_iff_iff, List.contains_eq_mem, decide_eq_true_eq, hmem]
                simp only [inBounds, decide_eq_true_eq, hs1]
                constructor
                · exact fun h => h.1
                · refine fun h => ⟨h, ?_⟩
                  simp [Int.fmod_one]
              rw [hin, hpq]
              simp only [eval, evalBool, hp1, hq1, intSem_truth_bool]
              cases decide (op = CmpOp.isIn) <;> cases p <;> cases q <;> rfl
          · simp only [Except.ok.injEq, Option.some.injEq] at h
            subst h
            obtain ⟨t3, ht3, hr3⟩ := reads_stepExpr (decide (op = .isIn)) hvar13 hoka hprec.1 startVal stepVal
            have hev3 := eval_stepExpr R (decide (op = .isIn)) hx ha
              (fun i hi => evalInt_unique R (hsv i hi) ha) hs
            refine ⟨.boolOp (!decide (op = .isIn)) [(boundsExprs (decide (op = .isIn)) var start stop stepVal).1,
              (boundsExprs (decide (op = .isIn)) var start stop stepVal).2,
              stepExpr (decide (op = .isIn)) var start startVal stepVal], ?_, ?_⟩
            · rw [ht, ht3]
              have := (Reads.boolOp (ReadsBool.cons (isOr := !decide (op = .isIn))
                (hr1.mono (by cases decide (op = CmpOp.isIn) <;> decide))
                (ReadsBool.cons (hr2.mono (by cases decide (op = CmpOp.isIn) <;> decide))
                (ReadsBool.one (hr3.mono (by cases decide (op = CmpOp.isIn) <;> decide)))))).mono (Nat.zero_le _)
              simpa using this
            · have hin : (pyRange a b stepVal).contains x =
                  (inBounds a b x stepVal && decide (x.fmod stepVal.natAbs = a.fmod stepVal.natAbs)) := by
                rw [Bool.eq_iff_iff, List.contains_eq_mem, decide_eq_true_eq, hmem]
                simp only [inBounds, Bool.and_eq_true, decide_eq_true_eq]
              rw [hin, hpq]
              simp only [eval, evalBool, hp1, hq1, hev3, intSem_truth_bool]
              by_cases hm : x.fmod stepVal.natAbs = a.fmod stepVal.natAbs <;>
                cases decide (op = CmpOp.isIn) <;> cases p <;> cases q <;> simp [hm]
    · cases h

/-- `x in range(a, n, 2)` becomes `a <= x and x < n and x % 2 == a % 2`, and `x not in range(n, n + 2)` becomes
`x != n and x != n + 1`. -/
example :
    inRange R (fun _ => true) (fun _ => true) (.compare (.name ['x'])
      [(.isIn, .call (.name "range".toList) [.name ['a'], .name ['n'], .const (.int 2)])]) =
      .ok (some [.ident ['a'], .sym "<=", .ident ['x'], .sym "and", .ident ['x'], .sym "<", .ident ['n'],
        .sym "and", .ident ['x'], .sym "%", .lit (.int 2), .sym "==", .ident ['a'], .sym "%", .lit (.int 2)]) ∧
    inRange R (fun _ => true) (fun _ => true) (.compare (.name ['x'])
      [(.notIn, .call (.name "range".toList) [.name ['n'], .bin .add (.name ['n']) (.const (.int 2))])]) =
      .ok (some [.ident ['x'], .sym "!=", .ident ['n'], .sym "and", .ident ['x'], .sym "!=", .ident ['n'],
        .sym "+", .lit (.int 1)]) := ⟨rfl, rfl⟩

/-- **C35** is false of the code: `x in range(a or b, n)` becomes `a or b <= x and x < n`, which is true whenever `a`
is not zero. -/
theorem C35_counterexample {env : Env Val} (hb : Builtins env) (hx : env ['x'] = .ok (.int 0))
    (ha : env ['a'] = .ok (.int 5)) (hn : env ['n'] = .ok (.int 10)) :
    ∃ node t e, node.Ok ∧ inRange R (fun _ => true) (fun _ => true) node = .ok (some t) ∧ ReadsAs 0 t e ∧
      truthOf (intSem R).toSem env node = .ok false ∧ truthOf (intSem R).toSem env e = .ok true := by
  suffices hsuff : ∃ node t e, node.Ok ∧ inRange R (fun _ => true) (fun _ => true) node = .ok (some t) ∧ Reads 0 t e ∧
      truthOf (intSem R).toSem env node = .ok false ∧ truthOf (intSem R).toSem env e = .ok true by
    obtain ⟨node, t, e, h0, h1, h2, h3, h4⟩ := hsuff
    exact ⟨node, t, e, h0, h1, h2.as, h3, h4⟩
  refine ⟨.compare (.name ['x']) [(.isIn, .call (.name "range".toList)
      [.boolOp true [.name ['a'], .name ['b']], .name ['n']])], _,
    .boolOp true [.name ['a'], .boolOp false [.compare (.name ['b']) [(.le, .name ['x'])],
      .compare (.name ['x']) [(.lt, .name ['n'])]]], by simp [Expr.Ok, OkAll, OkOps], rfl, ?_, ?_, ?_⟩
  · have h1 : Reads 3 [.ident ['b'], .sym "<=", .ident ['x']] (.compare (.name ['b']) [(.le, .name ['x'])]) :=
      (reads_cmp .le ((Reads.name _).mono (by decide)) ((Reads.name _).mono (by decide))).mono (by decide)
    have h2 : Reads 3 [.ident ['x'], .sym "<", .ident ['n']] (.compare (.name ['x']) [(.lt, .name ['n'])]) :=
      (reads_cmp .lt ((Reads.name _).mono (by decide)) ((Reads.name _).mono (by decide))).mono (by decide)
    exact (Reads.boolOp (isOr := true) (ReadsBool.cons ((Reads.name ['a']).mono (by decide))
      (ReadsBool.one (Reads.boolOp (isOr := false) (ReadsBool.cons h1 (ReadsBool.one h2)))))).mono (Nat.zero_le _)
  · have he : eval (intSem R).toSem env (.boolOp true [.name ['a'], .name ['b']]) = .ok (.int 5) := by
      simp only [eval, evalBool, ha, intSem_truth_int]
      rfl
    have hr := eval_range R hb (iter := .call (.name "range".toList)
        [.boolOp true [.name ['a'], .name ['b']], .name ['n']]) rfl he rfl
      (vb := .int 10) (by simp only [eval, hn]) rfl
      (vc := .int 1) (by simp only [eval, intSem_lit_int]; rfl) rfl
    rw [if_neg (by decide)] at hr
    unfold truthOf
    rw [eval, eval, hx]
    simp only [evalCmp, hr]
    rw [(intSem_in R (v := .int 0) rfl).1]
    rfl
  · unfold truthOf
    simp only [eval, evalBool, ha, intSem_truth_int]
    rfl

theorem ceil_div (d t : Int) (ht : 0 < t) : -((-d).fdiv t) = (d + (t - 1)) / t := by
  rw [Int.fdiv_eq_ediv_of_nonneg _ (Int.le_of_lt ht)]
  have h1 : (-d) / t * t ≤ -d := Int.ediv_mul_le _ (by omega)
  have h2 : -d < ((-d) / t + 1) * t := Int.lt_ediv_add_one_mul_self _ ht
  have e2 : ((-d) / t + 1) * t = (-d) / t * t + t := by rw [Int.add_mul, Int.one_mul]
  rw [e2] at h2
  apply Int.le_antisymm
  · rw [Int.le_ediv_iff_mul_le ht, Int.neg_mul]
    omega
  · apply Int.le_of_lt_add_one
    rw [Int.ediv_lt_iff_lt_mul ht, Int.add_mul, Int.neg_mul, Int.one_mul]
    omega

/-- What decides between the kinds of suggestions is the number of values in the range. -/
theorem C35_count (start stop step : Int) (h : step ≠ 0) : countRangeValues start stop step = (pyRange start stop step).length := by
  simp only [pyRange, List.length_map, List.length_range]
  unfold countRangeValues rangeLen
  by_cases hs : 0 < step
  · rw [if_pos hs]
    by_cases hlt : start > stop
    · rw [if_pos (.inr ⟨hlt, hs⟩)]
      have : (stop - start + (step - 1)) / step < 1 := by
        rw [Int.ediv_lt_iff_lt_mul hs]; omega
      omega
    · rw [if_neg (by omega)]
      have e := ceil_div (stop - start) step hs
      rw [Int.neg_sub] at e
      rw [e]
      have : 0 ≤ (stop - start + (step - 1)) / step := Int.ediv_nonneg (by omega) (by omega)
      omega
  · rw [if_neg hs]
    by_cases hlt : start < stop
    · rw [if_pos (.inl ⟨hlt, by omega⟩)]
      have : (start - stop + (-step - 1)) / -step < 1 := by
        rw [Int.ediv_lt_iff_lt_mul (by omega)]; omega
      omega
    · rw [if_neg (by omega)]
      have e := ceil_div (start - stop) (-step) (by omega)
      rw [Int.neg_fdiv_neg] at e
      rw [e]
      have : 0 ≤ (start - stop + (-step - 1)) / -step := Int.ediv_nonneg (by omega) (by omega)
      omega

example : countRangeValues 0 5 2 = 3 ∧ countRangeValues 5 0 (-2) = 3 ∧ countRangeValues 0 5 (-1) = 0 ∧ countRangeValues 3 3 1 = 0 := by decide

/-- At most three values are listed, and only two if they are next to each other. -/
theorem tooMany_spec (count step : Int) : tooMany count step = true ↔ 4 ≤ count ∨ count = 3 ∧ (step = 1 ∨ step = -1) := by
  simp only [tooMany, Bool.or_eq_true, Bool.and_eq_true, decide_eq_true_eq]
  omega

end Verif.Py

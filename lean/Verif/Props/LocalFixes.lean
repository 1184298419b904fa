import Verif.Props.LocalOps

/-!
**C100** A suggested augmented assignment does the same. **C101** A suggestion for `is` with a truth value is equivalent. **C102** A suggested
`append` does the same. **C103** `int(a / b)` and `a // b`. **C104** Multiplied lists.
-/

namespace Verif.Py.LocalOps

/-! ### C100 -/

/-- What augmented assignment uses of Python's values: their types, and the operation in place: the new value of the target, and what becomes of
the values that variables hold. -/
structure AugSem (V : Type) extends Sem V where
  typeOf : V → RTy
  inplace : BinOp → V → V → Except PyErr (V × (V → V))

/-- Types whose values can change. -/
def Changes (t : Ty) : Prop := t = .list ∨ t = .set ∨ t = .dict

/-- What Python's values do: results of operations have the types of `binTy`, values that cannot change have no operation in place other than the
plain one, and the order of numbers does not matter for `+`, `*`, `|` and `&`. -/
structure InPlace {V : Type} (S : AugSem V) : Prop where
  types : ∀ {op a b v}, S.binary op a b = .ok v → binTy op (S.typeOf a) (S.typeOf b) (S.typeOf v)
  plain : ∀ {op a b v t}, S.typeOf a = some t → ¬ Changes t → S.binary op a b = .ok v → S.inplace op a b = .ok (v, id)
  comm : ∀ {op a b}, op = .add ∨ op = .mul ∨ op = .bitor ∨ op = .bitand → (S.typeOf a).Numeric → (S.typeOf b).Numeric →
    S.binary op a b = S.binary op b a

section
variable {V : Type} (S : AugSem V)

/-- `x = y = … = value` -/
def assign (targets : List Str) (value : Expr) (env : Env V) : Except PyErr (Env V) :=
  match eval S.toSem env value with
  | .error x => .error x
  | .ok v => .ok fun y => if y ∈ targets then .ok v else env y

/-- `x op= param` -/
def augAssign (x : Str) (op : BinOp) (param : Expr) (env : Env V) : Except PyErr (Env V) :=
  match env x with
  | .error e => .error e
  | .ok a =>
    match eval S.toSem env param with
    | .error e => .error e
    | .ok b =>
      match S.inplace op a b with
      | .error e => .error e
      | .ok (v, change) => .ok fun y =>
        if y = x then .ok v
        else
          match env y with
          | .error e => .error e
          | .ok w => .ok (change w)

variable {S}

theorem anyMutable_false {t : Types} (h : t.anyMutable = false) {u : Ty} (hu : t.has u = true) : ¬ Changes u := by
  simp only [Types.anyMutable, List.any_cons, List.any_nil, Bool.or_false, Bool.or_eq_false_iff] at h
  rintro (rfl | rfl | rfl) <;> simp_all

theorem anyContainer_false {t : Types} (h : t.anyContainer = false) {u : Ty} (hu : t.has u = true) :
    u ≠ .string ∧ u ≠ .list ∧ u ≠ .tuple ∧ u ≠ .set ∧ u ≠ .dict := by
  simp only [Types.anyContainer, List.any_cons, List.any_nil, Bool.or_false, Bool.or_eq_false_iff] at h
  refine ⟨?_, ?_, ?_, ?_, ?_⟩ <;> rintro rfl <;> simp_all

/-- If the result cannot change, the left operand cannot. -/
theorem left_fixed {op : BinOp} {a b c : Ty} (h : binTy op (some a) (some b) (some c)) (hc : ¬ Changes c) : ¬ Changes a := by
  rintro (rfl | rfl | rfl) <;>
    cases op <;> simp [binTy, arith, RTy.IntLike, RTy.Numeric, RTy.Seq] at h <;> simp_all [Changes]

/-- If the result of a commutative operator is no container, both operands are numbers. -/
theorem numeric_operands {op : BinOp} (ho : op = .add ∨ op = .mul ∨ op = .bitor ∨ op = .bitand) {a b c : Ty}
    (h : binTy op (some a) (some b) (some c)) (hc : c ≠ .string ∧ c ≠ .list ∧ c ≠ .tuple ∧ c ≠ .set ∧ c ≠ .dict) :
    RTy.Numeric (some a) ∧ RTy.Numeric (some b) := by
  rcases ho with rfl | rfl | rfl | rfl <;> simp [binTy, arith, RTy.IntLike, RTy.Numeric, RTy.Seq] at h ⊢ <;> grind

/-- C100 for one variable as the target: if the guessed types are right, the types of both operands are known, and no exception is raised, the
suggested statement leaves every variable with the same value as the reported one. -/
theorem C100_partial (hS : InPlace S) {guess : Expr → Option Types} {x : Str} {value target param : Expr} {op : BinOp}
    (h : augmentable guess [.name x] value = .ok (some (target, op, param))) {env env' : Env V}
    (hguess : ∀ t v, guess value = some t → eval S.toSem env value = .ok v → ∃ u, S.typeOf v = some u ∧ t.has u = true)
    (hknown : ∀ l r a, value = .bin op l r → eval S.toSem env l = .ok a ∨ eval S.toSem env r = .ok a → S.typeOf a ≠ none)
    (hrun : assign S [x] value env = .ok env') : target = .name x ∧ augAssign S x op param env = .ok env' := by
  unfold augmentable at h
  split at h
  case h_2 => cases h
  rename_i o l r
  simp only at h
  cases hg : guess (.bin o l r) with
  | none => rw [hg] at h; cases h
  | some t =>
    rw [hg] at h
    simp only at h
    cases hm : t.anyMutable with
    | true => rw [hm] at h; cases h
    | false =>
      rw [hm] at h
      simp only [Bool.false_eq_true, if_false] at h
      unfold assign at hrun
      cases hv : eval S.toSem env (.bin o l r) with
      | error => rw [hv] at hrun; cases hrun
      | ok v =>
        rw [hv] at hrun
        simp only [List.mem_singleton, Except.ok.injEq] at hrun
        have hv' := hv
        rw [eval] at hv'
        cases ha : eval S.toSem env l with
        | error => rw [ha] at hv'; cases hv'
        | ok a =>
          cases hb : eval S.toSem env r with
          | error => rw [ha, hb] at hv'; cases hv'
          | ok b =>
            rw [ha, hb] at hv'
            simp only at hv'
            obtain ⟨c, hc1, hc2⟩ := hguess t v hg hv
            have hty := hS.types hv'
            rw [hc1] at hty
            split at h
            · rename_i hl
              cases h
              have hka := hknown l param a rfl (.inl ha)
              have hkb := hknown l param b rfl (.inr hb)
              refine ⟨rfl, ?_⟩
              rw [← hl, eval] at ha
              obtain ⟨ta, hta⟩ := Option.ne_none_iff_exists'.1 hka
              obtain ⟨tb, htb⟩ := Option.ne_none_iff_exists'.1 hkb
              rw [hta, htb] at hty
              have := hS.plain hta (left_fixed hty (anyMutable_false hm hc2)) hv'
              unfold augAssign
              rw [ha, hb]
              simp only [this]
              rw [← hrun]
              congr 1
              funext y
              by_cases hy : y = x
              · simp [hy]
              · simp only [hy, if_false]
                cases env y <;> rfl
            · split at h
              · rename_i hl hr
                cases h
                simp only [Bool.and_eq_true, Bool.or_eq_true, decide_eq_true_eq, Bool.not_eq_true'] at hr
                obtain ⟨⟨ho, hr⟩, hcont⟩ := hr
                have ho' : op = .add ∨ op = .mul ∨ op = .bitor ∨ op = .bitand := by
                  rcases ho with ((h | h) | h) | h <;> simp [h]
                have hka := hknown param r a rfl (.inl ha)
                have hkb := hknown param r b rfl (.inr hb)
                refine ⟨rfl, ?_⟩
                rw [← hr, eval] at hb
                obtain ⟨ta, hta⟩ := Option.ne_none_iff_exists'.1 hka
                obtain ⟨tb, htb⟩ := Option.ne_none_iff_exists'.1 hkb
                rw [hta, htb] at hty
                obtain ⟨n1, n2⟩ := numeric_operands ho' hty (anyContainer_false hcont hc2)
                rw [hS.comm ho' (by rw [hta]; exact n1) (by rw [htb]; exact n2)] at hv'
                have hfix : ¬ Changes tb := by
                  rintro (rfl | rfl | rfl) <;> simp [RTy.Numeric, RTy.IntLike] at n2
                have := hS.plain htb hfix hv'
                unfold augAssign
                rw [ha, hb]
                simp only [this]
                rw [← hrun]
                congr 1
                funext y
                by_cases hy : y = x
                · simp [hy]
                · simp only [hy, if_false]
                  cases env y <;> rfl
              · cases h

/-- C100, the other way round: an operation with the target as the left operand is reported if none of the guessed types can change, and with the
target as the right one if the operator is `+`, `*`, `|` or `&` and no guessed type is a container. -/
theorem C100_reported {guess : Expr → Option Types} {target e : Expr} {targets : List Expr} {op : BinOp} {t : Types} :
    (guess (.bin op target e) = some t → (∀ u, t.has u = true → ¬ Changes u) →
      augmentable guess (target :: targets) (.bin op target e) = .ok (some (target, op, e))) ∧
    (guess (.bin op e target) = some t → target ≠ e → op = .add ∨ op = .mul ∨ op = .bitor ∨ op = .bitand →
      (∀ u, t.has u = true → u ≠ .string ∧ u ≠ .list ∧ u ≠ .tuple ∧ u ≠ .set ∧ u ≠ .dict) →
      augmentable guess (target :: targets) (.bin op e target) = .ok (some (target, op, e))) := by
  constructor
  · intro hg h
    have hm : t.anyMutable = false := by
      cases hm : t.anyMutable with
      | false => rfl
      | true =>
        simp only [Types.anyMutable, List.any_cons, List.any_nil, Bool.or_false, Bool.or_eq_true] at hm
        rcases hm with hm | hm | hm <;> exact (h _ hm (by simp [Changes])).elim
    simp [augmentable, hg, hm]
  · intro hg hne ho h
    have hm : t.anyMutable = false := by
      cases hm : t.anyMutable with
      | false => rfl
      | true =>
        simp only [Types.anyMutable, List.any_cons, List.any_nil, Bool.or_false, Bool.or_eq_true] at hm
        rcases hm with hm | hm | hm <;> have := h _ hm <;> simp at this
    have hc : t.anyContainer = false := by
      cases hc : t.anyContainer with
      | false => rfl
      | true =>
        simp only [Types.anyContainer, List.any_cons, List.any_nil, Bool.or_false, Bool.or_eq_true] at hc
        rcases hc with hc | hc | hc | hc | hc <;> have := h _ hc <;> simp at this
    have hop : (op = .add || op = .mul || op = .bitor || op = .bitand) = true := by
      rcases ho with rfl | rfl | rfl | rfl <;> decide
    simp [augmentable, hg, hm, hne, hc]
    rcases ho with rfl | rfl | rfl | rfl <;> simp

/-- Values that can change are never reported: with a guessed list, set or dictionary nothing is suggested. -/
theorem C100_mutable {guess : Expr → Option Types} {targets : List Expr} {value target param : Expr} {op : BinOp}
    (h : augmentable guess targets value = .ok (some (target, op, param))) :
    ∃ t l r, value = .bin op l r ∧ guess value = some t ∧ (∀ u, t.has u = true → ¬ Changes u) ∧ targets.head? = some target ∧
      ((target = l ∧ param = r) ∨ (target = r ∧ param = l ∧ (op = .add ∨ op = .mul ∨ op = .bitor ∨ op = .bitand) ∧
        ∀ u, t.has u = true → u ≠ .string ∧ u ≠ .list ∧ u ≠ .tuple ∧ u ≠ .set ∧ u ≠ .dict)) := by
  unfold augmentable at h
  split at h
  case h_2 => cases h
  rename_i o l r
  split at h
  · cases h
  · rename_i tgt rest
    cases hg : guess (.bin o l r) with
    | none => rw [hg] at h; cases h
    | some t =>
      rw [hg] at h
      simp only at h
      cases hm : t.anyMutable with
      | true => rw [hm] at h; cases h
      | false =>
        rw [hm] at h
        simp only [Bool.false_eq_true, if_false] at h
        split at h
        · rename_i hl
          cases h
          exact ⟨t, l, _, rfl, rfl, fun u hu => anyMutable_false hm hu, rfl, .inl ⟨hl, rfl⟩⟩
        · split at h
          · rename_i hr
            cases h
            simp only [Bool.and_eq_true, Bool.or_eq_true, decide_eq_true_eq, Bool.not_eq_true'] at hr
            obtain ⟨⟨ho, hr⟩, hcont⟩ := hr
            refine ⟨t, _, r, rfl, rfl, fun u hu => anyMutable_false hm hu, rfl, .inr ⟨hr, rfl, ?_, fun u hu => anyContainer_false hcont hu⟩⟩
            rcases ho with ((h | h) | h) | h <;> simp [h]
          · cases h

end

/-- Integers and lists, for examples: a list has an identity, by which other variables may hold it. -/
inductive Val where
  | int (n : Int)
  | list (id : Nat) (es : List Int)
  deriving DecidableEq

def Val.type : Val → Ty
  | .int _ => .int
  | .list _ _ => .list

def lists : AugSem Val where
  lit
    | .int n => .int n
    | .bool b => .int (if b then 1 else 0)
    | _ => .int 0
  ofBool b := .int (if b then 1 else 0)
  truth _ := .error .typeError
  unary _ _ := .error .typeError
  binary
    | .add, .int m, .int n => .ok (.int (m + n))
    | .mul, .int m, .int n => .ok (.int (m * n))
    | .mul, .int m, .list _ es => .ok (.list 0 (List.replicate m.toNat es).flatten)
    | .mul, .list _ es, .int m => .ok (.list 0 (List.replicate m.toNat es).flatten)
    | _, _, _ => .error .typeError
  cmp _ _ _ := .error .typeError
  call _ _ := .error .typeError
  attr _ _ := .error .typeError
  item _ _ := .error .typeError
  other _ _ := .error .typeError
  typeOf v := some v.type
  inplace
    | .add, .int m, .int n => .ok (.int (m + n), id)
    | .mul, .int m, .int n => .ok (.int (m * n), id)
    | .mul, .int m, .list _ es => .ok (.list 0 (List.replicate m.toNat es).flatten, id)
    | .mul, .list i es, .int m => .ok (.list i (List.replicate m.toNat es).flatten, fun v =>
        match v with
        | .list j fs => if j = i then .list i (List.replicate m.toNat es).flatten else .list j fs
        | .int n => .int n)
    | _, _, _ => .error .typeError

theorem lists_inPlace : InPlace lists where
  types {op a b v} h := by
    cases op <;> cases a <;> cases b <;> simp [lists] at h <;> subst h <;> simp [binTy, arith, RTy.IntLike, RTy.Seq, lists, Val.type]
  plain {op a b v t} ht hc h := by
    cases a with
    | list => simp [lists, Val.type] at ht; subst ht; exact (hc (.inl rfl)).elim
    | int => cases op <;> cases b <;> simp [lists] at h ⊢ <;> exact h
  comm {op a b} ho ha hb := by
    cases a <;> cases b <;> simp [lists, Val.type, RTy.Numeric, RTy.IntLike] at ha hb
    rcases ho with rfl | rfl | rfl | rfl <;> simp [lists, Int.add_comm, Int.mul_comm]

/-- The guess for names of which nothing is known. -/
def someGuess : Expr → Option Types := guessType closedNames noText ()

/-- `x = 1 + x`: `x += 1` is suggested, and does the same. -/
example : augmentable someGuess [.name ['x']] (.bin .add (.const (.int 1)) (.name ['x'])) = .ok (some (.name ['x'], .add, .const (.int 1))) ∧
    ∃ env env' : Env Val, assign lists [['x']] (.bin .add (.const (.int 1)) (.name ['x'])) env = .ok env' ∧ env' ['x'] = .ok (.int 6) ∧
      augAssign lists ['x'] .add (.const (.int 1)) env = .ok env' := by
  refine ⟨by decide +kernel, fun _ => .ok (.int 5), fun y => if y ∈ [['x']] then .ok (.int 6) else .ok (.int 5), rfl, rfl, ?_⟩
  simp only [augAssign, eval, lists, List.mem_singleton, Except.ok.injEq]
  rfl

/-- C100 is false for several targets: for `x = y = x + 1`, `x += 1` is suggested, which leaves `y` as it is. -/
theorem C100_targets_counterexample : ∃ (env e1 e2 : Env Val),
    augmentable someGuess [.name ['x'], .name ['y']] (.bin .add (.name ['x']) (.const (.int 1))) =
      .ok (some (.name ['x'], .add, .const (.int 1))) ∧
    assign lists [['x'], ['y']] (.bin .add (.name ['x']) (.const (.int 1))) env = .ok e1 ∧
    augAssign lists ['x'] .add (.const (.int 1)) env = .ok e2 ∧ e1 ['y'] = .ok (.int 6) ∧ e2 ['y'] = .ok (.int 5) :=
  ⟨fun _ => .ok (.int 5), _, _, by decide +kernel, rfl, rfl, rfl, rfl⟩

/-- C100 is false for products, whose type is guessed by the left factor: for `x = 2 * x`, `x *= 2` is suggested, which changes a list that
another variable holds. -/
theorem C100_product_counterexample : ∃ (env e1 e2 : Env Val),
    augmentable someGuess [.name ['x']] (.bin .mul (.const (.int 2)) (.name ['x'])) = .ok (some (.name ['x'], .mul, .const (.int 2))) ∧
    assign lists [['x']] (.bin .mul (.const (.int 2)) (.name ['x'])) env = .ok e1 ∧
    augAssign lists ['x'] .mul (.const (.int 2)) env = .ok e2 ∧ e1 ['y'] = .ok (.list 1 [7]) ∧ e2 ['y'] = .ok (.list 1 [7, 7]) :=
  ⟨fun _ => .ok (.list 1 [7]), _, _, by decide +kernel, rfl, rfl, rfl, rfl⟩

/-! ### C101 -/

/-- What Python's truth values do. -/
structure Truths {V : Type} (S : Sem V) : Prop where
  truth : ∀ b, S.truth (S.ofBool b) = .ok b
  lit : ∀ b, S.lit (.bool b) = S.ofBool b
  is : ∀ a b, S.cmp .is (S.ofBool a) (S.ofBool b) = .ok (S.ofBool (a == b))
  isNot : ∀ a b, S.cmp .isNot (S.ofBool a) (S.ofBool b) = .ok (S.ofBool (a != b))

section
variable {V : Type} {S : Sem V}

/-- The suggestion is for the expression compared, with an operator and a truth value. -/
theorem noIs_mem {m : List Tok × Expr × CmpOp × Bool} : ∀ {ops : List (CmpOp × Expr)} {prev : Expr}, m ∈ noIs prev ops →
    (m.2.2.1 = .is ∨ m.2.2.1 = .isNot) ∧ (m.2.1 = prev ∨ ∃ o, (o, m.2.1) ∈ ops) ∧ (m.2.2.1, .const (.bool m.2.2.2)) ∈ ops ∧
      m.1 = (if (m.2.2.1 = .is) ≠ (m.2.2.2 = true) then [UnOp.not.tok] else []) ++ m.2.1.text
  | [], _, h => by cases h
  | (op, val) :: ops, prev, h => by
    rw [noIs, List.mem_append] at h
    rcases h with h | h
    · unfold noIsAt at h
      split at h <;> simp only [List.mem_singleton, List.not_mem_nil] at h
      · subst h; rename_i b; cases b <;> simp
      · subst h; rename_i b; cases b <;> simp
    · obtain ⟨h1, h2, h3, h4⟩ := noIs_mem h
      refine ⟨h1, .inr ?_, by simp [h3], h4⟩
      rcases h2 with h2 | ⟨o, h2⟩
      · exact ⟨op, by simp [h2]⟩
      · exact ⟨o, by simp [h2]⟩

/-- C101 for expressions that bind at least as tightly as `not`, if it is put before them: where the expression compared is a truth value, what is
suggested reads as an expression with the truth value of the comparison. -/
theorem C101_partial (hS : Truths S) {left : Expr} {ops : List (CmpOp × Expr)} {t : List Tok} {e : Expr} {op : CmpOp} {b : Bool}
    (hok : Expr.Ok (.compare left ops)) (h : (t, e, op, b) ∈ noIs left ops) (hprec : (op = .is) ≠ (b = true) → 3 ≤ e.prec) :
    ∃ e', ReadsAs 0 t e' ∧ ∀ env c, eval S env e = .ok (S.ofBool c) →
      truthOf S env e' = truthOf S env (.compare e [(op, .const (.bool b))]) := by
  obtain ⟨ho, hm, -, ht⟩ := noIs_mem h
  simp only at ho hm ht
  have he : e.Ok := by
    simp only [Expr.Ok] at hok
    rcases hm with rfl | ⟨o, hm⟩
    · exact hok.2.1
    · have : ∀ {es : List (CmpOp × Expr)}, OkOps es → ∀ {o}, (o, e) ∈ es → e.Ok := by
        intro es
        induction es with
        | nil => intro _ _ h; cases h
        | cons x xs ih =>
          obtain ⟨p, f⟩ := x
          intro h o hmem
          simp only [OkOps] at h
          simp only [List.mem_cons, Prod.mk.injEq] at hmem
          rcases hmem with ⟨-, rfl⟩ | hmem
          · exact h.1
          · exact ih h.2 hmem
      exact this hok.2.2 hm
  have hr := reads_text e he
  by_cases hneg : (op = .is) ≠ (b = true)
  · rw [if_pos hneg] at ht
    refine ⟨.unary .not e, ?_, fun env c hc => ?_⟩
    · rw [ht]
      exact ((Reads.not (hr.mono (hprec hneg))).mono (Nat.zero_le _)).as
    · simp only [truthOf, eval, evalCmp, hc, hS.truth, hS.lit]
      rcases ho with rfl | rfl
      · have : b = false := by cases b <;> simp_all
        subst this
        cases c <;> simp [hS.is, hS.truth]
      · have : b = true := by cases b <;> simp_all
        subst this
        cases c <;> simp [hS.isNot, hS.truth]
  · rw [if_neg hneg] at ht
    refine ⟨e, ?_, fun env c hc => ?_⟩
    · rw [ht]
      exact (hr.mono (Nat.zero_le _)).as
    · simp only [truthOf, eval, evalCmp, hc, hS.truth, hS.lit]
      rcases ho with rfl | rfl
      · have : b = true := by cases b <;> simp_all
        subst this
        cases c <;> simp [hS.is, hS.truth]
      · have : b = false := by cases b <;> simp_all
        subst this
        cases c <;> simp [hS.isNot, hS.truth]

end

/-- C101, the other way round: there is one message for each `is` or `is not` whose right operand is `True` or `False`, in their order. -/
theorem C101_all (left : Expr) (ops : List (CmpOp × Expr)) :
    (noIs left ops).map (fun m => (m.2.2.1, Expr.const (.bool m.2.2.2))) =
      ops.filter (fun o => decide ((o.1 = .is ∨ o.1 = .isNot) ∧ (o.2 = .const (.bool true) ∨ o.2 = .const (.bool false)))) := by
  induction ops generalizing left with
  | nil => rfl
  | cons o ops ih =>
    obtain ⟨op, val⟩ := o
    rw [noIs, List.map_append, ih val, List.filter_cons]
    unfold noIsAt
    split
    · rename_i b; cases b <;> simp
    · rename_i b; cases b <;> simp
    · rename_i h1 h2
      rw [if_neg]
      · rfl
      · simp only [decide_eq_true_eq]
        rintro ⟨rfl | rfl, rfl | rfl⟩
        · exact h1 true rfl rfl
        · exact h1 false rfl rfl
        · exact h2 true rfl rfl
        · exact h2 false rfl rfl

/-- The expression of a message is the left neighbour of the truth value. -/
theorem C101_neighbour {left : Expr} {pre post : List (CmpOp × Expr)} {op : CmpOp} {b : Bool} (ho : op = .is ∨ op = .isNot) :
    ∃ t, (t, ((pre.getLast?).map (·.2)).getD left, op, b) ∈ noIs left (pre ++ (op, .const (.bool b)) :: post) := by
  induction pre generalizing left with
  | nil =>
    rcases ho with rfl | rfl <;> exact ⟨_, by simp only [List.nil_append, noIs, noIsAt, List.mem_append, List.mem_singleton]; exact .inl rfl⟩
  | cons o pre ih =>
    obtain ⟨op', val⟩ := o
    obtain ⟨t, ht⟩ := ih (left := val)
    refine ⟨t, ?_⟩
    rw [List.cons_append, noIs, List.mem_append]
    refine .inr ?_
    have : (((op', val) :: pre).getLast?.map (·.2)).getD left = (pre.getLast?.map (·.2)).getD val := by
      cases pre <;> rfl
    rw [this]
    exact ht

/-- `x is True` and `x is not True` -/
example : noIs (.name ['x']) [(.is, .const (.bool true))] = [([.ident ['x']], .name ['x'], .is, true)] ∧
    noIs (.name ['x']) [(.isNot, .const (.bool true))] = [([.sym "not", .ident ['x']], .name ['x'], .isNot, true)] := by decide

/-- C101 is false for what binds weaker than `not`: for `(a or b) is False` the suggestion is `not a or b`. -/
theorem C101_counterexample :
    noIs (.boolOp true [.name ['a'], .name ['b']]) [(.is, .const (.bool false))] =
      [([.sym "not", .ident ['a'], .sym "or", .ident ['b']], .boolOp true [.name ['a'], .name ['b']], .is, false)] ∧
    ReadsAs 0 [.sym "not", .ident ['a'], .sym "or", .ident ['b']] (.boolOp true [.unary .not (.name ['a']), .name ['b']]) ∧
    ∀ {V : Type} {S : Sem V}, Truths S → ∀ env : Env V, env ['a'] = .ok (S.ofBool false) → env ['b'] = .ok (S.ofBool true) →
      truthOf S env (.boolOp true [.unary .not (.name ['a']), .name ['b']]) = .ok true ∧
      truthOf S env (.compare (.boolOp true [.name ['a'], .name ['b']]) [(.is, .const (.bool false))]) = .ok false := by
  refine ⟨by decide, ?_, ?_⟩
  · refine Reads.as ?_
    have h1 : Reads 2 ([UnOp.not.tok] ++ [.ident ['a']]) (.unary .not (.name ['a'])) :=
      ((Reads.not ((Reads.name ['a']).mono (by decide))).mono (by decide))
    have h2 : Reads 2 [.ident ['b']] (.name ['b']) := (Reads.name ['b']).mono (by decide)
    exact (Reads.boolOp (isOr := true) (.cons h1 (.one h2))).mono (Nat.zero_le _)
  · intro V S hS env ha hb
    simp [truthOf, eval, evalBool, evalCmp, ha, hb, hS.truth, hS.lit, hS.is]

/-! ### C102 -/

section
variable {V : Type} (S : Sem V) (iter : V → Except PyErr (List V)) (env : Env V)

/-- What an element of a display, or an argument, stands for: with `*`, all that the value yields. -/
def elems (x : Expr) : Except PyErr (List V) :=
  match x with
  | .other t [e] =>
    if t = "Starred".toList then
      match eval S env e with
      | .error x => .error x
      | .ok v => iter v
    else
      match eval S env (.other t [e]) with
      | .error x => .error x
      | .ok v => .ok [v]
  | x =>
    match eval S env x with
    | .error x => .error x
    | .ok v => .ok [v]

/-- A list after `extend([x])` or `+= [x]`. -/
def extended (old : List V) (x : Expr) : Except PyErr (List V) :=
  match elems S iter env x with
  | .error x => .error x
  | .ok vs => .ok (old ++ vs)

/-- A list after `append(x)`, which takes one argument. -/
def appended (old : List V) (x : Expr) : Except PyErr (List V) :=
  match elems S iter env x with
  | .error x => .error x
  | .ok [v] => .ok (old ++ [v])
  | .ok _ => .error .typeError

variable {S iter env}

theorem appended_eq {x : Expr} (hx : ∀ e, x ≠ .other "Starred".toList [e]) (old : List V) :
    appended S iter env old x = extended S iter env old x := by
  have : (∃ e, elems S iter env x = .error e) ∨ ∃ v, elems S iter env x = .ok [v] := by
    unfold elems
    split
    · rename_i t e
      have : t ≠ "Starred".toList := fun h => hx e (h ▸ rfl)
      rw [if_neg this]
      cases eval S env (.other t [e]) <;> simp
    · cases eval S env x <;> simp
  rcases this with ⟨e, h⟩ | ⟨v, h⟩ <;> simp [appended, extended, h]

end

theorem appendText_reads {e x : Expr} (he : e.Ok) (hx : x.Ok) (hp : 13 ≤ e.prec) :
    ReadsAs 0 (appendText e x) (.call (.attr e "append".toList) [x]) := by
  refine Reads.as ?_
  have h1 := Reads.attr "append".toList ((reads_text e he).mono hp)
  have h2 := Reads.call h1 (.one ((reads_text x hx).mono (Nat.zero_le _)))
  have := h2.mono (Nat.zero_le _)
  simpa [appendText] using this

/-- C102 for lists, if the element has no `*` before it and the text of the list is that of a variable, an attribute, an item or a call: the
suggestion reads as a call of `append` on the list, with the element, and the list is the same after it. -/
theorem C102_partial {c e x : Expr} {t : List Tok} (h : useAppend c = some (t, e, x)) (he : e.Ok) (hx : x.Ok) (hp : 13 ≤ e.prec)
    (hstar : ∀ y, x ≠ .other "Starred".toList [y]) :
    c = .call (.attr e "extend".toList) [.other "List".toList [x]] ∧ ReadsAs 0 t (.call (.attr e "append".toList) [x]) ∧
      ∀ {V : Type} (S : Sem V) iter env old, appended S iter env old x = extended S iter env old x := by
  unfold useAppend at h
  split at h
  · split at h
    · rename_i hc
      cases h
      obtain ⟨rfl, rfl⟩ := hc
      exact ⟨rfl, appendText_reads he hx hp, fun S iter env old => appended_eq hstar old⟩
    · cases h
  · cases h

/-- C102 for `target += [x]`. -/
theorem C102_aug_partial {target value e x : Expr} {op : BinOp} {t : List Tok} (h : useAppendAug target op value = some (t, e, x)) (he : target.Ok)
    (hx : x.Ok) (hp : 13 ≤ target.prec) (hstar : ∀ y, x ≠ .other "Starred".toList [y]) :
    e = target ∧ op = .add ∧ value = .other "List".toList [x] ∧ ReadsAs 0 t (.call (.attr target "append".toList) [x]) ∧
      ∀ {V : Type} (S : Sem V) iter env old, appended S iter env old x = extended S iter env old x := by
  unfold useAppendAug at h
  split at h
  · split at h
    · rename_i hc
      cases h
      obtain ⟨rfl, rfl⟩ := hc
      exact ⟨rfl, rfl, rfl, appendText_reads he hx hp, fun S iter env old => appended_eq hstar old⟩
    · cases h
  · cases h

/-- C102, the other way round: every `extend` by a display of one element, and every `+=` of one, is reported. -/
theorem C102_reported (e x : Expr) :
    (∃ t, useAppend (.call (.attr e "extend".toList) [.other "List".toList [x]]) = some (t, e, x)) ∧
      ∃ t, useAppendAug e .add (.other "List".toList [x]) = some (t, e, x) := ⟨⟨_, rfl⟩, ⟨_, rfl⟩⟩

/-- `xs.extend([1])` -/
example : useAppend (.call (.attr (.name "xs".toList) "extend".toList) [.other "List".toList [.const (.int 1)]]) =
    some ([.ident "xs".toList, .sym ".", .ident "append".toList, .sym "(", .lit (.int 1), .sym ")"], .name "xs".toList, .const (.int 1)) := by
  decide

/-- C102 is false for `*`: for `xs.extend([*ys])`, `xs.append(*ys)` is suggested, which raises an exception unless `ys` yields one value. -/
theorem C102_star_counterexample :
    (useAppend (.call (.attr (.name "xs".toList) "extend".toList) [.other "List".toList [.other "Starred".toList [.name "ys".toList]]])).map
      (·.2) = some (.name "xs".toList, .other "Starred".toList [.name "ys".toList]) ∧
    ∀ {V : Type} (S : Sem V) iter (env : Env V) v a b, env "ys".toList = .ok v → iter v = .ok [a, b] →
      extended S iter env [] (.other "Starred".toList [.name "ys".toList]) = .ok [a, b] ∧
      appended S iter env [] (.other "Starred".toList [.name "ys".toList]) = .error .typeError := by
  refine ⟨by decide, fun S iter env v a b hv hi => ?_⟩
  have : elems S iter env (.other "Starred".toList [.name "ys".toList]) = .ok [a, b] := by
    rw [elems]; simp only [if_true, eval, hv, hi]
  simp only [extended, appended, this, List.nil_append, and_self]

/-- C102 is false for lists given by operators: for `(a or b).extend([1])`, `a or b.append(1)` is suggested, which reads as `a or (b.append(1))`. -/
theorem C102_text_counterexample :
    (useAppend (.call (.attr (.boolOp true [.name ['a'], .name ['b']]) "extend".toList) [.other "List".toList [.const (.int 1)]])).map (·.1) =
      some [.ident ['a'], .sym "or", .ident ['b'], .sym ".", .ident "append".toList, .sym "(", .lit (.int 1), .sym ")"] ∧
    ReadsAs 0 [.ident ['a'], .sym "or", .ident ['b'], .sym ".", .ident "append".toList, .sym "(", .lit (.int 1), .sym ")"]
      (.boolOp true [.name ['a'], .call (.attr (.name ['b']) "append".toList) [.const (.int 1)]]) := by
  refine ⟨by decide, Reads.as ?_⟩
  have h1 : Reads 2 [.ident ['a']] (.name ['a']) := (Reads.name ['a']).mono (by decide)
  have h2 := (Reads.call (Reads.attr "append".toList (Reads.name ['b'])) (.one ((Reads.lit (.int 1)).mono (Nat.zero_le _)))).mono
    (p := 2) (by decide)
  exact (Reads.boolOp (isOr := true) (.cons h1 (.one h2))).mono (Nat.zero_le _)

/-! ### C103 -/

/-- `int` of a number: its digits before the point. -/
def trunc (q : Rat) : Int := if 0 ≤ q then q.floor else -((-q).floor)

/-- C103 for exact numbers: what is reported is `int` of a quotient, and for a quotient that is not negative, or that is a whole number, integral
division gives the same (and otherwise one less). -/
theorem C103_partial {c a b : Expr} (h : integralDivision c = some (a, b)) :
    c = .call (.name "int".toList) [.bin .div a b] ∧
      ∀ p q : Rat, q ≠ 0 → ((trunc (p / q) = (p / q).floor ↔ 0 ≤ p / q ∨ ((p / q).floor : Rat) = p / q) ∧
        (trunc (p / q) = (p / q).floor ∨ trunc (p / q) = (p / q).floor + 1)) := by
  constructor
  · unfold integralDivision at h
    split at h
    · split at h
      · cases h; simp_all
      · cases h
    · cases h
  · intro p q _
    generalize p / q = r
    unfold trunc
    by_cases hr : 0 ≤ r
    · simp [hr]
    · simp only [hr, if_false, false_or]
      have h1 := Rat.floor_le r
      have h2 := Rat.lt_floor_add_one r
      have h3 := Rat.floor_le (-r)
      have h4 := Rat.lt_floor_add_one (-r)
      generalize r.floor = f at *
      generalize (-r).floor = g at *
      have le : f ≤ -g := by
        rw [← Rat.intCast_le_intCast, Rat.intCast_neg]; grind
      have lt : -g < f + 2 := by
        rw [← Rat.intCast_lt_intCast, Rat.intCast_neg, Rat.intCast_add]
        rw [Rat.intCast_add] at h2 h4
        grind
      refine ⟨⟨fun h => ?_, fun h => ?_⟩, by omega⟩
      · have : (-(g : Rat)) = f := by rw [← Rat.intCast_neg, h]
        grind
      · have h5 : -(g : Rat) < f + 1 := by
          rw [Rat.intCast_add] at h4; grind
        have : -g < f + 1 := by
          rw [← Rat.intCast_lt_intCast, Rat.intCast_neg, Rat.intCast_add]; exact h5
        omega

/-- C103 for numbers, taken as exact: where `int` is the built-in function and the quotient is not negative, `a // b` gives the number that the
reported `int(a / b)` gives. -/
theorem C103_value_partial {V : Type} {S : OpSem V} (hS : Arith S) {c a b : Expr} (h : integralDivision c = some (a, b)) {env : Env V} {f va vb : V}
    (hf : env "int".toList = .ok f) (hint : ∀ v p, S.num v = some p → ∃ w, S.call f [v] = .ok w ∧ S.num w = some ((trunc p : Int) : Rat))
    (ha : eval S.toSem env a = .ok va) (hb : eval S.toSem env b = .ok vb) {p q : Rat} (hp : S.num va = some p) (hq : S.num vb = some q)
    (hq0 : q ≠ 0) (hpq : 0 ≤ p / q) :
    ∃ v w, eval S.toSem env c = .ok v ∧ eval S.toSem env (.bin .floordiv a b) = .ok w ∧ S.num v = S.num w ∧ S.num v ≠ none := by
  obtain ⟨rfl, h2⟩ := C103_partial h
  obtain ⟨d, hd1, hd2⟩ := hS.nums (op := .div) hp hq (r := p / q) (by simp [onNums, hq0])
  obtain ⟨w, hw1, hw2⟩ := hS.nums (op := .floordiv) hp hq (r := ((p / q).floor : Rat)) (by simp [onNums, hq0])
  obtain ⟨v, hv1, hv2⟩ := hint d _ hd2
  refine ⟨v, w, ?_, ?_, ?_, ?_⟩
  · simp only [eval, evalAll, hf, ha, hb, hd1, hv1]
  · simp only [eval, ha, hb, hw1]
  · rw [hv2, hw2, (h2 p q hq0).1.2 (.inl hpq)]
  · rw [hv2]; simp

/-- C103, the other way round: `int(a / b)` is reported. -/
theorem C103_reported (a b : Expr) : integralDivision (.call (.name "int".toList) [.bin .div a b]) = some (a, b) := rfl

/-- Numbers and strings, where what is called is the built-in function `int`. -/
def demoInt : OpSem (Rat ⊕ Str) := { demo with
  call
    | _, [.inl q] => .ok (.inl (trunc q : Int))
    | _, _ => .error .typeError }

/-- `int(7 / 2)` and `7 // 2` -/
example : ∃ v w, eval demoInt.toSem (fun _ => .ok (.inr [])) (.call (.name "int".toList) [.bin .div (.const (.int 7)) (.const (.int 2))]) = .ok v ∧
    eval demoInt.toSem (fun _ => .ok (.inr [])) (.bin .floordiv (.const (.int 7)) (.const (.int 2))) = .ok w ∧ demoInt.num v = demoInt.num w ∧
      demoInt.num v ≠ none :=
  C103_value_partial (S := demoInt) ⟨demo_arith.nums, demo_arith.zero, demo_arith.concat, demo_arith.disjoint⟩ (C103_reported _ _) rfl (fun v p h => by
    rcases v with v | v
    · cases h
      exact ⟨_, rfl, rfl⟩
    · cases h) rfl rfl (p := 7) (q := 2) rfl rfl (by decide) (by decide +kernel)

/-- C103 is false for negative quotients: `int(-7 / 2)` is -3, `-7 // 2` is -4. -/
theorem C103_counterexample :
    integralDivision (.call (.name "int".toList) [.bin .div (.unary .neg (.const (.int 7))) (.const (.int 2))]) =
      some (.unary .neg (.const (.int 7)), .const (.int 2)) ∧
    trunc (-7 / 2) = -3 ∧ onNums .floordiv (-7) 2 = some (-4) := by
  refine ⟨rfl, by decide +kernel, by decide +kernel⟩

/-! ### C104 -/

/-- Expressions that give a new list, set or dictionary. -/
def NewMutable (e : Expr) : Prop :=
  (∃ t es, e = .other t es ∧ (t = "List".toList ∨ t = "Set".toList ∨ t = "Dict".toList)) ∨
    ∃ f as, e = .call (.name f) as ∧ (f = "list".toList ∨ f = "set".toList ∨ f = "dict".toList)

theorem isMutableElem_iff {e : Expr} : isMutableElem e = true ↔ NewMutable e := by
  unfold isMutableElem NewMutable
  split
  · simp
  · simp
  · rename_i h1 h2
    simp only [Bool.false_eq_true, false_iff, not_or, not_exists, not_and]
    exact ⟨fun t es h => (h1 t es h).elim, fun f as h => (h2 f as h).elim⟩

theorem listElems_iff {e : Expr} {es : List Expr} : listElems e = some es ↔ e = .other "List".toList es := by
  unfold listElems
  split
  · split <;> simp_all
  · rename_i h
    simp only [reduceCtorEq, false_iff]
    exact fun h' => h _ _ h'

theorem listElems_none {e : Expr} : listElems e = none ↔ ∀ es, e ≠ .other "List".toList es := by
  rw [Option.eq_none_iff_forall_ne_some]
  exact forall_congr' fun es => not_congr listElems_iff

/-- C104 unless two displays of lists are multiplied with each other: no exception is raised, and a product is reported exactly if one of its
operands is a display of a list of which an element is a new list, set or dictionary. -/
theorem C104_partial {op : BinOp} {l r : Expr} (h : op = .mul → ∀ es fs, ¬ (l = .other "List".toList es ∧ r = .other "List".toList fs)) :
    ∃ b, multipliedList op l r = .ok b ∧
      (b = true ↔ op = .mul ∧ ∃ es, (l = .other "List".toList es ∨ r = .other "List".toList es) ∧ ∃ e ∈ es, NewMutable e) := by
  by_cases ho : op = .mul
  · subst ho
    cases hl : listElems l with
    | none =>
      have hl' := listElems_none.1 hl
      cases hr : listElems r with
      | none =>
        have hr' := listElems_none.1 hr
        refine ⟨false, by simp [multipliedList, hl, hr], ?_⟩
        simp only [Bool.false_eq_true, false_iff]
        rintro ⟨-, es, h | h, -⟩
        · exact hl' es h
        · exact hr' es h
      | some es =>
        refine ⟨_, by simp only [multipliedList, hl, hr]; rfl, ?_⟩
        rw [List.any_eq_true]
        have hr' := listElems_iff.1 hr
        constructor
        · rintro ⟨e, he, hm⟩
          exact ⟨rfl, es, .inr hr', e, he, isMutableElem_iff.1 hm⟩
        · rintro ⟨-, fs, h' | h', e, he, hm⟩
          · exact (hl' fs h').elim
          · rw [hr'] at h'; cases h'
            exact ⟨e, he, isMutableElem_iff.2 hm⟩
    | some es =>
      have hl' := listElems_iff.1 hl
      cases hr : listElems r with
      | some fs => exact (h rfl es fs ⟨hl', listElems_iff.1 hr⟩).elim
      | none =>
        refine ⟨_, by simp only [multipliedList, hl, hr]; rfl, ?_⟩
        rw [List.any_eq_true]
        have hr' := listElems_none.1 hr
        constructor
        · rintro ⟨e, he, hm⟩
          exact ⟨rfl, es, .inl hl', e, he, isMutableElem_iff.1 hm⟩
        · rintro ⟨-, fs, h' | h', e, he, hm⟩
          · rw [hl'] at h'; cases h'
            exact ⟨e, he, isMutableElem_iff.2 hm⟩
          · exact (hr' fs h').elim
  · refine ⟨false, ?_, by simp [ho]⟩
    unfold multipliedList
    split <;> simp_all

/-- `[[]] * n` and `n * [1]` -/
example : multipliedList .mul (.other "List".toList [.other "List".toList []]) (.name ['n']) = .ok true ∧
    multipliedList .mul (.name ['n']) (.other "List".toList [.const (.int 1)]) = .ok false := by decide

/-- C104 is false for two lists: `[1] * [2]` ends the checker with an exception (Python would raise one only if this is executed). -/
theorem C104_counterexample :
    multipliedList .mul (.other "List".toList [.const (.int 1)]) (.other "List".toList [.const (.int 2)]) = .error .assertionError := by
  decide

end Verif.Py.LocalOps

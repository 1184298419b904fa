import Verif.Model.SimpleIf
import Verif.Lemmas.Parse
import Verif.Lemmas.PyInt

/-!
**C66**–**C68**: suggestions for conditionals.

A suggestion is a text; it is read by Python's grammar (`ReadsAs 0`). What it reads as is compared with the conditional by
truth values: `return x` for `if x: return True …` returns `x`, which need not be a truth value.
-/

namespace Verif.Py.SimpleIf

/-! ### Meaning -/

section
variable {V : Type} (S : Sem V) (env : Env V)

/-- Truth values are as in Python. -/
structure BoolSem : Prop where
  lit : ∀ b, S.truth (S.lit (.bool b)) = .ok b
  ofBool : ∀ b, S.truth (S.ofBool b) = .ok b

/-- What a statement does. -/
inductive Effect (V : Type) where
  | returned (v : V)
  | assigned (target : Expr) (v : V)
  | nothing

/-- What a simple statement does; `none` if it is none of `return`, an assignment to one target and `pass`. -/
def exec : Stmt → Option (Except PyErr (Effect V))
  | .ret none => some (.ok (.returned (S.lit .none)))
  | .ret (some e) => some ((eval S env e).map .returned)
  | .assign [t] e => some ((eval S env e).map (.assigned t))
  | .annAssign t (some e) => some ((eval S env e).map (.assigned t))
  | .annAssign _ none => some (.ok .nothing)
  | .augAssign t op e =>
    some (match eval S env t with
      | .error x => .error x
      | .ok a =>
        match eval S env e with
        | .error x => .error x
        | .ok b => (S.binary op a b).map (.assigned t))
  | .pass => some (.ok .nothing)
  | _ => none

/-- What a conditional does, if its branches are single statements; without `else`, the next statement follows. -/
def execIf (test : Expr) (body orelse : List Stmt) (next : Option Stmt) : Option (Except PyErr (Effect V)) :=
  match truthOf S env test with
  | .error x => some (.error x)
  | .ok true =>
    match body with
    | [s] => exec S env s
    | _ => none
  | .ok false =>
    match orelse, next with
    | [s], _ => exec S env s
    | [], some s => exec S env s
    | _, _ => none

/-- What is seen of an effect if values are only used as truth values: where the value goes, and its truth value. -/
def observe : Except PyErr (Effect V) → Except PyErr (Option Expr × Bool)
  | .error x => .error x
  | .ok .nothing => .ok (none, false)
  | .ok (.returned v) =>
    match S.truth v with
    | .error x => .error x
    | .ok b => .ok (none, b)
  | .ok (.assigned t v) =>
    match S.truth v with
    | .error x => .error x
    | .ok b => .ok (some t, b)

/-- Expressions whose text can be an operand of `and` and `or`: everything but conditional expressions. -/
def Operand (e : Expr) : Prop := e.Ok ∧ ∀ c a b, e ≠ .ifExp c a b

/-! ### Reading `and` and `or` -/

/-- The operands that are seen if an expression is written into `and` (`or`). -/
def operandsOf (isOr : Bool) (e : Expr) : List Expr :=
  match e with
  | .boolOp o vs => if o = isOr then vs else [e]
  | _ => [e]

/-- An operand with the brackets it is given. -/
def operandText (isOr : Bool) (e : Expr) : List Tok :=
  if otherBool isOr (.node (some e)) then bracket e.text else e.text

theorem reads_bracket {t : List Tok} {e : Expr} (h : Reads 0 t e) : Reads 13 (bracket t) e := .paren h

theorem reads_negated {e : Expr} (h : e.Ok) : Reads 13 (negatedText e) (.unary .not e) :=
  reads_bracket ((Reads.not ((reads_bracket ((reads_text e h).mono (Nat.zero_le _))).mono (by decide))).mono (by decide))

theorem reads_operand {isOr : Bool} {e : Expr} (h : Operand e) : ReadsBool isOr (operandText isOr e) (operandsOf isOr e) := by
  obtain ⟨hok, hif⟩ := h
  by_cases hb : ∃ o vs, e = .boolOp o vs
  · obtain ⟨o, vs, rfl⟩ := hb
    by_cases ho : o = isOr
    · subst ho
      obtain ⟨hlen, hall⟩ : 2 ≤ vs.length ∧ OkAll vs := by simpa [Expr.Ok] using hok
      have := reads_textBool o vs hall (by rintro rfl; simp at hlen)
      simpa [operandText, operandsOf, otherBool, Expr.text] using this
    · have h1 : operandText isOr (.boolOp o vs) = bracket (Expr.text (.boolOp o vs)) := by
        simp [operandText, otherBool, ho]
      have h2 : operandsOf isOr (.boolOp o vs) = [.boolOp o vs] := by simp [operandsOf, ho]
      rw [h1, h2]
      exact .one ((reads_bracket ((reads_text _ hok).mono (Nat.zero_le _))).mono (by cases isOr <;> decide))
  · have h1 : operandText isOr e = e.text := by
      cases e <;> first | rfl | exact absurd ⟨_, _, rfl⟩ hb
    have h2 : operandsOf isOr e = [e] := by
      cases e <;> first | rfl | exact absurd ⟨_, _, rfl⟩ hb
    have hp : boolPrec isOr + 1 ≤ e.prec := by
      have : boolPrec isOr + 1 ≤ 3 := by cases isOr <;> decide
      cases e with
      | boolOp o vs => exact absurd ⟨_, _, rfl⟩ hb
      | ifExp c a b => exact absurd rfl (hif c a b)
      | unary op e =>
        simp only [Expr.prec]
        by_cases hn : op = .not <;> simp [hn] <;> omega
      | bin op l r =>
        have : 5 ≤ op.prec := by cases op <;> decide
        simp only [Expr.prec]
        omega
      | _ => simp only [Expr.prec]; omega
    rw [h1, h2]
    exact .one (reads_text_at hok hp)

theorem readsBool_append {isOr : Bool} {u : List Tok} {bs : List Expr} : ∀ {as : List Expr} {t : List Tok}, ReadsBool isOr t as →
    ReadsBool isOr u bs → bs ≠ [] → ReadsBool isOr (t ++ boolTok isOr :: u) (as ++ bs)
  | _, _, .one h, hb, hne => by
    cases bs with
    | nil => exact absurd rfl hne
    | cons b bs => exact .cons h hb
  | _, _, .cons (t := t) (u := w) h ht, hb, hne => by
    have := readsBool_append ht hb hne
    rw [List.append_assoc, List.cons_append]
    simp only [List.cons_append] at this ⊢
    exact .cons h this

theorem operandsOf_ne {isOr : Bool} {e : Expr} (h : e.Ok) : operandsOf isOr e ≠ [] := by
  cases e with
  | boolOp o vs =>
    have hlen : 2 ≤ vs.length := by simp only [Expr.Ok] at h; exact h.1
    by_cases ho : o = isOr
    · simp only [operandsOf, ho, if_true]
      rintro rfl
      simp at hlen
    · simp [operandsOf, ho]
  | _ => simp [operandsOf]

/-- Two operands, each of which is perhaps itself `and` (`or`). -/
theorem reads_two {isOr : Bool} {t u : List Tok} {as bs : List Expr} (ha : ReadsBool isOr t as) (hb : ReadsBool isOr u bs)
    (hna : as ≠ []) (hnb : bs ≠ []) : Reads 0 (t ++ boolTok isOr :: u) (.boolOp isOr (as ++ bs)) := by
  have h := readsBool_append ha hb hnb
  cases as with
  | nil => exact absurd rfl hna
  | cons a as =>
    cases hab : as ++ bs with
    | nil => simp at hab; exact absurd hab.2 hnb
    | cons x xs =>
      rw [List.cons_append, hab] at h ⊢
      exact (Reads.boolOp h).mono (Nat.zero_le _)

theorem evalBool_cons_cons {isOr : Bool} (e e' : Expr) (es : List Expr) :
    evalBool S env isOr (e :: e' :: es) =
      match eval S env e with
      | .error x => .error x
      | .ok v =>
        match S.truth v with
        | .error x => .error x
        | .ok b => if b = isOr then .ok v else evalBool S env isOr (e' :: es) := by
  rw [evalBool]
  cases eval S env e <;> rfl

theorem evalBool_append {isOr : Bool} {bs : List Expr} (hb : bs ≠ []) : ∀ {as : List Expr}, as ≠ [] →
    evalBool S env isOr (as ++ bs) =
      match evalBool S env isOr as with
      | .error x => .error x
      | .ok v =>
        match S.truth v with
        | .error x => .error x
        | .ok b => if b = isOr then .ok v else evalBool S env isOr bs
  | [], h => absurd rfl h
  | [e], _ => by
    cases bs with
    | nil => exact absurd rfl hb
    | cons b bs =>
      have h1 : evalBool S env isOr [e] = eval S env e := by
        rw [evalBool]
        cases eval S env e <;> rfl
      rw [h1, List.singleton_append, evalBool]
      cases eval S env e <;> rfl
  | e :: e' :: as, _ => by
    have ih := evalBool_append (isOr := isOr) hb (as := e' :: as) (by simp)
    simp only [List.cons_append] at ih ⊢
    rw [evalBool_cons_cons, evalBool_cons_cons, ih]
    cases he : eval S env e with
    | error x => rfl
    | ok v =>
      simp only
      cases ht : S.truth v with
      | error x => rfl
      | ok b =>
        simp only
        by_cases hbo : b = isOr
        · simp [hbo, ht]
        · simp [hbo]

theorem evalBool_operandsOf {isOr : Bool} {e : Expr} : evalBool S env isOr (operandsOf isOr e) = eval S env e := by
  have hone : ∀ e : Expr, evalBool S env isOr [e] = eval S env e := by
    intro e
    rw [evalBool]
    cases eval S env e <;> rfl
  cases e with
  | boolOp o vs =>
    by_cases ho : o = isOr
    · subst ho; simp only [operandsOf, if_true]; rw [eval]
    · simp only [operandsOf, ho, if_false]; exact hone _
  | _ => exact hone _

/-- The truth value of `a and b` (`a or b`). -/
theorem truth_two {isOr : Bool} {as bs : List Expr} {a b : Expr} (ha : as ≠ []) (hb : bs ≠ [])
    (hea : evalBool S env isOr as = eval S env a) (heb : evalBool S env isOr bs = eval S env b) :
    truthOf S env (.boolOp isOr (as ++ bs)) =
      match truthOf S env a with
      | .error x => .error x
      | .ok v => if v = isOr then .ok v else truthOf S env b := by
  unfold truthOf
  rw [eval, evalBool_append S env hb ha, hea, heb]
  cases eval S env a with
  | error x => rfl
  | ok v =>
    simp only
    cases ht : S.truth v with
    | error x => rfl
    | ok c =>
      simp only
      by_cases hc : c = isOr
      · simp [hc, ht]
      · simp [hc]

theorem truth_not (hS : BoolSem S) (e : Expr) :
    truthOf S env (.unary .not e) = (truthOf S env e).map fun b => !b := by
  unfold truthOf
  rw [eval]
  cases eval S env e with
  | error x => rfl
  | ok v =>
    simp only [if_true]
    cases ht : S.truth v with
    | error x => rfl
    | ok b => simp [hS.ofBool, Except.map]

/-! ### What `_get_refactored` gives -/

theorem refactoredLoop_mono (args : List Arg) (t : List Tok) (k : Nat) : ∀ (fuel i : Nat) (result : List (List Tok)),
    refactoredLoop args fuel i result = .ok t → refactoredLoop args (fuel + k) i result = .ok t
  | 0, i, result, h => by simp [refactoredLoop] at h
  | fuel + 1, i, result, h => by
    have ih := refactoredLoop_mono args t k fuel
    rw [show fuel + 1 + k = (fuel + k) + 1 from by omega]
    rw [refactoredLoop] at h ⊢
    cases hi : args[i]? with
    | none => simpa [hi] using h
    | some arg =>
      simp only [hi] at h ⊢
      cases arg with
      | not =>
        simp only at h ⊢
        cases hj : args[i + 1]? with
        | none => simp [hj] at h
        | some v =>
          rcases v with _ | _ | (_ | v) <;> simp only [hj] at h ⊢ <;> first | exact ih _ _ h | simp at h
      | bool isOr =>
        simp only at h ⊢
        cases hp : args[i - 1]? with
        | none => simp [hp] at h
        | some prev =>
          cases hn : args[i + 1]? with
          | none => simp [hp, hn] at h
          | some next =>
            simp only [hp, hn] at h ⊢
            generalize (if otherBool isOr prev = true ∧ (i < 2 ∨ args[i - 2]? ≠ some .not) then bracketLast result
              else .ok result) = r at h ⊢
            cases r with
            | error x => simp at h
            | ok r =>
              simp only at h ⊢
              by_cases ho : otherBool isOr next = true
              · simp only [ho, if_true] at h ⊢
                exact ih _ _ h
              · simp only [ho] at h ⊢
                exact ih _ _ h
      | node e =>
        cases e with
        | none => exact ih _ _ h
        | some e => exact ih _ _ h

theorem refactored_mono {args : List Arg} {t : List Tok} {fuel : Nat} (k : Nat) (h : refactored fuel args = .ok t) :
    refactored (fuel + k) args = .ok t := refactoredLoop_mono args t k fuel 0 [] h

theorem refactored_one (n : Nat) (e : Expr) : refactored (n + 4) [.node e] = .ok e.text := by
  simp [refactored, refactoredLoop]

theorem refactored_not (n : Nat) (e : Expr) : refactored (n + 4) [.not, .node e] = .ok (negatedText e) := by
  simp [refactored, refactoredLoop]

theorem refactored_two (n : Nat) (isOr : Bool) (a b : Expr) :
    refactored (n + 4) [.node a, .bool isOr, .node b] = .ok (operandText isOr a ++ boolTok isOr :: operandText isOr b) := by
  by_cases ha : otherBool isOr (.node (some a)) = true <;> by_cases hb : otherBool isOr (.node (some b)) = true <;>
    simp [refactored, refactoredLoop, operandText, ha, hb, bracketLast, Arg.text]

theorem refactored_not_two (n : Nat) (isOr : Bool) (a b : Expr) :
    refactored (n + 4) [.not, .node a, .bool isOr, .node b] =
      .ok (negatedText a ++ boolTok isOr :: operandText isOr b) := by
  by_cases ha : otherBool isOr (.node (some a)) = true <;> by_cases hb : otherBool isOr (.node (some b)) = true <;>
    simp [refactored, refactoredLoop, operandText, ha, hb, Arg.text]

theorem refactored_eq {args : List Arg} {t u : List Tok} {fuel : Nat} (h : refactored fuel args = .ok t)
    (hu : ∀ n, refactored (n + 4) args = .ok u) : t = u := by
  have h1 := refactored_mono 4 h
  rw [hu fuel] at h1
  exact (Except.ok.inj h1).symm

theorem withText_ok {fuel : Nat} {args : List Arg} {only only' : Bool} {t : List Tok}
    (h : withText fuel args only' = .ok (some (t, only))) : refactored fuel args = .ok t := by
  unfold withText at h
  split at h
  · simp at h
  · rename_i u hu
    simp only [Except.ok.injEq, Option.some.injEq, Prod.mk.injEq] at h
    rw [hu, h.1]

/-- The truth value of `a and b` (`a or b`) as it is suggested. -/
theorem two_right {isOr : Bool} {a b : Expr} (ha : Operand a) (hb : Operand b) :
    ∃ e', Reads 0 (operandText isOr a ++ boolTok isOr :: operandText isOr b) e' ∧
      truthOf S env e' =
        match truthOf S env a with
        | .error x => .error x
        | .ok v => if v = isOr then .ok v else truthOf S env b :=
  ⟨_, reads_two (reads_operand ha) (reads_operand hb) (operandsOf_ne ha.1) (operandsOf_ne hb.1),
    truth_two S env (operandsOf_ne ha.1) (operandsOf_ne hb.1) (evalBool_operandsOf S env) (evalBool_operandsOf S env)⟩

theorem not_two_right (hS : BoolSem S) {isOr : Bool} {a b : Expr} (ha : a.Ok) (hb : Operand b) :
    ∃ e', Reads 0 (negatedText a ++ boolTok isOr :: operandText isOr b) e' ∧
      truthOf S env e' =
        match truthOf S env a with
        | .error x => .error x
        | .ok v => if (!v) = isOr then .ok (!v) else truthOf S env b := by
  have hone : ReadsBool isOr (negatedText a) [.unary .not a] :=
    .one ((reads_negated ha).mono (by cases isOr <;> decide))
  refine ⟨_, reads_two hone (reads_operand hb) (by simp) (operandsOf_ne hb.1), ?_⟩
  have he : evalBool S env isOr [.unary .not a] = eval S env (.unary .not a) := by
    rw [evalBool]
    cases eval S env (.unary .not a) <;> rfl
  rw [truth_two S env (by simp) (operandsOf_ne hb.1) he (evalBool_operandsOf S env), truth_not S env hS]
  cases truthOf S env a <;> rfl

theorem boolValue_some {e : Expr} {b : Bool} (h : boolValue (some e) = some b) : e = .const (.bool b) := by
  unfold boolValue at h
  split at h
  · rename_i he
    simp only [Option.some.injEq] at he h
    rw [he, h]
  · simp at h

theorem truth_bool (hS : BoolSem S) (b : Bool) : truthOf S env (.const (.bool b)) = .ok b := by
  unfold truthOf
  rw [eval]
  exact hS.lit b

/-- The value that is suggested has the truth value of the conditional. -/
theorem condFrom_right (hS : BoolSem S) {fuel : Nat} {test a b : Expr} {t : List Tok} {only : Bool} (ht : Operand test)
    (ha : Operand a) (hb : Operand b) (h : condFrom fuel test (some a) (some b) = .ok (some (t, only))) :
    ∃ e', Reads 0 t e' ∧
      truthOf S env e' =
        match truthOf S env test with
        | .error x => .error x
        | .ok c => if c then truthOf S env a else truthOf S env b := by
  unfold condFrom at h
  split at h
  · simp at h
  · rename_i h1 h2
    obtain rfl := boolValue_some h1
    obtain rfl := boolValue_some h2
    rw [refactored_eq (withText_ok h) (fun n => refactored_one n test)]
    refine ⟨test, reads_text test ht.1 |>.mono (Nat.zero_le _), ?_⟩
    simp only [truth_bool S env hS]
    rcases truthOf S env test with x | (_ | _) <;> rfl
  · rename_i h1 h2
    obtain rfl := boolValue_some h1
    obtain rfl := boolValue_some h2
    rw [refactored_eq (withText_ok h) (fun n => refactored_not n test)]
    refine ⟨_, (reads_negated ht.1).mono (Nat.zero_le _), ?_⟩
    simp only [truth_bool S env hS, truth_not S env hS]
    rcases truthOf S env test with x | (_ | _) <;> rfl
  · simp at h
  · rename_i h1 h2
    obtain rfl := boolValue_some h1
    rw [refactored_eq (withText_ok h) (fun n => refactored_two n true test b)]
    obtain ⟨e', hr, he⟩ := two_right S env (isOr := true) ht hb
    refine ⟨e', hr, ?_⟩
    rw [he]
    simp only [truth_bool S env hS]
    rcases truthOf S env test with x | (_ | _) <;> rfl
  · rename_i h1 h2
    obtain rfl := boolValue_some h1
    rw [refactored_eq (withText_ok h) (fun n => refactored_not_two n false test b)]
    obtain ⟨e', hr, he⟩ := not_two_right S env hS (isOr := false) ht.1 hb
    refine ⟨e', hr, ?_⟩
    rw [he]
    simp only [truth_bool S env hS]
    rcases truthOf S env test with x | (_ | _) <;> rfl
  · rename_i h1 h2
    obtain rfl := boolValue_some h2
    rw [refactored_eq (withText_ok h) (fun n => refactored_not_two n true test a)]
    obtain ⟨e', hr, he⟩ := not_two_right S env hS (isOr := true) ht.1 ha
    refine ⟨e', hr, ?_⟩
    rw [he]
    simp only [truth_bool S env hS]
    rcases truthOf S env test with x | (_ | _) <;> rfl
  · rename_i h1 h2
    obtain rfl := boolValue_some h2
    rw [refactored_eq (withText_ok h) (fun n => refactored_two n false test a)]
    obtain ⟨e', hr, he⟩ := two_right S env (isOr := false) ht ha
    refine ⟨e', hr, ?_⟩
    rw [he]
    simp only [truth_bool S env hS]
    rcases truthOf S env test with x | (_ | _) <;> rfl

/-! ### Values (C66) -/

/-- A statement for which the suggestion is right: its value can be an operand, and it is no augmented assignment. -/
def Stmt.InScope : Stmt → Prop
  | .ret (some e) => Operand e
  | .assign _ e => Operand e
  | .annAssign _ (some e) => Operand e
  | .augAssign _ _ _ => False
  | _ => True

theorem observe_ret (e : Expr) :
    observe S ((eval S env e).map .returned) = (truthOf S env e).map fun b => (none, b) := by
  unfold truthOf
  cases eval S env e with
  | error x => rfl
  | ok v =>
    simp only [Except.map, observe]
    cases S.truth v <;> rfl

theorem observe_assign (t e : Expr) :
    observe S ((eval S env e).map (.assigned t)) = (truthOf S env e).map fun b => (some t, b) := by
  unfold truthOf
  cases eval S env e with
  | error x => rfl
  | ok v =>
    simp only [Except.map, observe]
    cases S.truth v <;> rfl

theorem thenOrelse_exec {test : Expr} {body orelse : List Stmt} {next : Option Stmt} {s s' : Stmt}
    (h : thenOrelse body orelse next = some (s, s')) :
    execIf S env test body orelse next =
        (match truthOf S env test with
        | .error x => some (.error x)
        | .ok c => if c then exec S env s else exec S env s') ∧
      s ∈ body ++ orelse ++ next.toList ∧ s' ∈ body ++ orelse ++ next.toList := by
  unfold thenOrelse at h
  split at h
  · simp only [Option.some.injEq, Prod.mk.injEq] at h
    obtain ⟨rfl, rfl⟩ := h
    refine ⟨?_, by simp, by simp⟩
    unfold execIf
    rcases truthOf S env test with x | (_ | _) <;> rfl
  · split at h
    · simp only [Option.some.injEq, Prod.mk.injEq] at h
      obtain ⟨rfl, rfl⟩ := h
      refine ⟨?_, by simp, by simp⟩
      unfold execIf
      rcases truthOf S env test with x | (_ | _) <;> rfl
    · simp at h
  · simp at h

/-- What is known if a value is suggested. -/
theorem checkBranches_value {fuel : Nat} {test : Expr} {body orelse : List Stmt} {previous next : Option Stmt}
    {rs : List IfReport} {r : IfReport} (h : checkBranches fuel test body orelse previous next = .ok rs) (hr : r ∈ rs)
    (hp : ∀ t, r ≠ .pass t) (hn : r ≠ .noValue) :
    ∃ s s' v v' t only, thenOrelse body orelse next = some (s, s') ∧ mergeable s s' = true ∧ s.value = .ok v ∧
      s'.value = .ok v' ∧ condFrom fuel test v v' = .ok (some (t, only)) ∧ ifMessage s t only = .ok rs := by
  unfold checkBranches at h
  split at h
  · split at h
    · simp at h
    · simp only [Except.ok.injEq] at h
      subst h
      simp only [List.mem_singleton] at hr
      exact absurd hr (hp _)
  · split at h
    · simp only [Except.ok.injEq] at h
      subst h
      simp at hr
    · simp only [Except.ok.injEq] at h
      subst h
      simp only [List.mem_singleton] at hr
      exact absurd hr hn
    · simp only [Except.ok.injEq] at h
      subst h
      simp only [List.mem_singleton] at hr
      exact absurd hr hn
    · rename_i s s' _ _ hto
      by_cases hm : (mergeable s s' && !(orelse.isEmpty && justReturning previous)) = true
      · rw [if_pos hm] at h
        cases hv : s.value with
        | error x => simp [hv] at h
        | ok v =>
          cases hv' : s'.value with
          | error x => simp [hv, hv'] at h
          | ok v' =>
            simp only [hv, hv'] at h
            cases hc : condFrom fuel test v v' with
            | error x => simp [hc] at h
            | ok o =>
              rw [hc] at h
              cases o with
              | none =>
                simp only [Except.ok.injEq] at h
                subst h
                simp at hr
              | some p =>
                obtain ⟨t, only⟩ := p
                simp only [Bool.and_eq_true] at hm
                exact ⟨s, s', v, v', t, only, hto, hm.1, hv, hv', hc, h⟩
      · rw [if_neg hm] at h
        simp only [Except.ok.injEq] at h
        subst h
        simp at hr

theorem condFrom_some {fuel : Nat} {test : Expr} {v v' : Option Expr} {t : List Tok} {only : Bool}
    (h : condFrom fuel test v v' = .ok (some (t, only))) : (∃ a, v = some a) ∧ ∃ b, v' = some b := by
  have key : ∀ (args : List Arg) (n : Nat) (i : Nat) (result : List (List Tok)), args[i]? = some (.node none) →
      refactoredLoop args n i result = .error .recursionError := by
    intro args n
    induction n with
    | zero => intro i result _; rfl
    | succ n ih =>
      intro i result hi
      rw [refactoredLoop, hi]
      exact ih i result hi
  have h3 : ∀ (isOr : Bool) (fuel : Nat), refactored fuel [.node (some test), .bool isOr, .node none] ≠ .ok t := by
    intro isOr fuel hx
    have h1 := refactored_mono 2 hx
    unfold refactored at h1
    rw [refactoredLoop] at h1
    simp only [List.getElem?_cons_zero] at h1
    rw [refactoredLoop] at h1
    simp [otherBool] at h1
    by_cases ho : otherBool isOr (.node (some test)) = true
    · have : otherBool isOr (.node none) = false := rfl
      simp [bracketLast, key] at h1
      split at h1 <;> simp at h1
    · simp [key] at h1
      split at h1 <;> simp at h1
  have h4 : ∀ (isOr : Bool) (fuel : Nat), refactored fuel [.not, .node (some test), .bool isOr, .node none] ≠ .ok t := by
    intro isOr fuel hx
    have h1 := refactored_mono 2 hx
    unfold refactored at h1
    rw [refactoredLoop] at h1
    simp only [List.getElem?_cons_zero, List.getElem?_cons_succ] at h1
    rw [refactoredLoop] at h1
    simp [otherBool, key] at h1
  unfold condFrom at h
  cases v with
  | some a =>
    cases v' with
    | some b => exact ⟨⟨a, rfl⟩, b, rfl⟩
    | none =>
      exfalso
      have hb : boolValue none = none := rfl
      cases ha : boolValue (some a) with
      | none => simp [ha, hb] at h
      | some c =>
        cases c <;> simp only [ha, hb] at h
        · exact h4 _ _ (withText_ok h)
        · exact h3 _ _ (withText_ok h)
  | none =>
    exfalso
    have hb : boolValue none = none := rfl
    cases ha : boolValue v' with
    | none => simp [ha, hb] at h
    | some c =>
      cases c <;> simp only [ha, hb] at h
      · exact h3 _ _ (withText_ok h)
      · exact h4 _ _ (withText_ok h)

/-- The reports other than values come from elsewhere. -/
theorem basicChecks_value {fuel : Nat} {test : Expr} {body orelse : List Stmt} {previous next : Option Stmt}
    {siblings : List Stmt} {rs : List IfReport} {r : IfReport}
    (h : basicChecks fuel test body orelse previous next siblings = .ok rs) (hr : r ∈ rs)
    (hn : ∀ t, r ≠ .nested t) (hs : ∀ t, r ≠ .seq t) : checkBranches fuel test body orelse previous next = .ok rs := by
  unfold basicChecks at h
  split at h
  · split at h
    · simp at h
    · simp only [Except.ok.injEq] at h
      subst h
      simp only [List.mem_singleton] at hr
      exact absurd hr (hn _)
  · exfalso
    unfold mergeSequential at h
    split at h
    · simp only [Except.ok.injEq] at h; subst h; simp at hr
    · split at h
      · split at h
        · split at h
          · simp only [Except.ok.injEq] at h; subst h; simp at hr
          · split at h
            · simp at h
            · simp only [Except.ok.injEq] at h
              subst h
              simp only [List.mem_singleton] at hr
              exact absurd hr (hs _)
        · simp only [Except.ok.injEq] at h; subst h; simp at hr
      · simp only [Except.ok.injEq] at h; subst h; simp at hr
  · exact h

theorem mergeSequential_shape {fuel : Nat} {test : Expr} {body : List Stmt} {test2 : Expr} {body2 orelse2 siblings : List Stmt}
    {rs : List IfReport} (h : mergeSequential fuel test body test2 body2 orelse2 siblings = .ok rs) :
    ∃ t, rs = [] ∨ rs = [.seq t] := by
  unfold mergeSequential at h
  split at h
  · simp only [Except.ok.injEq] at h; exact ⟨[], .inl h.symm⟩
  · split at h
    · split at h
      · split at h
        · simp only [Except.ok.injEq] at h; exact ⟨[], .inl h.symm⟩
        · split at h
          · simp at h
          · rename_i t _
            simp only [Except.ok.injEq] at h; exact ⟨t, .inr h.symm⟩
      · simp only [Except.ok.injEq] at h; exact ⟨[], .inl h.symm⟩
    · simp only [Except.ok.injEq] at h; exact ⟨[], .inl h.symm⟩

theorem ifMessage_shape {s : Stmt} {t : List Tok} {only : Bool} {rs : List IfReport} (h : ifMessage s t only = .ok rs) :
    rs = [.ret t only] ∨ ∃ target, rs = [.assign target t only] := by
  unfold ifMessage at h
  split at h
  · simp only [Except.ok.injEq] at h; exact .inl h.symm
  · split at h
    · simp only [Except.ok.injEq] at h; exact .inr ⟨_, h.symm⟩
    · simp at h

/-- Two mergeable statements in scope: both return, or both assign to one target. -/
theorem mergeable_kinds {s s' : Stmt} {a b : Expr} (hm : mergeable s s' = true) (hv : s.value = .ok (some a))
    (hv' : s'.value = .ok (some b)) (hs : s.InScope) :
    (s = .ret (some a) ∧ s' = .ret (some b)) ∨
      ∃ t, (∀ S : Sem V, ∀ env : Env V, exec S env s = some ((eval S env a).map (.assigned t)) ∧
        exec S env s' = some ((eval S env b).map (.assigned t))) ∧ s.targets = some [t] ∧ (∀ v, s ≠ .ret v) := by
  unfold mergeable at hm
  split at hm
  · rename_i hc
    cases s <;> cases s' <;> simp only [Stmt.sameClass, Bool.false_eq_true] at hc <;>
      simp only [Stmt.value, Except.ok.injEq, reduceCtorEq] at hv hv'
    · subst hv hv'
      exact .inl ⟨rfl, rfl⟩
    · rename_i ts v ts' v'
      right
      simp only [Stmt.targets] at hm
      split at hm
      · rename_i t1 t2 h1 h2
        simp only [Option.some.injEq] at h1 h2 hv hv'
        subst h1 h2 hv hv'
        simp only [Bool.and_eq_true, beq_iff_eq] at hm
        obtain rfl := hm.2
        exact ⟨t1, fun S env => ⟨rfl, rfl⟩, rfl, by simp⟩
      · simp at hm
    · rename_i t v t' v'
      right
      simp only [Stmt.targets, Bool.and_eq_true, beq_iff_eq] at hm
      obtain rfl := hm.2
      subst hv hv'
      exact ⟨t, fun S env => ⟨rfl, rfl⟩, rfl, by simp⟩
    · exact absurd hs (by simp [Stmt.InScope])
  · simp at hm

/-- **C66**, in part: a value that is suggested in place of two `return`s or two assignments, read by Python's grammar,
goes where the values of the conditional go and has their truth value, or raises the same exception. Missing: values and
tests that are conditional expressions, and augmented assignments (`C66_counterexample`). -/
theorem C66_partial (hS : BoolSem S) {fuel : Nat} {test : Expr} {body orelse : List Stmt} {previous next : Option Stmt}
    {siblings : List Stmt} {rs : List IfReport}
    (h : basicChecks fuel test body orelse previous next siblings = .ok rs) (ht : Operand test)
    (hin : ∀ s ∈ body ++ orelse ++ next.toList, s.InScope) :
    (∀ t only, .ret t only ∈ rs → ∃ e' r r', ReadsAs 0 t e' ∧ execIf S env test body orelse next = some r ∧
      exec S env (.ret (some e')) = some r' ∧ observe S r' = observe S r) ∧
    (∀ target t only, .assign target t only ∈ rs → ∃ e' r r', ReadsAs 0 t e' ∧
      execIf S env test body orelse next = some r ∧ exec S env (.assign [target] e') = some r' ∧
      observe S r' = observe S r) := by
  have main : ∀ r ∈ rs, (∀ t, r ≠ .nested t) → (∀ t, r ≠ .seq t) → (∀ t, r ≠ .pass t) → r ≠ .noValue →
      ∃ s s' a b t only e', Reads 0 t e' ∧ thenOrelse body orelse next = some (s, s') ∧ mergeable s s' = true ∧
        s.value = .ok (some a) ∧ s'.value = .ok (some b) ∧ ifMessage s t only = .ok rs ∧ s.InScope ∧
        truthOf S env e' = match truthOf S env test with
          | .error x => .error x
          | .ok c => if c then truthOf S env a else truthOf S env b := by
    intro r hr h1 h2 h3 h4
    obtain ⟨s, s', v, v', t, only, hto, hm, hv, hv', hc, hmsg⟩ :=
      checkBranches_value (basicChecks_value h hr h1 h2) hr h3 h4
    obtain ⟨⟨a, rfl⟩, b, rfl⟩ := condFrom_some hc
    have hmem := (thenOrelse_exec S env (test := test) hto).2
    have hsa := hin s hmem.1
    have hsb := hin s' hmem.2
    have ha : Operand a := by
      cases s <;> simp only [Stmt.value, Except.ok.injEq, Option.some.injEq, reduceCtorEq] at hv
      · subst hv; exact hsa
      · subst hv; exact hsa
      · subst hv; exact hsa
      · exact hsa.elim
    have hb : Operand b := by
      cases s' <;> simp only [Stmt.value, Except.ok.injEq, Option.some.injEq, reduceCtorEq] at hv'
      · subst hv'; exact hsb
      · subst hv'; exact hsb
      · subst hv'; exact hsb
      · exact hsb.elim
    obtain ⟨e', hread, htr⟩ := condFrom_right S env hS ht ha hb hc
    exact ⟨s, s', a, b, t, only, e', hread, hto, hm, hv, hv', hmsg, hsa, htr⟩
  refine ⟨?_, ?_⟩
  · intro t only hr
    obtain ⟨s, s', a, b, t', only', e', hread, hto, hm, hv, hv', hmsg, hsc, htr⟩ :=
      main _ hr (by simp) (by simp) (by simp) (by simp)
    rcases mergeable_kinds (V := V) hm hv hv' hsc with ⟨rfl, rfl⟩ | ⟨tg, hex, htg, hnr⟩
    · simp only [ifMessage, Except.ok.injEq] at hmsg
      subst hmsg
      simp only [List.mem_singleton, IfReport.ret.injEq] at hr
      obtain ⟨rfl, rfl⟩ := hr
      rw [(thenOrelse_exec S env hto).1]
      cases hte : truthOf S env test with
      | error x =>
        refine ⟨e', _, _, hread.as, rfl, rfl, ?_⟩
        rw [observe_ret, htr, hte]; rfl
      | ok c =>
        cases c
        · refine ⟨e', _, _, hread.as, rfl, rfl, ?_⟩
          rw [observe_ret, htr, hte]; exact (observe_ret S env b).symm
        · refine ⟨e', _, _, hread.as, rfl, rfl, ?_⟩
          rw [observe_ret, htr, hte]; exact (observe_ret S env a).symm
    · exfalso
      unfold ifMessage at hmsg
      split at hmsg
      · exact hnr _ rfl
      · simp only [htg, Except.ok.injEq] at hmsg
        subst hmsg
        simp at hr
  · intro target t only hr
    obtain ⟨s, s', a, b, t', only', e', hread, hto, hm, hv, hv', hmsg, hsc, htr⟩ :=
      main _ hr (by simp) (by simp) (by simp) (by simp)
    rcases mergeable_kinds (V := V) hm hv hv' hsc with ⟨rfl, rfl⟩ | ⟨tg, hex, htg, hnr⟩
    · simp only [ifMessage, Except.ok.injEq] at hmsg
      subst hmsg
      simp at hr
    · have hr' : target = tg ∧ t = t' := by
        unfold ifMessage at hmsg
        split at hmsg
        · exact absurd rfl (hnr _)
        · simp only [htg, Except.ok.injEq] at hmsg
          subst hmsg
          simp only [List.mem_singleton, IfReport.assign.injEq] at hr
          exact ⟨hr.1, hr.2.1⟩
      obtain ⟨rfl, rfl⟩ := hr'
      rw [(thenOrelse_exec S env hto).1]
      cases hte : truthOf S env test with
      | error x =>
        refine ⟨e', _, _, hread.as, rfl, rfl, ?_⟩
        rw [observe_assign, htr, hte]; rfl
      | ok c =>
        cases c
        · refine ⟨e', _, _, hread.as, (hex S env).2, rfl, ?_⟩
          rw [observe_assign, htr, hte]; exact (observe_assign S env target b).symm
        · refine ⟨e', _, _, hread.as, (hex S env).1, rfl, ?_⟩
          rw [observe_assign, htr, hte]; exact (observe_assign S env target a).symm

/-- **C66**, in part, for conditional expressions: what is suggested in place of `a if test else b` has its truth value.
Missing: tests that are conditional expressions (`C66_counterexample`). -/
theorem C66_expr_partial (hS : BoolSem S) {fuel : Nat} {test a b : Expr} {t : List Tok} {only : Bool}
    (h : checkIfExp fuel test a b = .ok (some (t, only))) (ht : Operand test) (ha : a.Ok) (hb : b.Ok) :
    ∃ e', ReadsAs 0 t e' ∧ truthOf S env e' = truthOf S env (.ifExp test a b) := by
  have hop : Operand a ∧ Operand b := by
    unfold checkIfExp at h
    split at h
    all_goals first | (exact absurd h (by simp)) | exact ⟨⟨ha, by simp⟩, hb, by simp⟩
  have hc : condFrom fuel test (some a) (some b) = .ok (some (t, only)) := by
    unfold checkIfExp at h
    split at h
    all_goals first | exact h | simp at h
  obtain ⟨e', hr, he⟩ := condFrom_right S env hS ht hop.1 hop.2 hc
  refine ⟨e', hr.as, ?_⟩
  rw [he]
  have hx : truthOf S env (.ifExp test a b) = match truthOf S env test with
      | .error x => .error x
      | .ok c => if c then truthOf S env a else truthOf S env b := by
    unfold truthOf
    rw [eval]
    cases eval S env test with
    | error x => rfl
    | ok v =>
      simp only
      cases S.truth v with
      | error x => rfl
      | ok c => cases c <;> rfl
  exact hx.symm

/-! ### Merged conditions (C68) -/

/-- **C68**, in part: the body of a condition within a condition is executed exactly if the condition that is suggested is
true; the same value is returned after two conditions exactly if the condition that is suggested is true; and the
condition that is suggested in place of `pass` is true exactly if the test is not. Missing: tests that are conditional
expressions (`C68_counterexample`). -/
theorem C68_partial (hS : BoolSem S) {fuel : Nat} {test : Expr} {body orelse : List Stmt} {previous next : Option Stmt}
    {siblings : List Stmt} {rs : List IfReport}
    (h : basicChecks fuel test body orelse previous next siblings = .ok rs) (ht : Operand test)
    (hin : ∀ test2 b o, .cond test2 b o ∈ body ++ next.toList → Operand test2) :
    (∀ t, .nested t ∈ rs → ∃ e' test2 body2, ReadsAs 0 t e' ∧ body = [.cond test2 body2 []] ∧ orelse = [] ∧
      truthOf S env e' = match truthOf S env test with
        | .error x => .error x
        | .ok false => .ok false
        | .ok true => truthOf S env test2) ∧
    (∀ t, .seq t ∈ rs → ∃ e' test2 v, ReadsAs 0 t e' ∧ body = [.ret v] ∧ orelse = [] ∧
      next = some (.cond test2 [.ret v] []) ∧
      truthOf S env e' = match truthOf S env test with
        | .error x => .error x
        | .ok true => .ok true
        | .ok false => truthOf S env test2) ∧
    (∀ t, .pass t ∈ rs → ∃ e', ReadsAs 0 t e' ∧ body = [.pass] ∧ orelse ≠ [] ∧
      truthOf S env e' = match truthOf S env test with
        | .error x => .error x
        | .ok b => .ok (!b)) := by
  refine ⟨?_, ?_, ?_⟩
  · intro t hr
    unfold basicChecks at h
    split at h
    · rename_i test2 body2
      split at h
      · simp at h
      · rename_i u hu
        simp only [Except.ok.injEq] at h
        subst h
        simp only [List.mem_singleton, IfReport.nested.injEq] at hr
        subst hr
        rw [refactored_eq hu (fun n => refactored_two n false test test2)]
        obtain ⟨e', hread, he⟩ := two_right S env (isOr := false) ht (hin test2 body2 [] (by simp))
        refine ⟨e', test2, body2, hread.as, rfl, rfl, ?_⟩
        rw [he]
        rcases truthOf S env test with x | (_ | _) <;> rfl
    · exfalso
      obtain ⟨u, hu⟩ := mergeSequential_shape h
      rcases hu with rfl | rfl <;> simp at hr
    · exfalso
      obtain ⟨_, _, _, _, u, only, _, _, _, _, _, hm⟩ := checkBranches_value h hr (by simp) (by simp)
      rcases ifMessage_shape hm with rfl | ⟨_, rfl⟩ <;> simp at hr
  · intro t hr
    unfold basicChecks at h
    split at h
    · exfalso
      split at h
      · simp at h
      · simp only [Except.ok.injEq] at h
        subst h
        simp at hr
    · rename_i test2 body2 orelse2 _
      unfold mergeSequential at h
      split at h
      · simp only [Except.ok.injEq] at h; subst h; simp at hr
      · split at h
        · rename_i v1 v2 _
          by_cases hv : v1 = v2
          · subst hv
            rw [if_pos rfl] at h
            split at h
            · simp only [Except.ok.injEq] at h; subst h; simp at hr
            · split at h
              · simp at h
              · rename_i u hu
                simp only [Except.ok.injEq] at h
                subst h
                simp only [List.mem_singleton, IfReport.seq.injEq] at hr
                subst hr
                rw [refactored_eq hu (fun n => refactored_two n true test test2)]
                obtain ⟨e', hread, he⟩ := two_right S env (isOr := true) ht (hin test2 [.ret v1] [] (by simp))
                refine ⟨e', test2, v1, hread.as, rfl, rfl, rfl, ?_⟩
                rw [he]
                rcases truthOf S env test with x | (_ | _) <;> rfl
          · rw [if_neg hv] at h
            simp only [Except.ok.injEq] at h; subst h; simp at hr
        · simp only [Except.ok.injEq] at h; subst h; simp at hr
    · exfalso
      obtain ⟨_, _, _, _, u, only, _, _, _, _, _, hm⟩ := checkBranches_value h hr (by simp) (by simp)
      rcases ifMessage_shape hm with rfl | ⟨_, rfl⟩ <;> simp at hr
  · intro t hr
    have hb := basicChecks_value h hr (by simp) (by simp)
    unfold checkBranches at hb
    split at hb
    · split at hb
      · simp at hb
      · rename_i u hu
        simp only [Except.ok.injEq] at hb
        subst hb
        simp only [List.mem_singleton, IfReport.pass.injEq] at hr
        subst hr
        rw [refactored_eq hu (fun n => refactored_not n test)]
        refine ⟨_, ((reads_negated ht.1).mono (Nat.zero_le _)).as, rfl, by simp, ?_⟩
        rw [truth_not S env hS]
        rcases truthOf S env test with x | b <;> rfl
    · exfalso
      split at hb
      · simp only [Except.ok.injEq] at hb; subst hb; simp at hr
      · simp only [Except.ok.injEq] at hb; subst hb; simp at hr
      · simp only [Except.ok.injEq] at hb; subst hb; simp at hr
      · split at hb
        · split at hb
          · split at hb
            · simp at hb
            · simp only [Except.ok.injEq] at hb; subst hb; simp at hr
            · rcases ifMessage_shape hb with rfl | ⟨_, rfl⟩ <;> simp at hr
          · simp at hb
          · simp at hb
        · simp only [Except.ok.injEq] at hb; subst hb; simp at hr

end

/-! ### No exceptions (C67) -/

/-- A statement whose value can be looked at: no `del`, and no annotation without a value. -/
def Stmt.HasValue : Stmt → Prop
  | .del _ => False
  | .annAssign _ none => False
  | _ => True

theorem condFrom_ok (test a b : Expr) : ∃ o, ∀ n, condFrom (n + 4) test (some a) (some b) = .ok o := by
  unfold condFrom
  split
  · exact ⟨_, fun _ => rfl⟩
  · simp only [withText, refactored_one]; exact ⟨_, fun _ => rfl⟩
  · simp only [withText, refactored_not]; exact ⟨_, fun _ => rfl⟩
  · exact ⟨_, fun _ => rfl⟩
  · simp only [withText, refactored_two]; exact ⟨_, fun _ => rfl⟩
  · simp only [withText, refactored_not_two]; exact ⟨_, fun _ => rfl⟩
  · simp only [withText, refactored_not_two]; exact ⟨_, fun _ => rfl⟩
  · simp only [withText, refactored_two]; exact ⟨_, fun _ => rfl⟩

/-- **C67**, in part: if no branch is an annotation without a value or `del`, then the check of a conditional raises no
exception, and it ends: testing the condition of its loop four times is enough. -/
theorem C67_partial {test : Expr} {body orelse : List Stmt} {previous next : Option Stmt} {siblings : List Stmt}
    (hv : ∀ s ∈ body ++ orelse, s.HasValue) :
    ∃ rs, ∀ n, basicChecks (n + 4) test body orelse previous next siblings = .ok rs := by
  have hval : ∀ s s', mergeable s s' = true → s.HasValue → s'.HasValue →
      ∃ a b, s.value = .ok (some a) ∧ s'.value = .ok (some b) ∧
        ∀ t only, ∃ rs, ifMessage s t only = .ok rs := by
    intro s s' hm hs hs'
    unfold mergeable at hm
    split at hm
    · rename_i hc
      cases s <;> cases s' <;> simp only [Stmt.sameClass, Bool.false_eq_true] at hc
      · rename_i v v'
        cases v <;> cases v' <;> simp at hm
        exact ⟨_, _, rfl, rfl, fun t only => ⟨_, rfl⟩⟩
      · rename_i ts v ts' v'
        simp only [Stmt.targets] at hm
        split at hm
        · rename_i h1 h2
          simp only [Option.some.injEq] at h1
          subst h1
          exact ⟨_, _, rfl, rfl, fun t only => ⟨_, rfl⟩⟩
        · simp at hm
      · rename_i v _ v'
        cases v with
        | none => exact hs.elim
        | some v =>
          cases v' with
          | none => exact hs'.elim
          | some v' => exact ⟨_, _, rfl, rfl, fun t only => ⟨_, rfl⟩⟩
      · exact ⟨_, _, rfl, rfl, fun t only => ⟨_, rfl⟩⟩
      · exact hs.elim
      all_goals simp [Stmt.targets] at hm
    · simp at hm
  have hbr : ∃ rs, ∀ n, checkBranches (n + 4) test body orelse previous next = .ok rs := by
    unfold checkBranches
    split
    · simp only [refactored_not]
      exact ⟨_, fun _ => rfl⟩
    · split
      · exact ⟨_, fun _ => rfl⟩
      · exact ⟨_, fun _ => rfl⟩
      · exact ⟨_, fun _ => rfl⟩
      · rename_i s s' _ _ hto
        by_cases hm : (mergeable s s' && !(orelse.isEmpty && justReturning previous)) = true
        · simp only [hm, if_true]
          simp only [Bool.and_eq_true] at hm
          have hmem : s.HasValue ∧ s'.HasValue := by
            unfold thenOrelse at hto
            split at hto
            · simp only [Option.some.injEq, Prod.mk.injEq] at hto
              obtain ⟨rfl, rfl⟩ := hto
              exact ⟨hv _ (by simp), hv _ (by simp)⟩
            · split at hto
              · simp only [Option.some.injEq, Prod.mk.injEq] at hto
                obtain ⟨rfl, rfl⟩ := hto
                exact ⟨trivial, trivial⟩
              · simp at hto
            · simp at hto
          obtain ⟨a, b, ha, hb, hmsg⟩ := hval s s' hm.1 hmem.1 hmem.2
          simp only [ha, hb]
          obtain ⟨o, ho⟩ := condFrom_ok test a b
          simp only [ho]
          cases o with
          | none => exact ⟨_, fun _ => rfl⟩
          | some p =>
            obtain ⟨rs, hrs⟩ := hmsg p.1 p.2
            exact ⟨rs, fun _ => hrs⟩
        · simp only [hm]
          exact ⟨_, fun _ => rfl⟩
  unfold basicChecks
  split
  · simp only [refactored_two]
    exact ⟨_, fun _ => rfl⟩
  · unfold mergeSequential
    split
    · exact ⟨_, fun _ => rfl⟩
    · split
      · split
        · split
          · exact ⟨_, fun _ => rfl⟩
          · simp only [refactored_two]
            exact ⟨_, fun _ => rfl⟩
        · exact ⟨_, fun _ => rfl⟩
      · exact ⟨_, fun _ => rfl⟩
  · exact hbr

/-- **C67** is false of the code: on `if c: x: bool = True` with `else: x: bool` the loop never ends, and on
`if c: del x` with `else: del x` an attribute that does not exist is looked up. -/
theorem C67_counterexample :
    (∀ fuel, basicChecks fuel (.name ['c']) [.annAssign (.name ['x']) (some (.const (.bool true)))]
      [.annAssign (.name ['x']) none] none none [] = .error .recursionError) ∧
    (∀ fuel, basicChecks fuel (.name ['c']) [.del [.name ['x']]] [.del [.name ['x']]] none none [] =
      .error .attributeError) := by
  refine ⟨?_, fun _ => rfl⟩
  have key : ∀ (args : List Arg) (n i : Nat) (result : List (List Tok)), args[i]? = some (.node none) →
      refactoredLoop args n i result = .error .recursionError := by
    intro args n
    induction n with
    | zero => intro i result _; rfl
    | succ n ih =>
      intro i result hi
      rw [refactoredLoop, hi]
      exact ih i result hi
  intro fuel
  have hr : refactored fuel [.node (some (.name ['c'])), .bool true, .node none] = .error .recursionError := by
    match fuel with
    | 0 => rfl
    | 1 => rfl
    | n + 2 => exact key _ n 2 _ rfl
  simp only [basicChecks, checkBranches, thenOrelse, mergeable, Stmt.sameClass, Stmt.targets, sameKind, isSubscript, Stmt.value,
    condFrom, boolValue, withText]
  rw [hr]
  rfl

/-! ### Examples and counterexamples -/

section
variable (R : FoldSem Val)

theorem intSem_bool : BoolSem (intSem R).toSem := ⟨fun _ => rfl, fun _ => rfl⟩

def nameA : Expr := .name ['a']
def nameB : Expr := .name ['b']
def nameC : Expr := .name ['c']
def nameD : Expr := .name ['d']
def nameX : Expr := .name ['x']

/-- `if a: return False`, `else: return b or c` becomes `return <negated a> and (b or c)`. -/
example : basicChecks 4 nameA [.ret (some (.const (.bool false)))] [.ret (some (.boolOp true [nameB, nameC]))] none none [] =
    .ok [.ret (negatedText nameA ++ [.sym "and", .sym "(", .ident ['b'], .sym "or", .ident ['c'], .sym ")"]) false] ∧
    Operand nameA ∧ ∀ s ∈ [Stmt.ret (some (.const (.bool false))), .ret (some (.boolOp true [nameB, nameC]))], s.InScope := by
  refine ⟨rfl, ⟨by simp [nameA, Expr.Ok], by simp [nameA]⟩, ?_⟩
  simp [Stmt.InScope, Operand, Expr.Ok, OkAll, nameB, nameC]

/-- `if a: x = True`, `else: x = b` becomes `x = a or b`; `True if a else b` becomes `a or b`. -/
example : basicChecks 4 nameA [.assign [nameX] (.const (.bool true))] [.assign [nameX] nameB] none none [] =
    .ok [.assign nameX [.ident ['a'], .sym "or", .ident ['b']] false] ∧
    checkIfExp 4 nameA (.const (.bool true)) nameB = .ok (some ([.ident ['a'], .sym "or", .ident ['b']], false)) :=
  ⟨rfl, rfl⟩

/-- `if a: if b: return` becomes `if a and b: return`. -/
example : basicChecks 4 nameA [.cond nameB [.ret none] []] [] none none [] =
    .ok [.nested [.ident ['a'], .sym "and", .ident ['b']]] := rfl

/-- `if a: return c` and `if b: return c` become `if a or b: return c`. -/
example : basicChecks 4 nameA [.ret (some nameC)] [] none (some (.cond nameB [.ret (some nameC)] [])) [] =
    .ok [.seq [.ident ['a'], .sym "or", .ident ['b']]] := rfl

/-- `if a: pass` with an `else` becomes `if <negated a>`. -/
example : basicChecks 4 nameA [.pass] [.other "Expr".toList] none none [] = .ok [.pass (negatedText nameA)] := rfl

/-- The conditional expression `b if c else d`. -/
def exIfExp : Expr := .ifExp nameC nameB nameD

/-- **C66** is false of the code. `if a: return True`, `else: return b if c else d` becomes `return a or b if c else d`,
which returns `d` if `c` is false. -/
theorem C66_counterexample {env : Env Val} (ha : env ['a'] = .ok (.bool true)) (hc : env ['c'] = .ok (.bool false))
    (hd : env ['d'] = .ok (.bool false)) :
    ∃ t e' r r', basicChecks 4 nameA [.ret (some (.const (.bool true)))] [.ret (some exIfExp)] none none [] =
        .ok [.ret t false] ∧ ReadsAs 0 t e' ∧
      execIf (intSem R).toSem env nameA [.ret (some (.const (.bool true)))] [.ret (some exIfExp)] none = some r ∧
      exec (intSem R).toSem env (.ret (some e')) = some r' ∧
      observe (intSem R).toSem r = .ok (none, true) ∧ observe (intSem R).toSem r' = .ok (none, false) := by
  have hread : Reads 0 [.ident ['a'], .sym "or", .ident ['b'], .sym "if", .ident ['c'], .sym "else", .ident ['d']]
      (.ifExp nameC (.boolOp true [nameA, nameB]) nameD) :=
    reads_text_at (p := 0) (e := .ifExp nameC (.boolOp true [nameA, nameB]) nameD)
      (by simp [Expr.Ok, OkAll, nameA, nameB, nameC, nameD]) (by decide)
  refine ⟨_, _, .ok (.returned (.bool true)), _, rfl, hread.as, ?_, rfl, ?_, ?_⟩
  · simp [execIf, truthOf, nameA, eval, ha, exec, Except.map]
  · rfl
  · rw [observe_ret]
    simp [truthOf, eval, nameC, nameD, hc, hd, Except.map]

/-- **C66** is false of the code: `if a: x += True`, `else: x += False` becomes `x = a`. -/
theorem C66_augmented_counterexample {env : Env Val} (ha : env ['a'] = .ok (.bool false)) (hx : env ['x'] = .ok (.int 1)) :
    ∃ t e' r r', basicChecks 4 nameA [.augAssign nameX .add (.const (.bool true))] [.augAssign nameX .add (.const (.bool false))]
        none none [] = .ok [.assign nameX t true] ∧ ReadsAs 0 t e' ∧
      execIf (intSem R).toSem env nameA [.augAssign nameX .add (.const (.bool true))]
        [.augAssign nameX .add (.const (.bool false))] none = some r ∧
      exec (intSem R).toSem env (.assign [nameX] e') = some r' ∧
      observe (intSem R).toSem r = .ok (some nameX, true) ∧ observe (intSem R).toSem r' = .ok (some nameX, false) := by
  have hread : Reads 0 [.ident ['a']] nameA := (Reads.name ['a']).mono (Nat.zero_le _)
  refine ⟨_, _, .ok (.assigned nameX (.int 1)), _, rfl, hread.as, ?_, rfl, rfl, ?_⟩
  · have hb : (intSem R).binary .add (.int 1) (.bool false) = .ok (.int 1) := intSem_binary R rfl rfl rfl
    simp [execIf, truthOf, nameA, eval, ha, exec, Except.map, nameX, hx, hb]
  · rw [observe_assign]
    simp [truthOf, eval, nameA, ha, Except.map]

/-- **C68** is false of the code: `if a: if (b if c else d): …` becomes `if a and b if c else d: …`, which executes the body
although `a` is false. -/
theorem C68_counterexample {env : Env Val} (ha : env ['a'] = .ok (.bool false)) (hc : env ['c'] = .ok (.bool false))
    (hd : env ['d'] = .ok (.bool true)) (body2 : List Stmt) :
    ∃ t e', basicChecks 4 nameA [.cond exIfExp body2 []] [] none none [] = .ok [.nested t] ∧ ReadsAs 0 t e' ∧
      truthOf (intSem R).toSem env nameA = .ok false ∧ truthOf (intSem R).toSem env e' = .ok true := by
  have hread : Reads 0 [.ident ['a'], .sym "and", .ident ['b'], .sym "if", .ident ['c'], .sym "else", .ident ['d']]
      (.ifExp nameC (.boolOp false [nameA, nameB]) nameD) :=
    reads_text_at (p := 0) (e := .ifExp nameC (.boolOp false [nameA, nameB]) nameD)
      (by simp [Expr.Ok, OkAll, nameA, nameB, nameC, nameD]) (by decide)
  refine ⟨_, _, rfl, hread.as, ?_, ?_⟩
  · simp [truthOf, nameA, eval, ha]
  · simp [truthOf, nameC, nameD, eval, hc, hd]

end

end Verif.Py.SimpleIf

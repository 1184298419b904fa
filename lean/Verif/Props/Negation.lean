import Verif.Model.Negation
import Verif.Lemmas.PyInt
import Verif.Props.InRange

/-! C32: an `elif` reported as redundant has the opposite condition. -/

namespace Verif.Py

variable (R : FoldSem Val)

/-! ### Hypotheses -/

mutual
/-- No `not` among the operands an expression is compared by. -/
def NoNot : Expr → Prop
  | .unary op _ => op ≠ .not
  | .boolOp _ vs => NoNotAll vs
  | .compare l ops => NoNot l ∧ NoNotOps ops
  | _ => True

def NoNotAll : List Expr → Prop
  | [] => True
  | e :: es => NoNot e ∧ NoNotAll es

def NoNotOps : List (CmpOp × Expr) → Prop
  | [] => True
  | (_, e) :: es => NoNot e ∧ NoNotOps es
end

/-- The truth value of `v op w`. -/
def cmpTruth (op : CmpOp) (v w : Val) : Except PyErr Bool :=
  match (intSem R).cmp op v w with
  | .error x => .error x
  | .ok u => (intSem R).truth u

/-- `>=` and `<`, `==` and `!=`, and so on. -/
inductive Contrary : CmpOp → CmpOp → Prop
  | ge : Contrary .ge .lt
  | lt : Contrary .lt .ge
  | le : Contrary .le .gt
  | gt : Contrary .gt .le
  | eq : Contrary .eq .ne
  | ne : Contrary .ne .eq
  | is : Contrary .is .isNot
  | isNot : Contrary .isNot .is
  | isIn : Contrary .isIn .notIn
  | notIn : Contrary .notIn .isIn

/-- The opposite operator gives the opposite result for the values of `l` and `r`. It does for numbers
other than NaN and for strings; it does not for sets and the operators of ordering. -/
def Opposite (env : Env Val) (l : Expr) (op : CmpOp) (r : Expr) : Prop :=
  ∀ op' v w, Contrary op op' → eval (intSem R).toSem env l = .ok v → eval (intSem R).toSem env r = .ok w →
    cmpTruth R op' v w = (cmpTruth R op v w).map (!·)

/-- If `e` is a remainder of a division by something that equals two, it is `x % 2` of an integer `x` and it is
compared with `0` or `1`. -/
def ParityOf (env : Env Val) (e val : Expr) : Prop :=
  ∀ x c k, e = .bin .mod x c → eval (intSem R).toSem env c = .ok k → cmpTruth R .eq k (.int 2) = .ok true →
    (∃ n : Nat, n ≤ 1 ∧ val = .const (.int n)) ∧ k.asInt = some 2 ∧
      ∀ v, eval (intSem R).toSem env x = .ok v → ∃ i, v.asInt = some i

mutual
/-- Conditions built by `and`, `or` and `not` from comparisons of two operands, and from anything else
that is not a comparison. -/
def Simple (env : Env Val) : Expr → Prop
  | .unary op e => op = .not → Simple env e
  | .boolOp _ vs => SimpleAll env vs
  | .compare l ops => ∃ op r, ops = [(op, r)] ∧ NoNot l ∧ NoNot r ∧ Opposite R env l op r ∧
      ParityOf R env l r ∧ ParityOf R env r l
  | _ => True

def SimpleAll (env : Env Val) : List Expr → Prop
  | [] => True
  | e :: es => Simple env e ∧ SimpleAll env es
end

/-! ### Lemmas -/

variable {R}

theorem noNot_strip {e : Expr} (h : NoNot e) (neg : Bool) : stripNots e neg = (e, neg) := by
  cases e with
  | unary op e => cases op <;> simp_all [stripNots, NoNot]
  | _ => simp [stripNots]

theorem opsMatch_id : ∀ {a b : List (CmpOp × Expr)}, a.length = b.length → opsMatch id a b = true →
    a.map (·.1) = b.map (·.1)
  | [], [], _, _ => rfl
  | (o, _) :: a, (p, _) :: b, hl, h => by
    simp only [opsMatch, List.zip_cons_cons, List.all_cons, Bool.and_eq_true, decide_eq_true_eq, id] at h
    simp only [List.map_cons, h.1]
    rw [opsMatch_id (by simpa using hl) (by simpa [opsMatch] using h.2)]

mutual
theorem same_of_noNot : ∀ (l r : Expr), isNegation R l r true = .ok true → NoNot l → NoNot r → l = r
  | .unary op e, r, h, hl, hr => by
    simp only [NoNot] at hl
    simpa [isNegation, hl, noNot_strip hr] using h
  | .boolOp o vs, r, h, hl, hr => by
    simp only [isNegation, noNot_strip hr] at h
    cases r with
    | boolOp p ws =>
      simp only [NoNot] at hl hr
      by_cases hc : vs.length = ws.length ∧ o = p
      · simp [hc] at h
        rw [hc.2, same_all vs ws h hc.1 hl hr]
      · simp [hc] at h
    | _ => simp at h
  | .compare l ops, r, h, hl, hr => by
    simp only [isNegation, noNot_strip hr] at h
    cases r with
    | compare l' ops' =>
      simp only [NoNot] at hl hr
      by_cases hlen : ops.length = ops'.length
      · simp only [hlen, ne_eq, not_true, if_false, true_and, Bool.not_true, Bool.false_eq_true,
          false_and] at h
        split at h
        · rename_i hm
          cases hx : isNegation R l l' true with
          | error x => simp [hx] at h
          | ok b =>
            cases b with
            | false => simp [hx] at h
            | true =>
              simp only [hx] at h
              rw [same_of_noNot l l' hx hl.1 hr.1, same_ops ops ops' h hlen (opsMatch_id hlen hm) hl.2 hr.2]
        · simp at h
      · simp [hlen] at h
    | _ => simp at h
  | .const v, r, h, _, hr => by simpa [isNegation, noNot_strip hr] using h
  | .name v, r, h, _, hr => by simpa [isNegation, noNot_strip hr] using h
  | .bin _ _ _, r, h, _, hr => by simpa [isNegation, noNot_strip hr] using h
  | .call _ _, r, h, _, hr => by simpa [isNegation, noNot_strip hr] using h
  | .attr _ _, r, h, _, hr => by simpa [isNegation, noNot_strip hr] using h
  | .subscript _ _, r, h, _, hr => by simpa [isNegation, noNot_strip hr] using h
  | .ifExp _ _ _, r, h, _, hr => by simpa [isNegation, noNot_strip hr] using h
  | .other _ _, r, h, _, hr => by simpa [isNegation, noNot_strip hr] using h

theorem same_all : ∀ (vs ws : List Expr), allNegations R vs ws true = .ok true → vs.length = ws.length →
    NoNotAll vs → NoNotAll ws → vs = ws
  | [], [], _, _, _, _ => rfl
  | v :: vs, w :: ws, h, hlen, hl, hr => by
    simp only [NoNotAll] at hl hr
    simp only [allNegations] at h
    cases hx : isNegation R v w true with
    | error x => simp [hx] at h
    | ok b =>
      cases b with
      | false => simp [hx] at h
      | true =>
        simp only [hx] at h
        rw [same_of_noNot v w hx hl.1 hr.1, same_all vs ws h (by simpa using hlen) hl.2 hr.2]

theorem same_ops : ∀ (vs ws : List (CmpOp × Expr)), allNegationsOps R vs ws true = .ok true →
    vs.length = ws.length → vs.map (·.1) = ws.map (·.1) → NoNotOps vs → NoNotOps ws → vs = ws
  | [], [], _, _, _, _, _ => rfl
  | (o, v) :: vs, (p, w) :: ws, h, hlen, ho, hl, hr => by
    simp only [NoNotOps] at hl hr
    simp only [allNegationsOps] at h
    simp only [List.map_cons, List.cons.injEq] at ho
    cases hx : isNegation R v w true with
    | error x => simp [hx] at h
    | ok b =>
      cases b with
      | false => simp [hx] at h
      | true =>
        simp only [hx] at h
        rw [same_of_noNot v w hx hl.1 hr.1, same_ops vs ws h (by simpa using hlen) ho.2 hl.2 hr.2, ho.1]
end

theorem truthOf_not (env : Env Val) (e : Expr) : truthOf (intSem R).toSem env (.unary .not e) =
    (truthOf (intSem R).toSem env e).map (!·) := by
  simp only [truthOf, eval]
  cases eval (intSem R).toSem env e with
  | error x => rfl
  | ok v =>
    simp only [if_true]
    cases (intSem R).truth v with
    | error x => rfl
    | ok b => simp [Except.map]

theorem map_map' {α : Type} (f g : α → α) (x : Except PyErr α) : (x.map f).map g = x.map (g ∘ f) := by
  cases x <;> rfl

theorem map_id' {α : Type} (x : Except PyErr α) : x.map (fun a => a) = x := by cases x <;> rfl

/-- What stripping leaves has the truth value of the whole, or its opposite, as the flag says. -/
theorem strip_spec (env : Env Val) : ∀ (e : Expr) (neg : Bool), Simple R env e →
    Simple R env (stripNots e neg).1 ∧
    (truthOf (intSem R).toSem env e).map (· == neg) =
      (truthOf (intSem R).toSem env (stripNots e neg).1).map (· == (stripNots e neg).2)
  | .unary op e, neg, h => by
    cases op with
    | not =>
      simp only [Simple, forall_const] at h
      have ih := strip_spec env e (!neg) h
      simp only [stripNots]
      refine ⟨ih.1, ?_⟩
      rw [← ih.2, truthOf_not, map_map']
      congr 1
      funext b
      cases b <;> cases neg <;> rfl
    | _ => exact ⟨h, rfl⟩
  | .boolOp o vs, neg, h => ⟨h, rfl⟩
  | .compare l ops, neg, h => ⟨h, rfl⟩
  | .const v, neg, h => ⟨h, rfl⟩
  | .name v, neg, h => ⟨h, rfl⟩
  | .bin _ _ _, neg, h => ⟨h, rfl⟩
  | .call _ _, neg, h => ⟨h, rfl⟩
  | .attr _ _, neg, h => ⟨h, rfl⟩
  | .subscript _ _, neg, h => ⟨h, rfl⟩
  | .ifExp _ _ _, neg, h => ⟨h, rfl⟩
  | .other _ _, neg, h => ⟨h, rfl⟩

/-- The truth value of `and` and `or`. -/
theorem truthOf_boolOp (env : Env Val) (o : Bool) (v w : Expr) (vs : List Expr) :
    truthOf (intSem R).toSem env (.boolOp o (v :: w :: vs)) =
      match truthOf (intSem R).toSem env v with
      | .error x => .error x
      | .ok b => if b = o then .ok b else truthOf (intSem R).toSem env (.boolOp o (w :: vs)) := by
  simp only [truthOf, eval]
  rw [evalBool]
  cases eval (intSem R).toSem env v with
  | error x => rfl
  | ok a =>
    simp only
    cases ha : (intSem R).truth a with
    | error x => rfl
    | ok b =>
      by_cases hb : b = o
      · simp [hb, ha]
      · simp [hb]

theorem truthOf_one (env : Env Val) (o : Bool) (v : Expr) :
    truthOf (intSem R).toSem env (.boolOp o [v]) = truthOf (intSem R).toSem env v := by
  simp only [truthOf, eval]
  rw [evalBool]
  cases eval (intSem R).toSem env v <;> rfl

theorem truthOf_cmp (env : Env Val) (l : Expr) (op : CmpOp) (r : Expr) :
    truthOf (intSem R).toSem env (.compare l [(op, r)]) =
      match eval (intSem R).toSem env l with
      | .error x => .error x
      | .ok v =>
        match eval (intSem R).toSem env r with
        | .error x => .error x
        | .ok w => cmpTruth R op v w := by
  simp only [truthOf, eval, evalCmp, cmpTruth]
  cases eval (intSem R).toSem env l with
  | error x => rfl
  | ok v =>
    simp only
    cases eval (intSem R).toSem env r with
    | error x => rfl
    | ok w =>
      simp only
      cases (intSem R).cmp op v w <;> rfl

/-- Comparing with the opposite operator. -/
theorem contrary_negated (op : CmpOp) : Contrary op op.negated := by cases op <;> constructor

theorem opposite_spec {env : Env Val} {l r : Expr} {op : CmpOp} (h : Opposite R env l op r) :
    truthOf (intSem R).toSem env (.compare l [(op, r)]) =
      (truthOf (intSem R).toSem env (.compare l [(op.negated, r)])).map (!·) := by
  rw [truthOf_cmp, truthOf_cmp]
  cases hl : eval (intSem R).toSem env l with
  | error x => rfl
  | ok v =>
    cases hr : eval (intSem R).toSem env r with
    | error x => rfl
    | ok w =>
      simp only
      rw [h _ v w (contrary_negated op) hl hr, map_map']
      cases cmpTruth R op v w <;> simp [Except.map]

theorem isModTwo_true {e : Expr} (h : isModTwo R e = .ok true) :
    ∃ x c k, e = .bin .mod x c ∧ constValue (intSem R) c = .ok (some k) ∧ cmpTruth R .eq k (.int 2) = .ok true := by
  match e, h with
  | .bin op x c, h =>
    simp only [isModTwo] at h
    by_cases hop : op = .mod
    · subst hop
      simp only [if_true] at h
      cases hc : constValue (intSem R) c with
      | error x => simp [hc] at h
      | ok o =>
        cases o with
        | none => simp [hc] at h
        | some k =>
          simp only [hc] at h
          exact ⟨x, c, k, rfl, hc, h⟩
    · simp [hop] at h

theorem eqModTwo_some {l r : Expr} {op : CmpOp} {m val : Expr} (h : eqModTwo R l [(op, r)] = .ok (some (m, val))) :
    (op = .eq ∨ op = .ne) ∧ isModTwo R m = .ok true ∧ ((m = l ∧ val = r) ∨ (m = r ∧ val = l)) := by
  simp only [eqModTwo] at h
  split at h
  · rename_i hop
    refine ⟨hop, ?_⟩
    cases ha : isModTwo R l with
    | error x => simp [ha] at h
    | ok a =>
      cases hb : isModTwo R r with
      | error x => simp [ha, hb] at h
      | ok b =>
        simp only [ha, hb] at h
        cases a <;> cases b <;> simp at h
        · obtain ⟨rfl, rfl⟩ := h; exact ⟨hb, .inr ⟨rfl, rfl⟩⟩
        · obtain ⟨rfl, rfl⟩ := h; exact ⟨ha, .inl ⟨rfl, rfl⟩⟩
  · simp at h

theorem cmpTruth_int {op : CmpOp} {v w : Val} {a b : Int} {r : Bool}
    (hv : v.asInt = some a) (hw : w.asInt = some b) (hr : intCmp op a b = some r) :
    cmpTruth R op v w = .ok r := by
  simp only [cmpTruth, intSem_cmp R hv hw hr]; rfl

/-- Comparing a remainder modulo two with `0` or `1`, on either side. -/
theorem parity_eval {env : Env Val} {l r m x c : Expr} {op : CmpOp} {n : Nat} (hop : op = .eq ∨ op = .ne)
    (hm : m = .bin .mod x c) (hc : ∃ v, eval (intSem R).toSem env c = .ok v ∧ v.asInt = some 2)
    (hside : (m = l ∧ .const (.int n) = r) ∨ (m = r ∧ .const (.int n) = l)) :
    (∀ y, eval (intSem R).toSem env x = .error y →
      truthOf (intSem R).toSem env (.compare l [(op, r)]) = .error y) ∧
    ∀ v i, eval (intSem R).toSem env x = .ok v → v.asInt = some i →
      truthOf (intSem R).toSem env (.compare l [(op, r)]) =
        .ok (if op = .eq then decide (i.fmod 2 = n) else decide (i.fmod 2 ≠ n)) := by
  obtain ⟨k, hc, hk2⟩ := hc
  have hlit : eval (intSem R).toSem env (.const (.int n)) = .ok (.int n) := by simp [eval]
  refine ⟨fun y hy => ?_, fun v i hv hi => ?_⟩
  · have hm' : eval (intSem R).toSem env m = .error y := by rw [hm, eval, hy]
    rw [truthOf_cmp]
    rcases hside with ⟨rfl, rfl⟩ | ⟨rfl, rfl⟩
    · simp [hm']
    · simp [hlit, hm']
  · have hm' : eval (intSem R).toSem env m = .ok (.int (i.fmod 2)) := by
      rw [hm, eval, hv]
      simp only [hc]
      exact intSem_binary R (op := .mod) hi hk2 (by simp [intBin])
    rw [truthOf_cmp]
    rcases hside with ⟨rfl, rfl⟩ | ⟨rfl, rfl⟩
    · simp only [hm', hlit]
      rcases hop with rfl | rfl
      · simpa using cmpTruth_int (R := R) (op := .eq) (v := .int (i.fmod 2)) (w := .int n) rfl rfl rfl
      · simpa using cmpTruth_int (R := R) (op := .ne) (v := .int (i.fmod 2)) (w := .int n) rfl rfl rfl
    · simp only [hm', hlit]
      rcases hop with rfl | rfl
      · rw [cmpTruth_int (R := R) (op := .eq) (v := .int n) (w := .int (i.fmod 2)) rfl rfl rfl]
        simp [eq_comm]
      · rw [cmpTruth_int (R := R) (op := .ne) (v := .int n) (w := .int (i.fmod 2)) rfl rfl rfl]
        simp [eq_comm]

theorem negated_ne_self (op : CmpOp) : op.negated ≠ op := by cases op <;> decide

/-- Comparisons taken for negations because they are about parity. -/
theorem modTwo_spec {env : Env Val} {l r l' r' : Expr} {op op' : CmpOp}
    (h : modTwoNegation R l [(op, r)] l' [(op', r')] = .ok true) (hne : op.negated ≠ op')
    (h1 : ParityOf R env l r) (h2 : ParityOf R env r l) (h1' : ParityOf R env l' r') (h2' : ParityOf R env r' l') :
    truthOf (intSem R).toSem env (.compare l [(op, r)]) =
      (truthOf (intSem R).toSem env (.compare l' [(op', r')])).map (!·) := by
  unfold modTwoNegation at h
  cases ha : eqModTwo R l [(op, r)] with
  | error x => simp [ha] at h
  | ok o =>
    cases o with
    | none => simp [ha] at h
    | some p =>
      obtain ⟨m, val⟩ := p
      cases hb : eqModTwo R l' [(op', r')] with
      | error x => simp [ha, hb] at h
      | ok o =>
        cases o with
        | none => simp [ha, hb] at h
        | some p =>
          obtain ⟨m', val'⟩ := p
          simp only [ha, hb, Except.ok.injEq, Bool.and_eq_true, decide_eq_true_eq] at h
          obtain ⟨hop, hm, hs⟩ := eqModTwo_some ha
          obtain ⟨hop', hm', hs'⟩ := eqModTwo_some hb
          have hp : ParityOf R env m val := by rcases hs with ⟨rfl, rfl⟩ | ⟨rfl, rfl⟩ <;> assumption
          have hp' : ParityOf R env m' val' := by rcases hs' with ⟨rfl, rfl⟩ | ⟨rfl, rfl⟩ <;> assumption
          obtain ⟨x, c, k, hmx, hk, hk2⟩ := isModTwo_true hm
          obtain ⟨x', c', k', hmx', hk', hk2'⟩ := isModTwo_true hm'
          have hck := C33_value (intSem R) env c k hk
          have hck' := C33_value (intSem R) env c' k' hk'
          obtain ⟨⟨n, hn, rfl⟩, hc, hx⟩ := hp x c k hmx hck hk2
          obtain ⟨⟨n', hn', rfl⟩, hc', _⟩ := hp' x' c' k' hmx' hck' hk2'
          have hc := Exists.intro (p := fun v => eval (intSem R).toSem env c = .ok v ∧ v.asInt = some 2) k ⟨hck, hc⟩
          have hc' := Exists.intro (p := fun v => eval (intSem R).toSem env c' = .ok v ∧ v.asInt = some 2) k' ⟨hck', hc'⟩
          have hxx : x = x' := by simpa [hmx, hmx', dividend] using h.1
          subst hxx
          have hnn : n ≠ n' := by simpa using h.2
          have hoo : op = op' := by
            rcases hop with rfl | rfl <;> rcases hop' with rfl | rfl <;> first | rfl | exact absurd rfl hne
          subst hoo
          have e1 := parity_eval (env := env) hop hmx hc hs
          have e2 := parity_eval (env := env) hop' hmx' hc' hs'
          cases hv : eval (intSem R).toSem env x with
          | error y => rw [e1.1 y hv, e2.1 y hv]; rfl
          | ok v =>
            obtain ⟨i, hi⟩ := hx v hv
            rw [e1.2 v i hv hi, e2.2 v i hv hi]
            rw [Int.fmod_eq_emod_of_nonneg i (b := 2) (by decide)]
            rcases hop with rfl | rfl
            · simp only [if_true, Except.map]
              congr 1
              rw [Bool.eq_iff_iff]
              simp
              omega
            · simp only [Except.map]
              congr 1
              rw [Bool.eq_iff_iff]
              simp
              omega

mutual
theorem isNegation_spec (env : Env Val) : ∀ (lt rt : Expr) (neg : Bool), isNegation R lt rt neg = .ok true →
    Simple R env lt → Simple R env rt →
    truthOf (intSem R).toSem env lt = (truthOf (intSem R).toSem env rt).map (· == neg)
  | .unary op e, rt, neg, h, hl, hr => by
    by_cases ho : op = .not
    · subst ho
      simp only [isNegation, if_true] at h
      simp only [Simple, forall_const] at hl
      rw [truthOf_not, isNegation_spec env e rt (!neg) h hl hr, map_map']
      congr 1
      funext b
      cases b <;> cases neg <;> rfl
    · simp only [isNegation, ho, if_false, Except.ok.injEq, Bool.and_eq_true, decide_eq_true_eq] at h
      rw [(strip_spec env rt neg hr).2, h.1, ← h.2]
      simp [map_id']
  | .boolOp o vs, rt, neg, h, hl, hr => by
    obtain ⟨hr', hrt⟩ := strip_spec env rt neg hr
    simp only [isNegation] at h
    rw [hrt]
    generalize stripNots rt neg = p at h hr'
    obtain ⟨rt', neg'⟩ := p
    cases rt' with
    | boolOp p ws =>
      simp only at h hr' ⊢
      split at h
      · rename_i hc
        simp only [Simple] at hl hr'
        have hop : p = (o == neg') := by
          cases neg' <;> cases o <;> cases p <;> simp_all
        subst hop
        exact allNegations_spec env o neg' vs ws h hc.1 hl hr'
      · simp at h
    | _ => simp at h
  | .compare l ops, rt, neg, h, hl, hr => by
    obtain ⟨hr', hrt⟩ := strip_spec env rt neg hr
    simp only [isNegation] at h
    rw [hrt]
    generalize stripNots rt neg = p at h hr'
    obtain ⟨rt', neg'⟩ := p
    cases rt' with
    | compare l' ops' =>
      simp only [Simple] at hl hr'
      obtain ⟨op, r, rfl, hnl, hnr, hopp, hp1, hp2⟩ := hl
      obtain ⟨op', r', rfl, hnl', hnr', hopp', hp1', hp2'⟩ := hr'
      simp only [List.length_cons, List.length_nil, ne_eq, not_true, if_false, opsMatch, List.zip_cons_cons,
        List.zip_nil_right, List.all_cons, List.all_nil, Bool.and_true, decide_eq_true_eq, id,
        allNegationsOps] at h
      cases neg' with
      | true =>
        simp only [true_and, Bool.not_true, Bool.false_eq_true, false_and, if_false] at h
        split at h
        · rename_i ho
          cases h1 : isNegation R l l' true with
          | error x => simp [h1] at h
          | ok b =>
            cases b with
            | false => simp [h1] at h
            | true =>
              cases h2 : isNegation R r r' true with
              | error x => simp [h1, h2] at h
              | ok b =>
                cases b with
                | false => simp [h1, h2] at h
                | true =>
                  rw [same_of_noNot l l' h1 hnl hnl', same_of_noNot r r' h2 hnr hnr', ho]
                  simp [map_id']
        · simp at h
      | false =>
        simp only [Bool.false_eq_true, false_and, if_false, Bool.not_false, true_and, if_true] at h
        have hbeq : ((· == false) : Bool → Bool) = (!·) := by funext b; cases b <;> rfl
        simp only [hbeq]
        split at h
        · rename_i ho
          cases h1 : isNegation R l l' true with
          | error x => simp [h1] at h
          | ok b =>
            cases b with
            | false => simp [h1] at h
            | true =>
              cases h2 : isNegation R r r' true with
              | error x => simp [h1, h2] at h
              | ok b =>
                cases b with
                | false => simp [h1, h2] at h
                | true =>
                  rw [← same_of_noNot l l' h1 hnl hnl', ← same_of_noNot r r' h2 hnr hnr', ← ho]
                  exact opposite_spec hopp
        · rename_i ho
          exact modTwo_spec h ho hp1 hp2 hp1' hp2'
    | _ => simp at h
  | .const v, rt, neg, h, hl, hr => by
    simp only [isNegation, Except.ok.injEq, Bool.and_eq_true, decide_eq_true_eq] at h
    rw [(strip_spec env rt neg hr).2, h.1, ← h.2]
    simp [map_id']
  | .name v, rt, neg, h, hl, hr => by
    simp only [isNegation, Except.ok.injEq, Bool.and_eq_true, decide_eq_true_eq] at h
    rw [(strip_spec env rt neg hr).2, h.1, ← h.2]
    simp [map_id']
  | .bin _ _ _, rt, neg, h, hl, hr => by
    simp only [isNegation, Except.ok.injEq, Bool.and_eq_true, decide_eq_true_eq] at h
    rw [(strip_spec env rt neg hr).2, h.1, ← h.2]
    simp [map_id']
  | .call _ _, rt, neg, h, hl, hr => by
    simp only [isNegation, Except.ok.injEq, Bool.and_eq_true, decide_eq_true_eq] at h
    rw [(strip_spec env rt neg hr).2, h.1, ← h.2]
    simp [map_id']
  | .attr _ _, rt, neg, h, hl, hr => by
    simp only [isNegation, Except.ok.injEq, Bool.and_eq_true, decide_eq_true_eq] at h
    rw [(strip_spec env rt neg hr).2, h.1, ← h.2]
    simp [map_id']
  | .subscript _ _, rt, neg, h, hl, hr => by
    simp only [isNegation, Except.ok.injEq, Bool.and_eq_true, decide_eq_true_eq] at h
    rw [(strip_spec env rt neg hr).2, h.1, ← h.2]
    simp [map_id']
  | .ifExp _ _ _, rt, neg, h, hl, hr => by
    simp only [isNegation, Except.ok.injEq, Bool.and_eq_true, decide_eq_true_eq] at h
    rw [(strip_spec env rt neg hr).2, h.1, ← h.2]
    simp [map_id']
  | .other _ _, rt, neg, h, hl, hr => by
    simp only [isNegation, Except.ok.injEq, Bool.and_eq_true, decide_eq_true_eq] at h
    rw [(strip_spec env rt neg hr).2, h.1, ← h.2]
    simp [map_id']

theorem allNegations_spec (env : Env Val) (o neg : Bool) : ∀ (vs ws : List Expr),
    allNegations R vs ws neg = .ok true → vs.length = ws.length → SimpleAll R env vs → SimpleAll R env ws →
    truthOf (intSem R).toSem env (.boolOp o vs) =
      (truthOf (intSem R).toSem env (.boolOp (o == neg) ws)).map (· == neg)
  | [], [], _, _, _, _ => rfl
  | v :: vs, w :: ws, h, hlen, hl, hr => by
    simp only [SimpleAll] at hl hr
    simp only [allNegations] at h
    cases hx : isNegation R v w neg with
    | error x => simp [hx] at h
    | ok b =>
      cases b with
      | false => simp [hx] at h
      | true =>
        simp only [hx] at h
        have hv := isNegation_spec env v w neg hx hl.1 hr.1
        have ih := allNegations_spec env o neg vs ws h (by simpa using hlen) hl.2 hr.2
        cases vs with
        | nil =>
          cases ws with
          | nil => rw [truthOf_one, truthOf_one, hv]
          | cons _ _ => simp at hlen
        | cons v' vs =>
          cases ws with
          | nil => simp at hlen
          | cons w' ws =>
            rw [truthOf_boolOp, truthOf_boolOp, hv, ih]
            cases truthOf (intSem R).toSem env w with
            | error x => rfl
            | ok b => cases b <;> cases neg <;> cases o <;> rfl
end

/-! ### The property -/

/-- Integers are compared in the opposite way by the opposite operator. -/
theorem opposite_of_int {env : Env Val} {l r : Expr} {op : CmpOp}
    (hop : op ∈ [CmpOp.lt, .le, .eq, .ne, .ge, .gt])
    (hl : ∀ v, eval (intSem R).toSem env l = .ok v → ∃ i, v.asInt = some i)
    (hr : ∀ v, eval (intSem R).toSem env r = .ok v → ∃ i, v.asInt = some i) : Opposite R env l op r := by
  intro op' v w hop' hv hw
  obtain ⟨i, hi⟩ := hl v hv
  obtain ⟨j, hj⟩ := hr w hw
  simp only [List.mem_cons, List.not_mem_nil, or_false] at hop
  rcases hop with rfl | rfl | rfl | rfl | rfl | rfl <;> cases hop' <;>
  · rw [cmpTruth_int hi hj rfl, cmpTruth_int hi hj rfl]
    simp only [Except.map, Except.ok.injEq]
    rw [Bool.eq_iff_iff]
    simp <;> omega

/-- C32 (partial). If an `elif` is reported as redundant, or its `else` as unreachable, then its
condition has the opposite truth value of the condition of the `if` (and raises where that raises),
for conditions that are `Simple`: comparisons have one operator and operands without `not`, the opposite
operator gives the opposite result for the values that are compared, and what is compared with a
remainder modulo two is `0` or `1`.

Missing: the conditions that are not `Simple`, for which the property is false; see
`C32_counterexample`. -/
theorem C32_partial {env : Env Val} {test test' : Expr} {hasElse redundant unreachable : Bool}
    (h : redundantElif R test (some (test', hasElse)) = .ok (redundant, unreachable))
    (hreported : redundant = true ∨ unreachable = true)
    (ht : Simple R env test) (ht' : Simple R env test') :
    truthOf (intSem R).toSem env test' = (truthOf (intSem R).toSem env test).map (!·) := by
  simp only [redundantElif] at h
  cases hx : isNegation R test test' false with
  | error x => simp [hx] at h
  | ok b =>
    simp only [hx, Except.ok.injEq, Prod.mk.injEq] at h
    have hb : b = true := by
      rcases hreported with hr | hr
      · rw [h.1, hr]
      · rw [← h.2, Bool.and_eq_true] at hr; exact hr.1
    subst hb
    rw [isNegation_spec env test test' false hx ht ht', map_map']
    cases truthOf (intSem R).toSem env test' with
    | error x => rfl
    | ok b => cases b <;> rfl

/-- Where conditions are about integers nothing has to be assumed of the values: the condition of a
reported `elif` is the opposite. -/
theorem C32_integers_partial {env : Env Val} {l r : Expr} {op : CmpOp} {test' : Expr} {hasElse unreachable : Bool}
    (h : redundantElif R (.compare l [(op, r)]) (some (test', hasElse)) = .ok (true, unreachable))
    (hl : ∃ x, l = .name x ∧ ∃ i, EvalInt R env l i) (hr : ∃ n : Nat, r = .const (.int n))
    (hop : op ∈ [CmpOp.lt, .le, .eq, .ne, .ge, .gt]) (ht' : Simple R env test') :
    truthOf (intSem R).toSem env test' = (truthOf (intSem R).toSem env (.compare l [(op, r)])).map (!·) := by
  obtain ⟨x, rfl, i, v, hv, hi⟩ := hl
  obtain ⟨n, rfl⟩ := hr
  refine C32_partial h (.inl rfl) ?_ ht'
  refine ⟨op, _, rfl, trivial, trivial, opposite_of_int hop ?_ ?_, ?_, ?_⟩
  · intro w hw; rw [hv] at hw; cases hw; exact ⟨i, hi⟩
  · intro w hw; rw [eval, intSem_lit_int] at hw; cases hw; exact ⟨n, rfl⟩
  · intro _ _ _ hm; cases hm
  · intro _ _ _ hm; cases hm

/-- An `else` is reported as unreachable only where there is one and the `elif` is reported. -/
theorem C32_else {test test' : Expr} {hasElse redundant : Bool}
    (h : redundantElif R test (some (test', hasElse)) = .ok (redundant, true)) :
    redundant = true ∧ hasElse = true := by
  simp only [redundantElif] at h
  cases hx : isNegation R test test' false with
  | error x => simp [hx] at h
  | ok b =>
    simp only [hx, Except.ok.injEq, Prod.mk.injEq, Bool.and_eq_true] at h
    exact ⟨h.1.symm.trans h.2.1, h.2.2⟩

/-- Nothing is reported where the `else` branch is not an `elif`. -/
theorem C32_no_elif (test : Expr) : redundantElif R test none = .ok (false, false) := rfl

/-- `if x % 2 == 0 and y: … elif x % 2 == 1 or not y: … else: …`. -/
example (env : Env Val) (hx : env ['x'] = .ok (.int 3)) :
    redundantElif R
      (.boolOp false [.compare (.bin .mod (.name ['x']) (.const (.int 2))) [(.eq, .const (.int 0))], .name ['y']])
      (some (.boolOp true [.compare (.bin .mod (.name ['x']) (.const (.int 2))) [(.eq, .const (.int 1))],
        .unary .not (.name ['y'])], true)) = .ok (true, true) ∧
    Simple R env
      (.boolOp false [.compare (.bin .mod (.name ['x']) (.const (.int 2))) [(.eq, .const (.int 0))], .name ['y']])
      := by
  refine ⟨rfl, ?_⟩
  have he : eval (intSem R).toSem env (.bin .mod (.name ['x']) (.const (.int 2))) = .ok (.int 1) := by
    rw [eval, eval, eval, hx]; rfl
  refine ⟨⟨.eq, _, rfl, trivial, trivial, opposite_of_int (by decide) ?_ ?_, ?_, ?_⟩, trivial, trivial⟩
  · intro v hv; rw [he] at hv; cases hv; exact ⟨1, rfl⟩
  · intro v hv; rw [eval, intSem_lit_int] at hv; cases hv; exact ⟨_, rfl⟩
  · intro x c k hm hk _
    cases hm
    rw [eval, intSem_lit_int] at hk
    cases hk
    refine ⟨⟨0, by decide, rfl⟩, rfl, ?_⟩
    intro v hv; rw [eval, hx] at hv; cases hv; exact ⟨3, rfl⟩
  · intro _ _ _ hm; cases hm

/-- C32 is false in general. Each of these `elif`s is reported as redundant although there are values
for which neither condition holds:
`if a < b < c: … elif a >= b >= c: …`,
`if a % 2 == 0: … elif a % 2 == 2: …`,
`if (not not a) == b: … elif a != b: …`. -/
theorem C32_counterexample :
    (∀ R : FoldSem Val, ∀ env : Env Val, env ['a'] = .ok (.int 0) → env ['b'] = .ok (.int 1) →
      env ['c'] = .ok (.int 0) →
      redundantElif R (.compare (.name ['a']) [(.lt, .name ['b']), (.lt, .name ['c'])])
        (some (.compare (.name ['a']) [(.ge, .name ['b']), (.ge, .name ['c'])], true)) = .ok (true, true) ∧
      truthOf (intSem R).toSem env (.compare (.name ['a']) [(.lt, .name ['b']), (.lt, .name ['c'])]) = .ok false ∧
      truthOf (intSem R).toSem env (.compare (.name ['a']) [(.ge, .name ['b']), (.ge, .name ['c'])]) = .ok false) ∧
    (∀ R : FoldSem Val, ∀ env : Env Val, env ['a'] = .ok (.int 1) →
      redundantElif R (.compare (.bin .mod (.name ['a']) (.const (.int 2))) [(.eq, .const (.int 0))])
        (some (.compare (.bin .mod (.name ['a']) (.const (.int 2))) [(.eq, .const (.int 2))], true)) =
          .ok (true, true) ∧
      truthOf (intSem R).toSem env (.compare (.bin .mod (.name ['a']) (.const (.int 2))) [(.eq, .const (.int 0))]) =
        .ok false ∧
      truthOf (intSem R).toSem env (.compare (.bin .mod (.name ['a']) (.const (.int 2))) [(.eq, .const (.int 2))]) =
        .ok false) ∧
    (∀ R : FoldSem Val, ∀ env : Env Val, env ['a'] = .ok (.int 2) → env ['b'] = .ok (.int 2) →
      redundantElif R (.compare (.unary .not (.unary .not (.name ['a']))) [(.eq, .name ['b'])])
        (some (.compare (.name ['a']) [(.ne, .name ['b'])], true)) = .ok (true, true) ∧
      truthOf (intSem R).toSem env (.compare (.unary .not (.unary .not (.name ['a']))) [(.eq, .name ['b'])]) =
        .ok false ∧
      truthOf (intSem R).toSem env (.compare (.name ['a']) [(.ne, .name ['b'])]) = .ok false) := by
  refine ⟨fun R env ha hb hc => ⟨rfl, ?_, ?_⟩, fun R env ha => ⟨rfl, ?_, ?_⟩, fun R env ha hb => ⟨rfl, ?_, ?_⟩⟩
  · simp only [truthOf, eval, evalCmp, ha, hb, hc]; rfl
  · simp only [truthOf, eval, evalCmp, ha, hb, hc]; rfl
  · simp only [truthOf, eval, evalCmp, ha]; rfl
  · simp only [truthOf, eval, evalCmp, ha]; rfl
  · simp only [truthOf, eval, evalCmp, ha, hb]; rfl
  · simp only [truthOf, eval, evalCmp, ha, hb]; rfl

end Verif.Py

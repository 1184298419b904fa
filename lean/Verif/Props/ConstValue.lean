import Verif.Model.PyInt
import Verif.Lemmas.PyInt

/-! C33: constant folding agrees with Python. -/

namespace Verif.Py

section
variable {V : Type} (S : FoldSem V) (env : Env V)

theorem foldReduce_decided {isOr : Bool} {a v : V} (ht : S.truth a = .ok isOr) :
    ∀ es : List Expr, foldReduce S isOr a es = .ok v → v = a
  | [], h => by
    rw [foldReduce] at h
    cases h; rfl
  | e :: es, h => by
    rw [foldReduce] at h
    cases he : foldRec S e with
    | error x => rw [he] at h; cases h
    | ok b =>
      rw [he] at h
      simp only [foldBool, ht] at h
      exact foldReduce_decided ht es h

mutual
theorem foldRec_eval : ∀ (e : Expr) (v : V), foldRec S e = .ok v → eval S.toSem env e = .ok v
  | .const l, v, h => by
    rw [foldRec] at h; rw [eval]; exact h
  | .name x, v, h => by simp [foldRec] at h
  | .unary op e, v, h => by
    rw [foldRec] at h
    cases he : foldRec S e with
    | error x => simp [he] at h
    | ok a =>
      rw [he] at h
      have ih := foldRec_eval e a he
      rw [eval, ih]
      cases hn : S.isNumber a with
      | false => simp [hn] at h
      | true =>
        simp only [hn, if_true, foldUn] at h
        exact h
  | .bin op l r, v, h => by
    rw [foldRec] at h
    cases hr : foldRec S r with
    | error x => simp [hr] at h
    | ok b =>
      simp only [hr] at h
      have ihr := foldRec_eval r b hr
      cases hl : foldRec S l with
      | error x =>
        simp only [hl] at h
        split at h
        · split at h <;> cases h
        · cases h
      | ok a =>
        simp only [hl] at h
        have ihl := foldRec_eval l a hl
        have hb : foldBin S op a b = .ok v := by
          split at h
          · split at h
            · cases h
            · cases h
            · exact h
          · exact h
        rw [eval, ihl, ihr]
        unfold foldBin at hb
        split at hb
        · cases hb
        · exact hb
  | .boolOp isOr vs, v, h => by
    match vs, h with
    | [], h => simp [foldRec] at h
    | [e], h =>
      rw [foldRec] at h
      cases he : foldRec S e with
      | error x => simp [he] at h
      | ok a => simp [he] at h
    | e :: f :: es, h =>
      rw [foldRec] at h
      cases he : foldRec S e with
      | error x => simp [he] at h
      | ok a =>
        simp only [he] at h
        rw [eval]
        exact foldReduce_eval isOr (f :: es) e a v (foldRec_eval e a he) (by simp) h
  | .compare l ops, v, h => by
    match ops, h with
    | [], h => simp [foldRec] at h
    | [(op, r)], h =>
      rw [foldRec] at h
      cases hl : foldRec S l with
      | error x => simp [hl] at h
      | ok a =>
        cases hr : foldRec S r with
        | error x => simp [hl, hr] at h
        | ok b =>
          simp only [hl, hr] at h
          rw [eval, foldRec_eval l a hl]
          simp only []
          rw [evalCmp, foldRec_eval r b hr]
          unfold foldCmp at h
          split at h
          · cases h
          · simp [h]
    | p :: q :: rest, h => simp [foldRec] at h
  | .call f as, v, h => by simp [foldRec] at h
  | .attr e a, v, h => by simp [foldRec] at h
  | .subscript e i, v, h => by simp [foldRec] at h
  | .ifExp c a b, v, h => by simp [foldRec] at h
  | .other t es, v, h => by simp [foldRec] at h

theorem foldReduce_eval (isOr : Bool) : ∀ (es : List Expr) (e : Expr) (a v : V),
    eval S.toSem env e = .ok a → es ≠ [] → foldReduce S isOr a es = .ok v →
      evalBool S.toSem env isOr (e :: es) = .ok v
  | [], e, a, v, _, hne, _ => absurd rfl hne
  | f :: es, e, a, v, ha, _, h => by
    rw [foldReduce] at h
    cases hf : foldRec S f with
    | error x => simp [hf] at h
    | ok b =>
      simp only [hf] at h
      have ihf := foldRec_eval f b hf
      rw [evalBool, ha]
      simp only []
      unfold foldBool at h
      cases ht : S.truth a with
      | error x => simp [ht] at h
      | ok t =>
        simp only [ht] at h ⊢
        by_cases hto : t = isOr
        · simp only [hto, if_true] at h ⊢
          rw [foldReduce_decided S (by rw [ht, hto]) es h]
        · simp only [hto, if_false] at h ⊢
          match es, h with
          | [], h =>
            rw [foldReduce] at h
            rw [evalBool, ihf]
            exact h
          | g :: es, h => exact foldReduce_eval isOr (g :: es) f b v ihf (by simp) h
end

/-- **C33**, first part. Whenever a constant is computed for an expression, the expression evaluates to
it in Python, whatever the values of variables are and whatever the operators do. -/
theorem C33_value (e : Expr) (v : V) (h : constValue S e = .ok (some v)) :
    eval S.toSem env e = .ok v := by
  refine foldRec_eval S env e v ?_
  unfold constValue at h
  cases he : foldRec S e with
  | ok w => simp only [he] at h; cases h; rfl
  | error x => cases x <;> simp [he] at h

/-- The exceptions that stop the tool: those `get_const_value` does not catch. -/
def Uncaught (x : PyErr) : Prop :=
  x ≠ .valueError ∧ x ≠ .keyError ∧ x ≠ .typeError ∧ x ≠ .unicodeError

/-- Some operation of Python other than a division by zero raises `x`. -/
def Raises (x : PyErr) : Prop :=
  (∃ op a, S.unary op a = .error x) ∨
  (∃ op a b, S.binary op a b = .error x ∧
    (op = .div ∨ op = .floordiv ∨ op = .mod → S.isZero b = .ok false)) ∨
  (∃ op a b, S.cmp op a b = .error x) ∨ (∃ a, S.truth a = .error x) ∨ (∃ a, S.isZero a = .error x)

mutual
theorem foldRec_error : ∀ (e : Expr) (x : PyErr), e.Ok → Uncaught x → foldRec S e = .error x → Raises S x
  | .const l, x, _, _, h => by simp [foldRec] at h
  | .name y, x, _, hu, h => by simp [foldRec] at h; exact absurd h.symm hu.1
  | .unary op e, x, hok, hu, h => by
    rw [foldRec] at h
    cases he : foldRec S e with
    | error y =>
      simp only [he] at h
      cases h
      exact foldRec_error e _ (by simpa [Expr.Ok] using hok) hu he
    | ok a =>
      simp only [he] at h
      split at h
      · unfold foldUn at h
        split at h
        · cases ht : S.truth a with
          | error y => simp only [ht] at h; cases h; exact .inr (.inr (.inr (.inl ⟨a, ht⟩)))
          | ok t => simp [ht] at h
        · exact .inl ⟨op, a, h⟩
      · cases h; exact absurd rfl hu.1
  | .bin op l r, x, hok, hu, h => by
    obtain ⟨hlok, hrok⟩ : l.Ok ∧ r.Ok := by simpa [Expr.Ok] using hok
    rw [foldRec] at h
    cases hr : foldRec S r with
    | error y => simp only [hr] at h; cases h; exact foldRec_error r _ hrok hu hr
    | ok b =>
      simp only [hr] at h
      have hfin : (op = .div ∨ op = .floordiv ∨ op = .mod → S.isZero b = .ok false) →
          (match foldRec S l with
          | .error x => (.error x : Except PyErr V)
          | .ok a => foldBin S op a b) = .error x → Raises S x := by
        intro hz h
        cases hl : foldRec S l with
        | error y => simp only [hl] at h; cases h; exact foldRec_error l _ hlok hu hl
        | ok a =>
          simp only [hl] at h
          unfold foldBin at h
          split at h
          · cases h; exact absurd rfl hu.2.1
          · exact .inr (.inl ⟨op, a, b, h, hz⟩)
      split at h
      · cases hz : S.isZero b with
        | error y => simp only [hz] at h; cases h; exact .inr (.inr (.inr (.inr ⟨b, hz⟩)))
        | ok t =>
          cases t with
          | true => simp only [hz] at h; cases h; exact absurd rfl hu.1
          | false => simp only [hz] at h; exact hfin (fun _ => hz) h
      · rename_i hop; exact hfin (fun h => absurd h hop) h
  | .boolOp isOr vs, x, hok, hu, h => by
    obtain ⟨hlen, hall⟩ : 2 ≤ vs.length ∧ OkAll vs := by simpa [Expr.Ok] using hok
    match vs, hlen, hall, h with
    | e :: f :: es, _, hall, h =>
      obtain ⟨he', hes⟩ : e.Ok ∧ OkAll (f :: es) := by simpa [OkAll] using hall
      rw [foldRec] at h
      cases he : foldRec S e with
      | error y => simp only [he] at h; cases h; exact foldRec_error e _ he' hu he
      | ok a =>
        simp only [he] at h
        exact foldReduce_error isOr (f :: es) a x hes hu h
  | .compare l ops, x, hok, hu, h => by
    obtain ⟨_, hl', hops⟩ : 1 ≤ ops.length ∧ l.Ok ∧ OkOps ops := by simpa [Expr.Ok] using hok
    match ops, hops, h with
    | [], _, h => simp [foldRec] at h; exact absurd h.symm hu.1
    | [(op, r)], hops, h =>
      have hr' : r.Ok := by simpa [OkOps] using hops
      rw [foldRec] at h
      cases hl : foldRec S l with
      | error y => simp only [hl] at h; cases h; exact foldRec_error l _ hl' hu hl
      | ok a =>
        cases hr : foldRec S r with
        | error y => simp only [hl, hr] at h; cases h; exact foldRec_error r _ hr' hu hr
        | ok b =>
          simp only [hl, hr] at h
          unfold foldCmp at h
          split at h
          · cases h; exact absurd rfl hu.2.1
          · exact .inr (.inr (.inl ⟨op, a, b, h⟩))
    | p :: q :: rest, _, h => simp [foldRec] at h; exact absurd h.symm hu.1
  | .call f as, x, _, hu, h => by simp [foldRec] at h; exact absurd h.symm hu.1
  | .attr e a, x, _, hu, h => by simp [foldRec] at h; exact absurd h.symm hu.1
  | .subscript e i, x, _, hu, h => by simp [foldRec] at h; exact absurd h.symm hu.1
  | .ifExp c a b, x, _, hu, h => by simp [foldRec] at h; exact absurd h.symm hu.1
  | .other t es, x, _, hu, h => by simp [foldRec] at h; exact absurd h.symm hu.1

theorem foldReduce_error (isOr : Bool) : ∀ (es : List Expr) (a : V) (x : PyErr), OkAll es → Uncaught x →
    foldReduce S isOr a es = .error x → Raises S x
  | [], a, x, _, _, h => by simp [foldReduce] at h
  | e :: es, a, x, hok, hu, h => by
    obtain ⟨he', hes⟩ : e.Ok ∧ OkAll es := by simpa [OkAll] using hok
    rw [foldReduce] at h
    cases he : foldRec S e with
    | error y => simp only [he] at h; cases h; exact foldRec_error e _ he' hu he
    | ok b =>
      simp only [he] at h
      cases hb : foldBool S isOr a b with
      | error y =>
        simp only [hb] at h
        cases h
        unfold foldBool at hb
        cases ht : S.truth a with
        | error y => simp only [ht] at hb; cases hb; exact .inr (.inr (.inr (.inl ⟨a, ht⟩)))
        | ok t => simp only [ht] at hb; split at hb <;> cases hb
      | ok c =>
        simp only [hb] at h
        exact foldReduce_error isOr es c x hes hu h
end

/-- **C33**, second part, partial. Computing a constant ends without an exception, provided that the
operators of Python themselves, other than divisions by zero, raise only the exceptions that are caught
(`ValueError`, `KeyError`, `TypeError`). Missing: operators that raise others (`C33_counterexample`). -/
theorem C33_no_exception_partial (hR : ∀ x, Raises S x → ¬ Uncaught x) (e : Expr) (hok : e.Ok) :
    ∃ r, constValue S e = .ok r := by
  unfold constValue
  cases he : foldRec S e with
  | ok v => exact ⟨_, rfl⟩
  | error x =>
    by_cases hu : Uncaught x
    · exact absurd hu (hR x (foldRec_error S e x hok hu he))
    · cases x <;> first | exact ⟨_, rfl⟩ | exact absurd (by simp [Uncaught]) hu

end

/-- The hypothesis is met, for example by operators that raise `TypeError` only. -/
example (e : Expr) (h : e.Ok) :
    let S : FoldSem Unit :=
      { lit := fun _ => (), ofBool := fun _ => (), truth := fun _ => .ok true,
        unary := fun _ _ => .error .typeError, binary := fun _ _ _ => .error .typeError,
        cmp := fun _ _ _ => .ok (), call := fun _ _ => .ok (), attr := fun _ _ => .ok (),
        item := fun _ _ => .ok (), other := fun _ _ => .ok (), isNumber := fun _ => true,
        isZero := fun _ => .ok false }
    ∃ r, constValue S e = .ok r := by
  refine C33_no_exception_partial _ ?_ e h
  rintro x (⟨_, _, h⟩ | ⟨_, _, _, h, _⟩ | ⟨_, _, _, h⟩ | ⟨_, h⟩ | ⟨_, h⟩) hu
  · cases h; exact hu.2.2.1 rfl
  · cases h; exact hu.2.2.1 rfl
  · cases h
  · cases h
  · cases h

/-- Integer arithmetic without powers and bit operations, and single comparisons of integers. -/
def IntArith : Expr → Prop
  | .const (.int _) => True
  | .const (.bool _) => True
  | .unary _ e => IntArith e
  | .bin op l r => op ∈ [BinOp.add, .sub, .mul, .floordiv, .mod] ∧ IntArith l ∧ IntArith r
  | .compare l [(op, r)] => op ∈ [CmpOp.lt, .le, .eq, .ne, .ge, .gt] ∧ IntArith l ∧ IntArith r
  | _ => False

theorem intArith_fold (R : FoldSem Val) (env : Env Val) : ∀ e : Expr, IntArith e →
    (∃ v, foldRec (intSem R) e = .ok v ∧ v.asInt.isSome ∧ eval (intSem R).toSem env e = .ok v) ∨
    (foldRec (intSem R) e = .error .valueError ∧
      eval (intSem R).toSem env e = .error .zeroDivisionError) := by
  intro e
  induction e using IntArith.induct with
  | case1 n => intro _; exact .inl ⟨.int n, by simp [foldRec], rfl, by simp [eval]⟩
  | case2 b => intro _; exact .inl ⟨.bool b, by simp [foldRec], rfl, by simp [eval]⟩
  | case3 op e ih =>
    intro h
    rcases ih (by simpa [IntArith] using h) with ⟨v, hf, hi, he⟩ | ⟨hf, he⟩
    · left
      obtain ⟨i, hi⟩ := Option.isSome_iff_exists.1 hi
      obtain ⟨h1, h2, h3⟩ := intSem_unary R hi
      have hn : (intSem R).isNumber v = true := by cases v <;> first | rfl | simp [Val.asInt] at hi
      obtain ⟨t, ht⟩ : ∃ t, (intSem R).truth v = .ok t := by
        cases v <;> first | exact ⟨_, rfl⟩ | simp [Val.asInt] at hi
      rw [foldRec, eval, hf, he]
      cases op
      · exact ⟨_, by simp only [hn, if_true, foldUn]; exact h2, rfl, h2⟩
      · exact ⟨_, by simp only [hn, if_true, foldUn]; exact h1, rfl, h1⟩
      · exact ⟨.bool (!t), by simp only [hn, if_true, foldUn, ht, intSem_ofBool], rfl,
          by simp only [if_true, ht, intSem_ofBool]⟩
      · exact ⟨_, by simp only [hn, if_true, foldUn]; exact h3, rfl, h3⟩
    · right; simp [foldRec, hf, eval, he]
  | case4 op l r ihl ihr =>
    intro h
    obtain ⟨hop, hl, hr⟩ : op ∈ [BinOp.add, .sub, .mul, .floordiv, .mod] ∧ IntArith l ∧ IntArith r := by
      simpa only [IntArith] using h
    rw [foldRec, eval]
    rcases ihr hr with ⟨b, hfr, hib, her⟩ | ⟨hfr, her⟩
    · obtain ⟨j, hj⟩ := Option.isSome_iff_exists.1 hib
      have hz := intSem_isZero R hj
      rcases ihl hl with ⟨a, hfl, hia, hel⟩ | ⟨hfl, hel⟩
      · obtain ⟨i, hi⟩ := Option.isSome_iff_exists.1 hia
        simp only [hfr, hfl, hel, her, hz]
        simp only [List.mem_cons, List.not_mem_nil, or_false] at hop
        rcases hop with rfl | rfl | rfl | rfl | rfl
        · have hb := intSem_binary R (op := .add) hi hj rfl
          exact .inl ⟨_, by simp [foldBin, hb], rfl, hb⟩
        · have hb := intSem_binary R (op := .sub) hi hj rfl
          exact .inl ⟨_, by simp [foldBin, hb], rfl, hb⟩
        · have hb := intSem_binary R (op := .mul) hi hj rfl
          exact .inl ⟨_, by simp [foldBin, hb], rfl, hb⟩
        · have hb := intSem_binary R (op := .floordiv) hi hj rfl
          by_cases h0 : j = 0
          · right; simp only [h0, if_true] at hb; simp [h0, hb]
          · simp only [h0, if_false] at hb
            exact .inl ⟨_, by simp [foldBin, hb, h0], rfl, hb⟩
        · have hb := intSem_binary R (op := .mod) hi hj rfl
          by_cases h0 : j = 0
          · right; simp only [h0, if_true] at hb; simp [h0, hb]
          · simp only [h0, if_false] at hb
            exact .inl ⟨_, by simp [foldBin, hb, h0], rfl, hb⟩
      · right
        simp only [hfr, hfl, hel, hz]
        refine ⟨?_, trivial⟩
        split
        · by_cases h0 : j = 0 <;> simp [h0]
        · rfl
    · right
      simp only [hfr, her]
      rcases ihl hl with ⟨a, _, _, hel⟩ | ⟨_, hel⟩ <;> simp [hel]
  | case5 l op r ihl ihr =>
    intro h
    obtain ⟨hop, hl, hr⟩ : op ∈ [CmpOp.lt, .le, .eq, .ne, .ge, .gt] ∧ IntArith l ∧ IntArith r := by
      simpa only [IntArith] using h
    rw [foldRec, eval]
    rcases ihl hl with ⟨a, hfl, hia, hel⟩ | ⟨hfl, hel⟩
    · obtain ⟨i, hi⟩ := Option.isSome_iff_exists.1 hia
      simp only [hfl, hel]
      rw [evalCmp]
      rcases ihr hr with ⟨b, hfr, hib, her⟩ | ⟨hfr, her⟩
      · left
        obtain ⟨j, hj⟩ := Option.isSome_iff_exists.1 hib
        obtain ⟨t, ht⟩ : ∃ t, intCmp op i j = some t := by
          simp only [List.mem_cons, List.not_mem_nil, or_false] at hop
          rcases hop with rfl | rfl | rfl | rfl | rfl | rfl <;> exact ⟨_, rfl⟩
        have hc := intSem_cmp R hi hj ht
        refine ⟨.bool t, ?_, rfl, ?_⟩
        · simp only [hfr, foldCmp, hc]
          rw [if_neg]
          rintro (rfl | rfl) <;> simp at hop
        · simp only [her, hc]
      · right; simp only [hfr, her, and_self]
    · right; simp only [hfl, hel, and_self]
  | case6 e h1 h2 h3 h4 h5 =>
    intro h
    simp [IntArith] at h

/-- **C33** on integer arithmetic: a constant is computed exactly if Python computes one (the only error
is a division by zero), there is no exception, and the two values are the same. -/
theorem C33_integers (R : FoldSem Val) (env : Env Val) (e : Expr) (h : IntArith e) :
    constValue (intSem R) e = .ok (eval (intSem R).toSem env e).toOption := by
  unfold constValue
  rcases intArith_fold R env e h with ⟨v, hf, _, he⟩ | ⟨hf, he⟩
  · rw [hf, he]; rfl
  · rw [hf, he]; rfl

/-- The hypotheses are met: `(7 - 10) // 2 == -2`. -/
example (R : FoldSem Val) :
    constValue (intSem R) (.compare (.bin .floordiv (.bin .sub (.const (.int 7)) (.const (.int 10))) (.const (.int 2)))
      [(.eq, .unary .neg (.const (.int 2)))]) = .ok (some (.bool true)) := by
  rw [C33_integers R (fun _ => .error .keyError) _ (by simp [IntArith])]
  rfl

/-- **C33** is false of the code: folding `0 ** -1` raises `ZeroDivisionError`, which is not caught. -/
theorem C33_counterexample (R : FoldSem Val) :
    ∃ e : Expr, e.Ok ∧ constValue (intSem R) e = .error .zeroDivisionError :=
  ⟨.bin .pow (.const (.int 0)) (.unary .neg (.const (.int 1))), by simp [Expr.Ok], rfl⟩

end Verif.Py

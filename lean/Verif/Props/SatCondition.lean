import Verif.Model.SatCondition
import Verif.Props.Z3Block

/-!
C164: what is said about whether a condition may be true, and what it says about loops that are reported as infinite.
-/

namespace Verif.Py

section
variable (R : FoldSem Val) (env : Env Val)

/-- An integer or a truth value is computed, or a division by zero is tried. -/
def Computes (e : Expr) : Prop :=
  (∃ v i, eval (intSem R).toSem env e = .ok v ∧ v.asInt = some i) ∨ eval (intSem R).toSem env e = .error .zeroDivisionError

variable {R env}

theorem computes_bin {op : BinOp} {l r : Expr} (hl : Computes R env l) (hr : Computes R env r)
    (h : ∀ i j, (∃ k, intBin op i j = some (.ok (.int k))) ∨ intBin op i j = some (.error .zeroDivisionError)) :
    Computes R env (.bin op l r) := by
  rcases hl with ⟨v, i, hv, hi⟩ | hl
  · rcases hr with ⟨w, j, hw, hj⟩ | hr
    · rcases h i j with ⟨k, hk⟩ | hk
      · exact .inl ⟨.int k, k, by simp only [eval, hv, hw]; exact intSem_binary R hi hj hk, rfl⟩
      · exact .inr (by simp only [eval, hv, hw]; exact intSem_binary R hi hj hk)
    · exact .inr (by simp only [eval, hv, hr])
  · exact .inr (by simp only [eval, hl])

theorem computes_unary {op : UnOp} {e : Expr} (h : Computes R env e) : Computes R env (.unary op e) := by
  rcases h with ⟨v, i, hv, hi⟩ | h
  · have ht := truth_asInt R hi
    have hu := intSem_unary R hi
    cases op with
    | not => exact .inl ⟨.bool !decide (i ≠ 0), _, by simp only [eval, hv, ht, if_true]; rfl, rfl⟩
    | neg => exact .inl ⟨_, _, by simp only [eval, hv, reduceCtorEq, if_false]; exact hu.1, rfl⟩
    | pos => exact .inl ⟨_, _, by simp only [eval, hv, reduceCtorEq, if_false]; exact hu.2.1, rfl⟩
    | invert => exact .inl ⟨_, _, by simp only [eval, hv, reduceCtorEq, if_false]; exact hu.2.2, rfl⟩
  · exact .inr (by simp only [eval, h])

theorem computes_abs (hB : Builtins env) {e : Expr} (h : Computes R env e) :
    Computes R env (.call (.name "abs".toList) [e]) := by
  have hb := hB "abs".toList (by simp)
  rcases h with ⟨v, i, hv, hi⟩ | h
  · have hc : builtinCall "abs".toList [v] = some (.ok (.int i.natAbs)) := by
      unfold builtinCall
      rw [if_neg (by decide), if_neg (by decide), if_pos rfl]
      simp only [hi]
    exact .inl ⟨.int i.natAbs, i.natAbs, by simp only [eval, evalAll, hb, hv]; exact intSem_call R hc, rfl⟩
  · exact .inr (by simp only [eval, evalAll, hb, h])

theorem computes_compare {op : CmpOp} (hop : ¬ (op = .isIn ∨ op = .notIn ∨ op = .is ∨ op = .isNot)) {l r : Expr}
    (hl : Computes R env l) (hr : Computes R env r) : Computes R env (.compare l [(op, r)]) := by
  rcases hl with ⟨v, i, hv, hi⟩ | hl
  · rcases hr with ⟨w, j, hw, hj⟩ | hr
    · have hc : ∃ b, intCmp op i j = some b := by
        cases op <;> first | exact ⟨_, rfl⟩ | simp at hop
      obtain ⟨b, hc⟩ := hc
      exact .inl ⟨.bool b, _, by simp only [eval, evalCmp, hv, hw, intSem_cmp R hi hj hc], rfl⟩
    · exact .inr (by simp only [eval, evalCmp, hv, hr])
  · exact .inr (by simp only [eval, hl])

theorem computes_boolOp (isOr : Bool) : ∀ es : List Expr, es ≠ [] → (∀ e ∈ es, Computes R env e) →
    (∃ v i, evalBool (intSem R).toSem env isOr es = .ok v ∧ v.asInt = some i) ∨
      evalBool (intSem R).toSem env isOr es = .error .zeroDivisionError
  | [], h, _ => absurd rfl h
  | [e], _, h => by
    rcases h e (by simp) with ⟨v, i, hv, hi⟩ | h
    · exact .inl ⟨v, i, by simp only [evalBool, hv], hi⟩
    · exact .inr (by simp only [evalBool, h])
  | e :: f :: es, _, h => by
    have ih := computes_boolOp isOr (f :: es) (by simp) (fun x hx => h x (List.mem_cons_of_mem _ hx))
    rcases h e (by simp) with ⟨v, i, hv, hi⟩ | h
    · rw [evalBool]
      simp only [hv, truth_asInt R hi]
      by_cases hd : decide (i ≠ 0) = isOr
      · rw [if_pos hd]; exact .inl ⟨v, i, rfl, hi⟩
      · rw [if_neg hd]; exact ih
    · exact .inr (by rw [evalBool]; simp only [h])

end

section
variable {R : FoldSem Val} {isFloat : Val → Bool} {guess : Expr → Option Types} {env : Env Val} {P : Expr → Prop}

variable (P) in
/-- A name that satisfies `P`. -/
def NameOf (e : Expr) : Prop := P e ∧ ∃ x, e = .name x

mutual
/-- Without made up variables, all variables are names, and conditions can be computed if these are integers. -/
theorem computes (hB : Builtins env) (hP : ∀ x, P (.name x) → ∃ i, env x = .ok (.int i)) : ∀ (e : Expr) (d pb : Bool) (vs0 vs1 vs : Vars) (t : Term),
    e.Ok → InScope R isFloat P e →
    initVars (intSem R) isFloat guess true e d pb vs0 = .ok (true, vs1) →
    convert (intSem R) isFloat vs e pb = .ok (some t) → InScope R isFloat (NameOf P) e ∧ Computes R env e
  | .const v, d, pb, vs0, vs1, vs, t, hk, hs, hi, hc => by
    refine ⟨by simp only [InScope] at hs ⊢; exact hs, ?_⟩
    cases v with
    | bool b => exact .inl ⟨.bool b, _, by simp [eval], rfl⟩
    | int n => exact .inl ⟨.int n, _, by simp [eval], rfl⟩
    | float x => simp only [InScope] at hs; exact absurd rfl (hs x)
    | none => simp only [convert] at hc; cases hc
    | str x => simp only [convert] at hc; cases hc
    | other x => simp only [convert] at hc; cases hc
  | .name x, d, pb, vs0, vs1, vs, t, hk, hs, hi, hc => by
    simp only [InScope] at hs ⊢
    obtain ⟨i, h⟩ := hP x hs
    exact ⟨⟨hs, x, rfl⟩, .inl ⟨.int i, i, by simp only [eval, h], rfl⟩⟩
  | .subscript a i, d, pb, vs0, vs1, vs, t, hk, hs, hi, hc => by
    rw [initVars] at hi
    simp [notAllowed] at hi
  | .attr a x, d, pb, vs0, vs1, vs, t, hk, hs, hi, hc => by
    rw [initVars] at hi
    simp [notAllowed] at hi
  | .call f args, d, pb, vs0, vs1, vs, t, hk, hs, hi, hc => by
    simp only [convert] at hc
    simp only [InScope] at hs ⊢
    rw [initVars] at hi
    by_cases hf : f = .name "abs".toList
    · rw [if_pos hf] at hc
      simp only [notAllowed, if_pos hf] at hi
      have hs := hs.1 hf
      cases hfi : convertFirst (intSem R) isFloat vs args with
      | error x => rw [hfi] at hc; cases hc
      | ok o =>
        cases o with
        | none => rw [hfi] at hc; cases hc
        | some u =>
          simp only [Expr.Ok] at hk
          obtain ⟨hn, e, rfl, he⟩ := computesFirst hB hP args d vs0 vs1 vs u hk.2 hs hi hfi
          refine ⟨⟨fun _ => hn, fun h => absurd hf h⟩, ?_⟩
          rw [hf]
          exact computes_abs hB he
    · simp only [notAllowed, if_neg hf, if_true] at hi
      simp at hi
  | .bin op l r, d, pb, vs0, vs1, vs, t, hk, hs, hi, hc => by
    simp only [convert] at hc
    simp only [InScope] at hs ⊢
    simp only [Expr.Ok] at hk
    rw [initVars] at hi
    cases hna : notAllowed (intSem R) isFloat (.bin op l r) d pb with
    | error x => rw [hna] at hi; cases hi
    | ok b =>
      cases b with
      | true => rw [hna] at hi; cases hi
      | false =>
        rw [hna] at hi
        simp only at hi
        cases hnl : nonlinear (intSem R) isFloat (.bin op l r) with
        | error x => rw [hnl] at hc; cases hc
        | ok n =>
          cases n with
          | true => rw [hnl] at hi; simp at hi
          | false =>
            rw [hnl] at hc hi
            simp only at hc hi
            obtain ⟨hsl, hsr⟩ := hs.2 hnl
            refine And.imp_left (fun h => ⟨(fun h => nomatch h), fun _ => h⟩) ?_
            cases hcl : convert (intSem R) isFloat vs l false with
            | error x => rw [hcl] at hc; cases hc
            | ok tl =>
              rw [hcl] at hc
              simp only at hc
              have harith : ∀ (hop : op = .add ∨ op = .sub ∨ op = .mul) (hsr : InScope R isFloat P r)
                  (hc : arithResult op pb tl (convert (intSem R) isFloat vs r false) = Except.ok (some t)),
                  (InScope R isFloat (NameOf P) l ∧ InScope R isFloat (NameOf P) r) ∧ Computes R env (.bin op l r) := by
                intro hop hsr hc
                rw [if_neg (by rcases hop with rfl | rfl | rfl <;> decide)] at hi
                cases hil : initVars (intSem R) isFloat guess true l d false vs0 with
                | error x => rw [hil] at hi; cases hi
                | ok p =>
                  obtain ⟨bl, vl⟩ := p
                  rw [hil] at hi
                  cases bl with
                  | false => cases hi
                  | true =>
                    simp only at hi
                    cases hcr : convert (intSem R) isFloat vs r false with
                    | error x => rw [hcr] at hc; cases hc
                    | ok tr =>
                      rw [hcr] at hc
                      cases tl with
                      | none => cases hc
                      | some a =>
                        cases tr with
                        | none => cases hc
                        | some b =>
                          obtain ⟨h1, h2⟩ := computes hB hP l d false vs0 vl vs a hk.1 hsl hil hcl
                          obtain ⟨h3, h4⟩ := computes hB hP r d false vl vs1 vs b hk.2 hsr hi hcr
                          exact ⟨⟨h1, h3⟩, computes_bin h2 h4 (by
                            intro i j; rcases hop with rfl | rfl | rfl <;> exact .inl ⟨_, rfl⟩)⟩
              have hdiv : ∀ (hop : op = .mod ∨ op = .floordiv) (hsl : InScope R isFloat P l)
                  (hj : initVars (intSem R) isFloat guess true l true false vs0 = .ok (true, vs1)) (a : Term) (ha : tl = some a)
                  (hcd : condTerm pb (divTerm (intSem R) op a r) = Except.ok (some t)),
                  InScope R isFloat (NameOf P) l ∧ Computes R env (.bin op l r) := by
                intro hop hsl hj a ha hcd
                subst ha
                obtain ⟨h1, h2⟩ := computes hB hP l true false vs0 vs1 vs a hk.1 hsl hj hcl
                refine ⟨h1, ?_⟩
                unfold divTerm at hcd
                cases hcv : constValue (intSem R) r with
                | error x => rw [hcv] at hcd; cases hcd
                | ok o =>
                  cases o with
                  | none => rw [hcv] at hcd; cases hcd
                  | some w =>
                    rw [hcv] at hcd
                    simp only at hcd
                    have h4 : Computes R env r := by
                      cases hw : w.asInt with
                      | none => rcases hop with h | h <;> simp only [h, hw] at hcd <;> cases hcd
                      | some c => exact .inl ⟨w, c, C33_value (intSem R) env r w hcv, hw⟩
                    refine computes_bin h2 h4 fun i j => ?_
                    rcases hop with rfl | rfl
                    · by_cases hz : j = 0 <;> simp [intBin, hz]
                    · by_cases hz : j = 0 <;> simp [intBin, hz]
              cases op with
              | add => exact harith (by simp) hsr hc
              | sub => exact harith (by simp) hsr hc
              | mul => exact harith (by simp) hsr hc
              | div => exact hsr.elim
              | mod =>
                simp only [true_or, if_true] at hi
                cases tl with
                | none => cases hc
                | some a =>
                  simp only at hc
                  by_cases hia : a.isInt = true
                  · rw [if_pos hia] at hc
                    obtain ⟨h1, h2⟩ := hdiv (by simp) hsl hi a rfl hc
                    exact ⟨⟨h1, trivial⟩, h2⟩
                  · rw [if_neg hia] at hc; cases hc
              | floordiv =>
                simp only [or_true, if_true] at hi
                cases tl with
                | none => cases hc
                | some a =>
                  simp only at hc
                  by_cases hia : a.isInt = true
                  · rw [if_pos hia] at hc
                    obtain ⟨h1, h2⟩ := hdiv (by simp) hsl hi a rfl hc
                    exact ⟨⟨h1, hsr⟩, h2⟩
                  · rw [if_neg hia] at hc; cases hc
              | pow => cases hc
              | matmul => cases hc
              | lshift => cases hc
              | rshift => cases hc
              | bitor => cases hc
              | bitxor => cases hc
              | bitand => cases hc
  | .unary op e, d, pb, vs0, vs1, vs, t, hk, hs, hi, hc => by
    simp only [convert] at hc
    simp only [InScope] at hs ⊢
    simp only [Expr.Ok] at hk
    rw [initVars] at hi
    cases hna : notAllowed (intSem R) isFloat (.unary op e) d pb with
    | error x => rw [hna] at hi; cases hi
    | ok b =>
      cases b with
      | true => rw [hna] at hi; cases hi
      | false =>
        rw [hna] at hi
        simp only at hi
        cases hce : convert (intSem R) isFloat vs e (decide (op = .not)) with
        | error x => rw [hce] at hc; cases hc
        | ok o =>
          cases o with
          | none => rw [hce] at hc; cases hc
          | some u =>
            obtain ⟨h1, h2⟩ := computes hB hP e d _ vs0 vs1 vs u hk hs hi hce
            exact ⟨h1, computes_unary h2⟩
  | .boolOp isOr es, d, pb, vs0, vs1, vs, t, hk, hs, hi, hc => by
    simp only [convert] at hc
    simp only [InScope] at hs ⊢
    simp only [Expr.Ok] at hk
    rw [initVars] at hi
    cases pb with
    | false => simp [notAllowed] at hi
    | true =>
      simp only [notAllowed, Bool.not_true] at hi
      cases hce : convertAll (intSem R) isFloat vs es with
      | error x => rw [hce] at hc; cases hc
      | ok o =>
        cases o with
        | none => rw [hce] at hc; cases hc
        | some ts =>
          obtain ⟨h1, h2⟩ := computesAll hB hP es d vs0 vs1 vs ts hk.2 hs hi hce
          have hne : es ≠ [] := by rintro rfl; simp at hk
          have := computes_boolOp isOr es hne h2
          simp only [Computes, eval]
          exact ⟨h1, this⟩
  | .compare l ops, d, pb, vs0, vs1, vs, t, hk, hs, hi, hc => by
    simp only [convert] at hc
    simp only [InScope] at hs ⊢
    simp only [Expr.Ok] at hk
    rw [initVars] at hi
    match ops with
    | [] => simp [notAllowed] at hi
    | _ :: _ :: _ => simp [notAllowed] at hi
    | [(op, r)] =>
      cases hna : notAllowed (intSem R) isFloat (.compare l [(op, r)]) d pb with
      | error x => rw [hna] at hi; cases hi
      | ok b =>
        cases b with
        | true => rw [hna] at hi; cases hi
        | false =>
          rw [hna] at hi
          simp only at hi
          simp only [notAllowed, Except.ok.injEq, Bool.or_eq_false_iff, decide_eq_false_iff_not] at hna
          obtain ⟨hop, hpb⟩ := hna
          cases hil : initVars (intSem R) isFloat guess true l d false vs0 with
          | error x => rw [hil] at hi; cases hi
          | ok p =>
            obtain ⟨bl, vl⟩ := p
            rw [hil] at hi
            cases bl with
            | false => cases hi
            | true =>
              simp only at hi
              simp only [initOps] at hi
              cases hir : initVars (intSem R) isFloat guess true r d false vl with
              | error x => rw [hir] at hi; cases hi
              | ok p =>
                obtain ⟨br, vr⟩ := p
                rw [hir] at hi
                cases br with
                | false => cases hi
                | true =>
                  cases hcl : convert (intSem R) isFloat vs l false with
                  | error x => rw [hcl] at hc; cases hc
                  | ok tl =>
                    rw [hcl] at hc
                    simp only [convertOp] at hc
                    cases hcr : convert (intSem R) isFloat vs r false with
                    | error x => rw [hcr] at hc; cases hc
                    | ok tr =>
                      rw [hcr] at hc
                      cases tl with
                      | none => cases hc
                      | some a =>
                        cases tr with
                        | none => cases hc
                        | some b =>
                          simp only [InScopeOps] at hs ⊢
                          simp only [OkOps] at hk
                          obtain ⟨h1, h2⟩ := computes hB hP l d false vs0 vl vs a hk.2.1 hs.1 hil hcl
                          obtain ⟨h3, h4⟩ := computes hB hP r d false vl vr vs b hk.2.2.1 hs.2.1 hir hcr
                          exact ⟨⟨h1, h3, trivial⟩, computes_compare hop h2 h4⟩
  | .ifExp _ _ _, d, pb, vs0, vs1, vs, t, hk, hs, hi, hc => by
    simp only [convert] at hc
    cases hc
  | .other _ _, d, pb, vs0, vs1, vs, t, hk, hs, hi, hc => by
    simp only [convert] at hc
    cases hc

theorem computesFirst (hB : Builtins env) (hP : ∀ x, P (.name x) → ∃ i, env x = .ok (.int i)) : ∀ (es : List Expr) (d : Bool) (vs0 vs1 vs : Vars) (t : Term),
    OkAll es → InScopeOne R isFloat P es →
    initFirst (intSem R) isFloat guess true es d vs0 = .ok (true, vs1) →
    convertFirst (intSem R) isFloat vs es = .ok (some t) →
    InScopeOne R isFloat (NameOf P) es ∧ ∃ e, es = [e] ∧ Computes R env e
  | [], d, vs0, vs1, vs, t, hk, hs, hi, hc => by simp only [convertFirst] at hc; cases hc
  | e :: es, d, vs0, vs1, vs, t, hk, hs, hi, hc => by
    simp only [InScopeOne] at hs ⊢
    simp only [initFirst] at hi
    simp only [convertFirst] at hc
    simp only [OkAll] at hk
    obtain ⟨h1, h2⟩ := computes hB hP e d false vs0 vs1 vs t hk.1 hs.1 hi hc
    exact ⟨⟨h1, hs.2⟩, e, by rw [hs.2], h2⟩

theorem computesAll (hB : Builtins env) (hP : ∀ x, P (.name x) → ∃ i, env x = .ok (.int i)) : ∀ (es : List Expr) (d : Bool) (vs0 vs1 vs : Vars) (ts : List Term),
    OkAll es → InScopeAll R isFloat P es →
    initAll (intSem R) isFloat guess true es d vs0 = .ok (true, vs1) →
    convertAll (intSem R) isFloat vs es = .ok (some ts) →
    InScopeAll R isFloat (NameOf P) es ∧ ∀ e ∈ es, Computes R env e
  | [], d, vs0, vs1, vs, ts, hk, hs, hi, hc => by simp [InScopeAll]
  | e :: es, d, vs0, vs1, vs, ts, hk, hs, hi, hc => by
    simp only [InScopeAll] at hs ⊢
    simp only [initAll] at hi
    simp only [convertAll] at hc
    simp only [OkAll] at hk
    cases hie : initVars (intSem R) isFloat guess true e d true vs0 with
    | error x => rw [hie] at hi; cases hi
    | ok p =>
      obtain ⟨b, v1⟩ := p
      rw [hie] at hi
      cases b with
      | false => cases hi
      | true =>
        simp only at hi
        cases hce : convert (intSem R) isFloat vs e true with
        | error x => rw [hce] at hc; cases hc
        | ok o =>
          cases o with
          | none => rw [hce] at hc; cases hc
          | some t =>
            rw [hce] at hc
            simp only at hc
            cases hcs : convertAll (intSem R) isFloat vs es with
            | error x => rw [hcs] at hc; cases hc
            | ok o =>
              cases o with
              | none => rw [hcs] at hc; cases hc
              | some us =>
                obtain ⟨h1, h2⟩ := computes hB hP e d true vs0 v1 vs t hk.1 hs.1 hie hce
                obtain ⟨h3, h4⟩ := computesAll hB hP es d v1 vs1 vs us hk.2 hs.2 hi hcs
                refine ⟨⟨h1, h3⟩, fun x hx => ?_⟩
                rcases List.mem_cons.1 hx with rfl | hx
                · exact h2
                · exact h4 x hx
end

/-- Integers for all names but the builtin functions. -/
def givenBy (σ : Str → Int) : Env Val := fun x =>
  if x ∈ ["ord".toList, "range".toList, "abs".toList] then .ok (.builtin x) else .ok (.int (σ x))

theorem givenBy_builtins (σ : Str → Int) : Builtins (givenBy σ) := fun f hf => by rw [givenBy, if_pos hf]

/-- Everything that is a variable for the solver is named otherwise than builtin functions. -/
def NotBuiltin (e : Expr) : Prop := ∀ x, e = .name x → x ∉ ["ord".toList, "range".toList, "abs".toList]

theorem satCondition_ok {check : Term → Option Bool} {c : Expr} {b : Bool}
    (h : satCondition (intSem R) isFloat guess check c = .ok (some b)) :
    ∃ vs t, initVars (intSem R) isFloat guess true c false true [] = .ok (true, vs) ∧
      convert (intSem R) isFloat vs c true = .ok (some t) ∧ check t = some b := by
  unfold satCondition at h
  cases hi : initVars (intSem R) isFloat guess true c false true [] with
  | error x => rw [hi] at h; cases h
  | ok p =>
    obtain ⟨a, vs⟩ := p
    rw [hi] at h
    cases a with
    | false => cases h
    | true =>
      simp only at h
      cases hc : convert (intSem R) isFloat vs c true with
      | error x => rw [hc] at h; cases h
      | ok o =>
        cases o with
        | none => rw [hc] at h; cases h
        | some t =>
          rw [hc] at h
          simp only [Except.ok.injEq] at h
          exact ⟨vs, t, rfl, hc, h⟩

/-- **C164**, true (partial). If it is said that a condition may be true, then there are integers for which it is true or a division by
zero is tried: provided that the solver is right in that there are integers for which the term is true, and the condition is a formula
in integers (as in C44). -/
theorem C164_true_partial {check : Term → Option Bool} {c : Expr} (hk : c.Ok) (hs : InScope R isFloat NotBuiltin c)
    (hcheck : ∀ t, check t = some true → ∃ zero σ, t.eval zero σ = some (.bool true))
    (h : satCondition (intSem R) isFloat guess check c = .ok (some true)) :
    ∃ σ, truthOf (intSem R).toSem (givenBy σ) c = .ok true ∨
      truthOf (intSem R).toSem (givenBy σ) c = .error .zeroDivisionError := by
  obtain ⟨vs, t, hi, hc, ht⟩ := satCondition_ok h
  obtain ⟨zero, σ, hev⟩ := hcheck t ht
  have hB := givenBy_builtins fun x => σ (.name x)
  have hP : ∀ x, NotBuiltin (.name x) → ∃ i, givenBy (fun x => σ (.name x)) x = .ok (.int i) := by
    intro x hx
    exact ⟨_, by rw [givenBy, if_neg (hx x rfl)]⟩
  obtain ⟨hn, hco⟩ := computes hB hP c false true [] vs vs t hk hs hi hc
  have hag : InScope R isFloat (Agrees R σ (givenBy fun x => σ (.name x))) c := by
    refine InScope.mono ?_ c hn
    rintro e ⟨he, x, rfl⟩ v hv
    rw [eval, givenBy, if_neg (he x rfl)] at hv
    cases hv
    rfl
  refine ⟨fun x => σ (.name x), ?_⟩
  rcases hco with ⟨v, i, hv, hvi⟩ | hz
  · have htr : truthOf (intSem R).toSem (givenBy fun x => σ (.name x)) c = .ok (decide (i ≠ 0)) := by
      rw [truthOf, hv]; exact truth_asInt R hvi
    have := C44_partial (zero := zero) hB rfl hag hi hc htr
    rw [hev] at this
    left
    rw [htr]
    simp only [Option.some.injEq, TV.bool.injEq] at this
    rw [← this]
  · right
    rw [truthOf, hz]

/-- **C164**, false (partial). If it is said that a condition cannot be true, then it is not, whatever integers the variables are: provided
that the solver is right in that there are no integers for which the term is true, and the condition is a formula in integers. -/
theorem C164_false_partial {check : Term → Option Bool} {c : Expr} (hB : Builtins env)
    (hs : InScope R isFloat (IntValued R env) c) (hcheck : ∀ t, check t = some false → Unsat t)
    (h : satCondition (intSem R) isFloat guess check c = .ok (some false)) :
    truthOf (intSem R).toSem env c ≠ .ok true := by
  obtain ⟨vs, t, hi, hc, ht⟩ := satCondition_ok h
  exact C44_unsat_partial hB hs hi hc (hcheck t ht)

/-- **C164**, exceptions (partial). Once variables are known, no exception is raised if the argument of every `abs` is translated. -/
theorem C164_no_exception_partial {check : Term → Option Bool} {c : Expr} {b : Bool} {vs : Vars} (hR : OnlyNumbers R isFloat)
    (hi : initVars (intSem R) isFloat guess true c false true [] = .ok (b, vs)) (ha : AbsTranslated R isFloat vs c) :
    ∃ r, satCondition (intSem R) isFloat guess check c = .ok r := by
  unfold satCondition
  cases b with
  | false => rw [hi]; exact ⟨_, rfl⟩
  | true =>
    rw [hi]
    simp only
    cases hc : convert (intSem R) isFloat vs c true with
    | error x => exact absurd hc (C62_partial hR hi (fun x hx => hx) ha x)
    | ok o => cases o <;> exact ⟨_, rfl⟩

end

/-! ### Examples, and conditions about which the answer is wrong -/

open Classical in
/-- A solver that is right about all terms in integers. -/
noncomputable def solver (t : Term) : Option Bool := some (decide (∃ zero σ, t.eval zero σ = some (.bool true)))

theorem solver_true {t : Term} (h : solver t = some true) : ∃ zero σ, t.eval zero σ = some (.bool true) := by
  simpa [solver] using h

theorem solver_false {t : Term} (h : solver t = some false) : Unsat t := by
  intro zero σ ht
  have := h
  simp only [solver, Option.some.injEq, decide_eq_false_iff_not] at this
  exact this ⟨zero, σ, ht⟩

theorem exCond_answer (check : Term → Option Bool) : satCondition (intSem noRest) (fun _ => false) intGuess check exCond =
    .ok (check (.and [.cmp .eq (.mod (.var true exX) 3) (.int 1), .cmp .gt (.abs (.var true exX)) (.int 2)])) := by
  have h1 : initVars (intSem noRest) (fun _ => false) intGuess true exCond false true [] = .ok (true, [(exX, true)]) := by
    decide +kernel
  have h2 : convert (intSem noRest) (fun _ => false) [(exX, true)] exCond true = .ok (some (.and
      [.cmp .eq (.mod (.var true exX) 3) (.int 1), .cmp .gt (.abs (.var true exX)) (.int 2)])) := rfl
  simp only [satCondition, h1, h2]

/-- `x % 3 == 1 and abs(x) > 2` may be true. -/
example : ∃ σ, truthOf (intSem noRest).toSem (givenBy σ) exCond = .ok true ∨
      truthOf (intSem noRest).toSem (givenBy σ) exCond = .error .zeroDivisionError := by
  refine C164_true_partial (isFloat := fun _ => false) (guess := intGuess) (check := solver) ?_ ?_ (fun t => solver_true) ?_
  · simp [exCond, Expr.Ok, OkAll, OkOps, exX, exInt]
  · have hx : NotBuiltin exX := by
      intro x h
      cases h
      decide
    have hnl : nonlinear (intSem noRest) (fun _ => false) (.bin .mod exX (exInt 3)) = .ok false := by decide +kernel
    simp only [exCond, InScope, InScopeAll, InScopeOps, InScopeOne, hnl]
    refine ⟨⟨⟨by simp, fun _ => ⟨by simp only [exX, InScope]; exact hx, trivial⟩⟩, ?_, trivial⟩, ⟨⟨fun _ => ⟨?_, trivial⟩, ?_⟩, ?_,
      trivial⟩, trivial⟩
    · simp [exInt, InScope]
    · simp only [exX, InScope]; exact hx
    · simp
    · simp [exInt, InScope]
  · rw [exCond_answer]
    simp only [solver, Except.ok.injEq, Option.some.injEq, decide_eq_true_eq]
    refine ⟨fun _ => 0, fun _ => 7, ?_⟩
    decide +kernel

/-- `x > x` cannot. -/
example : truthOf (intSem noRest).toSem sevenEnv (.compare exX [(.gt, exX)]) ≠ .ok true := by
  have h1 : initVars (intSem noRest) (fun _ => false) intGuess true (.compare exX [(.gt, exX)]) false true [] = .ok (true, [(exX, false)]) := by
    decide +kernel
  have h2 : convert (intSem noRest) (fun _ => false) [(exX, false)] (.compare exX [(.gt, exX)]) true =
    .ok (some (.cmp .gt (.var false exX) (.var false exX))) := rfl
  refine C164_false_partial (isFloat := fun _ => false) (guess := intGuess) (check := solver) seven_builtins ?_ (fun t => solver_false) ?_
  · have hx : IntValued noRest sevenEnv exX := by
      intro v hv
      have : v = .int 7 := by
        simp only [exX, eval, sevenEnv, if_true] at hv
        cases hv; rfl
      subst this
      simp [Val.asInt]
    simp only [InScope, InScopeOps, exX]
    exact ⟨hx, hx, trivial⟩
  · simp only [satCondition, h1, h2, solver, Except.ok.injEq, Option.some.injEq, decide_eq_false_iff_not]
    rintro ⟨zero, σ, h⟩
    simp [Term.eval, TV.int?, intCmp] at h

/-- Nothing is said about `f(x) > 2`: no variable is made up for the call. Nor is it if the solver does not know. -/
example (check : Term → Option Bool) :
    satCondition (intSem noRest) (fun _ => false) intGuess check (.compare (.call (.name "f".toList) [exX]) [(.gt, exInt 2)]) = .ok none ∧
    satCondition (intSem noRest) (fun _ => false) intGuess (fun _ => none) exCond = .ok none := by
  refine ⟨?_, exCond_answer _⟩
  have h1 : initVars (intSem noRest) (fun _ => false) intGuess true (.compare (.call (.name "f".toList) [exX]) [(.gt, exInt 2)]) false true [] =
      .ok (false, []) := by
    decide +kernel
  simp only [satCondition, h1]

/-- `x // 0 == 5` -/
def exZero : Expr := .compare (.bin .floordiv exX (exInt 0)) [(.eq, exInt 5)]

/-- **C164** is false: it is said that `x // 0 == 5` may be true, since solvers have some value for a division by zero. -/
theorem C164_zero_counterexample (check : Term → Option Bool)
    (hs : ∀ t : Term, (∃ zero σ, t.eval zero σ = some (.bool true)) → check t = some true) :
    satCondition (intSem noRest) (fun _ => false) intGuess check exZero = .ok (some true) ∧
      ∀ σ, truthOf (intSem noRest).toSem (givenBy σ) exZero = .error .zeroDivisionError := by
  have h1 : initVars (intSem noRest) (fun _ => false) intGuess true exZero false true [] = .ok (true, [(exX, true)]) := by decide +kernel
  have h2 : convert (intSem noRest) (fun _ => false) [(exX, true)] exZero true =
    .ok (some (.cmp .eq (.div (.var true exX) 0) (.int 5))) := rfl
  refine ⟨?_, fun σ => rfl⟩
  simp only [satCondition, h1, h2]
  rw [hs _ ⟨fun _ => 5, fun _ => 0, by decide +kernel⟩]

/-- `x == 7 and x // -2 == -k` -/
def exSeven (k : Nat) : Expr := .boolOp false [.compare exX [(.eq, exInt 7)],
  .compare (.bin .floordiv exX (.unary .neg (exInt 2))) [(.eq, .unary .neg (exInt k))]]

theorem exSeven_answer (check : Term → Option Bool) (k : Nat) (hk : k = 3 ∨ k = 4) :
    satCondition (intSem noRest) (fun _ => false) intGuess check (exSeven k) =
    .ok (check (.and [.cmp .eq (.var true exX) (.int 7), .cmp .eq (.div (.var true exX) (-2)) (.neg (.int k))])) := by
  have h1 : initVars (intSem noRest) (fun _ => false) intGuess true (exSeven k) false true [] = .ok (true, [(exX, true)]) := by
    rcases hk with rfl | rfl <;> decide +kernel
  have h2 : convert (intSem noRest) (fun _ => false) [(exX, true)] (exSeven k) true = .ok (some (.and
      [.cmp .eq (.var true exX) (.int 7), .cmp .eq (.div (.var true exX) (-2)) (.neg (.int k))])) := rfl
  simp only [satCondition, h1, h2]

/-- **C164** is false of negative divisors: it is said that `x == 7 and x // -2 == -3` may be true and `x == 7 and x // -2 == -4` cannot, and the
other way round is right. -/
theorem C164_negative_counterexample (check : Term → Option Bool)
    (hs : ∀ t : Term, (∃ zero σ, t.eval zero σ = some (.bool true)) → check t = some true) (hu : ∀ t, Unsat t → check t = some false) :
    satCondition (intSem noRest) (fun _ => false) intGuess check (exSeven 3) = .ok (some true) ∧
      (∀ σ, truthOf (intSem noRest).toSem (givenBy σ) (exSeven 3) = .ok false) ∧
    satCondition (intSem noRest) (fun _ => false) intGuess check (exSeven 4) = .ok (some false) ∧
      ∃ σ, truthOf (intSem noRest).toSem (givenBy σ) (exSeven 4) = .ok true := by
  refine ⟨?_, ?_, ?_, fun _ => 7, by decide +kernel⟩
  · rw [exSeven_answer _ _ (.inl rfl), hs _ ⟨fun _ => 0, fun _ => 7, by decide +kernel⟩]
  · intro σ
    have he : truthOf (intSem noRest).toSem (givenBy σ) (exSeven 3) = truthOf (intSem noRest).toSem (givenBy fun _ => σ "x".toList) (exSeven 3) := rfl
    rw [he]
    by_cases h : σ "x".toList = 7
    · rw [h]; decide +kernel
    · have hx : (givenBy fun _ => σ "x".toList) "x".toList = .ok (.int (σ "x".toList)) := rfl
      generalize σ "x".toList = i at h hx
      have hx' : eval (intSem noRest).toSem (givenBy fun _ => i) exX = .ok (.int i) := hx
      have h7 : eval (intSem noRest).toSem (givenBy fun _ => i) (exInt 7) = .ok (.int 7) := by simp [exInt, eval]
      have hc := intSem_cmp noRest (op := .eq) (v := .int i) (w := .int 7) rfl rfl rfl
      simp only [truthOf, exSeven, eval, evalBool, evalCmp, hx', h7, hc]
      simp [h]
  · rw [exSeven_answer _ _ (.inr rfl), hu]
    intro zero σ h
    simp only [Term.eval, Term.evalAll, TV.int?, TV.bool?, intCmp, smtDiv, Option.map_some, Option.bind_some] at h
    simp at h
    omega

/-- **C164** is false of exceptions, as **C62** is: of `abs(x % 1) == 0`. -/
theorem C164_exception_counterexample (check : Term → Option Bool) :
    satCondition (intSem noRest) (fun _ => false) intGuess check exAbs = .error .typeError := by
  have h1 : initVars (intSem noRest) (fun _ => false) intGuess true exAbs false true [] = .ok (true, [(exX, true)]) := by decide +kernel
  have h2 : convert (intSem noRest) (fun _ => false) [(exX, true)] exAbs true = .error .typeError := rfl
  simp only [satCondition, h1, h2]

/-- The hypotheses of `C164_no_exception_partial` hold of `x > x`. -/
example : ∃ r, satCondition (intSem noRest) (fun _ => false) intGuess solver (.compare exX [(.gt, exX)]) = .ok r := by
  refine C164_no_exception_partial (b := true) (vs := [(exX, false)]) ?_ (by decide +kernel) ?_
  · intro op v w u hop hb hp
    refine .inl fun hn => ?_
    simp only [intSem, hn, noRest] at hb
    cases hv : v.asInt <;> simp [hv] at hb
  · simp [AbsTranslated, AbsTranslatedOps, exX]

/-! ### Loops -/

section
open Blocks
variable {R : FoldSem Val} {isFloat : Val → Bool} {guess : Expr → Option Types}
variable {pure modified mutableExpr : Expr → Bool} {mutableStmt : Blocks.Stmt → Bool} {unsat : Fm → Bool}

/-- Only conditions that may be true are reported as implicitly infinite. -/
theorem infiniteLoop_sat {exits : Nat → Bool} {inTry sat changes : Bool} {c : Expr} {b : Block}
    (h : infiniteLoop exits (intSem R) isFloat guess pure modified mutableExpr mutableStmt unsat inTry sat changes c b =
      .ok (some "implicit-infinite-loop".toList)) : sat = true := by
  have hne : "explicit-infinite-loop".toList ≠ "implicit-infinite-loop".toList := by decide +kernel
  cases sat with
  | true => rfl
  | false =>
    exfalso
    unfold infiniteLoop at h
    split at h
    · cases h
    · split at h
      · cases h
      · split at h
        · simp only [Except.ok.injEq, Option.some.injEq] at h
          exact hne h
        · simp at h

/-- **C77** with **C164** (partial). If a loop is reported as implicitly infinite, then there are integers for which it goes on for ever or ends by an
exception, in the condition or in the body: so what is reported can happen. What is provided is what is provided there. -/
theorem C77_exists_partial {exits : Nat → Bool} {inTry changes : Bool} {c : Expr} {b : Block} {check : Term → Option Bool}
    {iter : Val → Except PyErr (List Val)} {effect : Nat → Env Val → Except PyErr (Env Val)} {other : Nat → Env Val → Except PyErr Flow}
    (hcheck : ∀ t, check t = some true → ∃ zero σ, t.eval zero σ = some (.bool true))
    (hu : ∀ f, unsat f = true → f.Unsat)
    (ho : ∀ n env, exits n = false → other n env ≠ .ok .stop)
    (hch : changes = false → ∀ env env', runBlock (intSem R).toSem iter effect other b env = .ok (.go env') →
      ∀ x ∈ names c, env x = env' x)
    (hm : ∀ e, modified e = false → ∀ x ∈ names e, x ∉ b.targets)
    (hT : ∀ f ∈ ["ord".toList, "range".toList, "abs".toList], f ∉ b.targets)
    (hk : c.Ok) (hs : InScope R isFloat NotBuiltin c) (hsb : b.Scoped R isFloat)
    (h : infiniteLoop exits (intSem R) isFloat guess pure modified mutableExpr mutableStmt unsat inTry
      (match satCondition (intSem R) isFloat guess check c with | .ok (some true) => true | _ => false) changes c b =
      .ok (some "implicit-infinite-loop".toList))
    (hint : ∀ σ vs, initialized (intSem R) isFloat guess pure modified mutableExpr mutableStmt false c b c = .ok (true, vs) →
      ∀ k, vs.lookup k ≠ none → IntValued R (givenBy σ) k) :
    ∃ σ, truthOf (intSem R).toSem (givenBy σ) c = .error .zeroDivisionError ∨
      truthOf (intSem R).toSem (givenBy σ) c = .ok true ∧
      ∀ n, runWhile (intSem R).toSem iter effect other c b n (givenBy σ) = .ok none ∨
        ∃ x, runWhile (intSem R).toSem iter effect other c b n (givenBy σ) = .error x := by
  have hsat : satCondition (intSem R) isFloat guess check c = .ok (some true) := by
    have := infiniteLoop_sat h
    split at this
    · assumption
    · cases this
  obtain ⟨σ, ht | hz⟩ := C164_true_partial hk hs hcheck hsat
  · exact ⟨σ, .inr ⟨ht, fun n => C77_partial hu ho hch hm hT (InScope.mono (fun _ _ => trivial) c hs) hsb h (givenBy_builtins σ) (hint σ) ht n⟩⟩
  · exact ⟨σ, .inl hz⟩

end

section
open Blocks

/-- `x += 1` -/
def incX : Block := bxOne (.aug (.name "x".toList) .add (exInt 1))

/-- `while x > 0: x += 1` is reported, so there are integers for which it does not end. -/
example (unsat : Fm → Bool) (hu : ∀ f, f.Unsat ↔ unsat f = true) :
    ∃ σ, truthOf (intSem noRest).toSem (givenBy σ) bxPos = .error .zeroDivisionError ∨
      truthOf (intSem noRest).toSem (givenBy σ) bxPos = .ok true ∧
      ∀ n, runWhile (intSem noRest).toSem bxIter bxEffect bxOther bxPos incX n (givenBy σ) = .ok none ∨
        ∃ x, runWhile (intSem noRest).toSem bxIter bxEffect bxOther bxPos incX n (givenBy σ) = .error x := by
  have hx : NotBuiltin exX := by
    intro x h
    cases h
    decide
  have hsat : satCondition (intSem noRest) (fun _ => false) intGuess solver bxPos = .ok (some true) := by
    have h : ∀ check, satCondition (intSem noRest) (fun _ => false) intGuess check bxPos =
        .ok (check (.cmp .gt (.var false exX) (.int 0))) := fun _ => rfl
    rw [h]
    congr 2
    simp only [solver, decide_eq_true_eq, Option.some.injEq]
    exact ⟨fun _ => 0, fun _ => 1, by simp [Term.eval, intCmp, TV.int?]⟩
  refine C77_exists_partial (exits := fun _ => true) (inTry := false) (isFloat := fun _ => false) (guess := intGuess) (pure := fun _ => true)
    (modified := fun e => (names e).any (· ∈ incX.targets)) (mutableExpr := fun _ => false) (mutableStmt := fun _ => false) (unsat := unsat)
    (check := solver) (changes := true) (fun t => solver_true) (fun f => (hu f).mpr) ?_ ?_ ?_ ?_ ?_ ?_ ?_ ?_ ?_
  · intro n env h
    cases h
  · intro h
    cases h
  · intro e he x hxe ht
    rw [List.any_eq_false] at he
    exact he x hxe (by simpa using ht)
  · decide +kernel
  · simp [bxPos, Expr.Ok, OkOps, exX, exInt]
  · simp only [bxPos, InScope, InScopeOps, exX, exInt, and_true]
    exact ⟨hx, fun _ h => nomatch h⟩
  · simp [incX, bxOne, Block.Scoped, Blocks.Stmt.Scoped, InScope, exInt]
  · rw [hsat]
    have ha : bxAnswer unsat bxPos incX bxPos = .ok true := by
      have h : bxAnswer unsat bxPos incX bxPos = .ok (unsat (.and
        (conj [.eq exX 1 (.term (fun _ => 0) (.add (.var false exX) (.int 1)))])
        (.not (.imp (.term (fun _ => 0) (.cmp .gt (.var false exX) (.int 0)))
          (.term (Ver.set (fun _ => 0) exX 1) (.cmp .gt (.var false exX) (.int 0))))))) := rfl
      rw [h, (hu _).mp]
      intro zero σ
      simp only [Fm.eval, conj, Vl.eval, termValue, Term.eval, at_, Ver.set, if_true, TV.int?, num, eqValue,
        Option.map_some, Option.bind_some, intCmp]
      simp
      omega
    have h : bxLoop unsat bxPos incX =
      match bxAnswer unsat bxPos incX bxPos with
      | .error x => .error x
      | .ok false => .ok none
      | .ok true => .ok (some "implicit-infinite-loop".toList) := rfl
    have hl : bxLoop unsat bxPos incX = .ok (some "implicit-infinite-loop".toList) := by rw [h, ha]
    exact hl
  · intro σ vs hvs k hk
    have hd : initialized (intSem noRest) (fun _ => false) intGuess (fun _ => true) (fun e => (names e).any (· ∈ incX.targets))
      (fun _ => false) (fun _ => false) false bxPos incX bxPos = .ok (true, [(exX, false)]) := by decide +kernel
    rw [hd] at hvs
    cases hvs
    have : k = exX := by
      by_contra h1
      simp [Vars.lookup, Ne.symm h1] at hk
    subst this
    intro v hv
    have : v = .int (σ "x".toList) := by
      cases hv
      rfl
    subst this
    simp [Val.asInt]

end

end Verif.Py

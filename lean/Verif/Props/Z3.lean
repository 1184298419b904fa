import Verif.Model.Z3
import Verif.Props.ConstValue
import Verif.Lemmas.PyInt
import Mathlib.Tactic.ByContra

/-!
C44: a condition handed to the solver means what the condition means in Python.
-/

namespace Verif.Py

section
variable (R : FoldSem Val) (isFloat : Val → Bool)

mutual
/-- What the theorem is about. `P` holds of everything the solver is given as a variable; no number is a float and no
division gives one; the divisor of a floor division is not negative; `abs` has one argument. -/
def InScope (P : Expr → Prop) : Expr → Prop
  | .const v => ∀ t, v ≠ .float t
  | .name x => P (.name x)
  | .subscript a i => P (.subscript a i)
  | .attr a x => P (.attr a x)
  | .call f args => (f = .name "abs".toList → InScopeOne P args) ∧ (f ≠ .name "abs".toList → P (.call f args))
  | .bin op l r =>
    (nonlinear (intSem R) isFloat (.bin op l r) = .ok true → P (.bin op l r)) ∧
    (nonlinear (intSem R) isFloat (.bin op l r) = .ok false →
      InScope P l ∧
        match op with
        | .div => False
        | .mod => True
        | .floordiv => ∀ v c, constValue (intSem R) r = .ok (some v) → v.asInt = some c → 0 ≤ c
        | _ => InScope P r)
  | .unary _ e => InScope P e
  | .boolOp _ es => InScopeAll P es
  | .compare l ops => InScope P l ∧ InScopeOps P ops
  | _ => True

def InScopeOne (P : Expr → Prop) : List Expr → Prop
  | [] => False
  | e :: es => InScope P e ∧ es = []

def InScopeAll (P : Expr → Prop) : List Expr → Prop
  | [] => True
  | e :: es => InScope P e ∧ InScopeAll P es

def InScopeOps (P : Expr → Prop) : List (CmpOp × Expr) → Prop
  | [] => True
  | (_, e) :: es => InScope P e ∧ InScopeOps P es
end

variable (zero : Int → Int) (σ : Expr → Int) (env : Env Val)

/-- If a variable of the solver has a value in Python, it is the integer the solver has for it. -/
def Agrees (x : Expr) : Prop := ∀ v, eval (intSem R).toSem env x = .ok v → v.asInt = some (σ x)

/-- A number of Python and a number of the solver. -/
def SameNumber (t : Term) (e : Expr) : Prop :=
  ∃ i, t.eval zero σ = some (.int i) ∧ ∀ v, eval (intSem R).toSem env e = .ok v → v.asInt = some i

/-- A condition of Python and one of the solver. -/
def SameTruth (t : Term) (e : Expr) : Prop :=
  ∃ b, t.eval zero σ = some (.bool b) ∧ ∀ v, eval (intSem R).toSem env e = .ok v → (intSem R).truth v = .ok b

def Means (pb : Bool) (t : Term) (e : Expr) : Prop :=
  if pb then SameTruth R zero σ env t e else SameNumber R zero σ env t e

theorem truth_asInt {v : Val} {i : Int} (h : v.asInt = some i) : (intSem R).truth v = .ok (decide (i ≠ 0)) := by
  cases v with
  | bool b => cases b <;> simp [Val.asInt] at h <;> subst h <;> rfl
  | int j => simp [Val.asInt] at h; subst h; rfl
  | _ => simp [Val.asInt] at h

variable {R isFloat zero σ env}

theorem asCondition_means {t : Term} {e : Expr} (h : SameNumber R zero σ env t e) (pb : Bool) :
    Means R zero σ env pb (asCondition pb t) e := by
  cases pb with
  | false => exact h
  | true =>
    obtain ⟨i, hi, hv⟩ := h
    refine ⟨decide (i ≠ 0), ?_, fun v h => truth_asInt R (hv v h)⟩
    simp [asCondition, Term.eval, hi, TV.int?]

theorem var_means {vs : Vars} {e : Expr} {pb : Bool} {t : Term} (hP : Agrees R σ env e)
    (h : varTerm vs e pb = .ok (some t)) : Means R zero σ env pb t e := by
  unfold varTerm at h
  cases hl : vs.lookup e with
  | none => rw [hl] at h; cases h
  | some i =>
    rw [hl] at h
    cases h
    refine asCondition_means ⟨σ e, ?_, hP⟩ pb
    simp [Term.eval]

theorem eval_bin_ok {op : BinOp} {l r : Expr} {v : Val} (h : eval (intSem R).toSem env (.bin op l r) = .ok v) :
    ∃ a b, eval (intSem R).toSem env l = .ok a ∧ eval (intSem R).toSem env r = .ok b ∧
      (intSem R).binary op a b = .ok v := by
  simp only [eval] at h
  cases hl : eval (intSem R).toSem env l with
  | error x => simp [hl] at h
  | ok a =>
    cases hr : eval (intSem R).toSem env r with
    | error x => simp [hl, hr] at h
    | ok b => simp only [hl, hr] at h; exact ⟨a, b, rfl, rfl, h⟩

theorem arith_number {op : BinOp} (hop : op = .add ∨ op = .sub ∨ op = .mul) {tl tr : Term} {l r : Expr}
    (hl : SameNumber R zero σ env tl l) (hr : SameNumber R zero σ env tr r) :
    SameNumber R zero σ env (arithTerm op tl tr) (.bin op l r) := by
  obtain ⟨i, hi, hvl⟩ := hl
  obtain ⟨j, hj, hvr⟩ := hr
  have key : ∀ (k : Int), intBin op i j = some (.ok (.int k)) →
      ∀ v, eval (intSem R).toSem env (.bin op l r) = .ok v → v.asInt = some k := by
    intro k hk v hv
    obtain ⟨a, b, ha, hb, hv⟩ := eval_bin_ok hv
    rw [intSem_binary R (hvl a ha) (hvr b hb) hk] at hv
    cases hv
    rfl
  rcases hop with rfl | rfl | rfl
  · exact ⟨i + j, by simp [arithTerm, Term.eval, hi, hj, TV.int?], key _ rfl⟩
  · exact ⟨i - j, by simp [arithTerm, Term.eval, hi, hj, TV.int?], key _ rfl⟩
  · exact ⟨i * j, by simp [arithTerm, Term.eval, hi, hj, TV.int?], key _ rfl⟩

theorem mod_number {tl : Term} {l r : Expr} {w : Val} {c : Int} (hl : SameNumber R zero σ env tl l)
    (hw : constValue (intSem R) r = .ok (some w)) (hc : w.asInt = some c) (h1 : c > 1) :
    SameNumber R zero σ env (.mod tl c) (.bin .mod l r) := by
  obtain ⟨i, hi, hvl⟩ := hl
  refine ⟨i % c, by simp [Term.eval, hi, TV.int?], ?_⟩
  intro v hv
  obtain ⟨a, b, ha, hb, hv⟩ := eval_bin_ok hv
  rw [C33_value (intSem R) env r w hw] at hb
  cases hb
  have hne : c ≠ 0 := by omega
  have : intBin .mod i c = some (.ok (.int (i.fmod c))) := by simp [intBin, hne]
  rw [intSem_binary R (hvl a ha) hc this] at hv
  cases hv
  rw [Int.fmod_eq_emod_of_nonneg i (by omega)]
  rfl

theorem div_number {tl : Term} {l r : Expr} {w : Val} {c : Int} (hl : SameNumber R zero σ env tl l)
    (hw : constValue (intSem R) r = .ok (some w)) (hc : w.asInt = some c) (h0 : 0 ≤ c) :
    SameNumber R zero σ env (.div tl c) (.bin .floordiv l r) := by
  obtain ⟨i, hi, hvl⟩ := hl
  refine ⟨smtDiv zero i c, by simp [Term.eval, hi, TV.int?], ?_⟩
  intro v hv
  obtain ⟨a, b, ha, hb, hv⟩ := eval_bin_ok hv
  rw [C33_value (intSem R) env r w hw] at hb
  cases hb
  by_cases hz : c = 0
  · have : intBin .floordiv i c = some (.error .zeroDivisionError) := by simp [intBin, hz]
    rw [intSem_binary R (hvl a ha) hc this] at hv
    cases hv
  · have : intBin .floordiv i c = some (.ok (.int (i.fdiv c))) := by simp [intBin, hz]
    rw [intSem_binary R (hvl a ha) hc this] at hv
    cases hv
    rw [Int.fdiv_eq_ediv_of_nonneg i h0]
    simp [Val.asInt, smtDiv, hz]

theorem eval_unary_ok {op : UnOp} (hop : op ≠ .not) {e : Expr} {v : Val}
    (h : eval (intSem R).toSem env (.unary op e) = .ok v) :
    ∃ a, eval (intSem R).toSem env e = .ok a ∧ (intSem R).unary op a = .ok v := by
  simp only [eval] at h
  cases he : eval (intSem R).toSem env e with
  | error x => simp [he] at h
  | ok a => simp only [he, if_neg hop] at h; exact ⟨a, rfl, h⟩

theorem neg_number {t : Term} {e : Expr} (h : SameNumber R zero σ env t e) :
    SameNumber R zero σ env (.neg t) (.unary .neg e) := by
  obtain ⟨i, hi, hv⟩ := h
  refine ⟨-i, by simp [Term.eval, hi, TV.int?], ?_⟩
  intro v hev
  obtain ⟨a, ha, hev⟩ := eval_unary_ok (by decide) hev
  rw [(intSem_unary R (hv a ha)).1] at hev
  cases hev
  rfl

theorem pos_number {t : Term} {e : Expr} (h : SameNumber R zero σ env t e) :
    SameNumber R zero σ env t (.unary .pos e) := by
  obtain ⟨i, hi, hv⟩ := h
  refine ⟨i, hi, ?_⟩
  intro v hev
  obtain ⟨a, ha, hev⟩ := eval_unary_ok (by decide) hev
  rw [(intSem_unary R (hv a ha)).2.1] at hev
  cases hev
  rfl

theorem not_truth {t : Term} {e : Expr} (h : SameTruth R zero σ env t e) :
    SameTruth R zero σ env (.not t) (.unary .not e) := by
  obtain ⟨b, hb, hv⟩ := h
  refine ⟨!b, by simp [Term.eval, hb, TV.bool?], ?_⟩
  intro v hev
  simp only [eval] at hev
  cases he : eval (intSem R).toSem env e with
  | error x => simp [he] at hev
  | ok a =>
    simp only [he, if_true, hv a he] at hev
    cases hev
    rfl

theorem abs_number (hB : Builtins env) {t : Term} {e : Expr} (h : SameNumber R zero σ env t e) :
    SameNumber R zero σ env (.abs t) (.call (.name "abs".toList) [e]) := by
  obtain ⟨i, hi, hv⟩ := h
  refine ⟨if i > 0 then i else -i, by simp [Term.eval, hi, TV.int?], ?_⟩
  intro v hev
  simp only [eval, evalAll, hB "abs".toList (by simp)] at hev
  cases he : eval (intSem R).toSem env e with
  | error x => simp [he] at hev
  | ok a =>
    simp only [he] at hev
    have hc : builtinCall "abs".toList [a] = some (.ok (.int i.natAbs)) := by
      unfold builtinCall
      rw [if_neg (by decide), if_neg (by decide), if_pos rfl]
      simp only [hv a he]
    rw [intSem_call R hc] at hev
    cases hev
    simp only [Val.asInt]
    congr 1
    split <;> omega

theorem cmp_truth {op : CmpOp} (hop : ¬ (op = .isIn ∨ op = .notIn ∨ op = .is ∨ op = .isNot)) {tl tr : Term} {l r : Expr}
    (hl : SameNumber R zero σ env tl l) (hr : SameNumber R zero σ env tr r) :
    SameTruth R zero σ env (.cmp op tl tr) (.compare l [(op, r)]) := by
  obtain ⟨i, hi, hvl⟩ := hl
  obtain ⟨j, hj, hvr⟩ := hr
  have hc : ∃ b, intCmp op i j = some b := by
    cases op <;> first | exact ⟨_, rfl⟩ | simp at hop
  obtain ⟨b, hc⟩ := hc
  refine ⟨b, by simp [Term.eval, hi, hj, TV.int?, hc], ?_⟩
  intro v hev
  simp only [eval, evalCmp] at hev
  cases he : eval (intSem R).toSem env l with
  | error x => simp [he] at hev
  | ok a =>
    simp only [he] at hev
    cases hf : eval (intSem R).toSem env r with
    | error x => simp [hf] at hev
    | ok w =>
      simp only [hf, intSem_cmp R (hvl a he) (hvr w hf) hc] at hev
      cases hev
      rfl

variable {guess : Expr → Option Types} {noNew : Bool}

theorem evalBool_cons {isOr : Bool} {e : Expr} {es : List Expr} {b : Bool} {bs : List Bool}
    (he : ∀ v, eval (intSem R).toSem env e = .ok v → (intSem R).truth v = .ok b)
    (hes : ∀ v, evalBool (intSem R).toSem env isOr es = .ok v →
      (intSem R).truth v = .ok (if isOr then bs.any id else bs.all id))
    (hnil : es = [] → bs = []) :
    ∀ v, evalBool (intSem R).toSem env isOr (e :: es) = .ok v →
      (intSem R).truth v = .ok (if isOr then (b :: bs).any id else (b :: bs).all id) := by
  intro v hv
  simp only [evalBool] at hv
  cases hev : eval (intSem R).toSem env e with
  | error x => simp [hev] at hv
  | ok a =>
    have ht := he a hev
    simp only [hev] at hv
    cases es with
    | nil =>
      cases hv
      rw [hnil rfl, ht]
      cases isOr <;> simp
    | cons f fs =>
      simp only [ht] at hv
      by_cases hb : b = isOr
      · rw [if_pos hb] at hv
        cases hv
        rw [ht, hb]
        cases isOr <;> simp
      · rw [if_neg hb] at hv
        rw [hes v hv]
        cases isOr <;> cases b <;> simp at hb ⊢

mutual
theorem convert_means (hB : Builtins env) : ∀ (e : Expr) (d pb : Bool) (vs0 vs1 vs : Vars) (t : Term),
    InScope R isFloat (Agrees R σ env) e →
    initVars (intSem R) isFloat guess noNew e d pb vs0 = .ok (true, vs1) →
    convert (intSem R) isFloat vs e pb = .ok (some t) → Means R zero σ env pb t e
  | .const v, d, pb, vs0, vs1, vs, t, hs, hi, hc => by
    cases v with
    | bool b =>
      cases pb with
      | false => simp [initVars, notAllowed] at hi
      | true =>
        simp only [convert] at hc
        cases hc
        refine ⟨b, by simp [Term.eval], ?_⟩
        intro v hv
        simp only [eval] at hv
        cases hv
        rfl
    | int n =>
      simp only [convert] at hc
      cases hc
      refine asCondition_means ⟨n, by simp [Term.eval], ?_⟩ pb
      intro v hv
      simp only [eval] at hv
      cases hv
      rfl
    | float x => exact absurd rfl (hs x)
    | none => simp only [convert] at hc; cases hc
    | str x => simp only [convert] at hc; cases hc
    | other x => simp only [convert] at hc; cases hc
  | .name x, d, pb, vs0, vs1, vs, t, hs, hi, hc => by
    simp only [convert] at hc
    simp only [InScope] at hs
    exact var_means hs hc
  | .subscript a i, d, pb, vs0, vs1, vs, t, hs, hi, hc => by
    simp only [convert] at hc
    simp only [InScope] at hs
    exact var_means hs hc
  | .attr a x, d, pb, vs0, vs1, vs, t, hs, hi, hc => by
    simp only [convert] at hc
    simp only [InScope] at hs
    exact var_means hs hc
  | .call f args, d, pb, vs0, vs1, vs, t, hs, hi, hc => by
    simp only [convert] at hc
    simp only [InScope] at hs
    by_cases hf : f = .name "abs".toList
    · rw [if_pos hf] at hc
      rw [initVars] at hi
      simp only [notAllowed, if_pos hf] at hi
      have hs := hs.1 hf
      cases hfi : convertFirst (intSem R) isFloat vs args with
      | error x => rw [hfi] at hc; cases hc
      | ok o =>
        cases o with
        | none => rw [hfi] at hc; cases hc
        | some u =>
          rw [hfi] at hc
          cases hc
          obtain ⟨e, rfl, hn⟩ := convertFirst_means hB args d vs0 vs1 vs u hs hi hfi
          rw [hf]
          exact asCondition_means (abs_number hB hn) pb
    · rw [if_neg hf] at hc
      exact var_means (hs.2 hf) hc
  | .bin op l r, d, pb, vs0, vs1, vs, t, hs, hi, hc => by
    simp only [convert] at hc
    simp only [InScope] at hs
    rw [initVars] at hi
    cases hna : notAllowed (intSem R) isFloat (.bin op l r) d pb with
    | error x => rw [hna] at hi; cases hi
    | ok b =>
      cases b with
      | true => rw [hna] at hi; cases hi
      | false =>
        rw [hna] at hi
        simp only at hi
        cases hnl : nonlinear (intSem R) isFloat (.bin op l r) with
        | error x => rw [hnl] at hc; cases hc
        | ok n =>
          cases n with
          | true =>
            rw [hnl] at hc
            exact var_means (hs.1 hnl) hc
          | false =>
            rw [hnl] at hc hi
            simp only at hc hi
            obtain ⟨hsl, hsr⟩ := hs.2 hnl
            cases hcl : convert (intSem R) isFloat vs l false with
            | error x => rw [hcl] at hc; cases hc
            | ok tl =>
              rw [hcl] at hc
              simp only at hc
              have harith : ∀ (hop : op = .add ∨ op = .sub ∨ op = .mul) (hsr : InScope R isFloat (Agrees R σ env) r)
                  (hc : arithResult op pb tl (convert (intSem R) isFloat vs r false) = Except.ok (some t)),
                  Means R zero σ env pb t (.bin op l r) := by
                intro hop hsr hc
                rw [if_neg (by rcases hop with rfl | rfl | rfl <;> decide)] at hi
                cases hil : initVars (intSem R) isFloat guess noNew l d false vs0 with
                | error x => rw [hil] at hi; cases hi
                | ok p =>
                  obtain ⟨bl, vl⟩ := p
                  rw [hil] at hi
                  cases bl with
                  | false => cases hi
                  | true =>
                    simp only at hi
                    cases hcr : convert (intSem R) isFloat vs r false with
                    | error x => rw [hcr] at hc; cases hc
                    | ok tr =>
                      rw [hcr] at hc
                      cases tl with
                      | none => cases hc
                      | some a =>
                        cases tr with
                        | none => cases hc
                        | some b =>
                          cases hc
                          exact asCondition_means (arith_number hop
                            (convert_means hB l d false vs0 vl vs a hsl hil hcl)
                            (convert_means hB r d false vl vs1 vs b hsr hi hcr)) pb
              cases op with
              | add => exact harith (by simp) hsr hc
              | sub => exact harith (by simp) hsr hc
              | mul => exact harith (by simp) hsr hc
              | div => exact hsr.elim
              | mod =>
                simp only [true_or, if_true] at hi
                cases tl with
                | none => cases hc
                | some a =>
                  simp only at hc
                  by_cases hia : a.isInt = true
                  · rw [if_pos hia] at hc
                    have hl := convert_means hB l true false vs0 vs1 vs a hsl hi hcl
                    unfold divTerm at hc
                    cases hcv : constValue (intSem R) r with
                    | error x => rw [hcv] at hc; cases hc
                    | ok o =>
                      cases o with
                      | none => rw [hcv] at hc; cases hc
                      | some w =>
                        rw [hcv] at hc
                        simp only at hc
                        cases hw : w.asInt with
                        | none => rw [hw] at hc; cases hc
                        | some c =>
                          rw [hw] at hc
                          simp only at hc
                          by_cases h1 : c > 1
                          · rw [if_pos h1] at hc
                            cases hc
                            exact asCondition_means (mod_number hl hcv hw h1) pb
                          · rw [if_neg h1] at hc; cases hc
                  · rw [if_neg hia] at hc; cases hc
              | floordiv =>
                simp only [or_true, if_true] at hi
                cases tl with
                | none => cases hc
                | some a =>
                  simp only at hc
                  by_cases hia : a.isInt = true
                  · rw [if_pos hia] at hc
                    have hl := convert_means hB l true false vs0 vs1 vs a hsl hi hcl
                    unfold divTerm at hc
                    cases hcv : constValue (intSem R) r with
                    | error x => rw [hcv] at hc; cases hc
                    | ok o =>
                      cases o with
                      | none => rw [hcv] at hc; cases hc
                      | some w =>
                        rw [hcv] at hc
                        simp only at hc
                        cases hw : w.asInt with
                        | none => rw [hw] at hc; cases hc
                        | some c =>
                          rw [hw] at hc
                          cases hc
                          exact asCondition_means (div_number hl hcv hw (hsr w c hcv hw)) pb
                  · rw [if_neg hia] at hc; cases hc
              | pow => cases hc
              | matmul => cases hc
              | lshift => cases hc
              | rshift => cases hc
              | bitor => cases hc
              | bitxor => cases hc
              | bitand => cases hc
  | .unary op e, d, pb, vs0, vs1, vs, t, hs, hi, hc => by
    simp only [convert] at hc
    simp only [InScope] at hs
    rw [initVars] at hi
    cases hna : notAllowed (intSem R) isFloat (.unary op e) d pb with
    | error x => rw [hna] at hi; cases hi
    | ok b =>
      cases b with
      | true => rw [hna] at hi; cases hi
      | false =>
        rw [hna] at hi
        simp only at hi
        cases hce : convert (intSem R) isFloat vs e (decide (op = .not)) with
        | error x => rw [hce] at hc; cases hc
        | ok o =>
          cases o with
          | none => rw [hce] at hc; cases hc
          | some u =>
            rw [hce] at hc
            have hm := convert_means hB e d _ vs0 vs1 vs u hs hi hce
            cases op with
            | neg => cases hc; exact asCondition_means (neg_number hm) pb
            | pos => cases hc; exact asCondition_means (pos_number hm) pb
            | not =>
              cases hc
              cases pb with
              | false => simp [notAllowed] at hna
              | true => exact not_truth hm
            | invert => simp [notAllowed] at hna
  | .boolOp isOr es, d, pb, vs0, vs1, vs, t, hs, hi, hc => by
    simp only [convert] at hc
    simp only [InScope] at hs
    rw [initVars] at hi
    cases pb with
    | false => simp [notAllowed] at hi
    | true =>
      simp only [notAllowed, Bool.not_true] at hi
      cases hce : convertAll (intSem R) isFloat vs es with
      | error x => rw [hce] at hc; cases hc
      | ok o =>
        cases o with
        | none => rw [hce] at hc; cases hc
        | some ts =>
          rw [hce] at hc
          cases hc
          obtain ⟨bs, hbs, hv, _⟩ := convertAll_means hB es d vs0 vs1 vs ts hs hi hce
          refine ⟨if isOr then bs.any id else bs.all id, ?_, ?_⟩
          · cases isOr <;> simp [Term.eval, hbs]
          · intro v hev
            simp only [eval] at hev
            exact hv isOr v hev
  | .compare l ops, d, pb, vs0, vs1, vs, t, hs, hi, hc => by
    simp only [convert] at hc
    simp only [InScope] at hs
    rw [initVars] at hi
    match ops with
    | [] => simp [notAllowed] at hi
    | _ :: _ :: _ => simp [notAllowed] at hi
    | [(op, r)] =>
      cases hna : notAllowed (intSem R) isFloat (.compare l [(op, r)]) d pb with
      | error x => rw [hna] at hi; cases hi
      | ok b =>
        cases b with
        | true => rw [hna] at hi; cases hi
        | false =>
          rw [hna] at hi
          simp only at hi
          simp only [notAllowed, Except.ok.injEq, Bool.or_eq_false_iff, decide_eq_false_iff_not] at hna
          obtain ⟨hop, hpb⟩ := hna
          cases pb with
          | false => cases hpb
          | true =>
            cases hil : initVars (intSem R) isFloat guess noNew l d false vs0 with
            | error x => rw [hil] at hi; cases hi
            | ok p =>
              obtain ⟨bl, vl⟩ := p
              rw [hil] at hi
              cases bl with
              | false => cases hi
              | true =>
                simp only at hi
                simp only [initOps] at hi
                cases hir : initVars (intSem R) isFloat guess noNew r d false vl with
                | error x => rw [hir] at hi; cases hi
                | ok p =>
                  obtain ⟨br, vr⟩ := p
                  rw [hir] at hi
                  cases br with
                  | false => cases hi
                  | true =>
                    cases hcl : convert (intSem R) isFloat vs l false with
                    | error x => rw [hcl] at hc; cases hc
                    | ok tl =>
                      rw [hcl] at hc
                      simp only [convertOp] at hc
                      cases hcr : convert (intSem R) isFloat vs r false with
                      | error x => rw [hcr] at hc; cases hc
                      | ok tr =>
                        rw [hcr] at hc
                        cases tl with
                        | none => cases hc
                        | some a =>
                          cases tr with
                          | none => cases hc
                          | some b =>
                            simp only [if_neg hop] at hc
                            cases hc
                            simp only [InScopeOps] at hs
                            exact cmp_truth hop (convert_means hB l d false vs0 vl vs a hs.1 hil hcl)
                              (convert_means hB r d false vl vr vs b hs.2.1 hir hcr)
  | .ifExp _ _ _, d, pb, vs0, vs1, vs, t, hs, hi, hc => by
    simp only [convert] at hc
    cases hc
  | .other _ _, d, pb, vs0, vs1, vs, t, hs, hi, hc => by
    simp only [convert] at hc
    cases hc

theorem convertFirst_means (hB : Builtins env) : ∀ (es : List Expr) (d : Bool) (vs0 vs1 vs : Vars) (t : Term),
    InScopeOne R isFloat (Agrees R σ env) es →
    initFirst (intSem R) isFloat guess noNew es d vs0 = .ok (true, vs1) →
    convertFirst (intSem R) isFloat vs es = .ok (some t) → ∃ e, es = [e] ∧ SameNumber R zero σ env t e
  | [], d, vs0, vs1, vs, t, hs, hi, hc => by simp only [convertFirst] at hc; cases hc
  | e :: es, d, vs0, vs1, vs, t, hs, hi, hc => by
    simp only [InScopeOne] at hs
    simp only [initFirst] at hi
    simp only [convertFirst] at hc
    exact ⟨e, by rw [hs.2], convert_means hB e d false vs0 vs1 vs t hs.1 hi hc⟩

theorem convertAll_means (hB : Builtins env) : ∀ (es : List Expr) (d : Bool) (vs0 vs1 vs : Vars) (ts : List Term),
    InScopeAll R isFloat (Agrees R σ env) es →
    initAll (intSem R) isFloat guess noNew es d vs0 = .ok (true, vs1) →
    convertAll (intSem R) isFloat vs es = .ok (some ts) →
    ∃ bs, Term.evalAll zero σ ts = some bs ∧
      (∀ isOr v, evalBool (intSem R).toSem env isOr es = .ok v →
        (intSem R).truth v = .ok (if isOr then bs.any id else bs.all id)) ∧ (es = [] → bs = [])
  | [], d, vs0, vs1, vs, ts, hs, hi, hc => by
    simp only [convertAll] at hc
    cases hc
    exact ⟨[], by simp [Term.evalAll], fun isOr v h => by simp [evalBool] at h, fun _ => rfl⟩
  | e :: es, d, vs0, vs1, vs, ts, hs, hi, hc => by
    simp only [InScopeAll] at hs
    simp only [initAll] at hi
    simp only [convertAll] at hc
    cases hie : initVars (intSem R) isFloat guess noNew e d true vs0 with
    | error x => rw [hie] at hi; cases hi
    | ok p =>
      obtain ⟨b, v1⟩ := p
      rw [hie] at hi
      cases b with
      | false => cases hi
      | true =>
        simp only at hi
        cases hce : convert (intSem R) isFloat vs e true with
        | error x => rw [hce] at hc; cases hc
        | ok o =>
          cases o with
          | none => rw [hce] at hc; cases hc
          | some t =>
            rw [hce] at hc
            simp only at hc
            cases hcs : convertAll (intSem R) isFloat vs es with
            | error x => rw [hcs] at hc; cases hc
            | ok o =>
              cases o with
              | none => rw [hcs] at hc; cases hc
              | some us =>
                rw [hcs] at hc
                cases hc
                obtain ⟨b, hb, hv⟩ := convert_means hB e d true vs0 v1 vs t hs.1 hie hce
                obtain ⟨bs, hbs, hvs, hn⟩ := convertAll_means hB es d v1 vs1 vs us hs.2 hi hcs
                exact ⟨b :: bs, by simp [Term.evalAll, hb, hbs, TV.bool?],
                  fun isOr => evalBool_cons hv (hvs isOr) hn, fun h => by cases h⟩
end

/-- **C44** for conditions in scope: a condition that was admitted and translated is true for the solver exactly if it is
true in Python, in every environment in which everything the solver has as a variable is an integer if it is a value at
all. -/
theorem C44_partial (hB : Builtins env) {e : Expr} {vs0 vs1 vs : Vars} {t : Term} {pb : Bool} (hpb : pb = true)
    (hs : InScope R isFloat (Agrees R σ env) e)
    (hi : initVars (intSem R) isFloat guess noNew e false pb vs0 = .ok (true, vs1))
    (hc : convert (intSem R) isFloat vs e pb = .ok (some t)) {b : Bool}
    (hv : truthOf (intSem R).toSem env e = .ok b) : t.eval zero σ = some (.bool b) := by
  subst hpb
  obtain ⟨b', hb, h⟩ := convert_means (zero := zero) hB e false true vs0 vs1 vs t hs hi hc
  unfold truthOf at hv
  cases he : eval (intSem R).toSem env e with
  | error x => rw [he] at hv; cases hv
  | ok v =>
    rw [he] at hv
    have := h v he
    rw [hb]
    simp only at hv
    rw [this] at hv
    cases hv
    rfl

mutual
theorem InScope.mono {P Q : Expr → Prop} (h : ∀ x, P x → Q x) : ∀ e, InScope R isFloat P e → InScope R isFloat Q e
  | .const v, he => by simp only [InScope] at he ⊢; exact he
  | .name x, he => by simp only [InScope] at he ⊢; exact h _ he
  | .subscript a i, he => by simp only [InScope] at he ⊢; exact h _ he
  | .attr a x, he => by simp only [InScope] at he ⊢; exact h _ he
  | .call f args, he => by
    simp only [InScope] at he ⊢
    exact ⟨fun hf => InScopeOne.mono h args (he.1 hf), fun hf => h _ (he.2 hf)⟩
  | .bin op l r, he => by
    simp only [InScope] at he ⊢
    refine ⟨fun hn => h _ (he.1 hn), fun hn => ?_⟩
    obtain ⟨hl, hr⟩ := he.2 hn
    refine ⟨InScope.mono h l hl, ?_⟩
    cases op <;> first | exact InScope.mono h r hr | exact hr
  | .unary _ e, he => by simp only [InScope] at he ⊢; exact InScope.mono h e he
  | .boolOp _ es, he => by simp only [InScope] at he ⊢; exact InScopeAll.mono h es he
  | .compare l ops, he => by
    simp only [InScope] at he ⊢; exact ⟨InScope.mono h l he.1, InScopeOps.mono h ops he.2⟩
  | .ifExp _ _ _, _ => by simp only [InScope]
  | .other _ _, _ => by simp only [InScope]

theorem InScopeOne.mono {P Q : Expr → Prop} (h : ∀ x, P x → Q x) :
    ∀ es, InScopeOne R isFloat P es → InScopeOne R isFloat Q es
  | [], he => by simp only [InScopeOne] at he
  | e :: es, he => by simp only [InScopeOne] at he ⊢; exact ⟨InScope.mono h e he.1, he.2⟩

theorem InScopeAll.mono {P Q : Expr → Prop} (h : ∀ x, P x → Q x) :
    ∀ es, InScopeAll R isFloat P es → InScopeAll R isFloat Q es
  | [], _ => by simp only [InScopeAll]
  | e :: es, he => by simp only [InScopeAll] at he ⊢; exact ⟨InScope.mono h e he.1, InScopeAll.mono h es he.2⟩

theorem InScopeOps.mono {P Q : Expr → Prop} (h : ∀ x, P x → Q x) :
    ∀ es, InScopeOps R isFloat P es → InScopeOps R isFloat Q es
  | [], _ => by simp only [InScopeOps]
  | (_, e) :: es, he => by simp only [InScopeOps] at he ⊢; exact ⟨InScope.mono h e he.1, InScopeOps.mono h es he.2⟩
end

variable (R env) in
/-- The value of an expression is an integer or a truth value, if it has one. -/
def IntValued (x : Expr) : Prop := ∀ v, eval (intSem R).toSem env x = .ok v → v.asInt ≠ none

variable (R env) in
/-- The values of the variables in an environment. -/
def valuation (x : Expr) : Int :=
  match eval (intSem R).toSem env x with
  | .ok v => v.asInt.getD 0
  | .error _ => 0

theorem agrees_valuation {x : Expr} (h : IntValued R env x) : Agrees R (valuation R env) env x := by
  intro v hv
  have := h v hv
  simp only [valuation, hv]
  cases hi : v.asInt with
  | none => exact absurd hi this
  | some i => rfl

/-- What a sound solver means by `unsat`: no values of the variables make the term true. -/
def Unsat (t : Term) : Prop := ∀ zero σ, t.eval zero σ ≠ some (.bool true)

/-- **C44**, consequence: a condition of which the solver says that it is not satisfiable is not true in any environment
in which its variables are integers. -/
theorem C44_unsat_partial (hB : Builtins env) {e : Expr} {vs0 vs1 vs : Vars} {t : Term}
    (hs : InScope R isFloat (IntValued R env) e)
    (hi : initVars (intSem R) isFloat guess noNew e false true vs0 = .ok (true, vs1))
    (hc : convert (intSem R) isFloat vs e true = .ok (some t)) (hu : Unsat t) :
    truthOf (intSem R).toSem env e ≠ .ok true := by
  intro hv
  exact hu (fun _ => 0) _
    (C44_partial hB rfl (InScope.mono (fun x => agrees_valuation) e hs) hi hc hv)

/-- **C44**, consequence for `implies`, `edulint/linting/analyses/z3_analysis.py:391-393`: if the solver says that there
are no values for which the first condition is true and the second is not, then the second is true whenever the first is and
it has a value. -/
theorem C44_implies_partial (hB : Builtins env) {e₁ e₂ : Expr} {vs0 vs1 vs2 vs3 vs : Vars} {t₁ t₂ : Term} {noNew₂ : Bool}
    (hs₁ : InScope R isFloat (IntValued R env) e₁) (hs₂ : InScope R isFloat (IntValued R env) e₂)
    (hi₁ : initVars (intSem R) isFloat guess noNew e₁ false true vs0 = .ok (true, vs1))
    (hi₂ : initVars (intSem R) isFloat guess noNew₂ e₂ false true vs2 = .ok (true, vs3))
    (hc₁ : convert (intSem R) isFloat vs e₁ true = .ok (some t₁))
    (hc₂ : convert (intSem R) isFloat vs e₂ true = .ok (some t₂)) (hu : Unsat (.and [t₁, .not t₂]))
    (h₁ : truthOf (intSem R).toSem env e₁ = .ok true) {b : Bool} (h₂ : truthOf (intSem R).toSem env e₂ = .ok b) :
    b = true := by
  have k₁ := C44_partial (zero := fun _ => 0) hB rfl (InScope.mono (fun x => agrees_valuation) e₁ hs₁) hi₁ hc₁ h₁
  have k₂ := C44_partial (zero := fun _ => 0) hB rfl (InScope.mono (fun x => agrees_valuation) e₂ hs₂) hi₂ hc₂ h₂
  cases b with
  | true => rfl
  | false =>
    refine absurd ?_ (hu (fun _ => 0) (valuation R env))
    simp [Term.eval, Term.evalAll, k₁, k₂, TV.bool?]

end

/-! ### C62: translating raises no exception -/

section
variable {R : FoldSem Val} {isFloat : Val → Bool} {guess : Expr → Option Types} {noNew : Bool}

def Vars.Sub (vs ws : Vars) : Prop := ∀ x, vs.lookup x ≠ none → ws.lookup x ≠ none

theorem lookup_append (vs : Vars) (p : Expr × Bool) (x : Expr) :
    Vars.lookup (vs ++ [p]) x ≠ none ↔ vs.lookup x ≠ none ∨ p.1 = x := by
  simp only [Vars.lookup, ne_eq, Option.map_eq_none_iff, List.find?_eq_none, List.mem_append, List.mem_singleton,
    decide_eq_true_eq]
  constructor
  · intro h
    by_contra hc
    rw [not_or, not_not] at hc
    apply h
    intro q hq
    rcases hq with hq | rfl
    · exact hc.1 q hq
    · exact hc.2
  · rintro (h | h) h'
    · exact h fun q hq => h' q (.inl hq)
    · exact h' p (.inr rfl) h

theorem lookup_map (vs : Vars) (e x : Expr) :
    Vars.lookup (vs.map fun p => if p.1 = e then (p.1, true) else p) x ≠ none ↔ vs.lookup x ≠ none := by
  simp only [Vars.lookup, ne_eq, Option.map_eq_none_iff, List.find?_eq_none, List.mem_map, decide_eq_true_eq]
  have h1 : ∀ p : Expr × Bool, (if p.1 = e then (p.1, true) else p).1 = p.1 := by
    intro p; by_cases h : p.1 = e <;> simp [h]
  constructor
  · intro h h'
    apply h
    rintro q ⟨p, hp, rfl⟩
    rw [h1]; exact h' p hp
  · intro h h'
    apply h
    intro p hp
    have := h' _ ⟨p, hp, rfl⟩
    rwa [h1] at this

theorem initVar_sub (e : Expr) (d : Bool) (vs : Vars) : vs.Sub (initVar guess e d vs).2 := by
  intro x hx
  unfold initVar
  cases guess e with
  | none => exact hx
  | some g =>
    simp only
    cases hl : vs.lookup e with
    | none => simp only; rw [lookup_append]; exact .inl hx
    | some i =>
      simp only
      by_cases h : d = true ∧ i = false
      · rw [if_pos h, lookup_map]; exact hx
      · rw [if_neg h]; exact hx

theorem initVar_mem {e : Expr} {d : Bool} {vs vs' : Vars} (h : initVar guess e d vs = (true, vs')) :
    vs'.lookup e ≠ none := by
  unfold initVar at h
  cases hg : guess e with
  | none => rw [hg] at h; cases h
  | some g =>
    rw [hg] at h
    simp only [Prod.mk.injEq] at h
    obtain ⟨_, rfl⟩ := h
    cases hl : vs.lookup e with
    | none => simp only; rw [lookup_append]; exact .inr rfl
    | some i =>
      simp only
      by_cases h : d = true ∧ i = false
      · rw [if_pos h, lookup_map, hl]; simp
      · rw [if_neg h, hl]; simp

theorem ite_initVar_sub {c : Bool} {e : Expr} {d : Bool} {vs vs' : Vars} {b : Bool}
    (h : (if c = true then (false, vs) else initVar guess e d vs) = (b, vs')) : vs.Sub vs' := by
  by_cases hc : c = true
  · rw [if_pos hc] at h; cases h; exact fun x hx => hx
  · rw [if_neg hc] at h
    have := initVar_sub (guess := guess) e d vs
    rw [h] at this
    exact this

theorem ite_initVar_mem {c : Bool} {e : Expr} {d : Bool} {vs vs' : Vars}
    (h : (if c = true then (false, vs) else initVar guess e d vs) = (true, vs')) : vs'.lookup e ≠ none := by
  by_cases hc : c = true
  · rw [if_pos hc] at h; cases h
  · rw [if_neg hc] at h; exact initVar_mem h

theorem Vars.Sub.trans {a b c : Vars} (h : a.Sub b) (h' : b.Sub c) : a.Sub c := fun x hx => h' x (h x hx)

mutual
theorem initVars_sub : ∀ (e : Expr) (d pb : Bool) (vs vs' : Vars) (b : Bool),
    initVars (intSem R) isFloat guess noNew e d pb vs = .ok (b, vs') → vs.Sub vs'
  | e, d, pb, vs, vs', b, h => by
    cases hna : notAllowed (intSem R) isFloat e d pb with
    | error x => rw [initVars.eq_def] at h; simp only [hna] at h; cases h
    | ok n =>
      cases n with
      | true => rw [initVars.eq_def] at h; simp only [hna] at h; cases h; exact fun x hx => hx
      | false =>
        cases e with
        | name x =>
          simp only [initVars, hna, Except.ok.injEq] at h
          have := initVar_sub (guess := guess) (.name x) d vs
          rw [h] at this
          exact this
        | subscript a i => simp only [initVars, hna, Except.ok.injEq] at h; exact ite_initVar_sub h
        | attr a i => simp only [initVars, hna, Except.ok.injEq] at h; exact ite_initVar_sub h
        | call f args =>
          simp only [initVars, hna] at h
          by_cases hf : f = .name "abs".toList
          · rw [if_pos hf] at h; exact initFirst_sub args d vs vs' b h
          · rw [if_neg hf] at h; simp only [Except.ok.injEq] at h; exact ite_initVar_sub h
        | bin op l r =>
          simp only [initVars, hna] at h
          cases hnl : nonlinear (intSem R) isFloat (.bin op l r) with
          | error x => rw [hnl] at h; cases h
          | ok n =>
            rw [hnl] at h
            cases n with
            | true => simp only [Except.ok.injEq] at h; exact ite_initVar_sub h
            | false =>
              simp only at h
              by_cases hop : op = .mod ∨ op = .floordiv
              · rw [if_pos hop] at h; exact initVars_sub l _ _ vs vs' b h
              · rw [if_neg hop] at h
                cases hl : initVars (intSem R) isFloat guess noNew l d false vs with
                | error x => rw [hl] at h; cases h
                | ok p =>
                  obtain ⟨c, v1⟩ := p
                  rw [hl] at h
                  have h1 := initVars_sub l _ _ vs v1 c hl
                  cases c with
                  | false => cases h; exact h1
                  | true => exact h1.trans (initVars_sub r _ _ v1 vs' b h)
        | unary op x => simp only [initVars, hna] at h; exact initVars_sub x _ _ vs vs' b h
        | boolOp o es => simp only [initVars, hna] at h; exact initAll_sub es _ vs vs' b h
        | compare l ops =>
          simp only [initVars, hna] at h
          cases hl : initVars (intSem R) isFloat guess noNew l d false vs with
          | error x => rw [hl] at h; cases h
          | ok p =>
            obtain ⟨c, v1⟩ := p
            rw [hl] at h
            have h1 := initVars_sub l _ _ vs v1 c hl
            cases c with
            | false => cases h; exact h1
            | true => exact h1.trans (initOps_sub ops _ v1 vs' b h)
        | const v => simp only [initVars, hna] at h; cases h; exact fun x hx => hx
        | ifExp _ _ _ => simp only [initVars, hna] at h; cases h; exact fun x hx => hx
        | other _ _ => simp only [initVars, hna] at h; cases h; exact fun x hx => hx

theorem initFirst_sub : ∀ (es : List Expr) (d : Bool) (vs vs' : Vars) (b : Bool),
    initFirst (intSem R) isFloat guess noNew es d vs = .ok (b, vs') → vs.Sub vs'
  | [], d, vs, vs', b, h => by simp only [initFirst] at h; cases h
  | e :: _, d, vs, vs', b, h => by simp only [initFirst] at h; exact initVars_sub e _ _ vs vs' b h

theorem initAll_sub : ∀ (es : List Expr) (d : Bool) (vs vs' : Vars) (b : Bool),
    initAll (intSem R) isFloat guess noNew es d vs = .ok (b, vs') → vs.Sub vs'
  | [], d, vs, vs', b, h => by simp only [initAll] at h; cases h; exact fun x hx => hx
  | e :: es, d, vs, vs', b, h => by
    simp only [initAll] at h
    cases hl : initVars (intSem R) isFloat guess noNew e d true vs with
    | error x => rw [hl] at h; cases h
    | ok p =>
      obtain ⟨c, v1⟩ := p
      rw [hl] at h
      have h1 := initVars_sub e _ _ vs v1 c hl
      cases c with
      | false => cases h; exact h1
      | true => exact h1.trans (initAll_sub es _ v1 vs' b h)

theorem initOps_sub : ∀ (es : List (CmpOp × Expr)) (d : Bool) (vs vs' : Vars) (b : Bool),
    initOps (intSem R) isFloat guess noNew es d vs = .ok (b, vs') → vs.Sub vs'
  | [], d, vs, vs', b, h => by simp only [initOps] at h; cases h; exact fun x hx => hx
  | (_, e) :: es, d, vs, vs', b, h => by
    simp only [initOps] at h
    cases hl : initVars (intSem R) isFloat guess noNew e d false vs with
    | error x => rw [hl] at h; cases h
    | ok p =>
      obtain ⟨c, v1⟩ := p
      rw [hl] at h
      have h1 := initVars_sub e _ _ vs v1 c hl
      cases c with
      | false => cases h; exact h1
      | true => exact h1.trans (initOps_sub es _ v1 vs' b h)
end

variable (guess) in
/-- Every variable is guessed to be a number, and an integer if it is used as one. -/
def Numeric (vs : Vars) : Prop :=
  ∀ x i, (x, i) ∈ vs → ∃ g, guess x = some g ∧ (∀ t ∈ g.get, t = .bool ∨ t = .float ∨ t = .int) ∧
    (i = true → ∀ t ∈ g.get, t = .int)

theorem initVar_numeric {e : Expr} {d : Bool} {vs vs' : Vars} (h : initVar guess e d vs = (true, vs')) (hn : Numeric guess vs) :
    Numeric guess vs' := by
  unfold initVar at h
  cases hg : guess e with
  | none => rw [hg] at h; cases h
  | some g =>
    rw [hg] at h
    simp only [Prod.mk.injEq] at h
    obtain ⟨ht, rfl⟩ := h
    have hnum : ∀ t ∈ g.get, t = .bool ∨ t = .float ∨ t = .int := by
      intro t htg
      by_cases hd : d = true
      · rw [if_pos hd, Types.hasOnly, List.all_eq_true] at ht
        have := ht t htg
        simp only [List.mem_singleton, decide_eq_true_eq] at this
        exact .inr (.inr this)
      · rw [if_neg hd, Types.hasOnly, List.all_eq_true] at ht
        simpa using ht t htg
    have hint : d = true → ∀ t ∈ g.get, t = .int := by
      intro hd t htg
      rw [if_pos hd, Types.hasOnly, List.all_eq_true] at ht
      simpa using ht t htg
    cases hl : vs.lookup e with
    | none =>
      intro x i hx
      simp only [List.mem_append, List.mem_singleton, Prod.mk.injEq] at hx
      rcases hx with hx | ⟨rfl, rfl⟩
      · exact hn x i hx
      · exact ⟨g, hg, hnum, hint⟩
    | some i =>
      simp only
      by_cases h : d = true ∧ i = false
      · rw [if_pos h]
        intro x j hx
        simp only [List.mem_map] at hx
        obtain ⟨q, hq, hqx⟩ := hx
        by_cases he : q.1 = e
        · rw [if_pos he] at hqx
          cases hqx
          rw [he]
          exact ⟨g, hg, hnum, fun _ => hint h.1⟩
        · rw [if_neg he] at hqx
          subst hqx
          exact hn x j hq
      · rw [if_neg h]
        exact hn

theorem ite_initVar_numeric {c : Bool} {e : Expr} {d : Bool} {vs vs' : Vars}
    (h : (if c = true then (false, vs) else initVar guess e d vs) = (true, vs')) (hn : Numeric guess vs) :
    Numeric guess vs' := by
  by_cases hc : c = true
  · rw [if_pos hc] at h; cases h
  · rw [if_neg hc] at h; exact initVar_numeric h hn

mutual
theorem initVars_numeric : ∀ (e : Expr) (d pb : Bool) (vs vs' : Vars),
    initVars (intSem R) isFloat guess noNew e d pb vs = .ok (true, vs') → Numeric guess vs → Numeric guess vs'
  | e, d, pb, vs, vs', h, hn => by
    cases hna : notAllowed (intSem R) isFloat e d pb with
    | error x => rw [initVars.eq_def] at h; simp only [hna] at h; cases h
    | ok n =>
      cases n with
      | true => rw [initVars.eq_def] at h; simp only [hna] at h; cases h
      | false =>
        cases e with
        | name x =>
          simp only [initVars, hna, Except.ok.injEq] at h
          exact initVar_numeric h hn
        | subscript a i => simp only [initVars, hna, Except.ok.injEq] at h; exact ite_initVar_numeric h hn
        | attr a i => simp only [initVars, hna, Except.ok.injEq] at h; exact ite_initVar_numeric h hn
        | call f args =>
          simp only [initVars, hna] at h
          by_cases hf : f = .name "abs".toList
          · rw [if_pos hf] at h; exact initFirst_numeric args d vs vs' h hn
          · rw [if_neg hf] at h; simp only [Except.ok.injEq] at h; exact ite_initVar_numeric h hn
        | bin op l r =>
          simp only [initVars, hna] at h
          cases hnl : nonlinear (intSem R) isFloat (.bin op l r) with
          | error x => rw [hnl] at h; cases h
          | ok n =>
            rw [hnl] at h
            cases n with
            | true => simp only [Except.ok.injEq] at h; exact ite_initVar_numeric h hn
            | false =>
              simp only at h
              by_cases hop : op = .mod ∨ op = .floordiv
              · rw [if_pos hop] at h; exact initVars_numeric l _ _ vs vs' h hn
              · rw [if_neg hop] at h
                cases hl : initVars (intSem R) isFloat guess noNew l d false vs with
                | error x => rw [hl] at h; cases h
                | ok p =>
                  obtain ⟨c, v1⟩ := p
                  rw [hl] at h
                  cases c with
                  | false => cases h
                  | true =>
                    have h1 := initVars_numeric l _ _ vs v1 hl hn
                    exact initVars_numeric r _ _ v1 vs' h h1
        | unary op x => simp only [initVars, hna] at h; exact initVars_numeric x _ _ vs vs' h hn
        | boolOp o es => simp only [initVars, hna] at h; exact initAll_numeric es _ vs vs' h hn
        | compare l ops =>
          simp only [initVars, hna] at h
          cases hl : initVars (intSem R) isFloat guess noNew l d false vs with
          | error x => rw [hl] at h; cases h
          | ok p =>
            obtain ⟨c, v1⟩ := p
            rw [hl] at h
            cases c with
            | false => cases h
            | true =>
              have h1 := initVars_numeric l _ _ vs v1 hl hn
              exact initOps_numeric ops _ v1 vs' h h1
        | const v => simp only [initVars, hna] at h; cases h; exact hn
        | ifExp _ _ _ => simp only [initVars, hna] at h; cases h; exact hn
        | other _ _ => simp only [initVars, hna] at h; cases h; exact hn

theorem initFirst_numeric : ∀ (es : List Expr) (d : Bool) (vs vs' : Vars),
    initFirst (intSem R) isFloat guess noNew es d vs = .ok (true, vs') → Numeric guess vs → Numeric guess vs'
  | [], d, vs, vs', h, hn => by simp only [initFirst] at h; cases h
  | e :: _, d, vs, vs', h, hn => by simp only [initFirst] at h; exact initVars_numeric e _ _ vs vs' h hn

theorem initAll_numeric : ∀ (es : List Expr) (d : Bool) (vs vs' : Vars),
    initAll (intSem R) isFloat guess noNew es d vs = .ok (true, vs') → Numeric guess vs → Numeric guess vs'
  | [], d, vs, vs', h, hn => by simp only [initAll] at h; cases h; exact hn
  | e :: es, d, vs, vs', h, hn => by
    simp only [initAll] at h
    cases hl : initVars (intSem R) isFloat guess noNew e d true vs with
    | error x => rw [hl] at h; cases h
    | ok p =>
      obtain ⟨c, v1⟩ := p
      rw [hl] at h
      cases c with
      | false => cases h
      | true =>
        have h1 := initVars_numeric e _ _ vs v1 hl hn
        exact initAll_numeric es _ v1 vs' h h1

theorem initOps_numeric : ∀ (es : List (CmpOp × Expr)) (d : Bool) (vs vs' : Vars),
    initOps (intSem R) isFloat guess noNew es d vs = .ok (true, vs') → Numeric guess vs → Numeric guess vs'
  | [], d, vs, vs', h, hn => by simp only [initOps] at h; cases h; exact hn
  | (_, e) :: es, d, vs, vs', h, hn => by
    simp only [initOps] at h
    cases hl : initVars (intSem R) isFloat guess noNew e d false vs with
    | error x => rw [hl] at h; cases h
    | ok p =>
      obtain ⟨c, v1⟩ := p
      rw [hl] at h
      cases c with
      | false => cases h
      | true =>
        have h1 := initVars_numeric e _ _ vs v1 hl hn
        exact initOps_numeric es _ v1 vs' h h1
end

/-- **C69**: if a condition is admitted, then the guessed type of every variable that stands for a part of it consists of
numbers, and of integers if the part is used in an integer operation. -/
theorem C69 {e : Expr} {pb : Bool} {vs : Vars} (h : initVars (intSem R) isFloat guess noNew e false pb [] = .ok (true, vs)) :
    ∀ x i, (x, i) ∈ vs → ∃ g, guess x = some g ∧ (∀ t ∈ g.get, t = .bool ∨ t = .float ∨ t = .int) ∧
      (i = true → ∀ t ∈ g.get, t = .int) :=
  initVars_numeric e false pb [] vs h (fun _ _ hx => by cases hx)

/-- **C69** for several conditions: those admitted before stay so. -/
theorem C69_more {e : Expr} {pb : Bool} {vs vs' : Vars} (h : initVars (intSem R) isFloat guess noNew e false pb vs = .ok (true, vs'))
    (hn : Numeric guess vs) : Numeric guess vs' :=
  initVars_numeric e false pb vs vs' h hn

variable (R isFloat) in
/-- Remainders and quotients that are numbers are those of numbers, and all numbers are integers, truth values and
floats. -/
def OnlyNumbers : Prop :=
  ∀ op v w u, op = .mod ∨ op = .floordiv → (intSem R).binary op v w = .ok u → (isPlainInt u || isFloat u) = true →
    w.asInt ≠ none ∨ isFloat w = true

variable (R isFloat) in
mutual
/-- The argument of every `abs` is translated. -/
def AbsTranslated (vs : Vars) : Expr → Prop
  | .call f args => f = .name "abs".toList →
      convertFirst (intSem R) isFloat vs args ≠ .ok none ∧ AbsTranslatedAll vs args
  | .bin _ l r => AbsTranslated vs l ∧ AbsTranslated vs r
  | .unary _ e => AbsTranslated vs e
  | .boolOp _ es => AbsTranslatedAll vs es
  | .compare l ops => AbsTranslated vs l ∧ AbsTranslatedOps vs ops
  | _ => True

def AbsTranslatedAll (vs : Vars) : List Expr → Prop
  | [] => True
  | e :: es => AbsTranslated vs e ∧ AbsTranslatedAll vs es

def AbsTranslatedOps (vs : Vars) : List (CmpOp × Expr) → Prop
  | [] => True
  | (_, e) :: es => AbsTranslated vs e ∧ AbsTranslatedOps vs es
end

theorem initVars_allowed {e : Expr} {d pb : Bool} {vs vs' : Vars}
    (h : initVars (intSem R) isFloat guess noNew e d pb vs = .ok (true, vs')) :
    notAllowed (intSem R) isFloat e d pb = .ok false := by
  cases hna : notAllowed (intSem R) isFloat e d pb with
  | error x => rw [initVars.eq_def] at h; simp only [hna] at h; cases h
  | ok n =>
    cases n with
    | true => rw [initVars.eq_def] at h; simp only [hna] at h; cases h
    | false => rfl

theorem constIs_true {p : Val → Bool} {e : Expr} (h : constIs (intSem R) p e = .ok true) :
    ∃ v, constValue (intSem R) e = .ok (some v) ∧ p v = true := by
  unfold constIs at h
  cases hc : constValue (intSem R) e with
  | error x => rw [hc] at h; cases h
  | ok o =>
    cases o with
    | none => rw [hc] at h; cases h
    | some v => rw [hc] at h; simp only [Except.ok.injEq] at h; exact ⟨v, rfl, h⟩

theorem constValue_foldRec {e : Expr} {v : Val} :
    constValue (intSem R) e = .ok (some v) ↔ foldRec (intSem R) e = .ok v := by
  unfold constValue
  cases hf : foldRec (intSem R) e with
  | ok w => simp
  | error x => cases x <;> simp

/-- The divisor of a remainder or quotient that is a constant. -/
theorem divisor_const {op : BinOp} (hop : op = .mod ∨ op = .floordiv) {l r : Expr} {u : Val}
    (h : constValue (intSem R) (.bin op l r) = .ok (some u)) :
    ∃ a w, constValue (intSem R) r = .ok (some w) ∧ (intSem R).binary op a w = .ok u := by
  rw [constValue_foldRec] at h
  simp only [foldRec] at h
  cases hr : foldRec (intSem R) r with
  | error x => rw [hr] at h; cases h
  | ok w =>
    have hd : op = .div ∨ op = .floordiv ∨ op = .mod := by rcases hop with h | h <;> simp [h]
    simp only [hr, if_pos hd] at h
    cases hz : (intSem R).isZero w with
    | error x => simp only [hz] at h; cases h
    | ok z =>
      cases z with
      | true => simp only [hz] at h; cases h
      | false =>
        simp only [hz] at h
        cases hl : foldRec (intSem R) l with
        | error x => rw [hl] at h; cases h
        | ok a =>
          rw [hl] at h
          refine ⟨a, w, constValue_foldRec.2 hr, ?_⟩
          have : op ≠ .matmul := by rcases hop with rfl | rfl <;> decide
          simpa [foldBin, this] using h

theorem divTerm_ok (hR : OnlyNumbers R isFloat) {op : BinOp} (hop : op = .mod ∨ op = .floordiv) {l r : Expr}
    (hnl : nonlinear (intSem R) isFloat (.bin op l r) = .ok false)
    (hfl : isFloatNode (intSem R) isFloat r = .ok false) (t : Term) :
    ∃ o, divTerm (intSem R) op t r = .ok o := by
  have hw : ∃ w, constValue (intSem R) r = .ok (some w) ∧ w.asInt ≠ none := by
    simp only [nonlinear] at hnl
    cases hn : isNumberNode (intSem R) isFloat (.bin op l r) with
    | error x => rw [hn] at hnl; cases hnl
    | ok n =>
      cases n with
      | true =>
        obtain ⟨u, hu, hpu⟩ := constIs_true hn
        obtain ⟨a, w, hw, hb⟩ := divisor_const hop hu
        refine ⟨w, hw, ?_⟩
        rcases hR op a w u hop hb hpu with h | h
        · exact h
        · unfold isFloatNode constIs at hfl
          rw [hw] at hfl
          simp only [h] at hfl
          cases hfl
      | false =>
        rw [hn] at hnl
        have : notE (isIntegerNode (intSem R) r) = .ok false := by
          rcases hop with rfl | rfl <;> exact hnl
        unfold notE at this
        cases hi : isIntegerNode (intSem R) r with
        | error x => rw [hi] at this; cases this
        | ok b =>
          rw [hi] at this
          cases b with
          | false => cases this
          | true =>
            obtain ⟨w, hw, hp⟩ := constIs_true hi
            refine ⟨w, hw, ?_⟩
            cases w <;> simp [isPlainInt] at hp
            simp [Val.asInt]
  obtain ⟨w, hw, hn⟩ := hw
  obtain ⟨c, hc⟩ := Option.ne_none_iff_exists'.1 hn
  unfold divTerm
  rw [hw]
  simp only [hc]
  rcases hop with rfl | rfl <;> exact ⟨_, rfl⟩

theorem realDivTerm_ok {l r : Expr} (hnl : nonlinear (intSem R) isFloat (.bin .div l r) = .ok false) (t : Term) :
    ∃ o, divTerm (intSem R) .div t r = .ok o := by
  have hw : ∃ w, constValue (intSem R) r = .ok (some w) := by
    simp only [nonlinear] at hnl
    cases hn : isNumberNode (intSem R) isFloat (.bin .div l r) with
    | error x => rw [hn] at hnl; cases hnl
    | ok n =>
      cases n with
      | true =>
        obtain ⟨u, hu, _⟩ := constIs_true hn
        rw [constValue_foldRec] at hu
        simp only [foldRec] at hu
        cases hr : foldRec (intSem R) r with
        | error x => rw [hr] at hu; cases hu
        | ok w => exact ⟨w, constValue_foldRec.2 hr⟩
      | false =>
        rw [hn] at hnl
        have : notE (isNumberNode (intSem R) isFloat r) = .ok false := hnl
        unfold notE at this
        cases hi : isNumberNode (intSem R) isFloat r with
        | error x => rw [hi] at this; cases this
        | ok b =>
          rw [hi] at this
          cases b with
          | false => cases this
          | true => obtain ⟨w, hw, _⟩ := constIs_true hi; exact ⟨w, hw⟩
  obtain ⟨w, hw⟩ := hw
  unfold divTerm
  rw [hw]
  exact ⟨_, rfl⟩

theorem varTerm_ok {vs : Vars} {e : Expr} (h : vs.lookup e ≠ none) (pb : Bool) : ∃ o, varTerm vs e pb = .ok o := by
  obtain ⟨i, hi⟩ := Option.ne_none_iff_exists'.1 h
  unfold varTerm
  rw [hi]
  exact ⟨_, rfl⟩

theorem condTerm_ok {pb : Bool} {x : Except PyErr (Option Term)} (h : ∃ o, x = .ok o) : ∃ o, condTerm pb x = .ok o := by
  obtain ⟨o, rfl⟩ := h
  cases o <;> exact ⟨_, rfl⟩

mutual
theorem convert_ok (hR : OnlyNumbers R isFloat) : ∀ (e : Expr) (d pb : Bool) (vs0 vs1 vs : Vars),
    initVars (intSem R) isFloat guess noNew e d pb vs0 = .ok (true, vs1) → vs1.Sub vs →
    AbsTranslated R isFloat vs e → ∀ pb', ∃ o, convert (intSem R) isFloat vs e pb' = .ok o
  | .const v, d, pb, vs0, vs1, vs, hi, hsub, ha, pb' => by
    cases v <;> simp only [convert] <;> exact ⟨_, rfl⟩
  | .name x, d, pb, vs0, vs1, vs, hi, hsub, ha, pb' => by
    simp only [initVars, notAllowed, Except.ok.injEq] at hi
    simp only [convert]
    exact varTerm_ok (hsub _ (initVar_mem hi)) pb'
  | .subscript a i, d, pb, vs0, vs1, vs, hi, hsub, ha, pb' => by
    simp only [initVars, notAllowed, Except.ok.injEq] at hi
    simp only [convert]
    exact varTerm_ok (hsub _ (ite_initVar_mem hi)) pb'
  | .attr a x, d, pb, vs0, vs1, vs, hi, hsub, ha, pb' => by
    simp only [initVars, notAllowed, Except.ok.injEq] at hi
    simp only [convert]
    exact varTerm_ok (hsub _ (ite_initVar_mem hi)) pb'
  | .call f args, d, pb, vs0, vs1, vs, hi, hsub, ha, pb' => by
    simp only [initVars, notAllowed] at hi
    simp only [convert]
    simp only [AbsTranslated] at ha
    by_cases hf : f = .name "abs".toList
    · rw [if_pos hf] at hi ⊢
      obtain ⟨o, ho⟩ := convertFirst_ok hR args d vs0 vs1 vs hi hsub (ha hf).2
      rw [ho]
      cases o with
      | none => exact absurd ho (ha hf).1
      | some t => exact ⟨_, rfl⟩
    · rw [if_neg hf] at hi ⊢
      simp only [Except.ok.injEq] at hi
      exact varTerm_ok (hsub _ (ite_initVar_mem hi)) pb'
  | .bin op l r, d, pb, vs0, vs1, vs, hi, hsub, ha, pb' => by
    have hna := initVars_allowed hi
    simp only [initVars, hna] at hi
    simp only [convert]
    simp only [AbsTranslated] at ha
    cases hnl : nonlinear (intSem R) isFloat (.bin op l r) with
    | error x => rw [hnl] at hi; cases hi
    | ok n =>
      rw [hnl] at hi
      cases n with
      | true =>
        simp only [Except.ok.injEq] at hi
        exact varTerm_ok (hsub _ (ite_initVar_mem hi)) pb'
      | false =>
        simp only at hi ⊢
        have hlr : (op ≠ .mod ∧ op ≠ .floordiv) → (∃ o, convert (intSem R) isFloat vs l false = .ok o) ∧
            ∃ o, convert (intSem R) isFloat vs r false = .ok o := by
          intro hop
          rw [if_neg (by rintro (h | h); exact hop.1 h; exact hop.2 h)] at hi
          cases hl : initVars (intSem R) isFloat guess noNew l d false vs0 with
          | error x => rw [hl] at hi; cases hi
          | ok p =>
            obtain ⟨c, v1⟩ := p
            rw [hl] at hi
            cases c with
            | false => cases hi
            | true =>
              simp only at hi
              exact ⟨convert_ok hR l d false vs0 v1 vs hl ((initVars_sub r _ _ _ _ _ hi).trans hsub) ha.1 false,
                convert_ok hR r d false v1 vs1 vs hi hsub ha.2 false⟩
        have hmf : (op = .mod ∨ op = .floordiv) → (∃ o, convert (intSem R) isFloat vs l false = .ok o) := by
          intro hop
          rw [if_pos hop] at hi
          exact convert_ok hR l true false vs0 vs1 vs hi hsub ha.1 false
        cases op with
        | mod =>
          obtain ⟨o, ho⟩ := hmf (by simp)
          simp only [ho]
          cases o with
          | none => exact ⟨_, rfl⟩
          | some a =>
            simp only
            by_cases hai : a.isInt = true
            · rw [if_pos hai]
              exact condTerm_ok (divTerm_ok hR (.inl rfl) hnl (by simpa [notAllowed] using hna) a)
            · rw [if_neg hai]; exact ⟨_, rfl⟩
        | floordiv =>
          obtain ⟨o, ho⟩ := hmf (by simp)
          simp only [ho]
          cases o with
          | none => exact ⟨_, rfl⟩
          | some a =>
            simp only
            by_cases hai : a.isInt = true
            · rw [if_pos hai]
              exact condTerm_ok (divTerm_ok hR (.inr rfl) hnl (by simpa [notAllowed] using hna) a)
            · rw [if_neg hai]; exact ⟨_, rfl⟩
        | div =>
          obtain ⟨⟨o, ho⟩, _⟩ := hlr (by simp)
          simp only [ho]
          cases o with
          | none => exact ⟨_, rfl⟩
          | some a => exact condTerm_ok (realDivTerm_ok hnl a)
        | _ =>
          obtain ⟨⟨o, ho⟩, o', ho'⟩ := hlr (by simp)
          simp only [ho, ho']
          first
          | exact ⟨_, rfl⟩
          | (cases o <;> cases o' <;> exact ⟨_, rfl⟩)
  | .unary op e, d, pb, vs0, vs1, vs, hi, hsub, ha, pb' => by
    have hna := initVars_allowed hi
    simp only [initVars, hna] at hi
    simp only [convert]
    simp only [AbsTranslated] at ha
    obtain ⟨o, ho⟩ := convert_ok hR e d _ vs0 vs1 vs hi hsub ha (decide (op = .not))
    rw [ho]
    cases o with
    | none => exact ⟨_, rfl⟩
    | some t => cases op <;> exact ⟨_, rfl⟩
  | .boolOp isOr es, d, pb, vs0, vs1, vs, hi, hsub, ha, pb' => by
    have hna := initVars_allowed hi
    simp only [initVars, hna] at hi
    simp only [convert]
    simp only [AbsTranslated] at ha
    obtain ⟨o, ho⟩ := convertAll_ok hR es d vs0 vs1 vs hi hsub ha
    rw [ho]
    cases o <;> exact ⟨_, rfl⟩
  | .compare l ops, d, pb, vs0, vs1, vs, hi, hsub, ha, pb' => by
    have hna := initVars_allowed hi
    simp only [initVars, hna] at hi
    simp only [convert]
    simp only [AbsTranslated] at ha
    cases hl : initVars (intSem R) isFloat guess noNew l d false vs0 with
    | error x => rw [hl] at hi; cases hi
    | ok p =>
      obtain ⟨c, v1⟩ := p
      rw [hl] at hi
      cases c with
      | false => cases hi
      | true =>
        simp only at hi
        obtain ⟨o, ho⟩ := convert_ok hR l d false vs0 v1 vs hl ((initOps_sub ops _ _ _ _ hi).trans hsub) ha.1 false
        have hne : ops ≠ [] := by rintro rfl; simp [notAllowed] at hna
        obtain ⟨q, hq⟩ := convertOp_ok hR ops d v1 vs1 vs hi hsub ha.2 hne
        rw [ho, hq]
        obtain ⟨op, o'⟩ := q
        cases o <;> cases o' <;> exact ⟨_, rfl⟩
  | .ifExp _ _ _, d, pb, vs0, vs1, vs, hi, hsub, ha, pb' => by simp only [convert]; exact ⟨_, rfl⟩
  | .other _ _, d, pb, vs0, vs1, vs, hi, hsub, ha, pb' => by simp only [convert]; exact ⟨_, rfl⟩

theorem convertFirst_ok (hR : OnlyNumbers R isFloat) : ∀ (es : List Expr) (d : Bool) (vs0 vs1 vs : Vars),
    initFirst (intSem R) isFloat guess noNew es d vs0 = .ok (true, vs1) → vs1.Sub vs →
    AbsTranslatedAll R isFloat vs es → ∃ o, convertFirst (intSem R) isFloat vs es = .ok o
  | [], d, vs0, vs1, vs, hi, hsub, ha => by simp only [initFirst] at hi; cases hi
  | e :: _, d, vs0, vs1, vs, hi, hsub, ha => by
    simp only [initFirst] at hi
    simp only [AbsTranslatedAll] at ha
    simp only [convertFirst]
    exact convert_ok hR e d false vs0 vs1 vs hi hsub ha.1 false

theorem convertAll_ok (hR : OnlyNumbers R isFloat) : ∀ (es : List Expr) (d : Bool) (vs0 vs1 vs : Vars),
    initAll (intSem R) isFloat guess noNew es d vs0 = .ok (true, vs1) → vs1.Sub vs →
    AbsTranslatedAll R isFloat vs es → ∃ o, convertAll (intSem R) isFloat vs es = .ok o
  | [], d, vs0, vs1, vs, hi, hsub, ha => by simp only [convertAll]; exact ⟨_, rfl⟩
  | e :: es, d, vs0, vs1, vs, hi, hsub, ha => by
    simp only [initAll] at hi
    simp only [AbsTranslatedAll] at ha
    simp only [convertAll]
    cases hl : initVars (intSem R) isFloat guess noNew e d true vs0 with
    | error x => rw [hl] at hi; cases hi
    | ok p =>
      obtain ⟨c, v1⟩ := p
      rw [hl] at hi
      cases c with
      | false => cases hi
      | true =>
        simp only at hi
        obtain ⟨o, ho⟩ := convert_ok hR e d true vs0 v1 vs hl ((initAll_sub es _ _ _ _ hi).trans hsub) ha.1 true
        obtain ⟨o', ho'⟩ := convertAll_ok hR es d v1 vs1 vs hi hsub ha.2
        rw [ho, ho']
        cases o <;> cases o' <;> exact ⟨_, rfl⟩

theorem convertOp_ok (hR : OnlyNumbers R isFloat) : ∀ (es : List (CmpOp × Expr)) (d : Bool) (vs0 vs1 vs : Vars),
    initOps (intSem R) isFloat guess noNew es d vs0 = .ok (true, vs1) → vs1.Sub vs →
    AbsTranslatedOps R isFloat vs es → es ≠ [] → ∃ o, convertOp (intSem R) isFloat vs es = .ok o
  | [], d, vs0, vs1, vs, hi, hsub, ha, hne => absurd rfl hne
  | (op, e) :: es, d, vs0, vs1, vs, hi, hsub, ha, hne => by
    simp only [initOps] at hi
    simp only [AbsTranslatedOps] at ha
    simp only [convertOp]
    cases hl : initVars (intSem R) isFloat guess noNew e d false vs0 with
    | error x => rw [hl] at hi; cases hi
    | ok p =>
      obtain ⟨c, v1⟩ := p
      rw [hl] at hi
      cases c with
      | false => cases hi
      | true =>
        simp only at hi
        obtain ⟨o, ho⟩ := convert_ok hR e d false vs0 v1 vs hl ((initOps_sub es _ _ _ _ hi).trans hsub) ha.1 false
        rw [ho]
        exact ⟨_, rfl⟩
end

/-- **C62** if the argument of every `abs` is translated: translating a condition that was admitted raises no
exception, with the variables found in it and perhaps others. -/
theorem C62_partial (hR : OnlyNumbers R isFloat) {e : Expr} {pb : Bool} {vs0 vs1 vs : Vars}
    (hi : initVars (intSem R) isFloat guess noNew e false pb vs0 = .ok (true, vs1))
    (hsub : ∀ x, vs1.lookup x ≠ none → vs.lookup x ≠ none) (ha : AbsTranslated R isFloat vs e) (x : PyErr) :
    convert (intSem R) isFloat vs e pb ≠ .error x := by
  obtain ⟨o, ho⟩ := convert_ok hR e false pb vs0 vs1 vs hi hsub ha pb
  rw [ho]
  exact fun h => by cases h

/-- The solver's sorts: numbers (`false`) and truth values (`true`). Remainders and quotients are those of integers. The
solver's Python interface raises an exception for other terms. -/
inductive Sorted : Bool → Term → Prop
  | var (i : Bool) (e : Expr) : Sorted false (.var i e)
  | bool (b : Bool) : Sorted true (.bool b)
  | int (i : Int) : Sorted false (.int i)
  | real (s : Str) : Sorted false (.real s)
  | neg {t : Term} : Sorted false t → Sorted false (.neg t)
  | abs {t : Term} : Sorted false t → Sorted false (.abs t)
  | add {l r : Term} : Sorted false l → Sorted false r → Sorted false (.add l r)
  | sub {l r : Term} : Sorted false l → Sorted false r → Sorted false (.sub l r)
  | mul {l r : Term} : Sorted false l → Sorted false r → Sorted false (.mul l r)
  | div {l : Term} (c : Int) : Sorted false l → l.isInt = true → Sorted false (.div l c)
  | mod {l : Term} (c : Int) : Sorted false l → l.isInt = true → Sorted false (.mod l c)
  | realDiv {l : Term} (v : Val) : Sorted false l → Sorted false (.realDiv l v)
  | nonzero {t : Term} : Sorted false t → Sorted true (.nonzero t)
  | not {t : Term} : Sorted true t → Sorted true (.not t)
  | and {ts : List Term} : (∀ t ∈ ts, Sorted true t) → Sorted true (.and ts)
  | or {ts : List Term} : (∀ t ∈ ts, Sorted true t) → Sorted true (.or ts)
  | cmp (op : CmpOp) {l r : Term} : Sorted false l → Sorted false r → Sorted true (.cmp op l r)

theorem asCondition_sorted {t : Term} (h : Sorted false t) (pb : Bool) : Sorted pb (asCondition pb t) := by
  cases pb
  · exact h
  · exact .nonzero h

theorem varTerm_sorted {vs : Vars} {e : Expr} {pb : Bool} {t : Term} (h : varTerm vs e pb = .ok (some t)) :
    Sorted pb t := by
  unfold varTerm at h
  cases hl : vs.lookup e with
  | none => rw [hl] at h; cases h
  | some i =>
    rw [hl] at h
    simp only [Except.ok.injEq, Option.some.injEq] at h
    subst h
    exact asCondition_sorted (.var _ _) pb

theorem condTerm_sorted {pb : Bool} {x : Except PyErr (Option Term)} {t : Term} (h : condTerm pb x = .ok (some t))
    (hx : ∀ u, x = .ok (some u) → Sorted false u) : Sorted pb t := by
  cases x with
  | error e => cases h
  | ok o =>
    cases o with
    | none => cases h
    | some u =>
      simp only [condTerm, Except.ok.injEq, Option.some.injEq] at h
      subst h
      exact asCondition_sorted (hx u rfl) pb

theorem divTerm_sorted {op : BinOp} {a t : Term} {r : Expr} (ha : Sorted false a) (hi : op = .div ∨ a.isInt = true)
    (h : divTerm (intSem R) op a r = .ok (some t)) : Sorted false t := by
  unfold divTerm at h
  cases hc : constValue (intSem R) r with
  | error x => rw [hc] at h; cases h
  | ok o =>
    cases o with
    | none => rw [hc] at h; cases h
    | some v =>
      rw [hc] at h
      by_cases hd : op = .div
      · subst hd
        simp only [Except.ok.injEq, Option.some.injEq] at h
        subst h
        exact .realDiv _ ha
      · replace hi := hi.resolve_left hd
        cases hv : v.asInt with
        | none =>
          simp only [hv] at h
          cases op <;> first | exact absurd rfl hd | cases h
        | some c =>
          simp only [hv] at h
          by_cases hm : op = .mod
          · subst hm
            by_cases hg : c > 1
            · simp only [if_pos hg, Except.ok.injEq, Option.some.injEq] at h
              subst h
              exact .mod _ ha hi
            · simp [if_neg hg] at h
          · have : some (Term.div a c) = some t := by
              cases op <;> first | exact absurd rfl hd | exact absurd rfl hm | exact Except.ok.inj h
            cases this
            exact .div _ ha hi

mutual
theorem convert_sorted : ∀ (e : Expr) (d pb : Bool) (vs0 vs1 vs : Vars) (t : Term),
    initVars (intSem R) isFloat guess noNew e d pb vs0 = .ok (true, vs1) →
    convert (intSem R) isFloat vs e pb = .ok (some t) → Sorted pb t
  | .const v, d, pb, vs0, vs1, vs, t, hi, h => by
    have hna := initVars_allowed hi
    cases v <;> simp only [convert, Except.ok.injEq, Option.some.injEq, reduceCtorEq] at h
    case bool b =>
      subst h
      simp only [notAllowed, Except.ok.injEq, Bool.not_eq_false'] at hna
      subst hna
      exact .bool b
    case int n => subst h; exact asCondition_sorted (.int n) pb
    case float n => subst h; exact asCondition_sorted (.real n) pb
  | .name x, d, pb, vs0, vs1, vs, t, hi, h => by simp only [convert] at h; exact varTerm_sorted h
  | .subscript a i, d, pb, vs0, vs1, vs, t, hi, h => by simp only [convert] at h; exact varTerm_sorted h
  | .attr a x, d, pb, vs0, vs1, vs, t, hi, h => by simp only [convert] at h; exact varTerm_sorted h
  | .call f args, d, pb, vs0, vs1, vs, t, hi, h => by
    simp only [initVars, notAllowed] at hi
    simp only [convert] at h
    by_cases hf : f = .name "abs".toList
    · rw [if_pos hf] at hi h
      cases hc : convertFirst (intSem R) isFloat vs args with
      | error x => rw [hc] at h; cases h
      | ok o =>
        rw [hc] at h
        cases o with
        | none => cases h
        | some u =>
          simp only [Except.ok.injEq, Option.some.injEq] at h
          subst h
          exact asCondition_sorted (.abs (convertFirst_sorted args d vs0 vs1 vs u hi hc)) pb
    · rw [if_neg hf] at h
      exact varTerm_sorted h
  | .bin op l r, d, pb, vs0, vs1, vs, t, hi, h => by
    have hna := initVars_allowed hi
    simp only [initVars, hna] at hi
    simp only [convert] at h
    cases hnl : nonlinear (intSem R) isFloat (.bin op l r) with
    | error x => rw [hnl] at hi; cases hi
    | ok n =>
      rw [hnl] at hi h
      cases n with
      | true => exact varTerm_sorted h
      | false =>
        simp only at hi h
        have hl : ∀ u, convert (intSem R) isFloat vs l false = .ok (some u) → Sorted false u := by
          intro u hu
          by_cases hop : op = .mod ∨ op = .floordiv
          · rw [if_pos hop] at hi
            exact convert_sorted l true false vs0 vs1 vs u hi hu
          · rw [if_neg hop] at hi
            cases hl : initVars (intSem R) isFloat guess noNew l d false vs0 with
            | error x => rw [hl] at hi; cases hi
            | ok p =>
              obtain ⟨c, v1⟩ := p
              rw [hl] at hi
              cases c with
              | false => cases hi
              | true => exact convert_sorted l d false vs0 v1 vs u hl hu
        have hr : ¬ (op = .mod ∨ op = .floordiv) → ∀ u, convert (intSem R) isFloat vs r false = .ok (some u) →
            Sorted false u := by
          intro hop u hu
          rw [if_neg hop] at hi
          cases hl : initVars (intSem R) isFloat guess noNew l d false vs0 with
          | error x => rw [hl] at hi; cases hi
          | ok p =>
            obtain ⟨c, v1⟩ := p
            rw [hl] at hi
            cases c with
            | false => cases hi
            | true => exact convert_sorted r d false v1 vs1 vs u hi hu
        cases hcl : convert (intSem R) isFloat vs l false with
        | error x => rw [hcl] at h; cases h
        | ok tl =>
          rw [hcl] at h
          have arith : ¬ (op = .mod ∨ op = .floordiv) → (∀ a b, Sorted false a → Sorted false b → Sorted false (arithTerm op a b)) →
              arithResult op pb tl (convert (intSem R) isFloat vs r false) = .ok (some t) → Sorted pb t := by
            intro hop hs h
            cases hcr : convert (intSem R) isFloat vs r false with
            | error x => rw [hcr] at h; cases h
            | ok tr =>
              rw [hcr] at h
              cases tl with
              | none => cases h
              | some a =>
                cases tr with
                | none => cases h
                | some b =>
                  simp only [arithResult, Except.ok.injEq, Option.some.injEq] at h
                  subst h
                  exact asCondition_sorted (hs a b (hl a hcl) (hr hop b hcr)) pb
          have divs : (op = .mod ∨ op = .floordiv) → ∀ a, tl = some a →
              (if a.isInt then condTerm pb (divTerm (intSem R) op a r) else .ok none) = .ok (some t) → Sorted pb t := by
            intro hop a ha h
            by_cases hai : a.isInt = true
            · rw [if_pos hai] at h
              exact condTerm_sorted h fun u hu => divTerm_sorted (hl a (by rw [hcl, ha])) (.inr hai) hu
            · simp [if_neg hai] at h
          cases op with
          | add => exact arith (by simp) (fun a b ha hb => .add ha hb) h
          | sub => exact arith (by simp) (fun a b ha hb => .sub ha hb) h
          | mul => exact arith (by simp) (fun a b ha hb => .mul ha hb) h
          | mod =>
            cases tl with
            | none => cases h
            | some a => exact divs (by simp) a rfl h
          | floordiv =>
            cases tl with
            | none => cases h
            | some a => exact divs (by simp) a rfl h
          | div =>
            cases tl with
            | none => cases h
            | some a => exact condTerm_sorted h fun u hu => divTerm_sorted (hl a hcl) (.inl rfl) hu
          | _ => cases h
  | .unary op e, d, pb, vs0, vs1, vs, t, hi, h => by
    have hna := initVars_allowed hi
    simp only [initVars, hna] at hi
    simp only [convert] at h
    cases hc : convert (intSem R) isFloat vs e (decide (op = .not)) with
    | error x => rw [hc] at h; cases h
    | ok o =>
      rw [hc] at h
      cases o with
      | none => cases h
      | some u =>
        have hu := convert_sorted e d _ vs0 vs1 vs u hi hc
        cases op with
        | not =>
          simp only [Except.ok.injEq, Option.some.injEq] at h
          subst h
          simp only [notAllowed, Except.ok.injEq, reduceCtorEq, decide_false, decide_true, Bool.true_and,
            Bool.false_or, Bool.not_eq_false'] at hna
          subst hna
          exact .not (by simpa using hu)
        | neg =>
          simp only [Except.ok.injEq, Option.some.injEq] at h
          subst h
          exact asCondition_sorted (.neg (by simpa using hu)) pb
        | _ =>
          simp only [Except.ok.injEq, Option.some.injEq] at h
          subst h
          exact asCondition_sorted (by simpa using hu) pb
  | .boolOp isOr es, d, pb, vs0, vs1, vs, t, hi, h => by
    have hna := initVars_allowed hi
    simp only [initVars, hna] at hi
    simp only [convert] at h
    simp only [notAllowed, Except.ok.injEq, Bool.not_eq_false'] at hna
    subst hna
    cases hc : convertAll (intSem R) isFloat vs es with
    | error x => rw [hc] at h; cases h
    | ok o =>
      rw [hc] at h
      cases o with
      | none => cases h
      | some ts =>
        have hts := convertAll_sorted es d vs0 vs1 vs ts hi hc
        simp only [Except.ok.injEq, Option.some.injEq] at h
        subst h
        cases isOr
        · exact .and hts
        · exact .or hts
  | .compare l ops, d, pb, vs0, vs1, vs, t, hi, h => by
    have hna := initVars_allowed hi
    simp only [initVars, hna] at hi
    simp only [convert] at h
    cases hl : initVars (intSem R) isFloat guess noNew l d false vs0 with
    | error x => rw [hl] at hi; cases hi
    | ok p =>
      obtain ⟨c, v1⟩ := p
      rw [hl] at hi
      cases c with
      | false => cases hi
      | true =>
        simp only at hi
        cases hcl : convert (intSem R) isFloat vs l false with
        | error x => rw [hcl] at h; cases h
        | ok tl =>
          rw [hcl] at h
          cases hcr : convertOp (intSem R) isFloat vs ops with
          | error x => rw [hcr] at h; cases h
          | ok q =>
            obtain ⟨op, tr⟩ := q
            rw [hcr] at h
            cases tl with
            | none => cases h
            | some a =>
              cases tr with
              | none => cases h
              | some b =>
                have ha := convert_sorted l d false vs0 v1 vs a hl hcl
                have hb := convertOp_sorted ops d v1 vs1 vs op b hi hcr
                simp only [Except.ok.injEq] at h
                have hpb : pb = true := by
                  cases ops with
                  | nil => simp [notAllowed] at hna
                  | cons o os =>
                    cases os with
                    | nil => obtain ⟨o1, o2⟩ := o; cases pb <;> simp [notAllowed] at hna ⊢
                    | cons o' os => simp [notAllowed] at hna
                subst hpb
                by_cases ho : op = .isIn ∨ op = .notIn ∨ op = .is ∨ op = .isNot
                · rw [if_pos ho] at h; cases h
                · rw [if_neg ho] at h
                  simp only [Option.some.injEq] at h
                  subst h
                  exact .cmp op ha hb
  | .ifExp _ _ _, d, pb, vs0, vs1, vs, t, hi, h => by simp only [convert] at h; cases h
  | .other _ _, d, pb, vs0, vs1, vs, t, hi, h => by simp only [convert] at h; cases h

theorem convertFirst_sorted : ∀ (es : List Expr) (d : Bool) (vs0 vs1 vs : Vars) (t : Term),
    initFirst (intSem R) isFloat guess noNew es d vs0 = .ok (true, vs1) →
    convertFirst (intSem R) isFloat vs es = .ok (some t) → Sorted false t
  | [], d, vs0, vs1, vs, t, hi, h => by simp only [initFirst] at hi; cases hi
  | e :: _, d, vs0, vs1, vs, t, hi, h => by
    simp only [initFirst] at hi
    simp only [convertFirst] at h
    exact convert_sorted e d false vs0 vs1 vs t hi h

theorem convertAll_sorted : ∀ (es : List Expr) (d : Bool) (vs0 vs1 vs : Vars) (ts : List Term),
    initAll (intSem R) isFloat guess noNew es d vs0 = .ok (true, vs1) →
    convertAll (intSem R) isFloat vs es = .ok (some ts) → ∀ t ∈ ts, Sorted true t
  | [], d, vs0, vs1, vs, ts, hi, h => by
    simp only [convertAll, Except.ok.injEq, Option.some.injEq] at h
    subst h
    simp
  | e :: es, d, vs0, vs1, vs, ts, hi, h => by
    simp only [initAll] at hi
    simp only [convertAll] at h
    cases hl : initVars (intSem R) isFloat guess noNew e d true vs0 with
    | error x => rw [hl] at hi; cases hi
    | ok p =>
      obtain ⟨c, v1⟩ := p
      rw [hl] at hi
      cases c with
      | false => cases hi
      | true =>
        simp only at hi
        cases hc : convert (intSem R) isFloat vs e true with
        | error x => rw [hc] at h; cases h
        | ok o =>
          rw [hc] at h
          cases o with
          | none => cases h
          | some u =>
            cases hr : convertAll (intSem R) isFloat vs es with
            | error x => rw [hr] at h; cases h
            | ok o =>
              rw [hr] at h
              cases o with
              | none => cases h
              | some us =>
                simp only [Except.ok.injEq, Option.some.injEq] at h
                subst h
                intro t ht
                rcases List.mem_cons.1 ht with rfl | ht
                · exact convert_sorted e d true vs0 v1 vs _ hl hc
                · exact convertAll_sorted es d v1 vs1 vs us hi hr t ht

theorem convertOp_sorted : ∀ (es : List (CmpOp × Expr)) (d : Bool) (vs0 vs1 vs : Vars) (op : CmpOp) (t : Term),
    initOps (intSem R) isFloat guess noNew es d vs0 = .ok (true, vs1) →
    convertOp (intSem R) isFloat vs es = .ok (op, some t) → Sorted false t
  | [], d, vs0, vs1, vs, op, t, hi, h => by simp only [convertOp] at h; cases h
  | (o, e) :: es, d, vs0, vs1, vs, op, t, hi, h => by
    simp only [initOps] at hi
    simp only [convertOp] at h
    cases hl : initVars (intSem R) isFloat guess noNew e d false vs0 with
    | error x => rw [hl] at hi; cases hi
    | ok p =>
      obtain ⟨c, v1⟩ := p
      rw [hl] at hi
      cases c with
      | false => cases hi
      | true =>
        cases hc : convert (intSem R) isFloat vs e false with
        | error x => rw [hc] at h; cases h
        | ok tl =>
          rw [hc] at h
          simp only [Except.ok.injEq, Prod.mk.injEq] at h
          obtain ⟨-, rfl⟩ := h
          exact convert_sorted e d false vs0 v1 vs t hl hc
end

/-- **C62**, the solver's part: the terms made of an admitted condition are ones the solver accepts, and the whole is a
truth value. -/
theorem C62_sorted {e : Expr} {vs0 vs1 vs : Vars} {t : Term}
    (hi : initVars (intSem R) isFloat guess noNew e false true vs0 = .ok (true, vs1))
    (h : convert (intSem R) isFloat vs e true = .ok (some t)) : Sorted true t :=
  convert_sorted e false true vs0 vs1 vs t hi h

end

/-! ### Examples, and conditions that change their meaning -/

/-- Nothing but integers and truth values: every other operation raises. -/
def noRest : FoldSem Val where
  lit _ := .none
  ofBool := .bool
  truth _ := .error .typeError
  unary _ _ := .error .typeError
  binary _ _ _ := .error .typeError
  cmp _ _ _ := .error .typeError
  call _ _ := .error .typeError
  attr _ _ := .error .attributeError
  item _ _ := .error .typeError
  other _ _ := .error .typeError
  isNumber _ := false
  isZero _ := .error .typeError

/-- `x = 7`; the builtin functions are not rebound. -/
def sevenEnv : Env Val := fun x => if x = "x".toList then .ok (.int 7) else .ok (.builtin x)

theorem seven_builtins : Builtins sevenEnv := by
  intro f hf
  simp only [List.mem_cons, List.not_mem_nil, or_false] at hf
  rcases hf with rfl | rfl | rfl <;> rfl

def intGuess : Expr → Option Types := fun _ => some (.of .int)

def exX : Expr := .name "x".toList
def exInt (n : Nat) : Expr := .const (.int n)

/-- `x % 3 == 1 and abs(x) > 2` -/
def exCond : Expr := .boolOp false [.compare (.bin .mod exX (exInt 3)) [(.eq, exInt 1)],
  .compare (.call (.name "abs".toList) [exX]) [(.gt, exInt 2)]]

example : InScope noRest (fun _ => false) (IntValued noRest sevenEnv) exCond ∧
    initVars (intSem noRest) (fun _ => false) intGuess false exCond false true [] = .ok (true, [(exX, true)]) ∧
    convert (intSem noRest) (fun _ => false) [(exX, true)] exCond true = .ok (some (.and
      [.cmp .eq (.mod (.var true exX) 3) (.int 1), .cmp .gt (.abs (.var true exX)) (.int 2)])) ∧
    truthOf (intSem noRest).toSem sevenEnv exCond = .ok true := by
  refine ⟨?_, by decide +kernel, rfl, by decide +kernel⟩
  have hx : IntValued noRest sevenEnv exX := by
    intro v hv
    have : v = .int 7 := by
      simp only [exX, eval, sevenEnv, if_true] at hv
      cases hv; rfl
    subst this
    simp [Val.asInt]
  have hnl : nonlinear (intSem noRest) (fun _ => false) (.bin .mod exX (exInt 3)) = .ok false := by decide +kernel
  simp only [exCond, InScope, InScopeAll, InScopeOps, InScopeOne, hnl]
  refine ⟨⟨⟨by simp, fun _ => ⟨by simp only [exX, InScope]; exact hx, trivial⟩⟩, ?_, trivial⟩, ⟨⟨fun _ => ⟨?_, trivial⟩, ?_⟩, ?_,
    trivial⟩, trivial⟩
  · simp [exInt, InScope]
  · simp only [exX, InScope]; exact hx
  · simp
  · simp [exInt, InScope]

/-- A variable that may be a string is refused; one that may be a float is refused in a remainder only. -/
example : initVars (intSem noRest) (fun _ => false) (fun _ => some (.of .int ||| .of .string)) false exCond false true [] =
      .ok (false, [(exX, true)]) ∧
    initVars (intSem noRest) (fun _ => false) (fun _ => some (.of .int ||| .of .float)) false exCond false true [] =
      .ok (false, [(exX, true)]) ∧
    initVars (intSem noRest) (fun _ => false) (fun _ => some (.of .int ||| .of .float)) false
      (.compare exX [(.gt, exInt 2)]) false true [] = .ok (true, [(exX, false)]) := by
  decide +kernel

/-- `x // -2 == -4` -/
def exDiv : Expr := .compare (.bin .floordiv exX (.unary .neg (exInt 2))) [(.eq, .unary .neg (exInt 4))]

/-- **C44** is false: `x // -2 == -4` is true for `x = 7`, for the solver it is not. -/
theorem C44_counterexample :
    ∃ t, initVars (intSem noRest) (fun _ => false) intGuess false exDiv false true [] = .ok (true, [(exX, true)]) ∧
      convert (intSem noRest) (fun _ => false) [(exX, true)] exDiv true = .ok (some t) ∧
      truthOf (intSem noRest).toSem sevenEnv exDiv = .ok true ∧
      ∀ zero, t.eval zero (valuation noRest sevenEnv) = some (.bool false) := by
  refine ⟨.cmp .eq (.div (.var true exX) (-2)) (.neg (.int 4)), by decide +kernel, rfl, by decide +kernel, ?_⟩
  intro zero
  have hx : valuation noRest sevenEnv exX = 7 := by decide +kernel
  simp only [Term.eval, hx, TV.int?, Option.map_some, Option.bind_some, smtDiv, intCmp]
  rw [if_neg (by decide)]
  decide

/-- `abs(x % 1) == 0` -/
def exAbs : Expr := .compare (.call (.name "abs".toList) [.bin .mod exX (exInt 1)]) [(.eq, exInt 0)]

/-- **C62** is false: `abs(x % 1) == 0` is admitted, and translating it raises a `TypeError`. -/
theorem C62_counterexample :
    initVars (intSem noRest) (fun _ => false) intGuess false exAbs false true [] = .ok (true, [(exX, true)]) ∧
    convert (intSem noRest) (fun _ => false) [(exX, true)] exAbs true = .error .typeError := by
  refine ⟨by decide +kernel, rfl⟩

/-- The hypotheses of `C62_partial` hold of `abs(x) > 2`, if there are only integers and truth values. -/
example : OnlyNumbers noRest (fun _ => false) ∧ AbsTranslated noRest (fun _ => false) [(exX, true)] exCond := by
  constructor
  · intro op v w u hop hb hp
    refine .inl fun hn => ?_
    simp only [intSem, hn, noRest] at hb
    cases hv : v.asInt <;> simp [hv] at hb
  · simp only [exCond, AbsTranslated, AbsTranslatedAll, AbsTranslatedOps, exX, exInt]
    refine ⟨⟨⟨trivial, trivial⟩, trivial, trivial⟩, ⟨fun _ => ⟨?_, trivial, trivial⟩, trivial, trivial⟩, trivial⟩
    intro h
    cases h

end Verif.Py

import Verif.Lemmas.Z3Block

/-!
Expressions in blocks of statements for the solver.
-/

namespace Verif.Py.Blocks

section
variable {R : FoldSem Val} {isFloat : Val → Bool} {guess : Expr → Option Types} {noNew : Bool}

/-- The expression is translated to a truth value wherever it is. -/
def boolForm : Expr → Bool
  | .compare .. => true
  | .boolOp .. => true
  | .const (.bool _) => true
  | .unary .not _ => true
  | _ => false

theorem notAllowed_pb {e : Expr} (hb : boolForm e = false) (d : Bool) :
    notAllowed (intSem R) isFloat e d true = notAllowed (intSem R) isFloat e d false := by
  cases e with
  | const v => cases v <;> first | rfl | cases hb
  | unary op x => cases op <;> first | rfl | cases hb
  | boolOp _ _ => cases hb
  | compare _ _ => cases hb
  | _ => rfl

theorem init_pb {e : Expr} (hb : boolForm e = false) (d : Bool) (vs : Vars) :
    initVars (intSem R) isFloat guess noNew e d true vs = initVars (intSem R) isFloat guess noNew e d false vs := by
  rw [initVars.eq_def]
  conv_rhs => rw [initVars.eq_def]
  simp only [notAllowed_pb hb]

theorem conv_form {e : Expr} (hb : boolForm e = true) (vs : Vars) :
    convert (intSem R) isFloat vs e true = convert (intSem R) isFloat vs e false := by
  cases e with
  | const v => cases v <;> first | rfl | cases hb
  | unary op x =>
    cases op <;> first | (cases hb; done) | simp only [convert]
  | boolOp _ _ => simp only [convert]
  | compare _ _ => simp only [convert]
  | _ => cases hb

theorem varTerm_pb {vs : Vars} {e : Expr} {t : Term} (h : varTerm vs e true = .ok (some t)) :
    ∃ t', varTerm vs e false = .ok (some t') := by
  unfold varTerm at h ⊢
  cases hl : vs.lookup e with
  | none => rw [hl] at h; cases h
  | some i => exact ⟨_, rfl⟩

theorem condTerm_pb {x : Except PyErr (Option Term)} {t : Term} (h : condTerm true x = .ok (some t)) :
    ∃ t', condTerm false x = .ok (some t') := by
  unfold condTerm at h ⊢
  rcases x with x | (_ | u)
  · cases h
  · cases h
  · exact ⟨_, rfl⟩

theorem arithResult_pb {op : BinOp} {tl : Option Term} {tr : Except PyErr (Option Term)} {t : Term}
    (h : arithResult op true tl tr = .ok (some t)) : ∃ t', arithResult op false tl tr = .ok (some t') := by
  unfold arithResult at h ⊢
  rcases tr with x | (_ | u)
  · cases h
  · cases tl <;> cases h
  · cases tl with
    | none => cases h
    | some a => exact ⟨_, rfl⟩

theorem conv_number {e : Expr} {t : Term} {vs : Vars} (hb : boolForm e = false)
    (h : convert (intSem R) isFloat vs e true = .ok (some t)) :
    ∃ t', convert (intSem R) isFloat vs e false = .ok (some t') := by
  cases e with
  | const v =>
    cases v <;> simp only [convert] at h ⊢ <;> first | exact ⟨_, rfl⟩ | cases h
  | name x => simp only [convert] at h ⊢; exact varTerm_pb h
  | subscript a i => simp only [convert] at h ⊢; exact varTerm_pb h
  | attr a x => simp only [convert] at h ⊢; exact varTerm_pb h
  | call f args =>
    simp only [convert] at h ⊢
    by_cases hf : f = .name "abs".toList
    · rw [if_pos hf] at h ⊢
      cases hc : convertFirst (intSem R) isFloat vs args with
      | error x => rw [hc] at h; cases h
      | ok o =>
        rw [hc] at h
        cases o with
        | none => cases h
        | some u => exact ⟨_, rfl⟩
    · rw [if_neg hf] at h ⊢; exact varTerm_pb h
  | unary op x =>
    simp only [convert] at h ⊢
    cases hc : convert (intSem R) isFloat vs x (decide (op = .not)) with
    | error x => rw [hc] at h; cases h
    | ok o =>
      rw [hc] at h
      cases o with
      | none => cases h
      | some u => cases op <;> first | exact ⟨_, rfl⟩
  | boolOp _ _ => cases hb
  | compare _ _ => cases hb
  | bin op l r =>
    simp only [convert] at h ⊢
    cases hn : nonlinear (intSem R) isFloat (.bin op l r) with
    | error x => rw [hn] at h; cases h
    | ok n =>
      rw [hn] at h
      cases n with
      | true => exact varTerm_pb h
      | false =>
        simp only at h ⊢
        cases hc : convert (intSem R) isFloat vs l false with
        | error x => rw [hc] at h; cases h
        | ok tl =>
          rw [hc] at h
          simp only at h ⊢
          cases op <;> simp only at h ⊢ <;> first | exact arithResult_pb h | skip
          all_goals try cases h
          all_goals
            cases tl with
            | none => cases h
            | some a =>
              simp only at h ⊢
              first
              | exact condTerm_pb h
              | by_cases hi : a.isInt = true
                · rw [if_pos hi] at h ⊢; exact condTerm_pb h
                · rw [if_neg hi] at h; cases h
  | ifExp _ _ _ => simp only [convert] at h; cases h
  | other _ _ => simp only [convert] at h; cases h

variable {zero : Int → Int} {σ : Expr → Int} {env : Env Val}

/-- What is not a truth value for the solver is a number. -/
theorem number_means (hB : Builtins env) {e : Expr} {d pb : Bool} {vs0 vs1 vs : Vars} {t : Term} (hb : boolForm e = false)
    (hs : InScope R isFloat (Agrees R σ env) e)
    (hi : initVars (intSem R) isFloat guess noNew e d pb vs0 = .ok (true, vs1))
    (hc : convert (intSem R) isFloat vs e false = .ok (some t)) : SameNumber R zero σ env t e := by
  have hi : initVars (intSem R) isFloat guess noNew e d false vs0 = .ok (true, vs1) := by
    cases pb with
    | false => exact hi
    | true => rw [← init_pb hb]; exact hi
  exact convert_means hB e d false vs0 vs1 vs t hs hi hc

theorem compare_bool (hB : Builtins env) {l : Expr} {ops : List (CmpOp × Expr)} {d pb : Bool} {vs0 vs1 vs : Vars} {t : Term}
    (hs : InScope R isFloat (Agrees R σ env) (.compare l ops))
    (hi : initVars (intSem R) isFloat guess noNew (.compare l ops) d pb vs0 = .ok (true, vs1))
    (hc : convert (intSem R) isFloat vs (.compare l ops) pb = .ok (some t)) {w : Val}
    (hw : eval (intSem R).toSem env (.compare l ops) = .ok w) : ∃ b, w = .bool b := by
  simp only [convert] at hc
  simp only [InScope] at hs
  rw [initVars] at hi
  match ops with
  | [] => simp [notAllowed] at hi
  | _ :: _ :: _ => simp [notAllowed] at hi
  | [(op, r)] =>
    cases hna : notAllowed (intSem R) isFloat (.compare l [(op, r)]) d pb with
    | error x => rw [hna] at hi; cases hi
    | ok b =>
      cases b with
      | true => rw [hna] at hi; cases hi
      | false =>
        rw [hna] at hi
        simp only at hi
        simp only [notAllowed, Except.ok.injEq, Bool.or_eq_false_iff, decide_eq_false_iff_not] at hna
        obtain ⟨hop, hpb⟩ := hna
        cases hil : initVars (intSem R) isFloat guess noNew l d false vs0 with
        | error x => rw [hil] at hi; cases hi
        | ok p =>
          obtain ⟨bl, vl⟩ := p
          rw [hil] at hi
          cases bl with
          | false => cases hi
          | true =>
            simp only at hi
            simp only [initOps] at hi
            cases hir : initVars (intSem R) isFloat guess noNew r d false vl with
            | error x => rw [hir] at hi; cases hi
            | ok p =>
              obtain ⟨br, vr⟩ := p
              rw [hir] at hi
              cases br with
              | false => cases hi
              | true =>
                cases hcl : convert (intSem R) isFloat vs l false with
                | error x => rw [hcl] at hc; cases hc
                | ok tl =>
                  rw [hcl] at hc
                  simp only [convertOp] at hc
                  cases hcr : convert (intSem R) isFloat vs r false with
                  | error x => rw [hcr] at hc; cases hc
                  | ok tr =>
                    rw [hcr] at hc
                    cases tl with
                    | none => cases hc
                    | some a =>
                      cases tr with
                      | none => cases hc
                      | some b =>
                        simp only [InScopeOps] at hs
                        obtain ⟨i, _, hl⟩ := convert_means (zero := fun _ => 0) hB l d false vs0 vl vs a hs.1 hil hcl
                        obtain ⟨j, _, hr⟩ := convert_means (zero := fun _ => 0) hB r d false vl vr vs b hs.2.1 hir hcr
                        have hcmp : ∃ b, intCmp op i j = some b := by
                          cases op <;> first | exact ⟨_, rfl⟩ | simp at hop
                        obtain ⟨b, hcmp⟩ := hcmp
                        simp only [eval, evalCmp] at hw
                        cases he : eval (intSem R).toSem env l with
                        | error x => simp [he] at hw
                        | ok x =>
                          simp only [he] at hw
                          cases hf : eval (intSem R).toSem env r with
                          | error y => simp [hf] at hw
                          | ok y =>
                            simp only [hf, intSem_cmp R (hl x he) (hr y hf) hcmp] at hw
                            cases hw
                            exact ⟨b, rfl⟩

/-- A comparison, a negation and a constant truth value give truth values. -/
theorem form_bool (hB : Builtins env) {e : Expr} {d pb : Bool} {vs0 vs1 vs : Vars} {t : Term} (hb : boolForm e = true)
    (hn : ∀ o es, e ≠ .boolOp o es) (hs : InScope R isFloat (Agrees R σ env) e)
    (hi : initVars (intSem R) isFloat guess noNew e d pb vs0 = .ok (true, vs1))
    (hc : convert (intSem R) isFloat vs e pb = .ok (some t)) {w : Val}
    (hw : eval (intSem R).toSem env e = .ok w) : ∃ b, w = .bool b := by
  cases e with
  | const v =>
    cases v with
    | bool b => simp only [eval] at hw; cases hw; exact ⟨b, rfl⟩
    | _ => cases hb
  | unary op x =>
    cases op <;> cases hb
    simp only [eval] at hw
    cases hx : eval (intSem R).toSem env x with
    | error y => rw [hx] at hw; cases hw
    | ok y =>
      rw [hx] at hw
      simp only [if_true] at hw
      cases ht : (intSem R).truth y with
      | error z => rw [ht] at hw; cases hw
      | ok z => rw [ht] at hw; cases hw; exact ⟨_, rfl⟩
  | boolOp o es => exact absurd rfl (hn o es)
  | compare l ops => exact compare_bool hB hs hi hc hw
  | _ => cases hb

mutual
/-- Expressions that the solver understands have integer values. -/
theorem int_value (hB : Builtins env) : ∀ (e : Expr) (d : Bool) (vs0 vs1 vs : Vars) (t : Term),
    InScope R isFloat (Agrees R σ env) e → initVars (intSem R) isFloat guess noNew e d true vs0 = .ok (true, vs1) →
    convert (intSem R) isFloat vs e true = .ok (some t) →
    ∀ w, eval (intSem R).toSem env e = .ok w → ∃ i, w.asInt = some i
  | .boolOp o es, d, vs0, vs1, vs, t, hs, hi, hc, w, hw => by
    simp only [convert] at hc
    simp only [InScope] at hs
    rw [initVars] at hi
    simp only [notAllowed, Bool.not_true] at hi
    simp only [eval] at hw
    cases hce : convertAll (intSem R) isFloat vs es with
    | error x => rw [hce] at hc; cases hc
    | ok p =>
      cases p with
      | none => rw [hce] at hc; cases hc
      | some ts => exact int_values hB es d vs0 vs1 vs ts hs hi hce o w hw
  | .const v, d, vs0, vs1, vs, t, hs, hi, hc, w, hw => by
    cases hb : boolForm (.const v) with
    | true => obtain ⟨b, rfl⟩ := form_bool hB hb (fun _ _ h => (nomatch h)) hs hi hc hw; exact ⟨_, rfl⟩
    | false =>
      obtain ⟨t', hc'⟩ := conv_number hb hc
      obtain ⟨i, _, h⟩ := number_means (zero := fun _ => 0) hB hb hs hi hc'
      exact ⟨i, h w hw⟩
  | .name x, d, vs0, vs1, vs, t, hs, hi, hc, w, hw => by
    obtain ⟨t', hc'⟩ := conv_number (e := .name x) rfl hc
    obtain ⟨i, _, h⟩ := number_means (zero := fun _ => 0) hB rfl hs hi hc'
    exact ⟨i, h w hw⟩
  | .unary op x, d, vs0, vs1, vs, t, hs, hi, hc, w, hw => by
    cases hb : boolForm (.unary op x) with
    | true => obtain ⟨b, rfl⟩ := form_bool hB hb (fun _ _ h => (nomatch h)) hs hi hc hw; exact ⟨_, rfl⟩
    | false =>
      obtain ⟨t', hc'⟩ := conv_number hb hc
      obtain ⟨i, _, h⟩ := number_means (zero := fun _ => 0) hB hb hs hi hc'
      exact ⟨i, h w hw⟩
  | .bin op l r, d, vs0, vs1, vs, t, hs, hi, hc, w, hw => by
    obtain ⟨t', hc'⟩ := conv_number (e := .bin op l r) rfl hc
    obtain ⟨i, _, h⟩ := number_means (zero := fun _ => 0) hB rfl hs hi hc'
    exact ⟨i, h w hw⟩
  | .compare l ops, d, vs0, vs1, vs, t, hs, hi, hc, w, hw => by
    obtain ⟨b, rfl⟩ := compare_bool hB hs hi hc hw; exact ⟨_, rfl⟩
  | .call f args, d, vs0, vs1, vs, t, hs, hi, hc, w, hw => by
    obtain ⟨t', hc'⟩ := conv_number (e := .call f args) rfl hc
    obtain ⟨i, _, h⟩ := number_means (zero := fun _ => 0) hB rfl hs hi hc'
    exact ⟨i, h w hw⟩
  | .attr e a, d, vs0, vs1, vs, t, hs, hi, hc, w, hw => by
    obtain ⟨t', hc'⟩ := conv_number (e := .attr e a) rfl hc
    obtain ⟨i, _, h⟩ := number_means (zero := fun _ => 0) hB rfl hs hi hc'
    exact ⟨i, h w hw⟩
  | .subscript a b, d, vs0, vs1, vs, t, hs, hi, hc, w, hw => by
    obtain ⟨t', hc'⟩ := conv_number (e := .subscript a b) rfl hc
    obtain ⟨i, _, h⟩ := number_means (zero := fun _ => 0) hB rfl hs hi hc'
    exact ⟨i, h w hw⟩
  | .ifExp _ _ _, d, vs0, vs1, vs, t, hs, hi, hc, w, hw => by simp only [convert] at hc; cases hc
  | .other _ _, d, vs0, vs1, vs, t, hs, hi, hc, w, hw => by simp only [convert] at hc; cases hc

theorem int_values (hB : Builtins env) : ∀ (es : List Expr) (d : Bool) (vs0 vs1 vs : Vars) (ts : List Term),
    InScopeAll R isFloat (Agrees R σ env) es → initAll (intSem R) isFloat guess noNew es d vs0 = .ok (true, vs1) →
    convertAll (intSem R) isFloat vs es = .ok (some ts) →
    ∀ o w, evalBool (intSem R).toSem env o es = .ok w → ∃ i, w.asInt = some i
  | [], d, vs0, vs1, vs, ts, hs, hi, hc, o, w, hw => by simp [evalBool] at hw
  | e :: es, d, vs0, vs1, vs, ts, hs, hi, hc, o, w, hw => by
    simp only [InScopeAll] at hs
    simp only [initAll] at hi
    simp only [convertAll] at hc
    cases hie : initVars (intSem R) isFloat guess noNew e d true vs0 with
    | error x => rw [hie] at hi; cases hi
    | ok p =>
      obtain ⟨b, v1⟩ := p
      rw [hie] at hi
      cases b with
      | false => cases hi
      | true =>
        simp only at hi
        cases hce : convert (intSem R) isFloat vs e true with
        | error x => rw [hce] at hc; cases hc
        | ok p =>
          cases p with
          | none => rw [hce] at hc; cases hc
          | some t =>
            rw [hce] at hc
            simp only at hc
            cases hcs : convertAll (intSem R) isFloat vs es with
            | error x => rw [hcs] at hc; cases hc
            | ok p =>
              cases p with
              | none => rw [hcs] at hc; cases hc
              | some us =>
                have h1 := int_value hB e d vs0 v1 vs t hs.1 hie hce
                have h2 := int_values hB es d v1 vs1 vs us hs.2 hi hcs
                simp only [evalBool] at hw
                cases hev : eval (intSem R).toSem env e with
                | error x => rw [hev] at hw; cases hw
                | ok a =>
                  rw [hev] at hw
                  simp only at hw
                  cases es with
                  | nil => cases hw; exact h1 _ hev
                  | cons f fs =>
                    simp only at hw
                    cases ht : (intSem R).truth a with
                    | error x => rw [ht] at hw; cases hw
                    | ok b =>
                      rw [ht] at hw
                      simp only at hw
                      by_cases hb : b = o
                      · rw [if_pos hb] at hw; cases hw; exact h1 _ hev
                      · rw [if_neg hb] at hw; exact h2 o w hw
end


end

section
variable (R : FoldSem Val) (isFloat : Val → Bool) (guess : Expr → Option Types) (vs : Vars)
variable (K : Expr → Prop) (zero : Int → Int)

/-- What the solver has for the variables (those in `K`) is what they are. -/
def Fits (ver : Ver) (σ : Expr → Nat → Int) (env : Env Val) : Prop := ∀ k, K k → Agrees R (at_ σ ver) env k

/-- The expression was admitted and is about integers. -/
def Admitted (e : Expr) : Prop :=
  (∃ noNew vs0 vs1, initVars (intSem R) isFloat guess noNew e false true vs0 = .ok (true, vs1)) ∧
    InScope R isFloat K e

/-- What is translated is true exactly if the condition is. -/
def CondSound (e : Expr) : Prop :=
  ∀ ver f, condition (intSem R) isFloat vs ver e = .ok (some f) →
    ∀ σ env b, Fits R K ver σ env → Builtins env → truthOf (intSem R).toSem env e = .ok b → f.eval zero σ = b

/-- A translated value always is a value, and it is that of the expression (in case `q`). -/
def ValueSound (q : Prop) (e : Expr) : Prop :=
  ∀ ver v, assigned (intSem R) isFloat vs ver e = .ok (some v) →
    (∀ σ, ∃ tv, v.eval zero σ = some tv) ∧
    (q → ∀ σ env w, Fits R K ver σ env → Builtins env → eval (intSem R).toSem env e = .ok w →
      ∃ i, w.asInt = some i ∧ eqValue i (v.eval zero σ) = true)

/-- There is an environment in which all variables are integers. -/
def Possible : Prop := ∃ env, Builtins env ∧ ∀ k, K k → IntValued R env k

variable {R isFloat guess vs K zero} {q : Prop}

theorem Fits.scope {ver : Ver} {σ : Expr → Nat → Int} {env : Env Val} (h : Fits R K ver σ env) {e : Expr}
    (he : InScope R isFloat K e) : InScope R isFloat (Agrees R (at_ σ ver) env) e :=
  InScope.mono h e he

theorem Admitted.cond {e : Expr} (h : Admitted R isFloat guess K e) : CondSound R isFloat vs K zero e := by
  obtain ⟨⟨noNew, vs0, vs1, hi⟩, hs⟩ := h
  intro ver f hf σ env b hfit hB hb
  unfold condition at hf
  cases hc : convert (intSem R) isFloat vs e true with
  | error x => rw [hc] at hf; cases hf
  | ok o =>
    rw [hc] at hf
    cases o with
    | none => cases hf
    | some t =>
      cases hf
      simp only [Fm.eval]
      rw [C44_partial (zero := zero) (pb := true) hB rfl (hfit.scope hs) hi hc hb]
      cases b <;> simp

theorem termValue_eq {σ : Expr → Nat → Int} {ver : Ver} {t : Term} {tv : TV} (h : t.eval zero (at_ σ ver) = some tv) :
    termValue zero σ ver t = some tv := by
  cases t with
  | add l r | sub l r | mul l r =>
    simp only [Term.eval] at h
    simp only [termValue]
    generalize l.eval zero (at_ σ ver) = a at h ⊢
    generalize r.eval zero (at_ σ ver) = b at h ⊢
    rcases a with _ | i | i <;> rcases b with _ | j | j <;> first | exact h | cases h
  | _ => exact h

/-- A translated expression has the value of the expression; it is the number itself unless the expression is `and` or
`or`. -/
theorem Admitted.value {e : Expr} (h : Admitted R isFloat guess K e) {t : Term}
    (hc : convert (intSem R) isFloat vs e false = .ok (some t)) {ver : Ver} {σ : Expr → Nat → Int} {env : Env Val}
    (hfit : Fits R K ver σ env) (hB : Builtins env) :
    ∃ tv, t.eval zero (at_ σ ver) = some tv ∧ ∀ w, eval (intSem R).toSem env e = .ok w →
      ∃ i, w.asInt = some i ∧ eqValue i (some tv) = true ∧ ((∀ o es, e ≠ .boolOp o es) → i = num tv) := by
  obtain ⟨⟨noNew, vs0, vs1, hi⟩, hs⟩ := h
  have hs := hfit.scope hs
  cases hb : boolForm e with
  | false =>
    obtain ⟨i, hi, hv⟩ := number_means (zero := zero) hB hb hs hi hc
    refine ⟨_, hi, fun w hw => ⟨i, hv w hw, by simp [eqValue], fun _ => rfl⟩⟩
  | true =>
    rw [← conv_form hb] at hc
    obtain ⟨b, ht, hv⟩ := convert_means (zero := zero) hB e false true vs0 vs1 vs t hs hi hc
    refine ⟨_, ht, fun w hw => ?_⟩
    have htw := hv w hw
    obtain ⟨i, hwi⟩ := int_value hB e false vs0 vs1 vs t hs hi hc w hw
    rw [truth_asInt R hwi] at htw
    cases htw
    refine ⟨i, hwi, by simp [eqValue], fun hn => ?_⟩
    obtain ⟨b, rfl⟩ := form_bool hB hb hn hs hi hc hw
    simp only [Val.asInt, Option.some.injEq] at hwi
    subst hwi
    cases b <;> simp [num]

theorem kind_some {a b : Option TV} (h : kind a = kind b) {x : TV} (ha : a = some x) : ∃ y, b = some y := by
  subst ha
  rcases b with _ | b
  · cases x <;> cases h
  · exact ⟨b, rfl⟩

/-- The translation of an expression has a value whatever the values of its variables are. -/
theorem Admitted.total (h : Possible R K) {e : Expr} (he : Admitted R isFloat guess K e) {t : Term}
    (hc : convert (intSem R) isFloat vs e false = .ok (some t)) (σ : Expr → Int) :
    ∃ tv, t.eval zero σ = some tv := by
  obtain ⟨env, hB, hk⟩ := h
  have hfit : Fits R K (fun _ => 0) (fun k _ => valuation R env k) env := fun k hk' => agrees_valuation (hk k hk')
  obtain ⟨tv, htv, _⟩ := he.value (zero := zero) hc hfit hB
  exact kind_some (eval_kind zero _ σ t) htv

theorem value_term {ver : Ver} {e : Expr} {v : Vl} (h : Blocks.value (intSem R) isFloat vs ver e = .ok (some v)) :
    ∃ t, convert (intSem R) isFloat vs e false = .ok (some t) ∧ v = .term ver t := by
  unfold Blocks.value at h
  cases hc : convert (intSem R) isFloat vs e false with
  | error x => rw [hc] at h; cases h
  | ok o =>
    rw [hc] at h
    cases o with
    | none => cases h
    | some t => cases h; exact ⟨t, rfl, rfl⟩

theorem andSome_ok {α β : Type} {r : Except PyErr (Option α)} {f : α → Except PyErr (Option β)} {b : β}
    (h : andSome r f = .ok (some b)) : ∃ a, r = .ok (some a) ∧ f a = .ok (some b) := by
  unfold andSome at h
  rcases r with x | (_ | a)
  · cases h
  · cases h
  · exact ⟨a, rfl, h⟩

theorem both_ok {α β : Type} {r : Except PyErr (Option α)} {s : Except PyErr (Option β)} {p : α × β}
    (h : both r s = .ok (some p)) : r = .ok (some p.1) ∧ s = .ok (some p.2) := by
  unfold both at h
  rcases r with x | (_ | a) <;> rcases s with y | (_ | b) <;> cases h
  exact ⟨rfl, rfl⟩

theorem iteValue_some {c : Bool} {a b : TV} : ∃ tv, iteValue c (some a) (some b) = some tv := by
  cases a <;> cases b <;> exact ⟨_, rfl⟩

theorem iteValue_num {c : Bool} {a b : TV} : ∃ tv, iteValue c (some a) (some b) = some tv ∧ num tv = if c then num a else num b := by
  cases a <;> cases b <;> refine ⟨_, rfl, ?_⟩ <;> cases c <;> simp [num]

theorem eqValue_num (tv : TV) : eqValue (num tv) (some tv) = true := by
  cases tv with
  | int i => simp [num, eqValue]
  | bool b => cases b <;> simp [num, eqValue]

/-- A conditional expression of which no branch is `and` or `or`. -/
theorem ifExp_sound (hp : Possible R K) {t a b : Expr} (ht : Admitted R isFloat guess K t)
    (ha : Admitted R isFloat guess K a) (hb : Admitted R isFloat guess K b)
    (hna : ∀ o es, a ≠ .boolOp o es) (hnb : ∀ o es, b ≠ .boolOp o es) : ValueSound R isFloat vs K zero q (.ifExp t a b) := by
  intro ver v hv
  simp only [assigned] at hv
  obtain ⟨⟨c, x, y⟩, hbo, hv⟩ := andSome_ok hv
  obtain ⟨hc, hbo⟩ := both_ok hbo
  obtain ⟨hx, hy⟩ := both_ok hbo
  cases hv
  obtain ⟨ta, hta, rfl⟩ := value_term hx
  obtain ⟨tb, htb, rfl⟩ := value_term hy
  constructor
  · intro σ
    obtain ⟨va, hva⟩ := ha.total (zero := zero) hp hta (at_ σ ver)
    obtain ⟨vb, hvb⟩ := hb.total (zero := zero) hp htb (at_ σ ver)
    simp only [Vl.eval, termValue_eq hva, termValue_eq hvb]
    exact iteValue_some
  · intro hq σ env w hfit hB hw
    obtain ⟨va, hva, hwa⟩ := ha.value (zero := zero) hta hfit hB
    obtain ⟨vb, hvb, hwb⟩ := hb.value (zero := zero) htb hfit hB
    simp only [Vl.eval, termValue_eq hva, termValue_eq hvb]
    obtain ⟨tv, htv, hn⟩ := iteValue_num (c := c.eval zero σ) (a := va) (b := vb)
    rw [htv]
    simp only [eval] at hw
    cases het : eval (intSem R).toSem env t with
    | error e => rw [het] at hw; cases hw
    | ok u =>
      rw [het] at hw
      simp only at hw
      cases htu : (intSem R).truth u with
      | error e => rw [htu] at hw; cases hw
      | ok q =>
        rw [htu] at hw
        simp only at hw
        have hcq : c.eval zero σ = q := ht.cond ver c hc σ env q hfit hB (by simp only [truthOf, het, htu])
        rw [hcq] at hn
        cases q with
        | true =>
          obtain ⟨i, hi, _, hin⟩ := hwa w hw
          refine ⟨i, hi, ?_⟩
          rw [hin hna, ← (by simpa using hn : num tv = num va)]
          exact eqValue_num tv
        | false =>
          obtain ⟨i, hi, _, hin⟩ := hwb w (by simpa using hw)
          refine ⟨i, hi, ?_⟩
          rw [hin hnb, ← (by simpa using hn : num tv = num vb)]
          exact eqValue_num tv

/-- Any other expression. -/
theorem plain_sound (hp : Possible R K) {e : Expr} (he : Admitted R isFloat guess K e) (hn : ∀ t a b, e ≠ .ifExp t a b) :
    ValueSound R isFloat vs K zero q e := by
  intro ver v hv
  have hv : Blocks.value (intSem R) isFloat vs ver e = .ok (some v) := by
    cases e with
    | ifExp t a b => exact absurd rfl (hn t a b)
    | _ => exact hv
  obtain ⟨t, ht, rfl⟩ := value_term hv
  constructor
  · intro σ
    obtain ⟨tv, htv⟩ := he.total (zero := zero) hp ht (at_ σ ver)
    exact ⟨tv, by simp only [Vl.eval, termValue_eq htv]⟩
  · intro hq σ env w hfit hB hw
    obtain ⟨tv, htv, hwv⟩ := he.value (zero := zero) ht hfit hB
    obtain ⟨i, hi, he, _⟩ := hwv w hw
    exact ⟨i, hi, by simp only [Vl.eval, termValue_eq htv, he]⟩

/-- Arithmetic with a variable, `+=`, `-=` and `*=`. -/
theorem aug_arith_sound (hp : Possible R K) {x : Str} {op : BinOp} (hop : op = .add ∨ op = .sub ∨ op = .mul) {e : Expr}
    (hx : q → K (.name x)) (he : Admitted R isFloat guess K e) (hne : ∀ o es, e ≠ .boolOp o es)
    (hnl : nonlinear (intSem R) isFloat (.bin op (.name x) e) = .ok false) :
    ValueSound R isFloat vs K zero q (.bin op (.name x) e) := by
  intro ver v hv
  obtain ⟨t, ht, rfl⟩ := value_term hv
  simp only [convert, hnl] at ht
  cases hcx : varTerm vs (.name x) false with
  | error y => rw [hcx] at ht; cases ht
  | ok o =>
    rw [hcx] at ht
    simp only at ht
    have har : arithResult op false o (convert (intSem R) isFloat vs e false) = .ok (some t) := by
      rcases hop with rfl | rfl | rfl <;> exact ht
    unfold arithResult at har
    cases hce : convert (intSem R) isFloat vs e false with
    | error y => rw [hce] at har; cases har
    | ok p =>
      rw [hce] at har
      cases o with
      | none => cases har
      | some a =>
        cases p with
        | none => cases har
        | some b =>
          cases har
          have hax : ∃ i, a = .var i (.name x) := by
            unfold varTerm at hcx
            cases hl : vs.lookup (.name x) with
            | none => rw [hl] at hcx; cases hcx
            | some i => rw [hl] at hcx; cases hcx; exact ⟨i, rfl⟩
          obtain ⟨j, rfl⟩ := hax
          have hval : ∀ σ tv, b.eval zero (at_ σ ver) = some tv →
              (Vl.term ver (asCondition false (arithTerm op (.var j (.name x)) b))).eval zero σ =
                some (.int (match op with
                  | .add => at_ σ ver (.name x) + num tv
                  | .sub => at_ σ ver (.name x) - num tv
                  | _ => at_ σ ver (.name x) * num tv)) := by
            intro σ tv htv
            rcases hop with rfl | rfl | rfl <;>
              simp [Vl.eval, asCondition, arithTerm, termValue, Term.eval, htv, num]
          constructor
          · intro σ
            obtain ⟨tv, htv⟩ := he.total (zero := zero) hp hce (at_ σ ver)
            exact ⟨_, hval σ tv htv⟩
          · intro hq σ env w hfit hB hw
            obtain ⟨tv, htv, hwv⟩ := he.value (zero := zero) hce hfit hB
            rw [hval σ tv htv]
            obtain ⟨p, q, hpv, hqv, hw⟩ := eval_bin_ok hw
            have h1 := hfit _ (hx hq) p hpv
            obtain ⟨i, hi, _, hin⟩ := hwv q hqv
            have hin := hin hne
            subst hin
            rcases hop with rfl | rfl | rfl
            · rw [intSem_binary R h1 hi (r := .ok (.int _)) rfl] at hw
              cases hw
              exact ⟨_, rfl, by simp [eqValue]⟩
            · rw [intSem_binary R h1 hi (r := .ok (.int _)) rfl] at hw
              cases hw
              exact ⟨_, rfl, by simp [eqValue]⟩
            · rw [intSem_binary R h1 hi (r := .ok (.int _)) rfl] at hw
              cases hw
              exact ⟨_, rfl, by simp [eqValue]⟩

/-- `%=` and `//=` by a constant. -/
theorem aug_div_sound {x : Str} {op : BinOp} (hop : op = .mod ∨ op = .floordiv) {e : Expr}
    (hx : q → K (.name x)) (hs : InScope R isFloat (fun _ => True) (.bin op (.name x) e))
    (hnl : nonlinear (intSem R) isFloat (.bin op (.name x) e) = .ok false) :
    ValueSound R isFloat vs K zero q (.bin op (.name x) e) := by
  intro ver v hv
  obtain ⟨t, ht, rfl⟩ := value_term hv
  simp only [InScope] at hs
  have hs := (hs.2 hnl).2
  simp only [convert, hnl] at ht
  cases hcx : varTerm vs (.name x) false with
  | error y => rw [hcx] at ht; cases ht
  | ok o =>
    rw [hcx] at ht
    simp only at ht
    cases o with
    | none => rcases hop with rfl | rfl <;> cases ht
    | some a =>
      have hax : ∃ i, a = .var i (.name x) := by
        unfold varTerm at hcx
        cases hl : vs.lookup (.name x) with
        | none => rw [hl] at hcx; cases hcx
        | some i => rw [hl] at hcx; cases hcx; exact ⟨i, rfl⟩
      obtain ⟨j, rfl⟩ := hax
      have hd : condTerm false (divTerm (intSem R) op (.var j (.name x)) e) = .ok (some t) := by
        by_cases hj : (Term.var j (.name x)).isInt = true
        · rcases hop with rfl | rfl <;> simpa [hj] using ht
        · rcases hop with rfl | rfl <;> simp [hj] at ht
      have hnum : q → ∀ σ env, Fits R K ver σ env → SameNumber R zero (at_ σ ver) env (.var j (.name x)) (.name x) :=
        fun hq σ env hfit => ⟨at_ σ ver (.name x), by simp [Term.eval], hfit _ (hx hq)⟩
      unfold divTerm at hd
      cases hcv : constValue (intSem R) e with
      | error y => rw [hcv] at hd; cases hd
      | ok p =>
        cases p with
        | none => rw [hcv] at hd; cases hd
        | some w =>
          rw [hcv] at hd
          simp only at hd
          cases hw : w.asInt with
          | none => rw [hw] at hd; rcases hop with rfl | rfl <;> cases hd
          | some c =>
            rw [hw] at hd
            rcases hop with rfl | rfl
            · simp only at hd
              by_cases h1 : c > 1
              · rw [if_pos h1] at hd
                cases hd
                constructor
                · intro σ
                  exact ⟨_, by simp [Vl.eval, asCondition, termValue, Term.eval, TV.int?]; rfl⟩
                · intro hq σ env u hfit hB hu
                  obtain ⟨i, hi, hv⟩ := mod_number (hnum hq σ env hfit) hcv hw h1
                  refine ⟨i, hv u hu, ?_⟩
                  have : (Vl.term ver (asCondition false (.mod (.var j (.name x)) c))).eval zero σ = some (.int i) := by
                    simp only [Vl.eval, asCondition]
                    exact termValue_eq hi
                  rw [this]
                  simp [eqValue]
              · rw [if_neg h1] at hd; cases hd
            · cases hd
              constructor
              · intro σ
                exact ⟨_, by simp [Vl.eval, asCondition, termValue, Term.eval, TV.int?]; rfl⟩
              · intro hq σ env u hfit hB hu
                obtain ⟨i, hi, hv⟩ := div_number (hnum hq σ env hfit) hcv hw (hs w c hcv hw)
                refine ⟨i, hv u hu, ?_⟩
                have : (Vl.term ver (asCondition false (.div (.var j (.name x)) c))).eval zero σ = some (.int i) := by
                  simp only [Vl.eval, asCondition]
                  exact termValue_eq hi
                rw [this]
                simp [eqValue]

end

end Verif.Py.Blocks

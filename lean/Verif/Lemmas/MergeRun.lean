import Verif.Lemmas.MergeIfs

/-!
The conditions of consecutive `if`s as the solver has them, with the `if`s as the blocks between them.
-/

namespace Verif.Py.Blocks

section
variable {R : FoldSem Val} {isFloat : Val → Bool} {guess : Expr → Option Types} {vs : Vars}
variable {pure modified : Expr → Bool} {mutableStmt : Stmt → Bool}
variable {iter : Val → Except PyErr (List Val)} {effect : Nat → Env Val → Except PyErr (Env Val)}
variable {other : Nat → Env Val → Except PyErr Flow}

/-! ### Only targets are changed -/

theorem Same.mono {T T' : List Str} {env env' : Env Val} (h : Same T env env') (hT : ∀ x ∈ T, x ∈ T') : Same T' env env' :=
  fun x hx => h x fun hx' => hx (hT x hx')

theorem assignAll_same {ver : Ver} : ∀ (ts : List Target) (es : List Expr) (ver' : Ver) (changed : List Expr) (st : St)
    (r : Out × St), assignAll (intSem R) isFloat vs ver ts es ver' changed st = .ok (some r) →
    r.1 ≠ .ends ∧ ∀ vals env env', assignTargets effect ts vals env = .ok env' → Same (ts.flatMap Target.names) env env'
  | [], es, ver', changed, st, r, h => by
    simp only [assignAll, Except.ok.injEq, Option.some.injEq] at h
    subst h
    refine ⟨by simp, fun vals env env' ha => ?_⟩
    cases vals with
    | nil => simp only [assignTargets, Except.ok.injEq] at ha; subst ha; exact fun _ _ => rfl
    | cons v vals => simp only [assignTargets] at ha; cases ha
  | .other _ :: ts, es, ver', changed, st, r, h => by simp only [assignAll] at h; cases h
  | .name x :: ts, es, ver', changed, st, r, h => by
    have key : ∀ es ver' changed st, assignAll (intSem R) isFloat vs ver ts es ver' changed st = .ok (some r) →
        r.1 ≠ .ends ∧ ∀ vals env env', assignTargets effect (.name x :: ts) vals env = .ok env' →
          Same ((Target.name x :: ts).flatMap Target.names) env env' := by
      intro es ver' changed st h
      obtain ⟨h1, h2⟩ := assignAll_same ts es ver' changed st r h
      refine ⟨h1, fun vals env env' ha => ?_⟩
      cases vals with
      | nil => simp only [assignTargets] at ha; cases ha
      | cons v vals =>
        simp only [assignTargets] at ha
        have hs := h2 vals (setVar env x v) env' ha
        intro y hy
        simp only [List.flatMap_cons, Target.names, List.cons_append, List.nil_append, List.mem_cons, not_or] at hy
        rw [hs y hy.2]
        simp only [setVar]
        rw [if_neg hy.1]
    simp only [assignAll] at h
    by_cases hl : vs.lookup (.name x) = none
    · rw [if_pos hl] at h; exact key _ _ _ _ h
    · rw [if_neg hl] at h
      cases es with
      | nil => cases h
      | cons e es =>
        obtain ⟨v, _, h⟩ := andSome_ok h
        exact key _ _ _ _ h

theorem goOn_go {r : Except PyErr (Env Val)} {env : Env Val} (h : goOn r = .ok (.go env)) : r = .ok env := by
  cases r with
  | error x => cases h
  | ok e => simp only [goOn, Except.ok.injEq, Flow.go.injEq] at h; rw [h]

theorem branch_always {acc : Acc} {c : Fm} {o : Out} (h : acc.always = false ∨ o ≠ .ends) : (acc.branch c o).always = false := by
  cases o with
  | ends => exact h.resolve_right (by simp)
  | goes v ch as => rfl

theorem finishIf_ends {acc : Acc} {he : Bool} {ver : Ver} {st : St} (h : acc.always = false) :
    (finishIf acc he ver st).1 ≠ .ends := by
  simp [finishIf, h]

theorem rest_always : ∀ (r : Rest) (ver : Ver) (acc : Acc) (st : St) (p : Acc × Bool × St),
    afterRest (intSem R) isFloat vs r ver acc st = .ok (some p) → acc.always = false → p.1.always = false
  | .none, ver, acc, st, p, h, ha => by
    simp only [afterRest, Except.ok.injEq, Option.some.injEq] at h
    subst h
    rfl
  | .elif_ t b r, ver, acc, st, p, h, ha => by
    simp only [afterRest] at h
    obtain ⟨co, _, h⟩ := andSome_ok h
    exact rest_always r ver _ _ p h (branch_always (.inl ha))
  | .else_ b, ver, acc, st, p, h, ha => by
    simp only [afterRest] at h
    obtain ⟨o, _, h⟩ := andSome_ok h
    simp only [Except.ok.injEq, Option.some.injEq] at h
    subst h
    cases ho : o.1 with
    | ends => simpa only [ho, Acc.elseBranch] using ha
    | goes v ch as => simp only [ho, Acc.elseBranch]

variable (R isFloat guess vs pure modified iter effect other) in
def BlockSame (b : Block) : Prop :=
  ∀ (direct : Bool) (v v' : Vars) (ver : Ver) (ch : List Expr) (as : List Fm) (st : St) (r : Out × St) (env env' : Env Val),
    validBlock (intSem R) isFloat guess pure modified direct b v = .ok (true, v') →
    afterBlock (intSem R) isFloat vs b ver ch as st = .ok (some r) →
    runBlock (intSem R).toSem iter effect other b env = .ok (.go env') → r.1 ≠ .ends ∧ Same b.targets env env'

variable (R isFloat guess vs pure modified iter effect other) in
def RestSame (r : Rest) : Prop :=
  ∀ (direct : Bool) (v v' : Vars) (ver : Ver) (acc : Acc) (st : St) (p : Acc × Bool × St) (env env' : Env Val),
    validRest (intSem R) isFloat guess pure modified direct r v = .ok (true, v') →
    afterRest (intSem R) isFloat vs r ver acc st = .ok (some p) →
    runRest (intSem R).toSem iter effect other r env = .ok (.go env') → p.1.always = false ∧ Same r.targets env env'

theorem if_same {t : Expr} {b : Block} {r' : Rest} (hbs : BlockSame R isFloat guess vs pure modified iter effect other b)
    (hrs : RestSame R isFloat guess vs pure modified iter effect other r') {d₁ d₂ : Bool} {v v1 v2 : Vars} {ver : Ver} {st : St}
    {r : Out × St} {env env' : Env Val}
    (hv1 : validRest (intSem R) isFloat guess pure modified d₁ r' v = .ok (true, v1))
    (hv2 : validBlock (intSem R) isFloat guess pure modified d₂ b v1 = .ok (true, v2))
    (h : afterStmt (intSem R) isFloat vs (.if_ t b r') ver st = .ok (some r))
    (hr : runStmt (intSem R).toSem iter effect other (.if_ t b r') env = .ok (.go env')) :
    r.1 ≠ .ends ∧ Same (Stmt.if_ t b r').targets env env' := by
  simp only [afterStmt] at h
  obtain ⟨⟨c, o, st1⟩, hbo, h⟩ := andSome_ok h
  obtain ⟨⟨acc, he, st2⟩, hrest, h⟩ := andSome_ok h
  obtain ⟨_, hb⟩ := both_ok hbo
  simp only [Except.ok.injEq, Option.some.injEq] at h
  subst h
  simp only [runStmt] at hr
  cases ht : truthOf (intSem R).toSem env t with
  | error x => rw [ht] at hr; cases hr
  | ok q =>
    rw [ht] at hr
    cases q with
    | true =>
      obtain ⟨h1, h2⟩ := hbs d₂ v1 v2 ver [] [] st (o, st1) env env' hv2 hb hr
      refine ⟨finishIf_ends (rest_always r' ver _ _ _ hrest (branch_always (.inr h1))), h2.mono fun x hx => ?_⟩
      simp only [Stmt.targets, List.mem_append]
      exact .inl hx
    | false =>
      obtain ⟨h1, h2⟩ := hrs d₁ v v1 ver _ _ _ env env' hv1 hrest hr
      refine ⟨finishIf_ends h1, h2.mono fun x hx => ?_⟩
      simp only [Stmt.targets, List.mem_append]
      exact .inr hx

mutual
theorem stmt_same : ∀ (s : Stmt) (direct : Bool) (v v' : Vars) (ver : Ver) (st : St) (r : Out × St) (env env' : Env Val),
    validStmt (intSem R) isFloat guess pure modified direct s v = .ok (true, v') →
    afterStmt (intSem R) isFloat vs s ver st = .ok (some r) →
    runStmt (intSem R).toSem iter effect other s env = .ok (.go env') → r.1 ≠ .ends ∧ Same s.targets env env'
  | .assign t e, direct, v, v', ver, st, r, env, env', hv, h, hr => by
    simp only [afterStmt, afterAssign] at h
    obtain ⟨h1, h2⟩ := assignAll_same (effect := effect) _ _ _ _ _ _ h
    refine ⟨h1, ?_⟩
    simp only [runStmt] at hr
    cases he : eval (intSem R).toSem env e with
    | error x => rw [he] at hr; cases hr
    | ok w =>
      rw [he] at hr
      have := h2 [w] env env' (goOn_go hr)
      simpa only [Stmt.targets, List.flatMap_cons, List.flatMap_nil, List.append_nil] using this
  | .assigns ts e, direct, v, v', ver, st, r, env, env', hv, h, hr => by
    simp only [afterStmt, afterAssign] at h
    obtain ⟨h1, h2⟩ := assignAll_same (effect := effect) _ _ _ _ _ _ h
    refine ⟨h1, ?_⟩
    simp only [runStmt] at hr
    cases he : unpack (intSem R).toSem iter env e with
    | error x => rw [he] at hr; cases hr
    | ok w =>
      rw [he] at hr
      exact h2 w env env' (goOn_go hr)
  | .aug (.name x) op e, direct, v, v', ver, st, r, env, env', hv, h, hr => by
    simp only [afterStmt, afterAssign] at h
    obtain ⟨h1, _⟩ := assignAll_same (effect := effect) _ _ _ _ _ _ h
    refine ⟨h1, ?_⟩
    simp only [runStmt] at hr
    cases he : eval (intSem R).toSem env (.bin op (.name x) e) with
    | error x => rw [he] at hr; cases hr
    | ok w =>
      rw [he] at hr
      simp only [Except.ok.injEq, Flow.go.injEq] at hr
      subst hr
      exact same_setVar (by simp [Stmt.targets, Target.names])
  | .aug (.other n) op e, direct, v, v', ver, st, r, env, env', hv, h, hr => by
    simp only [afterStmt, afterAssign] at h; cases h
  | .expr e, direct, v, v', ver, st, r, env, env', hv, h, hr => by
    simp only [afterStmt, afterAssign, Except.ok.injEq, Option.some.injEq] at h
    subst h
    refine ⟨by simp, ?_⟩
    simp only [runStmt] at hr
    cases he : eval (intSem R).toSem env e with
    | error x => rw [he] at hr; cases hr
    | ok w =>
      rw [he] at hr
      simp only [Except.ok.injEq, Flow.go.injEq] at hr
      subst hr
      exact fun _ _ => rfl
  | .pass, direct, v, v', ver, st, r, env, env', hv, h, hr => by
    simp only [afterStmt, afterAssign, Except.ok.injEq, Option.some.injEq] at h
    subst h
    simp only [runStmt, Except.ok.injEq, Flow.go.injEq] at hr
    subst hr
    exact ⟨by simp, fun _ _ => rfl⟩
  | .assert_ e, direct, v, v', ver, st, r, env, env', hv, h, hr => by
    simp only [afterStmt] at h
    obtain ⟨c, _, h⟩ := andSome_ok h
    simp only [Except.ok.injEq, Option.some.injEq] at h
    subst h
    refine ⟨by simp, ?_⟩
    simp only [runStmt] at hr
    cases he : truthOf (intSem R).toSem env e with
    | error x => rw [he] at hr; cases hr
    | ok w =>
      rw [he] at hr
      cases w with
      | false => cases hr
      | true =>
        simp only [Except.ok.injEq, Flow.go.injEq] at hr
        subst hr
        exact fun _ _ => rfl
  | .end_, direct, v, v', ver, st, r, env, env', hv, h, hr => by simp only [runStmt] at hr; cases hr
  | .other n, direct, v, v', ver, st, r, env, env', hv, h, hr => by
    simp only [validStmt, validSimple, Except.ok.injEq, Prod.mk.injEq] at hv
    cases hv.1
  | .if_ t b r', direct, v, v', ver, st, r, env, env', hv, h, hr => by
    simp only [validStmt] at hv
    obtain ⟨v1, hv1, hv⟩ := andThen_ok hv
    obtain ⟨v2, hv2, _⟩ := andThen_ok hv
    exact if_same (block_same b) (rest_same r') hv1 hv2 h hr

theorem block_same : ∀ (b : Block), BlockSame R isFloat guess vs pure modified iter effect other b
  | .nil, direct, v, v', ver, ch, as, st, r, env, env', hv, h, hr => by
    simp only [afterBlock, Except.ok.injEq, Option.some.injEq] at h
    subst h
    simp only [runBlock, Except.ok.injEq, Flow.go.injEq] at hr
    subst hr
    exact ⟨by simp, fun _ _ => rfl⟩
  | .cons s b, direct, v, v', ver, ch, as, st, r, env, env', hv, h, hr => by
    simp only [validBlock] at hv
    obtain ⟨v1, hv1, hv2⟩ := andThen_ok hv
    simp only [afterBlock] at h
    obtain ⟨⟨o, st1⟩, hs, h⟩ := andSome_ok h
    simp only [runBlock] at hr
    cases hrs : runStmt (intSem R).toSem iter effect other s env with
    | error x => rw [hrs] at hr; cases hr
    | ok fl =>
      rw [hrs] at hr
      cases fl with
      | stop => cases hr
      | go e1 =>
        obtain ⟨h1, h2⟩ := stmt_same s direct v1 v' ver st (o, st1) env e1 hv2 hs hrs
        cases o with
        | ends => exact absurd rfl h1
        | goes ver' ch' as' =>
          obtain ⟨h3, h4⟩ := block_same b direct v v1 ver' _ _ st1 r e1 env' hv1 h hr
          refine ⟨h3, (h2.mono fun x hx => ?_).trans (h4.mono fun x hx => ?_)⟩
          · simp only [Block.targets, List.mem_append]; exact .inl hx
          · simp only [Block.targets, List.mem_append]; exact .inr hx

theorem rest_same : ∀ (r : Rest), RestSame R isFloat guess vs pure modified iter effect other r
  | .none, direct, v, v', ver, acc, st, p, env, env', hv, h, hr => by
    simp only [afterRest, Except.ok.injEq, Option.some.injEq] at h
    subst h
    simp only [runRest, Except.ok.injEq, Flow.go.injEq] at hr
    subst hr
    exact ⟨rfl, fun _ _ => rfl⟩
  | .elif_ t b r, direct, v, v', ver, acc, st, p, env, env', hv, h, hr => by
    simp only [validRest] at hv
    obtain ⟨v1, hv1, hv⟩ := andThen_ok hv
    obtain ⟨v2, hv2, _⟩ := andThen_ok hv
    simp only [afterRest] at h
    obtain ⟨⟨c, o, st1⟩, hbo, h⟩ := andSome_ok h
    obtain ⟨_, hb⟩ := both_ok hbo
    simp only [runRest] at hr
    cases ht : truthOf (intSem R).toSem env t with
    | error x => rw [ht] at hr; cases hr
    | ok q =>
      rw [ht] at hr
      cases q with
      | true =>
        obtain ⟨h1, h2⟩ := block_same b _ v1 v2 ver [] [] st (o, st1) env env' hv2 hb hr
        refine ⟨rest_always r ver _ _ _ h (branch_always (.inr h1)), h2.mono fun x hx => ?_⟩
        simp only [Rest.targets, List.mem_append]
        exact .inl hx
      | false =>
        obtain ⟨h1, h2⟩ := rest_same r _ v v1 ver _ _ _ env env' hv1 h hr
        refine ⟨h1, h2.mono fun x hx => ?_⟩
        simp only [Rest.targets, List.mem_append]
        exact .inr hx
  | .else_ b, direct, v, v', ver, acc, st, p, env, env', hv, h, hr => by
    simp only [validRest] at hv
    simp only [afterRest] at h
    obtain ⟨⟨o, st1⟩, hb, h⟩ := andSome_ok h
    simp only [Except.ok.injEq, Option.some.injEq] at h
    subst h
    simp only [runRest] at hr
    obtain ⟨h1, h2⟩ := block_same b _ v v' ver [] [] st (o, st1) env env' hv hb hr
    refine ⟨?_, h2⟩
    cases o with
    | ends => exact absurd rfl h1
    | goes ver' ch as => rfl
end

/-! ### Nothing is asserted without `assert`, `break`, `continue`, `raise` and `return` -/

/-- Nothing but the new variables is known after a block. -/
def Out.Silent : Out → Prop
  | .ends => False
  | .goes _ _ asserts => asserts = []

theorem assignAll_silent {ver : Ver} : ∀ (ts : List Target) (es : List Expr) (ver' : Ver) (changed : List Expr) (st : St)
    (r : Out × St), assignAll (intSem R) isFloat vs ver ts es ver' changed st = .ok (some r) → r.1.Silent
  | [], es, ver', changed, st, r, h => by
    simp only [assignAll, Except.ok.injEq, Option.some.injEq] at h
    subst h
    rfl
  | .other _ :: ts, es, ver', changed, st, r, h => by simp only [assignAll] at h; cases h
  | .name x :: ts, es, ver', changed, st, r, h => by
    simp only [assignAll] at h
    by_cases hl : vs.lookup (.name x) = none
    · rw [if_pos hl] at h; exact assignAll_silent ts _ _ _ _ r h
    · rw [if_neg hl] at h
      cases es with
      | nil => cases h
      | cons e es =>
        obtain ⟨v, _, h⟩ := andSome_ok h
        exact assignAll_silent ts _ _ _ _ r h

theorem branch_silent {acc : Acc} {c : Fm} {o : Out} (ho : o.Silent) (h : acc.asserts = []) :
    (acc.branch c o).asserts = [] ∧ (acc.branch c o).always = false := by
  cases o with
  | ends => exact ho.elim
  | goes v ch as =>
    simp only [Out.Silent] at ho
    simp [Acc.branch, ho, h]

variable {exits : Nat → Bool}

mutual
theorem stmt_silent : ∀ (s : Stmt) (ver : Ver) (st : St) (r : Out × St), s.hasExit exits = false →
    afterStmt (intSem R) isFloat vs s ver st = .ok (some r) → r.1.Silent
  | .assign t e, ver, st, r, hx, h => by
    simp only [afterStmt, afterAssign] at h; exact assignAll_silent _ _ _ _ _ _ h
  | .assigns ts e, ver, st, r, hx, h => by
    simp only [afterStmt, afterAssign] at h; exact assignAll_silent _ _ _ _ _ _ h
  | .aug (.name x) op e, ver, st, r, hx, h => by
    simp only [afterStmt, afterAssign] at h; exact assignAll_silent _ _ _ _ _ _ h
  | .aug (.other n) op e, ver, st, r, hx, h => by simp only [afterStmt, afterAssign] at h; cases h
  | .expr e, ver, st, r, hx, h => by
    simp only [afterStmt, afterAssign, Except.ok.injEq, Option.some.injEq] at h; subst h; rfl
  | .pass, ver, st, r, hx, h => by
    simp only [afterStmt, afterAssign, Except.ok.injEq, Option.some.injEq] at h; subst h; rfl
  | .assert_ e, ver, st, r, hx, h => by simp [Stmt.hasExit] at hx
  | .end_, ver, st, r, hx, h => by simp [Stmt.hasExit] at hx
  | .other n, ver, st, r, hx, h => by
    simp only [afterStmt, afterAssign, Except.ok.injEq, Option.some.injEq] at h; subst h; rfl
  | .if_ t b r', ver, st, r, hx, h => by
    simp only [Stmt.hasExit, Bool.or_eq_false_iff] at hx
    simp only [afterStmt] at h
    obtain ⟨⟨c, o, st1⟩, hbo, h⟩ := andSome_ok h
    obtain ⟨⟨acc, he, st2⟩, hrest, h⟩ := andSome_ok h
    obtain ⟨_, hb⟩ := both_ok hbo
    simp only [Except.ok.injEq, Option.some.injEq] at h
    subst h
    have h1 := block_silent b ver [] [] st (o, st1) hx.1 rfl hb
    obtain ⟨h2, h3⟩ := branch_silent (acc := ⟨[], [], [], [], true⟩) (c := c) h1 rfl
    obtain ⟨h4, h5⟩ := rest_silent r' ver _ _ _ hx.2 h2 h3 hrest
    simp only at h4 h5
    simp [finishIf, h5, Out.Silent, h4]

theorem block_silent : ∀ (b : Block) (ver : Ver) (ch : List Expr) (as : List Fm) (st : St) (r : Out × St),
    b.hasExit exits = false → as = [] → afterBlock (intSem R) isFloat vs b ver ch as st = .ok (some r) → r.1.Silent
  | .nil, ver, ch, as, st, r, hx, has, h => by
    simp only [afterBlock, Except.ok.injEq, Option.some.injEq] at h
    subst h
    exact has
  | .cons s b, ver, ch, as, st, r, hx, has, h => by
    simp only [Block.hasExit, Bool.or_eq_false_iff] at hx
    simp only [afterBlock] at h
    obtain ⟨⟨o, st1⟩, hs, h⟩ := andSome_ok h
    have h1 := stmt_silent s ver st (o, st1) hx.1 hs
    cases o with
    | ends => exact h1.elim
    | goes ver' ch' as' =>
      simp only [Out.Silent] at h1
      exact block_silent b _ _ _ _ r hx.2 (by simp [h1, has]) h

theorem rest_silent : ∀ (r : Rest) (ver : Ver) (acc : Acc) (st : St) (p : Acc × Bool × St), r.hasExit exits = false →
    acc.asserts = [] → acc.always = false → afterRest (intSem R) isFloat vs r ver acc st = .ok (some p) →
    p.1.asserts = [] ∧ p.1.always = false
  | .none, ver, acc, st, p, hx, ha, hw, h => by
    simp only [afterRest, Except.ok.injEq, Option.some.injEq] at h
    subst h
    exact ⟨ha, rfl⟩
  | .elif_ t b r, ver, acc, st, p, hx, ha, hw, h => by
    simp only [Rest.hasExit, Bool.or_eq_false_iff] at hx
    simp only [afterRest] at h
    obtain ⟨⟨c, o, st1⟩, hbo, h⟩ := andSome_ok h
    obtain ⟨_, hb⟩ := both_ok hbo
    have h1 := block_silent b ver [] [] st (o, st1) hx.1 rfl hb
    obtain ⟨h2, h3⟩ := branch_silent (c := c) h1 ha
    exact rest_silent r ver _ _ p hx.2 h2 h3 h
  | .else_ b, ver, acc, st, p, hx, ha, hw, h => by
    simp only [Rest.hasExit] at hx
    simp only [afterRest] at h
    obtain ⟨⟨o, st1⟩, hb, h⟩ := andSome_ok h
    simp only [Except.ok.injEq, Option.some.injEq] at h
    subst h
    have h1 := block_silent b ver [] [] st (o, st1) hx rfl hb
    cases o with
    | ends => exact h1.elim
    | goes v ch as =>
      simp only [Out.Silent] at h1
      simp [Acc.elseBranch, h1, ha]
end

/-! ### Variables are only added -/

theorem andThen_sub {r : Except PyErr (Bool × Vars)} {f : Vars → Except PyErr (Bool × Vars)} {v v' : Vars} {q : Bool}
    (hr : ∀ q w, r = .ok (q, w) → v.Sub w) (hf : ∀ w q w', f w = .ok (q, w') → w.Sub w') (h : andThen r f = .ok (q, v')) :
    v.Sub v' := by
  unfold andThen at h
  rcases r with x | ⟨b, w⟩
  · cases h
  · cases b with
    | false =>
      simp only [Except.ok.injEq, Prod.mk.injEq] at h
      obtain ⟨_, rfl⟩ := h
      exact hr _ _ rfl
    | true => exact (hr _ _ rfl).trans (hf w q v' h)

theorem initExprs_sub : ∀ (es : List Expr) (v : Vars) (q : Bool) (v' : Vars),
    initExprs (intSem R) isFloat guess modified es v = .ok (q, v') → v.Sub v'
  | [], v, q, v', h => by
    simp only [initExprs, Except.ok.injEq, Prod.mk.injEq] at h
    obtain ⟨_, rfl⟩ := h
    exact fun _ h => h
  | e :: es, v, q, v', h => by
    simp only [initExprs] at h
    by_cases ha : allowedExpr e = true
    · rw [if_pos ha] at h
      exact andThen_sub (fun q w hw => initVars_sub e _ _ v w q hw) (initExprs_sub es) h
    · rw [if_neg ha] at h
      simp only [Except.ok.injEq, Prod.mk.injEq] at h
      obtain ⟨_, rfl⟩ := h
      exact fun _ h => h

theorem ite_sub {c : Bool} {v v' : Vars} {q : Bool} {r : Except PyErr (Bool × Vars)}
    (h : (if c = true then r else .ok (false, v)) = .ok (q, v')) (hr : r = .ok (q, v') → v.Sub v') : v.Sub v' := by
  cases c with
  | true => exact hr h
  | false =>
    simp only [Bool.false_eq_true, if_false, Except.ok.injEq, Prod.mk.injEq] at h
    obtain ⟨_, rfl⟩ := h
    exact fun _ h => h

theorem validExpr_sub (e : Expr) (v : Vars) (q : Bool) (v' : Vars)
    (h : validExpr (intSem R) isFloat guess pure modified e v = .ok (q, v')) : v.Sub v' :=
  ite_sub h (initExprs_sub _ _ _ _)

theorem const_sub {b q : Bool} {v v' : Vars} (h : (.ok (b, v) : Except PyErr (Bool × Vars)) = .ok (q, v')) : v.Sub v' := by
  simp only [Except.ok.injEq, Prod.mk.injEq] at h
  obtain ⟨_, rfl⟩ := h
  exact fun _ h => h

theorem validSimple_sub (s : Stmt) (v : Vars) (q : Bool) (v' : Vars)
    (h : validSimple (intSem R) isFloat guess pure modified s v = .ok (q, v')) : v.Sub v' := by
  cases s with
  | assign t e => exact ite_sub h (initExprs_sub _ _ _ _)
  | assigns t e => exact ite_sub h (initExprs_sub _ _ _ _)
  | aug t op e =>
    refine ite_sub h fun h => ?_
    cases t with
    | other n => exact const_sub h
    | name x =>
      simp only at h
      cases hn : nonlinear (intSem R) isFloat (.bin op (.name x) e) with
      | error y => rw [hn] at h; cases h
      | ok nl =>
        rw [hn] at h
        cases nl with
        | true => exact const_sub h
        | false => exact initExprs_sub _ _ _ _ h
  | assert_ e => exact ite_sub h (initExprs_sub _ _ _ _)
  | _ => exact const_sub h

mutual
theorem validStmt_sub : ∀ (s : Stmt) (direct : Bool) (v : Vars) (q : Bool) (v' : Vars),
    validStmt (intSem R) isFloat guess pure modified direct s v = .ok (q, v') → v.Sub v'
  | .if_ t b r, direct, v, q, v', h => by
    simp only [validStmt] at h
    exact andThen_sub (fun q w => validRest_sub r _ v q w)
      (fun w q w' h => andThen_sub (fun q u => validBlock_sub b _ w q u) (fun u q u' => validExpr_sub t u q u') h) h
  | .end_, direct, v, q, v', h => by simp only [validStmt] at h; exact const_sub h
  | .assign t e, direct, v, q, v', h => by simp only [validStmt] at h; exact validSimple_sub _ _ _ _ h
  | .assigns t e, direct, v, q, v', h => by simp only [validStmt] at h; exact validSimple_sub _ _ _ _ h
  | .aug t op e, direct, v, q, v', h => by simp only [validStmt] at h; exact validSimple_sub _ _ _ _ h
  | .expr e, direct, v, q, v', h => by simp only [validStmt] at h; exact validSimple_sub _ _ _ _ h
  | .pass, direct, v, q, v', h => by simp only [validStmt] at h; exact validSimple_sub _ _ _ _ h
  | .assert_ e, direct, v, q, v', h => by simp only [validStmt] at h; exact validSimple_sub _ _ _ _ h
  | .other n, direct, v, q, v', h => by simp only [validStmt] at h; exact validSimple_sub _ _ _ _ h

theorem validBlock_sub : ∀ (b : Block) (direct : Bool) (v : Vars) (q : Bool) (v' : Vars),
    validBlock (intSem R) isFloat guess pure modified direct b v = .ok (q, v') → v.Sub v'
  | .nil, direct, v, q, v', h => by simp only [validBlock] at h; exact const_sub h
  | .cons s b, direct, v, q, v', h => by
    simp only [validBlock] at h
    exact andThen_sub (fun q w => validBlock_sub b _ v q w) (fun w q w' => validStmt_sub s _ w q w') h

theorem validRest_sub : ∀ (r : Rest) (direct : Bool) (v : Vars) (q : Bool) (v' : Vars),
    validRest (intSem R) isFloat guess pure modified direct r v = .ok (q, v') → v.Sub v'
  | .none, direct, v, q, v', h => by simp only [validRest] at h; exact const_sub h
  | .elif_ t b r, direct, v, q, v', h => by
    simp only [validRest] at h
    exact andThen_sub (fun q w => validRest_sub r _ v q w)
      (fun w q w' h => andThen_sub (fun q u => validBlock_sub b _ w q u) (fun u q u' => validExpr_sub t u q u') h) h
  | .else_ b, direct, v, q, v', h => by simp only [validRest] at h; exact validBlock_sub b _ _ _ _ h
end

theorem validateStmt_sub {s : Stmt} {v : Vars} {q : Bool} {v' : Vars}
    (h : validateStmt (intSem R) isFloat guess pure modified mutableStmt s v = .ok (q, v')) : v.Sub v' := by
  unfold validateStmt at h
  by_cases hmu : mutableStmt s = true
  · rw [if_pos hmu] at h; exact const_sub h
  · rw [if_neg hmu] at h
    cases s with
    | if_ t b r =>
      exact andThen_sub (fun q w => validRest_sub r _ v q w)
        (fun w q w' h => andThen_sub (fun q u => validBlock_sub b _ w q u) (fun u q u' => validExpr_sub t u q u') h) h
    | _ => exact validStmt_sub _ _ _ _ _ h

end

end Verif.Py.Blocks

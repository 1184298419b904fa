import Verif.Lemmas.Z3BlockRun
import Verif.Props.ConstValue

/-!
**C76**: conditions that are implied by others after a block of statements. **C77**: loops reported as infinite.
-/

namespace Verif.Py.Blocks

/-! ### What the claim is about -/

section
variable (R : FoldSem Val) (isFloat : Val → Bool)

/-- A value that is assigned: a formula in integers (as in C44), or a conditional expression of such of which no branch is
`and` or `or`. -/
def ScopedValue : Expr → Prop
  | .ifExp t a b =>
    InScope R isFloat (fun _ => True) t ∧ InScope R isFloat (fun _ => True) a ∧ InScope R isFloat (fun _ => True) b ∧
      (∀ o es, a ≠ .boolOp o es) ∧ ∀ o es, b ≠ .boolOp o es
  | e => InScope R isFloat (fun _ => True) e

mutual
/-- Conditions and values are formulas in integers; several variables are assigned to by a tuple; the value of an augmented
assignment is not `and` or `or`. -/
def Stmt.Scoped : Stmt → Prop
  | .assign _ e => ScopedValue R isFloat e
  | .assigns _ e => ∃ es, e = .other "Tuple".toList es ∧ ∀ a ∈ es, ScopedValue R isFloat a
  | .aug (.name x) op e => InScope R isFloat (fun _ => True) (.bin op (.name x) e) ∧ ∀ o es, e ≠ .boolOp o es
  | .assert_ e => InScope R isFloat (fun _ => True) e
  | .if_ t b r => InScope R isFloat (fun _ => True) t ∧ b.Scoped ∧ r.Scoped
  | _ => True

def Block.Scoped : Block → Prop
  | .nil => True
  | .cons s b => s.Scoped ∧ b.Scoped

def Rest.Scoped : Rest → Prop
  | .none => True
  | .elif_ t b r => InScope R isFloat (fun _ => True) t ∧ b.Scoped ∧ r.Scoped
  | .else_ b => b.Scoped
end

end

/-! ### What is admitted is translated as it is meant -/

section
variable {R : FoldSem Val} {isFloat : Val → Bool} {guess : Expr → Option Types} {zero : Int → Int} {T : List Str}
variable {pure modified mutableExpr : Expr → Bool} {mutableStmt : Stmt → Bool}

variable (R T) in
/-- What follows from nodes having been admitted: more variables of the solver, all that are new being as they should, and
whatever is claimed of them. -/
def Passed (vs vs' : Vars) (P : Vars → (Expr → Prop) → Prop) : Prop :=
  vs.Sub vs' ∧ (∀ k, Known vs' k → Known vs k ∨ (∃ x, k = .name x) ∨ ∀ x ∈ names k, x ∉ T) ∧
    ∀ ws K, (∀ k, Known vs' k → K k) → Possible R K → P ws K

theorem andThen_ok {r : Except PyErr (Bool × Vars)} {f : Vars → Except PyErr (Bool × Vars)} {vs : Vars}
    (h : andThen r f = .ok (true, vs)) : ∃ vs1, r = .ok (true, vs1) ∧ f vs1 = .ok (true, vs) := by
  unfold andThen at h
  rcases r with x | ⟨b, vs1⟩
  · cases h
  · cases b with
    | false => cases h
    | true => exact ⟨vs1, rfl, h⟩

theorem Passed.refl (vs : Vars) {P : Vars → (Expr → Prop) → Prop} (h : ∀ ws K, (∀ k, Known vs k → K k) → Possible R K → P ws K) : Passed R T vs vs P :=
  ⟨fun _ h => h, fun _ h => .inl h, h⟩

theorem Passed.trans {vs vs1 vs2 : Vars} {P Q S : Vars → (Expr → Prop) → Prop} (h : Passed R T vs vs1 P) (h' : Passed R T vs1 vs2 Q)
    (hS : ∀ ws K, (∀ k, Known vs2 k → K k) → Possible R K → P ws K → Q ws K → S ws K) : Passed R T vs vs2 S := by
  obtain ⟨a1, a2, a3⟩ := h
  obtain ⟨b1, b2, b3⟩ := h'
  refine ⟨fun k hk => b1 k (a1 k hk), fun k hk => ?_, fun ws K hw hp => ?_⟩
  · rcases b2 k hk with h | h
    · exact a2 k h
    · exact .inr h
  · exact hS ws K hw hp (a3 ws K (fun k hk => hw k (Known.mono b1 k hk)) hp) (b3 ws K hw hp)

theorem Passed.imp {vs vs1 : Vars} {P Q : Vars → (Expr → Prop) → Prop} (h : Passed R T vs vs1 P)
    (hQ : ∀ ws K, (∀ k, Known vs1 k → K k) → Possible R K → P ws K → Q ws K) : Passed R T vs vs1 Q :=
  ⟨h.1, h.2.1, fun ws K hw hp => hQ ws K hw hp (h.2.2 ws K hw hp)⟩

variable (hm : ∀ e, modified e = false → ∀ x ∈ names e, x ∉ T)

include hm in
theorem initExprs_passed : ∀ (es : List Expr) (vs vs' : Vars),
    initExprs (intSem R) isFloat guess modified es vs = .ok (true, vs') →
    Passed R T vs vs' fun ws K => ∀ e ∈ es, InScope R isFloat (fun _ => True) e → Admitted R isFloat guess K e
  | [], vs, vs', h => by
    simp only [initExprs, Except.ok.injEq, Prod.mk.injEq, true_and] at h
    subst h
    exact .refl _ fun ws K _ _ e he => nomatch he
  | e :: es, vs, vs', h => by
    simp only [initExprs] at h
    by_cases ha : allowedExpr e = true
    · rw [if_pos ha] at h
      obtain ⟨vs1, h1, h2⟩ := andThen_ok h
      have hp : Passed R T vs vs1 fun ws K => InScope R isFloat (fun _ => True) e → Admitted R isFloat guess K e := by
        refine ⟨initVars_sub e _ _ vs vs1 true h1, fun k hk => ?_, fun ws K hw _ hs => ?_⟩
        · rcases initVars_made e _ _ vs vs1 true h1 k hk with h | h | ⟨hn, h⟩
          · exact .inl h
          · exact .inr (.inl h)
          · exact .inr (.inr fun x hx => hm e hn x (h x hx))
        · exact ⟨⟨_, _, _, h1⟩, InScope.mono hw e (initVars_scope e _ _ vs vs1 hs h1)⟩
      refine hp.trans (initExprs_passed es vs1 vs' h2) fun ws K _ _ hp1 hp2 => ?_
      intro d hd
      rcases List.mem_cons.mp hd with rfl | hd
      · exact hp1
      · exact hp2 d hd
    · rw [if_neg ha] at h
      cases h

theorem value_sound {ws : Vars} {K : Expr → Prop} {q : Prop} (hp : Possible R K) {e : Expr} (hs : ScopedValue R isFloat e)
    (ha : ∀ d ∈ parts e, InScope R isFloat (fun _ => True) d → Admitted R isFloat guess K d) :
    ValueSound R isFloat ws K zero q e := by
  by_cases hi : ∃ t a b, e = .ifExp t a b
  · obtain ⟨t, a, b, rfl⟩ := hi
    simp only [ScopedValue] at hs
    exact ifExp_sound hp (ha t (by simp [parts]) hs.1) (ha a (by simp [parts]) hs.2.1) (ha b (by simp [parts]) hs.2.2.1)
      hs.2.2.2.1 hs.2.2.2.2
  · have hs' : InScope R isFloat (fun _ => True) e := by
      cases e with
      | ifExp t a b => exact absurd ⟨t, a, b, rfl⟩ hi
      | _ => exact hs
    have hpa : parts e = [e] := by
      cases e with
      | ifExp t a b => exact absurd ⟨t, a, b, rfl⟩ hi
      | _ => rfl
    exact plain_sound hp (ha e (by simp [hpa]) hs') fun t a b he => hi ⟨t, a, b, he⟩

theorem cond_sound {ws : Vars} {K : Expr → Prop} {e : Expr} (hs : InScope R isFloat (fun _ => True) e)
    (ha : ∀ d ∈ parts e, InScope R isFloat (fun _ => True) d → Admitted R isFloat guess K d) :
    CondSound R isFloat ws K zero e := by
  by_cases hi : ∃ t a b, e = .ifExp t a b
  · obtain ⟨t, a, b, rfl⟩ := hi
    intro ver f hf
    simp only [condition, convert] at hf
    cases hf
  · have hpa : parts e = [e] := by
      cases e with
      | ifExp t a b => exact absurd ⟨t, a, b, rfl⟩ hi
      | _ => rfl
    exact (ha e (by simp [hpa]) hs).cond

theorem aug_sound {ws : Vars} {K : Expr → Prop} {q : Prop} (hp : Possible R K) {x : Str} {op : BinOp} {e : Expr}
    (hnl : nonlinear (intSem R) isFloat (.bin op (.name x) e) = .ok false)
    (hs : InScope R isFloat (fun _ => True) (.bin op (.name x) e)) (hne : ∀ o es, e ≠ .boolOp o es)
    (ha : ∀ d ∈ parts e, InScope R isFloat (fun _ => True) d → Admitted R isFloat guess K d)
    (hx : q → K (.name x)) : ValueSound R isFloat ws K zero q (.bin op (.name x) e) := by
  have hs' := hs
  simp only [InScope] at hs'
  have hs' := (hs'.2 hnl).2
  by_cases hop : op = .add ∨ op = .sub ∨ op = .mul
  · by_cases hi : ∃ t a b, e = .ifExp t a b
    · obtain ⟨t, a, b, rfl⟩ := hi
      intro ver v hv
      simp only [assigned, Blocks.value, convert, hnl] at hv
      cases hvt : varTerm ws (.name x) false with
      | error y => rw [hvt] at hv; cases hv
      | ok p =>
        rw [hvt] at hv
        rcases hop with rfl | rfl | rfl <;> cases p <;> cases hv
    · have hpa : parts e = [e] := by
        cases e with
        | ifExp t a b => exact absurd ⟨t, a, b, rfl⟩ hi
        | _ => rfl
      refine aug_arith_sound hp hop hx (ha e (by simp [hpa]) ?_) hne hnl
      rcases hop with rfl | rfl | rfl <;> exact hs'
  · by_cases hop2 : op = .mod ∨ op = .floordiv
    · exact aug_div_sound hop2 hx hs hnl
    · intro ver v hv
      simp only [assigned, Blocks.value, convert, hnl] at hv
      cases hvt : varTerm ws (.name x) false with
      | error y => rw [hvt] at hv; cases hv
      | ok p =>
        rw [hvt] at hv
        cases op <;> first | exact hs'.elim | cases hv | simp at hop hop2

include hm in
theorem validExpr_passed {e : Expr} {vs vs' : Vars} (h : validExpr (intSem R) isFloat guess pure modified e vs = .ok (true, vs')) :
    Passed R T vs vs' fun ws K => InScope R isFloat (fun _ => True) e → CondSound R isFloat ws K zero e := by
  unfold validExpr at h
  by_cases hc : (allowedExpr e && pure e) = true
  · rw [if_pos hc] at h
    exact (initExprs_passed hm [e] vs vs' h).imp fun ws K _ _ ha hs => (ha e (by simp) hs).cond
  · rw [if_neg hc] at h; cases h

theorem pairs_of {ws : Vars} {K : Expr → Prop} : ∀ {ts : List Target} {es : List Expr}, (∀ x ∈ ts.flatMap Target.names, x ∈ T) →
    (∀ e ∈ es, ∀ q, ValueSound R isFloat ws K zero q e) → Pairs R isFloat ws K zero T ts es
  | [], es, _, _ => by cases es <;> simp [Pairs]
  | .other _ :: ts, es, _, _ => by cases es <;> simp [Pairs]
  | .name x :: ts, [], _, _ => by simp [Pairs]
  | .name x :: ts, e :: es, hx, he => by
    simp only [Pairs]
    exact ⟨⟨hx x (by simp [Target.names]), fun _ => he e (by simp) _⟩,
      pairs_of (fun y hy => hx y (by simp only [List.flatMap_cons, List.mem_append]; exact .inr hy)) fun d hd => he d (by simp [hd])⟩

include hm in
theorem validSimple_passed {s : Stmt} {vs vs' : Vars}
    (h : validSimple (intSem R) isFloat guess pure modified s vs = .ok (true, vs')) (ht : ∀ x ∈ s.targets, x ∈ T) :
    Passed R T vs vs' fun ws K => s.Scoped R isFloat → s.Fine R isFloat ws K zero T := by
  cases s with
  | assign t e =>
    simp only [validSimple] at h
    by_cases hc : pureValue pure e = true
    · rw [if_pos hc] at h
      refine (initExprs_passed hm _ vs vs' h).imp fun ws K _ hp ha hs => ?_
      cases t with
      | other n => simp only [Stmt.Fine]
      | name x =>
        simp only [Stmt.Fine, Pairs, and_true]
        simp only [Stmt.Scoped] at hs
        exact ⟨ht x (by simp [Stmt.targets, Target.names]), fun _ => value_sound hp hs ha⟩
    · rw [if_neg hc] at h; cases h
  | assigns ts e =>
    simp only [validSimple] at h
    by_cases hc : pureValue pure e = true
    · rw [if_pos hc] at h
      refine (initExprs_passed hm _ vs vs' h).imp fun ws K _ hp ha hs => ?_
      simp only [Stmt.Scoped] at hs
      obtain ⟨es, rfl, hs⟩ := hs
      simp only [Stmt.Fine]
      refine ⟨es, rfl, pairs_of (fun x hx => ht x (by simpa only [Stmt.targets] using hx)) fun a hae q => ?_⟩
      refine value_sound (guess := guess) hp (hs a hae) fun d hd => ha d ?_
      exact List.mem_flatMap.mpr ⟨a, by simpa [children] using hae, hd⟩
    · rw [if_neg hc] at h; cases h
  | aug t op e =>
    simp only [validSimple] at h
    by_cases hc : pureValue pure e = true
    · rw [if_pos hc] at h
      cases t with
      | other n => cases h
      | name x =>
        simp only at h
        cases hn : nonlinear (intSem R) isFloat (.bin op (.name x) e) with
        | error y => rw [hn] at h; cases h
        | ok nl =>
          rw [hn] at h
          cases nl with
          | true => cases h
          | false =>
            simp only at h
            refine (initExprs_passed hm _ vs vs' h).imp fun ws K _ hp ha hs => ?_
            simp only [Stmt.Scoped] at hs
            simp only [Stmt.Fine, Pairs, and_true]
            exact ⟨ht x (by simp [Stmt.targets, Target.names]), fun _ => aug_sound hp hn hs.1 hs.2 ha id⟩
    · rw [if_neg hc] at h; cases h
  | expr e =>
    simp only [validSimple, Except.ok.injEq, Prod.mk.injEq] at h
    obtain ⟨_, rfl⟩ := h
    exact .refl _ fun ws K _ _ _ => by simp only [Stmt.Fine]
  | pass =>
    simp only [validSimple, Except.ok.injEq, Prod.mk.injEq] at h
    obtain ⟨_, rfl⟩ := h
    exact .refl _ fun ws K _ _ _ => by simp only [Stmt.Fine]
  | assert_ e =>
    simp only [validSimple] at h
    by_cases hc : pure e = true
    · rw [if_pos hc] at h
      refine (initExprs_passed hm _ vs vs' h).imp fun ws K _ hp ha hs => ?_
      simp only [Stmt.Scoped] at hs
      simp only [Stmt.Fine]
      exact cond_sound hs ha
    · rw [if_neg hc] at h; cases h
  | end_ =>
    simp only [validSimple, Except.ok.injEq, Prod.mk.injEq] at h
    obtain ⟨_, rfl⟩ := h
    exact .refl _ fun ws K _ _ _ => by simp only [Stmt.Fine]
  | if_ t b r => simp only [validSimple, Except.ok.injEq, Prod.mk.injEq] at h; cases h.1
  | other n => simp only [validSimple, Except.ok.injEq, Prod.mk.injEq] at h; cases h.1

set_option linter.unusedSectionVars false in
include hm in
mutual
theorem validStmt_passed : ∀ (s : Stmt) (direct : Bool) (vs vs' : Vars),
    validStmt (intSem R) isFloat guess pure modified direct s vs = .ok (true, vs') → (∀ x ∈ s.targets, x ∈ T) →
    Passed R T vs vs' fun ws K => s.Scoped R isFloat → s.Fine R isFloat ws K zero T
  | .if_ t b r, direct, vs, vs', h, ht => by
    simp only [validStmt] at h
    obtain ⟨v1, h1, h⟩ := andThen_ok h
    obtain ⟨v2, h2, h3⟩ := andThen_ok h
    simp only [Stmt.targets, List.mem_append] at ht
    refine (validRest_passed r _ vs v1 h1 fun x hx => ht x (.inr hx)).trans
      ((validBlock_passed b _ v1 v2 h2 fun x hx => ht x (.inl hx)).trans (validExpr_passed hm h3)
        (S := fun ws K => (b.Scoped R isFloat → b.Fine R isFloat ws K zero T) ∧
          (InScope R isFloat (fun _ => True) t → CondSound R isFloat ws K zero t)) fun ws K _ _ hb hc => ⟨hb, hc⟩)
      fun ws K _ _ hr hbt hs => ?_
    simp only [Stmt.Scoped] at hs
    simp only [Stmt.Fine]
    exact ⟨hbt.2 hs.1, hbt.1 hs.2.1, hr hs.2.2⟩
  | .end_, direct, vs, vs', h, ht => by
    simp only [validStmt, Except.ok.injEq, Prod.mk.injEq] at h
    obtain ⟨_, rfl⟩ := h
    exact .refl _ fun ws K _ _ _ => by simp only [Stmt.Fine]
  | .assign t e, direct, vs, vs', h, ht => by simp only [validStmt] at h; exact validSimple_passed hm h ht
  | .assigns t e, direct, vs, vs', h, ht => by simp only [validStmt] at h; exact validSimple_passed hm h ht
  | .aug t op e, direct, vs, vs', h, ht => by simp only [validStmt] at h; exact validSimple_passed hm h ht
  | .expr e, direct, vs, vs', h, ht => by simp only [validStmt] at h; exact validSimple_passed hm h ht
  | .pass, direct, vs, vs', h, ht => by simp only [validStmt] at h; exact validSimple_passed hm h ht
  | .assert_ e, direct, vs, vs', h, ht => by simp only [validStmt] at h; exact validSimple_passed hm h ht
  | .other n, direct, vs, vs', h, ht => by simp only [validStmt] at h; exact validSimple_passed hm h ht

theorem validBlock_passed : ∀ (b : Block) (direct : Bool) (vs vs' : Vars),
    validBlock (intSem R) isFloat guess pure modified direct b vs = .ok (true, vs') → (∀ x ∈ b.targets, x ∈ T) →
    Passed R T vs vs' fun ws K => b.Scoped R isFloat → b.Fine R isFloat ws K zero T
  | .nil, direct, vs, vs', h, ht => by
    simp only [validBlock, Except.ok.injEq, Prod.mk.injEq] at h
    obtain ⟨_, rfl⟩ := h
    exact .refl _ fun ws K _ _ _ => by simp only [Block.Fine]
  | .cons s b, direct, vs, vs', h, ht => by
    simp only [validBlock] at h
    obtain ⟨v1, h1, h2⟩ := andThen_ok h
    simp only [Block.targets, List.mem_append] at ht
    refine (validBlock_passed b _ vs v1 h1 fun x hx => ht x (.inr hx)).trans
      (validStmt_passed s _ v1 vs' h2 fun x hx => ht x (.inl hx)) fun ws K _ _ hb hs hsc => ?_
    simp only [Block.Scoped] at hsc
    simp only [Block.Fine]
    exact ⟨hs hsc.1, hb hsc.2⟩

theorem validRest_passed : ∀ (r : Rest) (direct : Bool) (vs vs' : Vars),
    validRest (intSem R) isFloat guess pure modified direct r vs = .ok (true, vs') → (∀ x ∈ r.targets, x ∈ T) →
    Passed R T vs vs' fun ws K => r.Scoped R isFloat → r.Fine R isFloat ws K zero T
  | .none, direct, vs, vs', h, ht => by
    simp only [validRest, Except.ok.injEq, Prod.mk.injEq] at h
    obtain ⟨_, rfl⟩ := h
    exact .refl _ fun ws K _ _ _ => by simp only [Rest.Fine]
  | .elif_ t b r, direct, vs, vs', h, ht => by
    simp only [validRest] at h
    obtain ⟨v1, h1, h⟩ := andThen_ok h
    obtain ⟨v2, h2, h3⟩ := andThen_ok h
    simp only [Rest.targets, List.mem_append] at ht
    refine (validRest_passed r _ vs v1 h1 fun x hx => ht x (.inr hx)).trans
      ((validBlock_passed b _ v1 v2 h2 fun x hx => ht x (.inl hx)).trans (validExpr_passed hm h3)
        (S := fun ws K => (b.Scoped R isFloat → b.Fine R isFloat ws K zero T) ∧
          (InScope R isFloat (fun _ => True) t → CondSound R isFloat ws K zero t)) fun ws K _ _ hb hc => ⟨hb, hc⟩)
      fun ws K _ _ hr hbt hs => ?_
    simp only [Rest.Scoped] at hs
    simp only [Rest.Fine]
    exact ⟨hbt.2 hs.1, hbt.1 hs.2.1, hr hs.2.2⟩
  | .else_ b, direct, vs, vs', h, ht => by
    simp only [validRest] at h
    simp only [Rest.targets] at ht
    refine (validBlock_passed b _ vs vs' h ht).imp fun ws K _ _ hb hs => ?_
    simp only [Rest.Scoped] at hs
    simp only [Rest.Fine]
    exact hb hs
end

include hm in
theorem validateStmt_passed {s : Stmt} {vs vs' : Vars}
    (h : validateStmt (intSem R) isFloat guess pure modified mutableStmt s vs = .ok (true, vs')) (ht : ∀ x ∈ s.targets, x ∈ T) :
    Passed R T vs vs' fun ws K => s.Scoped R isFloat → s.Fine R isFloat ws K zero T := by
  unfold validateStmt at h
  by_cases hmu : mutableStmt s = true
  · rw [if_pos hmu] at h; cases h
  · rw [if_neg hmu] at h
    cases s with
    | if_ t b r =>
      simp only at h
      obtain ⟨v1, h1, h⟩ := andThen_ok h
      obtain ⟨v2, h2, h3⟩ := andThen_ok h
      simp only [Stmt.targets, List.mem_append] at ht
      refine (validRest_passed (zero := zero) hm r _ vs v1 h1 fun x hx => ht x (.inr hx)).trans
        ((validBlock_passed (zero := zero) hm b _ v1 v2 h2 fun x hx => ht x (.inl hx)).trans (validExpr_passed (zero := zero) hm h3)
          (S := fun ws K => (b.Scoped R isFloat → b.Fine R isFloat ws K zero T) ∧
            (InScope R isFloat (fun _ => True) t → CondSound R isFloat ws K zero t)) fun ws K _ _ hb hc => ⟨hb, hc⟩)
        fun ws K _ _ hr hbt hs => ?_
      simp only [Stmt.Scoped] at hs
      simp only [Stmt.Fine]
      exact ⟨hbt.2 hs.1, hbt.1 hs.2.1, hr hs.2.2⟩
    | _ => exact validStmt_passed (zero := zero) hm _ _ vs vs' h ht

include hm in
theorem validateStmts_passed : ∀ (b : Block) (vs vs' : Vars),
    validateStmts (intSem R) isFloat guess pure modified mutableStmt b.toList vs = .ok (true, vs') → (∀ x ∈ b.targets, x ∈ T) →
    Passed R T vs vs' fun ws K => b.Scoped R isFloat → b.Fine R isFloat ws K zero T
  | .nil, vs, vs', h, ht => by
    simp only [Block.toList, validateStmts, Except.ok.injEq, Prod.mk.injEq] at h
    obtain ⟨_, rfl⟩ := h
    exact .refl _ fun ws K _ _ _ => by simp only [Block.Fine]
  | .cons s b, vs, vs', h, ht => by
    simp only [Block.toList, validateStmts] at h
    obtain ⟨v1, h1, h2⟩ := andThen_ok h
    simp only [Block.targets, List.mem_append] at ht
    refine (validateStmt_passed (zero := zero) hm h1 fun x hx => ht x (.inl hx)).trans
      (validateStmts_passed b v1 vs' h2 fun x hx => ht x (.inr hx)) fun ws K _ _ hs hb hsc => ?_
    simp only [Block.Scoped] at hsc
    simp only [Block.Fine]
    exact ⟨hs hsc.1, hb hsc.2⟩

end

/-! ### C76 -/

/-- What a sound solver means by `unsat`: the condition is false for all values of the variables. -/
def Fm.Unsat (f : Fm) : Prop := ∀ zero σ, f.eval zero σ = false

section
variable {R : FoldSem Val} {isFloat : Val → Bool} {guess : Expr → Option Types}
variable {pure modified mutableExpr : Expr → Bool} {mutableStmt : Stmt → Bool} {unsat : Fm → Bool}
variable {iter : Val → Except PyErr (List Val)} {effect : Nat → Env Val → Except PyErr (Env Val)}
variable {other : Nat → Env Val → Except PyErr Flow}
variable {shared : Bool} {c₁ c₂ : Expr} {b : Block} {env env' : Env Val}

theorem conditions_one {S : FoldSem Val} {vs : Vars} {ver : Ver} {e : Expr} {fs : List Fm}
    (h : conditions S isFloat vs ver [e] = .ok (some fs)) : ∃ f, condition S isFloat vs ver e = .ok (some f) ∧ fs = [f] := by
  simp only [conditions] at h
  obtain ⟨f, hf, h⟩ := andSome_ok h
  simp only [andSome, Except.ok.injEq, Option.some.injEq] at h
  exact ⟨f, hf, h.symm⟩

/-- Known variables are integers after the block as well, and the second condition is true. -/
theorem implied_after (hu : ∀ f, unsat f = true → f.Unsat)
    (hm : ∀ e, modified e = false → ∀ x ∈ names e, x ∉ b.targets)
    (hT : ∀ f ∈ ["ord".toList, "range".toList, "abs".toList], f ∉ b.targets)
    (hs₁ : InScope R isFloat (fun _ => True) c₁) (hsb : b.Scoped R isFloat) (hs₂ : InScope R isFloat (fun _ => True) c₂)
    (hsh : shared = true → ∃ body rest tail, b = .cons (.if_ c₁ body rest) tail)
    (h : impliedAfter (intSem R) isFloat guess pure modified mutableExpr mutableStmt unsat shared c₁ b c₂ = .ok true)
    (hB : Builtins env)
    (hint : ∀ vs, initialized (intSem R) isFloat guess pure modified mutableExpr mutableStmt shared c₁ b c₂ = .ok (true, vs) →
      ∀ k, vs.lookup k ≠ none → IntValued R env k)
    (ht : truthOf (intSem R).toSem env c₁ = .ok true)
    (hr : runBlock (intSem R).toSem iter effect other b env = .ok (.go env')) :
    (∀ q, truthOf (intSem R).toSem env' c₂ = .ok q → q = true) ∧ Builtins env' ∧
    ∀ vs, initialized (intSem R) isFloat guess pure modified mutableExpr mutableStmt shared c₁ b c₂ = .ok (true, vs) →
      ∀ k, vs.lookup k ≠ none → IntValued R env' k := by
  unfold impliedAfter at h
  cases hi : initialized (intSem R) isFloat guess pure modified mutableExpr mutableStmt shared c₁ b c₂ with
  | error x => rw [hi] at h; cases h
  | ok p =>
    obtain ⟨a, vs⟩ := p
    rw [hi] at h
    cases a with
    | false => cases h
    | true =>
      have hint := hint vs hi
      have hp : Possible R (Known vs) := ⟨env, hB, hint⟩
      simp only at h
      have hall : Passed R b.targets [] vs fun ws K => CondSound R isFloat ws K (fun _ => 0) c₁ ∧
          b.Fine R isFloat ws K (fun _ => 0) b.targets ∧ CondSound R isFloat ws K (fun _ => 0) c₂ := by
        unfold initialized at hi
        obtain ⟨v1, h1, hi⟩ := andThen_ok hi
        obtain ⟨v2, h2, h3⟩ := andThen_ok hi
        have p3 : Passed R b.targets v2 vs fun ws K => CondSound R isFloat ws K (fun _ => 0) c₂ := by
          unfold validateExpr at h3
          by_cases hmu : mutableExpr c₂ = true
          · rw [if_pos hmu] at h3; cases h3
          · rw [if_neg hmu] at h3
            exact (validExpr_passed hm h3).imp fun ws K _ _ hc => hc hs₂
        have p2 : Passed R b.targets v1 v2 fun ws K => b.Fine R isFloat ws K (fun _ => 0) b.targets :=
          (validateStmts_passed hm b v1 v2 h2 fun x hx => hx).imp fun ws K _ _ hf => hf hsb
        have p23 := p2.trans p3 (S := fun ws K => b.Fine R isFloat ws K (fun _ => 0) b.targets ∧
          CondSound R isFloat ws K (fun _ => 0) c₂) fun ws K _ _ x y => ⟨x, y⟩
        cases shared with
        | true =>
          simp only [if_true, Except.ok.injEq, Prod.mk.injEq, true_and] at h1
          subst h1
          obtain ⟨body, rest, tail, rfl⟩ := hsh rfl
          refine p23.imp fun ws K _ _ hf => ⟨?_, hf⟩
          have := hf.1
          simp only [Block.Fine, Stmt.Fine] at this
          exact this.1.1
        | false =>
          simp only [Bool.false_eq_true, if_false] at h1
          unfold validateExpr at h1
          by_cases hmu : mutableExpr c₁ = true
          · rw [if_pos hmu] at h1; cases h1
          · rw [if_neg hmu] at h1
            exact (validExpr_passed (zero := fun _ => 0) hm h1).trans p23 fun ws K _ _ hc hf => ⟨hc hs₁, hf⟩
      obtain ⟨-, hkeys, hgood⟩ := hall
      obtain ⟨g1, gb, g2⟩ := hgood vs (Known vs) (fun _ h => h) hp
      have hk : Keys (Known vs) b.targets := fun k hk => (hkeys k hk).resolve_left (by simp [Known, Vars.lookup])
      cases hcc : convertChain (intSem R) isFloat vs [([c₁], b)] [c₂] (fun _ => 0) start with
      | error x => rw [hcc] at h; cases h
      | ok o =>
        cases o with
        | none => rw [hcc] at h; cases h
        | some r =>
          have hcc' := hcc
          simp only [convertChain] at hcc'
          obtain ⟨fs, hfs, hcc'⟩ := andSome_ok hcc'
          obtain ⟨f, hf, rfl⟩ := conditions_one hfs
          obtain ⟨⟨o, st1⟩, ho, hcc'⟩ := andSome_ok hcc'
          obtain ⟨e1, e2, e3, e4⟩ := block_ok (R := R) (isFloat := isFloat) (zero := fun _ => 0) iter effect other hT hk (fun _ h => h) b gb
            (fun _ => 0) start o st1 (fun _ => Nat.le_refl _) (by intro f hf; cases hf) ho
          obtain ⟨σ', s1, s2, s3⟩ := e4 (fun k _ => valuation R env k) env (by intro f hf; cases hf)
          have hfit : Fits R (Known vs) (fun _ => 0) (fun k _ => valuation R env k) env := fun k hk => agrees_valuation (hint k hk)
          obtain ⟨hsame, hout⟩ := s3 env' hfit hB hr
          have hB' := hsame.builtins hT hB
          cases o with
          | ends => exact hout.elim
          | goes ver' ch as =>
            simp only at hcc'
            obtain ⟨gst, hgs, hcc'⟩ := andSome_ok hcc'
            obtain ⟨gs, hgs, hx⟩ := andSome_ok hgs
            obtain ⟨g, hg, rfl⟩ := conditions_one hgs
            cases hx
            cases hcc'
            rw [hcc] at h
            simp only [Except.ok.injEq] at h
            refine ⟨fun q hq => ?_, hB', fun ws hws k hk => ?_⟩
            · have huns := hu _ h (fun _ => 0) σ'
              have hfe : f.eval (fun _ => 0) σ' = true := by
                rw [condition_below hf (fun _ => Nat.le_refl _) _ σ' s1]
                exact g1 _ f hf _ env true hfit hB ht
              have hge : g.eval (fun _ => 0) σ' = q := g2 ver' g hg σ' env' q hout.1 hB' hq
              have hrels : (conj (st1.rels ++ as)).eval (fun _ => 0) σ' = true := conj_eval.mpr (s2.append hout.2)
              simp only [Fm.eval, hrels, hfe, hge, Bool.true_and, Bool.not_true, Bool.false_or, Bool.not_eq_false'] at huns
              exact huns
            · cases hws
              intro v hv hn
              have := hout.1 k hk v hv
              rw [hn] at this
              cases this

/-- **C76** (partial). If EduLint takes one condition to be implied by another with a block of statements between them, then
the second is true whenever the first was, the block has been run to its end, and the second has a value: provided that the
solver is sound, conditions and values are formulas in integers (as in C44; see `Stmt.Scoped`), and what the solver takes for
variables are integers. -/
theorem C76_partial (hu : ∀ f, unsat f = true → f.Unsat)
    (hm : ∀ e, modified e = false → ∀ x ∈ names e, x ∉ b.targets)
    (hT : ∀ f ∈ ["ord".toList, "range".toList, "abs".toList], f ∉ b.targets)
    (hs₁ : InScope R isFloat (fun _ => True) c₁) (hsb : b.Scoped R isFloat) (hs₂ : InScope R isFloat (fun _ => True) c₂)
    (hsh : shared = true → ∃ body rest tail, b = .cons (.if_ c₁ body rest) tail)
    (h : impliedAfter (intSem R) isFloat guess pure modified mutableExpr mutableStmt unsat shared c₁ b c₂ = .ok true)
    (hB : Builtins env)
    (hint : ∀ vs, initialized (intSem R) isFloat guess pure modified mutableExpr mutableStmt shared c₁ b c₂ = .ok (true, vs) →
      ∀ k, vs.lookup k ≠ none → IntValued R env k)
    (ht : truthOf (intSem R).toSem env c₁ = .ok true)
    (hr : runBlock (intSem R).toSem iter effect other b env = .ok (.go env')) {q : Bool}
    (hq : truthOf (intSem R).toSem env' c₂ = .ok q) : q = true :=
  (implied_after hu hm hT hs₁ hsb hs₂ hsh h hB hint ht hr).1 q hq

/-! ### C77 -/

theorem goOn_stop {r : Except PyErr (Env Val)} : goOn r ≠ .ok .stop := by
  cases r <;> simp [goOn]

section
variable {S : Sem Val} {exits : Nat → Bool} (ho : ∀ n env, exits n = false → other n env ≠ .ok .stop)

set_option linter.unusedSectionVars false in
include ho in
mutual
theorem stmt_no_stop : ∀ (s : Stmt) (env : Env Val), s.hasExit exits = false → runStmt S iter effect other s env ≠ .ok .stop
  | .assign t e, env, h => by
    simp only [runStmt]
    cases eval S env e with
    | error x => simp
    | ok v => exact goOn_stop
  | .assigns ts e, env, h => by
    simp only [runStmt]
    cases unpack S iter env e with
    | error x => simp
    | ok v => exact goOn_stop
  | .aug (.name x) op e, env, h => by
    simp only [runStmt]
    cases eval S env (.bin op (.name x) e) <;> simp
  | .aug (.other n) op e, env, h => by simp only [runStmt]; exact goOn_stop
  | .expr e, env, h => by simp only [runStmt]; cases eval S env e <;> simp
  | .pass, env, h => by simp [runStmt]
  | .assert_ e, env, h => by simp [Stmt.hasExit] at h
  | .end_, env, h => by simp [Stmt.hasExit] at h
  | .if_ t b r, env, h => by
    simp only [Stmt.hasExit, Bool.or_eq_false_iff] at h
    simp only [runStmt]
    cases truthOf S env t with
    | error x => simp
    | ok q =>
      cases q with
      | true => exact block_no_stop b env h.1
      | false => exact rest_no_stop r env h.2
  | .other n, env, h => by
    simp only [Stmt.hasExit] at h
    simp only [runStmt]
    exact ho n env h

theorem block_no_stop : ∀ (b : Block) (env : Env Val), b.hasExit exits = false → runBlock S iter effect other b env ≠ .ok .stop
  | .nil, env, h => by simp [runBlock]
  | .cons s b, env, h => by
    simp only [Block.hasExit, Bool.or_eq_false_iff] at h
    simp only [runBlock]
    have hs := stmt_no_stop s env h.1
    cases hr : runStmt S iter effect other s env with
    | error x => simp
    | ok fl =>
      cases fl with
      | stop => exact absurd hr hs
      | go env1 => exact block_no_stop b env1 h.2

theorem rest_no_stop : ∀ (r : Rest) (env : Env Val), r.hasExit exits = false → runRest S iter effect other r env ≠ .ok .stop
  | .none, env, h => by simp [runRest]
  | .elif_ t b r, env, h => by
    simp only [Rest.hasExit, Bool.or_eq_false_iff] at h
    simp only [runRest]
    cases truthOf S env t with
    | error x => simp
    | ok q =>
      cases q with
      | true => exact block_no_stop b env h.1
      | false => exact rest_no_stop r env h.2
  | .else_ b, env, h => by
    simp only [Rest.hasExit] at h
    simp only [runRest]
    exact block_no_stop b env h
end

/-- A loop goes on if something is so at the beginning of each round by which the condition is not false. -/
theorem runWhile_invariant {c : Expr} {b : Block} {P : Env Val → Prop} (hc : ∀ env, P env → truthOf S env c ≠ .ok false)
    (hb : ∀ env env', P env → truthOf S env c = .ok true → runBlock S iter effect other b env = .ok (.go env') → P env')
    (hs : ∀ env, runBlock S iter effect other b env ≠ .ok .stop) :
    ∀ (n : Nat) (env : Env Val), P env →
      runWhile S iter effect other c b n env = .ok none ∨ ∃ x, runWhile S iter effect other c b n env = .error x
  | 0, env, _ => .inl rfl
  | n + 1, env, hp => by
    simp only [runWhile]
    cases ht : truthOf S env c with
    | error x => exact .inr ⟨x, rfl⟩
    | ok q =>
      cases q with
      | false => exact absurd ht (hc env hp)
      | true =>
        simp only
        cases hr : runBlock S iter effect other b env with
        | error x => exact .inr ⟨x, rfl⟩
        | ok fl =>
          cases fl with
          | stop => exact absurd hr (hs env)
          | go env1 => exact runWhile_invariant hc hb hs n env1 (hb env env1 hp ht hr)

end

/-- **C77** (partial). A loop `while c: b` that is reported as infinite and of which the condition is true goes on for ever or
ends by an exception: provided that the solver is sound, that the variables of the condition are unchanged by the body where
EduLint finds that they are, and, where the solver is asked about the body, what is provided in C76. -/
theorem C77_partial {exits : Nat → Bool} {inTry sat changes : Bool} {c : Expr} {msg : Str}
    (hu : ∀ f, unsat f = true → f.Unsat)
    (ho : ∀ n env, exits n = false → other n env ≠ .ok .stop)
    (hch : changes = false → ∀ env env', runBlock (intSem R).toSem iter effect other b env = .ok (.go env') →
      ∀ x ∈ names c, env x = env' x)
    (hm : ∀ e, modified e = false → ∀ x ∈ names e, x ∉ b.targets)
    (hT : ∀ f ∈ ["ord".toList, "range".toList, "abs".toList], f ∉ b.targets)
    (hs : InScope R isFloat (fun _ => True) c) (hsb : b.Scoped R isFloat)
    (h : infiniteLoop exits (intSem R) isFloat guess pure modified mutableExpr mutableStmt unsat inTry sat changes c b =
      .ok (some msg))
    (hB : Builtins env)
    (hint : ∀ vs, initialized (intSem R) isFloat guess pure modified mutableExpr mutableStmt false c b c = .ok (true, vs) →
      ∀ k, vs.lookup k ≠ none → IntValued R env k)
    (ht : truthOf (intSem R).toSem env c = .ok true) (n : Nat) :
    runWhile (intSem R).toSem iter effect other c b n env = .ok none ∨
      ∃ x, runWhile (intSem R).toSem iter effect other c b n env = .error x := by
  unfold infiniteLoop at h
  by_cases hex : (inTry || b.hasExit exits) = true
  · rw [if_pos hex] at h; cases h
  · rw [if_neg hex] at h
    simp only [Bool.or_eq_true, not_or, Bool.not_eq_true] at hex
    have hns := fun env => block_no_stop (S := (intSem R).toSem) (iter := iter) (effect := effect) ho b env hex.2
    cases hcv : constValue (intSem R) c with
    | error x => rw [hcv] at h; cases h
    | ok v =>
      rw [hcv] at h
      simp only at h
      by_cases hconst : v.map (intSem R).truth = some (.ok true)
      · cases v with
        | none => cases hconst
        | some w =>
          simp only [Option.map_some, Option.some.injEq] at hconst
          refine runWhile_invariant (P := fun _ => True) (fun env _ => ?_) (fun _ _ _ _ _ => trivial) hns n env trivial
          simp only [truthOf, C33_value (intSem R) env c w hcv, hconst]
          simp
      · have h : (if (!sat) = true then .ok none
            else if (!changes) = true then .ok (some "implicit-infinite-loop".toList)
            else
              match impliedAfter (intSem R) isFloat guess pure modified mutableExpr mutableStmt unsat false c b c with
              | .error x => .error x
              | .ok false => .ok none
              | .ok true => .ok (some "implicit-infinite-loop".toList) : Except PyErr (Option Str)) = .ok (some msg) := by
          generalize v.map (intSem R).truth = tr at h hconst
          rcases tr with _ | _ | _ | _
          · exact h
          · exact h
          · exact h
          · exact absurd rfl hconst
        by_cases hsat : (!sat) = true
        · rw [if_pos hsat] at h; cases h
        · rw [if_neg hsat] at h
          by_cases hcg : (!changes) = true
          · have hcg : changes = false := by simpa using hcg
            refine runWhile_invariant (P := fun e => truthOf (intSem R).toSem e c = .ok true) (fun e he => ?_)
              (fun e e' he _ hr => ?_) hns n env ht
            · rw [he]; simp
            · rw [← he]
              simp only [truthOf]
              rw [eval_congr _ c (hch hcg e e' hr)]
          · rw [if_neg hcg] at h
            cases hia : impliedAfter (intSem R) isFloat guess pure modified mutableExpr mutableStmt unsat false c b c with
            | error x => rw [hia] at h; cases h
            | ok q =>
              cases q with
              | false => rw [hia] at h; cases h
              | true =>
                refine runWhile_invariant (P := fun e => (∀ q, truthOf (intSem R).toSem e c = .ok q → q = true) ∧
                  Builtins e ∧ ∀ vs, initialized (intSem R) isFloat guess pure modified mutableExpr mutableStmt false c b c =
                    .ok (true, vs) → ∀ k, vs.lookup k ≠ none → IntValued R e k) (fun e he hf => nomatch he.1 false hf)
                  (fun e e' he ht hr => implied_after hu hm hT hs hsb hs (fun hf => nomatch hf) hia he.2.1 he.2.2 ht hr)
                  hns n env ⟨fun q hq => ?_, hB, hint⟩
                rw [ht] at hq
                cases hq
                rfl

end

end Verif.Py.Blocks

namespace Verif.Py.Blocks

/-! ### Examples and counterexamples -/

/-- No statement in the examples has an effect that is not modelled. -/
def bxEffect : Nat → Env Val → Except PyErr (Env Val) := fun _ env => .ok env
def bxOther : Nat → Env Val → Except PyErr Flow := fun _ env => .ok (.go env)
def bxIter : Val → Except PyErr (List Val) := fun _ => .error .typeError

def bxA : Expr := .name "a".toList
def bxB : Expr := .name "b".toList
def bxVar (x : String) : Expr := .name x.toList

/-- `x > 0` -/
def bxPos : Expr := .compare exX [(.gt, exInt 0)]

def bxOne (s : Stmt) : Block := .cons s .nil

/-- `x += a and b` -/
def bxAnd : Block := bxOne (.aug (.name "x".toList) .add (.boolOp false [bxA, bxB]))

/-- All expressions are pure, all variables are taken for integers, and those that are modified are those assigned to. -/
def bxAnswer (unsat : Fm → Bool) (c₁ : Expr) (b : Block) (c₂ : Expr) : Except PyErr Bool :=
  impliedAfter (intSem noRest) (fun _ => false) intGuess (fun _ => true) (fun e => (names e).any (· ∈ b.targets))
    (fun _ => false) (fun _ => false) unsat false c₁ b c₂

def bxRun (b : Block) (env : Env Val) : Except PyErr Flow := runBlock (intSem noRest).toSem bxIter bxEffect bxOther b env

/-- Values of variables: those given, and the builtin functions. -/
def bxEnv (vals : List (String × Int)) : Env Val := fun x =>
  match vals.find? (fun p => p.1.toList = x) with
  | some p => .ok (.int p.2)
  | none => .ok (.builtin x)

theorem bxAnd_answer (unsat : Fm → Bool) (hu : ∀ f, f.Unsat → unsat f = true) : bxAnswer unsat bxPos bxAnd bxPos = .ok true := by
  have h : bxAnswer unsat bxPos bxAnd bxPos = .ok (unsat (.and
    (conj [.eq exX 1 (.term (fun _ => 0) (.add (.var false exX)
      (.and [.nonzero (.var false bxA), .nonzero (.var false bxB)])))])
    (.not (.imp (.term (fun _ => 0) (.cmp .gt (.var false exX) (.int 0)))
      (.term (Ver.set (fun _ => 0) exX 1) (.cmp .gt (.var false exX) (.int 0))))))) := rfl
  rw [h, hu]
  intro zero σ
  simp only [Fm.eval, conj, Vl.eval, termValue, Term.eval, Term.evalAll, at_, Ver.set, if_true, TV.int?, TV.bool?, num, eqValue,
    Option.map_some, Option.bind_some, intCmp]
  generalize (List.all _ _) = q
  cases q <;> simp <;> omega

/-- **C76** is false: between `x > 0` and `x > 0` there is `x += a and b`. The solver takes `a and b` for `0` or `1`, so that
`x` stays positive, but for `x = 1`, `a = 1`, `b = -1` it becomes `0`. (The formula is unsatisfiable in real numbers as well;
variables of the solver are real unless they are divided.) -/
theorem C76_counterexample (unsat : Fm → Bool) (hu : ∀ f, f.Unsat → unsat f = true) :
    bxAnswer unsat bxPos bxAnd bxPos = .ok true ∧
      truthOf (intSem noRest).toSem (bxEnv [("x", 1), ("a", 1), ("b", -1)]) bxPos = .ok true ∧
      ∃ env, bxRun bxAnd (bxEnv [("x", 1), ("a", 1), ("b", -1)]) = .ok (.go env) ∧
        truthOf (intSem noRest).toSem env bxPos = .ok false :=
  ⟨bxAnd_answer unsat hu, by decide +kernel, _, rfl, by decide +kernel⟩

/-- `x = (a and b) if y else 1` -/
def bxIf : Block := bxOne (.assign (.name "x".toList) (.ifExp (bxVar "y") (.boolOp false [bxA, bxB]) (exInt 1)))

/-- `x >= 0` -/
def bxNonneg : Expr := .compare exX [(.ge, exInt 0)]

/-- **C76** is false of conditional expressions with `and` as well: after `x = (a and b) if y else 1` the solver takes `x` for
`0` or `1`, but for `y = 1`, `a = -5`, `b = -7` it is `-7`. -/
theorem C76_ifExp_counterexample (unsat : Fm → Bool) (hu : ∀ f, f.Unsat → unsat f = true) :
    bxAnswer unsat bxNonneg bxIf bxNonneg = .ok true ∧
      truthOf (intSem noRest).toSem (bxEnv [("x", 1), ("y", 1), ("a", -5), ("b", -7)]) bxNonneg = .ok true ∧
      ∃ env, bxRun bxIf (bxEnv [("x", 1), ("y", 1), ("a", -5), ("b", -7)]) = .ok (.go env) ∧
        truthOf (intSem noRest).toSem env bxNonneg = .ok false := by
  refine ⟨?_, by decide +kernel, _, rfl, by decide +kernel⟩
  have h : bxAnswer unsat bxNonneg bxIf bxNonneg = .ok (unsat (.and
    (conj [.eq exX 1 (.ite (.term (fun _ => 0) (.nonzero (.var false (bxVar "y"))))
      (.term (fun _ => 0) (.and [.nonzero (.var false bxA), .nonzero (.var false bxB)])) (.term (fun _ => 0) (.int 1)))])
    (.not (.imp (.term (fun _ => 0) (.cmp .ge (.var false exX) (.int 0)))
      (.term (Ver.set (fun _ => 0) exX 1) (.cmp .ge (.var false exX) (.int 0))))))) := rfl
  rw [h, hu]
  intro zero σ
  simp only [Fm.eval, conj, Vl.eval, termValue, Term.eval, Term.evalAll, at_, Ver.set, if_true, TV.int?, TV.bool?, num, eqValue,
    iteValue, Option.map_some, Option.bind_some, intCmp]
  generalize (List.all _ _) = q
  generalize decide (some (TV.bool (decide (σ (bxVar "y") 0 ≠ 0))) = some (TV.bool true)) = r
  cases q <;> cases r <;> simp <;> omega

/-- `x, y = t` -/
def bxUnpack : Block := bxOne (.assigns [.name "x".toList, .name "y".toList] (bxVar "t"))

/-- Assigning what is not a display of a tuple to a tuple of variables raises an `IndexError`: `values[i]` of
`edulint/linting/analyses/z3_block_analysis.py:495-518`, of a node that has no children. -/
theorem C76_index_counterexample (unsat : Fm → Bool) : bxAnswer unsat bxPos bxUnpack bxPos = .error .indexError := rfl

def bxLoop (unsat : Fm → Bool) (c : Expr) (b : Block) : Except PyErr (Option Str) :=
  infiniteLoop (fun _ => true) (intSem noRest) (fun _ => false) intGuess (fun _ => true)
    (fun e => (names e).any (· ∈ b.targets)) (fun _ => false) (fun _ => false) unsat false true
    ((names c).any (· ∈ b.targets)) c b

/-- **C77** is false: `while x > 0: x += a and b` is reported, and for `x = 1`, `a = 1`, `b = -1` it ends after a round. -/
theorem C77_counterexample (unsat : Fm → Bool) (hu : ∀ f, f.Unsat → unsat f = true) :
    bxLoop unsat bxPos bxAnd = .ok (some "implicit-infinite-loop".toList) ∧
      ∃ env, runWhile (intSem noRest).toSem bxIter bxEffect bxOther bxPos bxAnd 2 (bxEnv [("x", 1), ("a", 1), ("b", -1)]) =
        .ok (some (.go env)) := by
  refine ⟨?_, _, rfl⟩
  have h : bxLoop unsat bxPos bxAnd =
      match bxAnswer unsat bxPos bxAnd bxPos with
      | .error x => .error x
      | .ok false => .ok none
      | .ok true => .ok (some "implicit-infinite-loop".toList) := rfl
  rw [h, bxAnd_answer unsat hu]

/-- `if y > 2: x += 1` `elif y == 2: x = 7` -/
def bxBoth : Block := bxOne (.if_ (.compare (bxVar "y") [(.gt, exInt 2)]) (bxOne (.aug (.name "x".toList) .add (exInt 1)))
  (.elif_ (.compare (bxVar "y") [(.eq, exInt 2)]) (bxOne (.assign (.name "x".toList) (exInt 7))) .none))

/-- The hypotheses of `C76_partial` and `C77_partial` hold of `while x > 0:` with this body, and it is reported. -/
example (unsat : Fm → Bool) (hu : ∀ f, f.Unsat → unsat f = true) :
    bxAnswer unsat bxPos bxBoth bxPos = .ok true ∧
      bxLoop unsat bxPos bxBoth = .ok (some "implicit-infinite-loop".toList) ∧
      InScope noRest (fun _ => false) (fun _ => True) bxPos ∧ bxBoth.Scoped noRest (fun _ => false) ∧
      (∀ k, [(exX, false), (bxVar "y", false)].lookup k ≠ none → IntValued noRest (bxEnv [("x", 1), ("y", 2)]) k) ∧
      Builtins (bxEnv [("x", 1), ("y", 2)]) ∧
      truthOf (intSem noRest).toSem (bxEnv [("x", 1), ("y", 2)]) bxPos = .ok true ∧
      ∃ env, bxRun bxBoth (bxEnv [("x", 1), ("y", 2)]) = .ok (.go env) ∧ env "x".toList = .ok (.int 7) := by
  have ha : bxAnswer unsat bxPos bxBoth bxPos = .ok true := by
    have h : bxAnswer unsat bxPos bxBoth bxPos = .ok (unsat (.and
      (conj [.eq exX 1 (.term (fun _ => 0) (.add (.var false exX) (.int 1))), .eq exX 2 (.term (fun _ => 0) (.int 7)),
        .eq exX 3 (.ite (.term (fun _ => 0) (.cmp .gt (.var false (bxVar "y")) (.int 2))) (.var exX 1)
          (.ite (.term (fun _ => 0) (.cmp .eq (.var false (bxVar "y")) (.int 2))) (.var exX 2) (.var exX 0)))])
      (.not (.imp (.term (fun _ => 0) (.cmp .gt (.var false exX) (.int 0)))
        (.term (Ver.set (fun _ => 0) exX 3) (.cmp .gt (.var false exX) (.int 0))))))) := rfl
    rw [h, hu]
    intro zero σ
    simp only [Fm.eval, conj, Vl.eval, termValue, Term.eval, at_, Ver.set, if_true, TV.int?, num, eqValue,
      iteValue, Option.map_some, Option.bind_some, intCmp]
    simp only [decide_eq_true_eq, Option.some.injEq, TV.bool.injEq, Bool.and_true]
    by_cases h1 : 2 < σ (bxVar "y") 0 <;> by_cases h2 : σ (bxVar "y") 0 = 2 <;> simp [h1, h2] <;> omega
  refine ⟨ha, ?_, ?_, ?_, ?_, ?_, by decide +kernel, _, rfl, by decide +kernel⟩
  · have h : bxLoop unsat bxPos bxBoth =
      match bxAnswer unsat bxPos bxBoth bxPos with
      | .error x => .error x
      | .ok false => .ok none
      | .ok true => .ok (some "implicit-infinite-loop".toList) := rfl
    rw [h, ha]
  · simp [bxPos, InScope, InScopeOps, exX, exInt]
  · simp [bxBoth, bxOne, bxVar, Block.Scoped, Stmt.Scoped, Rest.Scoped, ScopedValue, InScope, InScopeOps, exInt]
  · intro k hk v hv
    have : k = exX ∨ k = bxVar "y" := by
      by_cases h1 : k = exX
      · exact .inl h1
      · by_cases h2 : k = bxVar "y"
        · exact .inr h2
        · simp [List.lookup, beq_eq_false_iff_ne.mpr h1, beq_eq_false_iff_ne.mpr h2] at hk
    rcases this with rfl | rfl
    · have : v = .int 1 := by cases hv; rfl
      subst this; simp [Val.asInt]
    · have : v = .int 2 := by cases hv; rfl
      subst this; simp [Val.asInt]
  · intro f hf
    simp only [List.mem_cons, List.not_mem_nil, or_false] at hf
    rcases hf with rfl | rfl | rfl <;> rfl

/-- The variables of the solver in this example. -/
example : initialized (intSem noRest) (fun _ => false) intGuess (fun _ => true) (fun e => (names e).any (· ∈ bxBoth.targets))
    (fun _ => false) (fun _ => false) false bxPos bxBoth bxPos = .ok (true, [(exX, false), (bxVar "y", false)]) := by
  decide +kernel

end Verif.Py.Blocks

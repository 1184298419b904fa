import Verif.Model.Z3Block
import Verif.Props.Z3

/-!
Lemmas about blocks of statements for the solver.
-/

namespace Verif.Py.Blocks

/-! ### The value of an expression depends on its names only -/

section
variable {V : Type} (S : Sem V) {env env' : Env V}

mutual
theorem eval_congr : ∀ (e : Expr), (∀ x ∈ names e, env x = env' x) → eval S env e = eval S env' e
  | .const v, _ => by simp only [eval]
  | .name x, h => by simp only [eval]; exact h x (by simp [names])
  | .unary op e, h => by
    simp only [eval]; rw [eval_congr e fun x hx => h x (by simpa [names] using hx)]
  | .bin op l r, h => by
    simp only [eval]
    rw [eval_congr l fun x hx => h x (by simp [names, hx]), eval_congr r fun x hx => h x (by simp [names, hx])]
  | .boolOp o es, h => by
    simp only [eval]; exact evalBool_congr o es fun x hx => h x (by simpa [names] using hx)
  | .compare l ops, h => by
    simp only [eval]
    rw [eval_congr l fun x hx => h x (by simp [names, hx])]
    cases eval S env' l with
    | error x => rfl
    | ok a => exact evalCmp_congr a ops fun x hx => h x (by simp [names, hx])
  | .call f args, h => by
    simp only [eval]
    rw [eval_congr f fun x hx => h x (by simp [names, hx]), evalAll_congr args fun x hx => h x (by simp [names, hx])]
  | .attr e a, h => by
    simp only [eval]; rw [eval_congr e fun x hx => h x (by simpa [names] using hx)]
  | .subscript e i, h => by
    simp only [eval]
    rw [eval_congr e fun x hx => h x (by simp [names, hx]), eval_congr i fun x hx => h x (by simp [names, hx])]
  | .ifExp t a b, h => by
    simp only [eval]
    rw [eval_congr t fun x hx => h x (by simp [names, hx]), eval_congr a fun x hx => h x (by simp [names, hx]),
      eval_congr b fun x hx => h x (by simp [names, hx])]
  | .other t es, h => by
    simp only [eval]; rw [evalAll_congr es fun x hx => h x (by simpa [names] using hx)]

theorem evalAll_congr : ∀ (es : List Expr), (∀ x ∈ namesAll es, env x = env' x) → evalAll S env es = evalAll S env' es
  | [], _ => by simp only [evalAll]
  | e :: es, h => by
    simp only [evalAll]
    rw [eval_congr e fun x hx => h x (by simp [namesAll, hx]), evalAll_congr es fun x hx => h x (by simp [namesAll, hx])]

theorem evalBool_congr (o : Bool) : ∀ (es : List Expr), (∀ x ∈ namesAll es, env x = env' x) →
    evalBool S env o es = evalBool S env' o es
  | [], _ => by simp only [evalBool]
  | e :: es, h => by
    simp only [evalBool]
    rw [eval_congr e fun x hx => h x (by simp [namesAll, hx]), evalBool_congr o es fun x hx => h x (by simp [namesAll, hx])]

theorem evalCmp_congr (a : V) : ∀ (ops : List (CmpOp × Expr)), (∀ x ∈ namesOps ops, env x = env' x) →
    evalCmp S env a ops = evalCmp S env' a ops
  | [], _ => by simp only [evalCmp]
  | (op, e) :: rest, h => by
    simp only [evalCmp]
    rw [eval_congr e fun x hx => h x (by simp [namesOps, hx])]
    cases eval S env' e with
    | error x => rfl
    | ok b =>
      simp only
      cases S.cmp op a b with
      | error x => rfl
      | ok v =>
        simp only
        cases rest with
        | nil => rfl
        | cons p ps =>
          simp only
          cases S.truth v with
          | error x => rfl
          | ok t => simp only; rw [evalCmp_congr b (p :: ps) fun x hx => h x (by rw [namesOps]; exact List.mem_append_right _ hx)]
end

end

/-! ### What is admitted has its variables among those that are known -/

section
variable {R : FoldSem Val} {isFloat : Val → Bool} {guess : Expr → Option Types} {noNew : Bool}

/-- Everything is known that stands for a variable of the solver. -/
def Known (vs : Vars) (k : Expr) : Prop := vs.lookup k ≠ none

theorem ite_initVar_known {c : Bool} {e : Expr} {d : Bool} {vs vs' : Vars}
    (h : (if c = true then (false, vs) else initVar guess e d vs) = (true, vs')) : Known vs' e := by
  by_cases hc : c = true
  · rw [if_pos hc] at h; cases h
  · rw [if_neg hc] at h; exact initVar_mem h

theorem Known.mono {vs ws : Vars} (h : vs.Sub ws) : ∀ k, Known vs k → Known ws k := h

mutual
theorem initVars_scope : ∀ (e : Expr) (d pb : Bool) (vs vs' : Vars), InScope R isFloat (fun _ => True) e →
    initVars (intSem R) isFloat guess noNew e d pb vs = .ok (true, vs') → InScope R isFloat (Known vs') e
  | e, d, pb, vs, vs', hs, h => by
    cases hna : notAllowed (intSem R) isFloat e d pb with
    | error x => rw [initVars.eq_def] at h; simp only [hna] at h; cases h
    | ok n =>
      cases n with
      | true => rw [initVars.eq_def] at h; simp only [hna] at h; cases h
      | false =>
        cases e with
        | name x =>
          simp only [initVars, hna, Except.ok.injEq] at h
          simp only [InScope]
          exact initVar_mem h
        | subscript a i => simp only [initVars, hna, Except.ok.injEq] at h; simp only [InScope]; exact ite_initVar_known h
        | attr a i => simp only [initVars, hna, Except.ok.injEq] at h; simp only [InScope]; exact ite_initVar_known h
        | call f args =>
          simp only [initVars, hna] at h
          simp only [InScope] at hs ⊢
          by_cases hf : f = .name "abs".toList
          · rw [if_pos hf] at h
            exact ⟨fun _ => initFirst_scope args d vs vs' (hs.1 hf) h, fun hn => absurd hf hn⟩
          · rw [if_neg hf] at h; simp only [Except.ok.injEq] at h
            exact ⟨fun hn => absurd hn hf, fun _ => ite_initVar_known h⟩
        | bin op l r =>
          simp only [initVars, hna] at h
          simp only [InScope] at hs ⊢
          cases hnl : nonlinear (intSem R) isFloat (.bin op l r) with
          | error x => rw [hnl] at h; cases h
          | ok n =>
            rw [hnl] at h hs
            cases n with
            | true =>
              simp only [Except.ok.injEq] at h
              exact ⟨fun _ => ite_initVar_known h, fun hn => nomatch hn⟩
            | false =>
              simp only at h
              refine ⟨fun hn => (nomatch hn), fun _ => ?_⟩
              obtain ⟨hsl, hsr⟩ := hs.2 rfl
              by_cases hop : op = .mod ∨ op = .floordiv
              · rw [if_pos hop] at h
                refine ⟨initVars_scope l _ _ vs vs' hsl h, ?_⟩
                rcases hop with rfl | rfl
                · trivial
                · exact hsr
              · rw [if_neg hop] at h
                cases hl : initVars (intSem R) isFloat guess noNew l d false vs with
                | error x => rw [hl] at h; cases h
                | ok p =>
                  obtain ⟨c, v1⟩ := p
                  rw [hl] at h
                  cases c with
                  | false => cases h
                  | true =>
                    refine ⟨InScope.mono (Known.mono (initVars_sub r _ _ v1 vs' true h)) l
                      (initVars_scope l _ _ vs v1 hsl hl), ?_⟩
                    have hr : InScope R isFloat (fun _ => True) r → InScope R isFloat (Known vs') r :=
                      fun hr => initVars_scope r _ _ v1 vs' hr h
                    cases op <;> first | exact hr hsr | exact hsr
        | unary op x =>
          simp only [initVars, hna] at h
          simp only [InScope] at hs ⊢
          exact initVars_scope x _ _ vs vs' hs h
        | boolOp o es =>
          simp only [initVars, hna] at h
          simp only [InScope] at hs ⊢
          exact initAll_scope es _ vs vs' hs h
        | compare l ops =>
          simp only [initVars, hna] at h
          simp only [InScope] at hs ⊢
          cases hl : initVars (intSem R) isFloat guess noNew l d false vs with
          | error x => rw [hl] at h; cases h
          | ok p =>
            obtain ⟨c, v1⟩ := p
            rw [hl] at h
            cases c with
            | false => cases h
            | true =>
              exact ⟨InScope.mono (Known.mono (initOps_sub ops _ v1 vs' true h)) l (initVars_scope l _ _ vs v1 hs.1 hl),
                initOps_scope ops _ v1 vs' hs.2 h⟩
        | const v => simp only [InScope] at hs ⊢; exact hs
        | ifExp _ _ _ => simp only [InScope]
        | other _ _ => simp only [InScope]

theorem initFirst_scope : ∀ (es : List Expr) (d : Bool) (vs vs' : Vars), InScopeOne R isFloat (fun _ => True) es →
    initFirst (intSem R) isFloat guess noNew es d vs = .ok (true, vs') → InScopeOne R isFloat (Known vs') es
  | [], d, vs, vs', _, h => by simp only [initFirst] at h; cases h
  | e :: _, d, vs, vs', hs, h => by
    simp only [initFirst] at h
    simp only [InScopeOne] at hs ⊢
    exact ⟨initVars_scope e _ _ vs vs' hs.1 h, hs.2⟩

theorem initAll_scope : ∀ (es : List Expr) (d : Bool) (vs vs' : Vars), InScopeAll R isFloat (fun _ => True) es →
    initAll (intSem R) isFloat guess noNew es d vs = .ok (true, vs') → InScopeAll R isFloat (Known vs') es
  | [], d, vs, vs', _, h => by simp only [InScopeAll]
  | e :: es, d, vs, vs', hs, h => by
    simp only [initAll] at h
    simp only [InScopeAll] at hs ⊢
    cases hl : initVars (intSem R) isFloat guess noNew e d true vs with
    | error x => rw [hl] at h; cases h
    | ok p =>
      obtain ⟨c, v1⟩ := p
      rw [hl] at h
      cases c with
      | false => cases h
      | true =>
        exact ⟨InScope.mono (Known.mono (initAll_sub es _ v1 vs' true h)) e (initVars_scope e _ _ vs v1 hs.1 hl),
          initAll_scope es _ v1 vs' hs.2 h⟩

theorem initOps_scope : ∀ (es : List (CmpOp × Expr)) (d : Bool) (vs vs' : Vars), InScopeOps R isFloat (fun _ => True) es →
    initOps (intSem R) isFloat guess noNew es d vs = .ok (true, vs') → InScopeOps R isFloat (Known vs') es
  | [], d, vs, vs', _, h => by simp only [InScopeOps]
  | (_, e) :: es, d, vs, vs', hs, h => by
    simp only [initOps] at h
    simp only [InScopeOps] at hs ⊢
    cases hl : initVars (intSem R) isFloat guess noNew e d false vs with
    | error x => rw [hl] at h; cases h
    | ok p =>
      obtain ⟨c, v1⟩ := p
      rw [hl] at h
      cases c with
      | false => cases h
      | true =>
        exact ⟨InScope.mono (Known.mono (initOps_sub es _ v1 vs' true h)) e (initVars_scope e _ _ vs v1 hs.1 hl),
          initOps_scope es _ v1 vs' hs.2 h⟩
end

/-! ### What is made up for a variable -/

/-- A variable of the solver is a name, or consists of names among `xs` and new ones are made up. -/
def Made (noNew : Bool) (xs : List Str) (k : Expr) : Prop :=
  (∃ x, k = .name x) ∨ (noNew = false ∧ ∀ x ∈ names k, x ∈ xs)

theorem Made.mono {xs ys : List Str} {k : Expr} (h : ∀ x ∈ xs, x ∈ ys) (hk : Made noNew xs k) : Made noNew ys k := by
  rcases hk with hk | ⟨hn, hk⟩
  · exact .inl hk
  · exact .inr ⟨hn, fun x hx => h x (hk x hx)⟩

theorem initVar_known {e : Expr} {d : Bool} {vs vs' : Vars} {b : Bool} (h : initVar guess e d vs = (b, vs')) {k : Expr}
    (hk : Known vs' k) : Known vs k ∨ k = e := by
  unfold initVar at h
  cases hg : guess e with
  | none => rw [hg] at h; cases h; exact .inl hk
  | some g =>
    rw [hg] at h
    simp only [Prod.mk.injEq] at h
    obtain ⟨_, rfl⟩ := h
    cases hl : vs.lookup e with
    | none =>
      simp only [hl] at hk
      rcases (lookup_append vs (e, d) k).mp hk with h | h
      · exact .inl h
      · exact .inr h.symm
    | some i =>
      simp only [hl] at hk
      by_cases h : d = true ∧ i = false
      · rw [if_pos h] at hk; exact .inl ((lookup_map vs e k).mp hk)
      · rw [if_neg h] at hk; exact .inl hk

theorem ite_initVar_made {e : Expr} {d : Bool} {vs vs' : Vars} {b : Bool}
    (h : (if noNew = true then (false, vs) else initVar guess e d vs) = (b, vs')) {k : Expr} (hk : Known vs' k) :
    Known vs k ∨ Made noNew (names e) k := by
  by_cases hc : noNew = true
  · rw [if_pos hc] at h; cases h; exact .inl hk
  · rw [if_neg hc] at h
    rcases initVar_known h hk with h | rfl
    · exact .inl h
    · exact .inr (.inr ⟨by simpa using hc, fun x hx => hx⟩)

mutual
theorem initVars_made : ∀ (e : Expr) (d pb : Bool) (vs vs' : Vars) (b : Bool),
    initVars (intSem R) isFloat guess noNew e d pb vs = .ok (b, vs') →
    ∀ k, Known vs' k → Known vs k ∨ Made noNew (names e) k
  | e, d, pb, vs, vs', b, h, k, hk => by
    cases hna : notAllowed (intSem R) isFloat e d pb with
    | error x => rw [initVars.eq_def] at h; simp only [hna] at h; cases h
    | ok n =>
      cases n with
      | true => rw [initVars.eq_def] at h; simp only [hna] at h; cases h; exact .inl hk
      | false =>
        cases e with
        | name x =>
          simp only [initVars, hna, Except.ok.injEq] at h
          rcases initVar_known h hk with h | rfl
          · exact .inl h
          · exact .inr (.inl ⟨x, rfl⟩)
        | subscript a i => simp only [initVars, hna, Except.ok.injEq] at h; exact ite_initVar_made h hk
        | attr a i => simp only [initVars, hna, Except.ok.injEq] at h; exact ite_initVar_made h hk
        | call f args =>
          simp only [initVars, hna] at h
          by_cases hf : f = .name "abs".toList
          · rw [if_pos hf] at h
            rcases initFirst_made args d vs vs' b h k hk with h | h
            · exact .inl h
            · exact .inr (h.mono fun x hx => by simp [names, hx])
          · rw [if_neg hf] at h; simp only [Except.ok.injEq] at h; exact ite_initVar_made h hk
        | bin op l r =>
          simp only [initVars, hna] at h
          cases hnl : nonlinear (intSem R) isFloat (.bin op l r) with
          | error x => rw [hnl] at h; cases h
          | ok n =>
            rw [hnl] at h
            cases n with
            | true => simp only [Except.ok.injEq] at h; exact ite_initVar_made h hk
            | false =>
              simp only at h
              by_cases hop : op = .mod ∨ op = .floordiv
              · rw [if_pos hop] at h
                rcases initVars_made l _ _ vs vs' b h k hk with h | h
                · exact .inl h
                · exact .inr (h.mono fun x hx => by simp [names, hx])
              · rw [if_neg hop] at h
                cases hl : initVars (intSem R) isFloat guess noNew l d false vs with
                | error x => rw [hl] at h; cases h
                | ok p =>
                  obtain ⟨c, v1⟩ := p
                  rw [hl] at h
                  have h1 : ∀ k, Known v1 k → Known vs k ∨ Made noNew (names (.bin op l r)) k := fun k hk =>
                    (initVars_made l _ _ vs v1 c hl k hk).imp id (Made.mono fun x hx => by simp [names, hx])
                  cases c with
                  | false => cases h; exact h1 k hk
                  | true =>
                    rcases initVars_made r _ _ v1 vs' b h k hk with h | h
                    · exact h1 k h
                    · exact .inr (h.mono fun x hx => by simp [names, hx])
        | unary op x =>
          simp only [initVars, hna] at h
          exact (initVars_made x _ _ vs vs' b h k hk).imp id (Made.mono fun x hx => by simpa [names] using hx)
        | boolOp o es =>
          simp only [initVars, hna] at h
          exact (initAll_made es _ vs vs' b h k hk).imp id (Made.mono fun x hx => by simpa [names] using hx)
        | compare l ops =>
          simp only [initVars, hna] at h
          cases hl : initVars (intSem R) isFloat guess noNew l d false vs with
          | error x => rw [hl] at h; cases h
          | ok p =>
            obtain ⟨c, v1⟩ := p
            rw [hl] at h
            have h1 : ∀ k, Known v1 k → Known vs k ∨ Made noNew (names (.compare l ops)) k := fun k hk =>
              (initVars_made l _ _ vs v1 c hl k hk).imp id (Made.mono fun x hx => by simp [names, hx])
            cases c with
            | false => cases h; exact h1 k hk
            | true =>
              rcases initOps_made ops _ v1 vs' b h k hk with h | h
              · exact h1 k h
              · exact .inr (h.mono fun x hx => by simp [names, hx])
        | const v => simp only [initVars, hna] at h; cases h; exact .inl hk
        | ifExp _ _ _ => simp only [initVars, hna] at h; cases h; exact .inl hk
        | other _ _ => simp only [initVars, hna] at h; cases h; exact .inl hk

theorem initFirst_made : ∀ (es : List Expr) (d : Bool) (vs vs' : Vars) (b : Bool),
    initFirst (intSem R) isFloat guess noNew es d vs = .ok (b, vs') →
    ∀ k, Known vs' k → Known vs k ∨ Made noNew (namesAll es) k
  | [], d, vs, vs', b, h, k, hk => by simp only [initFirst] at h; cases h
  | e :: es, d, vs, vs', b, h, k, hk => by
    simp only [initFirst] at h
    exact (initVars_made e _ _ vs vs' b h k hk).imp id (Made.mono fun x hx => by simp [namesAll, hx])

theorem initAll_made : ∀ (es : List Expr) (d : Bool) (vs vs' : Vars) (b : Bool),
    initAll (intSem R) isFloat guess noNew es d vs = .ok (b, vs') →
    ∀ k, Known vs' k → Known vs k ∨ Made noNew (namesAll es) k
  | [], d, vs, vs', b, h, k, hk => by simp only [initAll] at h; cases h; exact .inl hk
  | e :: es, d, vs, vs', b, h, k, hk => by
    simp only [initAll] at h
    cases hl : initVars (intSem R) isFloat guess noNew e d true vs with
    | error x => rw [hl] at h; cases h
    | ok p =>
      obtain ⟨c, v1⟩ := p
      rw [hl] at h
      have h1 : ∀ k, Known v1 k → Known vs k ∨ Made noNew (namesAll (e :: es)) k := fun k hk =>
        (initVars_made e _ _ vs v1 c hl k hk).imp id (Made.mono fun x hx => by simp [namesAll, hx])
      cases c with
      | false => cases h; exact h1 k hk
      | true =>
        rcases initAll_made es _ v1 vs' b h k hk with h | h
        · exact h1 k h
        · exact .inr (h.mono fun x hx => by simp [namesAll, hx])

theorem initOps_made : ∀ (es : List (CmpOp × Expr)) (d : Bool) (vs vs' : Vars) (b : Bool),
    initOps (intSem R) isFloat guess noNew es d vs = .ok (b, vs') →
    ∀ k, Known vs' k → Known vs k ∨ Made noNew (namesOps es) k
  | [], d, vs, vs', b, h, k, hk => by simp only [initOps] at h; cases h; exact .inl hk
  | (o, e) :: es, d, vs, vs', b, h, k, hk => by
    simp only [initOps] at h
    cases hl : initVars (intSem R) isFloat guess noNew e d false vs with
    | error x => rw [hl] at h; cases h
    | ok p =>
      obtain ⟨c, v1⟩ := p
      rw [hl] at h
      have h1 : ∀ k, Known v1 k → Known vs k ∨ Made noNew (namesOps ((o, e) :: es)) k := fun k hk =>
        (initVars_made e _ _ vs v1 c hl k hk).imp id (Made.mono fun x hx => by simp [namesOps, hx])
      cases c with
      | false => cases h; exact h1 k hk
      | true =>
        rcases initOps_made es _ v1 vs' b h k hk with h | h
        · exact h1 k h
        · exact .inr (h.mono fun x hx => by simp [namesOps, hx])
end

end

/-! ### Whether a term has a value does not depend on the values of its variables -/

def kind : Option TV → Option Bool
  | none => none
  | some (.int _) => some false
  | some (.bool _) => some true

section
variable (zero : Int → Int) (σ σ' : Expr → Int)

theorem int?_kind {a b : Option TV} (h : kind a = kind b) : (TV.int? a).isSome = (TV.int? b).isSome := by
  rcases a with _ | a | a <;> rcases b with _ | b | b <;> simp_all [kind, TV.int?]

theorem bool?_kind {a b : Option TV} (h : kind a = kind b) : (TV.bool? a).isSome = (TV.bool? b).isSome := by
  rcases a with _ | a | a <;> rcases b with _ | b | b <;> simp_all [kind, TV.bool?]

theorem kind_int1 {f g : Int → Int} {a b : Option Int} (h : a.isSome = b.isSome) :
    kind (a.map fun x => .int (f x)) = kind (b.map fun x => .int (g x)) := by
  rcases a with _ | a <;> rcases b with _ | b <;> simp_all [kind]

theorem kind_bool1 {α : Type} {f g : α → Bool} {a b : Option α} (h : a.isSome = b.isSome) :
    kind (a.map fun x => .bool (f x)) = kind (b.map fun x => .bool (g x)) := by
  rcases a with _ | a <;> rcases b with _ | b <;> simp_all [kind]

theorem kind_int2 {f : Int → Int → Int} {a b c d : Option Int} (h : a.isSome = b.isSome) (h' : c.isSome = d.isSome) :
    kind (a.bind fun x => c.map fun y => .int (f x y)) = kind (b.bind fun x => d.map fun y => .int (f x y)) := by
  rcases a with _ | a <;> rcases b with _ | b <;> rcases c with _ | c <;> rcases d with _ | d <;> simp_all [kind]

theorem kind_cmp {op : CmpOp} {a b c d : Option Int} (h : a.isSome = b.isSome) (h' : c.isSome = d.isSome) :
    kind (a.bind fun x => c.bind fun y => (intCmp op x y).map .bool) =
      kind (b.bind fun x => d.bind fun y => (intCmp op x y).map .bool) := by
  rcases a with _ | a <;> rcases b with _ | b <;> rcases c with _ | c <;> rcases d with _ | d <;> simp_all
  cases op <;> simp [intCmp, kind]

mutual
theorem eval_kind : ∀ t : Term, kind (t.eval zero σ) = kind (t.eval zero σ')
  | .var _ _ => by simp [Term.eval, kind]
  | .bool _ => by simp [Term.eval, kind]
  | .int _ => by simp [Term.eval, kind]
  | .real _ => by simp [Term.eval, kind]
  | .neg t => by simp only [Term.eval]; exact kind_int1 (int?_kind (eval_kind t))
  | .abs t => by simp only [Term.eval]; exact kind_int1 (int?_kind (eval_kind t))
  | .add l r => by simp only [Term.eval]; exact kind_int2 (int?_kind (eval_kind l)) (int?_kind (eval_kind r))
  | .sub l r => by simp only [Term.eval]; exact kind_int2 (int?_kind (eval_kind l)) (int?_kind (eval_kind r))
  | .mul l r => by simp only [Term.eval]; exact kind_int2 (int?_kind (eval_kind l)) (int?_kind (eval_kind r))
  | .div l c => by simp only [Term.eval]; exact kind_int1 (int?_kind (eval_kind l))
  | .mod l c => by simp only [Term.eval]; exact kind_int1 (int?_kind (eval_kind l))
  | .realDiv _ _ => by simp [Term.eval, kind]
  | .nonzero t => by simp only [Term.eval]; exact kind_bool1 (int?_kind (eval_kind t))
  | .not t => by simp only [Term.eval]; exact kind_bool1 (bool?_kind (eval_kind t))
  | .and ts => by simp only [Term.eval]; exact kind_bool1 (evalAll_kind ts)
  | .or ts => by simp only [Term.eval]; exact kind_bool1 (evalAll_kind ts)
  | .cmp op l r => by simp only [Term.eval]; exact kind_cmp (int?_kind (eval_kind l)) (int?_kind (eval_kind r))

theorem evalAll_kind : ∀ ts : List Term, (Term.evalAll zero σ ts).isSome = (Term.evalAll zero σ' ts).isSome
  | [] => by simp [Term.evalAll]
  | t :: ts => by
    have h1 := bool?_kind (eval_kind t)
    have h2 := evalAll_kind ts
    simp only [Term.evalAll]
    generalize TV.bool? (t.eval zero σ) = a at *
    generalize TV.bool? (t.eval zero σ') = b at *
    generalize Term.evalAll zero σ ts = c at *
    generalize Term.evalAll zero σ' ts = d at *
    rcases a with _ | a <;> rcases b with _ | b <;> rcases c with _ | c <;> rcases d with _ | d <;> simp_all
end

end

end Verif.Py.Blocks

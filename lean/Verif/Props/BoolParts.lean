import Verif.Lemmas.BoolParts
import Verif.Lemmas.Parse

/-!
**C98** Parts of conditions that are reported as redundant are.
-/

namespace Verif.Py.BoolParts

open Verif.Py.BoolOps (conn sepBy intNum truthOf_boolOp' truthD truthD_eq Truthful)

/-! ### The text of the suggestion -/

/-- What is read of an operand: brackets of `and` in `and` are left out. -/
def unit (isOr : Bool) (e : Expr) : List Expr :=
  match isOr, e with
  | false, .boolOp false vs => vs
  | _, e => [e]

theorem readsBool_append {isOr : Bool} : ∀ {t u : List Tok} {as bs : List Expr}, ReadsBool isOr t as → ReadsBool isOr u bs → as ≠ [] → bs ≠ [] →
    ReadsBool isOr (t ++ boolTok isOr :: u) (as ++ bs)
  | t, u, [a], b :: bs, h, hu, _, _ => by
    cases h with
    | one h => exact .cons h hu
  | _, u, a :: f :: as, b :: bs, h, hu, _, _ => by
    cases h with
    | cons h1 h2 =>
      rw [List.append_assoc]
      exact .cons h1 (readsBool_append h2 hu (by simp) (by simp))

theorem brackets_reads {isOr : Bool} {e : Expr} (h : e.Ok) : ReadsBool isOr (brackets false e) (unit isOr e) ∧ unit isOr e ≠ [] := by
  have tight : ∀ {e : Expr}, e.Ok → boolPrec isOr + 1 ≤ e.prec → ReadsBool isOr e.text [e] :=
    fun ho hp => .one (reads_text_at ho hp)
  have paren : ∀ {e : Expr}, e.Ok → ReadsBool isOr (.sym "(" :: (e.text ++ [.sym ")"])) [e] :=
    fun ho => .one ((Reads.paren (reads_text_at ho (Nat.zero_le _))).mono (by cases isOr <;> decide))
  cases e with
  | boolOp o vs =>
    cases o with
    | true => cases isOr <;> exact ⟨paren h, List.cons_ne_nil _ _⟩
    | false =>
      cases isOr with
      | true => exact ⟨tight h (by simp [Expr.prec, boolPrec]), List.cons_ne_nil _ _⟩
      | false =>
        simp only [Expr.Ok] at h
        have hne : vs ≠ [] := by intro e; rw [e] at h; simp at h
        refine ⟨?_, hne⟩
        have := reads_textBool false vs h.2 hne
        rw [show brackets false (.boolOp false vs) = textBool false vs by rw [brackets, Expr.text]; simp]
        exact this
  | name x => cases isOr <;> exact ⟨tight h (by simp [Expr.prec, boolPrec]), List.cons_ne_nil _ _⟩
  | const x => cases isOr <;> exact ⟨tight h (by simp [Expr.prec, boolPrec]), List.cons_ne_nil _ _⟩
  | call f as => cases isOr <;> exact ⟨tight h (by simp [Expr.prec, boolPrec]), List.cons_ne_nil _ _⟩
  | attr f as => cases isOr <;> exact ⟨tight h (by simp [Expr.prec, boolPrec]), List.cons_ne_nil _ _⟩
  | subscript f as => cases isOr <;> exact ⟨tight h (by simp [Expr.prec, boolPrec]), List.cons_ne_nil _ _⟩
  | compare f as => cases isOr <;> exact ⟨tight h (by simp [Expr.prec, boolPrec]), List.cons_ne_nil _ _⟩
  | unary o x => cases isOr <;> exact ⟨paren h, List.cons_ne_nil _ _⟩
  | bin o x y => cases isOr <;> exact ⟨paren h, List.cons_ne_nil _ _⟩
  | ifExp o x y => cases isOr <;> exact ⟨paren h, List.cons_ne_nil _ _⟩
  | other o x => cases isOr <;> exact ⟨paren h, List.cons_ne_nil _ _⟩

section
variable {V : Type} (S : Sem V) (env : Env V)

theorem evalBool_append {isOr : Bool} : ∀ {vs ws : List Expr}, vs ≠ [] → ws ≠ [] → evalBool S env isOr (vs ++ ws) =
    match evalBool S env isOr vs with
    | .error x => .error x
    | .ok v =>
      match S.truth v with
      | .error x => .error x
      | .ok b => if b = isOr then .ok v else evalBool S env isOr ws
  | [v], w :: ws, _, _ => by
    rw [List.singleton_append, evalBool]
    conv => rhs; rw [evalBool]
    cases eval S env v <;> rfl
  | v :: w :: vs, u :: ws, _, _ => by
    have ih := evalBool_append (isOr := isOr) (vs := w :: vs) (ws := u :: ws) (by simp) (by simp)
    rw [List.cons_append, evalBool]
    conv => rhs; rw [evalBool]
    cases eval S env v with
    | error x => rfl
    | ok a =>
      simp only [List.cons_append] at ih ⊢
      cases ht : S.truth a with
      | error x => rfl
      | ok b =>
        simp only
        split
        · simp [*]
        · exact ih

theorem evalBool_one (isOr : Bool) (e : Expr) : evalBool S env isOr [e] = eval S env e := by
  rw [evalBool]
  cases eval S env e <;> rfl

theorem evalBool_unit {isOr : Bool} {e : Expr} : evalBool S env isOr (unit isOr e) = eval S env e := by
  unfold unit
  split
  · rw [eval]
  · exact evalBool_one S env isOr e

theorem evalBool_flat {isOr : Bool} : ∀ {es : List Expr}, es ≠ [] → (∀ e ∈ es, unit isOr e ≠ []) →
    evalBool S env isOr (es.flatMap (unit isOr)) = evalBool S env isOr es
  | [e], _, _ => by simp only [List.flatMap_cons, List.flatMap_nil, List.append_nil]; rw [evalBool_unit, evalBool_one]
  | e :: f :: es, _, h => by
    have ih := evalBool_flat (isOr := isOr) (es := f :: es) (by simp) fun x hx => h x (by simp [hx])
    rw [List.flatMap_cons, evalBool_append S env (h e (by simp)) (by
      rw [List.flatMap_cons]
      intro hn
      exact h f (by simp) (List.append_eq_nil_iff.1 hn).1), ih, evalBool_unit]
    conv => rhs; rw [evalBool]
    cases eval S env e <;> rfl

end

theorem sepBy_reads {isOr : Bool} : ∀ {es : List Expr}, es ≠ [] → (∀ e ∈ es, e.Ok) →
    ReadsBool isOr (sepBy (boolTok isOr) (es.map (brackets false))) (es.flatMap (unit isOr)) ∧ es.flatMap (unit isOr) ≠ []
  | [e], _, h => by
    have := brackets_reads (isOr := isOr) (h e (by simp))
    simpa [sepBy] using this
  | e :: f :: es, _, h => by
    obtain ⟨h1, h2⟩ := brackets_reads (isOr := isOr) (h e (by simp))
    obtain ⟨h3, h4⟩ := sepBy_reads (isOr := isOr) (es := f :: es) (by simp) fun x hx => h x (by simp [hx])
    refine ⟨?_, fun hn => h2 (by rw [List.flatMap_cons] at hn; exact (List.append_eq_nil_iff.1 hn).1)⟩
    rw [List.flatMap_cons, List.map_cons, List.map_cons, sepBy]
    exact readsBool_append h1 (by simpa using h3) h2 h4

/-- The suggestion has the value of the operands that are left. -/
theorem joinText_reads {isOr : Bool} {es : List Expr} (hne : es ≠ []) (hok : ∀ e ∈ es, e.Ok) :
    ∃ e', ReadsAs 0 (joinText isOr es) e' ∧ ∀ (V : Type) (S : Sem V) (env : Env V), eval S env e' = evalBool S env isOr es := by
  match es, hne with
  | [e], _ =>
    refine ⟨e, ?_, fun V S env => (evalBool_one S env isOr e).symm⟩
    have : joinText isOr [e] = e.text := by simp [joinText, sepBy, brackets]
    rw [this]
    exact (reads_text_at (hok e (by simp)) (Nat.zero_le _)).as
  | e :: f :: es, _ =>
    obtain ⟨h1, -⟩ := sepBy_reads (isOr := isOr) (es := e :: f :: es) (by simp) hok
    have hu : ∀ x ∈ e :: f :: es, unit isOr x ≠ [] := fun x hx => (brackets_reads (hok x hx)).2
    have hj : joinText isOr (e :: f :: es) = sepBy (boolTok isOr) ((e :: f :: es).map (brackets false)) := by simp [joinText]
    refine ⟨.boolOp isOr ((e :: f :: es).flatMap (unit isOr)), ?_, fun V S env => ?_⟩
    · rw [hj]
      have hlen : ∃ a b cs, (e :: f :: es).flatMap (unit isOr) = a :: b :: cs := by
        have he := hu e (by simp)
        have hf := hu f (by simp)
        rw [List.flatMap_cons, List.flatMap_cons]
        cases h1 : unit isOr e with
        | nil => exact absurd h1 he
        | cons a as =>
          cases as with
          | cons b bs => exact ⟨_, _, _, rfl⟩
          | nil =>
            cases h2 : unit isOr f with
            | nil => exact absurd h2 hf
            | cons b bs => exact ⟨_, _, _, rfl⟩
      obtain ⟨a, b, cs, habc⟩ := hlen
      rw [habc] at h1 ⊢
      exact ((Reads.boolOp h1).mono (Nat.zero_le _)).as
    · rw [eval, evalBool_flat S env (by simp) hu]

/-! ### What is translated -/

section
variable {R : FoldSem Val} {isFloat : Val → Bool} {guess : Expr → Option Types} {noNew : Bool}

theorem initAll_mem : ∀ {es : List Expr} {d : Bool} {vs0 vs1 : Vars}, initAll (intSem R) isFloat guess noNew es d vs0 = .ok (true, vs1) →
    ∀ e ∈ es, ∃ v0 v1, initVars (intSem R) isFloat guess noNew e d true v0 = .ok (true, v1)
  | [], _, _, _, _, e, he => by cases he
  | f :: es, d, vs0, vs1, h, e, he => by
    simp only [initAll] at h
    split at h
    · cases h
    · cases h
    · rename_i v hv
      rcases List.mem_cons.1 he with rfl | he
      · exact ⟨_, _, hv⟩
      · exact initAll_mem h e he

theorem init_operands {isOr : Bool} {es : List Expr} {d pb : Bool} {vs0 vs1 : Vars}
    (h : initVars (intSem R) isFloat guess noNew (.boolOp isOr es) d pb vs0 = .ok (true, vs1)) :
    initAll (intSem R) isFloat guess noNew es d vs0 = .ok (true, vs1) := by
  rw [initVars] at h
  split at h
  · cases h
  · cases h
  · exact h

theorem convertPart_some {S : FoldSem Val} {vs : Vars} {bp : Bool} {e : Expr} {p : Part} (h : convertPart S isFloat vs bp e = .ok (some p)) :
    p.node = e ∧ p.removed = false ∧ convert S isFloat vs e true = .ok (some p.term) ∧ (bp = false → takesNumber S isFloat e true = false) := by
  unfold convertPart at h
  split at h
  · cases h
  · cases h
  · rename_i t ht
    split at h
    · cases h
    · by_cases hc : (takesNumber S isFloat e true && !bp) = true
      · rw [if_pos hc] at h; cases h
      · rw [if_neg hc] at h
        cases h
        refine ⟨rfl, rfl, ht, fun hb => ?_⟩
        subst hb
        simpa using hc

theorem convertParts_some {S : FoldSem Val} {vs : Vars} {bp : Bool} : ∀ {es : List Expr} {ps : List Part},
    convertParts S isFloat vs bp es = .ok (some ps) → ps.map Part.node = es ∧
      ∀ p ∈ ps, p.removed = false ∧ convert S isFloat vs p.node true = .ok (some p.term) ∧ (bp = false → takesNumber S isFloat p.node true = false)
  | [], ps, h => by cases h; exact ⟨rfl, by intro _ h; cases h⟩
  | e :: es, ps, h => by
    simp only [convertParts] at h
    split at h
    · cases h
    · cases h
    · rename_i p hp
      split at h
      · cases h
      · cases h
      · rename_i qs hqs
        cases h
        obtain ⟨h1, h2⟩ := convertParts_some hqs
        obtain ⟨p1, p2, p3, p4⟩ := convertPart_some hp
        refine ⟨by rw [List.map_cons, h1, p1], fun q hq => ?_⟩
        rcases List.mem_cons.1 hq with rfl | hq
        · rw [p1]; exact ⟨p2, p3, p4⟩
        · exact h2 q hq

variable {env : Env Val}

theorem compare_bool (hB : Builtins env) {l : Expr} {ops : List (CmpOp × Expr)} {d pb : Bool} {vs0 vs1 vs : Vars} {t : Term}
    (hs : InScope R isFloat (IntValued R env) (.compare l ops))
    (hi : initVars (intSem R) isFloat guess noNew (.compare l ops) d pb vs0 = .ok (true, vs1))
    (hc : convert (intSem R) isFloat vs (.compare l ops) pb = .ok (some t)) {v : Val} (hv : eval (intSem R).toSem env (.compare l ops) = .ok v) :
    ∃ b, v = .bool b := by
  have hs := InScope.mono (fun x => agrees_valuation) _ hs
  simp only [convert] at hc
  simp only [InScope] at hs
  rw [initVars] at hi
  match ops with
  | [] => simp [notAllowed] at hi
  | _ :: _ :: _ => simp [notAllowed] at hi
  | [(op, r)] =>
    split at hi
    · cases hi
    · cases hi
    · rename_i hna
      simp only [notAllowed, Except.ok.injEq, Bool.or_eq_false_iff, decide_eq_false_iff_not] at hna
      obtain ⟨hop, -⟩ := hna
      split at hi
      · cases hi
      · cases hi
      · rename_i vl hil
        simp only [initOps] at hi
        split at hi
        · cases hi
        · cases hi
        · rename_i vr hir
          split at hc
          · cases hc
          · rename_i tl hcl
            split at hc
            · cases hc
            · rename_i o tr hcr
              simp only [convertOp] at hcr
              split at hcr
              · cases hcr
              · rename_i tr' hcr'
                cases hcr
                split at hc
                · rename_i a b
                  obtain ⟨i, -, hvl⟩ := convert_means (zero := fun _ => 0) hB l d false vs0 vl vs a hs.1 hil hcl
                  obtain ⟨j, -, hvr⟩ := convert_means (zero := fun _ => 0) hB r d false vl vr vs b hs.2.1 hir hcr'
                  obtain ⟨c, hcmp⟩ : ∃ b, intCmp op i j = some b := by
                    cases op <;> first | exact ⟨_, rfl⟩ | simp at hop
                  simp only [eval, evalCmp] at hv
                  cases he : eval (intSem R).toSem env l with
                  | error x => simp [he] at hv
                  | ok u =>
                    cases hf : eval (intSem R).toSem env r with
                    | error x => simp [he, hf] at hv
                    | ok w =>
                      simp only [he, hf, intSem_cmp R (hvl u he) (hvr w hf) hcmp] at hv
                      cases hv
                      exact ⟨_, rfl⟩
                · cases hc

mutual
/-- If no number is taken for a truth value, a condition has truth values only. -/
theorem value_bool (hB : Builtins env) : ∀ (e : Expr) (d : Bool) (vs0 vs1 vs : Vars) (t : Term), InScope R isFloat (IntValued R env) e →
    initVars (intSem R) isFloat guess noNew e d true vs0 = .ok (true, vs1) → convert (intSem R) isFloat vs e true = .ok (some t) →
    takesNumber (intSem R) isFloat e true = false → ∀ v, eval (intSem R).toSem env e = .ok v → ∃ b, v = .bool b
  | .const c, d, vs0, vs1, vs, t, hs, hi, hc, hn => by
    intro v hv
    cases c <;> first | (simp [takesNumber] at hn; done) | skip
    rw [eval] at hv
    cases hv
    exact ⟨_, rfl⟩
  | .name _, d, vs0, vs1, vs, t, hs, hi, hc, hn => by simp [takesNumber] at hn
  | .subscript _ _, d, vs0, vs1, vs, t, hs, hi, hc, hn => by simp [takesNumber] at hn
  | .attr _ _, d, vs0, vs1, vs, t, hs, hi, hc, hn => by simp [takesNumber] at hn
  | .call _ _, d, vs0, vs1, vs, t, hs, hi, hc, hn => by
    simp only [takesNumber] at hn
    split at hn <;> simp at hn
  | .bin op _ _, d, vs0, vs1, vs, t, hs, hi, hc, hn => by
    simp only [takesNumber] at hn
    split at hn
    · cases hn
    · cases op <;> simp at hn
  | .unary op e, d, vs0, vs1, vs, t, hs, hi, hc, hn => by
    cases op with
    | not =>
      intro v hv
      rw [eval] at hv
      split at hv
      · cases hv
      · simp only [if_true] at hv
        split at hv
        · cases hv
        · cases hv; exact ⟨_, rfl⟩
    | _ => simp [takesNumber] at hn
  | .boolOp isOr es, d, vs0, vs1, vs, t, hs, hi, hc, hn => by
    intro v hv
    rw [eval] at hv
    simp only [convert] at hc
    split at hc
    · cases hc
    · cases hc
    · rename_i ts hts
      simp only [takesNumber] at hn
      simp only [InScope] at hs
      exact values_bool hB es d vs0 vs1 vs ts hs (init_operands hi) hts hn isOr v hv
  | .compare l ops, d, vs0, vs1, vs, t, hs, hi, hc, hn => fun v hv => compare_bool hB hs hi hc hv
  | .ifExp _ _ _, d, vs0, vs1, vs, t, hs, hi, hc, hn => by simp only [convert] at hc; cases hc
  | .other _ _, d, vs0, vs1, vs, t, hs, hi, hc, hn => by simp only [convert] at hc; cases hc

theorem values_bool (hB : Builtins env) : ∀ (es : List Expr) (d : Bool) (vs0 vs1 vs : Vars) (ts : List Term), InScopeAll R isFloat (IntValued R env) es →
    initAll (intSem R) isFloat guess noNew es d vs0 = .ok (true, vs1) → convertAll (intSem R) isFloat vs es = .ok (some ts) →
    takesAny (intSem R) isFloat es = false → ∀ isOr v, evalBool (intSem R).toSem env isOr es = .ok v → ∃ b, v = .bool b
  | [], d, vs0, vs1, vs, ts, hs, hi, hc, hn => by intro isOr v hv; rw [evalBool] at hv; cases hv
  | e :: es, d, vs0, vs1, vs, ts, hs, hi, hc, hn => by
    intro isOr v hv
    simp only [InScopeAll] at hs
    simp only [takesAny, Bool.or_eq_false_iff] at hn
    simp only [initAll] at hi
    simp only [convertAll] at hc
    split at hi
    · cases hi
    · cases hi
    · rename_i v1 hie
      split at hc
      · cases hc
      · cases hc
      · rename_i t hce
        split at hc
        · cases hc
        · cases hc
        · rename_i us hcs
          have h1 := value_bool hB e d vs0 v1 vs t hs.1 hie hce hn.1
          have h2 := values_bool hB es d v1 vs1 vs us hs.2 hi hcs hn.2 isOr
          rw [evalBool] at hv
          split at hv
          · cases hv
          · rename_i u hu
            cases es with
            | nil => cases hv; exact h1 _ hu
            | cons f fs =>
              simp only at hv
              split at hv
              · cases hv
              · split at hv
                · cases hv; exact h1 _ hu
                · exact h2 v hv
end

/-! ### What is reported -/

/-- A condition, or an operand of it, or of an operand, and so on. -/
inductive Nested (n : Expr) : Expr → Prop
  | self : Nested n n
  | operand {isOr : Bool} {values : List Expr} {e : Expr} : e ∈ values → Nested n e → Nested n (.boolOp isOr values)

/-- A condition has truth values for its operands, and what the solver takes for variables are integers. -/
structure Fits (R : FoldSem Val) (isFloat : Val → Bool) (env : Env Val) (isOr : Bool) (values : List Expr) : Prop where
  builtins : Builtins env
  scope : InScope R isFloat (IntValued R env) (.boolOp isOr values)
  truths : ∀ x ∈ values, ∃ b, truthOf (intSem R).toSem env x = .ok b

variable {unsat : Term → Bool} {len : Expr → Nat}

theorem inScopeAll_mem {P : Expr → Prop} : ∀ {es : List Expr}, InScopeAll R isFloat P es → ∀ e ∈ es, InScope R isFloat P e
  | f :: es, h, e, he => by
    simp only [InScopeAll] at h
    rcases List.mem_cons.1 he with rfl | he
    · exact h.1
    · exact inScopeAll_mem h.2 e he

theorem parts_eval {isOr : Bool} {values : List Expr} {vs : Vars} {bp : Bool} {ps : List Part}
    (hi : initVars (intSem R) isFloat guess noNew (.boolOp isOr values) false true [] = .ok (true, vs))
    (hc : convertParts (intSem R) isFloat vs bp values = .ok (some ps)) (hf : Fits R isFloat env isOr values) :
    ∀ p ∈ ps, p.term.eval (fun _ => 0) (valuation R env) = some (.bool (truthD (intNum R) env p.node)) := by
  intro p hp
  obtain ⟨h1, h2⟩ := convertParts_some hc
  have hmem : p.node ∈ values := h1 ▸ List.mem_map_of_mem hp
  obtain ⟨v0, v1, hi⟩ := initAll_mem (init_operands hi) p.node hmem
  obtain ⟨b, hb⟩ := hf.truths p.node hmem
  have hs := inScopeAll_mem (by have := hf.scope; simpa only [InScope] using this) p.node hmem
  rw [C44_partial (zero := fun _ => 0) hf.builtins rfl (InScope.mono (fun x => agrees_valuation) _ hs) hi (h2 p hp).2.1 hb]
  rw [truthD_eq (S := intNum R) hb]

theorem vals_eq {zero : Int → Int} {σ : Expr → Int} {f : Expr → Bool} {ps : List Part} (h : ∀ p ∈ ps, p.term.eval zero σ = some (.bool (f p.node))) :
    vals zero σ ps = (ps.map Part.node).map f := by
  rw [vals, List.map_map]
  exact List.map_congr_left fun p hp => holdsT_eq (h p hp)

theorem kept_sublist {ps qs : List Part} (h : qs.map Part.key = ps.map Part.key) :
    List.Sublist ((kept qs).map Part.key) (ps.map Part.key) := by
  rw [← h]
  exact List.Sublist.map _ List.filter_sublist

theorem kept_nodes {ps qs : List Part} (h : qs.map Part.key = ps.map Part.key) :
    List.Sublist ((kept qs).map Part.node) (ps.map Part.node) := by
  have := List.Sublist.map Prod.fst (kept_sublist h)
  simpa [Part.key, Function.comp_def] using this

theorem kept_mem {ps qs : List Part} (h : qs.map Part.key = ps.map Part.key) {q : Part} (hq : q ∈ kept qs) : ∃ p ∈ ps, p.node = q.node ∧ p.term = q.term := by
  have := (kept_sublist h).subset (List.mem_map_of_mem hq)
  obtain ⟨p, hp, he⟩ := List.mem_map.1 this
  exact ⟨p, hp, congrArg Prod.fst he, congrArg Prod.snd he⟩

theorem newCondition_eval {zero : Int → Int} {σ : Expr → Int} {isOr : Bool} {ts : List Term} (h : ∀ t ∈ ts, IsBool zero σ t) :
    (newCondition isOr ts).eval zero σ = some (.bool (conn isOr (ts.map (holdsT zero σ)))) := by
  unfold newCondition
  split
  · rename_i t
    rw [isBool_eval (h t (by simp))]
    cases isOr <;> simp [conn]
  · cases isOr
    · exact eval_and h
    · exact eval_or h

theorem always_some (hu : ∀ t, unsat t = true → Unsat t) {zero : Int → Int} {σ : Expr → Int} {t : Term} (ht : IsBool zero σ t) {b : Bool}
    (h : always unsat t = some b) : t.eval zero σ = some (.bool b) := by
  unfold always at h
  split at h
  · rename_i h1
    cases h
    rw [isBool_eval ht, unsat_false hu h1]
  · split at h
    · rename_i h1
      cases h
      rw [isBool_eval ht, unsat_not hu ht h1]
    · cases h

theorem evalBool_bool {isOr : Bool} : ∀ {es : List Expr}, (∀ e ∈ es, ∀ v, eval (intSem R).toSem env e = .ok v → ∃ b, v = .bool b) →
    ∀ v, evalBool (intSem R).toSem env isOr es = .ok v → ∃ b, v = .bool b
  | [], _, v, h => by rw [evalBool] at h; cases h
  | e :: es, he, v, h => by
    rw [evalBool] at h
    split at h
    · cases h
    · rename_i u hu
      cases es with
      | nil => cases h; exact he e (by simp) _ hu
      | cons f fs =>
        simp only at h
        split at h
        · cases h
        · split at h
          · cases h; exact he e (by simp) _ hu
          · exact evalBool_bool (fun x hx => he x (by simp [hx])) v h

/-- What a message says about a condition is right. -/
def Right (R : FoldSem Val) (isFloat : Val → Bool) (valued : Bool) : Msg → Prop
  | .always n b => ∃ isOr values, n = .boolOp isOr values ∧ ∀ env, Fits R isFloat env isOr values → truthOf (intSem R).toSem env n = .ok b
  | .redundant n o s => ∃ isOr values left e', n = .boolOp isOr values ∧ ReadsAs 0 o n ∧ List.Sublist left values ∧ left.length < values.length ∧ left ≠ [] ∧
      ReadsAs 0 s e' ∧ (∀ env, eval (intSem R).toSem env e' = eval (intSem R).toSem env (.boolOp isOr left)) ∧
      ∀ env, Fits R isFloat env isOr values → truthOf (intSem R).toSem env e' = truthOf (intSem R).toSem env n ∧
        (valued = true → eval (intSem R).toSem env e' = eval (intSem R).toSem env n)

theorem report_right (hu : ∀ t, unsat t = true → Unsat t) {isOr : Bool} {values : List Expr} {vs : Vars} {bp valued : Bool} {ps : List Part}
    (hok : (Expr.boolOp isOr values).Ok) (hi : initVars (intSem R) isFloat guess false (.boolOp isOr values) false true [] = .ok (true, vs))
    (hc : convertParts (intSem R) isFloat vs bp values = .ok (some ps))
    (hv : valued = true → ∀ x ∈ values, takesNumber (intSem R) isFloat x true = false) {rest : Except PyErr (List Msg)} {msgs : List Msg}
    (h : report unsat isOr values (redundantParts unsat len isOr ps) rest = .ok msgs) : rest = .ok msgs ∨ ∃ m, msgs = [m] ∧ Right R isFloat valued m ∧
      (match m with | .always n _ => n | .redundant n _ _ => n) = .boolOp isOr values := by
  obtain ⟨h1, h2⟩ := convertParts_some hc
  have hkey := redundantParts_key (unsat := unsat) (len := len) isOr ps
  have hokv : ∀ x ∈ values, x.Ok := by
    have : ∀ {es : List Expr}, OkAll es → ∀ x ∈ es, x.Ok := by
      intro es
      induction es with
      | nil => intro _ x hx; cases hx
      | cons e es ih =>
        intro h x hx
        simp only [OkAll] at h
        rcases List.mem_cons.1 hx with rfl | hx
        · exact h.1
        · exact ih h.2 x hx
    simp only [Expr.Ok] at hok
    exact this hok.2
  have hne : values ≠ [] := by
    intro e
    subst e
    simp [Expr.Ok] at hok
  -- the truth value of the condition
  have htruth : ∀ env, Fits R isFloat env isOr values →
      truthOf (intSem R).toSem env (.boolOp isOr values) = .ok (conn isOr (vals (fun _ => 0) (valuation R env) ps)) := by
    intro env hf
    rw [vals_eq (parts_eval hi hc hf), h1]
    exact truthOf_boolOp' (S := intNum R) hne hf.truths
  have hsound : ∀ env, Fits R isFloat env isOr values →
      conn isOr (vals (fun _ => 0) (valuation R env) (kept (redundantParts unsat len isOr ps))) = conn isOr (vals (fun _ => 0) (valuation R env) ps) := by
    intro env hf
    exact redundantParts_sound hu fun p hp => ⟨_, parts_eval hi hc hf p hp⟩
  have hkept : ∀ env, Fits R isFloat env isOr values → ∀ q ∈ kept (redundantParts unsat len isOr ps),
      q.term.eval (fun _ => 0) (valuation R env) = some (.bool (truthD (intNum R) env q.node)) := by
    intro env hf q hq
    obtain ⟨p, hp, e1, e2⟩ := kept_mem hkey hq
    rw [← e1, ← e2]
    exact parts_eval hi hc hf p hp
  have hsub := kept_nodes hkey
  rw [h1] at hsub
  have hlen : (redundantParts unsat len isOr ps).length = values.length := by
    have := congrArg List.length hkey
    simp only [List.length_map] at this
    rw [this, ← h1, List.length_map]
  generalize redundantParts unsat len isOr ps = qs at *
  unfold report at h
  split at h
  · rename_i hempty
    cases h
    refine .inr ⟨_, rfl, ⟨isOr, values, rfl, fun env hf => ?_⟩, rfl⟩
    rw [htruth env hf, ← hsound env hf, show kept qs = [] by simpa using hempty]
    cases isOr <;> rfl
  · rename_i hempty
    have hk : kept qs ≠ [] := by simpa using hempty
    split at h
    · rename_i b hb
      cases h
      refine .inr ⟨_, rfl, ⟨isOr, values, rfl, fun env hf => ?_⟩, rfl⟩
      have hts : ∀ t ∈ (kept qs).map Part.term, IsBool (fun _ => 0) (valuation R env) t := by
        intro t ht
        obtain ⟨q, hq, rfl⟩ := List.mem_map.1 ht
        exact ⟨_, hkept env hf q hq⟩
      have := always_some hu ⟨_, newCondition_eval hts⟩ hb
      rw [newCondition_eval hts] at this
      rw [htruth env hf, ← hsound env hf]
      simp only [Option.some.injEq, TV.bool.injEq, List.map_map] at this
      rw [← this]
      rfl
    · split at h
      · exact .inl h
      · rename_i hl
        cases h
        have hkn : (kept qs).map Part.node ≠ [] := by simpa using hk
        obtain ⟨e', he1, he2⟩ := joinText_reads (isOr := isOr) hkn fun x hx => hokv x (hsub.subset hx)
        refine .inr ⟨_, rfl, ⟨isOr, values, (kept qs).map Part.node, e', rfl, (reads_text_at hok (Nat.zero_le _)).as, hsub, ?_, hkn, he1,
          fun env => by rw [he2, eval], fun env hf => ?_⟩, rfl⟩
        · have h3 := hsub.length_le
          simp only [List.length_map] at h3 ⊢
          omega
        · have heval : eval (intSem R).toSem env e' = eval (intSem R).toSem env (.boolOp isOr ((kept qs).map Part.node)) := by rw [he2, eval]
          have ht : truthOf (intSem R).toSem env e' = truthOf (intSem R).toSem env (.boolOp isOr values) := by
            rw [htruth env hf, ← hsound env hf, vals_eq (hkept env hf)]
            rw [show truthOf (intSem R).toSem env e' = truthOf (intSem R).toSem env (.boolOp isOr ((kept qs).map Part.node)) by
              unfold truthOf; rw [heval]]
            exact truthOf_boolOp' (S := intNum R) hkn fun x hx => hf.truths x (hsub.subset hx)
          refine ⟨ht, fun hval => ?_⟩
          have hbools : ∀ x ∈ values, ∀ v, eval (intSem R).toSem env x = .ok v → ∃ b, v = .bool b := by
            intro x hx
            obtain ⟨p, hp, rfl⟩ := List.mem_map.1 (h1 ▸ hx)
            obtain ⟨v0, v1, hi⟩ := initAll_mem (init_operands hi) p.node hx
            have hs := inScopeAll_mem (by have := hf.scope; simpa only [InScope] using this) p.node hx
            exact value_bool hf.builtins p.node false v0 v1 vs p.term hs hi (h2 p hp).2.1 (hv hval p.node hx)
          have key : ∀ {e : Expr} {b : Bool}, truthOf (intSem R).toSem env e = .ok b → (∀ v, eval (intSem R).toSem env e = .ok v → ∃ c, v = .bool c) →
              eval (intSem R).toSem env e = .ok (.bool b) := by
            intro e b htr hb
            unfold truthOf at htr
            cases he : eval (intSem R).toSem env e with
            | error x => rw [he] at htr; cases htr
            | ok v =>
              rw [he] at htr
              obtain ⟨c, rfl⟩ := hb v he
              cases htr
              rfl
          have ht0 := htruth env hf
          rw [key ht0 (fun v hv => evalBool_bool (isOr := isOr) hbools v (by rw [eval] at hv; exact hv)),
            key (ht.trans ht0) (fun v hv => evalBool_bool (isOr := isOr) (fun x hx => hbools x (hsub.subset hx)) v (by rw [heval, eval] at hv; exact hv))]

theorem takesAny_mem {S : FoldSem Val} : ∀ {es : List Expr}, takesAny S isFloat es = false → ∀ e ∈ es, takesNumber S isFloat e true = false
  | f :: es, h, e, he => by
    simp only [takesAny, Bool.or_eq_false_iff] at h
    rcases List.mem_cons.1 he with rfl | he
    · exact h.1
    · exact takesAny_mem h.2 e he

mutual
theorem checkParts_right (hu : ∀ t, unsat t = true → Unsat t) (valued : Bool) : ∀ (e : Expr) (bp : Bool) (msgs : List Msg), e.Ok →
    (valued = true → bp = false ∨ takesNumber (intSem R) isFloat e true = false) →
    checkParts (intSem R) isFloat unsat len guess bp e = .ok msgs →
    ∀ m ∈ msgs, Right R isFloat valued m ∧ Nested (match m with | .always n _ => n | .redundant n _ _ => n) e
  | .boolOp isOr values, bp, msgs, hok, hval, h => by
    intro m hm
    rw [checkParts] at h
    split at h
    · cases h
    · cases h; cases hm
    · rename_i vs hi
      split at h
      · cases h
      · cases h; cases hm
      · rename_i ps hc
        have hv : valued = true → ∀ x ∈ values, takesNumber (intSem R) isFloat x true = false := by
          intro hval' x hx
          rcases hval hval' with rfl | ht
          · obtain ⟨h1, h2⟩ := convertParts_some hc
            obtain ⟨p, hp, rfl⟩ := List.mem_map.1 (h1 ▸ hx)
            exact (h2 p hp).2.2 rfl
          · simp only [takesNumber] at ht
            exact takesAny_mem ht x hx
        rcases report_right hu hok hi hc hv h with h | ⟨m', rfl, hr, hn⟩
        · have hok' : OkAll values := by simp only [Expr.Ok] at hok; exact hok.2
          obtain ⟨hr, x, hx, hn⟩ := checkOperands_right hu valued values msgs hok' hv h m hm
          exact ⟨hr, .operand hx hn⟩
        · rw [List.mem_singleton] at hm
          subst hm
          exact ⟨hr, hn ▸ .self⟩
  | .const _, bp, msgs, hok, hval, h => by rw [checkParts] at h; cases h; exact fun _ h => (List.not_mem_nil h).elim; exact fun _ _ h => nomatch h
  | .name _, bp, msgs, hok, hval, h => by rw [checkParts] at h; cases h; exact fun _ h => (List.not_mem_nil h).elim; exact fun _ _ h => nomatch h
  | .unary _ _, bp, msgs, hok, hval, h => by rw [checkParts] at h; cases h; exact fun _ h => (List.not_mem_nil h).elim; exact fun _ _ h => nomatch h
  | .bin _ _ _, bp, msgs, hok, hval, h => by rw [checkParts] at h; cases h; exact fun _ h => (List.not_mem_nil h).elim; exact fun _ _ h => nomatch h
  | .compare _ _, bp, msgs, hok, hval, h => by rw [checkParts] at h; cases h; exact fun _ h => (List.not_mem_nil h).elim; exact fun _ _ h => nomatch h
  | .call _ _, bp, msgs, hok, hval, h => by rw [checkParts] at h; cases h; exact fun _ h => (List.not_mem_nil h).elim; exact fun _ _ h => nomatch h
  | .attr _ _, bp, msgs, hok, hval, h => by rw [checkParts] at h; cases h; exact fun _ h => (List.not_mem_nil h).elim; exact fun _ _ h => nomatch h
  | .subscript _ _, bp, msgs, hok, hval, h => by rw [checkParts] at h; cases h; exact fun _ h => (List.not_mem_nil h).elim; exact fun _ _ h => nomatch h
  | .ifExp _ _ _, bp, msgs, hok, hval, h => by rw [checkParts] at h; cases h; exact fun _ h => (List.not_mem_nil h).elim; exact fun _ _ h => nomatch h
  | .other _ _, bp, msgs, hok, hval, h => by rw [checkParts] at h; cases h; exact fun _ h => (List.not_mem_nil h).elim; exact fun _ _ h => nomatch h

theorem checkOperands_right (hu : ∀ t, unsat t = true → Unsat t) (valued : Bool) : ∀ (es : List Expr) (msgs : List Msg), OkAll es →
    (valued = true → ∀ x ∈ es, takesNumber (intSem R) isFloat x true = false) →
    checkOperands (intSem R) isFloat unsat len guess es = .ok msgs →
    ∀ m ∈ msgs, Right R isFloat valued m ∧ ∃ x ∈ es, Nested (match m with | .always n _ => n | .redundant n _ _ => n) x
  | [], msgs, hok, hval, h => by rw [checkOperands] at h; cases h; exact fun _ h => (List.not_mem_nil h).elim
  | e :: es, msgs, hok, hval, h => by
    intro m hm
    simp only [OkAll] at hok
    rw [checkOperands] at h
    split at h
    · cases h
    · rename_i ms hms
      split at h
      · cases h
      · rename_i ns hns
        cases h
        rcases List.mem_append.1 hm with hm | hm
        · obtain ⟨h1, h2⟩ := checkParts_right hu valued e true ms hok.1 (fun hv => .inr (hval hv e (by simp))) hms m hm
          exact ⟨h1, e, by simp, h2⟩
        · obtain ⟨h1, x, hx, h2⟩ := checkOperands_right hu valued es ns hok.2 (fun hv x hx => hval hv x (by simp [hx])) hns m hm
          exact ⟨h1, x, by simp [hx], h2⟩
end

/-- **C98**: what is reported about a condition is right. A part of it that is reported to be always true or false is, and a part that is
reported with a suggestion is equivalent to the suggestion, which is text with a meaning and consists of some but not all of its operands.
If the condition is not used for its truth value only, the suggestion has the same value and not just the same truth value.

Partial: all operands are taken to have truth values, `C98_guard_counterexample`, and what the solver takes for variables to be integers and
not floating point numbers; division is not by a negative constant (**C44**). The solver may give up, but is taken to be right if it says that
something is not satisfiable. -/
theorem C98_partial (hu : ∀ t, unsat t = true → Unsat t) {pure : Expr → Bool} {inBoolOp boolParent isOr : Bool} {values : List Expr}
    (hok : (Expr.boolOp isOr values).Ok) {msgs : List Msg}
    (h : visitBoolOp (intSem R) isFloat unsat len guess pure inBoolOp boolParent isOr values = .ok msgs) :
    (∀ n b, .always n b ∈ msgs → Nested n (.boolOp isOr values) ∧ ∃ o vs, n = .boolOp o vs ∧
      ∀ env, Fits R isFloat env o vs → truthOf (intSem R).toSem env n = .ok b) ∧
    (∀ n t s, .redundant n t s ∈ msgs → Nested n (.boolOp isOr values) ∧ ReadsAs 0 t n ∧ ∃ o vs left e', n = .boolOp o vs ∧
      List.Sublist left vs ∧ left.length < vs.length ∧ left ≠ [] ∧ ReadsAs 0 s e' ∧
      (∀ env, eval (intSem R).toSem env e' = eval (intSem R).toSem env (.boolOp o left)) ∧
      ∀ env, Fits R isFloat env o vs → truthOf (intSem R).toSem env e' = truthOf (intSem R).toSem env n ∧
        (boolParent = false → eval (intSem R).toSem env e' = eval (intSem R).toSem env n)) := by
  unfold visitBoolOp at h
  split at h
  · have key := checkParts_right hu (!boolParent) _ boolParent msgs hok (fun h => .inl (by simpa using h)) h
    refine ⟨fun n b hm => ?_, fun n t s hm => ?_⟩
    · obtain ⟨⟨o, vs, h1, h2⟩, h3⟩ := key _ hm
      exact ⟨h3, o, vs, h1, h2⟩
    · obtain ⟨⟨o, vs, left, e', h1, h2, h3, h4, h5, h6, h7, h8⟩, h9⟩ := key _ hm
      exact ⟨h9, h2, o, vs, left, e', h1, h3, h4, h5, h6, h7, fun env hf => ⟨(h8 env hf).1, fun hb => (h8 env hf).2 (by simpa using hb)⟩⟩
  · cases h
    exact ⟨(fun _ _ h => nomatch h), (fun _ _ _ h => nomatch h)⟩

/-- **C98**, comparisons that are not operands of `and` or `or`: one that is reported to be always true or false is. -/
theorem C98_compare_partial (hu : ∀ t, unsat t = true → Unsat t) {pure : Expr → Bool} {inBoolOp : Bool} {l : Expr} {ops : List (CmpOp × Expr)}
    {msgs : List Msg} (h : visitCompare (intSem R) isFloat unsat guess pure inBoolOp (.compare l ops) = .ok msgs) :
    (∀ n t s, .redundant n t s ∉ msgs) ∧ ∀ n b, .always n b ∈ msgs → n = .compare l ops ∧ ∀ env, Builtins env →
      InScope R isFloat (IntValued R env) n → ∀ c, truthOf (intSem R).toSem env n = .ok c → c = b := by
  unfold visitCompare at h
  split at h
  · cases h; exact ⟨(fun _ _ _ h => nomatch h), (fun _ _ h => nomatch h)⟩
  · split at h
    · cases h
    · cases h; exact ⟨(fun _ _ _ h => nomatch h), (fun _ _ h => nomatch h)⟩
    · rename_i vs hi
      split at h
      · cases h
      · cases h; exact ⟨(fun _ _ _ h => nomatch h), (fun _ _ h => nomatch h)⟩
      · rename_i t ht
        split at h
        · cases h; exact ⟨(fun _ _ _ h => nomatch h), (fun _ _ h => nomatch h)⟩
        · rename_i b hb
          cases h
          refine ⟨fun _ _ _ h => by simp at h, fun n b' hm => ?_⟩
          simp only [List.mem_singleton, Msg.always.injEq] at hm
          obtain ⟨rfl, rfl⟩ := hm
          refine ⟨rfl, fun env hB hs c hc => ?_⟩
          have h1 := C44_partial (zero := fun _ => 0) hB rfl (InScope.mono (fun x => agrees_valuation) _ hs) hi ht hc
          have h2 := always_some hu (zero := fun _ => 0) (σ := valuation R env) ⟨_, h1⟩ hb
          rw [h1] at h2
          simpa using h2

/-- The value of a condition as the solver understands it. -/
def SolverValue (R : FoldSem Val) (isFloat : Val → Bool) (vs : Vars) (zero : Int → Int) (σ : Expr → Int) (e : Expr) (b : Bool) : Prop :=
  ∃ t, convert (intSem R) isFloat vs e true = .ok (some t) ∧ t.eval zero σ = some (.bool b)

/-- An operand cannot be left out: what is left has another value for some values of the variables. -/
def Needed (R : FoldSem Val) (isFloat : Val → Bool) (vs : Vars) (isOr : Bool) (left : List Expr) : Prop :=
  ∀ l x r, left = l ++ x :: r → l ++ r ≠ [] → ∃ zero σ b, SolverValue R isFloat vs zero σ (.boolOp isOr left) b ∧
    SolverValue R isFloat vs zero σ (.boolOp isOr (l ++ r)) !b

theorem convertAll_parts {vs : Vars} : ∀ {ps : List Part}, (∀ p ∈ ps, convert (intSem R) isFloat vs p.node true = .ok (some p.term)) →
    convertAll (intSem R) isFloat vs (ps.map Part.node) = .ok (some (ps.map Part.term))
  | [], _ => rfl
  | p :: ps, h => by
    have := convertAll_parts (ps := ps) fun q hq => h q (by simp [hq])
    simp only [List.map_cons, convertAll, h p (by simp), this]

theorem solverValue_parts {vs : Vars} {zero : Int → Int} {σ : Expr → Int} {isOr : Bool} {ps : List Part}
    (h : ∀ p ∈ ps, convert (intSem R) isFloat vs p.node true = .ok (some p.term)) (hb : ∀ p ∈ ps, IsBool zero σ p.term) :
    SolverValue R isFloat vs zero σ (.boolOp isOr (ps.map Part.node)) (conn isOr (vals zero σ ps)) := by
  refine ⟨if isOr then .or (ps.map Part.term) else .and (ps.map Part.term), ?_, ?_⟩
  · rw [convert, convertAll_parts h]
  · have hts : ∀ t ∈ ps.map Part.term, IsBool zero σ t := by
      intro t ht
      obtain ⟨p, hp, rfl⟩ := List.mem_map.1 ht
      exact hb p hp
    cases isOr
    · simpa [vals, Function.comp_def] using eval_and hts
    · simpa [vals, Function.comp_def] using eval_or hts

theorem append_nodes {l r : List Expr} {x : Expr} : ∀ {ps : List Part}, ps.map Part.node = l ++ x :: r →
    ∃ l' x' r', ps = l' ++ x' :: r' ∧ l'.map Part.node = l ∧ x'.node = x ∧ r'.map Part.node = r := by
  intro ps h
  obtain ⟨l', q, rfl, h1, h2⟩ := List.map_eq_append_iff.1 h
  obtain ⟨x', r', rfl, h3, h4⟩ := List.map_eq_cons_iff.1 h2
  exact ⟨l', x', r', rfl, h1, h3, h4⟩

theorem conn_decided {isOr : Bool} {bs : List Bool} {b : Bool} (hb : b ∈ bs) (h : b = isOr) : conn isOr bs = isOr := by
  subst h
  cases b
  · simpa [conn] using hb
  · simpa [conn] using hb

theorem conn_undecided {isOr : Bool} {bs : List Bool} (h : ∀ b ∈ bs, b = !isOr) : conn isOr bs = !isOr := by
  cases isOr
  · simpa [conn] using h
  · simpa [conn] using h

/-- **C98**: nothing more can be left out. If the solver does not give up, none of the operands of a suggestion can be left out, and if
nothing is reported of a condition, none of its operands can.

Partial: this is the case for the condition as it is translated for the solver. -/
theorem C98_needed_partial (hu : ∀ t, unsat t = true ↔ Unsat t) {boolParent isOr : Bool} {values : List Expr} {vs : Vars} {ps : List Part}
    (hi : initVars (intSem R) isFloat guess false (.boolOp isOr values) false true [] = .ok (true, vs))
    (hc : convertParts (intSem R) isFloat vs boolParent values = .ok (some ps)) (hb : ∀ zero σ, ∀ p ∈ ps, IsBool zero σ p.term)
    {msgs : List Msg} (h : checkParts (intSem R) isFloat unsat len guess boolParent (.boolOp isOr values) = .ok msgs) :
    (∃ b, msgs = [.always (.boolOp isOr values) b]) ∨
    (∃ t left, msgs = [.redundant (.boolOp isOr values) t (joinText isOr left)] ∧ List.Sublist left values ∧ Needed R isFloat vs isOr left) ∨
    (checkOperands (intSem R) isFloat unsat len guess values = .ok msgs ∧ Needed R isFloat vs isOr values) := by
  rw [checkParts, hi] at h
  simp only [hc] at h
  obtain ⟨h1, h2⟩ := convertParts_some hc
  have hkey := redundantParts_key (unsat := unsat) (len := len) isOr ps
  have hsub := kept_nodes hkey
  have hlen : (kept (redundantParts unsat len isOr ps)).length = values.length → (kept (redundantParts unsat len isOr ps)).map Part.node = values := by
    intro hl
    rw [h1] at hsub
    exact hsub.eq_of_length (by simpa using hl)
  have hneed : Needed R isFloat vs isOr ((kept (redundantParts unsat len isOr ps)).map Part.node) := by
    intro l x r hl hne
    obtain ⟨l', x', r', hp, rfl, rfl, rfl⟩ := append_nodes hl
    have hne' : l' ++ r' ≠ [] := by
      intro h
      rw [← List.map_append, h] at hne
      exact hne rfl
    obtain ⟨zero, σ, hd⟩ := redundantParts_needed (fun t => (hu t).2) hb hp hne'
    have hconv : ∀ q ∈ kept (redundantParts unsat len isOr ps), convert (intSem R) isFloat vs q.node true = .ok (some q.term) := by
      intro q hq
      obtain ⟨p, hp, e1, e2⟩ := kept_mem hkey hq
      rw [← e1, ← e2]
      exact (h2 p hp).2.1
    have hbool : ∀ q ∈ kept (redundantParts unsat len isOr ps), IsBool zero σ q.term := by
      intro q hq
      obtain ⟨p, hp, e1, e2⟩ := kept_mem hkey hq
      rw [← e2]
      exact hb zero σ p hp
    rw [hp] at hconv hbool
    have hsub' : ∀ q ∈ l' ++ r', q ∈ l' ++ x' :: r' := by
      intro q hq
      simp only [List.mem_append, List.mem_cons] at hq ⊢
      rcases hq with h | h <;> simp [h]
    refine ⟨zero, σ, isOr, ?_, ?_⟩
    · have := solverValue_parts (isOr := isOr) hconv hbool
      rw [hp]
      have hx : holdsT zero σ x'.term ∈ vals zero σ (l' ++ x' :: r') := by simp [vals]
      rwa [conn_decided hx hd.1] at this
    · have := solverValue_parts (isOr := isOr) (ps := l' ++ r') (fun q hq => hconv q (hsub' q hq)) (fun q hq => hbool q (hsub' q hq))
      rw [List.map_append] at this
      rwa [conn_undecided fun q hq => ?_] at this
      obtain ⟨p, hp, rfl⟩ := List.mem_map.1 hq
      exact hd.2 p hp
  unfold report at h
  split at h
  · cases h; exact .inl ⟨_, rfl⟩
  · split at h
    · cases h; exact .inl ⟨_, rfl⟩
    · split at h
      · rename_i hl
        exact .inr (.inr ⟨h, hlen hl ▸ hneed⟩)
      · cases h
        exact .inr (.inl ⟨_, _, rfl, h1 ▸ hsub, hneed⟩)

/-- **C98**: of two operands, the suggestion is the one that decides: the shorter one, or the first, if they are equivalent, else for `and`
the one from which the other follows and for `or` the one that follows. -/
theorem C98_two {boolParent isOr : Bool} {a b : Expr} {vs : Vars} {ta tb : Term}
    (hi : initVars (intSem R) isFloat guess false (.boolOp isOr [a, b]) false true [] = .ok (true, vs))
    (hc : convertParts (intSem R) isFloat vs boolParent [a, b] = .ok (some [⟨a, ta, false⟩, ⟨b, tb, false⟩]))
    (ha : unsat ta = false) (ha' : unsat (.not ta) = false) (hb : unsat tb = false) (hb' : unsat (.not tb) = false)
    (hi' : unsat (.and [ta, .not tb]) = true ∨ unsat (.and [tb, .not ta]) = true) :
    checkParts (intSem R) isFloat unsat len guess boolParent (.boolOp isOr [a, b]) = .ok [.redundant (.boolOp isOr [a, b])
      (Expr.boolOp isOr [a, b]).text
      (if unsat (.and [ta, .not tb]) && unsat (.and [tb, .not ta]) then (if len b < len a then b.text else a.text)
        else if unsat (.and [ta, .not tb]) = isOr then b.text else a.text)] := by
  rw [checkParts, hi]
  simp only [hc]
  have h0 : constantParts unsat isOr [⟨a, ta, false⟩, ⟨b, tb, false⟩] = [⟨a, ta, false⟩, ⟨b, tb, false⟩] := by
    simp [constantParts, ha, ha', hb, hb']
  unfold redundantParts
  rw [h0]
  clear hi hc h0
  cases hf : unsat (.and [ta, .not tb]) <;> cases hg : unsat (.and [tb, .not ta]) <;> rw [hf, hg] at hi'
  · simp at hi'
  all_goals
    cases isOr <;> by_cases hl : len b < len a <;>
      simp [comparePairs, compareWith, implies, shouldRemove, further, kept, report, always, newCondition, joinText, sepBy, brackets, ha, ha', hb,
        hb', hf, hg, hl]

end

/-! ### Examples -/

section

/-- A solver that does not give up. -/
def Exact (unsat : Term → Bool) : Prop := ∀ t, unsat t = true ↔ Unsat t

theorem exact_exists : ∃ unsat, Exact unsat := ⟨fun t => @decide (Unsat t) (Classical.propDecidable _), fun t => by simp⟩

theorem Exact.sat {unsat : Term → Bool} (h : Exact unsat) {t : Term} (zero : Int → Int) (σ : Expr → Int) (ht : t.eval zero σ = some (.bool true)) :
    unsat t = false := by
  cases hu : unsat t with
  | false => rfl
  | true => exact absurd ht ((h t).1 hu zero σ)

theorem Exact.unsat {unsat : Term → Bool} (h : Exact unsat) {t : Term} (ht : ∀ zero σ, t.eval zero σ = some (.bool false)) : unsat t = true :=
  (h t).2 fun zero σ hc => by rw [ht zero σ] at hc; cases hc

def exGt (e : Expr) (n : Nat) : Expr := .compare e [(.gt, exInt n)]

/-- `x > 5 and x > 3` -/
def exBoth : List Expr := [exGt exX 5, exGt exX 3]

def exVar : Term := .var false exX

theorem exBoth_init : initVars (intSem noRest) (fun _ => false) intGuess false (.boolOp false exBoth) false true [] = .ok (true, [(exX, false)]) := by
  decide +kernel

theorem exBoth_parts : convertParts (intSem noRest) (fun _ => false) [(exX, false)] false exBoth =
    .ok (some [⟨exGt exX 5, .cmp .gt exVar (.int 5), false⟩, ⟨exGt exX 3, .cmp .gt exVar (.int 3), false⟩]) := rfl

/-- `x > 5` is suggested for `x > 5 and x > 3`. -/
theorem exBoth_reported {unsat : Term → Bool} (hu : Exact unsat) (len : Expr → Nat) :
    visitBoolOp (intSem noRest) (fun _ => false) unsat len intGuess (fun _ => true) false false false exBoth =
      .ok [.redundant (.boolOp false exBoth) (Expr.boolOp false exBoth).text (exGt exX 5).text] := by
  have h1 : unsat (.and [.cmp .gt exVar (.int 5), .not (.cmp .gt exVar (.int 3))]) = true := by
    refine hu.unsat fun zero σ => ?_
    simp [Term.eval, Term.evalAll, exVar, TV.int?, TV.bool?, intCmp]
    omega
  have h2 : unsat (.and [.cmp .gt exVar (.int 3), .not (.cmp .gt exVar (.int 5))]) = false :=
    hu.sat (fun _ => 0) (fun _ => 4) (by decide +kernel)
  have := C98_two (len := len) (unsat := unsat) exBoth_init exBoth_parts (hu.sat (fun _ => 0) (fun _ => 6) (by decide +kernel))
    (hu.sat (fun _ => 0) (fun _ => 0) (by decide +kernel)) (hu.sat (fun _ => 0) (fun _ => 6) (by decide +kernel))
    (hu.sat (fun _ => 0) (fun _ => 0) (by decide +kernel)) (.inl h1)
  rw [h1, h2] at this
  exact this

/-- The hypotheses of **C98** hold of it, with `x = 7`, and it is equivalent to the suggestion then. -/
example : (Expr.boolOp false exBoth).Ok ∧ Fits noRest (fun _ => false) sevenEnv false exBoth ∧
    truthOf (intSem noRest).toSem sevenEnv (.boolOp false exBoth) = .ok true ∧
    ∀ zero σ, ∀ p ∈ [(⟨exGt exX 5, .cmp .gt exVar (.int 5), false⟩ : Part), ⟨exGt exX 3, .cmp .gt exVar (.int 3), false⟩], IsBool zero σ p.term := by
  refine ⟨by simp [Expr.Ok, OkAll, exBoth, exGt, exX, exInt, OkOps], ⟨seven_builtins, ?_, ?_⟩, by decide +kernel, ?_⟩
  · have hx : IntValued noRest sevenEnv exX := by
      intro v hv
      have : v = .int 7 := by
        simp only [exX, eval, sevenEnv, if_true] at hv
        cases hv; rfl
      subst this
      simp [Val.asInt]
    simp only [InScope, InScopeAll, InScopeOps, exBoth, exGt, exX, exInt]
    simp
    exact hx
  · intro x hx
    simp only [exBoth, List.mem_cons, List.not_mem_nil, or_false] at hx
    rcases hx with rfl | rfl
    · exact ⟨true, by decide +kernel⟩
    · exact ⟨true, by decide +kernel⟩
  · intro zero σ p hp
    simp only [List.mem_cons, List.not_mem_nil, or_false] at hp
    rcases hp with rfl | rfl <;> exact ⟨_, rfl⟩

/-- `x > 3 and x < 2` is always false, and `x - x == 0` always true. -/
example {unsat : Term → Bool} (hu : Exact unsat) (len : Expr → Nat) :
    checkParts (intSem noRest) (fun _ => false) unsat len intGuess false (.boolOp false [exGt exX 3, .compare exX [(.lt, exInt 2)]]) =
      .ok [.always (.boolOp false [exGt exX 3, .compare exX [(.lt, exInt 2)]]) false] ∧
    visitCompare (intSem noRest) (fun _ => false) unsat intGuess (fun _ => true) false (.compare (.bin .sub exX exX) [(.eq, exInt 0)]) =
      .ok [.always (.compare (.bin .sub exX exX) [(.eq, exInt 0)]) true] := by
  have hi : initVars (intSem noRest) (fun _ => false) intGuess false (.boolOp false [exGt exX 3, .compare exX [(.lt, exInt 2)]]) false true [] =
    .ok (true, [(exX, false)]) := by decide +kernel
  have hc : convertParts (intSem noRest) (fun _ => false) [(exX, false)] false [exGt exX 3, .compare exX [(.lt, exInt 2)]] =
    .ok (some [⟨exGt exX 3, .cmp .gt exVar (.int 3), false⟩, ⟨.compare exX [(.lt, exInt 2)], .cmp .lt exVar (.int 2), false⟩]) := rfl
  have hi' : initVars (intSem noRest) (fun _ => false) intGuess false (.compare (.bin .sub exX exX) [(.eq, exInt 0)]) false true [] =
    .ok (true, [(exX, false)]) := by decide +kernel
  have hc' : convert (intSem noRest) (fun _ => false) [(exX, false)] (.compare (.bin .sub exX exX) [(.eq, exInt 0)]) true =
    .ok (some (.cmp .eq (.sub exVar exVar) (.int 0))) := rfl
  constructor
  · have h1 : unsat (.not (.cmp .gt exVar (.int 3))) = false := hu.sat (fun _ => 0) (fun _ => 0) (by decide +kernel)
    have h2 : unsat (.not (.cmp .lt exVar (.int 2))) = false := hu.sat (fun _ => 0) (fun _ => 4) (by decide +kernel)
    have h3 : unsat (.and [.cmp .gt exVar (.int 3), .not (.cmp .lt exVar (.int 2))]) = false := hu.sat (fun _ => 0) (fun _ => 4) (by decide +kernel)
    have h4 : unsat (.and [.cmp .lt exVar (.int 2), .not (.cmp .gt exVar (.int 3))]) = false := hu.sat (fun _ => 0) (fun _ => 0) (by decide +kernel)
    have h5 : unsat (.and [.and [.cmp .gt exVar (.int 3)], .not (.cmp .lt exVar (.int 2))]) = false :=
      hu.sat (fun _ => 0) (fun _ => 4) (by decide +kernel)
    have h6 : unsat (.and [.and [.cmp .lt exVar (.int 2)], .not (.cmp .gt exVar (.int 3))]) = false :=
      hu.sat (fun _ => 0) (fun _ => 0) (by decide +kernel)
    have h7 : unsat (.and [.cmp .gt exVar (.int 3), .cmp .lt exVar (.int 2)]) = true := by
      refine hu.unsat fun zero σ => ?_
      simp [Term.eval, Term.evalAll, exVar, TV.int?, TV.bool?, intCmp]
      omega
    rw [checkParts, hi]
    simp only [hc]
    simp [redundantParts, constantParts, comparePairs, compareWith, implies, shouldRemove, further, kept, isRedundant, report, always, newCondition,
      h1, h2, h3, h4, h5, h6, h7]
  · have h1 : unsat (.cmp .eq (.sub exVar exVar) (.int 0)) = false := hu.sat (fun _ => 0) (fun _ => 0) (by decide +kernel)
    have h2 : unsat (.not (.cmp .eq (.sub exVar exVar) (.int 0))) = true := by
      refine hu.unsat fun zero σ => ?_
      simp [Term.eval, exVar, TV.int?, TV.bool?, intCmp]
    unfold visitCompare
    simp [hi', hc', always, h1, h2]

def exY : Expr := .name "y".toList

/-- `y != 0 and x // y > 1 and y > 0` -/
def exGuard : List Expr := [.compare exY [(.ne, exInt 0)], exGt (.bin .floordiv exX exY) 1, exGt exY 0]

/-- `x` is 7 and `y` is 0. -/
def zeroEnv : Env Val := fun x => if x = "x".toList then .ok (.int 7) else if x = "y".toList then .ok (.int 0) else .ok (.builtin x)

/-- **C98** is false of conditions with operands that others guard: `x // y > 1 and y > 0` is suggested for
`y != 0 and x // y > 1 and y > 0`, and raises an exception if `y` is zero, when the condition is false. -/
theorem C98_guard_counterexample {unsat : Term → Bool} (hu : Exact unsat) (len : Expr → Nat) :
    visitBoolOp (intSem noRest) (fun _ => false) unsat len intGuess (BoolOps.isPure (fun _ => false) (fun _ => false)) false true false exGuard =
      .ok [.redundant (.boolOp false exGuard) (Expr.boolOp false exGuard).text (Expr.boolOp false (exGuard.drop 1)).text] ∧
    truthOf (intSem noRest).toSem zeroEnv (.boolOp false exGuard) = .ok false ∧
    truthOf (intSem noRest).toSem zeroEnv (.boolOp false (exGuard.drop 1)) = .error .zeroDivisionError := by
  refine ⟨?_, by decide +kernel, by decide +kernel⟩
  have hi : initVars (intSem noRest) (fun _ => false) intGuess false (.boolOp false exGuard) false true [] =
    .ok (true, [(exY, false), (.bin .floordiv exX exY, false)]) := by decide +kernel
  have hc : convertParts (intSem noRest) (fun _ => false) [(exY, false), (.bin .floordiv exX exY, false)] true exGuard =
    .ok (some [⟨.compare exY [(.ne, exInt 0)], .cmp .ne (.var false exY) (.int 0), false⟩,
      ⟨exGt (.bin .floordiv exX exY) 1, .cmp .gt (.var false (.bin .floordiv exX exY)) (.int 1), false⟩,
      ⟨exGt exY 0, .cmp .gt (.var false exY) (.int 0), false⟩]) := by rfl
  generalize hA : Term.cmp .ne (.var false exY) (.int 0) = A at hc
  generalize hB : Term.cmp .gt (.var false (.bin .floordiv exX exY)) (.int 1) = B at hc
  generalize hC : Term.cmp .gt (.var false exY) (.int 0) = C at hc
  have s : ∀ (a b : Int) t, t.eval (fun _ => 0) (fun e => if e = exY then a else b) = some (.bool true) → unsat t = false :=
    fun a b t h => hu.sat _ _ h
  have nA : unsat (.not A) = false := by subst hA; exact s 0 0 _ (by decide +kernel)
  have nB : unsat (.not B) = false := by subst hB; exact s 0 0 _ (by decide +kernel)
  have nC : unsat (.not C) = false := by subst hC; exact s 0 0 _ (by decide +kernel)
  have ab : unsat (.and [A, .not B]) = false := by subst hA hB; exact s 1 0 _ (by decide +kernel)
  have ba : unsat (.and [B, .not A]) = false := by subst hA hB; exact s 0 2 _ (by decide +kernel)
  have ac : unsat (.and [A, .not C]) = false := by subst hA hC; exact s (-1) 0 _ (by decide +kernel)
  have ca : unsat (.and [C, .not A]) = true := by
    subst hA hC
    refine hu.unsat fun zero σ => ?_
    simp [Term.eval, Term.evalAll, TV.int?, TV.bool?, intCmp]
    omega
  have bc : unsat (.and [B, .not C]) = false := by subst hB hC; exact s 0 2 _ (by decide +kernel)
  have cb : unsat (.and [C, .not B]) = false := by subst hB hC; exact s 1 0 _ (by decide +kernel)
  have bc' : unsat (.and [.and [B], .not C]) = false := by subst hB hC; exact s 0 2 _ (by decide +kernel)
  have cb' : unsat (.and [.and [C], .not B]) = false := by subst hB hC; exact s 1 0 _ (by decide +kernel)
  have pos : unsat (.and [B, C]) = false := by subst hB hC; exact s 1 2 _ (by decide +kernel)
  have neg : unsat (.not (.and [B, C])) = false := by subst hB hC; exact s 0 0 _ (by decide +kernel)
  have hp : exGuard.all (BoolOps.isPure (fun _ => false) fun _ => false) = true := by decide +kernel
  unfold visitBoolOp
  rw [hp, checkParts, hi]
  simp only [hc]
  simp [redundantParts, constantParts, comparePairs, compareWith, implies, shouldRemove, further, kept, isRedundant, report, always, newCondition,
    nA, nB, nC, ab, ba, ac, ca, bc, cb, bc', cb', pos, neg]
  rfl

end

end Verif.Py.BoolParts

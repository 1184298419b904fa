import Verif.Model.LocalDefects
import Verif.Lemmas.PyInt
import Verif.Props.ConstValue

/-! C34 and further properties of `edulint/linting/checkers/local_defects.py`. -/

namespace Verif.Py

variable (R : FoldSem Val)

/-! ### C34: the iteration count message is exact -/

/-- The message by the number of elements. -/
theorem classifyRange_spec {start stop step : Int} (h : step ≠ 0) :
    classifyRange start stop step =
      if (pyRange start stop step).length = 0 then some .no
      else if (pyRange start stop step).length = 1 then some .onlyOne else Option.none := by
  rw [length_pyRange]
  have h0 := lt_rangeLen (start := start) (stop := stop) h 0
  have h1 := lt_rangeLen (start := start) (stop := stop) h 1
  generalize rangeLen start stop step = n at *
  have e0 : n = 0 ↔ ¬ 0 < n := by omega
  have e1 : ¬ n = 0 → (n = 1 ↔ ¬ 1 < n) := by omega
  unfold classifyRange
  by_cases c0 : n = 0
  · rw [if_pos c0, if_pos]
    have := e0.1 c0
    rw [h0] at this
    simp at this
    omega
  · rw [if_neg c0, if_neg]
    · by_cases c1 : n = 1
      · rw [if_pos c1, if_pos]
        have := (e1 c0).1 c1
        rw [h1] at this
        simp at this
        omega
      · rw [if_neg c1, if_neg]
        have : 1 < n := by omega
        rw [h1] at this
        simp at this
        omega
    · have : 0 < n := by omega
      rw [h0] at this
      simp at this
      omega

theorem constInt_eval {e : Expr} {i : Int} (h : constInt R e = .ok (some i)) (env : Env Val) :
    ∃ v, eval (intSem R).toSem env e = .ok v ∧ v.asInt = some i := by
  unfold constInt at h
  cases hc : constValue (intSem R) e with
  | error x => simp [hc] at h
  | ok o =>
    cases o with
    | none => simp [hc] at h
    | some v =>
      simp only [hc] at h
      cases hv : v.asInt with
      | none => simp [hv] at h
      | some j =>
        simp only [hv, Except.ok.injEq, Option.some.injEq] at h
        subst h
        exact ⟨v, C33_value (intSem R) env e v hc, hv⟩

theorem builtins_range {env : Env Val} (hb : Builtins env) :
    env "range".toList = .ok (.builtin "range".toList) := hb _ (by simp)

/-- What a call of `range` evaluates to when its parameters evaluate to integers. -/
theorem eval_range {env : Env Val} (hb : Builtins env) {iter a b c : Expr}
    (hr : rangeParams iter = some (a, b, c)) {va vb vc : Val} {i j k : Int}
    (ha : eval (intSem R).toSem env a = .ok va) (hva : va.asInt = some i)
    (hb' : eval (intSem R).toSem env b = .ok vb) (hvb : vb.asInt = some j)
    (hc : eval (intSem R).toSem env c = .ok vc) (hvc : vc.asInt = some k) :
    eval (intSem R).toSem env iter =
      if k = 0 then .error .valueError else .ok (.range i j k) := by
  unfold rangeParams at hr
  split at hr
  · rename_i f args
    split at hr
    · rename_i hf
      subst hf
      have hcall : ∀ vs r, builtinCall "range".toList vs = some r →
          (intSem R).call (.builtin "range".toList) vs = r := fun vs r => intSem_call R
      split at hr
      · rename_i stop
        cases hr
        simp [eval] at ha hc
        subst ha; subst hc
        simp [Val.asInt] at hva hvc
        subst hva; subst hvc
        simp only [eval, builtins_range hb, evalAll, hb']
        rw [hcall _ (.ok (.range 0 j 1)) (by simp only [builtinCall, hvb]; rfl)]
        rfl
      · rename_i start stop
        cases hr
        simp [eval] at hc
        subst hc
        simp [Val.asInt] at hvc
        subst hvc
        simp only [eval, builtins_range hb, evalAll, hb', ha]
        rw [hcall _ (.ok (.range i j 1)) (by simp only [builtinCall, hvb, hva]; rfl)]
        rfl
      · rename_i start stop step
        cases hr
        simp only [eval, builtins_range hb, evalAll, hb', ha, hc]
        rw [hcall _ (if k = 0 then .error .valueError else .ok (.range i j k))
          (by simp only [builtinCall, hvb, hva, hvc]; rfl)]
      · cases hr
    · cases hr
  · cases hr

/-- **C34**, soundness: whenever a loop is reported, what it loops over is a range that has no elements
(exactly one element), in every environment in which `range` is the builtin. -/
theorem C34_sound (iter : Expr) (m : Iterations) (h : iterationCount R iter = .ok (some m))
    (env : Env Val) (hb : Builtins env) :
    ∃ start stop step, eval (intSem R).toSem env iter = .ok (.range start stop step) ∧
      (m = .no → pyRange start stop step = []) ∧
      (m = .onlyOne → ∃ x, pyRange start stop step = [x]) := by
  unfold iterationCount at h
  cases hr : rangeParams iter with
  | none => simp [hr] at h
  | some p =>
    obtain ⟨a, b, c⟩ := p
    simp only [hr] at h
    split at h <;> try cases h
    rename_i i j k ha hb' hc
    obtain ⟨va, ea, hva⟩ := constInt_eval R ha env
    obtain ⟨vb, eb, hvb⟩ := constInt_eval R hb' env
    obtain ⟨vc, ec, hvc⟩ := constInt_eval R hc env
    have hm : classifyRange i j k = some m := by simpa using h
    have hk : k ≠ 0 := by
      rintro rfl
      simp [classifyRange] at hm
    refine ⟨i, j, k, ?_, ?_, ?_⟩
    · rw [eval_range R hb hr ea hva eb hvb ec hvc, if_neg hk]
    · rintro rfl
      rw [classifyRange_spec hk] at hm
      by_cases h0 : (pyRange i j k).length = 0
      · exact List.eq_nil_of_length_eq_zero h0
      · rw [if_neg h0] at hm
        split at hm <;> cases hm
    · rintro rfl
      rw [classifyRange_spec hk] at hm
      by_cases h0 : (pyRange i j k).length = 0
      · rw [if_pos h0] at hm; cases hm
      · rw [if_neg h0] at hm
        by_cases h1 : (pyRange i j k).length = 1
        · exact List.length_eq_one_iff.1 h1
        · rw [if_neg h1] at hm; cases hm

/-- A parameter of a range that is integer arithmetic: folding finds its value. -/
theorem intArith_param (env : Env Val) {e : Expr} (h : IntArith e) :
    (∃ v i, eval (intSem R).toSem env e = .ok v ∧ v.asInt = some i ∧ constInt R e = .ok (some i)) ∨
      ∃ x, eval (intSem R).toSem env e = .error x := by
  rcases intArith_fold R env e h with ⟨v, hf, hi, he⟩ | ⟨_, he⟩
  · obtain ⟨i, hi⟩ := Option.isSome_iff_exists.1 hi
    exact .inl ⟨v, i, he, hi, by simp [constInt, constValue, hf, hi]⟩
  · exact .inr ⟨_, he⟩

/-- If a parameter of a range fails to evaluate, so does the range. -/
theorem eval_range_error {env : Env Val} {iter a b c : Expr} {v : Val}
    (hr : rangeParams iter = some (a, b, c)) (h : eval (intSem R).toSem env iter = .ok v) :
    (∀ x, eval (intSem R).toSem env a ≠ .error x) ∧ (∀ x, eval (intSem R).toSem env b ≠ .error x) ∧
      (∀ x, eval (intSem R).toSem env c ≠ .error x) := by
  unfold rangeParams at hr
  split at hr
  · rename_i f args
    split at hr
    · have hall : ∃ vs, evalAll (intSem R).toSem env args = .ok vs := by
        rw [eval] at h
        cases hf : eval (intSem R).toSem env (.name f) with
        | error x => simp [hf] at h
        | ok g =>
          cases hargs : evalAll (intSem R).toSem env args with
          | error x => simp [hf, hargs] at h
          | ok vs => exact ⟨vs, rfl⟩
      obtain ⟨vs, hvs⟩ := hall
      have hmem : ∀ (es : List Expr) vs, evalAll (intSem R).toSem env es = .ok vs →
          ∀ e ∈ es, ∀ x, eval (intSem R).toSem env e ≠ .error x := by
        intro es
        induction es with
        | nil => intro vs _ e he; cases he
        | cons e es ih =>
          intro vs hvs f hf x hx
          rw [evalAll] at hvs
          cases he : eval (intSem R).toSem env e with
          | error y => simp [he] at hvs
          | ok w =>
            cases hes : evalAll (intSem R).toSem env es with
            | error y => simp [he, hes] at hvs
            | ok ws =>
              rcases List.mem_cons.1 hf with rfl | hf
              · rw [he] at hx; cases hx
              · exact ih ws hes f hf x hx
      have hm := hmem args vs hvs
      split at hr
      · cases hr; exact ⟨by simp [eval], hm _ (by simp), by simp [eval]⟩
      · cases hr; exact ⟨hm _ (by simp), hm _ (by simp), by simp [eval]⟩
      · cases hr; exact ⟨hm _ (by simp), hm _ (by simp), hm _ (by simp)⟩
      · cases hr
    · cases hr
  · cases hr

/-- **C34**, exactness: for a loop over a range whose parameters are integer arithmetic, the message is
"no iterations" if the range has no elements, "only one iteration" if it has one, and there is no
message otherwise. -/
theorem C34_exact (iter a b c : Expr) (hr : rangeParams iter = some (a, b, c))
    (ha : IntArith a) (hb : IntArith b) (hc : IntArith c) (env : Env Val) (hbi : Builtins env)
    (start stop step : Int) (h : eval (intSem R).toSem env iter = .ok (.range start stop step)) :
    iterationCount R iter = .ok
      (if (pyRange start stop step).length = 0 then some .no
       else if (pyRange start stop step).length = 1 then some .onlyOne else Option.none) := by
  obtain ⟨na, nb, nc⟩ := eval_range_error R hr h
  rcases intArith_param R env ha with ⟨va, i, ea, hva, ca⟩ | ⟨x, hx⟩
  · rcases intArith_param R env hb with ⟨vb, j, eb, hvb, cb⟩ | ⟨x, hx⟩
    · rcases intArith_param R env hc with ⟨vc, k, ec, hvc, cc⟩ | ⟨x, hx⟩
      · rw [eval_range R hbi hr ea hva eb hvb ec hvc] at h
        by_cases hk : k = 0
        · simp [hk] at h
        · simp only [hk, if_false, Except.ok.injEq, Val.range.injEq] at h
          obtain ⟨rfl, rfl, rfl⟩ := h
          rw [← classifyRange_spec hk]
          simp [iterationCount, hr, ca, cb, cc]
      · exact absurd hx (nc x)
    · exact absurd hx (nb x)
  · exact absurd hx (na x)

/-- `for i in range(3, 1, -2)` has one iteration, and so is reported. -/
example : iterationCount R (.call (.name "range".toList)
    [.const (.int 3), .const (.int 1), .unary .neg (.const (.int 2))]) = .ok (some .onlyOne) := by
  rw [C34_exact R _ _ _ _ rfl (by simp [IntArith]) (by simp [IntArith]) (by simp [IntArith])
    (fun f => .ok (.builtin f)) (fun _ _ => rfl) 3 1 (-2) rfl]
  decide

end Verif.Py

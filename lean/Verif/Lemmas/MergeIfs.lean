import Verif.Model.MergeIfs
import Verif.Props.Z3Block

/-!
Running consecutive `if`s and the `if` they are merged into, and what the solver is asked about it.
-/

namespace Verif.Py.Blocks

/-! ### Running -/

section
variable {S : Sem Val} {iter : Val → Except PyErr (List Val)} {effect : Nat → Env Val → Except PyErr (Env Val)}
variable {other : Nat → Env Val → Except PyErr Flow}

theorem run_append : ∀ (a b : List Stmt) (env : Env Val),
    runBlock S iter effect other (.ofList (a ++ b)) env =
      match runBlock S iter effect other (.ofList a) env with
      | .error x => .error x
      | .ok .stop => .ok .stop
      | .ok (.go e) => runBlock S iter effect other (.ofList b) e
  | [], b, env => by simp [Block.ofList, runBlock]
  | s :: a, b, env => by
    simp only [List.cons_append, Block.ofList, runBlock]
    cases runStmt S iter effect other s env with
    | error x => rfl
    | ok fl =>
      cases fl with
      | stop => rfl
      | go e => exact run_append a b e

theorem run_append_go {a b : List Stmt} {env e : Env Val} (h : runBlock S iter effect other (.ofList a) env = .ok (.go e)) :
    runBlock S iter effect other (.ofList (a ++ b)) env = runBlock S iter effect other (.ofList b) e := by
  rw [run_append, h]

theorem run_append_ok {a b : List Stmt} {env e' : Env Val}
    (h : runBlock S iter effect other (.ofList (a ++ b)) env = .ok (.go e')) :
    ∃ e, runBlock S iter effect other (.ofList a) env = .ok (.go e) ∧
      runBlock S iter effect other (.ofList b) e = .ok (.go e') := by
  rw [run_append] at h
  cases ha : runBlock S iter effect other (.ofList a) env with
  | error x => rw [ha] at h; cases h
  | ok fl =>
    rw [ha] at h
    cases fl with
    | stop => cases h
    | go e => exact ⟨e, rfl, h⟩

variable (S) in
/-- All conditions are false. -/
def AllFalse (env : Env Val) (es : List Expr) : Prop := ∀ e ∈ es, truthOf S env e = .ok false

variable (S) in
/-- A condition is true and all before it are false. -/
def FirstTrue (env : Env Val) (es : List Expr) : Prop :=
  ∃ l₁ e l₂, es = l₁ ++ e :: l₂ ∧ AllFalse S env l₁ ∧ truthOf S env e = .ok true

theorem FirstTrue.cons {env : Env Val} {e : Expr} {es : List Expr} (he : truthOf S env e = .ok false)
    (h : FirstTrue S env es) : FirstTrue S env (e :: es) := by
  obtain ⟨l₁, d, l₂, rfl, h1, h2⟩ := h
  refine ⟨e :: l₁, d, l₂, rfl, fun x hx => ?_, h2⟩
  rcases List.mem_cons.mp hx with rfl | hx
  · exact he
  · exact h1 x hx

/-- Without an `else`, either all conditions are false and nothing is run, or the branch of the first that is true, whatever
branches come after. -/
theorem rest_cases : ∀ (r : Rest) (env : Env Val) (fl : Flow), r.hasElse = false →
    runRest S iter effect other r env = .ok fl →
    (AllFalse S env r.tests ∧ fl = .go env ∧
      ∀ r', runRest S iter effect other (r.append r') env = runRest S iter effect other r' env) ∨
    (FirstTrue S env r.tests ∧ ∀ r', runRest S iter effect other (r.append r') env = .ok fl)
  | .none, env, fl, _, h => by
    simp only [runRest, Except.ok.injEq] at h
    refine .inl ⟨?_, h.symm, fun r' => by simp [Rest.append]⟩
    intro e he
    simp [Rest.tests] at he
  | .else_ b, env, fl, he, _ => by simp [Rest.hasElse] at he
  | .elif_ t b r, env, fl, he, h => by
    simp only [Rest.hasElse] at he
    simp only [runRest] at h
    cases ht : truthOf S env t with
    | error x => rw [ht] at h; cases h
    | ok q =>
      rw [ht] at h
      cases q with
      | true =>
        refine .inr ⟨⟨[], t, r.tests, rfl, fun x hx => (nomatch hx), ht⟩, fun r' => ?_⟩
        simp only [Rest.append, runRest, ht]
        exact h
      | false =>
        rcases rest_cases r env fl he h with ⟨h1, h2, h3⟩ | ⟨h1, h2⟩
        · refine .inl ⟨fun x hx => ?_, h2, fun r' => ?_⟩
          · rcases List.mem_cons.mp hx with rfl | hx
            · exact ht
            · exact h1 x hx
          · simp only [Rest.append, runRest, ht]
            exact h3 r'
        · refine .inr ⟨h1.cons ht, fun r' => ?_⟩
          simp only [Rest.append, runRest, ht]
          exact h2 r'

theorem if_cases {i : If} {env : Env Val} {fl : Flow} (he : i.rest.hasElse = false)
    (h : runStmt S iter effect other i.stmt env = .ok fl) :
    (AllFalse S env i.tests ∧ fl = .go env ∧
      ∀ r, runRest S iter effect other (.elif_ i.test i.body (i.rest.append r)) env = runRest S iter effect other r env) ∨
    (FirstTrue S env i.tests ∧ ∀ r, runRest S iter effect other (.elif_ i.test i.body (i.rest.append r)) env = .ok fl) := by
  have h' : runRest S iter effect other (.elif_ i.test i.body i.rest) env = .ok fl := by
    simpa only [If.stmt, runStmt, runRest] using h
  have := rest_cases (.elif_ i.test i.body i.rest) env fl (by simpa [Rest.hasElse] using he) h'
  simpa only [Rest.append, If.tests, Rest.tests] using this

variable (S iter effect other) in
/-- Of no two `if`s are branches run, if all others from the first of the two to the second have no true condition. -/
def Apart (is : List If) (env : Env Val) : Prop :=
  ∀ pre i mid j post e, is = pre ++ i :: (mid ++ j :: post) → (∀ x ∈ pre, AllFalse S env x.tests) → FirstTrue S env i.tests →
    runStmt S iter effect other i.stmt env = .ok (.go e) → (∀ x ∈ mid, AllFalse S e x.tests) → ¬ FirstTrue S e j.tests

/-- Nothing is run if no condition is the first that is true. -/
theorem run_quiet : ∀ (is : List If) (env : Env Val) (fl : Flow), (∀ i ∈ is, i.rest.hasElse = false) →
    (∀ mid j post, is = mid ++ j :: post → (∀ x ∈ mid, AllFalse S env x.tests) → ¬ FirstTrue S env j.tests) →
    runBlock S iter effect other (.ofList (is.map If.stmt)) env = .ok fl → fl = .go env
  | [], env, fl, _, _, h => by
    simp only [List.map_nil, Block.ofList, runBlock, Except.ok.injEq] at h
    exact h.symm
  | i :: is, env, fl, he, hn, h => by
    simp only [List.map_cons, Block.ofList, runBlock] at h
    cases hs : runStmt S iter effect other i.stmt env with
    | error x => rw [hs] at h; cases h
    | ok fl1 =>
      rw [hs] at h
      rcases if_cases (he i (by simp)) hs with ⟨h1, rfl, _⟩ | ⟨h1, _⟩
      · refine run_quiet is env fl (fun x hx => he x (by simp [hx])) (fun mid j post heq hm => ?_) h
        refine hn (i :: mid) j post (by simp [heq]) fun x hx => ?_
        rcases List.mem_cons.mp hx with rfl | hx
        · exact h1
        · exact hm x hx
      · exact absurd h1 (hn [] i is rfl fun x hx => (nomatch hx))

/-- Where branches of at most one `if` are run, the merged `if` does the same. -/
theorem run_mergedRest : ∀ (is : List If) (env : Env Val) (fl : Flow), (∀ i ∈ is, i.rest.hasElse = false) →
    Apart S iter effect other is env →
    runBlock S iter effect other (.ofList (is.map If.stmt)) env = .ok fl →
    runRest S iter effect other (mergedRest is) env = .ok fl
  | [], env, fl, _, _, h => by
    simpa only [List.map_nil, Block.ofList, runBlock, mergedRest, runRest] using h
  | i :: is, env, fl, he, ha, h => by
    simp only [List.map_cons, Block.ofList, runBlock] at h
    simp only [mergedRest]
    cases hs : runStmt S iter effect other i.stmt env with
    | error x => rw [hs] at h; cases h
    | ok fl1 =>
      rw [hs] at h
      rcases if_cases (he i (by simp)) hs with ⟨h1, rfl, h2⟩ | ⟨h1, h2⟩
      · rw [h2]
        refine run_mergedRest is env fl (fun x hx => he x (by simp [hx])) (fun pre k mid j post e heq hp => ?_) h
        refine ha (i :: pre) k mid j post e (by simp [heq]) fun x hx => ?_
        rcases List.mem_cons.mp hx with rfl | hx
        · exact h1
        · exact hp x hx
      · rw [h2]
        cases fl1 with
        | stop => exact h
        | go e =>
          have := run_quiet is e fl (fun x hx => he x (by simp [hx])) (fun mid j post heq hm =>
            ha [] i mid j post e (by simp [heq]) (fun x hx => (nomatch hx)) h1 hs hm) h
          rw [this]

theorem run_merged {is : List If} {env : Env Val} {fl : Flow} (he : ∀ i ∈ is, i.rest.hasElse = false)
    (ha : Apart S iter effect other is env)
    (h : runBlock S iter effect other (.ofList (is.map If.stmt)) env = .ok fl) :
    runBlock S iter effect other (.ofList (merged is)) env = .ok fl := by
  have hr := run_mergedRest is env fl he ha h
  cases is with
  | nil => exact h
  | cons i is =>
    simp only [mergedRest, runRest] at hr
    simp only [merged, Block.ofList, runBlock, runStmt]
    rw [hr]
    cases fl <;> rfl

end

/-! ### Asking the solver -/

section
variable {unsat : Fm → Bool} (hu : ∀ f, unsat f = true → f.Unsat) {zero : Int → Int} {σ : Vals} {rels : Fm}

include hu in
theorem canMerge_sound (hr : rels.eval zero σ = true) {c₂ : List Fm} : ∀ (c₁ before : List Fm),
    canMerge unsat rels c₂ before c₁ = true → (∀ f ∈ before, f.eval zero σ = false) →
    ∀ l₁ f l₂, c₁ = l₁ ++ f :: l₂ → (∀ g ∈ l₁, g.eval zero σ = false) → f.eval zero σ = true →
    ∀ g ∈ c₂, g.eval zero σ = false
  | [], before, _, _, l₁, f, l₂, heq, _, _, g, _ => by simp at heq
  | c :: c₁, before, h, hb, l₁, f, l₂, heq, hl, hf, g, hg => by
    simp only [canMerge, Bool.and_eq_true] at h
    cases l₁ with
    | nil =>
      simp only [List.nil_append, List.cons.injEq] at heq
      obtain ⟨rfl, rfl⟩ := heq
      have hun := hu _ h.1 zero σ
      simp only [Fm.eval, hr, Bool.true_and, Bool.not_eq_false'] at hun
      obtain ⟨d, hd, hde⟩ := disj_eval.mp hun
      simp only [List.cons_append, List.mem_cons, List.mem_append, List.not_mem_nil, or_false] at hd
      rcases hd with rfl | hd | rfl
      · simp [Fm.eval, hf] at hde
      · rw [hb d hd] at hde; cases hde
      · exact nots_eval.mp hde g hg
    | cons a l₁ =>
      simp only [List.cons_append, List.cons.injEq] at heq
      obtain ⟨rfl, rfl⟩ := heq
      refine canMerge_sound hr _ (before ++ [c]) h.2 (fun d hd => ?_) l₁ f l₂ rfl (fun d hd => hl d (by simp [hd])) hf g hg
      rcases List.mem_append.mp hd with hd | hd
      · exact hb d hd
      · rw [List.mem_singleton.mp hd]
        exact hl c (by simp)

theorem countFrom_merges {d : List Fm} {post : List (List Fm)} : ∀ (mid : List (List Fm)) (m : List Fm),
    mid.length < countFrom unsat rels m (mid ++ d :: post) → canMerge unsat rels d [] (m ++ mid.flatten) = true
  | [], m, h => by
    simp only [List.nil_append, countFrom, List.length_nil] at h
    by_cases hc : canMerge unsat rels d [] m = true
    · simpa using hc
    · rw [if_neg hc] at h; omega
  | c :: mid, m, h => by
    simp only [List.cons_append, countFrom, List.length_cons] at h
    by_cases hc : canMerge unsat rels c [] m = true
    · rw [if_pos hc] at h
      have := countFrom_merges (d := d) (post := post) mid (m ++ c) (by omega)
      simpa using this
    · rw [if_neg hc] at h; omega

theorem count_merges {conds : List (List Fm)} {index : Nat} {pre : List (List Fm)} {c : List Fm} {mid : List (List Fm)}
    {d : List Fm} {post : List (List Fm)} (heq : conds.drop index = pre ++ c :: (mid ++ d :: post))
    (h : pre.length + mid.length + 1 < count unsat rels conds index) :
    canMerge unsat rels d [] (pre.flatten ++ (c ++ mid.flatten)) = true := by
  unfold count at h
  rw [heq] at h
  cases pre with
  | nil =>
    simp only [List.nil_append, List.length_nil] at h
    have := countFrom_merges (unsat := unsat) (rels := rels) (d := d) (post := post) mid c (by omega)
    simpa using this
  | cons p pre =>
    simp only [List.cons_append, List.length_cons] at h
    rw [show pre ++ c :: (mid ++ d :: post) = (pre ++ c :: mid) ++ d :: post by simp] at h
    have := countFrom_merges (unsat := unsat) (rels := rels) (d := d) (post := post) (pre ++ c :: mid) p (by
      simp only [List.length_append, List.length_cons]; omega)
    simpa using this

theorem countFrom_le : ∀ (cs : List (List Fm)) (m : List Fm), countFrom unsat rels m cs ≤ cs.length
  | [], m => by simp [countFrom]
  | c :: cs, m => by
    simp only [countFrom, List.length_cons]
    split
    · have := countFrom_le cs (m ++ c); omega
    · omega

end

/-! ### Conditions and their translations -/

section
variable {S : Sem Val} {zero : Int → Int} {σ : Vals}

variable (S zero σ) in
/-- The translations are true exactly if the conditions are. -/
def Means (env : Env Val) : List Expr → List Fm → Prop
  | [], [] => True
  | e :: es, f :: fs => (∀ b, truthOf S env e = .ok b → f.eval zero σ = b) ∧ Means env es fs
  | _, _ => False

theorem Means.all_false {env : Env Val} : ∀ {es : List Expr} {fs : List Fm}, Means S zero σ env es fs → AllFalse S env es →
    ∀ f ∈ fs, f.eval zero σ = false
  | [], [], _, _, f, hf => (nomatch hf)
  | e :: es, f :: fs, h, ha, g, hg => by
    rcases List.mem_cons.mp hg with rfl | hg
    · exact h.1 _ (ha e (by simp))
    · exact Means.all_false h.2 (fun x hx => ha x (by simp [hx])) g hg
  | [], _ :: _, h, _, _, _ => h.elim
  | _ :: _, [], h, _, _, _ => h.elim

theorem Means.first {env : Env Val} : ∀ {es : List Expr} {fs : List Fm}, Means S zero σ env es fs → FirstTrue S env es →
    ∃ l₁ f l₂, fs = l₁ ++ f :: l₂ ∧ (∀ g ∈ l₁, g.eval zero σ = false) ∧ f.eval zero σ = true
  | [], [], _, h => by obtain ⟨l₁, e, l₂, h, _⟩ := h; simp at h
  | e :: es, f :: fs, h, hf => by
    obtain ⟨l₁, d, l₂, heq, h1, h2⟩ := hf
    cases l₁ with
    | nil =>
      simp only [List.nil_append, List.cons.injEq] at heq
      obtain ⟨rfl, rfl⟩ := heq
      exact ⟨[], f, fs, rfl, fun x hx => (nomatch hx), h.1 _ h2⟩
    | cons a l₁ =>
      simp only [List.cons_append, List.cons.injEq] at heq
      obtain ⟨rfl, rfl⟩ := heq
      obtain ⟨m₁, g, m₂, rfl, g1, g2⟩ := Means.first h.2 ⟨l₁, d, l₂, rfl, fun x hx => h1 x (by simp [hx]), h2⟩
      refine ⟨f :: m₁, g, m₂, rfl, fun x hx => ?_, g2⟩
      rcases List.mem_cons.mp hx with rfl | hx
      · exact h.1 _ (h1 e (by simp))
      · exact g1 x hx
  | [], _ :: _, h, _ => h.elim
  | _ :: _, [], h, _ => h.elim

theorem Means.ext {cnt : Ver} {σ' : Vals} {env : Env Val} (he : Ext cnt σ σ') : ∀ {es : List Expr} {fs : List Fm},
    Means S zero σ env es fs → BelowAll zero cnt fs → Means S zero σ' env es fs
  | [], [], _, _ => trivial
  | e :: es, f :: fs, h, hb => by
    refine ⟨fun b hb' => ?_, Means.ext he h.2 fun g hg => hb g (by simp [hg])⟩
    rw [hb f (by simp) σ σ' he]
    exact h.1 b hb'
  | [], _ :: _, h, _ => h.elim
  | _ :: _, [], h, _ => h.elim

variable {unsat : Fm → Bool} (hu : ∀ f, unsat f = true → f.Unsat) {rels : Fm}

include hu in
/-- What is merged has no two true conditions. -/
theorem merge_apart (hr : rels.eval zero σ = true) {cpre cmid : List (List Fm)} {ci cj : List Fm}
    (h : canMerge unsat rels cj [] (cpre.flatten ++ (ci ++ cmid.flatten)) = true)
    (hpre : ∀ c ∈ cpre, ∀ f ∈ c, f.eval zero σ = false)
    (hi : ∃ l₁ f l₂, ci = l₁ ++ f :: l₂ ∧ (∀ g ∈ l₁, g.eval zero σ = false) ∧ f.eval zero σ = true)
    (hj : ∃ l₁ f l₂, cj = l₁ ++ f :: l₂ ∧ (∀ g ∈ l₁, g.eval zero σ = false) ∧ f.eval zero σ = true) : False := by
  obtain ⟨l₁, f, l₂, rfl, h1, h2⟩ := hi
  obtain ⟨m₁, g, m₂, rfl, _, h4⟩ := hj
  have := canMerge_sound hu hr _ [] h (fun x hx => (nomatch hx)) (cpre.flatten ++ l₁) f (l₂ ++ cmid.flatten) (by simp)
    (fun x hx => by
      rcases List.mem_append.mp hx with hx | hx
      · obtain ⟨c, hc, hx⟩ := List.mem_flatten.mp hx
        exact hpre c hc x hx
      · exact h1 x hx) h2 g (by simp)
  rw [h4] at this
  cases this

end

end Verif.Py.Blocks

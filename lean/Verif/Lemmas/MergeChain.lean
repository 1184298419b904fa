import Verif.Lemmas.MergeRun

/-!
Values for the solver's variables such that all that is known of consecutive `if`s holds, taken from a run of them.
-/

namespace Verif.Py.Blocks

section
variable {R : FoldSem Val} {isFloat : Val → Bool} {guess : Expr → Option Types} {pure : Expr → Bool}
variable {modified : List If → Expr → Bool} {mutableStmt : Stmt → Bool}
variable {iter : Val → Except PyErr (List Val)} {effect : Nat → Env Val → Except PyErr (Env Val)}
variable {other : Nat → Env Val → Except PyErr Flow} {zero : Int → Int}

/-- The variables that are assigned to. -/
def allTargets (is : List If) : List Str := is.flatMap fun i => i.stmt.targets

theorem admit_cons {is : List If} {v : Vars} {n : Nat} {r : Vars × Vars}
    (h : admit (intSem R) isFloat guess pure modified mutableStmt is v = .ok (n + 1, r)) :
    ∃ i is' v', is = i :: is' ∧ i.rest.hasElse = false ∧
      validateStmt (intSem R) isFloat guess pure (modified (i :: is')) mutableStmt i.stmt v = .ok (true, v') ∧
      admit (intSem R) isFloat guess pure modified mutableStmt is' v' = .ok (n, r) := by
  cases is with
  | nil => simp only [admit, Except.ok.injEq, Prod.mk.injEq] at h; omega
  | cons i is =>
    simp only [admit] at h
    by_cases he : i.rest.hasElse = true
    · rw [if_pos he] at h
      simp only [Except.ok.injEq, Prod.mk.injEq] at h
      omega
    · rw [if_neg he] at h
      cases hv : validateStmt (intSem R) isFloat guess pure (modified (i :: is)) mutableStmt i.stmt v with
      | error x => rw [hv] at h; cases h
      | ok p =>
        obtain ⟨q, v'⟩ := p
        rw [hv] at h
        cases q with
        | false => simp only [Except.ok.injEq, Prod.mk.injEq] at h; omega
        | true =>
          simp only at h
          cases ha : admit (intSem R) isFloat guess pure modified mutableStmt is v' with
          | error x => rw [ha] at h; cases h
          | ok p =>
            obtain ⟨m, s⟩ := p
            rw [ha] at h
            simp only [Except.ok.injEq, Prod.mk.injEq] at h
            obtain ⟨h1, rfl⟩ := h
            have : m = n := by omega
            subst this
            exact ⟨i, is, v', rfl, by simpa using he, hv, ha⟩

theorem admit_sub : ∀ (is : List If) (v : Vars) (n : Nat) (acc vs : Vars),
    admit (intSem R) isFloat guess pure modified mutableStmt is v = .ok (n, acc, vs) → v.Sub acc ∧ acc.Sub vs
  | [], v, n, acc, vs, h => by
    simp only [admit, Except.ok.injEq, Prod.mk.injEq] at h
    obtain ⟨_, rfl, rfl⟩ := h
    exact ⟨fun _ h => h, fun _ h => h⟩
  | i :: is, v, n, acc, vs, h => by
    simp only [admit] at h
    by_cases he : i.rest.hasElse = true
    · rw [if_pos he] at h
      simp only [Except.ok.injEq, Prod.mk.injEq] at h
      obtain ⟨_, rfl, rfl⟩ := h
      exact ⟨fun _ h => h, fun _ h => h⟩
    · rw [if_neg he] at h
      cases hv : validateStmt (intSem R) isFloat guess pure (modified (i :: is)) mutableStmt i.stmt v with
      | error x => rw [hv] at h; cases h
      | ok p =>
        obtain ⟨q, v'⟩ := p
        have hs := validateStmt_sub hv
        rw [hv] at h
        cases q with
        | false =>
          simp only [Except.ok.injEq, Prod.mk.injEq] at h
          obtain ⟨_, rfl, rfl⟩ := h
          exact ⟨fun _ h => h, hs⟩
        | true =>
          simp only at h
          cases ha : admit (intSem R) isFloat guess pure modified mutableStmt is v' with
          | error x => rw [ha] at h; cases h
          | ok p =>
            obtain ⟨m, a, w⟩ := p
            rw [ha] at h
            simp only [Except.ok.injEq, Prod.mk.injEq] at h
            obtain ⟨_, rfl, rfl⟩ := h
            obtain ⟨h1, h2⟩ := admit_sub is v' m a w ha
            exact ⟨hs.trans h1, h2⟩

theorem admit_le : ∀ (is : List If) (v : Vars) (n : Nat) (r : Vars × Vars),
    admit (intSem R) isFloat guess pure modified mutableStmt is v = .ok (n, r) →
    n ≤ is.length ∧ ∀ i ∈ is.take n, i.rest.hasElse = false
  | is, v, 0, r, _ => ⟨Nat.zero_le _, by simp⟩
  | is, v, n + 1, r, h => by
    obtain ⟨i, is', v', rfl, he, _, ha⟩ := admit_cons h
    obtain ⟨h1, h2⟩ := admit_le is' v' n r ha
    refine ⟨by simpa using h1, fun j hj => ?_⟩
    simp only [List.take_succ_cons, List.mem_cons] at hj
    rcases hj with rfl | hj
    · exact he
    · exact h2 j hj

theorem rest_tests {vs : Vars} {K : Expr → Prop} {T : List Str} : ∀ {r : Rest}, r.Fine R isFloat vs K zero T →
    ∀ e ∈ r.tests, CondSound R isFloat vs K zero e
  | .none, _, e, he => by simp [Rest.tests] at he
  | .else_ b, _, e, he => by simp [Rest.tests] at he
  | .elif_ t b r, h, e, he => by
    simp only [Rest.Fine] at h
    simp only [Rest.tests, List.mem_cons] at he
    rcases he with rfl | he
    · exact h.1
    · exact rest_tests h.2.2 e he

theorem if_tests {vs : Vars} {K : Expr → Prop} {T : List Str} {i : If} (h : i.stmt.Fine R isFloat vs K zero T) :
    ∀ e ∈ i.tests, CondSound R isFloat vs K zero e := by
  simp only [If.stmt, Stmt.Fine] at h
  intro e he
  simp only [If.tests, List.mem_cons] at he
  rcases he with rfl | he
  · exact h.1
  · exact rest_tests h.2.2 e he

theorem conditions_means {vs : Vars} {K : Expr → Prop} {ver cnt : Ver} {σ : Vals} {env : Env Val} (hv : ver.Le cnt)
    (hf : Fits R K ver σ env) (hB : Builtins env) : ∀ (es : List Expr) (fs : List Fm),
    (∀ e ∈ es, CondSound R isFloat vs K zero e) → conditions (intSem R) isFloat vs ver es = .ok (some fs) →
    Means (intSem R).toSem zero σ env es fs
  | [], fs, _, h => by
    simp only [conditions, Except.ok.injEq, Option.some.injEq] at h
    subst h
    trivial
  | e :: es, fs, hs, h => by
    simp only [conditions] at h
    obtain ⟨c, hc, h⟩ := andSome_ok h
    obtain ⟨cs, hcs, h⟩ := andSome_ok h
    simp only [Except.ok.injEq, Option.some.injEq] at h
    subst h
    exact ⟨fun b hb => hs e (by simp) ver c hc σ env b hf hB hb,
      conditions_means hv hf hB es cs (fun d hd => hs d (by simp [hd])) hcs⟩

theorem conditions_below {vs : Vars} {ver cnt : Ver} (hv : ver.Le cnt) : ∀ (es : List Expr) (fs : List Fm),
    conditions (intSem R) isFloat vs ver es = .ok (some fs) → BelowAll zero cnt fs
  | [], fs, h => by
    simp only [conditions, Except.ok.injEq, Option.some.injEq] at h
    subst h
    exact .nil
  | e :: es, fs, h => by
    simp only [conditions] at h
    obtain ⟨c, hc, h⟩ := andSome_ok h
    obtain ⟨cs, hcs, h⟩ := andSome_ok h
    simp only [Except.ok.injEq, Option.some.injEq] at h
    subst h
    intro f hf
    rcases List.mem_cons.mp hf with rfl | hf
    · exact condition_below hc hv
    · exact conditions_below hv es cs hcs f hf

variable (R iter effect other zero) in
/-- The conditions of the `if`s are true exactly if their translations are, as the `if`s are run. -/
def Traced (σ : Vals) : List If → List (List Fm) → Env Val → Prop
  | [], _, _ => True
  | i :: is, c :: cs, env => Means (intSem R).toSem zero σ env i.tests c ∧
      ∀ e, runStmt (intSem R).toSem iter effect other i.stmt env = .ok (.go e) → Traced σ is cs e
  | _ :: _, [], _ => False

variable (acc vs : Vars)

/-- The variables of the solver that matter once `v` are known: variables of the program, and what is known. -/
def Relevant (v : Vars) (k : Expr) : Prop := Known acc k ∧ ((∃ x, k = .name x) ∨ Known v k)

variable {acc vs}

section
variable (hm : ∀ is e, modified is e = false → ∀ x ∈ names e, x ∉ allTargets is)
variable (hp : Possible R (Known acc))

theorem Possible.mono {K K' : Expr → Prop} (h : Possible R K) (hk : ∀ k, K' k → K k) : Possible R K' := by
  obtain ⟨env, hB, hi⟩ := h
  exact ⟨env, hB, fun k hk' => hi k (hk k hk')⟩

include hm hp in
/-- What is known of an `if` that is admitted. -/
theorem stage_ok {i : If} {is : List If} {v v' : Vars}
    (hsub : v'.Sub acc) (hav : acc.Sub vs) (hkeep : ∀ k, Known v k → (∃ x, k = .name x) ∨ ∀ x ∈ names k, x ∉ allTargets (i :: is))
    (hv : validateStmt (intSem R) isFloat guess pure (modified (i :: is)) mutableStmt i.stmt v = .ok (true, v'))
    (hs : i.stmt.Scoped R isFloat) (hT : ∀ f ∈ ["ord".toList, "range".toList, "abs".toList], f ∉ allTargets (i :: is)) :
    (∀ k, Known v' k → (∃ x, k = .name x) ∨ ∀ x ∈ names k, x ∉ allTargets (i :: is)) ∧
    (∀ e ∈ i.tests, CondSound R isFloat vs (Relevant acc v') zero e) ∧
    BlockOk R isFloat vs (Relevant acc v') zero (allTargets (i :: is)) iter effect other (.cons i.stmt .nil) := by
  obtain ⟨h1, h2, h3⟩ := validateStmt_passed (T := allTargets (i :: is)) (zero := zero) (hm (i :: is)) hv
    (fun x hx => by simp only [allTargets, List.flatMap_cons, List.mem_append]; exact .inl hx)
  have hk : ∀ k, Known v' k → (∃ x, k = .name x) ∨ ∀ x ∈ names k, x ∉ allTargets (i :: is) := fun k hk => by
    rcases h2 k hk with h | h
    · exact hkeep k h
    · exact h
  have hfine := h3 vs (Relevant acc v') (fun k hk => ⟨hsub k hk, .inr hk⟩) (hp.mono fun k hk => hk.1) hs
  refine ⟨hk, if_tests hfine, ?_⟩
  refine block_ok iter effect other hT (fun k hk' => ?_) (fun k hk => hav k hk.1) _ (by simp only [Block.Fine]; exact ⟨hfine, trivial⟩)
  rcases hk'.2 with h | h
  · exact .inl h
  · exact hk k h

theorem stages_cons (i : If) {is : List If} (h : is ≠ []) :
    stages (i :: is) = ((i.tests, .cons i.stmt .nil) :: (stages is).1, (stages is).2) := by
  cases is with
  | nil => exact absurd rfl h
  | cons j is => rfl

theorem admit_ne {is : List If} {v : Vars} {n : Nat} {r : Vars × Vars}
    (h : admit (intSem R) isFloat guess pure modified mutableStmt is v = .ok (n + 1, r)) : is.take (n + 1) ≠ [] := by
  obtain ⟨i, is', v', rfl, _⟩ := admit_cons h
  simp

theorem allTargets_tail {i : If} {is : List If} {x : Str} (h : x ∉ allTargets (i :: is)) : x ∉ allTargets is := by
  simp only [allTargets, List.flatMap_cons, List.mem_append, not_or] at h
  exact h.2

variable {exits : Nat → Bool}

include iter effect other hm hp in
/-- If nothing is asserted, all that is known can be made to hold. -/
theorem chain_dead : ∀ (n : Nat) (is : List If) (v : Vars) (ver : Ver) (st : St) (conds : List (List Fm)) (st' : St),
    admit (intSem R) isFloat guess pure modified mutableStmt is v = .ok (n + 1, acc, vs) →
    (∀ k, Known v k → (∃ x, k = .name x) ∨ ∀ x ∈ names k, x ∉ allTargets is) →
    (∀ i ∈ is.take (n + 1), i.stmt.Scoped R isFloat) →
    (∀ f ∈ ["ord".toList, "range".toList, "abs".toList], f ∉ allTargets is) →
    convertChain (intSem R) isFloat vs (stages (is.take (n + 1))).1 (stages (is.take (n + 1))).2 ver st =
      .ok (some (conds, st')) →
    ver.Le st.cnt → BelowAll zero st.cnt st.rels → (∀ i ∈ is.take (n + 1), i.stmt.hasExit exits = false) →
    ∀ σ, Holds zero st.rels σ → ∃ σ', Ext st.cnt σ σ' ∧ Holds zero st'.rels σ'
  | 0, is, v, ver, st, conds, st', ha, _, _, _, h, _, _, _, σ, hσ => by
    obtain ⟨i, is', v', rfl, _, _, _⟩ := admit_cons ha
    simp only [Nat.zero_add, List.take_succ_cons, List.take_zero, stages, convertChain] at h
    obtain ⟨cs, _, h⟩ := andSome_ok h
    cases h
    exact ⟨σ, .refl _ _, hσ⟩
  | n + 1, is, v, ver, st, conds, st', ha, hkeep, hs, hT, h, hv, hb, hx, σ, hσ => by
    obtain ⟨i, is', v', rfl, _, hval, ha'⟩ := admit_cons ha
    obtain ⟨hsub, hav⟩ := admit_sub is' v' _ _ _ ha'
    simp only [List.take_succ_cons] at h hs hx
    obtain ⟨hk', _, hblk⟩ := stage_ok (zero := zero) (iter := iter) (effect := effect) (other := other) hm hp hsub hav hkeep hval
      (hs i (by simp)) hT
    rw [stages_cons i (by simpa only [List.take_succ_cons] using admit_ne ha')] at h
    simp only [convertChain] at h
    obtain ⟨cs, _, h⟩ := andSome_ok h
    obtain ⟨⟨o, st1⟩, ho, h⟩ := andSome_ok h
    have hsil := block_silent (exits := exits) (.cons i.stmt .nil) ver [] [] st (o, st1)
      (by simp [Block.hasExit, hx i (by simp)]) rfl ho
    obtain ⟨e1, e2, e3, e4⟩ := hblk ver st o st1 hv hb ho
    obtain ⟨env, hB, _⟩ := hp
    obtain ⟨σ1, s1, s2, _⟩ := e4 σ env hσ
    cases o with
    | ends => exact hsil.elim
    | goes ver' ch as =>
      simp only [Out.Silent] at hsil
      subst hsil
      simp only [List.append_nil] at h
      obtain ⟨⟨rs, st2⟩, hr, h⟩ := andSome_ok h
      cases h
      obtain ⟨σ2, t1, t2⟩ := chain_dead n is' v' ver' ⟨st1.cnt, st1.rels⟩ rs st2 ha'
        (fun k hk => (hk' k hk).imp id fun h x hx => allTargets_tail (h x hx)) (fun j hj => hs j (by simp [hj]))
        (fun f hf => allTargets_tail (hT f hf)) hr e3.1 e2 (fun j hj => hx j (by simp [hj])) σ1 s2
      exact ⟨σ2, s1.trans t1 e1, t2⟩

/-- Variables that are not assigned to are the same after a run of the `if`s. -/
theorem run_kept : ∀ (n : Nat) (is : List If) (v : Vars) (ver : Ver) (st : St) (conds : List (List Fm)) (st' : St),
    admit (intSem R) isFloat guess pure modified mutableStmt is v = .ok (n + 1, acc, vs) →
    convertChain (intSem R) isFloat vs (stages (is.take (n + 1))).1 (stages (is.take (n + 1))).2 ver st =
      .ok (some (conds, st')) →
    ∀ m ≤ n, ∀ env env', runBlock (intSem R).toSem iter effect other (.ofList ((is.take m).map If.stmt)) env = .ok (.go env') →
    Same (allTargets is) env env'
  | n, is, v, ver, st, conds, st', ha, h, 0, _, env, env', hr => by
    simp only [List.take_zero, List.map_nil, Block.ofList, runBlock, Except.ok.injEq, Flow.go.injEq] at hr
    subst hr
    exact fun _ _ => rfl
  | 0, is, v, ver, st, conds, st', ha, h, m + 1, hm', env, env', hr => by omega
  | n + 1, is, v, ver, st, conds, st', ha, h, m + 1, hm', env, env', hr => by
    obtain ⟨i, is', v', rfl, _, hval, ha'⟩ := admit_cons ha
    simp only [List.take_succ_cons] at h
    rw [stages_cons i (by simpa only [List.take_succ_cons] using admit_ne ha')] at h
    simp only [convertChain] at h
    obtain ⟨cs, _, h⟩ := andSome_ok h
    obtain ⟨⟨o, st1⟩, ho, h⟩ := andSome_ok h
    simp only [List.take_succ_cons, List.map_cons, Block.ofList, runBlock] at hr
    cases hri : runStmt (intSem R).toSem iter effect other i.stmt env with
    | error x => rw [hri] at hr; cases hr
    | ok fl =>
      rw [hri] at hr
      cases fl with
      | stop => cases hr
      | go e1 =>
        simp only at hr
        have hst : ∃ o', afterStmt (intSem R) isFloat vs i.stmt ver st = .ok (some o') := by
          simp only [afterBlock] at ho
          obtain ⟨o', ho', _⟩ := andSome_ok ho
          exact ⟨o', ho'⟩
        obtain ⟨o', ho'⟩ := hst
        have h1 : o'.1 ≠ .ends ∧ Same i.stmt.targets env e1 := by
          unfold validateStmt at hval
          by_cases hmu : mutableStmt i.stmt = true
          · rw [if_pos hmu] at hval; cases hval
          · rw [if_neg hmu] at hval
            simp only [If.stmt] at hval
            obtain ⟨v1, hv1, hval⟩ := andThen_ok hval
            obtain ⟨v2, hv2, _⟩ := andThen_ok hval
            exact if_same (block_same _) (rest_same _) hv1 hv2 ho' hri
        have h2 : Same (allTargets is') e1 env' := by
          cases o with
          | ends =>
            simp only at h
            obtain ⟨⟨rs, st2⟩, hr', _⟩ := andSome_ok h
            exact run_kept n is' v' _ _ rs st2 ha' hr' m (by omega) e1 env' hr
          | goes ver' ch as =>
            simp only at h
            obtain ⟨⟨rs, st2⟩, hr', _⟩ := andSome_ok h
            exact run_kept n is' v' _ _ rs st2 ha' hr' m (by omega) e1 env' hr
        refine (h1.2.mono fun x hx => ?_).trans (h2.mono fun x hx => ?_)
        · simp only [allTargets, List.flatMap_cons, List.mem_append]; exact .inl hx
        · simp only [allTargets, List.flatMap_cons, List.mem_append] at hx ⊢; exact .inr hx

theorem Traced.ext {σ σ' : Vals} {cnt : Ver} (he : Ext cnt σ σ') : ∀ {is : List If} {cs : List (List Fm)} {env : Env Val},
    Traced R iter effect other zero σ is cs env → (∀ c ∈ cs, BelowAll zero cnt c) → Traced R iter effect other zero σ' is cs env
  | [], _, _, _, _ => trivial
  | _ :: _, [], _, h, _ => h.elim
  | i :: is, c :: cs, env, h, hb => by
    exact ⟨h.1.ext he (hb c (by simp)), fun e hr => Traced.ext he (h.2 e hr) fun d hd => hb d (by simp [hd])⟩

include hm hp in
/-- Values for the solver's variables, from a run of some of the `if`s to the end: of all but the last, or nothing is asserted
in the others. -/
theorem chain_ok : ∀ (n : Nat) (is : List If) (v : Vars) (ver : Ver) (st : St) (conds : List (List Fm)) (st' : St),
    admit (intSem R) isFloat guess pure modified mutableStmt is v = .ok (n + 1, acc, vs) →
    (∀ k, Known v k → (∃ x, k = .name x) ∨ ∀ x ∈ names k, x ∉ allTargets is) →
    (∀ i ∈ is.take (n + 1), i.stmt.Scoped R isFloat) →
    (∀ f ∈ ["ord".toList, "range".toList, "abs".toList], f ∉ allTargets is) →
    convertChain (intSem R) isFloat vs (stages (is.take (n + 1))).1 (stages (is.take (n + 1))).2 ver st =
      .ok (some (conds, st')) →
    ver.Le st.cnt → BelowAll zero st.cnt st.rels → (∀ k, (∀ x, k ≠ .name x) → ver k = 0) →
    ∀ m ≤ n, (m = n ∨ ∀ i ∈ (is.take (n + 1)).drop m, i.stmt.hasExit exits = false) →
    ∀ σ env envL, Holds zero st.rels σ → Builtins env →
      (∀ x, Known acc (.name x) → Agrees R (at_ σ ver) env (.name x)) →
      (∀ k, Known acc k → (∀ x, k ≠ .name x) → Agrees R (fun k => σ k 0) envL k) →
      runBlock (intSem R).toSem iter effect other (.ofList ((is.take m).map If.stmt)) env = .ok (.go envL) →
    ∃ σ', Ext st.cnt σ σ' ∧ Holds zero st'.rels σ' ∧ Traced R iter effect other zero σ' (is.take (m + 1)) conds env := by
  intro n
  induction n with
  | zero =>
    intro is v ver st conds st' ha hkeep hs hT h hv hb hver m hmn hlast σ env envL hσ hB hnames hmade hr
    have hm0 : m = 0 := by omega
    subst hm0
    simp only [List.take_zero, List.map_nil, Block.ofList, runBlock, Except.ok.injEq, Flow.go.injEq] at hr
    subst hr
    obtain ⟨i, is', v', rfl, _, hval, ha'⟩ := admit_cons ha
    obtain ⟨hsub, hav⟩ := admit_sub is' v' _ _ _ ha'
    obtain ⟨hk', hc, _⟩ := stage_ok (zero := zero) (iter := iter) (effect := effect) (other := other) hm hp hsub hav hkeep hval
      (hs i (by simp)) hT
    simp only [Nat.zero_add, List.take_succ_cons, List.take_zero, stages, convertChain] at h
    obtain ⟨cs, hcs, h⟩ := andSome_ok h
    cases h
    have hfit : Fits R (Relevant acc v') ver σ env := by
      intro k hk
      by_cases hn : ∃ x, k = .name x
      · obtain ⟨x, rfl⟩ := hn
        exact hnames x hk.1
      · have hn : ∀ x, k ≠ .name x := fun x hx => hn ⟨x, hx⟩
        have := hmade k hk.1 hn
        intro w hw
        rw [this w hw]
        simp only [at_, hver k hn]
    refine ⟨σ, .refl _ _, hσ, ?_⟩
    simp only [Nat.zero_add, List.take_succ_cons, List.take_zero, Traced]
    exact ⟨conditions_means hv hfit hB _ _ hc hcs, fun _ _ => trivial⟩
  | succ n ih =>
    intro is v ver st conds st' ha hkeep hs hT h hv hb hver m hmn hlast σ env envL hσ hB hnames hmade hr
    have hkept := run_kept (iter := iter) (effect := effect) (other := other) (n + 1) is v ver st conds st' ha h m hmn env envL hr
    obtain ⟨i, is', v', rfl, _, hval, ha'⟩ := admit_cons ha
    obtain ⟨hsub, hav⟩ := admit_sub is' v' _ _ _ ha'
    simp only [List.take_succ_cons] at h hs
    obtain ⟨hk', hc, hblk⟩ := stage_ok (zero := zero) (iter := iter) (effect := effect) (other := other) hm hp hsub hav hkeep hval
      (hs i (by simp)) hT
    have hfit : Fits R (Relevant acc v') ver σ env := by
      intro k hk
      by_cases hn : ∃ x, k = .name x
      · obtain ⟨x, rfl⟩ := hn
        exact hnames x hk.1
      · have hk2 := hk.2.resolve_left hn
        have hnk := (hk' k hk2).resolve_left hn
        have hn : ∀ x, k ≠ .name x := fun x hx => hn ⟨x, hx⟩
        have := hmade k hk.1 hn
        intro w hw
        rw [eval_congr _ (env' := envL) k fun x hx => (hkept x (hnk x hx)).symm] at hw
        rw [this w hw]
        simp only [at_, hver k hn]
    rw [stages_cons i (by simpa only [List.take_succ_cons] using admit_ne ha')] at h
    simp only [convertChain] at h
    obtain ⟨cs, hcs, h⟩ := andSome_ok h
    obtain ⟨⟨o, st1⟩, ho, h⟩ := andSome_ok h
    have hmeans := conditions_means hv hfit hB _ _ hc hcs
    have hbelow := conditions_below (zero := zero) hv _ _ hcs
    obtain ⟨e1, e2, e3, e4⟩ := hblk ver st o st1 hv hb ho
    obtain ⟨σ1, s1, s2, s3⟩ := e4 σ env hσ
    have hkt : ∀ k, Known v' k → (∃ x, k = .name x) ∨ ∀ x ∈ names k, x ∉ allTargets is' :=
      fun k hk => (hk' k hk).imp id fun h x hx => allTargets_tail (h x hx)
    have hTt : ∀ f ∈ ["ord".toList, "range".toList, "abs".toList], f ∉ allTargets is' := fun f hf => allTargets_tail (hT f hf)
    cases m with
    | zero =>
      have hx : ∀ j ∈ (i :: is').take (n + 1 + 1), j.stmt.hasExit exits = false := by
        rcases hlast with h | h
        · omega
        · simpa using h
      simp only [List.take_succ_cons] at hx
      have hsil := block_silent (exits := exits) (.cons i.stmt .nil) ver [] [] st (o, st1)
        (by simp [Block.hasExit, hx i (by simp)]) rfl ho
      cases o with
      | ends => exact hsil.elim
      | goes ver' ch as =>
        simp only [Out.Silent] at hsil
        subst hsil
        simp only [List.append_nil] at h
        obtain ⟨⟨rs, st2⟩, hr', h⟩ := andSome_ok h
        cases h
        obtain ⟨σ2, t1, t2⟩ := chain_dead (zero := zero) (iter := iter) (effect := effect) (other := other) (exits := exits) hm hp
          n is' v' ver' ⟨st1.cnt, st1.rels⟩ rs st2 ha' hkt (fun j hj => hs j (by simp [hj])) hTt hr' e3.1 e2
          (fun j hj => hx j (by simp [hj])) σ1 s2
        refine ⟨σ2, s1.trans t1 e1, t2, ?_⟩
        simp only [Nat.zero_add, List.take_succ_cons, List.take_zero, Traced]
        exact ⟨(hmeans.ext s1 hbelow).ext t1 (hbelow.mono e1), fun _ _ => trivial⟩
    | succ m =>
      simp only [List.take_succ_cons, List.map_cons, Block.ofList, runBlock] at hr
      cases hri : runStmt (intSem R).toSem iter effect other i.stmt env with
      | error x => rw [hri] at hr; cases hr
      | ok fl =>
        rw [hri] at hr
        cases fl with
        | stop => cases hr
        | go env1 =>
          simp only at hr
          have hrb : runBlock (intSem R).toSem iter effect other (.cons i.stmt .nil) env = .ok (.go env1) := by
            simp only [runBlock, hri]
          obtain ⟨hsame, hout⟩ := s3 env1 hfit hB hrb
          have hB1 := hsame.builtins hT hB
          cases o with
          | ends => exact hout.elim
          | goes ver' ch as =>
            simp only at h
            obtain ⟨⟨rs, st2⟩, hr', h⟩ := andSome_ok h
            cases h
            obtain ⟨g1, g2, g3, g4⟩ := e3
            obtain ⟨σ2, t1, t2, t3⟩ := ih is' v' ver' ⟨st1.cnt, st1.rels ++ as⟩ rs st2 ha' hkt (fun j hj => hs j (by simp [hj]))
              hTt hr' g1 (e2.append g2)
              (fun k hk => by
                rw [g4 k fun hkc => ?_]
                · exact hver k hk
                · obtain ⟨x, _, rfl⟩ := g3 k hkc
                  exact hk x rfl)
              m (by omega)
              (by
                rcases hlast with h | h
                · exact .inl (by omega)
                · exact .inr fun j hj => h j (by simpa only [List.take_succ_cons, List.drop_succ_cons] using hj))
              σ1 env1 envL (s2.append hout.2) hB1 (fun x hx => hout.1 _ ⟨hx, .inl ⟨x, rfl⟩⟩)
              (fun k hk hn => by
                intro w hw
                rw [hmade k hk hn w hw]
                simp only
                rw [s1 k 0 (Nat.zero_le _)])
              hr
            refine ⟨σ2, s1.trans t1 e1, t2, ?_⟩
            simp only [List.take_succ_cons, Traced]
            refine ⟨(hmeans.ext s1 hbelow).ext t1 (hbelow.mono e1), fun e he => ?_⟩
            rw [hri] at he
            cases he
            simpa only [List.take_succ_cons] using t3

end

end

end Verif.Py.Blocks

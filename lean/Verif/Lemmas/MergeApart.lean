import Verif.Lemmas.MergeChain

/-!
Of the `if`s that are merged, no two have branches that are run.
-/

namespace Verif.Py.Blocks

section
variable {R : FoldSem Val} {isFloat : Val → Bool} {guess : Expr → Option Types} {pure : Expr → Bool}
variable {modified mayModify : List If → Expr → Bool} {mutableStmt : Stmt → Bool}
variable {iter : Val → Except PyErr (List Val)} {effect : Nat → Env Val → Except PyErr (Env Val)}
variable {other : Nat → Env Val → Except PyErr Flow} {zero : Int → Int}

/-! ### Runs -/

theorem rest_false {S : Sem Val} {env : Env Val} : ∀ (r : Rest), r.hasElse = false → AllFalse S env r.tests →
    runRest S iter effect other r env = .ok (.go env)
  | .none, _, _ => by simp only [runRest]
  | .else_ b, h, _ => by simp [Rest.hasElse] at h
  | .elif_ t b r, h, ha => by
    simp only [Rest.hasElse] at h
    simp only [runRest, ha t (by simp [Rest.tests])]
    exact rest_false r h fun e he => ha e (by simp [Rest.tests, he])

theorem if_false' {S : Sem Val} {env : Env Val} {i : If} (h : i.rest.hasElse = false) (ha : AllFalse S env i.tests) :
    runStmt S iter effect other i.stmt env = .ok (.go env) := by
  simp only [If.stmt, runStmt, ha i.test (by simp [If.tests])]
  exact rest_false _ h fun e he => ha e (by simp [If.tests, he])

theorem ifs_false {S : Sem Val} {env : Env Val} : ∀ (is : List If), (∀ i ∈ is, i.rest.hasElse = false) →
    (∀ i ∈ is, AllFalse S env i.tests) → runBlock S iter effect other (.ofList (is.map If.stmt)) env = .ok (.go env)
  | [], _, _ => by simp only [List.map_nil, Block.ofList, runBlock]
  | i :: is, he, ha => by
    simp only [List.map_cons, Block.ofList, runBlock, if_false' (he i (by simp)) (ha i (by simp))]
    exact ifs_false is (fun j hj => he j (by simp [hj])) fun j hj => ha j (by simp [hj])

theorem truthOf_congr {S : Sem Val} {env env' : Env Val} {e : Expr} (h : ∀ x ∈ names e, env x = env' x) :
    truthOf S env e = truthOf S env' e := by
  unfold truthOf
  rw [eval_congr (env := env) (env' := env') S e h]

/-! ### Conditions of several `if`s -/

variable (R zero) in
/-- The translations are true exactly if the conditions are, of several `if`s. -/
def MeansAll (σ : Vals) (env : Env Val) : List If → List (List Fm) → Prop
  | [], [] => True
  | i :: is, c :: cs => Means (intSem R).toSem zero σ env i.tests c ∧ MeansAll σ env is cs
  | _, _ => False

theorem MeansAll.all_false {σ : Vals} {env : Env Val} : ∀ {is : List If} {cs : List (List Fm)}, MeansAll R zero σ env is cs →
    (∀ i ∈ is, AllFalse (intSem R).toSem env i.tests) → ∀ c ∈ cs, ∀ f ∈ c, f.eval zero σ = false
  | [], [], _, _, c, hc => (nomatch hc)
  | i :: is, c :: cs, h, ha, d, hd => by
    rcases List.mem_cons.mp hd with rfl | hd
    · exact h.1.all_false (ha i (by simp))
    · exact MeansAll.all_false h.2 (fun j hj => ha j (by simp [hj])) d hd
  | [], _ :: _, h, _, _, _ => h.elim
  | _ :: _, [], h, _, _, _ => h.elim

theorem MeansAll.length {σ : Vals} {env : Env Val} : ∀ {is : List If} {cs : List (List Fm)}, MeansAll R zero σ env is cs →
    cs.length = is.length
  | [], [], _ => rfl
  | i :: is, c :: cs, h => by simp [MeansAll.length h.2]
  | [], _ :: _, h => h.elim
  | _ :: _, [], h => h.elim

theorem traced_skip {σ : Vals} : ∀ {a b : List If} {cs : List (List Fm)} {env e : Env Val},
    Traced R iter effect other zero σ (a ++ b) cs env →
    runBlock (intSem R).toSem iter effect other (.ofList (a.map If.stmt)) env = .ok (.go e) →
    Traced R iter effect other zero σ b (cs.drop a.length) e
  | [], b, cs, env, e, h, hr => by
    simp only [List.map_nil, Block.ofList, runBlock, Except.ok.injEq, Flow.go.injEq] at hr
    subst hr
    simpa using h
  | i :: a, b, [], env, e, h, hr => h.elim
  | i :: a, b, c :: cs, env, e, h, hr => by
    simp only [List.map_cons, Block.ofList, runBlock] at hr
    cases hs : runStmt (intSem R).toSem iter effect other i.stmt env with
    | error x => rw [hs] at hr; cases hr
    | ok fl =>
      rw [hs] at hr
      cases fl with
      | stop => cases hr
      | go e1 =>
        simp only [List.cons_append, Traced] at h
        simpa using traced_skip (h.2 e1 hs) hr

theorem traced_false {σ : Vals} {env : Env Val} : ∀ {a b : List If} {cs : List (List Fm)},
    Traced R iter effect other zero σ (a ++ b) cs env → (∀ i ∈ a, i.rest.hasElse = false) →
    (∀ i ∈ a, AllFalse (intSem R).toSem env i.tests) →
    ∃ ca cb, cs = ca ++ cb ∧ MeansAll R zero σ env a ca ∧ Traced R iter effect other zero σ b cb env
  | [], b, cs, h, _, _ => ⟨[], cs, rfl, trivial, h⟩
  | i :: a, b, [], h, _, _ => h.elim
  | i :: a, b, c :: cs, h, he, ha => by
    simp only [List.cons_append, Traced] at h
    obtain ⟨ca, cb, rfl, h1, h2⟩ := traced_false (h.2 env (if_false' (he i (by simp)) (ha i (by simp))))
      (fun j hj => he j (by simp [hj])) fun j hj => ha j (by simp [hj])
    exact ⟨c :: ca, cb, rfl, ⟨h.1, h1⟩, h2⟩

section
variable {unsat : Fm → Bool} (hu : ∀ f, unsat f = true → f.Unsat)

include hu in
/-- What is counted as mergeable has no two true conditions. -/
theorem counted_apart {rels : Fm} {conds : List (List Fm)} {idx : Nat} {σ : Vals} {env e : Env Val}
    {pre mid : List If} {i j : If} {cpre cmid : List (List Fm)} {ci cj : List Fm} {cpost : List (List Fm)}
    (hr : rels.eval zero σ = true) (heq : conds.drop idx = cpre ++ ci :: (cmid ++ cj :: cpost))
    (hpre : MeansAll R zero σ env pre cpre) (hi : Means (intSem R).toSem zero σ env i.tests ci)
    (hmid : MeansAll R zero σ e mid cmid) (hj : Means (intSem R).toSem zero σ e j.tests cj)
    (hc : pre.length + mid.length + 1 < count unsat rels conds idx)
    (h1 : ∀ x ∈ pre, AllFalse (intSem R).toSem env x.tests) (h2 : FirstTrue (intSem R).toSem env i.tests)
    (h4 : FirstTrue (intSem R).toSem e j.tests) : False := by
  have hm := count_merges (unsat := unsat) (rels := rels) heq (by rw [hpre.length, hmid.length]; exact hc)
  exact merge_apart hu hr hm (hpre.all_false h1) (hi.first h2) (hj.first h4)

include hu in
/-- The same along a run. -/
theorem traced_apart {rels : Fm} {conds : List (List Fm)} {idx : Nat} {σ : Vals} {env e : Env Val}
    {pre mid post : List If} {i j : If} (hr : rels.eval zero σ = true)
    (ht : Traced R iter effect other zero σ (pre ++ i :: (mid ++ j :: post)) (conds.drop idx) env)
    (he : ∀ x ∈ pre ++ i :: (mid ++ [j]), x.rest.hasElse = false)
    (hc : pre.length + mid.length + 1 < count unsat rels conds idx)
    (h1 : ∀ x ∈ pre, AllFalse (intSem R).toSem env x.tests) (h2 : FirstTrue (intSem R).toSem env i.tests)
    (hrun : runStmt (intSem R).toSem iter effect other i.stmt env = .ok (.go e))
    (h3 : ∀ x ∈ mid, AllFalse (intSem R).toSem e x.tests) (h4 : FirstTrue (intSem R).toSem e j.tests) : False := by
  obtain ⟨cpre, cs, heq, m1, ht⟩ := traced_false ht (fun x hx => he x (by simp [hx])) h1
  cases cs with
  | nil => exact ht.elim
  | cons ci cs =>
    simp only [Traced] at ht
    obtain ⟨m2, ht⟩ := ht
    obtain ⟨cmid, cs', rfl, m3, ht⟩ := traced_false (ht e hrun) (fun x hx => he x (by simp [hx])) h3
    cases cs' with
    | nil => exact ht.elim
    | cons cj cpost => exact counted_apart hu hr heq m1 m2 m3 ht.1 hc h1 h2 h4

end

theorem convertChain_length {vs : Vars} : ∀ {bs : List (List Expr × Block)} {last : List Expr} {ver : Ver} {st st' : St}
    {conds : List (List Fm)}, convertChain (intSem R) isFloat vs bs last ver st = .ok (some (conds, st')) →
    conds.length = bs.length + 1
  | [], last, ver, st, st', conds, h => by
    simp only [convertChain] at h
    obtain ⟨cs, _, h⟩ := andSome_ok h
    cases h
    rfl
  | (es, b) :: bs, last, ver, st, st', conds, h => by
    simp only [convertChain] at h
    obtain ⟨cs, _, h⟩ := andSome_ok h
    obtain ⟨⟨o, st1⟩, _, h⟩ := andSome_ok h
    cases o with
    | ends =>
      simp only at h
      obtain ⟨⟨rs, st2⟩, hr, h⟩ := andSome_ok h
      cases h
      simp [convertChain_length hr]
    | goes ver' ch as =>
      simp only at h
      obtain ⟨⟨rs, st2⟩, hr, h⟩ := andSome_ok h
      cases h
      simp [convertChain_length hr]

theorem stages_length : ∀ (is : List If), is ≠ [] → (stages is).1.length + 1 = is.length
  | [], h => absurd rfl h
  | [i], _ => rfl
  | i :: j :: is, _ => by
    have := stages_length (j :: is) (by simp)
    simp only [stages, List.length_cons] at this ⊢
    omega

/-! ### The first strategy -/

theorem mem_allTargets {is js : List If} (h : ∀ i ∈ js, i ∈ is) {x : Str} (hx : x ∉ allTargets is) : x ∉ allTargets js := by
  intro hj
  obtain ⟨i, hi, hxi⟩ := List.mem_flatMap.mp hj
  exact hx (List.mem_flatMap.mpr ⟨i, h i hi, hxi⟩)

/-- What is known if there are conditions at an index. -/
theorem blockConditions_some {is : List If} {rels : Fm} {conds : List (List Fm)}
    (h : blockConditions (intSem R) isFloat guess pure modified mutableStmt is = .ok (rels, conds)) (hne : conds ≠ []) :
    ∃ n acc vs st, admit (intSem R) isFloat guess pure modified mutableStmt is [] = .ok (n + 1, acc, vs) ∧
      convertChain (intSem R) isFloat vs (stages (is.take (n + 1))).1 (stages (is.take (n + 1))).2 (fun _ => 0) start =
        .ok (some (conds, st)) ∧ rels = conj st.rels ∧ conds.length = n + 1 := by
  unfold blockConditions at h
  cases ha : admit (intSem R) isFloat guess pure modified mutableStmt is [] with
  | error x => rw [ha] at h; cases h
  | ok p =>
    obtain ⟨n, acc, vs⟩ := p
    rw [ha] at h
    simp only at h
    by_cases hn : n ≤ 1
    · rw [if_pos hn] at h
      simp only [Except.ok.injEq, Prod.mk.injEq] at h
      exact absurd h.2.symm hne
    · rw [if_neg hn] at h
      obtain ⟨m, rfl⟩ : ∃ m, n = m + 1 := ⟨n - 1, by omega⟩
      cases hc : convertChain (intSem R) isFloat vs (stages (is.take (m + 1))).1 (stages (is.take (m + 1))).2 (fun _ => 0)
          start with
      | error x => rw [hc] at h; cases h
      | ok o =>
        rw [hc] at h
        cases o with
        | none =>
          simp only [Except.ok.injEq, Prod.mk.injEq] at h
          exact absurd h.2.symm hne
        | some r =>
          obtain ⟨cs, st⟩ := r
          simp only [Except.ok.injEq, Prod.mk.injEq] at h
          obtain ⟨rfl, rfl⟩ := h
          refine ⟨m, acc, vs, st, rfl, hc, rfl, ?_⟩
          rw [convertChain_length hc, stages_length _ (admit_ne ha)]
          have := (admit_le is [] _ _ ha).1
          simp only [List.length_take]
          omega

variable {exits : Nat → Bool}

/-- Values for the solver's variables from the run of some of the `if`s. -/
theorem blocks_traced {is : List If} {n m : Nat} {acc vs : Vars} {conds : List (List Fm)} {st : St} {env envL : Env Val}
    (hm : ∀ is e, modified is e = false → ∀ x ∈ names e, x ∉ allTargets is)
    (hT : ∀ f ∈ ["ord".toList, "range".toList, "abs".toList], f ∉ allTargets is)
    (ha : admit (intSem R) isFloat guess pure modified mutableStmt is [] = .ok (n + 1, acc, vs))
    (hc : convertChain (intSem R) isFloat vs (stages (is.take (n + 1))).1 (stages (is.take (n + 1))).2 (fun _ => 0) start =
        .ok (some (conds, st)))
    (hs : ∀ i ∈ is.take (n + 1), i.stmt.Scoped R isFloat) (hmn : m ≤ n)
    (hlast : m = n ∨ ∀ i ∈ (is.take (n + 1)).drop m, i.stmt.hasExit exits = false) (hB : Builtins env)
    (hint : ∀ k, Known acc k → IntValued R env k) (hintL : ∀ k, Known acc k → IntValued R envL k)
    (hr : runBlock (intSem R).toSem iter effect other (.ofList ((is.take m).map If.stmt)) env = .ok (.go envL)) :
    ∃ σ, Holds zero st.rels σ ∧ Traced R iter effect other zero σ (is.take (m + 1)) conds env := by
  obtain ⟨σ, _, h2, h3⟩ := chain_ok (zero := zero) (exits := exits) hm ⟨env, hB, hint⟩ n is [] (fun _ => 0) start conds st ha
    (fun k hk => absurd rfl hk) hs hT hc (fun _ => Nat.le_refl _) (by intro f hf; cases hf) (fun _ _ => rfl) m hmn hlast
    (fun k _ => match k with
      | .name x => valuation R env (.name x)
      | k => valuation R envL k) env envL (by intro f hf; cases hf) hB
    (fun x hx => agrees_valuation (hint _ hx))
    (fun k hk hn => by
      have := agrees_valuation (hintL k hk)
      intro v hv
      rw [this v hv]
      cases k with
      | name x => exact absurd rfl (hn x)
      | _ => rfl) hr
  exact ⟨σ, h2, h3⟩

/-! ### The second strategy -/

theorem initTests_ok {context : List If} : ∀ {es : List Expr} {v v' : Vars},
    initTests (intSem R) isFloat guess pure mayModify context es v = .ok (true, v') →
    v.Sub v' ∧ ∀ e ∈ es, mayModify context e = false ∧
      (InScope R isFloat (fun _ => True) e → ∀ K, (∀ k, Known v' k → K k) → Admitted R isFloat guess K e)
  | [], v, v', h => by
    simp only [initTests, Except.ok.injEq, Prod.mk.injEq, true_and] at h
    subst h
    exact ⟨fun _ h => h, fun _ he => (nomatch he)⟩
  | e :: es, v, v', h => by
    simp only [initTests] at h
    by_cases hc : (mayModify context e || !pure e) = true
    · rw [if_pos hc] at h; cases h
    · rw [if_neg hc] at h
      simp only [Bool.or_eq_true, not_or, Bool.not_eq_true] at hc
      obtain ⟨v1, h1, h2⟩ := andThen_ok h
      obtain ⟨s, hes⟩ := initTests_ok h2
      have s1 := initVars_sub e _ _ v v1 true h1
      refine ⟨s1.trans s, fun d hd => ?_⟩
      rcases List.mem_cons.mp hd with rfl | hd
      · exact ⟨hc.1, fun hs K hK => ⟨⟨_, _, _, h1⟩, InScope.mono (fun k hk => hK k (Known.mono s k hk)) d
          (initVars_scope d _ _ v v1 hs h1)⟩⟩
      · exact hes d hd

/-- What is known of the `if`s that were admitted. -/
theorem admitUnmodified_ok {ends : Nat → Bool} : ∀ {is : List If} {v : Vars} {n : Nat} {acc vs : Vars},
    admitUnmodified ends (intSem R) isFloat guess pure mayModify is v = .ok (n, acc, vs) →
    v.Sub acc ∧ n ≤ is.length ∧ ∀ p i, p < n → is[p]? = some i → i.rest.hasElse = false ∧
      ∀ e ∈ i.tests, mayModify (is.drop p).dropLast e = false ∧
        (InScope R isFloat (fun _ => True) e → Admitted R isFloat guess (Known acc) e)
  | [], v, n, acc, vs, h => by
    simp only [admitUnmodified, Except.ok.injEq, Prod.mk.injEq] at h
    obtain ⟨rfl, rfl, rfl⟩ := h
    exact ⟨fun _ h => h, Nat.le_refl _, fun p i hp => absurd hp (Nat.not_lt_zero _)⟩
  | i :: is, v, n, acc, vs, h => by
    simp only [admitUnmodified] at h
    by_cases he : (i.rest.hasElse || i.stmt.hasEnd ends) = true
    · rw [if_pos he] at h
      simp only [Except.ok.injEq, Prod.mk.injEq] at h
      obtain ⟨rfl, rfl, rfl⟩ := h
      exact ⟨fun _ h => h, Nat.zero_le _, fun p i hp => absurd hp (Nat.not_lt_zero _)⟩
    · rw [if_neg he] at h
      simp only [Bool.or_eq_true, not_or, Bool.not_eq_true] at he
      cases hi : initTests (intSem R) isFloat guess pure mayModify (i :: is).dropLast i.tests v with
      | error x => rw [hi] at h; cases h
      | ok q =>
        obtain ⟨b, v'⟩ := q
        rw [hi] at h
        cases b with
        | false =>
          simp only [Except.ok.injEq, Prod.mk.injEq] at h
          obtain ⟨rfl, rfl, rfl⟩ := h
          exact ⟨fun _ h => h, Nat.zero_le _, fun p i hp => absurd hp (Nat.not_lt_zero _)⟩
        | true =>
          simp only at h
          cases ha : admitUnmodified ends (intSem R) isFloat guess pure mayModify is v' with
          | error x => rw [ha] at h; cases h
          | ok q =>
            obtain ⟨m, a, w⟩ := q
            rw [ha] at h
            simp only [Except.ok.injEq, Prod.mk.injEq] at h
            obtain ⟨rfl, rfl, rfl⟩ := h
            obtain ⟨s1, h1⟩ := initTests_ok hi
            obtain ⟨s2, hl, h2⟩ := admitUnmodified_ok ha
            refine ⟨s1.trans s2, by simpa using hl, fun p j hp hj => ?_⟩
            cases p with
            | zero =>
              simp only [List.getElem?_cons_zero, Option.some.injEq] at hj
              subst hj
              exact ⟨he.1, fun e hem => ⟨(h1 e hem).1, fun hs => (h1 e hem).2 hs _ fun k hk => Known.mono s2 k hk⟩⟩
            | succ p =>
              simp only [List.getElem?_cons_succ] at hj
              exact h2 p j (by omega) hj

theorem convertTests_means {vs : Vars} {K : Expr → Prop} {σ : Vals} {env : Env Val}
    (hf : Fits R K (fun _ => 0) σ env) (hB : Builtins env) : ∀ {is : List If} {cs : List (List Fm)},
    (∀ i ∈ is, ∀ e ∈ i.tests, CondSound R isFloat vs K zero e) →
    convertTests (intSem R) isFloat vs is = .ok (some cs) → MeansAll R zero σ env is cs
  | [], cs, _, h => by
    simp only [convertTests, Except.ok.injEq, Option.some.injEq] at h
    subst h
    trivial
  | i :: is, cs, hs, h => by
    simp only [convertTests] at h
    obtain ⟨c, hc, h⟩ := andSome_ok h
    obtain ⟨cs', hcs, h⟩ := andSome_ok h
    simp only [Except.ok.injEq, Option.some.injEq] at h
    subst h
    exact ⟨conditions_means (cnt := fun _ => 0) (fun _ => Nat.le_refl _) hf hB _ _ (hs i (by simp)) hc,
      convertTests_means hf hB (fun j hj => hs j (by simp [hj])) hcs⟩

theorem convertTests_length {vs : Vars} : ∀ {is : List If} {cs : List (List Fm)},
    convertTests (intSem R) isFloat vs is = .ok (some cs) → cs.length = is.length
  | [], cs, h => by
    simp only [convertTests, Except.ok.injEq, Option.some.injEq] at h
    subst h
    rfl
  | i :: is, cs, h => by
    simp only [convertTests] at h
    obtain ⟨c, hc, h⟩ := andSome_ok h
    obtain ⟨cs', hcs, h⟩ := andSome_ok h
    simp only [Except.ok.injEq, Option.some.injEq] at h
    subst h
    simp [convertTests_length hcs]

theorem MeansAll.append {σ : Vals} {env : Env Val} : ∀ {a b : List If} {cs : List (List Fm)},
    MeansAll R zero σ env (a ++ b) cs → ∃ ca cb, cs = ca ++ cb ∧ MeansAll R zero σ env a ca ∧ MeansAll R zero σ env b cb
  | [], b, cs, h => ⟨[], cs, rfl, trivial, h⟩
  | i :: a, b, [], h => h.elim
  | i :: a, b, c :: cs, h => by
    simp only [List.cons_append, MeansAll] at h
    obtain ⟨ca, cb, rfl, h1, h2⟩ := MeansAll.append h.2
    exact ⟨c :: ca, cb, rfl, ⟨h.1, h1⟩, h2⟩

/-- The conditions have the same values elsewhere. -/
theorem Means.move {S : Sem Val} {σ : Vals} {env env' : Env Val} : ∀ {es : List Expr} {fs : List Fm},
    Means S zero σ env es fs → (∀ e ∈ es, ∀ x ∈ names e, env' x = env x) → Means S zero σ env' es fs
  | [], [], _, _ => trivial
  | e :: es, f :: fs, h, hx =>
    ⟨fun b hb => h.1 b (by rw [← truthOf_congr (hx e (by simp))]; exact hb), Means.move h.2 fun d hd => hx d (by simp [hd])⟩
  | [], _ :: _, h, _ => h.elim
  | _ :: _, [], h, _ => h.elim

theorem MeansAll.move {σ : Vals} {env env' : Env Val} : ∀ {is : List If} {cs : List (List Fm)}, MeansAll R zero σ env is cs →
    (∀ i ∈ is, ∀ e ∈ i.tests, ∀ x ∈ names e, env' x = env x) → MeansAll R zero σ env' is cs
  | [], [], _, _ => trivial
  | i :: is, c :: cs, h, hx => ⟨h.1.move (hx i (by simp)), MeansAll.move h.2 fun j hj => hx j (by simp [hj])⟩
  | [], _ :: _, h, _ => h.elim
  | _ :: _, [], h, _ => h.elim

end

end Verif.Py.Blocks

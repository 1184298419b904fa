import Verif.Lemmas.MergeApart

/-!
**C78**: consecutive `if`s reported as mergeable.
-/

namespace Verif.Py.Blocks

section
variable {R : FoldSem Val} {isFloat : Val → Bool} {guess : Expr → Option Types} {pure : Expr → Bool}
variable {modified mayModify : List If → Expr → Bool} {mutableStmt : Stmt → Bool} {unsat : Fm → Bool}
variable {iter : Val → Except PyErr (List Val)} {effect : Nat → Env Val → Except PyErr (Env Val)}
variable {other : Nat → Env Val → Except PyErr Flow} {ends exits : Nat → Bool}

/-! ### Where reports come from -/

variable (R isFloat guess pure modified mutableStmt unsat) in
/-- The `if`s were counted by the first strategy. -/
def FromBlocks (ifs : List If) (r : Report) : Prop :=
  ∃ s idx c, r.index = s + idx ∧ blockConditions (intSem R) isFloat guess pure modified mutableStmt (ifs.drop s) = .ok c ∧
    r.more + 1 = count unsat c.1 c.2 idx

variable (R isFloat guess pure mayModify ends unsat) in
/-- The `if`s were counted by the second strategy. -/
def FromUnmodified (ifs : List If) (r : Report) : Prop :=
  ∃ s idx c, r.index = s + idx ∧
    unmodifiedConditions ends (intSem R) isFloat guess pure mayModify (ifs.drop s) = .ok (some c) ∧
    r.more + 1 = count unsat .tt c idx

theorem reportFrom_source {ifs : List If} : ∀ (rounds i : Nat) (z : (Fm × List (List Fm)) × Nat) (u : List (List Fm) × Nat)
    (rs : List Report),
    (z.1.2.length ≤ z.2 ∨ ∃ s, i = s + z.2 ∧
      blockConditions (intSem R) isFloat guess pure modified mutableStmt (ifs.drop s) = .ok z.1) →
    (u.1.length ≤ u.2 ∨ ∃ s, i = s + u.2 ∧
      unmodifiedConditions ends (intSem R) isFloat guess pure mayModify (ifs.drop s) = .ok (some u.1)) →
    reportFrom ends (intSem R) isFloat guess pure modified mayModify mutableStmt unsat ifs rounds i z u = .ok rs →
    ∀ r ∈ rs, 1 ≤ r.more ∧ ((FromBlocks R isFloat guess pure modified mutableStmt unsat ifs r ∧
        r.modifying = testsModified mayModify ((ifs.drop r.index).take r.more)) ∨
      (FromUnmodified R isFloat guess pure mayModify unsat ends ifs r ∧ r.modifying = false))
  | 0, i, z, u, rs, _, _, h, r, hr => by
    simp only [reportFrom, Except.ok.injEq] at h
    subst h
    cases hr
  | rounds + 1, i, z, u, rs, hz, hu, h, r, hr => by
    simp only [reportFrom] at h
    by_cases hl : ifs.length ≤ i
    · rw [if_pos hl] at h
      simp only [Except.ok.injEq] at h
      subst h
      cases hr
    · rw [if_neg hl] at h
      cases h1 : nextBlocks (intSem R) isFloat guess pure modified mutableStmt ifs i z with
      | error x => rw [h1] at h; cases h
      | ok z' =>
        rw [h1] at h
        simp only at h
        have hz' : ∃ s, i = s + z'.2 ∧
            blockConditions (intSem R) isFloat guess pure modified mutableStmt (ifs.drop s) = .ok z'.1 := by
          unfold nextBlocks at h1
          by_cases hc : z.1.2.length ≤ z.2
          · rw [if_pos hc] at h1
            cases hb : blockConditions (intSem R) isFloat guess pure modified mutableStmt (ifs.drop i) with
            | error x => rw [hb] at h1; cases h1
            | ok c =>
              rw [hb] at h1
              simp only [Except.ok.injEq] at h1
              subst h1
              exact ⟨i, rfl, hb⟩
          · rw [if_neg hc] at h1
            simp only [Except.ok.injEq] at h1
            subst h1
            exact hz.resolve_left hc
        cases h2 : nextUnmodified ends (intSem R) isFloat guess pure mayModify ifs i u with
        | error x => rw [h2] at h; cases h
        | ok o =>
          rw [h2] at h
          cases o with
          | none =>
            simp only [Except.ok.injEq] at h
            subst h
            cases hr
          | some u' =>
            simp only at h
            have hu' : ∃ s, i = s + u'.2 ∧
                unmodifiedConditions ends (intSem R) isFloat guess pure mayModify (ifs.drop s) = .ok (some u'.1) := by
              unfold nextUnmodified at h2
              by_cases hc : u.1.length ≤ u.2
              · rw [if_pos hc] at h2
                cases hb : unmodifiedConditions ends (intSem R) isFloat guess pure mayModify (ifs.drop i) with
                | error x => rw [hb] at h2; cases h2
                | ok c =>
                  rw [hb] at h2
                  cases c with
                  | none => cases h2
                  | some c =>
                    simp only [Except.ok.injEq, Option.some.injEq] at h2
                    subst h2
                    exact ⟨i, rfl, hb⟩
              · rw [if_neg hc] at h2
                simp only [Except.ok.injEq, Option.some.injEq] at h2
                subst h2
                exact hu.resolve_left hc
            obtain ⟨s, hs, hzb⟩ := hz'
            obtain ⟨t, ht, hub⟩ := hu'
            have hzn : ∀ n, (z'.1, z'.2 + n).1.2.length ≤ (z'.1, z'.2 + n).2 ∨ ∃ s, i + n = s + (z'.1, z'.2 + n).2 ∧
                blockConditions (intSem R) isFloat guess pure modified mutableStmt (ifs.drop s) = .ok (z'.1, z'.2 + n).1 :=
              fun n => .inr ⟨s, by simp only; omega, hzb⟩
            have hun : ∀ n, (u'.1, u'.2 + n).1.length ≤ (u'.1, u'.2 + n).2 ∨ ∃ s, i + n = s + (u'.1, u'.2 + n).2 ∧
                unmodifiedConditions ends (intSem R) isFloat guess pure mayModify (ifs.drop s) =
                  .ok (some (u'.1, u'.2 + n).1) :=
              fun n => .inr ⟨t, by simp only; omega, hub⟩
            by_cases hn : count unsat .tt u'.1 u'.2 < count unsat z'.1.1 z'.1.2 z'.2
            · rw [if_pos hn] at h
              cases hrec : reportFrom ends (intSem R) isFloat guess pure modified mayModify mutableStmt unsat ifs rounds
                  (i + count unsat z'.1.1 z'.1.2 z'.2) (z'.1, z'.2 + count unsat z'.1.1 z'.1.2 z'.2)
                  (u'.1, u'.2 + count unsat z'.1.1 z'.1.2 z'.2) with
              | error x => rw [hrec] at h; cases h
              | ok rs' =>
                rw [hrec] at h
                simp only [Except.ok.injEq] at h
                subst h
                rcases List.mem_cons.mp hr with rfl | hr
                · have h1 : 1 ≤ count unsat .tt u'.1 u'.2 := by
                    unfold count
                    split <;> omega
                  refine ⟨by simp only; omega, .inl ⟨⟨s, z'.2, z'.1, hs, hzb, ?_⟩, rfl⟩⟩
                  simp only
                  omega
                · exact reportFrom_source rounds _ _ _ rs' (hzn _) (hun _) hrec r hr
            · rw [if_neg hn] at h
              cases hrec : reportFrom ends (intSem R) isFloat guess pure modified mayModify mutableStmt unsat ifs rounds
                  (i + count unsat .tt u'.1 u'.2) (z'.1, z'.2 + count unsat .tt u'.1 u'.2)
                  (u'.1, u'.2 + count unsat .tt u'.1 u'.2) with
              | error x => rw [hrec] at h; cases h
              | ok rs' =>
                rw [hrec] at h
                simp only [Except.ok.injEq] at h
                have ih := reportFrom_source rounds _ _ _ rs' (hzn _) (hun _) hrec r
                by_cases hm : 1 < count unsat .tt u'.1 u'.2
                · rw [if_pos hm] at h
                  subst h
                  rcases List.mem_cons.mp hr with rfl | hr
                  · refine ⟨by simp only; omega, .inr ⟨⟨t, u'.2, u'.1, ht, hub, ?_⟩, rfl⟩⟩
                    simp only
                    omega
                  · exact ih hr
                · rw [if_neg hm] at h
                  subst h
                  exact ih hr

/-! ### The two programs -/

section
variable {ifs : List If} {env : Env Val}

variable (R isFloat guess pure modified mayModify mutableStmt iter effect other ends ifs env) in
/-- What is asked of the program and of the start: what the solver takes for variables are integers between the `if`s, and the
builtin functions that matter are not replaced. -/
def Integers : Prop :=
  ∀ j e, runBlock (intSem R).toSem iter effect other (.ofList ((ifs.take j).map If.stmt)) env = .ok (.go e) →
    Builtins e ∧ ∀ s n acc vs,
      admit (intSem R) isFloat guess pure modified mutableStmt (ifs.drop s) [] = .ok (n, acc, vs) ∨
        admitUnmodified ends (intSem R) isFloat guess pure mayModify (ifs.drop s) [] = .ok (n, acc, vs) →
      ∀ k, acc.lookup k ≠ none → IntValued R e k

variable (R isFloat guess pure modified mutableStmt ifs) in
/-- Conditions are formulas in integers, and so are the values that are assigned in `if`s whose bodies are given to the
solver. -/
def ScopedIfs : Prop :=
  (∀ i ∈ ifs, ∀ e ∈ i.tests, InScope R isFloat (fun _ => True) e) ∧
    ∀ s n r, admit (intSem R) isFloat guess pure modified mutableStmt (ifs.drop s) [] = .ok (n, r) →
      ∀ i ∈ (ifs.drop s).take n, i.stmt.Scoped R isFloat

theorem run_take_split {i j : Nat} {e : Env Val} (hij : i ≤ j)
    (h : runBlock (intSem R).toSem iter effect other (.ofList ((ifs.take j).map If.stmt)) env = .ok (.go e)) :
    ∃ e', runBlock (intSem R).toSem iter effect other (.ofList ((ifs.take i).map If.stmt)) env = .ok (.go e') ∧
      runBlock (intSem R).toSem iter effect other (.ofList (((ifs.drop i).take (j - i)).map If.stmt)) e' = .ok (.go e) := by
  have : ifs.take j = ifs.take i ++ (ifs.drop i).take (j - i) := by
    rw [← List.take_add]; congr 1; omega
  rw [this, List.map_append] at h
  exact run_append_ok h

theorem run_take_join {i j : Nat} {e e' : Env Val}
    (h : runBlock (intSem R).toSem iter effect other (.ofList ((ifs.take i).map If.stmt)) env = .ok (.go e'))
    (h' : runBlock (intSem R).toSem iter effect other (.ofList (((ifs.drop i).take j).map If.stmt)) e' = .ok (.go e)) :
    runBlock (intSem R).toSem iter effect other (.ofList ((ifs.take (i + j)).map If.stmt)) env = .ok (.go e) := by
  rw [List.take_add, List.map_append, run_append_go h]
  exact h'

theorem run_parts {pre mid : List If} {i : If} {e e' : Env Val}
    (he : ∀ x ∈ pre ++ i :: mid, x.rest.hasElse = false)
    (h1 : ∀ x ∈ pre, AllFalse (intSem R).toSem e x.tests)
    (hrun : runStmt (intSem R).toSem iter effect other i.stmt e = .ok (.go e'))
    (h3 : ∀ x ∈ mid, AllFalse (intSem R).toSem e' x.tests) :
    runBlock (intSem R).toSem iter effect other (.ofList ((pre ++ i :: mid).map If.stmt)) e = .ok (.go e') := by
  rw [List.map_append, run_append_go (ifs_false pre (fun x hx => he x (by simp [hx])) h1)]
  simp only [List.map_cons, Block.ofList, runBlock, hrun]
  exact ifs_false mid (fun x hx => he x (by simp [hx])) h3

section
variable (hu : ∀ f, unsat f = true → f.Unsat)
variable (hm : ∀ is e, modified is e = false → ∀ x ∈ names e, x ∉ allTargets is)
variable (hmay : ∀ is e, mayModify is e = false → ∀ i ∈ is, ∀ env env',
  runStmt (intSem R).toSem iter effect other i.stmt env = .ok (.go env') → ∀ x ∈ names e, env' x = env x)
variable (hT : ∀ f ∈ ["ord".toList, "range".toList, "abs".toList], f ∉ allTargets ifs)
variable (hsc : ScopedIfs R isFloat guess pure modified mutableStmt ifs)
variable (hint : Integers R isFloat guess pure modified mayModify mutableStmt iter effect other ends ifs env)

include hu hm hT hsc hint in
/-- Merging what was counted by the first strategy. -/
theorem blocks_apart {r : Report} {e0 : Env Val} (hmore : 1 ≤ r.more)
    (h : FromBlocks R isFloat guess pure modified mutableStmt unsat ifs r)
    (hrun : runBlock (intSem R).toSem iter effect other (.ofList ((ifs.take r.index).map If.stmt)) env = .ok (.go e0))
    (hgo : (∃ env', runBlock (intSem R).toSem iter effect other (.ofList (ifs.map If.stmt)) env = .ok (.go env')) ∨
      ∀ i ∈ ifs, i.stmt.hasExit exits = false) :
    (∀ i ∈ (ifs.drop r.index).take (r.more + 1), i.rest.hasElse = false) ∧
      Apart (intSem R).toSem iter effect other ((ifs.drop r.index).take (r.more + 1)) e0 := by
  obtain ⟨s, idx, ⟨rels, conds⟩, hi, hb, hcount⟩ := h
  simp only at hcount
  have hne : idx + (r.more + 1) ≤ conds.length := by
    unfold count at hcount
    cases hd : conds.drop idx with
    | nil => rw [hd] at hcount; simp only at hcount; omega
    | cons c cs =>
      rw [hd] at hcount
      simp only at hcount
      have h1 := countFrom_le (unsat := unsat) (rels := rels) cs c
      have h2 := congrArg List.length hd
      simp only [List.length_drop, List.length_cons] at h2
      omega
  obtain ⟨n, acc, vs, st, ha, hc, rfl, hlen⟩ := blockConditions_some hb (by intro h; rw [h] at hne; simp at hne)
  obtain ⟨hle, helse⟩ := admit_le _ _ _ _ ha
  have hgroup : (ifs.drop r.index).take (r.more + 1) = ((ifs.drop s).drop idx).take (r.more + 1) := by
    rw [List.drop_drop, hi]
  have hsub : ∀ i ∈ (ifs.drop r.index).take (r.more + 1), i ∈ (ifs.drop s).take (n + 1) := by
    intro i hi'
    rw [hgroup] at hi'
    have : (ifs.drop s).take (n + 1) = (ifs.drop s).take idx ++ ((ifs.drop s).drop idx).take (n + 1 - idx) := by
      rw [← List.take_add]; congr 1; omega
    rw [this]
    refine List.mem_append_right _ ?_
    exact (List.take_prefix_take_left (by omega)).subset hi'
  refine ⟨fun i hi' => helse i (hsub i hi'), ?_⟩
  intro pre i mid j post e heq h1 h2 hrun' h3 h4
  have hlen' : pre.length + mid.length + post.length + 2 ≤ r.more + 1 := by
    have := congrArg List.length heq
    simp only [List.length_take, List.length_append, List.length_cons] at this
    omega
  obtain ⟨es, hes, hes'⟩ := run_take_split (show s ≤ r.index by omega) hrun
  have hidx : r.index - s = idx := by omega
  rw [hidx] at hes'
  have hea : ∀ x ∈ pre ++ i :: (mid ++ [j]), x.rest.hasElse = false := fun x hx => helse x (hsub x (by
    rw [heq]
    simp only [List.mem_append, List.mem_cons, List.not_mem_nil, or_false] at hx ⊢
    rcases hx with hx | hx | hx | hx
    · exact .inl hx
    · exact .inr (.inl hx)
    · exact .inr (.inr (.inl hx))
    · exact .inr (.inr (.inr (.inl hx)))))
  -- what is run up to the second of the two
  obtain ⟨rest, hrest⟩ : ∃ rest, (ifs.drop s).drop idx = pre ++ i :: (mid ++ j :: rest) := by
    have := List.take_append_drop (r.more + 1) ((ifs.drop s).drop idx)
    rw [← hgroup, heq] at this
    exact ⟨post ++ ((ifs.drop s).drop idx).drop (r.more + 1), this.symm.trans (by simp)⟩
  have htake : ∀ q, (ifs.drop s).take (idx + (pre.length + mid.length + 1) + q + 1) =
      (ifs.drop s).take idx ++ (pre ++ i :: (mid ++ j :: rest.take q)) := by
    intro q
    rw [show idx + (pre.length + mid.length + 1) + q + 1 = idx + ((pre ++ i :: (mid ++ [j])).length + q) by
      simp only [List.length_append, List.length_cons, List.length_nil]; omega]
    rw [List.take_add, hrest, show pre ++ i :: (mid ++ j :: rest) = (pre ++ i :: (mid ++ [j])) ++ rest by simp,
      List.take_length_add_append]
    simp
  obtain ⟨q, σ, hσ, htr⟩ : ∃ q σ, Holds (fun _ => 0) st.rels σ ∧ Traced R iter effect other (fun _ => 0) σ
      ((ifs.drop s).take (idx + (pre.length + mid.length + 1) + q + 1)) conds es := by
    have hTs : ∀ f ∈ ["ord".toList, "range".toList, "abs".toList], f ∉ allTargets (ifs.drop s) :=
      fun f hf => mem_allTargets (fun i hi => List.mem_of_mem_drop hi) (hT f hf)
    have hints := hint s es hes
    rcases hgo with ⟨env', hall⟩ | hex
    · have hall' : runBlock (intSem R).toSem iter effect other (.ofList ((ifs.take ifs.length).map If.stmt)) env =
          .ok (.go env') := by rwa [List.take_length]
      rw [List.length_drop] at hle
      obtain ⟨eL, hL, _⟩ := run_take_split (show s + n ≤ ifs.length by omega) hall'
      obtain ⟨es', hes2, hL'⟩ := run_take_split (show s ≤ s + n by omega) hL
      rw [hes] at hes2
      cases hes2
      rw [Nat.add_sub_cancel_left] at hL'
      obtain ⟨σ, g1, g2⟩ := blocks_traced (zero := fun _ => 0) (exits := exits) hm hTs ha hc (hsc.2 s _ _ ha) (Nat.le_refl n)
        (.inl rfl) hints.1 (hints.2 s _ _ _ (.inl ha)) ((hint _ eL hL).2 s _ _ _ (.inl ha)) hL'
      refine ⟨n - (idx + (pre.length + mid.length + 1)), σ, g1, ?_⟩
      rw [show idx + (pre.length + mid.length + 1) + (n - (idx + (pre.length + mid.length + 1))) + 1 = n + 1 by omega]
      exact g2
    · have hj : runBlock (intSem R).toSem iter effect other
          (.ofList (((ifs.drop s).take (idx + (pre.length + mid.length + 1))).map If.stmt)) es = .ok (.go e) := by
        have : (ifs.drop s).take (idx + (pre.length + mid.length + 1)) = (ifs.drop s).take idx ++ (pre ++ i :: mid) := by
          rw [show idx + (pre.length + mid.length + 1) = idx + ((pre ++ i :: mid).length + 0) by
            simp only [List.length_append, List.length_cons]; omega]
          rw [List.take_add, hrest, show pre ++ i :: (mid ++ j :: rest) = (pre ++ i :: mid) ++ (j :: rest) by simp,
            List.take_length_add_append]
          simp
        rw [this, List.map_append, run_append_go hes']
        refine run_parts (fun x hx => hea x ?_) h1 hrun' h3
        simp only [List.mem_append, List.mem_cons] at hx ⊢
        rcases hx with hx | hx | hx
        · exact .inl hx
        · exact .inr (.inl hx)
        · exact .inr (.inr (.inl hx))
      obtain ⟨σ, g1, g2⟩ := blocks_traced (zero := fun _ => 0) (exits := exits) hm hTs ha hc (hsc.2 s _ _ ha)
        (show idx + (pre.length + mid.length + 1) ≤ n by omega)
        (.inr fun i hi => hex i (List.mem_of_mem_drop (List.mem_of_mem_take (List.mem_of_mem_drop hi)))) hints.1
        (hints.2 s _ _ _ (.inl ha)) ((hint _ e (run_take_join hes hj)).2 s _ _ _ (.inl ha)) hj
      exact ⟨0, σ, g1, g2⟩
  rw [htake] at htr
  have hskip := traced_skip htr hes'
  have hlidx : ((ifs.drop s).take idx).length = idx := by
    rw [List.length_take]; omega
  rw [hlidx] at hskip
  exact traced_apart hu (conj_eval.mpr hσ) hskip hea (by omega) h1 h2 hrun' h3 h4

include hu hmay hsc hint in
/-- Merging what was counted by the second strategy. -/
theorem unmodified_apart {r : Report} {e0 : Env Val} (hmore : 1 ≤ r.more)
    (h : FromUnmodified R isFloat guess pure mayModify unsat ends ifs r)
    (hrun : runBlock (intSem R).toSem iter effect other (.ofList ((ifs.take r.index).map If.stmt)) env = .ok (.go e0)) :
    (∀ i ∈ (ifs.drop r.index).take (r.more + 1), i.rest.hasElse = false) ∧
      Apart (intSem R).toSem iter effect other ((ifs.drop r.index).take (r.more + 1)) e0 := by
  obtain ⟨s, idx, conds, hi, hb, hcount⟩ := h
  have hne : idx + (r.more + 1) ≤ conds.length := by
    unfold count at hcount
    cases hd : conds.drop idx with
    | nil => rw [hd] at hcount; simp only at hcount; omega
    | cons c cs =>
      rw [hd] at hcount
      simp only at hcount
      have h1 := countFrom_le (unsat := unsat) (rels := .tt) cs c
      have h2 := congrArg List.length hd
      simp only [List.length_drop, List.length_cons] at h2
      omega
  unfold unmodifiedConditions at hb
  cases ha : admitUnmodified ends (intSem R) isFloat guess pure mayModify (ifs.drop s) [] with
  | error x => rw [ha] at hb; cases hb
  | ok p =>
    obtain ⟨n, acc, vs⟩ := p
    rw [ha] at hb
    simp only at hb
    by_cases hn : n ≤ 1
    · rw [if_pos hn] at hb
      simp only [Except.ok.injEq, Option.some.injEq] at hb
      subst hb
      simp at hne
    · rw [if_neg hn] at hb
      obtain ⟨_, hle, hok⟩ := admitUnmodified_ok ha
      have hnth : ∀ (p : Nat) (i : If), p < n → (ifs.drop s)[p]? = some i → i ∈ ifs := fun p i _ hp =>
        List.mem_of_mem_drop (List.mem_of_getElem? hp)
      have hmem : ∀ i ∈ (ifs.drop s).take n, ∃ p, p < n ∧ (ifs.drop s)[p]? = some i := by
        intro i hi'
        obtain ⟨p, hp⟩ := List.getElem?_of_mem hi'
        rw [List.getElem?_take] at hp
        by_cases hpn : p < n
        · rw [if_pos hpn] at hp
          exact ⟨p, hpn, hp⟩
        · rw [if_neg hpn] at hp; cases hp
      have hsound : ∀ i ∈ (ifs.drop s).take n, ∀ e ∈ i.tests, CondSound R isFloat vs (Known acc) (fun _ => 0) e := by
        intro i hi' e he
        obtain ⟨p, hp, hpi⟩ := hmem i hi'
        exact (((hok p i hp hpi).2 e he).2 (hsc.1 i (hnth p i hp hpi) e he)).cond
      have hlen : conds.length = n := by
        rw [convertTests_length hb, List.length_take]
        omega
      have hgroup : (ifs.drop r.index).take (r.more + 1) = ((ifs.drop s).drop idx).take (r.more + 1) := by
        rw [List.drop_drop, hi]
      have hsplit : (ifs.drop s).take n = (ifs.drop s).take idx ++ ((ifs.drop s).drop idx).take (n - idx) := by
        rw [← List.take_add]; congr 1; omega
      have hsub : ∀ i ∈ (ifs.drop r.index).take (r.more + 1), i ∈ (ifs.drop s).take n := by
        intro i hi'
        rw [hgroup] at hi'
        rw [hsplit]
        exact List.mem_append_right _ ((List.take_prefix_take_left (by omega)).subset hi')
      have helse : ∀ i ∈ (ifs.drop r.index).take (r.more + 1), i.rest.hasElse = false := by
        intro i hi'
        obtain ⟨p, hp, hpi⟩ := hmem i (hsub i hi')
        exact (hok p i hp hpi).1
      refine ⟨helse, ?_⟩
      intro pre i mid j post e heq h1 h2 hrun' h3 h4
      have hlen' : pre.length + mid.length + post.length + 2 ≤ r.more + 1 := by
        have := congrArg List.length heq
        simp only [List.length_take, List.length_append, List.length_cons] at this
        omega
      obtain ⟨rest, hrest⟩ : ∃ rest, (ifs.drop s).drop idx = pre ++ i :: (mid ++ j :: rest) := by
        have := List.take_append_drop (r.more + 1) ((ifs.drop s).drop idx)
        rw [← hgroup, heq] at this
        exact ⟨post ++ ((ifs.drop s).drop idx).drop (r.more + 1), this.symm.trans (by simp)⟩
      have hreach : runBlock (intSem R).toSem iter effect other (.ofList ((ifs.take (r.index + (pre.length + 1))).map If.stmt))
          env = .ok (.go e) := by
        refine run_take_join hrun ?_
        have : (ifs.drop r.index).take (pre.length + 1) = pre ++ [i] := by
          rw [hi, ← List.drop_drop, hrest]
          rw [show pre.length + 1 = (pre ++ [i]).length + 0 by simp,
            show pre ++ i :: (mid ++ j :: rest) = (pre ++ [i]) ++ (mid ++ j :: rest) by simp, List.take_length_add_append]
          simp
        rw [this]
        refine run_parts (fun x hx => helse x ?_) h1 hrun' (fun x hx => (nomatch hx))
        rw [heq]
        simp only [List.mem_append, List.mem_cons, List.not_mem_nil, or_false] at hx ⊢
        rcases hx with hx | hx
        · exact .inl hx
        · exact .inr (.inl hx)
      have hints := hint _ e hreach
      have hall := convertTests_means (R := R) (zero := fun _ => 0) (σ := fun k _ => valuation R e k) (K := Known acc)
        (fun k hk => agrees_valuation (hints.2 s _ _ _ (.inr ha) k hk)) hints.1 hsound hb
      have htake : (ifs.drop s).take n = (ifs.drop s).take idx ++
          (pre ++ ([i] ++ (mid ++ ([j] ++ rest.take (n - idx - (pre.length + mid.length + 2)))))) := by
        rw [hsplit, hrest]
        congr 1
        rw [show n - idx = (pre ++ i :: (mid ++ [j])).length + (n - idx - (pre.length + mid.length + 2)) by
          simp only [List.length_append, List.length_cons, List.length_nil]; omega]
        rw [show pre ++ i :: (mid ++ j :: rest) = (pre ++ i :: (mid ++ [j])) ++ rest by simp, List.take_length_add_append]
        simp only [List.append_assoc, List.cons_append, List.nil_append]
        congr 6
        simp only [List.length_append, List.length_cons, List.length_nil]
        omega
      rw [htake] at hall
      obtain ⟨c0, c, rfl, m0, hall⟩ := hall.append
      obtain ⟨cpre, c, rfl, m1, hall⟩ := hall.append
      obtain ⟨ci, c, rfl, m2, hall⟩ := hall.append
      obtain ⟨cmid, c, rfl, m3, hall⟩ := hall.append
      obtain ⟨cj, c, rfl, m4, hall⟩ := hall.append
      have hl0 : c0.length = idx := by
        rw [m0.length, List.length_take]; omega
      cases ci with
      | nil => exact m2.elim
      | cons ci ci' =>
        cases ci' with
        | cons _ _ => exact m2.2.elim
        | nil =>
          cases cj with
          | nil => exact m4.elim
          | cons cj cj' =>
            cases cj' with
            | cons _ _ => exact m4.2.elim
            | nil =>
              have hkeep : ∀ (p : Nat) (x : If), (pre ++ [i])[p]? = some x → ∀ t ∈ x.tests, ∀ y ∈ names t, e0 y = e y := by
                intro p x hx t ht y hy
                have hp : p < pre.length + 1 := by
                  have := (List.getElem?_eq_some_iff.mp hx).1
                  simpa using this
                have hx' : (ifs.drop s)[idx + p]? = some x := by
                  rw [← List.getElem?_drop, hrest,
                    show pre ++ i :: (mid ++ j :: rest) = (pre ++ [i]) ++ (mid ++ j :: rest) by simp,
                    List.getElem?_append_left (by simpa using hp)]
                  exact hx
                have hmod := ((hok (idx + p) x (by omega) hx').2 t ht).1
                refine (hmay _ t hmod i ?_ e0 e hrun' y hy).symm
                rw [← List.drop_drop, hrest, List.drop_append_of_le_length (by omega), List.dropLast_append_of_ne_nil (by simp),
                  show i :: (mid ++ j :: rest) = (i :: mid) ++ (j :: rest) by simp, List.dropLast_append_of_ne_nil (by simp)]
                simp
              refine counted_apart (R := R) (zero := fun _ => 0) (env := e0) (pre := pre) (i := i) (mid := mid) (j := j)
                (conds := c0 ++ (cpre ++ ([ci] ++ (cmid ++ ([cj] ++ c))))) (idx := idx) (cpre := cpre) (ci := ci) (cmid := cmid)
                (cj := cj) (cpost := c) (rels := .tt) hu rfl ?_ (m1.move fun x hx => ?_) (m2.1.move ?_) m3 m4.1 (by omega) h1 h2
                h4
              · rw [← hl0, List.drop_left]
                simp
              · obtain ⟨p, hp⟩ := List.getElem?_of_mem hx
                refine hkeep p x ?_
                rw [List.getElem?_append_left (List.getElem?_eq_some_iff.mp hp).1]
                exact hp
              · exact hkeep pre.length i (by simp)

theorem report_source {ss : List Stmt} {afterIf : Bool} {rs : List Report} {r : Report}
    (h : useIfElifElse ends (intSem R) isFloat guess pure modified mayModify mutableStmt unsat afterIf ss = .ok rs)
    (hr : r ∈ rs) : 1 ≤ r.more ∧ ((FromBlocks R isFloat guess pure modified mutableStmt unsat (consecutiveIfs ss) r ∧
        r.modifying = testsModified mayModify (((consecutiveIfs ss).drop r.index).take r.more)) ∨
      (FromUnmodified R isFloat guess pure mayModify unsat ends (consecutiveIfs ss) r ∧ r.modifying = false)) := by
  unfold useIfElifElse at h
  cases afterIf with
  | true => simp only [if_true, Except.ok.injEq] at h; subst h; cases hr
  | false =>
    simp only [Bool.false_eq_true, if_false] at h
    by_cases hl : (consecutiveIfs ss).length < 2
    · rw [if_pos hl] at h
      simp only [Except.ok.injEq] at h; subst h; cases hr
    · rw [if_neg hl] at h
      exact reportFrom_source _ _ _ _ rs (.inl (Nat.le_refl _)) (.inl (Nat.le_refl _)) h r hr

end

/-- The statements that are `if`s, from the first on. -/
theorem consecutiveIfs_stmts : ∀ ss : List Stmt, ∃ tail, ss = (consecutiveIfs ss).map If.stmt ++ tail
  | [] => ⟨[], rfl⟩
  | s :: ss => by
    cases s with
    | if_ t b r =>
      obtain ⟨tail, h⟩ := consecutiveIfs_stmts ss
      refine ⟨tail, ?_⟩
      simp only [consecutiveIfs, List.map_cons, List.cons_append, If.stmt]
      rw [← h]
    | _ => exact ⟨_, rfl⟩

/-- **C78** (partial). If EduLint reports that an `if` should be merged with some that follow, then doing so does not change
what is computed: from where all `if`s are run to their end, so are they when they are merged, with the same values of
variables. It is provided that the solver is sound, that variables are not modified where EduLint finds that they are not,
and that conditions (and, where the solver is given them, bodies) are formulas in integers. -/
theorem C78_partial {ss : List Stmt} {afterIf : Bool} {rs : List Report} {r : Report} {env' : Env Val}
    (hu : ∀ f, unsat f = true → f.Unsat)
    (hm : ∀ is e, modified is e = false → ∀ x ∈ names e, x ∉ allTargets is)
    (hmay : ∀ is e, mayModify is e = false → ∀ i ∈ is, ∀ env env',
      runStmt (intSem R).toSem iter effect other i.stmt env = .ok (.go env') → ∀ x ∈ names e, env' x = env x)
    (hT : ∀ f ∈ ["ord".toList, "range".toList, "abs".toList], f ∉ allTargets (consecutiveIfs ss))
    (hsc : ScopedIfs R isFloat guess pure modified mutableStmt (consecutiveIfs ss))
    (hint : Integers R isFloat guess pure modified mayModify mutableStmt iter effect other ends (consecutiveIfs ss) env)
    (h : useIfElifElse ends (intSem R) isFloat guess pure modified mayModify mutableStmt unsat afterIf ss = .ok rs)
    (hr : r ∈ rs)
    (hrun : runBlock (intSem R).toSem iter effect other (.ofList ((consecutiveIfs ss).map If.stmt)) env = .ok (.go env')) :
    runBlock (intSem R).toSem iter effect other (.ofList (r.apply (consecutiveIfs ss))) env = .ok (.go env') := by
  obtain ⟨hmore, hsrc⟩ := report_source h hr
  generalize consecutiveIfs ss = ifs at *
  have hsplit : ifs.map If.stmt = (ifs.take r.index).map If.stmt ++ (((ifs.drop r.index).take (r.more + 1)).map If.stmt ++
      (ifs.drop (r.index + (r.more + 1))).map If.stmt) := by
    rw [← List.map_append, ← List.map_append, ← List.drop_drop, List.take_append_drop, List.take_append_drop]
  have hrun' := hrun
  rw [hsplit] at hrun'
  obtain ⟨e0, h0, hrun'⟩ := run_append_ok hrun'
  obtain ⟨e1, h1, h2⟩ := run_append_ok hrun'
  have hap : (∀ i ∈ (ifs.drop r.index).take (r.more + 1), i.rest.hasElse = false) ∧
      Apart (intSem R).toSem iter effect other ((ifs.drop r.index).take (r.more + 1)) e0 := by
    rcases hsrc with ⟨hs, _⟩ | ⟨hs, _⟩
    · exact blocks_apart (exits := fun _ => false) hu hm hT hsc hint hmore hs h0 (.inl ⟨env', hrun⟩)
    · exact unmodified_apart hu hmay hsc hint hmore hs h0
  unfold Report.apply
  rw [List.append_assoc, run_append_go h0, run_append_go (run_merged hap.1 hap.2 h1)]
  exact h2

/-- **C78** (partial), of what is run if the `if`s that follow are not: no `if` contains `assert`, `return` or the like. Then
the merged `if` does the same as those that it is merged from. (Where those raise an exception nothing is claimed: it may be
by a condition that is not evaluated any more.) -/
theorem C78_group_partial {ss : List Stmt} {afterIf : Bool} {rs : List Report} {r : Report} {fl : Flow}
    (hu : ∀ f, unsat f = true → f.Unsat)
    (hm : ∀ is e, modified is e = false → ∀ x ∈ names e, x ∉ allTargets is)
    (hmay : ∀ is e, mayModify is e = false → ∀ i ∈ is, ∀ env env',
      runStmt (intSem R).toSem iter effect other i.stmt env = .ok (.go env') → ∀ x ∈ names e, env' x = env x)
    (hT : ∀ f ∈ ["ord".toList, "range".toList, "abs".toList], f ∉ allTargets (consecutiveIfs ss))
    (hsc : ScopedIfs R isFloat guess pure modified mutableStmt (consecutiveIfs ss))
    (hint : Integers R isFloat guess pure modified mayModify mutableStmt iter effect other ends (consecutiveIfs ss) env)
    (h : useIfElifElse ends (intSem R) isFloat guess pure modified mayModify mutableStmt unsat afterIf ss = .ok rs)
    (hr : r ∈ rs) (hexit : ∀ i ∈ consecutiveIfs ss, i.stmt.hasExit exits = false)
    (hrun : runBlock (intSem R).toSem iter effect other
      (.ofList (((consecutiveIfs ss).take (r.index + (r.more + 1))).map If.stmt)) env = .ok fl) :
    runBlock (intSem R).toSem iter effect other (.ofList (((consecutiveIfs ss).take r.index).map If.stmt ++
      merged (((consecutiveIfs ss).drop r.index).take (r.more + 1)))) env = .ok fl := by
  obtain ⟨hmore, hsrc⟩ := report_source h hr
  generalize consecutiveIfs ss = ifs at *
  rw [List.take_add, List.map_append, run_append] at hrun
  rw [run_append]
  cases h0 : runBlock (intSem R).toSem iter effect other (.ofList ((ifs.take r.index).map If.stmt)) env with
  | error x => rw [h0] at hrun; cases hrun
  | ok fl0 =>
    rw [h0] at hrun
    cases fl0 with
    | stop => exact hrun
    | go e0 =>
      simp only at hrun ⊢
      have hap : (∀ i ∈ (ifs.drop r.index).take (r.more + 1), i.rest.hasElse = false) ∧
          Apart (intSem R).toSem iter effect other ((ifs.drop r.index).take (r.more + 1)) e0 := by
        rcases hsrc with ⟨hs, _⟩ | ⟨hs, _⟩
        · exact blocks_apart (exits := exits) hu hm hT hsc hint hmore hs h0 (.inr hexit)
        · exact unmodified_apart hu hmay hsc hint hmore hs h0
      exact run_merged hap.1 hap.2 hrun

end

end

section
variable {R : FoldSem Val} {isFloat : Val → Bool} {guess : Expr → Option Types} {pure : Expr → Bool}
variable {modified mayModify : List If → Expr → Bool} {mutableStmt : Stmt → Bool} {unsat : Fm → Bool} {ends : Nat → Bool}

/-- There is at least one `if` to merge with, and there are as many as reported. -/
theorem C78_more {ss : List Stmt} {afterIf : Bool} {rs : List Report} {r : Report}
    (h : useIfElifElse ends (intSem R) isFloat guess pure modified mayModify mutableStmt unsat afterIf ss = .ok rs) (hr : r ∈ rs) :
    1 ≤ r.more ∧ r.index + r.more < (consecutiveIfs ss).length := by
  obtain ⟨hmore, hsrc⟩ := report_source h hr
  refine ⟨hmore, ?_⟩
  generalize consecutiveIfs ss = ifs at *
  have key : ∀ rels idx (conds : List (List Fm)), r.more + 1 = count unsat rels conds idx → idx + (r.more + 1) ≤ conds.length := by
    intro rels idx conds hcount
    unfold count at hcount
    cases hd : conds.drop idx with
    | nil => rw [hd] at hcount; simp only at hcount; omega
    | cons c cs =>
      rw [hd] at hcount
      simp only at hcount
      have h1 := countFrom_le (unsat := unsat) (rels := rels) cs c
      have h2 := congrArg List.length hd
      simp only [List.length_drop, List.length_cons] at h2
      omega
  rcases hsrc with ⟨⟨s, idx, c, hidx, hb, hcount⟩, _⟩ | ⟨⟨s, idx, conds, hidx, hb, hcount⟩, _⟩
  · have hne := key _ _ _ hcount
    obtain ⟨rels, conds⟩ := c
    simp only at hne
    obtain ⟨n, acc, vs, st, ha, hc, rfl, hlen⟩ := blockConditions_some hb (by intro h; rw [h] at hne; simp at hne)
    have := (admit_le _ _ _ _ ha).1
    rw [List.length_drop] at this
    omega
  · have hne := key _ _ _ hcount
    unfold unmodifiedConditions at hb
    cases ha : admitUnmodified ends (intSem R) isFloat guess pure mayModify (ifs.drop s) [] with
    | error x => rw [ha] at hb; cases hb
    | ok p =>
      obtain ⟨n, acc, vs⟩ := p
      rw [ha] at hb
      simp only at hb
      by_cases hn : n ≤ 1
      · rw [if_pos hn] at hb
        simp only [Except.ok.injEq, Option.some.injEq] at hb
        subst hb
        simp at hne
      · rw [if_neg hn] at hb
        have hlen := convertTests_length hb
        rw [List.length_take, List.length_drop] at hlen
        omega

/-! ### C79 -/

/-- **C79** (partial). If `use-if-elif-else` is reported, then the variables in the conditions of all `if`s that are merged but
the last are not modified by these `if`s, from the one with the condition on. If `use-if-elif-else-modifying` is reported,
then they may be. (Variables in the last condition, and in a condition by an `if` before it, are not looked at; see
`C79_counterexample`.) -/
theorem C79_partial {ss : List Stmt} {afterIf : Bool} {rs : List Report} {r : Report}
    (h : useIfElifElse ends (intSem R) isFloat guess pure modified mayModify mutableStmt unsat afterIf ss = .ok rs) (hr : r ∈ rs) :
    (r.modifying = false →
      ∀ k i, k < r.more → (consecutiveIfs ss)[r.index + k]? = some i → ∀ t ∈ i.tests,
        mayModify ((consecutiveIfs ss).drop (r.index + k)).dropLast t = false ∨
          mayModify (((consecutiveIfs ss).drop r.index).take r.more) t = false) ∧
    (r.modifying = true →
      ∃ i ∈ ((consecutiveIfs ss).drop r.index).take r.more, ∃ t ∈ i.tests,
        mayModify (((consecutiveIfs ss).drop r.index).take r.more) t = true) := by
  obtain ⟨hmore, hsrc⟩ := report_source h hr
  generalize consecutiveIfs ss = ifs at *
  refine ⟨fun hm k i hk hi t ht => ?_, fun hm => ?_⟩
  · rcases hsrc with ⟨_, hs⟩ | ⟨⟨s, idx, conds, hidx, hb, hcount⟩, _⟩
    · rw [hm] at hs
      refine .inr ?_
      have hin : i ∈ (ifs.drop r.index).take r.more := by
        refine List.mem_of_getElem? (i := k) ?_
        rw [List.getElem?_take_of_lt hk, List.getElem?_drop]
        exact hi
      cases hx : mayModify ((ifs.drop r.index).take r.more) t with
      | false => rfl
      | true =>
        have : testsModified mayModify ((ifs.drop r.index).take r.more) = true :=
          List.any_eq_true.mpr ⟨i, hin, List.any_eq_true.mpr ⟨t, ht, hx⟩⟩
        rw [this] at hs
        cases hs
    · refine .inl ?_
      have hne : idx + (r.more + 1) ≤ conds.length := by
        unfold count at hcount
        cases hd : conds.drop idx with
        | nil => rw [hd] at hcount; simp only at hcount; omega
        | cons c cs =>
          rw [hd] at hcount
          simp only at hcount
          have h1 := countFrom_le (unsat := unsat) (rels := .tt) cs c
          have h2 := congrArg List.length hd
          simp only [List.length_drop, List.length_cons] at h2
          omega
      unfold unmodifiedConditions at hb
      cases ha : admitUnmodified ends (intSem R) isFloat guess pure mayModify (ifs.drop s) [] with
      | error x => rw [ha] at hb; cases hb
      | ok p =>
        obtain ⟨n, acc, vs⟩ := p
        rw [ha] at hb
        simp only at hb
        by_cases hn : n ≤ 1
        · rw [if_pos hn] at hb
          simp only [Except.ok.injEq, Option.some.injEq] at hb
          subst hb
          simp at hne
        · rw [if_neg hn] at hb
          obtain ⟨_, hle, hok⟩ := admitUnmodified_ok ha
          have hlen := convertTests_length hb
          rw [List.length_take] at hlen
          have := ((hok (idx + k) i (by omega) (by rw [List.getElem?_drop, ← Nat.add_assoc, ← hidx]; exact hi)).2 t ht).1
          rw [List.drop_drop, ← Nat.add_assoc, ← hidx] at this
          exact this
  · rcases hsrc with ⟨_, hs⟩ | ⟨_, hs⟩
    · rw [hm] at hs
      obtain ⟨i, hi, h⟩ := List.any_eq_true.mp hs.symm
      obtain ⟨t, ht, h⟩ := List.any_eq_true.mp h
      exact ⟨i, hi, t, ht, h⟩
    · rw [hm] at hs; cases hs

end

/-! ### Examples -/

def mxModified (is : List If) (e : Expr) : Bool := (names e).any (· ∈ allTargets is)

/-- All expressions are pure, all variables are taken for integers, and those that are modified are those assigned to. -/
def mxUse (unsat : Fm → Bool) (ss : List Stmt) : Except PyErr (List Report) :=
  useIfElifElse (fun _ => true) (intSem noRest) (fun _ => false) intGuess (fun _ => true) mxModified mxModified (fun _ => false)
    unsat false ss

def mxRun (ss : List Stmt) (env : Env Val) : Except PyErr Flow := bxRun (.ofList ss) env

def mxSet (x : String) (n : Nat) : Stmt := .assign (.name x.toList) (exInt n)

/-- `x > n` -/
def mxGt (x : String) (n : Nat) : Expr := .compare (bxVar x) [(.gt, exInt n)]
/-- `x < n` -/
def mxLt (x : String) (n : Nat) : Expr := .compare (bxVar x) [(.lt, exInt n)]

/-- `if x > 0: y = 1`, `if z > 0: (if x > 0: return), y = 2`, `if x < 0 and z < 0: y = 3` -/
def mxReturn : List If :=
  [⟨mxGt "x" 0, bxOne (mxSet "y" 1), .none⟩,
    ⟨mxGt "z" 0, .cons (.if_ (mxGt "x" 0) (bxOne .end_) .none) (bxOne (mxSet "y" 2)), .none⟩,
    ⟨.boolOp false [mxLt "x" 0, mxLt "z" 0], bxOne (mxSet "y" 3), .none⟩]

/-- `x > n` for the solver. -/
def mxTGt (x : String) (n : Int) : Term := .cmp .gt (.var false (bxVar x)) (.int n)
def mxTLt (x : String) (n : Int) : Term := .cmp .lt (.var false (bxVar x)) (.int n)

theorem mxReturn_conditions :
    blockConditions (intSem noRest) (fun _ => false) intGuess (fun _ => true) mxModified (fun _ => false) mxReturn =
      .ok (conj [.imp (.and .tt (.term (fun _ => 0) (mxTGt "z" 0))) (.imp .tt (.not (.term (fun _ => 0) (mxTGt "x" 0))))],
        [[.term (fun _ => 0) (mxTGt "x" 0)], [.term (fun _ => 0) (mxTGt "z" 0)],
          [.term (fun _ => 0) (.and [mxTLt "x" 0, mxTLt "z" 0])]]) := rfl

theorem mxReturn_unmodified :
    unmodifiedConditions (fun _ => true) (intSem noRest) (fun _ => false) intGuess (fun _ => true) mxModified mxReturn =
      .ok (some []) := rfl

/-- The second `if` returns where the condition of the first was true, so for the solver the conditions exclude each other. -/
theorem mxReturn_reported (unsat : Fm → Bool) (hu : ∀ f, f.Unsat → unsat f = true) :
    mxUse unsat (mxReturn.map If.stmt) = .ok [⟨0, false, 2⟩] := by
  have hc : count unsat
      (conj [.imp (.and .tt (.term (fun _ => 0) (mxTGt "z" 0))) (.imp .tt (.not (.term (fun _ => 0) (mxTGt "x" 0))))])
      [[.term (fun _ => 0) (mxTGt "x" 0)], [.term (fun _ => 0) (mxTGt "z" 0)],
        [.term (fun _ => 0) (.and [mxTLt "x" 0, mxTLt "z" 0])]] 0 = 3 := by
    simp only [count, List.drop_zero, countFrom, canMerge, List.nil_append, List.cons_append, List.map_cons,
      List.map_nil]
    rw [hu, hu, hu]
    · rfl
    all_goals
      intro zero σ
      simp only [Fm.eval, conj, disj, termValue, Term.eval, Term.evalAll, mxTGt, mxTLt, at_, TV.int?, TV.bool?, num,
        Option.map_some, Option.bind_some, intCmp, Bool.and_true, Bool.true_and, Bool.or_false, List.all_cons, List.all_nil]
      by_cases h1 : 0 < σ (bxVar "x") 0 <;> by_cases h2 : 0 < σ (bxVar "z") 0 <;> simp [h1, h2] <;> omega
  have h1 : consecutiveIfs (mxReturn.map If.stmt) = mxReturn := rfl
  unfold mxUse useIfElifElse
  rw [h1]
  simp only [Bool.false_eq_true, if_false, show mxReturn.length = 3 from rfl, show ¬ 3 < 2 by omega, reportFrom, nextBlocks,
    nextUnmodified, List.length_nil, Nat.le_refl, if_true, List.drop_zero, mxReturn_conditions, mxReturn_unmodified, hc,
    Nat.not_le_of_lt (show 0 < 3 by omega)]
  rfl

/-- **C78** is false: of `if x > 0: y = 1`, `if z > 0: (if x > 0: return), y = 2`, `if x < 0 and z < 0: y = 3` all are reported
as mergeable, but for `x = 1` and `z = 1` the second returns, and nothing does when they are merged. -/
theorem C78_counterexample (unsat : Fm → Bool) (hu : ∀ f, f.Unsat → unsat f = true) :
    ∃ r, mxUse unsat (mxReturn.map If.stmt) = .ok [r] ∧
      mxRun (mxReturn.map If.stmt) (bxEnv [("x", 1), ("z", 1)]) = .ok .stop ∧
      ∃ env, mxRun (r.apply mxReturn) (bxEnv [("x", 1), ("z", 1)]) = .ok (.go env) :=
  ⟨_, mxReturn_reported unsat hu, rfl, _, rfl⟩

/-! The hypotheses of the theorems hold of a program. -/

theorem bx_assign_same : ∀ (ts : List Target) (vals : List Val) (env env' : Env Val),
    assignTargets bxEffect ts vals env = .ok env' → Same (ts.flatMap Target.names) env env'
  | [], [], env, env', h => by
    simp only [assignTargets, Except.ok.injEq] at h
    subst h
    exact fun _ _ => rfl
  | [], _ :: _, _, _, h => by simp only [assignTargets] at h; cases h
  | _ :: _, [], _, _, h => by simp only [assignTargets] at h; cases h
  | .name x :: ts, v :: vals, env, env', h => by
    simp only [assignTargets] at h
    intro y hy
    simp only [List.flatMap_cons, Target.names, List.cons_append, List.nil_append, List.mem_cons, not_or] at hy
    rw [bx_assign_same ts vals _ env' h y hy.2]
    simp only [setVar]
    rw [if_neg hy.1]
  | .other n :: ts, v :: vals, env, env', h => by
    simp only [assignTargets, bxEffect] at h
    intro y hy
    simp only [List.flatMap_cons, Target.names, List.nil_append] at hy
    exact bx_assign_same ts vals _ env' h y hy

mutual
theorem bx_stmt_same {S : Sem Val} : ∀ (s : Stmt) (env env' : Env Val), runStmt S bxIter bxEffect bxOther s env = .ok (.go env') →
    Same s.targets env env'
  | .assign t e, env, env', h => by
    simp only [runStmt] at h
    cases hv : eval S env e with
    | error x => rw [hv] at h; cases h
    | ok v =>
      rw [hv] at h
      have := bx_assign_same [t] [v] env env' (goOn_go h)
      simpa [Stmt.targets] using this
  | .assigns ts e, env, env', h => by
    simp only [runStmt] at h
    cases hv : unpack S bxIter env e with
    | error x => rw [hv] at h; cases h
    | ok v =>
      rw [hv] at h
      exact bx_assign_same ts v env env' (goOn_go h)
  | .aug (.name x) op e, env, env', h => by
    simp only [runStmt] at h
    cases hv : eval S env (.bin op (.name x) e) with
    | error x => rw [hv] at h; cases h
    | ok v =>
      rw [hv] at h
      simp only [Except.ok.injEq, Flow.go.injEq] at h
      subst h
      intro y hy
      simp only [Stmt.targets, Target.names, List.mem_singleton] at hy
      simp only [setVar]
      rw [if_neg hy]
  | .aug (.other n) op e, env, env', h => by
    simp only [runStmt, bxEffect, goOn, Except.ok.injEq, Flow.go.injEq] at h
    subst h
    exact fun _ _ => rfl
  | .expr e, env, env', h => by
    simp only [runStmt] at h
    cases hv : eval S env e with
    | error x => rw [hv] at h; cases h
    | ok v =>
      rw [hv] at h
      simp only [Except.ok.injEq, Flow.go.injEq] at h
      subst h
      exact fun _ _ => rfl
  | .pass, env, env', h => by
    simp only [runStmt, Except.ok.injEq, Flow.go.injEq] at h
    subst h
    exact fun _ _ => rfl
  | .assert_ e, env, env', h => by
    simp only [runStmt] at h
    cases hv : truthOf S env e with
    | error x => rw [hv] at h; cases h
    | ok q =>
      rw [hv] at h
      cases q with
      | false => cases h
      | true =>
        simp only [Except.ok.injEq, Flow.go.injEq] at h
        subst h
        exact fun _ _ => rfl
  | .end_, env, env', h => by simp only [runStmt] at h; cases h
  | .if_ t b r, env, env', h => by
    simp only [runStmt] at h
    cases hv : truthOf S env t with
    | error x => rw [hv] at h; cases h
    | ok q =>
      rw [hv] at h
      cases q with
      | true => exact (bx_block_same b env env' h).mono fun x hx => by simp [Stmt.targets, hx]
      | false => exact (bx_rest_same r env env' h).mono fun x hx => by simp [Stmt.targets, hx]
  | .other n, env, env', h => by
    simp only [runStmt, bxOther, Except.ok.injEq, Flow.go.injEq] at h
    subst h
    exact fun _ _ => rfl

theorem bx_block_same {S : Sem Val} : ∀ (b : Block) (env env' : Env Val), runBlock S bxIter bxEffect bxOther b env = .ok (.go env') →
    Same b.targets env env'
  | .nil, env, env', h => by
    simp only [runBlock, Except.ok.injEq, Flow.go.injEq] at h
    subst h
    exact fun _ _ => rfl
  | .cons s b, env, env', h => by
    simp only [runBlock] at h
    cases hv : runStmt S bxIter bxEffect bxOther s env with
    | error x => rw [hv] at h; cases h
    | ok fl =>
      rw [hv] at h
      cases fl with
      | stop => cases h
      | go e =>
        exact ((bx_stmt_same s env e hv).mono fun x hx => by simp [Block.targets, hx]).trans
          ((bx_block_same b e env' h).mono fun x hx => by simp [Block.targets, hx])

theorem bx_rest_same {S : Sem Val} : ∀ (r : Rest) (env env' : Env Val), runRest S bxIter bxEffect bxOther r env = .ok (.go env') →
    Same r.targets env env'
  | .none, env, env', h => by
    simp only [runRest, Except.ok.injEq, Flow.go.injEq] at h
    subst h
    exact fun _ _ => rfl
  | .elif_ t b r, env, env', h => by
    simp only [runRest] at h
    cases hv : truthOf S env t with
    | error x => rw [hv] at h; cases h
    | ok q =>
      rw [hv] at h
      cases q with
      | true => exact (bx_block_same b env env' h).mono fun x hx => by simp [Rest.targets, hx]
      | false => exact (bx_rest_same r env env' h).mono fun x hx => by simp [Rest.targets, hx]
  | .else_ b, env, env', h => by
    simp only [runRest] at h
    exact bx_block_same b env env' h
end

theorem mxModified_targets (is : List If) (e : Expr) (h : mxModified is e = false) : ∀ x ∈ names e, x ∉ allTargets is := by
  intro x hx hT
  have : mxModified is e = true := List.any_eq_true.mpr ⟨x, hx, by simpa using hT⟩
  rw [h] at this
  cases this

theorem mxModified_kept (is : List If) (e : Expr) (h : mxModified is e = false) : ∀ i ∈ is, ∀ env env',
    runStmt (intSem noRest).toSem bxIter bxEffect bxOther i.stmt env = .ok (.go env') → ∀ x ∈ names e, env' x = env x :=
  fun i hi env env' hr x hx => bx_stmt_same i.stmt env env' hr x fun ht =>
    mxModified_targets is e h x hx (List.mem_flatMap.mpr ⟨i, hi, ht⟩)

/-- `if x > 5: x = 9`, `if x < 3: y = 2` -/
def mxReset : List If := [⟨mxGt "x" 5, bxOne (mxSet "x" 9), .none⟩, ⟨mxLt "x" 3, bxOne (mxSet "y" 2), .none⟩]

theorem mxReset_conditions :
    blockConditions (intSem noRest) (fun _ => false) intGuess (fun _ => true) mxModified (fun _ => false) mxReset =
      .ok (conj [.eq exX 1 (.term (fun _ => 0) (.int 9)),
          .eq exX 2 (.ite (.term (fun _ => 0) (mxTGt "x" 5)) (.var exX 1) (.var exX 0))],
        [[.term (fun _ => 0) (mxTGt "x" 5)], [.term (Ver.set (fun _ => 0) exX 2) (mxTLt "x" 3)]]) := rfl

theorem mxReset_unmodified :
    unmodifiedConditions (fun _ => true) (intSem noRest) (fun _ => false) intGuess (fun _ => true) mxModified mxReset =
      .ok (some []) := rfl

/-- What is reported, by the first strategy. -/
theorem mxReset_reported (unsat : Fm → Bool) (hu : ∀ f, f.Unsat → unsat f = true) :
    mxUse unsat (mxReset.map If.stmt) = .ok [⟨0, true, 1⟩] := by
  have hc : count unsat (conj [.eq exX 1 (.term (fun _ => 0) (.int 9)),
          .eq exX 2 (.ite (.term (fun _ => 0) (mxTGt "x" 5)) (.var exX 1) (.var exX 0))])
      [[.term (fun _ => 0) (mxTGt "x" 5)], [.term (Ver.set (fun _ => 0) exX 2) (mxTLt "x" 3)]] 0 = 2 := by
    simp only [count, List.drop_zero, countFrom, canMerge, List.nil_append, List.cons_append, List.map_cons,
      List.map_nil]
    rw [hu]
    · rfl
    · intro zero σ
      simp only [Fm.eval, conj, disj, Vl.eval, termValue, Term.eval, mxTGt, mxTLt, at_, Ver.set, TV.int?, num, eqValue, iteValue,
        show bxVar "x" = exX from rfl, if_true,
        Option.map_some, Option.bind_some, intCmp, Bool.and_true, Bool.or_false, decide_eq_true_eq, Option.some.injEq,
        TV.bool.injEq]
      by_cases h1 : 5 < σ exX 0 <;> simp [h1] <;> omega
  have h1 : consecutiveIfs (mxReset.map If.stmt) = mxReset := rfl
  unfold mxUse useIfElifElse
  rw [h1]
  simp only [Bool.false_eq_true, if_false, show mxReset.length = 2 from rfl, show ¬ 2 < 2 by omega, reportFrom, nextBlocks,
    nextUnmodified, List.length_nil, Nat.le_refl, if_true, List.drop_zero, mxReset_conditions, mxReset_unmodified, hc,
    Nat.not_le_of_lt (show 0 < 2 by omega)]
  rfl

theorem mxReset_admit : ∀ s n acc vs,
    admit (intSem noRest) (fun _ => false) intGuess (fun _ => true) mxModified (fun _ => false) (mxReset.drop s) [] =
        .ok (n, acc, vs) ∨
      admitUnmodified (fun _ => true) (intSem noRest) (fun _ => false) intGuess (fun _ => true) mxModified (mxReset.drop s) [] =
        .ok (n, acc, vs) → acc = [(exX, false)] ∨ acc = []
  | 0, n, acc, vs, h => by
    rcases h with h | h <;> cases h
    · exact .inl rfl
    · exact .inr rfl
  | 1, n, acc, vs, h => by
    rcases h with h | h <;> cases h
    · exact .inl rfl
    · exact .inl rfl
  | s + 2, n, acc, vs, h => by
    rw [List.drop_eq_nil_of_le (by simp [mxReset])] at h
    rcases h with h | h <;> cases h <;> exact .inr rfl

theorem mxReset_integers : Integers noRest (fun _ => false) intGuess (fun _ => true) mxModified mxModified (fun _ => false) bxIter
    bxEffect bxOther (fun _ => true) mxReset (bxEnv [("x", 7)]) := by
  intro j e h
  have he : e = bxEnv [("x", 7)] ∨ e = setVar (bxEnv [("x", 7)]) "x".toList (.int 9) := by
    match j with
    | 0 => cases h; exact .inl rfl
    | 1 => cases h; exact .inr rfl
    | j + 2 =>
      rw [List.take_of_length_le (by simp [mxReset])] at h
      cases h
      exact .inr rfl
  have hx : Builtins e ∧ (e "x".toList = .ok (.int 7) ∨ e "x".toList = .ok (.int 9)) := by
    rcases he with rfl | rfl
    · refine ⟨fun f hf => ?_, .inl rfl⟩
      simp only [List.mem_cons, List.not_mem_nil, or_false] at hf
      rcases hf with rfl | rfl | rfl <;> rfl
    · refine ⟨fun f hf => ?_, .inr rfl⟩
      simp only [List.mem_cons, List.not_mem_nil, or_false] at hf
      rcases hf with rfl | rfl | rfl <;> rfl
  refine ⟨hx.1, fun s n acc vs ha k hk v hv => ?_⟩
  have hk' : k = exX := by
    rcases mxReset_admit s n acc vs ha with rfl | rfl
    · simp [Vars.lookup] at hk
      exact hk.symm
    · exact absurd rfl hk
  subst hk'
  simp only [exX, eval] at hv
  rcases hx.2 with h | h <;> rw [h] at hv <;> cases hv <;> simp [Val.asInt]

theorem mxReset_scoped : ScopedIfs noRest (fun _ => false) intGuess (fun _ => true) mxModified (fun _ => false) mxReset := by
  have h : ∀ i ∈ mxReset, i.stmt.Scoped noRest (fun _ => false) := by
    intro i hi
    simp only [mxReset, List.mem_cons, List.not_mem_nil, or_false] at hi
    rcases hi with rfl | rfl <;>
      simp [mxGt, mxLt, mxSet, bxOne, bxVar, If.stmt, Block.Scoped, Stmt.Scoped, Rest.Scoped, ScopedValue, InScope, InScopeOps, exInt]
  refine ⟨fun i hi e he => ?_, fun s n r _ i hi => h i (List.mem_of_mem_drop (List.mem_of_mem_take hi))⟩
  simp only [mxReset, List.mem_cons, List.not_mem_nil, or_false] at hi
  rcases hi with rfl | rfl <;> simp only [If.tests, Rest.tests, List.mem_singleton] at he <;> subst he <;>
    simp [mxGt, mxLt, bxVar, InScope, InScopeOps, exInt]

/-- `if x > 5: x = 9`, `if x < 3: y = 2` is reported, and `if x > 5: x = 9`, `elif x < 3: y = 2` does the same for `x = 7`. -/
example (unsat : Fm → Bool) (hu : ∀ f, unsat f = true ↔ f.Unsat) : ∃ r env,
    mxUse unsat (mxReset.map If.stmt) = .ok [r] ∧ mxRun (mxReset.map If.stmt) (bxEnv [("x", 7)]) = .ok (.go env) ∧
      mxRun (r.apply mxReset) (bxEnv [("x", 7)]) = .ok (.go env) ∧ env "x".toList = .ok (.int 9) := by
  have hr := mxReset_reported unsat fun f => (hu f).mpr
  refine ⟨_, _, hr, rfl, ?_, rfl⟩
  exact C78_partial (ss := mxReset.map If.stmt) (fun f => (hu f).mp) mxModified_targets mxModified_kept
    (fun f hf => by
      simp only [List.mem_cons, List.not_mem_nil, or_false] at hf
      rcases hf with rfl | rfl | rfl <;> decide) mxReset_scoped mxReset_integers hr (List.mem_singleton.mpr rfl) rfl

/-- The premises of `C78_group_partial` hold for it, too. -/
example (unsat : Fm → Bool) (hu : ∀ f, unsat f = true ↔ f.Unsat) : ∃ r env,
    mxUse unsat (mxReset.map If.stmt) = .ok [r] ∧ mxRun ((mxReset.take (r.index + (r.more + 1))).map If.stmt) (bxEnv [("x", 7)]) = .ok (.go env) ∧
      mxRun ((mxReset.take r.index).map If.stmt ++ merged ((mxReset.drop r.index).take (r.more + 1))) (bxEnv [("x", 7)]) = .ok (.go env) ∧
      env "x".toList = .ok (.int 9) := by
  have hr := mxReset_reported unsat fun f => (hu f).mpr
  refine ⟨_, _, hr, rfl, ?_, rfl⟩
  exact C78_group_partial (ss := mxReset.map If.stmt) (exits := fun _ => false) (fun f => (hu f).mp) mxModified_targets mxModified_kept
    (fun f hf => by
      simp only [List.mem_cons, List.not_mem_nil, or_false] at hf
      rcases hf with rfl | rfl | rfl <;> decide) mxReset_scoped mxReset_integers hr (List.mem_singleton.mpr rfl)
    (by decide +kernel) rfl

/-- `if x > 5: y = 9`, `if y < 3: z = 1` -/
def mxSetsNext : List If := [⟨mxGt "x" 5, bxOne (mxSet "y" 9), .none⟩, ⟨mxLt "y" 3, bxOne (mxSet "z" 1), .none⟩]

theorem mxSetsNext_conditions :
    blockConditions (intSem noRest) (fun _ => false) intGuess (fun _ => true) mxModified (fun _ => false) mxSetsNext =
      .ok (conj [.eq (bxVar "y") 1 (.term (fun _ => 0) (.int 9)),
          .eq (bxVar "y") 2 (.ite (.term (fun _ => 0) (mxTGt "x" 5)) (.var (bxVar "y") 1) (.var (bxVar "y") 0))],
        [[.term (fun _ => 0) (mxTGt "x" 5)], [.term (Ver.set (fun _ => 0) (bxVar "y") 2) (mxTLt "y" 3)]]) := rfl

theorem mxSetsNext_unmodified :
    unmodifiedConditions (fun _ => true) (intSem noRest) (fun _ => false) intGuess (fun _ => true) mxModified mxSetsNext =
      .ok (some [[.term (fun _ => 0) (mxTGt "x" 5)], [.term (fun _ => 0) (mxTLt "y" 3)]]) := rfl

/-- **C79** is false: of `if x > 5: y = 9`, `if y < 3: z = 1` the message is `use-if-elif-else`, "But no variables from test
conditions are modified", but `y` is. -/
theorem C79_counterexample (unsat : Fm → Bool) (hu : ∀ f, unsat f = true ↔ f.Unsat) :
    ∃ r, mxUse unsat (mxSetsNext.map If.stmt) = .ok [r] ∧ r.modifying = false ∧
      (∃ i ∈ (mxSetsNext.drop r.index).take (r.more + 1), ∃ t ∈ i.tests, "y".toList ∈ names t) ∧
      ∃ env, mxRun (mxSetsNext.map If.stmt) (bxEnv [("x", 7), ("y", 1)]) = .ok (.go env) ∧
        bxEnv [("x", 7), ("y", 1)] "y".toList = .ok (.int 1) ∧ env "y".toList = .ok (.int 9) := by
  refine ⟨⟨0, false, 1⟩, ?_, rfl, ⟨⟨mxLt "y" 3, bxOne (mxSet "z" 1), .none⟩, by simp [mxSetsNext], mxLt "y" 3,
    by simp [If.tests], by decide⟩, _, rfl, rfl, rfl⟩
  have hc : count unsat (conj [.eq (bxVar "y") 1 (.term (fun _ => 0) (.int 9)),
          .eq (bxVar "y") 2 (.ite (.term (fun _ => 0) (mxTGt "x" 5)) (.var (bxVar "y") 1) (.var (bxVar "y") 0))])
        [[.term (fun _ => 0) (mxTGt "x" 5)], [.term (Ver.set (fun _ => 0) (bxVar "y") 2) (mxTLt "y" 3)]] 0 = 2 := by
    simp only [count, List.drop_zero, countFrom, canMerge, List.nil_append, List.cons_append, List.map_cons, List.map_nil]
    rw [(hu _).mpr]
    · rfl
    · intro zero σ
      simp only [Fm.eval, conj, disj, Vl.eval, termValue, Term.eval, mxTGt, mxTLt, at_, Ver.set, TV.int?, num, eqValue, iteValue,
        if_true, Option.map_some, Option.bind_some, intCmp, Bool.and_true, Bool.or_false, decide_eq_true_eq, Option.some.injEq,
        TV.bool.injEq]
      by_cases h1 : 5 < σ (bxVar "x") 0 <;> simp [h1] <;> omega
  have hn : count unsat .tt [[.term (fun _ => 0) (mxTGt "x" 5)], [.term (fun _ => 0) (mxTLt "y" 3)]] 0 = 1 := by
    simp only [count, List.drop_zero, countFrom, canMerge, List.nil_append, List.cons_append, List.map_cons, List.map_nil,
      Bool.and_true]
    rw [if_neg]
    intro h
    have := (hu _).mp h (fun _ => 0) (fun k _ => if k = bxVar "x" then 7 else 1)
    revert this
    decide
  have h1 : consecutiveIfs (mxSetsNext.map If.stmt) = mxSetsNext := rfl
  unfold mxUse useIfElifElse
  rw [h1]
  simp only [Bool.false_eq_true, if_false, show mxSetsNext.length = 2 from rfl, show ¬ 2 < 2 by omega, reportFrom, nextBlocks,
    nextUnmodified, List.length_nil, Nat.le_refl, if_true, List.drop_zero, mxSetsNext_conditions, mxSetsNext_unmodified, hc, hn,
    Nat.not_le_of_lt (show 0 < 2 by omega)]
  rfl

/-- `if x > 0: …`, `if x < 0: …`, where `…` does not assign to variables. -/
def mxOther : List If := [⟨mxGt "x" 0, bxOne (.other 0), .none⟩, ⟨mxLt "x" 0, bxOne (.other 1), .none⟩]

/-- What is reported, by the second strategy. -/
example (unsat : Fm → Bool) (hu : ∀ f, f.Unsat → unsat f = true) :
    useIfElifElse (fun _ => false) (intSem noRest) (fun _ => false) intGuess (fun _ => true) mxModified mxModified (fun _ => false)
      unsat false (mxOther.map If.stmt) = .ok [⟨0, false, 1⟩] := by
  have hb : blockConditions (intSem noRest) (fun _ => false) intGuess (fun _ => true) mxModified (fun _ => false) mxOther =
      .ok (.tt, []) := rfl
  have hn : unmodifiedConditions (fun _ => false) (intSem noRest) (fun _ => false) intGuess (fun _ => true) mxModified mxOther =
      .ok (some [[.term (fun _ => 0) (mxTGt "x" 0)], [.term (fun _ => 0) (mxTLt "x" 0)]]) := rfl
  have hc : count unsat .tt [[.term (fun _ => 0) (mxTGt "x" 0)], [.term (fun _ => 0) (mxTLt "x" 0)]] 0 = 2 := by
    simp only [count, List.drop_zero, countFrom, canMerge, List.nil_append, List.cons_append, List.map_cons,
      List.map_nil]
    rw [hu]
    · rfl
    · intro zero σ
      simp only [Fm.eval, conj, disj, termValue, Term.eval, mxTGt, mxTLt, at_, TV.int?, num,
        Option.map_some, Option.bind_some, intCmp, Bool.and_true, Bool.true_and, Bool.or_false]
      by_cases h1 : 0 < σ (bxVar "x") 0 <;> simp [h1] <;> omega
  have h1 : consecutiveIfs (mxOther.map If.stmt) = mxOther := rfl
  unfold useIfElifElse
  rw [h1]
  simp only [Bool.false_eq_true, if_false, show mxOther.length = 2 from rfl, show ¬ 2 < 2 by omega, reportFrom, nextBlocks,
    nextUnmodified, List.length_nil, Nat.le_refl, if_true, List.drop_zero, hb, hn, hc, Nat.not_le_of_lt (show 0 < 2 by omega)]
  rfl

end Verif.Py.Blocks

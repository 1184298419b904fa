import Verif.Props.SortFails
import Verif.Props.Runs

/-!
C20, C21, C46 and the rest of C17: what the check command prints and how it ends.
-/

namespace Verif

/-! ### C17, to the end -/

theorem applyTweaks_keeps {table config} {ps kept : List Problem} (h : applyTweaks table config ps = .ok kept)
    {p : Problem} (hp : p ∈ ps) (hn : Dict.get? table (p.source, p.code) = none) : p ∈ kept := by
  induction ps generalizing kept with
  | nil => simp at hp
  | cons q ps ih =>
    simp only [applyTweaks] at h
    split at h
    · cases h
    · rename_i hd hhd
      split at h
      · cases h
      · rename_i r hr
        cases h
        rcases List.mem_cons.1 hp with rfl | hp
        · rw [hn] at hhd
          cases hhd
          simp
        · exact List.mem_append_right _ (ih hr hp)

theorem overrider_not_tweaked {o c : Str} (h : Overrides overriders o c) (l : Linter) :
    Dict.get? tweakers (l, o) = none := by
  obtain ⟨os, hos, ho⟩ := h
  rw [Dict.get?_eq_none_iff]
  have key : ∀ kv ∈ overriders, ∀ o ∈ kv.2, ∀ k ∈ Dict.keys tweakers, k.2 ≠ o := by decide
  intro hm
  exact key (c, os) (Dict.mem_of_get? hos) o ho _ hm rfl

/-- **C17** (the whole way). A problem suppressed by overriding leaves a problem on the same line in the
output, also after messages were filtered and reworded. -/
theorem C17_overrider_reported (config : ImmutableConfig) (found kept : List Problem)
    (h : applyTweaks tweakers config (applyOverrides overriders found) = .ok kept)
    (p : Problem) (hp : p ∈ found) (ho : Overridden overriders found p) :
    ∃ q ∈ kept, q.path = p.path ∧ q.line = p.line := by
  obtain ⟨q, hq, h1, h2, h3, h4⟩ := exists_top found p hp
  have hkept : q ∈ applyOverrides overriders found := by
    by_contra hn
    exact h3 (((C16_overriding_exact overriders found).1 q hq).1 hn)
  rcases h4 with rfl | ⟨c, hc⟩
  · exact absurd ho h3
  · exact ⟨q, applyTweaks_keeps h hkept (overrider_not_tweaked hc _), h1, h2⟩

/-! ### C46 -/

/-- flake8 did not end normally: it always ends with `SystemExit`, with 0 or 1 after checking; or its output
cannot be read. -/
def Flake8Abnormal (run : LinterRun Flake8Raw) : Prop :=
  (run.code ≠ some 0 ∧ run.code ≠ some 1) ∨ run.out = .notJson

/-- pylint did not end normally: it is run so that it returns instead of exiting. -/
def PylintAbnormal (run : LinterRun PylintRaw) : Prop := run.code ≠ some 0 ∨ run.out = .notJson

/-- The failures that the code recognises: for pylint, only return code 32. -/
def PylintFailed (run : LinterRun PylintRaw) : Prop := run.code = some 32 ∨ run.out = .notJson

/-- flake8 is enabled and ended abnormally. -/
def Flake8Fails (env : LintEnv) (files : List Str) (config : ImmutableConfig) : Prop :=
  (∃ v, config.getItem .noFlake8 = .ok v ∧ v.truthy = false) ∧
  ∃ args, config.getItem .flake8 = .ok (.list args) ∧
    Flake8Abnormal (env.flake8 ("--format=json".toList :: args) files)

/-- pylint ended in a way that the code recognises as a failure. -/
def PylintFails (env : LintEnv) (files : List Str) (config : ImmutableConfig) : Prop :=
  ∃ args, config.getItem .pylint = .ok (.list args) ∧
    PylintFailed (env.pylint ("--recursive=y".toList :: args) files)

theorem processResults_flake8 {f : Flake8Raw → Except PyErr Problem} {run : LinterRun Flake8Raw} :
    (Flake8Abnormal run → processResults .flake8 f run = .error .linterFailed ∨
      processResults .flake8 f run = .error .jsonError) ∧
    (¬ Flake8Abnormal run → processResults .flake8 f run ≠ .error .linterFailed ∧
      processResults .flake8 f run ≠ .error .jsonError) := by
  obtain ⟨code, out⟩ := run
  unfold Flake8Abnormal processResults failureCode
  by_cases hc : code ≠ some 0 ∧ code ≠ some 1
  · have : (decide (code ≠ some 0) && decide (code ≠ some 1)) = true := by simp [hc.1, hc.2]
    simp only [this, if_true]
    exact ⟨fun _ => Or.inl trivial, fun h => absurd (Or.inl hc) h⟩
  · have : (decide (code ≠ some 0) && decide (code ≠ some 1)) = false := by
      rw [Bool.eq_false_iff]; simpa using hc
    simp only [this, Bool.false_eq_true, if_false]
    cases out with
    | empty => simp only [hc]; simp
    | notJson => exact ⟨fun _ => Or.inr rfl, fun h => absurd (Or.inr rfl) h⟩
    | problems l =>
      simp only [hc]
      cases mapE f l <;> simp

theorem processResults_pylint {f : PylintRaw → Except PyErr Problem} {run : LinterRun PylintRaw} :
    (PylintFailed run → processResults .pylint f run = .error .linterFailed ∨
      processResults .pylint f run = .error .jsonError) ∧
    (¬ PylintFailed run → processResults .pylint f run ≠ .error .linterFailed ∧
      processResults .pylint f run ≠ .error .jsonError) := by
  obtain ⟨code, out⟩ := run
  unfold PylintFailed processResults failureCode
  by_cases hc : code = some 32
  · simp only [hc, decide_true, if_true]
    exact ⟨fun _ => Or.inl trivial, fun h => absurd (Or.inl trivial) h⟩
  · simp only [hc, decide_false, Bool.false_eq_true, if_false]
    cases out with
    | empty => simp
    | notJson => exact ⟨fun _ => Or.inr rfl, fun h => absurd (Or.inr rfl) h⟩
    | problems l =>
      cases hm : mapE f l <;> simp [hm]

/-- A linter failure (as opposed to any other exception). -/
def LintErr.isFailure : LintErr → Prop
  | .linterFailed => True
  | .jsonError => True
  | .py _ => False

theorem listOption_ok {config o l} (h : listOption config o = .ok l) : config.getItem o = .ok (.list l) := by
  unfold listOption at h
  split at h
  · cases h
  · rename_i l' hl; cases h; exact hl
  · cases h

theorem lintFlake8_ok {env files config ps} (h : lintFlake8 env files config = .ok ps) :
    ∃ args, config.getItem .flake8 = .ok (.list args) ∧
      ¬ Flake8Abnormal (env.flake8 ("--format=json".toList :: args) files) := by
  unfold lintFlake8 at h
  split at h
  · cases h
  · rename_i args ha
    refine ⟨args, listOption_ok ha, fun hab => ?_⟩
    rcases processResults_flake8.1 hab with hp | hp <;> rw [hp] at h <;> cases h

theorem lintFlake8_failure {env files config e} (h : lintFlake8 env files config = .error e)
    (he : e.isFailure) : ∃ args, config.getItem .flake8 = .ok (.list args) ∧
      Flake8Abnormal (env.flake8 ("--format=json".toList :: args) files) := by
  unfold lintFlake8 at h
  split at h
  · cases h; exact absurd he (by simp [LintErr.isFailure])
  · rename_i args ha
    refine ⟨args, listOption_ok ha, ?_⟩
    by_contra hab
    have := processResults_flake8 (f := flake8ToProblem env.fs config.enablers).2 hab
    rw [h] at this
    cases e <;> simp_all [LintErr.isFailure]

theorem lintPylint_ok {env files config ps} (h : lintPylint env files config = .ok ps) :
    ∃ args, config.getItem .pylint = .ok (.list args) ∧
      ¬ PylintFailed (env.pylint ("--recursive=y".toList :: args) files) := by
  unfold lintPylint at h
  split at h
  · cases h
  · rename_i args ha
    refine ⟨args, listOption_ok ha, fun hab => ?_⟩
    rcases processResults_pylint.1 hab with hp | hp <;> rw [hp] at h <;> cases h

theorem lintPylint_failure {env files config e} (h : lintPylint env files config = .error e)
    (he : e.isFailure) : PylintFails env files config := by
  unfold lintPylint at h
  split at h
  · cases h; exact absurd he (by simp [LintErr.isFailure])
  · rename_i args ha
    refine ⟨args, listOption_ok ha, ?_⟩
    by_contra hab
    have := processResults_pylint (f := pylintToProblem env.fs files config.enablers).2 hab
    rw [h] at this
    cases e <;> simp_all [LintErr.isFailure]

/-- Linting a group succeeds only if no linter failed, and reports a failure only if one did. -/
theorem lint_failure (env : LintEnv) (items : List Item) (config : ImmutableConfig) :
    (∀ ps, lint env items config = .ok ps →
      ¬ Flake8Fails env (items.map (·.path)) config ∧ ¬ PylintFails env (items.map (·.path)) config) ∧
    (∀ e, lint env items config = .error e → e.isFailure →
      Flake8Fails env (items.map (·.path)) config ∨ PylintFails env (items.map (·.path)) config) := by
  have hno : ∀ e, ¬ (LintErr.py e).isFailure := fun e h => h
  constructor
  · intro ps h
    unfold lint at h
    simp only at h
    split at h
    · cases h
    split at h
    · cases h
    rename_i v hv
    split at h
    · cases h
    rename_i flake8 hf
    split at h
    · cases h
    rename_i pylint hp
    refine ⟨?_, ?_⟩
    · rintro ⟨⟨v', hv', hfalse⟩, args, ha, hab⟩
      rw [hv] at hv'
      cases hv'
      rw [if_neg (by simp [hfalse])] at hf
      obtain ⟨args', ha', hn⟩ := lintFlake8_ok hf
      rw [ha] at ha'
      cases ha'
      exact hn hab
    · rintro ⟨args, ha, hab⟩
      obtain ⟨args', ha', hn⟩ := lintPylint_ok hp
      rw [ha] at ha'
      cases ha'
      exact hn hab
  · intro e h he
    unfold lint at h
    simp only at h
    split at h
    · cases h; exact absurd he (hno _)
    split at h
    · cases h; exact absurd he (hno _)
    rename_i v hv
    split at h
    · rename_i e' hf
      cases h
      left
      by_cases hb : v.truthy = true
      · rw [if_pos hb] at hf; cases hf
      · rw [if_neg hb] at hf
        exact ⟨⟨v, hv, by simpa using hb⟩, lintFlake8_failure hf he⟩
    split at h
    · rename_i e' hp
      cases h
      exact Or.inr (lintPylint_failure hp he)
    split at h
    · cases h; exact absurd he (hno _)
    split at h
    · cases h; exact absurd he (hno _)
    · cases h

/-- Some linter of the run failed. -/
def SomeLinterFails (env : LintEnv) (groups : List RunGroup) : Prop :=
  ∃ g ∈ groups, Flake8Fails env (g.items.map (·.path)) g.config ∨ PylintFails env (g.items.map (·.path)) g.config

theorem lintMany_failure (env : LintEnv) (groups : List RunGroup) :
    (∀ ps, lintMany env groups = .ok ps → ¬ SomeLinterFails env groups) ∧
    (∀ e, lintMany env groups = .error e → e.isFailure → SomeLinterFails env groups) := by
  induction groups with
  | nil =>
    constructor
    · rintro ps - ⟨g, hg, -⟩; simp at hg
    · intro e h; cases h
  | cons g gs ih =>
    constructor
    · intro ps h
      simp only [lintMany] at h
      split at h
      · cases h
      rename_i a ha
      split at h
      · cases h
      split at h
      · cases h
      rename_i r hr
      rintro ⟨g', hg', hf⟩
      rcases List.mem_cons.1 hg' with rfl | hg'
      · have := (lint_failure env g'.items g'.config).1 a ha
        rcases hf with hf | hf
        · exact this.1 hf
        · exact this.2 hf
      · exact ih.1 r hr ⟨g', hg', hf⟩
    · intro e h he
      simp only [lintMany] at h
      split at h
      · rename_i e' ha
        cases h
        exact ⟨g, by simp, (lint_failure env g.items g.config).2 e ha he⟩
      split at h
      · cases h; exact absurd he (fun h => h)
      split at h
      · rename_i e' hr
        cases h
        obtain ⟨g', hg', hf⟩ := ih.2 e hr he
        exact ⟨g', by simp [hg'], hf⟩
      · cases h

/-- **C46** for the failures recognised by the code: if flake8 (when enabled) ends abnormally or pylint
ends with 32 or unreadable output, linting the group is an error, never a list of problems. Missing:
the other ways in which pylint can end with `SystemExit`, see the counterexample. -/
theorem C46_failure_partial (env : LintEnv) (groups : List RunGroup) (h : SomeLinterFails env groups) :
    ∃ e, lintMany env groups = .error e := by
  cases hl : lintMany env groups with
  | error e => exact ⟨e, rfl⟩
  | ok ps => exact absurd h ((lintMany_failure env groups).1 ps hl)

/-! ### C20 -/

/-- **C20** for runs that end without an unforeseen exception: the status is 2 exactly if a path does not
exist or a linter failed, 0 exactly if nothing failed and nothing is reported, 1 exactly if
nothing failed and something is reported. Missing: unforeseen exceptions, for which the property
is false (`C20_counterexample`). -/
theorem C20_exit_status_partial (env : Env) (lenv : LintEnv) (fuel : Nat) (given : List GivenPath)
    (options : List Str) (out : Option (List RunGroup × List Problem))
    (h : checkCode env lenv fuel given options = .ok out) :
    let status := exitStatus (checkReturn (checkCode env lenv fuel given options))
    let failed := (∃ g ∈ given, g.tree.isNone) ∨
      ∃ items groups, existing given = some items ∧ getConfigMany env fuel items options = .ok groups ∧
        SomeLinterFails lenv groups
    (status = 2 ↔ failed) ∧
      (status = 0 ↔ ¬ failed ∧ ∃ gs, out = some (gs, [])) ∧
      (status = 1 ↔ ¬ failed ∧ ∃ gs p ps, out = some (gs, p :: ps)) := by
  have hex : ∀ l : List GivenPath, existing l = none ↔ ∃ g ∈ l, g.tree.isNone := by
    intro l
    induction l with
    | nil => simp [existing]
    | cons g gs ih =>
      simp only [existing]
      cases ht : g.tree with
      | none => simp [ht]
      | some t =>
        simp only
        cases he : existing gs with
        | none => simpa [ht] using ih.1 he
        | some is =>
          have : ¬ ∃ g ∈ gs, g.tree.isNone := fun hh => by simp [ih.2 hh] at he
          simpa [ht] using this
  intro status failed
  have hst : status = exitStatus (checkReturn (.ok out)) := by
    show exitStatus (checkReturn (checkCode env lenv fuel given options)) = _
    rw [h]
  have key : out = none ↔ failed := by
    unfold checkCode at h
    split at h
    · rename_i he
      cases h
      exact ⟨fun _ => Or.inl ((hex given).1 he), fun _ => rfl⟩
    rename_i items he
    have hno : ¬ ∃ g ∈ given, g.tree.isNone := fun hh => by rw [(hex given).2 hh] at he; cases he
    split at h
    · cases h
    rename_i groups hg
    have hfail : failed ↔ SomeLinterFails lenv groups := by
      constructor
      · rintro (hh | ⟨i, gs, h1, h2, h3⟩)
        · exact absurd hh hno
        · rw [he] at h1; cases h1
          rw [hg] at h2; cases h2
          exact h3
      · intro hh
        exact Or.inr ⟨items, groups, he, hg, hh⟩
    rw [hfail]
    split at h
    · cases h
    · rename_i e hne hl
      cases h
      refine ⟨fun _ => (lintMany_failure lenv groups).2 e hl ?_, fun _ => rfl⟩
      cases e with
      | py e => exact absurd rfl (hne e)
      | linterFailed => trivial
      | jsonError => trivial
    · rename_i ps hl
      split at h
      · cases h
      · cases h
        simp [(lintMany_failure lenv groups).1 ps hl]
  rw [hst, ← key]
  cases out with
  | none => simp [exitStatus, checkReturn]
  | some o =>
    obtain ⟨gs, ps⟩ := o
    cases ps with
    | nil => simp [exitStatus, checkReturn]
    | cons p ps => simp [exitStatus, checkReturn]

/-- Linters of the examples: flake8 reports one problem in every path, pylint nothing. -/
def exLint : LintEnv where
  fs := exFs
  tr := ⟨[], fun _ => []⟩
  setOrder := id
  flake8 := fun _ files => ⟨some 1, .problems (files.map fun f => ⟨f, 1, 1, "W391".toList, []⟩)⟩
  pylint := fun _ _ => ⟨some 0, .problems []⟩

example : exitStatus (checkReturn (checkCode plainEnv exLint 3 [⟨"b.py".toList, some (.file [])⟩] [])) = 1 ∧
    exitStatus (checkReturn (checkCode plainEnv exLint 3 [⟨"b.py".toList, some (.file [])⟩] ["no-flake8".toList])) = 0 ∧
    exitStatus (checkReturn (checkCode plainEnv exLint 3 [⟨"b.py".toList, none⟩] [])) = 2 := by
  decide +kernel

/-- **C46 is false of the code**: if pylint ends with any other code (2 is the one of a usage error reported
by the argument parser) and prints nothing, the run reports no problems and ends with status 0. -/
theorem C46_counterexample :
    ∃ env lenv fuel given options groups,
      checkCode env lenv fuel given options = .ok (some (groups, [])) ∧
      exitStatus (checkReturn (checkCode env lenv fuel given options)) = 0 ∧
      ∀ args files, PylintAbnormal (lenv.pylint args files) := by
  let lenv : LintEnv := { exLint with flake8 := fun _ _ => ⟨some 0, .empty⟩, pylint := fun _ _ => ⟨some 2, .empty⟩ }
  have h : (match checkCode plainEnv lenv 3 [⟨"b.py".toList, some (.file [])⟩] [] with
      | .ok (some (_, [])) => true | _ => false) = true := by
    decide +kernel
  split at h
  · rename_i groups hc
    refine ⟨plainEnv, lenv, 3, _, _, groups, hc, by rw [hc]; rfl, fun args files => Or.inl ?_⟩
    show some (2 : Int) ≠ some 0
    simp
  · cases h

/-- **C20 is false of the code**: an unforeseen exception is logged and the process ends with status 0.
Here flake8 finds a problem in a file given as `a/../b.py`; ordering the problems fails (C19), and
the run ends as if nothing had been found. -/
theorem C20_counterexample :
    ∃ env lenv fuel given options e,
      checkCode env lenv fuel given options = .error e ∧
      exitStatus (checkReturn (checkCode env lenv fuel given options)) = 0 ∧
      ∃ files raw, (lenv.flake8 ["--format=json".toList] files).out = .problems [raw] ∧
        files = given.map (·.path) := by
  have h : (checkCode plainEnv exLint 3 [⟨"a/../b.py".toList, some (.file [])⟩] []).isOk = false := by
    decide +kernel
  cases hc : checkCode plainEnv exLint 3 [⟨"a/../b.py".toList, some (.file [])⟩] [] with
  | ok o => rw [hc] at h; cases h
  | error e =>
    exact ⟨plainEnv, exLint, 3, [⟨"a/../b.py".toList, some (.file [])⟩], [], e, hc,
      by rw [hc]; rfl, ["a/../b.py".toList], _, rfl, rfl⟩

/-! ### C21 -/

/-- Equal elements are next to each other. -/
def Contig {α : Type} (l : List α) : Prop := ∀ a b c, [a, b, c].Sublist l → a = c → b = a

theorem Contig.sublist {α : Type} {l m : List α} (h : Contig m) (hs : l.Sublist m) : Contig l :=
  fun a b c habc => h a b c (habc.trans hs)

/-- The headers printed before problems. -/
theorem printLoop_headers (k : Str) : ∀ (prev : Option Str) (l : List Problem),
    Contig (prev.toList ++ l.map (·.path)) →
    ((printLoop false prev l).filter fun x => x = .header k).length =
      if k ∈ l.map (·.path) ∧ prev ≠ some k then 1 else 0 := by
  intro prev l
  induction l generalizing prev with
  | nil => intro _; simp [printLoop]
  | cons p l ih =>
    intro hc
    simp only [printLoop, Bool.not_false, Bool.true_and, decide_eq_true_eq]
    by_cases hp : prev = some p.path
    · rw [if_neg (by simp [hp])]
      have hsub : (prev.toList ++ l.map (·.path)).Sublist (prev.toList ++ (p :: l).map (·.path)) :=
        List.Sublist.append_left (List.sublist_cons_self _ _) _
      have := ih prev (hc.sublist hsub)
      rw [List.filter_cons, if_neg (by simp), this]
      by_cases hk : prev = some k
      · simp [hk]
      · have : k ≠ p.path := fun e => hk (by rw [hp, e])
        simp [hk, this]
    · rw [if_pos hp]
      have hsub : ((some p.path).toList ++ l.map (·.path)).Sublist (prev.toList ++ (p :: l).map (·.path)) := by
        show (p.path :: l.map (·.path)).Sublist _
        exact List.sublist_append_right _ _
      have hrec := ih (some p.path) (hc.sublist hsub)
      rw [List.filter_cons, List.filter_cons, if_neg (c := decide (Printed.problem p = .header k) = true) (by simp)]
      by_cases hk : p.path = k
      · subst hk
        rw [if_pos (by simp)]
        simp only [List.length_cons, hrec]
        simp [hp]
      · rw [if_neg (by simpa using hk), hrec]
        have hk' : ¬ some p.path = some k := by simpa using hk
        by_cases hpk : prev = some k
        · have : k ∉ l.map (·.path) := by
            intro hm
            have := hc k p.path k (by
              subst hpk
              show List.Sublist _ (k :: p.path :: l.map (·.path))
              exact List.Sublist.cons_cons _ (List.Sublist.cons_cons _ (List.singleton_sublist.2 hm))) rfl
            exact hk this
          simp [this, hpk]
        · have hke : ¬ k = p.path := fun e => hk e.symm
          simp [hk', hpk, hke]

theorem printLoop_problems (single : Bool) (prev : Option Str) (l : List Problem) :
    (printLoop single prev l).filterMap (fun x => match x with | .problem p => some p | _ => none) = l := by
  induction l generalizing prev with
  | nil => rfl
  | cons p l ih =>
    simp only [printLoop]
    split <;> simp [ih]

/-- The path whose header was printed last. -/
def lastHeader (printed : List Printed) : Option Str :=
  (printed.filterMap fun x => match x with | .header k => some k | _ => none).getLast?

theorem printLoop_under (prev : Option Str) (l : List Problem) {pre post : List Printed} {p : Problem}
    (h : printLoop false prev l = pre ++ .problem p :: post) :
    (lastHeader pre).or prev = some p.path := by
  induction l generalizing prev pre with
  | nil => simp [printLoop] at h
  | cons q l ih =>
    simp only [printLoop, Bool.not_false, Bool.true_and, decide_eq_true_eq] at h
    split at h
    · cases pre with
      | nil => simp at h
      | cons x pre =>
        simp only [List.cons_append, List.cons.injEq] at h
        obtain ⟨rfl, h⟩ := h
        cases pre with
        | nil =>
          simp only [List.nil_append, List.cons.injEq, Printed.problem.injEq] at h
          simp [lastHeader, h.1]
        | cons y pre =>
          simp only [List.cons_append, List.cons.injEq] at h
          obtain ⟨rfl, h⟩ := h
          have := ih _ h
          simp only [lastHeader, List.filterMap_cons] at this ⊢
          cases hl : (List.filterMap (fun x => match x with | Printed.header k => some k | _ => none) pre).getLast? with
          | none =>
            rw [hl] at this
            have hnil : List.filterMap (fun x => match x with | Printed.header k => some k | _ => none) pre = [] := by
              simpa using hl
            simpa [hnil] using this
          | some z =>
            rw [hl] at this
            simp only [List.getLast?_cons, hl]
            simpa using this
    · rename_i hp
      cases pre with
      | nil =>
        simp only [List.nil_append, List.cons.injEq, Printed.problem.injEq] at h
        obtain ⟨rfl, h⟩ := h
        simpa [lastHeader] using hp
      | cons x pre =>
        simp only [List.cons_append, List.cons.injEq] at h
        obtain ⟨rfl, h⟩ := h
        simpa [lastHeader] using ih _ h

theorem strLt_asymm {a b : Str} (h : StrLt a b) (h' : StrLt b a) : False := by
  have h1 := (strLe_iff a b).2 (Or.inr h)
  have h2 := (strLe_iff b a).2 (Or.inr h')
  have := strLe_antisymm h1 h2
  subst this
  clear h1 h2 h'
  induction a with
  | nil => cases h
  | cons c a ih =>
    cases h with
    | cons h => exact ih h
    | rel h => omega

theorem contig_of_before {files : List Str} {l : List Problem} (h : l.Pairwise (Before files)) :
    Contig (l.map (·.path)) := by
  intro a b c hs hac
  obtain ⟨l', hl', hmap⟩ := List.sublist_map_iff.1 hs
  have hpw := h.sublist hl'
  match l', hmap with
  | [p, q, r], hmap =>
    simp only [List.map_cons, List.map_nil, List.cons.injEq, and_true] at hmap
    obtain ⟨rfl, rfl, rfl⟩ := hmap
    simp only [List.pairwise_cons, List.mem_cons, List.not_mem_nil, or_false, forall_eq_or_imp, forall_eq] at hpw
    obtain ⟨⟨i, j, hi, hj, hpq⟩, -⟩ := hpw.1
    obtain ⟨j', k, hj', hk, hqr⟩ := hpw.2.1
    have e1 := rank_unique rfl hj hj'
    have e2 := rank_unique hac hi hk
    subst e1 e2
    rcases hpq with h1 | ⟨h1, h2⟩
    · rcases hqr with h3 | ⟨h3, -⟩ <;> omega
    · rcases hqr with h3 | ⟨h3, h4⟩
      · omega
      · rcases h2 with h2 | ⟨h2, -⟩
        · rcases h4 with h4 | ⟨h4, -⟩
          · rw [hac] at h2
            exact absurd h4 (fun h4 => strLt_asymm h2 h4)
          · rw [h4, hac]
        · exact h2.symm

theorem checksSingleFile_iff (items : List Item) :
    checksSingleFile items = true ↔ ∃ path lines, items = [⟨path, .file lines⟩] := by
  unfold checksSingleFile
  split
  · rename_i path lines; exact ⟨fun _ => ⟨path, lines, rfl⟩, fun _ => rfl⟩
  · rename_i hn
    refine ⟨fun h => (by cases h), ?_⟩
    rintro ⟨path, lines, h⟩
    exact absurd h (hn path lines)

/-- **C21.** Every problem is printed exactly once, in order. If anything but a single file is checked (several paths, or
a directory), each file with problems gets its header exactly once, and the last header before a problem is that of
its file. For a single file no header is printed. -/
theorem C21_printing (files : List Str) (found out : List Problem) (h : sortProblems files found = .ok out)
    (items : List Item) :
    let printed := printLoop (checksSingleFile items) none out
    printed.filterMap (fun x => match x with | .problem p => some p | _ => none) = out ∧ out.Perm found ∧
      ((¬ ∃ path lines, items = [⟨path, .file lines⟩]) →
        (∀ path, (printed.filter fun x => x = .header path).length = if path ∈ out.map (·.path) then 1 else 0) ∧
        ∀ pre p post, printed = pre ++ .problem p :: post → lastHeader pre = some p.path) ∧
      ((∃ path lines, items = [⟨path, .file lines⟩]) → printed = out.map .problem) := by
  intro printed
  rw [← checksSingleFile_iff, Bool.not_eq_true]
  obtain ⟨hperm, hpw, -⟩ := C18_order_partial files found out h
  refine ⟨printLoop_problems _ _ _, hperm, ?_, ?_⟩
  · intro hs
    have hpr : printed = printLoop false none out := by show printLoop _ _ _ = _; rw [hs]
    refine ⟨?_, ?_⟩
    · intro path
      rw [hpr, printLoop_headers path none out (contig_of_before hpw)]
      simp
    · intro pre p post hsplit
      rw [hpr] at hsplit
      simpa using printLoop_under none out hsplit
  · intro hs
    have hpr : printed = printLoop true none out := by show printLoop _ _ _ = _; rw [hs]
    rw [hpr]
    clear hpr printed h hperm hpw
    generalize (none : Option Str) = prev
    induction out generalizing prev with
    | nil => rfl
    | cons p out ih => simp [printLoop, ih]

example : (printLoop false none [exProblem "d/a.py" "E1" 1 0, exProblem "d/a.py" "E2" 2 0, exProblem "b.py" "E1" 1 7]).map
      (fun x => String.ofList x.str)
    = ["****************** a.py", "d/a.py:1:0: E1 ", "d/a.py:2:0: E2 ", "****************** b.py", "b.py:1:7: E1 "] := by
  decide +kernel

end Verif

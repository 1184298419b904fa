import Verif.Props.Filters
import Verif.Props.Translate

/-!
C60: what a run reports is what the linters reported.
-/

namespace Verif

/-- `p` is a message of flake8 about the files of the group: flake8 is not switched off and was given the arguments
of the configuration and all paths of the group. -/
def FromFlake8 (env : LintEnv) (g : RunGroup) (p : Problem) : Prop :=
  (∃ v, g.config.getItem .noFlake8 = .ok v ∧ v.truthy = false) ∧
  ∃ args l raw, g.config.getItem .flake8 = .ok (.list args) ∧
    (env.flake8 ("--format=json".toList :: args) (g.items.map (·.path))).out = .problems l ∧ raw ∈ l ∧
    properPath env.fs raw.filename = .ok p.path ∧
    p = { source := .flake8, enabledBy := Dict.get? g.config.enablers raw.code, path := p.path, line := raw.line,
          column := raw.column, code := raw.code, text := raw.text }

/-- `p` is a message of pylint about the files of the group. The enabler is looked up by the code, then by
the symbol of the message. -/
def FromPylint (env : LintEnv) (g : RunGroup) (p : Problem) : Prop :=
  ∃ args l raw used, g.config.getItem .pylint = .ok (.list args) ∧
    (env.pylint ("--recursive=y".toList :: args) (g.items.map (·.path))).out = .problems l ∧ raw ∈ l ∧
    usedFilename env.fs (g.items.map (·.path)) raw.path = .ok used ∧ properPath env.fs used = .ok p.path ∧
    (∀ e, Dict.get? g.config.enablers raw.messageId = some e → p.enabledBy = some e) ∧
    (Dict.get? g.config.enablers raw.messageId = none → p.enabledBy = Dict.get? g.config.enablers raw.symbol) ∧
    p = { source := .pylint, enabledBy := p.enabledBy, path := p.path, line := raw.line, column := raw.column,
          code := raw.messageId, text := raw.message, endLine := raw.endLine, endColumn := raw.endColumn,
          symbol := some raw.symbol }

/-- `p` is about a forbidden comment in a file of the group (see C22). -/
def FromEdulint (env : LintEnv) (g : RunGroup) (p : Problem) : Prop :=
  ∃ ignored, g.config.getItem .ignoreInfileConfigFor = .ok (.list ignored) ∧ ignored ≠ [] ∧
    p ∈ reportInfile g.items (env.setOrder (expandIgnored ignored)) g.config.enablers

/-- `p` was found in the files of the group. -/
def FoundIn (env : LintEnv) (g : RunGroup) (p : Problem) : Prop :=
  FromEdulint env g p ∨ FromFlake8 env g p ∨ FromPylint env g p

theorem mapE_mem {α β : Type} {f : α → Except PyErr β} {l : List α} {bs : List β} (h : mapE f l = .ok bs) :
    (∀ b ∈ bs, ∃ a ∈ l, f a = .ok b) ∧ ∀ a ∈ l, ∃ b ∈ bs, f a = .ok b := by
  induction l generalizing bs with
  | nil => cases h; simp
  | cons a l ih =>
    simp only [mapE] at h
    split at h
    · cases h
    rename_i b hb
    split at h
    · cases h
    rename_i bs' hbs
    cases h
    obtain ⟨h1, h2⟩ := ih hbs
    constructor
    · intro b' hb'
      rcases List.mem_cons.1 hb' with rfl | hb'
      · exact ⟨a, by simp, hb⟩
      · obtain ⟨a', ha', hf⟩ := h1 b' hb'
        exact ⟨a', by simp [ha'], hf⟩
    · intro a' ha'
      rcases List.mem_cons.1 ha' with rfl | ha'
      · exact ⟨b, by simp, hb⟩
      · obtain ⟨b', hb', hf⟩ := h2 a' ha'
        exact ⟨b', by simp [hb'], hf⟩

theorem processResults_mem {ρ : Type} {linter : Linter} {f : ρ → Except PyErr Problem} {run : LinterRun ρ} {ps : List Problem}
    (h : processResults linter f run = .ok ps) (p : Problem) :
    p ∈ ps ↔ ∃ l raw, run.out = .problems l ∧ raw ∈ l ∧ f raw = .ok p := by
  unfold processResults at h
  split at h
  · cases h
  cases ho : run.out with
  | empty => simp only [ho] at h; cases h; simp
  | notJson => simp only [ho] at h; cases h
  | problems l =>
    simp only [ho] at h
    split at h
    · cases h
    rename_i qs hq
    cases h
    obtain ⟨h1, h2⟩ := mapE_mem hq
    constructor
    · intro hp
      obtain ⟨raw, hr, hf⟩ := h1 p hp
      exact ⟨l, raw, rfl, hr, hf⟩
    · rintro ⟨l', raw, hl, hr, hf⟩
      cases hl
      obtain ⟨q, hq, hf'⟩ := h2 raw hr
      rw [hf] at hf'
      cases hf'
      exact hq

theorem lintFlake8_mem {env files config ps} (h : lintFlake8 env files config = .ok ps) (p : Problem) :
    p ∈ ps ↔ ∃ args l raw, config.getItem .flake8 = .ok (.list args) ∧
      (env.flake8 ("--format=json".toList :: args) files).out = .problems l ∧ raw ∈ l ∧
      properPath env.fs raw.filename = .ok p.path ∧
      p = { source := .flake8, enabledBy := Dict.get? config.enablers raw.code, path := p.path, line := raw.line,
            column := raw.column, code := raw.code, text := raw.text } := by
  unfold lintFlake8 at h
  split at h
  · cases h
  rename_i args ha
  have ha := listOption_ok ha
  rw [processResults_mem h]
  have key : ∀ raw, flake8ToProblem env.fs config.enablers raw = .ok p ↔ properPath env.fs raw.filename = .ok p.path ∧
      p = { source := .flake8, enabledBy := Dict.get? config.enablers raw.code, path := p.path, line := raw.line,
            column := raw.column, code := raw.code, text := raw.text } := by
    intro raw
    unfold flake8ToProblem
    cases hp : properPath env.fs raw.filename with
    | error e => simp
    | ok path =>
      simp only [Except.ok.injEq]
      constructor
      · intro h; subst h; exact ⟨rfl, rfl⟩
      · rintro ⟨h1, h2⟩; rw [h1]; exact h2.symm
  constructor
  · rintro ⟨l, raw, h1, h2, h3⟩
    exact ⟨args, l, raw, ha, h1, h2, (key raw).1 h3⟩
  · rintro ⟨args', l, raw, h0, h1, h2, h3⟩
    rw [ha] at h0
    cases h0
    exact ⟨l, raw, h1, h2, (key raw).2 h3⟩

theorem lintPylint_mem {env files config ps} (h : lintPylint env files config = .ok ps) (p : Problem) :
    p ∈ ps ↔ ∃ args l raw used, config.getItem .pylint = .ok (.list args) ∧
      (env.pylint ("--recursive=y".toList :: args) files).out = .problems l ∧ raw ∈ l ∧
      usedFilename env.fs files raw.path = .ok used ∧ properPath env.fs used = .ok p.path ∧
      (∀ e, Dict.get? config.enablers raw.messageId = some e → p.enabledBy = some e) ∧
      (Dict.get? config.enablers raw.messageId = none → p.enabledBy = Dict.get? config.enablers raw.symbol) ∧
      p = { source := .pylint, enabledBy := p.enabledBy, path := p.path, line := raw.line, column := raw.column,
            code := raw.messageId, text := raw.message, endLine := raw.endLine, endColumn := raw.endColumn,
            symbol := some raw.symbol } := by
  unfold lintPylint at h
  split at h
  · cases h
  rename_i args ha
  have ha := listOption_ok ha
  rw [processResults_mem h]
  have key : ∀ raw, pylintToProblem env.fs files config.enablers raw = .ok p ↔ ∃ used,
      usedFilename env.fs files raw.path = .ok used ∧ properPath env.fs used = .ok p.path ∧
      (∀ e, Dict.get? config.enablers raw.messageId = some e → p.enabledBy = some e) ∧
      (Dict.get? config.enablers raw.messageId = none → p.enabledBy = Dict.get? config.enablers raw.symbol) ∧
      p = { source := .pylint, enabledBy := p.enabledBy, path := p.path, line := raw.line, column := raw.column,
            code := raw.messageId, text := raw.message, endLine := raw.endLine, endColumn := raw.endColumn,
            symbol := some raw.symbol } := by
    intro raw
    unfold pylintToProblem
    cases hu : usedFilename env.fs files raw.path with
    | error e => simp
    | ok used =>
      simp only
      cases hp : properPath env.fs used with
      | error e => simp only [reduceCtorEq, false_iff]; rintro ⟨_, h1, h2, -⟩; cases h1; rw [hp] at h2; cases h2
      | ok path =>
        simp only [Except.ok.injEq]
        constructor
        · intro h
          subst h
          refine ⟨used, rfl, hp, ?_, ?_, rfl⟩
          · intro e he; simp [he]
          · intro he; simp [he]
        · rintro ⟨_, rfl, h1, h2, h3, h4⟩
          rw [hp] at h1
          cases h1
          have : (Dict.get? config.enablers raw.messageId).or (Dict.get? config.enablers raw.symbol) = p.enabledBy := by
            cases hm : Dict.get? config.enablers raw.messageId with
            | none => simp [h3 hm]
            | some e => simp [h2 e hm]
          rw [this]
          exact h4.symm
  constructor
  · rintro ⟨l, raw, h1, h2, h3⟩
    obtain ⟨used, h4⟩ := (key raw).1 h3
    exact ⟨args, l, raw, used, ha, h1, h2, h4⟩
  · rintro ⟨args', l, raw, used, h0, h1, h2, h3⟩
    rw [ha] at h0
    cases h0
    exact ⟨l, raw, h1, h2, (key raw).2 ⟨used, h3⟩⟩

theorem filtered_mem {ps kept : List Problem} (h : Filtered ps kept) :
    (∀ q ∈ kept, ∃ p ∈ ps, q = { p with text := q.text }) ∧
    (∀ p ∈ ps, ¬ Filterable p → ∃ q ∈ kept, q = { p with text := q.text }) := by
  induction h with
  | nil => simp
  | @same p ps ks _ ih =>
    constructor
    · intro q hq
      rcases List.mem_cons.1 hq with rfl | hq
      · exact ⟨q, by simp, rfl⟩
      · obtain ⟨p', h1, h2⟩ := ih.1 q hq; exact ⟨p', by simp [h1], h2⟩
    · intro q hq hf
      rcases List.mem_cons.1 hq with rfl | hq
      · exact ⟨q, by simp, rfl⟩
      · obtain ⟨p', h1, h2⟩ := ih.2 q hq hf; exact ⟨p', by simp [h1], h2⟩
  | @reword p ps ks text _ _ ih =>
    constructor
    · intro q hq
      rcases List.mem_cons.1 hq with rfl | hq
      · exact ⟨p, by simp, rfl⟩
      · obtain ⟨p', h1, h2⟩ := ih.1 q hq; exact ⟨p', by simp [h1], h2⟩
    · intro q hq hf
      rcases List.mem_cons.1 hq with rfl | hq
      · exact ⟨{ q with text := text }, by simp, rfl⟩
      · obtain ⟨p', h1, h2⟩ := ih.2 q hq hf; exact ⟨p', by simp [h1], h2⟩
  | @drop p ps ks hp _ ih =>
    constructor
    · intro q hq
      obtain ⟨p', h1, h2⟩ := ih.1 q hq; exact ⟨p', by simp [h1], h2⟩
    · intro q hq hf
      rcases List.mem_cons.1 hq with rfl | hq
      · exact absurd hp hf
      · exact ih.2 q hq hf

/-- Some problem of the group on the same line suppresses `p`. -/
def Suppressed (env : LintEnv) (g : RunGroup) (p : Problem) : Prop :=
  ∃ q o, FoundIn env g q ∧ q.path = p.path ∧ q.line = p.line ∧ q.code = o ∧ Overrides overriders o p.code

theorem lint_mem {env : LintEnv} {g : RunGroup} {ps : List Problem} (h : lint env g.items g.config = .ok ps) :
    (∀ q ∈ ps, ∃ p, FoundIn env g p ∧ q = { p with text := q.text }) ∧
    (∀ p, FoundIn env g p → ¬ Filterable p → ¬ Suppressed env g p → ∃ q ∈ ps, q = { p with text := q.text }) := by
  unfold lint at h
  simp only at h
  split at h
  · cases h
  rename_i e he
  split at h
  · cases h
  rename_i v hv
  split at h
  · cases h
  rename_i f hf
  split at h
  · cases h
  rename_i y hy
  split at h
  · cases h
  rename_i kept hk
  split at h
  · cases h
  rename_i out ho
  cases h
  have hperm := (C18_order_partial _ _ _ ho).1
  have hfil := filtered_mem (C50_filtering _ _ _ hk)
  have hover := C16_overriding_exact overriders (e ++ f ++ y)
  have hmem : ∀ p, p ∈ e ++ f ++ y ↔ FoundIn env g p := by
    intro p
    rw [List.mem_append, List.mem_append, or_assoc]
    refine or_congr ?_ (or_congr ?_ ?_)
    · unfold lintEdulint at he
      unfold FromEdulint
      split at he
      · cases he
      · rename_i ha
        cases he
        have ha := listOption_ok ha
        rw [ha]
        simp
      · rename_i l hn ha
        cases he
        have ha := listOption_ok ha
        rw [ha]
        constructor
        · intro hp; exact ⟨l, rfl, fun e => hn e, hp⟩
        · rintro ⟨_, h1, -, h2⟩; cases h1; exact h2
    · unfold FromFlake8
      by_cases hb : v.truthy = true
      · rw [if_pos hb] at hf
        cases hf
        rw [hv]
        simp [hb]
      · rw [if_neg hb] at hf
        rw [lintFlake8_mem hf]
        constructor
        · intro hp; exact ⟨⟨v, hv, by simpa using hb⟩, hp⟩
        · exact fun hp => hp.2
    · exact lintPylint_mem hy p
  have hsup : ∀ p, Overridden overriders (e ++ f ++ y) p ↔ Suppressed env g p := by
    intro p
    unfold Overridden Suppressed
    constructor
    · rintro ⟨q, hq, h1, h2, h3⟩
      exact ⟨q, q.code, (hmem q).1 hq, h1, h2, rfl, h3⟩
    · rintro ⟨q, o, hq, h1, h2, rfl, h3⟩
      exact ⟨q, (hmem q).2 hq, h1, h2, h3⟩
  constructor
  · intro q hq
    obtain ⟨p, hp, hqp⟩ := hfil.1 q (hperm.mem_iff.1 hq)
    exact ⟨p, (hmem p).1 (hover.2.1.subset hp), hqp⟩
  · intro p hp hf' hs
    have hp' := (hmem p).2 hp
    have : p ∈ applyOverrides overriders (e ++ f ++ y) := by
      by_contra hn
      exact hs ((hsup p).1 ((hover.1 p hp').1 hn))
    obtain ⟨q, hq, hqp⟩ := hfil.2 p this hf'
    exact ⟨q, hperm.mem_iff.2 hq, hqp⟩

theorem lintMany_mem {env : LintEnv} {groups : List RunGroup} {ps : List Problem} (h : lintMany env groups = .ok ps) :
    (∀ q ∈ ps, ∃ g ∈ groups, ∃ p, FoundIn env g p ∧ q = { p with text := q.text }) ∧
    (∀ g ∈ groups, ∀ p, FoundIn env g p → ¬ Filterable p → ¬ Suppressed env g p → ∃ q ∈ ps, q = { p with text := q.text }) := by
  induction groups generalizing ps with
  | nil => cases h; simp
  | cons g gs ih =>
    simp only [lintMany] at h
    split at h
    · cases h
    rename_i found hl
    split at h
    · cases h
    rename_i tr ht
    split at h
    · cases h
    rename_i rest hr
    cases h
    obtain ⟨h1, h2⟩ := lint_mem hl
    obtain ⟨h3, h4⟩ := ih hr
    obtain ⟨h5, h6⟩ := mapE_mem ht
    have htext : ∀ p q, translateProblem env.tr g.lang p = .ok q → q = { p with text := q.text } := by
      intro p q hq
      rcases C24_translation_partial _ _ _ _ hq with ⟨-, rfl⟩ | ⟨_, _, -, rfl, -⟩ <;> rfl
    constructor
    · intro q hq
      rcases List.mem_append.1 hq with hq | hq
      · obtain ⟨q', hq', hf⟩ := h5 q hq
        obtain ⟨p, hp, he⟩ := h1 q' hq'
        refine ⟨g, by simp, p, hp, ?_⟩
        rw [htext _ _ hf, he]
      · obtain ⟨g', hg', p, hp⟩ := h3 q hq
        exact ⟨g', by simp [hg'], p, hp⟩
    · intro g' hg' p hp hf hs
      rcases List.mem_cons.1 hg' with rfl | hg'
      · obtain ⟨q, hq, he⟩ := h2 p hp hf hs
        obtain ⟨q', hq', hf'⟩ := h6 q hq
        refine ⟨q', by simp [hq'], ?_⟩
        rw [htext _ _ hf', he]
      · obtain ⟨q, hq, he⟩ := h4 g' hg' p hp hf hs
        exact ⟨q, by simp [hq], he⟩

/-- **C60.** Whatever a run reports was found by flake8, pylint or edulint in the files of one of its groups, under the
configuration of the group, and at most its text changed; and everything so found is reported unless
it is suppressed by a problem of the same line or is of one of the kinds that are filtered. -/
theorem C60_reported (env : Env) (lenv : LintEnv) (fuel : Nat) (given : List GivenPath) (options : List Str)
    (groups : List RunGroup) (out : List Problem)
    (h : checkCode env lenv fuel given options = .ok (some (groups, out))) :
    (∀ q ∈ out, ∃ g ∈ groups, ∃ p, FoundIn lenv g p ∧ q = { p with text := q.text }) ∧
    (∀ g ∈ groups, ∀ p, FoundIn lenv g p → ¬ Filterable p → ¬ Suppressed lenv g p →
      ∃ q ∈ out, q = { p with text := q.text }) := by
  unfold checkCode at h
  split at h
  · cases h
  split at h
  · cases h
  split at h
  · cases h
  · cases h
  rename_i ps hps
  split at h
  · cases h
  rename_i sorted hs
  cases h
  have hperm := (C18_order_partial _ _ _ hs).1
  obtain ⟨h1, h2⟩ := lintMany_mem hps
  constructor
  · intro q hq
    exact h1 q (hperm.mem_iff.1 hq)
  · intro g hg p hp hf hsup
    obtain ⟨q, hq, he⟩ := h2 g hg p hp hf hsup
    exact ⟨q, hperm.mem_iff.2 hq, he⟩

example : (match checkCode plainEnv exLint 3 [⟨"b.py".toList, some (.file [])⟩, ⟨"a.py".toList, some (.file [])⟩] [] with
    | .ok (some (_, out)) => out.map fun p => String.ofList p.str
    | _ => []) = ["b.py:1:1: W391 ", "a.py:1:1: W391 "] := by
  decide +kernel

end Verif

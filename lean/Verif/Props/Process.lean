import Verif.Model.Process

/-!
# C151: linters that are run as processes
-/

namespace Verif.Process

/-- The process ends by itself, with the given status, and its output is closed, within the given time. -/
def EndsIn (c : Child) (timeout e : Nat) (status : Int) : Prop := c.ends = some (e, status) ∧ e ≤ timeout ∧ c.eof e ≤ timeout

theorem communicateWithin_some {c : Child} {timeout e : Nat} {status : Int} (h : EndsIn c timeout e status) :
    communicateWithin c timeout { now := 0, fate := c.ends } = (some (c.output e), { now := max e (c.eof e), fate := c.ends }) := by
  obtain ⟨h1, h2, h3⟩ := h
  simp only [communicateWithin, communicate, h1]
  rw [if_pos (by omega)]
  simp

theorem communicateWithin_none {c : Child} {timeout : Nat} (h : ∀ e status, ¬ EndsIn c timeout e status) :
    communicateWithin c timeout { now := 0, fate := c.ends } = (none, { now := timeout, fate := c.ends }) := by
  cases hc : c.ends with
  | none => simp [communicateWithin, communicate]
  | some p =>
    obtain ⟨e, status⟩ := p
    have := h e status
    simp only [EndsIn, hc, true_and, not_and] at this
    simp only [communicateWithin, communicate]
    rw [if_neg (by intro h'; have := this (by omega); omega)]
    simp

theorem kill_fate (s : Sys) : ∃ e status, (kill s).fate = some (e, status) ∧ e ≤ s.now ∧ (kill s).now = s.now := by
  unfold kill
  cases h : poll s with
  | none => exact ⟨s.now, -9, by simp⟩
  | some x =>
    simp only [Option.isSome_some, if_true]
    unfold poll at h
    cases hf : s.fate with
    | none => rw [hf] at h; exact nomatch h
    | some p =>
      rw [hf] at h
      simp only at h
      split at h
      · exact ⟨p.1, p.2, rfl, by assumption, trivial⟩
      · exact nomatch h

theorem poll_of_fate {s : Sys} {e : Nat} {status : Int} (h : s.fate = some (e, status)) (he : e ≤ s.now) : poll s = some status := by
  unfold poll
  rw [h]
  simp [he]

theorem killChildren_dead {c : Child} {s : Sys} {status : Int} (h : poll s = some status) : killChildren c s = (s, false) := by
  unfold killChildren
  simp [h]

/-- **C151**, in time. If the process ends by itself in time, then its status and all that it wrote are returned, it is not killed, and nothing is waited for any longer. -/
theorem C151_in_time {c : Child} {timeout e : Nat} {status : Int} (h : EndsIn c timeout e status) :
    startProcess c timeout = some ((status, (c.output e).1, (c.output e).2), { now := max e (c.eof e), fate := c.ends }) := by
  simp only [startProcess, communicateWithin_some h]
  have hp : poll { now := max e (c.eof e), fate := c.ends } = some status := poll_of_fate h.1 (by simp; omega)
  simp only [hp, killChildren_dead hp]

/-- **C151**, too late. If the process does not end in time, then the status 9 is returned, and the process has ended: at the end of the time at the latest. What is returned is what
it wrote until its end. -/
theorem C151_too_late {c : Child} {timeout : Nat} (h : ∀ e status, ¬ EndsIn c timeout e status) :
    ∃ e status, e ≤ timeout ∧ (c.ends = some (e, status) ∨ e = timeout ∧ status = -9) ∧
      startProcess c timeout = some ((9, (c.output e).1, (c.output e).2), { now := max timeout (c.eof e), fate := some (e, status) }) := by
  simp only [startProcess, communicateWithin_none h]
  have key : ∃ e status, e ≤ timeout ∧ (c.ends = some (e, status) ∨ e = timeout ∧ status = -9) ∧
      kill { now := timeout, fate := c.ends } = { now := timeout, fate := some (e, status) } := by
    unfold kill
    cases hp : poll { now := timeout, fate := c.ends } with
    | none => exact ⟨timeout, -9, Nat.le_refl _, .inr ⟨rfl, rfl⟩, by simp⟩
    | some x =>
      simp only [Option.isSome_some, if_true]
      unfold poll at hp
      cases hf : c.ends with
      | none => rw [hf] at hp; exact nomatch hp
      | some p =>
        rw [hf] at hp
        simp only at hp
        split at hp
        · exact ⟨p.1, p.2, by assumption, .inl rfl, rfl⟩
        · exact nomatch hp
  obtain ⟨e, status, he, hs, hk⟩ := key
  refine ⟨e, status, he, hs, ?_⟩
  rw [hk]
  simp only [communicate, sigkillStatus]
  rw [show max timeout (max e (c.eof e)) = max timeout (c.eof e) by omega]
  have hp : poll { now := max timeout (c.eof e), fate := some (e, status) } = some status := poll_of_fate rfl (by simp; omega)
  rw [killChildren_dead hp]

/-- **C151**, nothing is left. Whatever the process does, `run` returns, and the process is not running any longer. -/
theorem C151_nothing_left (c : Child) (timeout : Nat) : ∃ r s, startProcess c timeout = some (r, s) ∧ (poll s).isSome := by
  by_cases h : ∃ e status, EndsIn c timeout e status
  · obtain ⟨e, status, h⟩ := h
    refine ⟨_, _, C151_in_time h, ?_⟩
    rw [poll_of_fate h.1 (by simp; omega)]
    rfl
  · obtain ⟨e, status, he, _, hr⟩ := C151_too_late (c := c) (timeout := timeout) (fun e status h' => h ⟨e, status, h'⟩)
    refine ⟨_, _, hr, ?_⟩
    rw [poll_of_fate rfl (by simp; omega)]
    rfl

/-- **C151** (partial), how long it takes. If the output of the process is closed when it ends, then `run` takes no longer than the timeout.

Missing: processes started by the process that keep its output open, see `C151_longer_counterexample`. -/
theorem C151_time_partial {c : Child} (hc : ∀ e, c.eof e ≤ e) {timeout : Nat} {r : Int × Bytes × Bytes} {s : Sys} (h : startProcess c timeout = some (r, s)) :
    s.now ≤ timeout := by
  by_cases h' : ∃ e status, EndsIn c timeout e status
  · obtain ⟨e, status, h'⟩ := h'
    rw [C151_in_time h', Option.some.injEq, Prod.mk.injEq] at h
    rw [← h.2]
    have := h'.2
    simp only
    omega
  · obtain ⟨e, status, he, _, hr⟩ := C151_too_late (c := c) (timeout := timeout) (fun e status h'' => h' ⟨e, status, h''⟩)
    rw [hr, Option.some.injEq, Prod.mk.injEq] at h
    rw [← h.2]
    have := hc e
    simp only
    omega

/-- **C151**, at the end of the program. Wherever `run` is interrupted, `__kill_children` ends the process: after it, the process is not running. It takes at most 0.4 seconds. -/
theorem C151_exit (c : Child) (s : Sys) : (poll (killChildren c s).1).isSome ∧ (killChildren c s).1.now ≤ s.now + 400 := by
  cases hp : poll s with
  | some x =>
    rw [killChildren_dead hp]
    exact ⟨by rw [hp]; rfl, Nat.le_add_right _ _⟩
  | none =>
    have hw : ∃ e status, (if (waitWithin 200 (terminate c s)).1 then (waitWithin 200 (terminate c s)).2 else kill (waitWithin 200 (terminate c s)).2).fate = some (e, status) ∧
        e ≤ (if (waitWithin 200 (terminate c s)).1 then (waitWithin 200 (terminate c s)).2 else kill (waitWithin 200 (terminate c s)).2).now ∧
        (if (waitWithin 200 (terminate c s)).1 then (waitWithin 200 (terminate c s)).2 else kill (waitWithin 200 (terminate c s)).2).now ≤ s.now + 200 := by
      have ht : (terminate c s).now = s.now := by unfold terminate; split <;> rfl
      cases hf : (terminate c s).fate with
      | none =>
        have : waitWithin 200 (terminate c s) = (false, { terminate c s with now := s.now + 200 }) := by simp only [waitWithin, hf, ht]
        rw [this]
        simp only [Bool.false_eq_true, if_false]
        obtain ⟨e, status, h1, h2, h3⟩ := kill_fate { terminate c s with now := s.now + 200 }
        simp only at h2 h3
        exact ⟨e, status, h1, by omega, by omega⟩
      | some p =>
        by_cases he : p.1 ≤ s.now + 200
        · have : waitWithin 200 (terminate c s) = (true, { terminate c s with now := max s.now p.1 }) := by simp only [waitWithin, hf, ht]; rw [if_pos he]
          rw [this]
          simp only [if_true]
          exact ⟨p.1, p.2, hf, by omega, by omega⟩
        · have : waitWithin 200 (terminate c s) = (false, { terminate c s with now := s.now + 200 }) := by simp only [waitWithin, hf, ht]; rw [if_neg he]
          rw [this]
          simp only [Bool.false_eq_true, if_false]
          obtain ⟨e, status, h1, h2, h3⟩ := kill_fate { terminate c s with now := s.now + 200 }
          simp only at h2 h3
          exact ⟨e, status, h1, by omega, by omega⟩
    unfold killChildren
    simp only [hp, Option.isSome_none, Bool.false_eq_true, if_false]
    generalize (if (waitWithin 200 (terminate c s)).1 then (waitWithin 200 (terminate c s)).2 else kill (waitWithin 200 (terminate c s)).2) = w at hw
    obtain ⟨e, status, h1, h2, h3⟩ := hw
    have hpw := poll_of_fate h1 h2
    simp only [hpw]
    by_cases h0 : status ≠ 0
    · rw [if_pos h0]
      have : (communicateWithin c 200 w).2.fate = some (e, status) ∧ e ≤ (communicateWithin c 200 w).2.now ∧ (communicateWithin c 200 w).2.now ≤ w.now + 200 := by
        simp only [communicateWithin, communicate, h1]
        by_cases hle : max w.now (max e (c.eof e)) ≤ w.now + 200
        · rw [if_pos hle]
          exact ⟨by simp only [h1], by simp only; omega, hle⟩
        · rw [if_neg hle]
          exact ⟨by simp only [h1], by simp only; omega, by simp only; omega⟩
      exact ⟨by rw [poll_of_fate this.1 this.2.1]; rfl, Nat.le_trans this.2.2 (by omega)⟩
    · rw [if_neg h0]
      exact ⟨by rw [hpw]; rfl, by simp only; omega⟩

/-- **C151**, at the end of the program. A process that ends within 0.2 seconds after being asked to is not killed: its status is its own. -/
theorem C151_graceful {c : Child} {s : Sys} {d : Nat} {status : Int} (hf : s.fate = none) (ht : c.term = some (d, status)) (hd : d ≤ 200) :
    poll (killChildren c s).1 = some status ∧ (killChildren c s).1.fate = some (s.now + d, status) := by
  have hp : poll s = none := by simp [poll, hf]
  have h1 : terminate c s = { s with fate := some (s.now + d, status) } := by simp [terminate, hp, hf, ht, earlier]
  have h2 : waitWithin 200 (terminate c s) = (true, { now := s.now + d, fate := some (s.now + d, status) }) := by
    rw [h1]
    simp only [waitWithin]
    rw [if_pos (by omega)]
    simp
  unfold killChildren
  simp only [hp, Option.isSome_none, Bool.false_eq_true, if_false, h2, if_true]
  have h3 : poll { now := s.now + d, fate := some (s.now + d, status) } = some status := poll_of_fate rfl (Nat.le_refl _)
  simp only [h3]
  by_cases h0 : status ≠ 0
  · rw [if_pos h0]
    have : (communicateWithin c 200 { now := s.now + d, fate := some (s.now + d, status) }).2.fate = some (s.now + d, status) ∧
        s.now + d ≤ (communicateWithin c 200 { now := s.now + d, fate := some (s.now + d, status) }).2.now := by
      simp only [communicateWithin, communicate]
      split <;> exact ⟨rfl, by simp only; omega⟩
    exact ⟨poll_of_fate this.1 this.2, this.1⟩
  · rw [if_neg h0]
    exact ⟨h3, rfl⟩

/-! ### `lint_in_subprocess` -/

/-- **C151**, the arguments. The process is started with the linter, then the arguments for it, those from the configuration, and the files. -/
theorem C151_command (executable : Str) (linter : Linter) (linterArgs config files : List Str) (start start' : List Str → Except PyErr Child) (decode : Bytes → Except PyErr Str)
    (h : start ([executable, "-m".toList, linter.toName] ++ linterArgs ++ config ++ files) = start' ([executable, "-m".toList, linter.toName] ++ linterArgs ++ config ++ files)) :
    lintInSubprocess start decode executable linter linterArgs config files = lintInSubprocess start' decode executable linter linterArgs config files := by
  simp only [lintInSubprocess, run, command, h]

/-- A linter run as a process `c` whose output can be decoded. -/
def Started (start : List Str → Except PyErr Child) (decode : Bytes → Except PyErr Str) (cmd : List Str) (c : Child) : Prop :=
  start cmd = .ok c ∧ ∀ e, (∃ o, decode (c.output e).1 = .ok o) ∧ ∃ o, decode (c.output e).2 = .ok o

theorem run_started {start : List Str → Except PyErr Child} {decode : Bytes → Except PyErr Str} {cmd : List Str} {c : Child} (h : Started start decode cmd c) (timeout : Nat) :
    (∀ e status, EndsIn c timeout e status → ∃ o o', decode (c.output e).1 = .ok o ∧ decode (c.output e).2 = .ok o' ∧
        run start decode (some cmd) timeout = some (.ok (status, o, o'))) ∧
      ((∀ e status, ¬ EndsIn c timeout e status) → ∃ o o', run start decode (some cmd) timeout = some (.ok (9, o, o'))) := by
  constructor
  · intro e status he
    obtain ⟨⟨o, ho⟩, o', ho'⟩ := h.2 e
    exact ⟨o, o', ho, ho', by simp only [run, h.1, C151_in_time he, decoded, ho, ho']⟩
  · intro hn
    obtain ⟨e, status, _, _, hr⟩ := C151_too_late hn
    obtain ⟨⟨o, ho⟩, o', ho'⟩ := h.2 e
    exact ⟨o, o', by simp only [run, h.1, hr, decoded, ho, ho']⟩

/-- **C151** (partial). If the linter ends within 1000 seconds, then its status and its output are returned; otherwise, `TimeoutError` is raised.

Missing: linters that end with the status 9 or 15, see `C151_status_counterexample`. -/
theorem C151_lint_partial {start : List Str → Except PyErr Child} {decode : Bytes → Except PyErr Str} {executable : Str} {linter : Linter} {linterArgs config files : List Str}
    {c : Child} (h : Started start decode ([executable, "-m".toList, linter.toName] ++ linterArgs ++ config ++ files) c) :
    (∀ e status, EndsIn c 1000000 e status → status ≠ 9 → status ≠ 15 → ∃ o o', decode (c.output e).1 = .ok o ∧ decode (c.output e).2 = .ok o' ∧
        lintInSubprocess start decode executable linter linterArgs config files = some (.returned status o o')) ∧
      ((∀ e status, ¬ EndsIn c 1000000 e status) → lintInSubprocess start decode executable linter linterArgs config files = some .timeoutError) := by
  have hr := run_started h 1000000
  constructor
  · intro e status he h9 h15
    obtain ⟨o, o', ho, ho', hrun⟩ := hr.1 e status he
    refine ⟨o, o', ho, ho', ?_⟩
    simp only [lintInSubprocess, command, hrun]
    rw [if_neg]
    simp [byTimeout, sigkillStatus, sigtermStatus, h9, h15]
  · intro hn
    obtain ⟨o, o', hrun⟩ := hr.2 hn
    simp only [lintInSubprocess, command, hrun]
    rfl

/-- The statuses of flake8. -/
theorem C151_flake8 {status : Int} (h : status = 0 ∨ status = 1) : byTimeout status = false := by
  obtain rfl | rfl := h <;> rfl

/-- The status with which pylint ends: 1 for a fatal message, 2 for an error, 4 for a warning, 8 for a refactoring, 16 for a convention, 32 for wrong arguments, or the sum of those
that apply. -/
def pylintStatus (fatal error warning refactor convention usage : Bool) : Int :=
  (if fatal then 1 else 0) + (if error then 2 else 0) + (if warning then 4 else 0) + (if refactor then 8 else 0) + (if convention then 16 else 0) + (if usage then 32 else 0)

/-- **C151**, pylint. The status of a pylint that ended in time is mistaken for a timeout exactly if there is a fatal message and one about refactoring, both or none of errors and
warnings, and nothing else. -/
theorem C151_pylint (fatal error warning refactor convention usage : Bool) :
    byTimeout (pylintStatus fatal error warning refactor convention usage) = (fatal && refactor && (error == warning) && !convention && !usage) := by
  revert fatal error warning refactor convention usage
  decide

/-! ### Examples -/

/-- `"ok\n"`, whenever it ends. -/
def okOutput (_ : Nat) : Bytes × Bytes := ([111, 107, 10], [])

/-- Bytes as characters. -/
def ascii (b : Bytes) : Except PyErr Str := .ok (b.map fun x => Char.ofNat x.toNat)

/-- A process that ends after 2 seconds with the given status. -/
def twoSeconds (status : Int) : Child := { ends := some (2000, status), term := none, eof := id, output := okOutput }

/-- A process that never ends, and refuses to. -/
def forever : Child := { ends := none, term := none, eof := id, output := okOutput }

/-- A process that ends at once, but has started another one that runs for an hour and has its output open. -/
def daemon : Child := { ends := some (0, 0), term := none, eof := fun e => max e 3600000, output := okOutput }

example : startProcess (twoSeconds 1) 5000 = some ((1, [111, 107, 10], []), { now := 2000, fate := some (2000, 1) }) := by decide
example : startProcess (twoSeconds 1) 1000 = some ((9, [111, 107, 10], []), { now := 1000, fate := some (1000, -9) }) := by decide
example : startProcess forever 1000 = some ((9, [111, 107, 10], []), { now := 1000, fate := some (1000, -9) }) := by decide
example : killChildren forever { now := 5, fate := none } = ({ now := 205, fate := some (205, -9) }, false) := by decide
example : killChildren { forever with term := some (10, 0) } { now := 5, fate := none } = ({ now := 15, fate := some (15, 0) }, false) := by decide
example : killChildren { forever with term := some (10, -15), eof := fun e => e + 500 } { now := 5, fate := none } = ({ now := 215, fate := some (15, -15) }, true) := by decide
example : EndsIn (twoSeconds 1) 5000 2000 1 := by simp [EndsIn, twoSeconds]
example : ∀ e status, ¬ EndsIn forever 5000 e status := by simp [EndsIn, forever]
example : run (fun _ => .ok forever) ascii none 5 = some (.ok (-1, [], "No command provided".toList)) := rfl
example : run (fun _ => .error .fileNotFound) ascii (some []) 5 = some (.error .fileNotFound) := rfl
example : Started (fun _ => .ok (twoSeconds 1)) ascii [] (twoSeconds 1) := ⟨rfl, fun _ => ⟨⟨_, rfl⟩, _, rfl⟩⟩

example : lintInSubprocess (fun _ => .ok (twoSeconds 1)) ascii "python3".toList .flake8 [] [] ["a.py".toList] = some (.returned 1 "ok\n".toList []) := by decide
example : lintInSubprocess (fun _ => .ok forever) ascii "python3".toList .flake8 [] [] ["a.py".toList] = some .timeoutError := by decide

example : command "python3".toList .flake8 ["--format=json".toList] ["--select=E".toList] ["a.py".toList] =
    ["python3", "-m", "flake8", "--format=json", "--select=E", "a.py"].map String.toList := by decide

/-- `C151_lint_partial` without the condition on the status is false: a pylint that reports a fatal message and one about refactoring ends with the status 9, in time, and
`TimeoutError` is raised. -/
theorem C151_status_counterexample : EndsIn (twoSeconds (pylintStatus true false false true false false)) 1000000 2000 9 ∧
    lintInSubprocess (fun _ => .ok (twoSeconds (pylintStatus true false false true false false))) ascii "python3".toList .pylint [] [] ["a.py".toList] = some .timeoutError := by
  refine ⟨⟨rfl, by decide, by decide⟩, by decide⟩

/-- `C151_time_partial` without its condition is false: `run` waits for a process that the process started, for an hour although the timeout is one second. The status 9 is
returned although the process ended at once, with the status 0. -/
theorem C151_longer_counterexample : ∃ s, startProcess daemon 1000 = some ((9, [111, 107, 10], []), s) ∧ s.now = 3600000 ∧ s.fate = some (0, 0) := by
  exact ⟨{ now := 3600000, fate := some (0, 0) }, by decide, rfl, rfl⟩

end Verif.Process

import Verif.Model.Patch
import Verif.Props.Analyses

/-!
C161: which files were linted before in the same process makes no difference.
-/

namespace Verif.Patch

open Verif.Analyses (Module Outcome runAnalyses)

variable {parse : Str → Option Module} {need : Nat}

theorem getAst_eq : ∀ (k free : Nat) (f : Str), getAst parse need k free f =
    if free < k + need then .error .recursionError
    else .ok (parse f, match parse f with
      | none => []
      | some m => List.replicate k (runAnalyses m))
  | 0, free, f => by
    unfold getAst
    simp only [Nat.zero_add]
    split
    · rfl
    · cases parse f <;> rfl
  | k + 1, 0, f => by simp [getAst, show 0 < k + 1 + need by omega]
  | k + 1, free + 1, f => by
    unfold getAst
    rw [getAst_eq k free f]
    by_cases h : free < k + need
    · simp [h, show free + 1 < k + 1 + need by omega]
    · simp only [h, show ¬ free + 1 < k + 1 + need by omega, if_false]
      cases parse f with
      | none => rfl
      | some m =>
        simp only [Except.ok.injEq, Prod.mk.injEq, true_and]
        exact List.replicate_succ'.symm

theorem asts_eq (k free : Nat) : ∀ fs : List Str, asts parse need k free fs =
    if free < k + need ∧ fs ≠ [] then .error .recursionError
    else .ok (fs.map fun f => (f, parse f, match parse f with
      | none => []
      | some m => List.replicate k (runAnalyses m)))
  | [] => by simp [asts]
  | f :: fs => by
    unfold asts
    rw [getAst_eq, asts_eq k free fs]
    by_cases h : free < k + need
    · simp [h]
    · simp [h]

theorem runs_append (free : Nat) : ∀ (before rs : List PylintRun) (k : Nat),
    runs parse need free k (before ++ rs) = runs parse need free k before ++ runs parse need free (k + (before.filter (·.plugin)).length) rs
  | [], rs, k => by simp [runs]
  | b :: before, rs, k => by
    simp only [List.cons_append, runs, runs_append free before rs (b.register k)]
    congr 3
    cases hb : b.plugin
    · simp [PylintRun.register, hb]
    · simp [PylintRun.register, hb]; omega

theorem runAfter_eq (free : Nat) (before : List PylintRun) (r : PylintRun) :
    runAfter parse need free before r = some (asts parse need ((before ++ [r]).filter (·.plugin)).length free r.files) := by
  unfold runAfter
  rw [runs_append]
  simp only [runs, List.getLast?_append, List.getLast?_singleton, Option.some_or, Option.some.injEq, Nat.zero_add, List.filter_append, List.length_append]
  congr 1
  cases hr : r.plugin <;> simp [PylintRun.register, hr]

/-- **C161**: in the first run of a process that loads the plugin, each file is analysed once. Missing: further runs, for which it is false. -/
theorem C161_first_partial {free : Nat} {before : List PylintRun} {r : PylintRun} (hb : ∀ b ∈ before, b.plugin = false) (hr : r.plugin = true)
    (hfree : need < free) :
    runAfter parse need free before r = some (.ok (r.files.map fun f => (f, parse f, (parse f).toList.map runAnalyses))) := by
  have : before.filter (·.plugin) = [] := List.filter_eq_nil_iff.2 fun b h => by simp [hb b h]
  rw [runAfter_eq, asts_eq, List.filter_append, this]
  simp only [List.nil_append, List.filter_cons, hr, if_true, List.filter_nil, List.length_singleton, Option.some.injEq]
  rw [if_neg (by omega)]
  congr 1
  refine List.map_congr_left fun f _ => ?_
  cases parse f <;> rfl

/-- **C161**: a run that can be done gives all files the trees that Pylint gives them, … Missing: for runs that cannot be done see `C161_exhausted`. -/
theorem C161_trees_partial {free : Nat} {before : List PylintRun} {r : PylintRun} {res : List (Str × Option Module × List Outcome)}
    (h : runAfter parse need free before r = some (.ok res)) : res.map (fun x => (x.1, x.2.1)) = r.files.map fun f => (f, parse f) := by
  rw [runAfter_eq, asts_eq, Option.some.injEq] at h
  split at h
  · exact nomatch h
  · rw [Except.ok.injEq] at h
    subst h
    simp

/-- **C161**: … and what the checks find about the variables is that which they find in the first run, … -/
theorem C161_outcome {free : Nat} {before : List PylintRun} {r : PylintRun} {res : List (Str × Option Module × List Outcome)} (hr : r.plugin = true)
    (h : runAfter parse need free before r = some (.ok res)) : ∀ x ∈ res, ∀ m, x.2.1 = some m → x.2.2.getLast? = some (runAnalyses m) := by
  rw [runAfter_eq, asts_eq, Option.some.injEq] at h
  split at h
  · exact nomatch h
  · rw [Except.ok.injEq] at h
    subst h
    intro x hx m hm
    obtain ⟨f, _, rfl⟩ := List.mem_map.1 hx
    simp only at hm ⊢
    simp [hm, List.filter_append, hr, List.getLast?_replicate]

/-- **C161**: … but a file is analysed as often as there were runs that load the plugin, and each time its warnings are logged. -/
theorem C161_times {free : Nat} {before : List PylintRun} {r : PylintRun} {res : List (Str × Option Module × List Outcome)}
    (h : runAfter parse need free before r = some (.ok res)) : ∀ x ∈ res, ∀ m, x.2.1 = some m →
      x.2.2.length = ((before ++ [r]).filter (·.plugin)).length ∧ ∀ o ∈ x.2.2, o = runAnalyses m := by
  rw [runAfter_eq, asts_eq, Option.some.injEq] at h
  split at h
  · exact nomatch h
  · rw [Except.ok.injEq] at h
    subst h
    intro x hx m hm
    obtain ⟨f, _, rfl⟩ := List.mem_map.1 hx
    simp only at hm ⊢
    simp only [hm, List.length_replicate, true_and]
    exact fun o ho => (List.mem_replicate.1 ho).2

/-- **C161**: a run of files can be done just if the calls of all replaced `get_ast` can be nested. -/
theorem C161_exhausted {free : Nat} {before : List PylintRun} {r : PylintRun} (hf : r.files ≠ []) :
    runAfter parse need free before r = some (.error .recursionError) ↔ free < ((before ++ [r]).filter (·.plugin)).length + need := by
  rw [runAfter_eq, asts_eq, Option.some.injEq]
  split
  · rename_i h
    simp only [true_iff]
    exact h.1
  · rename_i h
    simp only [reduceCtorEq, false_iff]
    exact fun hlt => h ⟨hlt, hf⟩

/-! ### Examples -/

/-- `print(locals())` in each file -/
def exParse (f : Str) : Option Module :=
  if f = "bad.py".toList then none else some { Analyses.md [Analyses.cl 1 "print" [Analyses.cl 1 "locals" []]] with file := f }

example : ((runAfter exParse 3 10 [] ⟨true, ["a.py".toList, "bad.py".toList]⟩).map fun r =>
      r.map fun fs => fs.map fun x => (x.1, x.2.1.isSome, x.2.2.map (·.successful))) =
    some (.ok [("a.py".toList, true, [false]), ("bad.py".toList, false, [])]) := by decide +kernel

/-- `C161_times` for the third run. -/
example : ((runAfter exParse 3 10 [⟨true, []⟩, ⟨false, []⟩, ⟨true, ["b.py".toList]⟩] ⟨true, ["a.py".toList]⟩).map fun r =>
      r.map fun fs => fs.map fun x => (x.1, x.2.1.isSome, x.2.2.length)) = some (.ok [("a.py".toList, true, 3)]) := by decide +kernel

example : ∃ res, runAfter exParse 3 10 [⟨true, []⟩] ⟨true, ["a.py".toList]⟩ = some (.ok res) ∧ ∀ x ∈ res, ∀ m, x.2.1 = some m → x.2.2.length = 2 := by
  have h := runAfter_eq (parse := exParse) (need := 3) 10 [⟨true, []⟩] ⟨true, ["a.py".toList]⟩
  rw [asts_eq] at h
  exact ⟨_, h, fun x hx m hm => (C161_times h x hx m hm).1⟩

/-! ### What is false -/

/-- **C161** is false: where two configurations are used, as for two files with different options in them, the warning about a file under the second one is
logged twice. -/
theorem C161_warnings_counterexample :
    ∃ w, ((runAfter exParse 3 10 [] ⟨true, ["b.py".toList]⟩).map fun r => r.map fun fs => fs.map fun x => x.2.2.flatMap (·.warnings)) = some (.ok [[w]]) ∧
      ((runAfter exParse 3 10 [⟨true, ["a.py".toList]⟩] ⟨true, ["b.py".toList]⟩).map fun r => r.map fun fs => fs.map fun x => x.2.2.flatMap (·.warnings)) =
        some (.ok [[w, w]]) :=
  ⟨"call to locals on line 1 in b.py;  unable to determine variable scopes. This may disable some detectors.".toList, by decide +kernel, by decide +kernel⟩

/-- **C161** is false: whatever can be nested, after that many runs no file can be linted any more, although any could be at first. -/
theorem C161_limit_counterexample {free : Nat} (hfree : need < free) (f : Str) : ∃ before : List PylintRun,
    runAfter parse need free [] ⟨true, [f]⟩ = some (.ok [(f, parse f, (parse f).toList.map runAnalyses)]) ∧
      runAfter parse need free before ⟨true, [f]⟩ = some (.error .recursionError) := by
  refine ⟨List.replicate free ⟨true, [f]⟩, ?_, ?_⟩
  · rw [C161_first_partial (by simp) rfl hfree]
    rfl
  · rw [C161_exhausted (by simp)]
    simp [List.filter_append]
    omega

/-- **C161** is false: files are analysed under a configuration that does not ask for it, if there was one before that does. -/
theorem C161_unasked_counterexample :
    ((runAfter exParse 3 10 [] ⟨false, ["a.py".toList]⟩).map fun r => r.map fun fs => fs.map fun x => x.2.2.length) = some (.ok [0]) ∧
      ((runAfter exParse 3 10 [⟨true, []⟩] ⟨false, ["a.py".toList]⟩).map fun r => r.map fun fs => fs.map fun x => x.2.2.length) = some (.ok [1]) := by
  decide +kernel

end Verif.Patch

import Verif.Model.UpdateCheck
import Verif.Props.Versions

/-!
C166: the version that is named when an update is announced.
-/

namespace Verif

variable {parse : Str → Option Ver} {ttl : Int}

theorem fileBefore_append {pkg : Str} (file : InfoFile) (cs cs' : List VCall) (i : Nat) :
    fileBefore parse pkg ttl file (cs ++ cs') (cs.length + i) = fileBefore parse pkg ttl (fileAfter parse pkg ttl file cs) cs' i := by
  induction cs generalizing file with
  | nil => simp [fileAfter]
  | cons c cs ih =>
    rw [List.cons_append, List.length_cons, show cs.length + 1 + i = cs.length + i + 1 by omega]
    simp only [fileBefore, fileAfter]
    exact ih _

/-- What is announced, and when. -/
theorem checkForUpdates_some {disabled : Bool} {running : Option Str} {file : InfoFile} {first second : VCall} {v : Option Str}
    (h : (checkForUpdates parse ttl disabled running file first second).2 = some v) :
    disabled = false ∧ ∃ r, running = some r ∧
      isUpdateWaiting (some r) (getLatestVersion parse "edulint".toList ttl file first).2.result = true ∧
      (getLatestVersion parse "edulint".toList ttl (getLatestVersion parse "edulint".toList ttl file first).1 second).2.result = .returned v := by
  rw [checkForUpdates] at h
  cases disabled with
  | true => simp at h
  | false =>
    cases running with
    | none => simp at h
    | some r =>
      rw [if_neg (by simp)] at h
      split at h
      · refine ⟨rfl, r, rfl, by assumption, ?_⟩
        generalize getLatestVersion parse "edulint".toList ttl (getLatestVersion parse "edulint".toList ttl file first).1 second = q at h
        rcases q with ⟨f, ⟨res, qu⟩⟩
        cases res <;> simp only [named, Option.some.injEq, reduceCtorEq] at h
        rw [h]
      · cases h

/-- **C166** A version that is named when an update is announced was reported by the package index, as the newest one that can be installed, in this
check or an earlier one. At the beginning the file says nothing about EduLint. -/
theorem C166_reported (before : List VCall) (file : InfoFile) (hfile : ∀ d, file = .data d → Dict.get? d "edulint".toList = none)
    (disabled : Bool) (running : Option Str) (first second : VCall) (latest : Str)
    (h : (checkForUpdates parse ttl disabled running (fileAfter parse "edulint".toList ttl file before) first second).2 = some (some latest)) :
    ∃ j v, ReportedAt parse "edulint".toList (versionTrace parse "edulint".toList ttl file (before ++ [first, second])) j v ∧ v.text = latest := by
  obtain ⟨-, r, -, -, hr⟩ := checkForUpdates_some h
  have hi : (versionTrace parse "edulint".toList ttl file (before ++ [first, second]))[before.length + 1]? =
      some (second, (getLatestVersion parse "edulint".toList ttl
        (getLatestVersion parse "edulint".toList ttl (fileAfter parse "edulint".toList ttl file before) first).1 second).2) := by
    rw [versionTrace_getElem, fileBefore_append]
    simp [fileBefore]
  obtain ⟨j, v, -, hj, hv⟩ := C28_latest_was_reported parse "edulint".toList ttl _ _ file hfile _ _ latest hi hr
  exact ⟨j, v, hj, hv⟩

/-- **C166** Nothing is announced and nothing is changed if the check is disabled, or if it is not known which version is running; and nothing is announced
if the version that is running is found to be the latest one. -/
theorem C166_silent (disabled : Bool) (running : Option Str) (file : InfoFile) (first second : VCall) :
    (disabled = true ∨ running = none → checkForUpdates parse ttl disabled running file first second = (file, none)) ∧
    ((getLatestVersion parse "edulint".toList ttl file first).2.result = .returned running →
      (checkForUpdates parse ttl disabled running file first second).2 = none) := by
  constructor
  · rintro (rfl | rfl)
    · simp [checkForUpdates]
    · simp [checkForUpdates]
  · intro h
    rw [checkForUpdates, h]
    cases running <;> cases disabled <;> simp [isUpdateWaiting]

/-- A call that is not cut off and makes no query gives what the file says. -/
theorem getLatestVersion_no_query {pkg : Str} {file : InfoFile} {d : Dict Str PackageInfo} {c : VCall} (hd : file.load = some d) (hc : c.cut = .done)
    (hq : (getLatestVersion parse pkg ttl file c).2.query = none) :
    (getLatestVersion parse pkg ttl file c).2.result = .returned (infoOf d pkg).version := by
  unfold getLatestVersion at hq ⊢
  simp only [askFile, hd] at hq ⊢
  by_cases ht : c.now < (infoOf d pkg).lastStart + ttl
  · simp [ht]
  · simp only [ht, if_false, askIndex, hd, hc, reduceCtorEq] at hq
    split at hq
    · cases hq
    · split at hq <;> cases hq

/-- A version that a call gives is in the file afterwards. -/
theorem getLatestVersion_saved {pkg : Str} {file : InfoFile} {c : VCall} {v : Str} (hv : v ≠ [])
    (h : (getLatestVersion parse pkg ttl file c).2.result = .returned (some v)) :
    ∃ d, (getLatestVersion parse pkg ttl file c).1.load = some d ∧ (infoOf d pkg).version = some v := by
  unfold getLatestVersion at h ⊢
  cases hd : file.load with
  | none => simp [askFile, hd] at h
  | some d =>
    simp only [askFile, hd] at h ⊢
    by_cases ht : c.now < (infoOf d pkg).lastStart + ttl
    · simp only [ht, if_true, VResult.returned.injEq] at h ⊢
      exact ⟨d, hd, h⟩
    · simp only [ht, if_false, askIndex, hd] at h ⊢
      by_cases h1 : c.cut = .noSave
      · simp [h1, VCall.cutOff] at h
        split at h <;> simp at h
      by_cases h2 : c.cut = .inSave
      · simp [h2, VCall.cutOff] at h
        split at h <;> simp at h
      by_cases h3 : c.cut = .beforeQuery
      · simp [h3, VCall.cutOff] at h
        split at h <;> simp at h
      simp only [h1, h2, h3, if_false] at h ⊢
      cases ha : c.answer with
      | none => simp [ha] at h
      | some releases =>
        simp only [ha] at h ⊢
        cases hl : lastSorted (getVersions parse pkg releases) with
        | none => simp [hl] at h
        | some w =>
          simp only [hl] at h ⊢
          by_cases h4 : c.cut = .noSaveVersion
          · simp [h4, VCall.cutOff] at h
            split at h <;> simp at h
          by_cases h5 : c.cut = .inSaveVersion
          · simp [h5, VCall.cutOff] at h
            split at h <;> simp at h
          simp only [h4, h5, if_false, VResult.returned.injEq, Option.some.injEq] at h ⊢
          subst h
          refine ⟨_, rfl, ?_⟩
          simp only [saveVersion, infoOf_set, if_pos hv]

/-- **C166** (partial) If the latest version was found the first time, and the second time there is no need to ask, then an update is announced just if the
running version is another one, and the version that is named is the latest one. Missing: checks in which the latest version is not found, or the second
call asks again. -/
theorem C166_partial {running latest : Str} {file : InfoFile} {first second : VCall} (hl : latest ≠ [])
    (h1 : (getLatestVersion parse "edulint".toList ttl file first).2.result = .returned (some latest)) (hc : second.cut = .done)
    (h2 : (getLatestVersion parse "edulint".toList ttl (getLatestVersion parse "edulint".toList ttl file first).1 second).2.query = none) :
    (checkForUpdates parse ttl false (some running) file first second).2 = if running = latest then none else some (some latest) := by
  obtain ⟨d, hd, hv⟩ := getLatestVersion_saved hl h1
  have hr := getLatestVersion_no_query hd hc h2
  rw [checkForUpdates, if_neg (by simp), hr, h1, hv]
  by_cases h : running = latest
  · simp [isUpdateWaiting, h]
  · simp [isUpdateWaiting, h, named]

/-- **C166** is false: without a connection, an update to `None` is announced. -/
theorem C166_none_counterexample : (checkForUpdates exParse 600 false (some "4.0.0".toList) .absent
    { now := 1000, start := 1000, answer := none } { now := 1000, start := 1000, answer := none }).2 = some none := by decide +kernel

/-- **C166** is false: if the time until the next query is over between the two calls, the version that is running may be announced. -/
theorem C166_running_counterexample : (checkForUpdates exParse 600 false (some "4.1.0".toList)
    (.data [("edulint".toList, { version := some "4.0.0".toList, lastStart := 400 })])
    { now := 999, start := 999, answer := none } { now := 1000, start := 1000, answer := some [⟨"4.1.0".toList, [false]⟩] }).2 =
      some (some "4.1.0".toList) := by decide +kernel

/-- An update: the first call queries, the second uses the file. -/
example : (checkForUpdates exParse 600 false (some "4.0.0".toList) .absent
      { now := 1000, start := 1000, answer := some [⟨"4.1.0".toList, [false]⟩, ⟨"4.0.0".toList, [false]⟩] } { now := 1001, start := 1001, answer := none }).2 =
    if "4.0.0".toList = "4.1.0".toList then none else some (some "4.1.0".toList) :=
  C166_partial (by decide) (by decide +kernel) rfl (by decide +kernel)

example : ∃ j v, ReportedAt exParse "edulint".toList (versionTrace exParse "edulint".toList 600 .absent
    ([{ now := 1000, start := 1000, answer := some [⟨"4.1.0".toList, [false]⟩] }] ++
      [{ now := 1300, start := 1300, answer := none }, { now := 1301, start := 1301, answer := none }])) j v ∧ v.text = "4.1.0".toList :=
  C166_reported _ .absent (fun _ h => nomatch h) false (some "4.0.0".toList) _ _ "4.1.0".toList (by decide +kernel)

example : (checkForUpdates exParse 600 true (some "4.0.0".toList) .absent { now := 1, start := 1, answer := none } { now := 1, start := 1, answer := none }).2 =
    none := by
  rw [(C166_silent true _ _ _ _).1 (.inl rfl)]

example : (checkForUpdates exParse 600 false (some "4.1.0".toList) .absent
    { now := 1000, start := 1000, answer := some [⟨"4.1.0".toList, [false]⟩] } { now := 1, start := 1, answer := none }).2 = none :=
  (C166_silent false _ _ _ _).2 (by decide +kernel)

/-- If the file cannot be read the second time, nothing is announced. -/
example : (checkForUpdates exParse 600 false (some "4.0.0".toList) .absent
    { now := 1000, start := 1000, answer := some [⟨"4.1.0".toList, [false]⟩], cut := .inSaveVersion } { now := 1001, start := 1001, answer := none }).2 =
    none := by decide +kernel

end Verif

import Verif.Model.Requirements

/-!
C129: a message that is enabled is reported whichever others are.
-/

namespace Verif.Requirements

/-- The name that no checker registers. -/
def unregistered : Str := "magical-constant-in-ord-compare".toList

/-- The table does not prevent a message. -/
def admits (v : Visit) (c : Check) (m : Str) : Bool :=
  (match v.required with | none => true | some ms => ms.contains m || ms.contains unregistered) && (c.guard.isEmpty || c.guard.contains m)

theorem admits_runs {state : Str → Option Bool} (hs : state unregistered = none) {v : Visit} {c : Check} {m : Str} (h : admits v c m = true)
    (hm : isEnabled state m = true) : runs state v = true ∧ executed state c = true := by
  rw [admits, Bool.and_eq_true] at h
  obtain ⟨h1, h2⟩ := h
  constructor
  · rw [runs]
    split
    · rfl
    · rename_i ms hms
      rw [hms] at h1
      simp only [Bool.or_eq_true, List.contains_iff_mem] at h1
      rw [List.any_eq_true]
      rcases h1 with h | h
      · exact ⟨m, h, hm⟩
      · exact ⟨unregistered, h, by rw [isEnabled, hs]; rfl⟩
  · rw [executed, Bool.or_eq_true]
    rw [Bool.or_eq_true] at h2
    rcases h2 with h | h
    · exact Or.inl h
    · exact Or.inr (List.any_eq_true.mpr ⟨m, List.contains_iff_mem.mp h, hm⟩)

theorem table : ∀ v ∈ visits, ∀ c ∈ v.checks, ∀ m ∈ c.emits, m = "unreachable-else".toList ∨ admits v c m = true := by
  decide +kernel

theorem mem_report {state : Str → Option Bool} {found : Check → Str → Bool} {v : Visit} {m : Str} :
    m ∈ report state found v ↔
      runs state v = true ∧ ∃ c ∈ v.checks, executed state c = true ∧ m ∈ c.emits ∧ found c m = true ∧ isEnabled state m = true := by
  rw [report]
  split
  · rename_i hr
    simp only [hr, true_and, List.mem_flatMap]
    constructor
    · rintro ⟨c, hc, h⟩
      split at h
      · rename_i he
        simp only [List.mem_filter, Bool.and_eq_true] at h
        exact ⟨c, hc, he, h.1, h.2.1, h.2.2⟩
      · cases h
    · rintro ⟨c, hc, he, hm, hf, hen⟩
      refine ⟨c, hc, ?_⟩
      rw [if_pos he]
      simp only [List.mem_filter, Bool.and_eq_true]
      exact ⟨hm, hf, hen⟩
  · rename_i hr
    simp [hr]

/-- C129: A message is reported at a node just if a check finds it and it is enabled; which others are enabled does not matter. It is not so for
`unreachable-else`. -/
theorem C129_reported_partial {state : Str → Option Bool} (hs : state "magical-constant-in-ord-compare".toList = none) {found : Check → Str → Bool} {v : Visit}
    (hv : v ∈ visits) {m : Str} (hm : m ≠ "unreachable-else".toList) :
    m ∈ report state found v ↔ (∃ c ∈ v.checks, m ∈ c.emits ∧ found c m = true) ∧ (state m).getD true = true := by
  rw [mem_report]
  constructor
  · rintro ⟨_, c, hc, _, h1, h2, h3⟩
    exact ⟨⟨c, hc, h1, h2⟩, h3⟩
  · rintro ⟨⟨c, hc, h1, h2⟩, h3⟩
    have ht := (table v hv c hc m h1).resolve_left hm
    obtain ⟨hr, he⟩ := admits_runs hs ht h3
    exact ⟨hr, c, hc, he, h1, h2, h3⟩

/-- So two configurations that agree on a message agree on whether it is reported. -/
theorem C129_independent_partial {state state' : Str → Option Bool} (hs : state "magical-constant-in-ord-compare".toList = none)
    (hs' : state' "magical-constant-in-ord-compare".toList = none) {found : Check → Str → Bool} {v : Visit} (hv : v ∈ visits) {m : Str}
    (hm : m ≠ "unreachable-else".toList) (h : state m = state' m) : m ∈ report state found v ↔ m ∈ report state' found v := by
  rw [C129_reported_partial hs hv hm, C129_reported_partial hs' hv hm, h]

/-- `unreachable-else` is reported just if another of the messages of `visit_if` is enabled, too. -/
theorem C129_unreachable {state : Str → Option Bool} {found : Check → Str → Bool} :
    "unreachable-else".toList ∈ report state found localIf ↔
      found ⟨[], ["redundant-elif".toList, "unreachable-else".toList]⟩ "unreachable-else".toList = true ∧ (state "unreachable-else".toList).getD true = true ∧
      ((state "use-elif".toList).getD true = true ∨ (state "redundant-elif".toList).getD true = true ∨
        (state "use-early-return".toList).getD true = true) := by
  rw [mem_report]
  have h1 : "unreachable-else".toList ∉ ["use-elif".toList] := by decide
  have h2 : "unreachable-else".toList ∉ ["use-early-return".toList] := by decide
  have h3 : "unreachable-else".toList ∈ ["redundant-elif".toList, "unreachable-else".toList] := by decide
  simp only [localIf, runs, executed, List.any_cons, List.any_nil, Bool.or_false, Bool.or_eq_true, List.mem_cons, List.not_mem_nil, or_false, exists_eq_or_imp,
    exists_eq_left, List.isEmpty_nil, true_or, true_and, isEnabled] at *
  simp only [h1, h2, false_and, false_or, or_false, and_true, true_and, h3, or_true]
  exact ⟨fun ⟨a, b, c⟩ => ⟨b, c, a⟩, fun ⟨b, c, a⟩ => ⟨a, b, c⟩⟩

/-- With just `unreachable-else` enabled, it is not reported though it is found. -/
theorem C129_unreachable_counterexample : ∃ (state : Str → Option Bool) (v : Visit) (c : Check) (m : Str), v ∈ visits ∧ c ∈ v.checks ∧ m ∈ c.emits ∧
    state m = some true ∧ m ∉ report state (fun _ _ => true) v := by
  refine ⟨fun m => some (m == "unreachable-else".toList), localIf, ⟨[], ["redundant-elif".toList, "unreachable-else".toList]⟩, "unreachable-else".toList,
    ?_, ?_, ?_, ?_, ?_⟩
  · simp [visits]
  · simp [localIf]
  · simp
  · simp
  · rw [mem_report]
    rintro ⟨h, -⟩
    revert h
    decide

/-- A visit is executed though all the messages are disabled, as one that it is required for does not exist. -/
theorem C129_executed_counterexample : ∃ (state : Str → Option Bool) (v : Visit), v ∈ visits ∧ (∀ c ∈ v.checks, ∀ m ∈ c.emits, state m = some false) ∧
    runs state v = true := by
  refine ⟨fun m => if messages.any (·.any (·.2 == m)) then some false else none, localCompare, by simp [visits], ?_, ?_⟩ <;> decide +kernel

/-- All that may be added is registered; so no exception is raised for that. -/
theorem C129_registered : ∀ v ∈ visits, ∀ c ∈ v.checks, ∀ m ∈ c.emits, ∃ ms ∈ messages, ∃ id, (id, m) ∈ ms := by
  have h : ∀ v ∈ visits, ∀ c ∈ v.checks, ∀ m ∈ c.emits, ∃ ms ∈ messages, ∃ p ∈ ms, p.2 = m := by decide +kernel
  intro v hv c hc m hm
  obtain ⟨ms, hms, ⟨id, m'⟩, hp, rfl⟩ := h v hv c hc m hm
  exact ⟨ms, hms, id, hp⟩

/-- No two messages have the same code or name, and the codes of a checker begin alike; pylint raises an exception for others. -/
theorem C129_codes : (messages.flatten.map (·.1)).Nodup ∧ (messages.flatten.map (·.2)).Nodup ∧
    ∀ ms ∈ messages, ∀ a ∈ ms, ∀ b ∈ ms, (a.1.drop 1).take 2 = (b.1.drop 1).take 2 := by
  refine ⟨?_, ?_, ?_⟩ <;> decide +kernel

/-! ### Examples -/

/-- With just `use-literal-letter` enabled, that is reported. -/
example : report (fun m => if m = "magical-constant-in-ord-compare".toList then none else some (m == "use-literal-letter".toList)) (fun _ _ => true) localCompare =
    ["use-literal-letter".toList] := by decide +kernel

example : report (fun m => some (m == "use-elif".toList || m == "unreachable-else".toList)) (fun _ _ => true) localIf =
    ["use-elif".toList, "unreachable-else".toList] := by decide +kernel

end Verif.Requirements

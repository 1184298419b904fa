import Verif.Model.PythonTa

/-!
C130: targets of loops, variables of comprehensions and code at the top level.
-/

namespace Verif.PythonTa

/-- The variables that a target assigns to. -/
inductive Assigns : Target → Str → Prop
  | name {n} : Assigns (.name n) n
  | tuple {ts t n} : t ∈ ts → Assigns t n → Assigns (.tuple ts) n
  | list {ts t n} : t ∈ ts → Assigns t n → Assigns (.list ts) n
  | starred {t n} : Assigns t n → Assigns (.starred t) n

/-- The subscripts and attributes that a target assigns to. -/
inductive Stores : Target → Target → Prop
  | subscript {v s} : Stores (.subscript v s) (.subscript v s)
  | attr {v a} : Stores (.attr v a) (.attr v a)
  | tuple {ts t p} : t ∈ ts → Stores t p → Stores (.tuple ts) p
  | list {ts t p} : t ∈ ts → Stores t p → Stores (.list ts) p
  | starred {t p} : Stores t p → Stores (.starred t) p

theorem mem_invalids {ts : List Target} {p : Node} : p ∈ Target.invalids ts ↔ ∃ t ∈ ts, p ∈ t.invalid := by
  induction ts with
  | nil => simp [Target.invalids]
  | cons t ts ih => simp [Target.invalids, ih]

/-- C130: Each subscript and attribute that is assigned to by a loop or comprehension is reported. -/
theorem C130_stores {t p : Target} (h : Stores t p) : .target p ∈ t.invalid := by
  induction h with
  | subscript => simp [Target.invalid]
  | attr => simp [Target.invalid]
  | tuple ht _ ih => rw [Target.invalid]; exact mem_invalids.mpr ⟨_, ht, ih⟩
  | list ht _ ih => rw [Target.invalid]; exact mem_invalids.mpr ⟨_, ht, ih⟩
  | starred _ ih => rw [Target.invalid]; exact ih

mutual

theorem X.no_target : (x : X) → ∀ p : Target, Node.target p ∉ x.invalid
  | .name _, p => by simp [X.invalid]
  | .const, p => by simp [X.invalid]
  | .subscript v s, p => by
    rw [X.invalid]
    simp only [List.mem_cons, List.mem_append, not_or]
    exact ⟨(fun h => nomatch h), X.no_target v p, X.no_target s p⟩
  | .attribute v _, p => by rw [X.invalid]; exact X.no_target v p
  | .other xs, p => by rw [X.invalid]; exact X.no_targets xs p

theorem X.no_targets : (xs : List X) → ∀ p : Target, Node.target p ∉ X.invalids xs
  | [], p => by simp [X.invalids]
  | x :: xs, p => by
    rw [X.invalids, List.mem_append, not_or]
    exact ⟨X.no_target x p, X.no_targets xs p⟩

end

mutual

theorem Target.stores_of_mem : (t : Target) → ∀ p, Node.target p ∈ t.invalid → Stores t p
  | .name _, p, h => by simp [Target.invalid] at h
  | .tuple ts, p, h => by
    rw [Target.invalid] at h
    obtain ⟨t, ht, hs⟩ := Target.stores_of_mems ts p h
    exact .tuple ht hs
  | .list ts, p, h => by
    rw [Target.invalid] at h
    obtain ⟨t, ht, hs⟩ := Target.stores_of_mems ts p h
    exact .list ht hs
  | .starred t, p, h => by
    rw [Target.invalid] at h
    exact .starred (Target.stores_of_mem t p h)
  | .subscript v s, p, h => by
    rw [Target.invalid, List.mem_cons, List.mem_append] at h
    rcases h with h | h | h
    · cases h; exact .subscript
    · exact absurd h (X.no_target v p)
    · exact absurd h (X.no_target s p)
  | .attr v a, p, h => by
    rw [Target.invalid, List.mem_cons] at h
    rcases h with h | h
    · cases h; exact .attr
    · exact absurd h (X.no_target v p)

theorem Target.stores_of_mems : (ts : List Target) → ∀ p, Node.target p ∈ Target.invalids ts → ∃ t ∈ ts, Stores t p
  | [], p, h => by simp [Target.invalids] at h
  | t :: ts, p, h => by
    rw [Target.invalids, List.mem_append] at h
    rcases h with h | h
    · exact ⟨t, List.mem_cons_self, Target.stores_of_mem t p h⟩
    · obtain ⟨t', ht, hs⟩ := Target.stores_of_mems ts p h
      exact ⟨t', List.mem_cons_of_mem _ ht, hs⟩

end

mutual

theorem Target.stores_of_any : (t : Target) → ∀ q, q ∈ t.invalid → ∃ p, Stores t p
  | .name _, q, h => by simp [Target.invalid] at h
  | .tuple ts, q, h => by
    rw [Target.invalid] at h
    obtain ⟨t, ht, p, hs⟩ := Target.stores_of_anys ts q h
    exact ⟨p, .tuple ht hs⟩
  | .list ts, q, h => by
    rw [Target.invalid] at h
    obtain ⟨t, ht, p, hs⟩ := Target.stores_of_anys ts q h
    exact ⟨p, .list ht hs⟩
  | .starred t, q, h => by
    rw [Target.invalid] at h
    obtain ⟨p, hs⟩ := Target.stores_of_any t q h
    exact ⟨p, .starred hs⟩
  | .subscript _ _, _, _ => ⟨_, .subscript⟩
  | .attr _ _, _, _ => ⟨_, .attr⟩

theorem Target.stores_of_anys : (ts : List Target) → ∀ q, q ∈ Target.invalids ts → ∃ t ∈ ts, ∃ p, Stores t p
  | [], q, h => by simp [Target.invalids] at h
  | t :: ts, q, h => by
    rw [Target.invalids, List.mem_append] at h
    rcases h with h | h
    · exact ⟨t, List.mem_cons_self, Target.stores_of_any t q h⟩
    · obtain ⟨t', ht, hs⟩ := Target.stores_of_anys ts q h
      exact ⟨t', List.mem_cons_of_mem _ ht, hs⟩

end

/-- C130: Of the targets, just those that are subscripts or attributes which are assigned to are reported, and something is reported only if there is such
a target. -/
theorem C130_targets (t : Target) : (∀ p, .target p ∈ t.invalid ↔ Stores t p) ∧ (t.invalid ≠ [] ↔ ∃ p, Stores t p) := by
  refine ⟨fun p => ⟨Target.stores_of_mem t p, C130_stores⟩, fun h => ?_, fun ⟨p, hp⟩ h => ?_⟩
  · obtain ⟨q, hq⟩ := List.exists_mem_of_ne_nil _ h
    exact Target.stores_of_any t q hq
  · have := C130_stores hp
    rw [h] at this
    cases this

/-- In `for a[b[0]] in xs:`, `b[0]` is reported, too, which is not assigned to. -/
theorem C130_read_counterexample : ∃ (t : Target) (x : X), .x x ∈ t.invalid :=
  ⟨.subscript (.name "a".toList) (.subscript (.name "b".toList) .const), .subscript (.name "b".toList) .const, by simp [Target.invalid, X.invalid]⟩

theorem frameLocals_mem {scopes : List Scope} {n : Str} (h : n ∈ frameLocals scopes) : ∃ s ∈ scopes, n ∈ s.names := by
  induction scopes with
  | nil => cases h
  | cons s rest ih =>
    rw [frameLocals] at h
    split at h
    · obtain ⟨s', hs, hn⟩ := ih h
      exact ⟨s', List.mem_cons_of_mem _ hs, hn⟩
    · exact ⟨s, List.mem_cons_self, h⟩

theorem shadowing_tuple (scopes : List Scope) (ts : List Target) : shadowing scopes (.tuple ts) = [] := by
  have : ts.filter isName = [] := by
    rw [List.filter_eq_nil_iff]
    intro t _
    simp [isName]
  rw [shadowing, this]
  rfl

/-- C130: What is reported for a comprehension is a variable of its target and one of a scope around, other than `_`. -/
theorem C130_shadowing {scopes : List Scope} {t : Target} {n : Str} (h : n ∈ shadowing scopes t) :
    Assigns t n ∧ (∃ s ∈ scopes, n ∈ s.names) ∧ n ≠ "_".toList := by
  cases t with
  | name m =>
    rw [shadowing] at h
    split at h
    · rename_i hc
      rw [List.mem_singleton] at h
      subst h
      rw [Bool.and_eq_true, List.contains_iff_mem] at hc
      exact ⟨.name, frameLocals_mem hc.1, by simpa using hc.2⟩
    · cases h
  | tuple ts => rw [shadowing_tuple] at h; cases h
  | _ => simp [shadowing] at h

/-- C130: If the target is a name, it is reported just if it is a variable of the function around (or class, or module), and not `_`. -/
theorem C130_shadows_partial {cs : List Scope} (hcs : ∀ c ∈ cs, c.comprehension = true) {f : Scope} (hf : f.comprehension = false) {outer : List Scope} {n m : Str} :
    m ∈ shadowing (cs ++ f :: outer) (.name n) ↔ m = n ∧ n ∈ f.names ∧ n ≠ "_".toList := by
  have hl : frameLocals (cs ++ f :: outer) = f.names := by
    induction cs with
    | nil => simp [frameLocals, hf]
    | cons c cs ih =>
      rw [List.cons_append, frameLocals, if_pos (hcs c List.mem_cons_self)]
      exact ih fun c' hc => hcs c' (List.mem_cons_of_mem _ hc)
  rw [shadowing, hl]
  split
  · rename_i hc
    rw [Bool.and_eq_true, List.contains_iff_mem] at hc
    rw [List.mem_singleton]
    exact ⟨fun h => ⟨h, hc.1, by simpa using hc.2⟩, fun h => h.1⟩
  · rename_i hc
    constructor
    · intro h; cases h
    · rintro ⟨-, h1, h2⟩
      exact absurd (by rw [Bool.and_eq_true, List.contains_iff_mem]; exact ⟨h1, by simpa using h2⟩) hc

/-- In `[x for x, y in ps]` with a variable `x` of the function, nothing is reported; it never is for tuples. -/
theorem C130_tuple_counterexample : (∀ scopes ts, shadowing scopes (.tuple ts) = []) ∧ ∃ (s : Scope) (t : Target) (n : Str), s.comprehension = false ∧
    Assigns t n ∧ n ∈ s.names ∧ n ≠ "_".toList ∧ shadowing [s] t = [] :=
  ⟨shadowing_tuple, ⟨false, ["x".toList]⟩, .tuple [.name "x".toList, .name "y".toList], "x".toList, rfl, .tuple List.mem_cons_self .name, by simp, by decide,
    shadowing_tuple _ _⟩

/-- A variable that shadows one of another comprehension, or one of the module in a function, is not reported. -/
theorem C130_scopes_counterexample : ∃ (comprehension function module : Scope) (n : Str), comprehension.comprehension = true ∧ function.comprehension = false ∧
    n ∈ comprehension.names ∧ n ∈ module.names ∧ n ≠ "_".toList ∧ shadowing [comprehension, function, module] (.name n) = [] :=
  ⟨⟨true, ["x".toList]⟩, ⟨false, []⟩, ⟨false, ["x".toList]⟩, "x".toList, rfl, rfl, by simp, by simp, by decide, rfl⟩

/-- C130: At the top level, all but imports, definitions, plain assignments and the main block is reported, at its place. -/
theorem C130_top_level (body : List Stmt) (i : Nat) : i ∈ topLevel body ↔ ∃ s, body[i]? = some s ∧
    s ∉ [.import_, .importFrom, .functionDef, .asyncFunctionDef, .classDef, .assign, .if_ true] := by
  have hs : ∀ s : Stmt, (!(isImport s || isDefinition s || isAssignment s || isMain s)) = true ↔
      s ∉ [.import_, .importFrom, .functionDef, .asyncFunctionDef, .classDef, .assign, .if_ true] := by
    intro s
    cases s with
    | if_ main => cases main <;> simp [isImport, isDefinition, isAssignment, isMain]
    | _ => simp [isImport, isDefinition, isAssignment, isMain]
  rw [topLevel]
  simp only [List.mem_map, List.mem_filter, Prod.exists, exists_eq_right, List.mem_zipIdx_iff_getElem?, hs]

/-- `x: int = 5` and `x += 1` are assignments, but are reported. -/
theorem C130_assignment_counterexample : topLevel [.annAssign, .augAssign] = [0, 1] := rfl

/-! ### Examples -/

/-- `for (a, b.c) in xs:` -/
example : (Target.tuple [.name "a".toList, .attr (.name "b".toList) "c".toList]).invalid = [.target (.attr (.name "b".toList) "c".toList)] := by
  simp [Target.invalid, Target.invalids, X.invalid]

example : shadowing [⟨true, []⟩, ⟨false, ["x".toList]⟩] (.name "x".toList) = ["x".toList] := by decide

example : topLevel [.import_, .other, .if_ true, .if_ false] = [1, 3] := rfl

end Verif.PythonTa

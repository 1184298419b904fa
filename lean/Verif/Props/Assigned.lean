import Verif.Model.Assigned

/-!
C128: which expressions are assigned to a variable.
-/

namespace Verif.Assigned

/-- The value that a definition gives to the variable, where `op` is the operator of an augmented assignment, applied to the value from before. -/
inductive Gives (ρ : Nat → V) (op : V → V) : Binder → List Nat → V → Prop
  | assign {t e path v} : bound path t (eval ρ e) = some v → Gives ρ op (.assign t e) path v
  | ann {e path} : Gives ρ op (.ann (some e)) path (eval ρ e)
  | aug {e path} : Gives ρ op (.aug e) path (op (eval ρ e))
  | named {e path} : Gives ρ op (.named e) path (eval ρ e)

theorem inTarget_value (d : Bool) (t : Target) (path : List Nat) (e : E) : inTarget d t path (some (false, e)) = .ok (if d then [.expr e] else []) := by
  cases e <;> simp [inTarget, descend]

/-- C128: Unless expressions that are destructured are included, too, the value of an expression that is yielded is the value of the variable; `x += e` is
another thing. -/
theorem C128_value_partial {includeNodes : Kind → Bool} {loop : Option E} {path : List Nat} {b : Binder} {r : List Found} {e : E}
    (h : assigned includeNodes false loop path b = .ok r) (he : .expr e ∈ r) (haug : ∀ e', b ≠ .aug e') {ρ : Nat → V} {op : V → V} {v : V}
    (hv : Gives ρ op b path v) : v = eval ρ e := by
  cases hv with
  | assign hb =>
    rw [assigned] at h
    split at h
    · rename_i hp
      cases h
      simp only [List.mem_singleton, Found.expr.injEq] at he
      subst he hp
      revert hb
      rename Target => t
      cases t <;> simp [bound, eq_comm]
    · rw [inTarget_value] at h
      cases h
      simp at he
  | ann =>
    cases h
    simp at he
    rw [he]
  | aug => exact absurd rfl (haug _)
  | named =>
    cases h
    simp at he
    rw [he]

/-- C128: For `x = e`, `x: int = e` and `(x := e)` that is yielded, always; for `x: int` nothing; what a loop iterates over just if it is asked for. -/
theorem C128_name (includeNodes : Kind → Bool) (d : Bool) (loop : Option E) (path : List Nat) (e : E) :
    assigned includeNodes d loop [] (.assign .name e) = .ok [.expr e] ∧ assigned includeNodes d loop path (.ann (some e)) = .ok [.expr e] ∧
      assigned includeNodes d loop path (.named e) = .ok [.expr e] ∧ assigned includeNodes d loop path (.ann none) = .ok [] ∧
      ∀ t, assigned includeNodes d loop path (.iter t e) = .ok (if d then [.expr e] else []) := by
  refine ⟨rfl, rfl, rfl, rfl, fun t => ?_⟩
  rw [assigned]
  split <;> rfl

/-- What is in a target with more than a name gets the whole expression if such ones are included, and nothing else: never an element of a tuple. -/
theorem C128_target (includeNodes : Kind → Bool) (d : Bool) (loop : Option E) (path : List Nat) (hp : path ≠ []) (t : Target) (e : E) :
    assigned includeNodes d loop path (.assign t e) = .ok (if d then [.expr e] else []) := by
  rw [assigned, if_neg hp, inTarget_value]

/-- `with`, arguments, `except` and `case` are yielded just if these are to be included. -/
theorem C128_nodes (includeNodes : Kind → Bool) (d : Bool) (loop : Option E) (path : List Nat) (k : Kind) (t : Target) (e : E) :
    assigned includeNodes d loop path (.parent k) = .ok (if includeNodes k then [.node k] else []) ∧
      assigned includeNodes d loop [] (.with_ t e) = .ok (if includeNodes .with_ then [.node .with_] else []) := ⟨rfl, rfl⟩

/-- In `a, b = 1, 2`, the expression whose value is that of `a` is not yielded: nothing is, or else the tuple is. -/
theorem C128_tuple_counterexample : ∃ (b : Binder) (path : List Nat) (e : E) (all : E), (∀ ρ op, Gives ρ op b path (eval ρ e)) ∧
    (∀ includeNodes loop, assigned includeNodes false loop path b = .ok []) ∧
    (∀ includeNodes loop, assigned includeNodes true loop path b = .ok [.expr all]) ∧ ∃ ρ, eval ρ all ≠ eval ρ e := by
  refine ⟨.assign (.tuple [.name, .name]) (.tuple [.leaf 1, .leaf 2]), [0], .leaf 1, .tuple [.leaf 1, .leaf 2], fun ρ op => .assign rfl,
    fun _ _ => C128_target _ _ _ _ (by simp) _ _, fun _ _ => C128_target _ _ _ _ (by simp) _ _, fun n => .atom n, ?_⟩
  rw [eval, eval]
  exact fun h => V.noConfusion h

/-- For `x += e`, the expression is yielded, though it is not the value of the variable. -/
theorem C128_augmented_counterexample : ∃ (b : Binder) (path : List Nat) (e : E), (∀ includeNodes d loop, assigned includeNodes d loop path b = .ok [.expr e]) ∧
    ∃ ρ op v, Gives ρ op b path v ∧ v ≠ eval ρ e := by
  refine ⟨.aug (.leaf 1), [], .leaf 1, fun _ _ _ => rfl, fun n => .atom n, fun _ => .atom 3, _, .aug, ?_⟩
  rw [eval]
  exact fun h => absurd (V.atom.inj h) (by decide)

/-- Imports and definitions are yielded, whatever is to be included. -/
theorem C128_included_counterexample : ∃ b : Binder, ∀ d loop path, assigned (fun _ => false) d loop path b = .ok [.node .functionDef] :=
  ⟨.statement .functionDef, fun _ _ _ => rfl⟩

/-- `with f() as (a, b):` raises an exception. -/
theorem C128_with_counterexample : ∃ (b : Binder) (path : List Nat), ∀ includeNodes d, assigned includeNodes d none path b = .error .attributeError :=
  ⟨.with_ (.tuple [.name, .name]) (.leaf 1), [0], fun _ _ => rfl⟩

/-- In a loop, what the loop iterates over is yielded for it. -/
theorem C128_loop_counterexample : ∃ (b : Binder) (path : List Nat), ∀ includeNodes it, assigned includeNodes true (some it) path b = .ok [.expr it] :=
  ⟨.with_ (.tuple [.name, .name]) (.leaf 1), [0], fun _ _ => rfl⟩

/-- An exception is raised only for a target of `with` that is not a name, and for the rest of a pattern, where there is no loop around. -/
theorem C128_raises {includeNodes : Kind → Bool} {d : Bool} {loop : Option E} {path : List Nat} {b : Binder} {x : PyErr} :
    assigned includeNodes d loop path b = .error x ↔ x = .attributeError ∧ loop = none ∧ (b = .matchRest ∨ ∃ t e, b = .with_ t e ∧ path ≠ []) := by
  constructor
  · intro h
    cases b with
    | assign t e =>
      rw [assigned] at h
      split at h
      · cases h
      · rw [inTarget_value] at h
        cases h
    | iter t e =>
      rw [assigned] at h
      split at h <;> cases h
    | with_ t e =>
      rw [assigned] at h
      split at h
      · cases h
      · rename_i hp
        cases loop with
        | none =>
          cases h
          exact ⟨rfl, rfl, Or.inr ⟨t, e, rfl, hp⟩⟩
        | some it => cases h
    | matchRest =>
      cases loop with
      | none =>
        cases h
        exact ⟨rfl, rfl, Or.inl rfl⟩
      | some it => cases h
    | _ => cases h
  · rintro ⟨rfl, rfl, rfl | ⟨t, e, rfl, hp⟩⟩
    · rfl
    · rw [assigned, if_neg hp]
      rfl

/-! ### Examples -/

/-- `x = (1, 2)` -/
example (ρ : Nat → V) (op : V → V) : Gives ρ op (.assign .name (.tuple [.leaf 1, .leaf 2])) [] (.tuple [ρ 1, ρ 2]) := .assign rfl

example : assigned (fun _ => false) false none [] (.assign .name (.tuple [.leaf 1, .leaf 2])) = .ok [.expr (.tuple [.leaf 1, .leaf 2])] := rfl

end Verif.Assigned

import Verif.Model.Antiunify

/-!
Which variables with different names are taken to be the same: `vars_can_be_merged` and `merge_indistinguishable_vars`,
`edulint/linting/analyses/antiunify.py:426-467`.

A scope is the functions and classes that it is in, the innermost first; the module is the empty list.
-/

namespace Verif.Aunify

abbrev Scope := List Nat

/-- `Variable`, `edulint/linting/analyses/var_events.py:22-25` -/
structure Variable where
  name : Str
  scope : Scope
  deriving DecidableEq

/-- `scope_is_nested`, `edulint/linting/analyses/data_dependency.py:912-919` -/
def scopeIsNested : Scope → Scope → Bool
  | [], outer => outer = []
  | i :: parent, outer => if i :: parent = outer then true else scopeIsNested parent outer

/-- `scopes_are_nested`, `edulint/linting/analyses/data_dependency.py:922-923` -/
def scopesAreNested (s t : Scope) : Bool := scopeIsNested s t || scopeIsNested t s

/-- The variables of a placeholder in all fragments, `edulint/linting/analyses/antiunify.py:431-436`; nothing if one is not known. `var` is `sub_to_variable`,
`edulint/linting/analyses/antiunify.py:314-324`. -/
def subVars (var : Hole → Nat → Option Variable) (h : Hole) : Option (List Variable) := (List.range h.subs.length).mapM (var h)

/-- The condition on one placeholder, `edulint/linting/analyses/antiunify.py:431-446`. -/
def canMergeOne (var : Hole → Nat → Option Variable) (before after : List Variable) (h : Hole) : Bool :=
  match subVars var h with
  | none => false
  | some vs =>
    !(vs.any (· ∈ after) || (vs.any (· ∈ before) && vs.any fun v => vs.any fun w => decide (v ≠ w) && scopesAreNested v.scope w.scope))

/-- `vars_can_be_merged`, `edulint/linting/analyses/antiunify.py:426-447`, for names that are not all the same. -/
def canMerge (var : Hole → Nat → Option Variable) (before after : List Variable) (group : List Hole) : Bool := group.all (canMergeOne var before after)

/-- `merge_indistinguishable_vars`, `edulint/linting/analyses/antiunify.py:450-467`: the numbers of the placeholders that are replaced; nothing if names have to be
consistent and are not. -/
def mergedVars (consistent : Bool) (var : Hole → Nat → Option Variable) (before after : List Variable) (hs : List Hole) : Option (List Nat) :=
  (mergeCandidates consistent hs).map (mergedIds (canMerge var before after))

end Verif.Aunify

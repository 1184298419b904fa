import Verif.Base.Str

/-!
Which functions call each other: `has_just_recursive_calls`, `get_uncalled_functions` and `collect_events_in_called` of
`edulint/linting/analyses/data_dependency.py`.

The nodes of the graph (the module, functions, and whatever else is called) are numbered. A graph is a dictionary: its keys, and for each node the
set of its neighbours, of which the order is not known, so it is any list.
-/

namespace Verif.CallGraph

/-- A dictionary from nodes to sets of nodes. -/
structure Graph where
  keys : List Nat
  next : Nat → List Nat
  /-- `g.get(u, [])` -/
  missing : ∀ u, u ∉ keys → next u = []

/-- `reverse_graph`, `edulint/linting/analyses/data_dependency.py:74-78` -/
def Graph.reverse (g : Graph) : Graph where
  keys := g.keys.flatMap g.next
  next v := g.keys.filter fun u => v ∈ g.next u
  missing v h := by
    rw [List.filter_eq_nil_iff]
    intro u hu hv
    exact h (List.mem_flatMap.mpr ⟨u, hu, of_decide_eq_true hv⟩)

/-- The loop of `reachable_from`, `edulint/linting/analyses/data_dependency.py:63-69`, with `visited` and `stack`, whose top comes first: its
result. -/
inductive Loop (g : Graph) : List Nat → List Nat → List Nat → Prop
  | done {visited} : Loop g visited [] visited
  | skip {visited u stack result} : u ∈ visited → Loop g visited stack result → Loop g visited (u :: stack) result
  | visit {visited u stack result} : u ∉ visited → Loop g (u :: visited) ((g.next u).reverse ++ stack) result →
      Loop g visited (u :: stack) result

/-- `reachable_from`, `edulint/linting/analyses/data_dependency.py:60-69` -/
def ReachableFrom (g : Graph) (start : Nat) (result : List Nat) : Prop := Loop g [] (g.next start).reverse result

/-- Equality of sets. -/
def sameSet (a b : List Nat) : Bool := a.all (b.contains ·) && b.all (a.contains ·)

/-- `has_just_recursive_calls`, `edulint/linting/analyses/data_dependency.py:53-83` -/
def JustRecursive (g : Graph) (a : Nat) (r : Bool) : Prop :=
  ∃ from_ to, ReachableFrom g a from_ ∧ ReachableFrom g.reverse a to ∧ r = sameSet from_ to

/-- `get_uncalled_functions`, `edulint/linting/analyses/data_dependency.py:86-94`. The functions have the numbers below `functions`, of which all
are in `function_defs`, `edulint/linting/analyses/variable_scope.py:182`. -/
def Uncalled (g : Graph) (functions : Nat) (result : List Nat) : Prop :=
  ∃ just : Nat → Bool, (∀ f ∈ g.keys, f < functions → JustRecursive g f (just f)) ∧
    result = (List.range functions).filter fun f =>
      !(g.keys.any fun caller => decide (caller < functions) && !just caller && (g.next caller).contains f)

/-- `dfs` of several nodes in turn, `edulint/linting/analyses/data_dependency.py:164-174`, with `visited` and `collected` before and after. -/
inductive Dfs {V : Type} (g : Graph) (values : Nat → List V) : List Nat → List Nat × List V → List Nat × List V → Prop
  | nil {s} : Dfs g values [] s s
  | skip {u us visited collected s} : u ∈ visited → Dfs g values us (visited, collected) s → Dfs g values (u :: us) (visited, collected) s
  | visit {u us visited collected s s'} : u ∉ visited → Dfs g values (g.next u) (visited ++ [u], collected ++ values u) s →
      Dfs g values us s s' → Dfs g values (u :: us) (visited, collected) s'

/-- `collect_events_in_called`, `edulint/linting/analyses/data_dependency.py:155-177` -/
def CollectCalled {V : Type} (g : Graph) (values : Nat → List V) (start : Nat) (result : List V) : Prop :=
  ∃ visited, Dfs g values [start] ([], []) (visited, result)

end Verif.CallGraph

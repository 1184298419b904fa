import Verif.Model.CallGraph
import Mathlib.Logic.Relation
import Mathlib.Tactic.ByContra

/-!
**C107** Which functions are only called recursively. **C108** Events in called functions.
-/

namespace Verif.CallGraph

open Relation (TransGen ReflTransGen)

/-- There is a call of `v` in `u`. -/
def Graph.Calls (g : Graph) (u v : Nat) : Prop := v ∈ g.next u

/-- Nodes that are still to be expanded. -/
def fresh (g : Graph) (visited : List Nat) : Nat := (g.keys.filter fun u => decide (u ∉ visited)).length

theorem filter_length_lt {p q : Nat → Bool} {l : List Nat} (hpq : ∀ x, p x = true → q x = true) {u : Nat} (hu : u ∈ l) (h1 : q u = true)
    (h2 : p u = false) : (l.filter p).length < (l.filter q).length := by
  induction l with
  | nil => cases hu
  | cons a l ih =>
    have hle : (l.filter p).length ≤ (l.filter q).length := by
      rw [← List.countP_eq_length_filter, ← List.countP_eq_length_filter]
      exact List.countP_mono_left fun x _ hx => hpq x hx
    rcases List.mem_cons.mp hu with rfl | hu
    · rw [List.filter_cons_of_pos h1, List.filter_cons_of_neg (by simp [h2])]
      simp; omega
    · have := ih hu
      cases ha : p a
      · rw [List.filter_cons_of_neg (by simp [ha])]
        cases hq : q a
        · rw [List.filter_cons_of_neg (by simp [hq])]; exact this
        · rw [List.filter_cons_of_pos hq]; simp; omega
      · rw [List.filter_cons_of_pos ha, List.filter_cons_of_pos (hpq a ha)]; simpa using this

theorem fresh_le {g : Graph} {v w : List Nat} (h : ∀ x ∈ v, x ∈ w) : fresh g w ≤ fresh g v := by
  unfold fresh
  rw [← List.countP_eq_length_filter, ← List.countP_eq_length_filter]
  refine List.countP_mono_left fun x _ hx => ?_
  simp only [decide_eq_true_eq] at hx ⊢
  exact fun hv => hx (h x hv)

theorem fresh_lt {g : Graph} {v w : List Nat} (h : ∀ x ∈ v, x ∈ w) {u : Nat} (hu : u ∈ g.keys) (h1 : u ∉ v) (h2 : u ∈ w) :
    fresh g w < fresh g v :=
  filter_length_lt (u := u) (fun x hx => by simp only [decide_eq_true_eq] at hx ⊢; exact fun hv => hx (h x hv)) hu (by simp [h1]) (by simp [h2])

/-- The loop ends. -/
theorem loop_total (g : Graph) (visited stack : List Nat) : ∃ r, Loop g visited stack r := by
  match stack with
  | [] => exact ⟨_, .done⟩
  | u :: stack =>
    by_cases hu : u ∈ visited
    · obtain ⟨r, hr⟩ := loop_total g visited stack
      exact ⟨r, .skip hu hr⟩
    · by_cases hk : u ∈ g.keys
      · have := fresh_lt (g := g) (v := visited) (w := u :: visited) (by simp +contextual) hk hu (by simp)
        obtain ⟨r, hr⟩ := loop_total g (u :: visited) ((g.next u).reverse ++ stack)
        exact ⟨r, .visit hu hr⟩
      · have := fresh_le (g := g) (v := visited) (w := u :: visited) (by simp +contextual)
        obtain ⟨r, hr⟩ := loop_total g (u :: visited) stack
        exact ⟨r, .visit hu (by rw [g.missing u hk]; exact hr)⟩
termination_by (fresh g visited, stack.length)
decreasing_by
  · exact .right _ (by simp)
  · exact .left _ _ this
  · rcases Nat.lt_or_eq_of_le this with h | h
    · exact .left _ _ h
    · rw [h]; exact .right _ (by simp)

/-- What is in the result: what was visited, and what can be reached from the stack. -/
theorem loop_sound {g : Graph} {visited stack r : List Nat} (h : Loop g visited stack r) :
    ∀ x ∈ r, x ∈ visited ∨ ∃ u ∈ stack, ReflTransGen g.Calls u x := by
  induction h with
  | done => exact fun x hx => .inl hx
  | skip _ _ ih =>
    intro x hx
    rcases ih x hx with h | ⟨u, hu, h⟩
    · exact .inl h
    · exact .inr ⟨u, by simp [hu], h⟩
  | @visit visited u stack r hu _ ih =>
    intro x hx
    rcases ih x hx with h | ⟨w, hw, h⟩
    · rcases List.mem_cons.mp h with rfl | h
      · exact .inr ⟨x, by simp, .refl⟩
      · exact .inl h
    · rcases List.mem_append.mp hw with hw | hw
      · exact .inr ⟨u, by simp, .head (List.mem_reverse.mp hw) h⟩
      · exact .inr ⟨w, by simp [hw], h⟩

/-- The result has what was visited and what was on the stack, and everything that is called by what was visited after the start. -/
theorem loop_closed {g : Graph} {visited stack r : List Nat} (h : Loop g visited stack r) :
    (∀ x ∈ visited, x ∈ r) ∧ (∀ x ∈ stack, x ∈ r) ∧
      ((∀ x ∈ visited, ∀ y ∈ g.next x, y ∈ visited ∨ y ∈ stack) → ∀ x ∈ r, ∀ y ∈ g.next x, y ∈ r) := by
  induction h with
  | done => exact ⟨fun x hx => hx, by simp, fun h x hx y hy => by simpa using h x hx y hy⟩
  | @skip visited u stack r hu _ ih =>
    refine ⟨ih.1, ?_, fun h => ih.2.2 fun x hx y hy => ?_⟩
    · intro x hx
      rcases List.mem_cons.mp hx with rfl | hx
      · exact ih.1 _ hu
      · exact ih.2.1 x hx
    · rcases h x hx y hy with h | h
      · exact .inl h
      · rcases List.mem_cons.mp h with rfl | h
        · exact .inl hu
        · exact .inr h
  | @visit visited u stack r hu _ ih =>
    refine ⟨fun x hx => ih.1 x (by simp [hx]), ?_, fun h => ih.2.2 fun x hx y hy => ?_⟩
    · intro x hx
      rcases List.mem_cons.mp hx with rfl | hx
      · exact ih.1 _ (by simp)
      · exact ih.2.1 x (by simp [hx])
    · rcases List.mem_cons.mp hx with rfl | hx
      · exact .inr (by simp [hy])
      · rcases h x hx y hy with h | h
        · exact .inl (by simp [h])
        · rcases List.mem_cons.mp h with rfl | h
          · exact .inl (by simp)
          · exact .inr (by simp [h])

/-- `reachable_from` gives what can be reached in one or more steps. -/
theorem reachableFrom_iff {g : Graph} {start : Nat} {r : List Nat} (h : ReachableFrom g start r) (x : Nat) :
    x ∈ r ↔ TransGen g.Calls start x := by
  have hc := loop_closed h
  constructor
  · intro hx
    rcases loop_sound h x hx with h | ⟨u, hu, h⟩
    · cases h
    · exact TransGen.head' (List.mem_reverse.mp hu) h
  · intro hx
    induction hx with
    | single h => exact hc.2.1 _ (List.mem_reverse.mpr h)
    | tail _ h ih => exact hc.2.2 (by simp) _ ih _ h

theorem reverse_calls {g : Graph} {u v : Nat} : g.reverse.Calls v u ↔ g.Calls u v := by
  simp only [Graph.Calls, Graph.reverse, List.mem_filter, decide_eq_true_eq]
  refine ⟨fun h => h.2, fun h => ⟨?_, h⟩⟩
  cases Decidable.em (u ∈ g.keys) with
  | inl hk => exact hk
  | inr hk => rw [g.missing u hk] at h; cases h

theorem transGen_reverse {g : Graph} {u v : Nat} : TransGen g.reverse.Calls v u ↔ TransGen g.Calls u v := by
  rw [← Relation.transGen_swap]
  constructor <;> intro h
  · exact TransGen.mono (fun a b hab => reverse_calls.mp hab) _ _ h
  · exact TransGen.mono (fun a b hab => reverse_calls.mpr hab) _ _ h

theorem sameSet_iff {a b : List Nat} : sameSet a b = true ↔ ∀ x, x ∈ a ↔ x ∈ b := by
  simp only [sameSet, Bool.and_eq_true, List.all_eq_true, List.contains_iff_mem]
  exact ⟨fun h x => ⟨h.1 x, h.2 x⟩, fun h => ⟨fun x => (h x).mp, fun x => (h x).mpr⟩⟩

/-- C107: `has_just_recursive_calls` always gives a result, and it is true exactly if the functions that the given one calls, directly or
indirectly, are those that call it. -/
theorem C107_exact (g : Graph) (a : Nat) :
    (∃ r, JustRecursive g a r) ∧
      ∀ r, JustRecursive g a r → (r = true ↔ ∀ b, TransGen g.Calls a b ↔ TransGen g.Calls b a) := by
  obtain ⟨f, hf⟩ := loop_total g [] (g.next a).reverse
  obtain ⟨t, ht⟩ := loop_total g.reverse [] (g.reverse.next a).reverse
  refine ⟨⟨_, f, t, hf, ht, rfl⟩, ?_⟩
  rintro r ⟨f, t, hf, ht, rfl⟩
  rw [sameSet_iff]
  exact forall_congr' fun b => by rw [reachableFrom_iff hf, reachableFrom_iff ht, transGen_reverse]

/-- C107, in one direction: if `has_just_recursive_calls` is true, every function that calls the given one is called by it. What is missing is
the converse, which is false. -/
theorem C107_partial {g : Graph} {a : Nat} (h : JustRecursive g a true) : ∀ b, TransGen g.Calls b a → TransGen g.Calls a b :=
  fun b => (((C107_exact g a).2 true h).mp rfl b).mpr

/-- A function 0 that calls itself and the function 1. -/
def recursiveWithHelper : Graph where
  keys := [0]
  next u := if u = 0 then [0, 1] else []
  missing u h := by simp at h; simp [h]

/-- C107 is false for a recursive function that calls another one: it is only called by itself, but `has_just_recursive_calls` is false; so
`get_uncalled_functions` does not return it although nothing else calls it. -/
theorem C107_counterexample :
    (∀ b, TransGen recursiveWithHelper.Calls b 0 → TransGen recursiveWithHelper.Calls 0 b) ∧
      JustRecursive recursiveWithHelper 0 false ∧ Uncalled recursiveWithHelper 2 [] := by
  have hj : JustRecursive recursiveWithHelper 0 false := by
    refine ⟨[0, 1], [0], ?_, ?_, rfl⟩
    · exact .visit (by decide) (.visit (by decide) (.skip (by decide) (.skip (by decide) .done)))
    · exact .visit (by decide) (.skip (by decide) .done)
  refine ⟨?_, hj, ?_⟩
  · have h1 : ∀ b c, recursiveWithHelper.Calls b c → b = 0 := by
      intro b c h
      by_contra hb
      simp [Graph.Calls, recursiveWithHelper, hb] at h
    intro b h
    have : b = 0 := by
      induction h using TransGen.head_induction_on with
      | single h => exact h1 _ _ h
      | head h _ _ => exact h1 _ _ h
    subst this
    exact h
  · refine ⟨fun _ => false, ?_, by decide⟩
    intro f hf _
    have : f = 0 := by simpa [recursiveWithHelper] using hf
    subst this
    exact hj

/-- C107: what `get_uncalled_functions` gives: the functions that are called by no function but those that call exactly what calls them. -/
theorem C107_uncalled (g : Graph) (functions : Nat) :
    (∃ r, Uncalled g functions r) ∧
      ∀ r, Uncalled g functions r → r.Nodup ∧ ∀ f, f ∈ r ↔ f < functions ∧ ∀ caller < functions, g.Calls caller f →
        ∀ b, TransGen g.Calls caller b ↔ TransGen g.Calls b caller := by
  refine ⟨?_, ?_⟩
  · have h := fun f => (C107_exact g f).1
    exact ⟨_, fun f => Classical.choose (h f), fun f _ _ => Classical.choose_spec (h f), rfl⟩
  · rintro r ⟨just, hj, rfl⟩
    refine ⟨List.nodup_range.filter _, fun f => ?_⟩
    simp only [List.mem_filter, List.mem_range, Bool.not_eq_true', List.any_eq_false, Bool.and_eq_true, decide_eq_true_eq, not_and,
      List.contains_iff_mem]
    refine and_congr_right fun _ => ⟨fun h caller hc hf => ?_, fun h caller hk hn hf => ?_⟩
    · have hk : caller ∈ g.keys := by
        cases Decidable.em (caller ∈ g.keys) with
        | inl hk => exact hk
        | inr hk => rw [Graph.Calls, g.missing caller hk] at hf; cases hf
      refine ((C107_exact g caller).2 _ (hj caller hk hc)).mp ?_
      cases hjc : just caller
      · exact (h caller hk ⟨hc, hjc⟩ hf).elim
      · rfl
    · have := ((C107_exact g caller).2 _ (hj caller hk hn.1)).mpr (h caller hn.1 hf)
      rw [hn.2] at this
      cases this

/-! ### C108 -/

/-- The traversal ends. -/
theorem dfs_total {V : Type} (g : Graph) (values : Nat → List V) (us visited : List Nat) (collected : List V) :
    ∃ s, Dfs g values us (visited, collected) s ∧ ∀ x ∈ visited, x ∈ s.1 := by
  match us with
  | [] => exact ⟨_, .nil, fun x hx => hx⟩
  | u :: us =>
    by_cases hu : u ∈ visited
    · obtain ⟨s, hs, hv⟩ := dfs_total g values us visited collected
      exact ⟨s, .skip hu hs, hv⟩
    · by_cases hk : u ∈ g.keys
      · have := fresh_lt (g := g) (v := visited) (w := visited ++ [u]) (by simp +contextual) hk hu (by simp)
        obtain ⟨s, hs, hv⟩ := dfs_total g values (g.next u) (visited ++ [u]) (collected ++ values u)
        have h2 : fresh g s.1 < fresh g visited := Nat.lt_of_le_of_lt (fresh_le hv) this
        obtain ⟨s', hs', hv'⟩ := dfs_total g values us s.1 s.2
        exact ⟨s', .visit hu hs hs', fun x hx => hv' x (hv x (by simp [hx]))⟩
      · have := fresh_le (g := g) (v := visited) (w := visited ++ [u]) (by simp +contextual)
        obtain ⟨s', hs', hv'⟩ := dfs_total g values us (visited ++ [u]) (collected ++ values u)
        exact ⟨s', .visit hu (by rw [g.missing u hk]; exact .nil) hs', fun x hx => hv' x (by simp [hx])⟩
termination_by (fresh g visited, us.length)
decreasing_by
  · exact .right _ (by simp)
  · exact .left _ _ this
  · exact .left _ _ h2
  · rcases Nat.lt_or_eq_of_le this with h | h
    · exact .left _ _ h
    · rw [h]; exact .right _ (by simp)

theorem dfs_visited {V : Type} {g : Graph} {values : Nat → List V} {us : List Nat} {s s' : List Nat × List V} (h : Dfs g values us s s') :
    (∃ new, s'.1 = s.1 ++ new ∧ s'.2 = s.2 ++ new.flatMap values ∧ (∀ x ∈ new, ∃ u ∈ us, ReflTransGen g.Calls u x)) ∧
      (s.1.Nodup → s'.1.Nodup) ∧ (∀ x ∈ us, x ∈ s'.1) ∧ (∀ x ∈ s'.1, x ∉ s.1 → ∀ y ∈ g.next x, y ∈ s'.1) := by
  induction h with
  | nil => exact ⟨⟨[], by simp⟩, id, by simp, fun x hx hn => (hn hx).elim⟩
  | @skip u us visited collected s hu _ ih =>
    obtain ⟨⟨new, h1, h2, h3⟩, hn, hus, hc⟩ := ih
    refine ⟨⟨new, h1, h2, fun x hx => ?_⟩, hn, ?_, hc⟩
    · obtain ⟨w, hw, hr⟩ := h3 x hx
      exact ⟨w, by simp [hw], hr⟩
    · intro x hx
      rcases List.mem_cons.mp hx with rfl | hx
      · rw [h1]; simp [hu]
      · exact hus x hx
  | @visit u us visited collected s s' hu _ _ ih1 ih2 =>
    obtain ⟨⟨new1, h11, h12, h13⟩, hn1, hus1, hc1⟩ := ih1
    obtain ⟨⟨new2, h21, h22, h23⟩, hn2, hus2, hc2⟩ := ih2
    refine ⟨⟨u :: new1 ++ new2, ?_, ?_, ?_⟩, ?_, ?_, ?_⟩
    · rw [h21, h11]; simp
    · rw [h22, h12]; simp
    · intro x hx
      rcases List.mem_append.mp hx with hx | hx
      · rcases List.mem_cons.mp hx with rfl | hx
        · exact ⟨x, by simp, .refl⟩
        · obtain ⟨w, hw, hr⟩ := h13 x hx
          exact ⟨u, by simp, .head hw hr⟩
      · obtain ⟨w, hw, hr⟩ := h23 x hx
        exact ⟨w, by simp [hw], hr⟩
    · intro h
      refine hn2 (hn1 ?_)
      rw [List.nodup_append]
      exact ⟨h, by simp, fun a ha b hb => by rw [List.mem_singleton.mp hb]; rintro rfl; exact hu ha⟩
    · intro x hx
      rcases List.mem_cons.mp hx with rfl | hx
      · rw [h21, h11]; simp
      · exact hus2 x hx
    · intro x hx hn y hy
      by_cases hs : x ∈ s.1
      · by_cases hxu : x = u
        · subst hxu
          have := hus1 y hy
          rw [h21]; simp [this]
        · have := hc1 x hs (by simp [hxu]; exact hn) y hy
          rw [h21]; simp [this]
      · exact hc2 x hx hs y hy

/-- C108: `collect_events_in_called` always gives a result: the events of the called function and of all that it calls, directly or indirectly,
of each of them once and in its order. -/
theorem C108_exact {V : Type} (g : Graph) (values : Nat → List V) (start : Nat) :
    (∃ r, CollectCalled g values start r) ∧
      ∀ r, CollectCalled g values start r →
        ∃ visited : List Nat, r = visited.flatMap values ∧ visited.Nodup ∧ visited.head? = some start ∧
          ∀ f, f ∈ visited ↔ ReflTransGen g.Calls start f := by
  refine ⟨?_, ?_⟩
  · obtain ⟨s, hs, -⟩ := dfs_total g values [start] [] []
    exact ⟨s.2, s.1, hs⟩
  · rintro r ⟨visited, h⟩
    have hv := dfs_visited h
    obtain ⟨⟨new, h1, h2, h3⟩, hn, hus, hc⟩ := hv
    simp only [List.nil_append] at h1 h2
    subst h1
    refine ⟨visited, h2, hn (by simp), ?_, fun f => ⟨fun hf => ?_, fun hf => ?_⟩⟩
    · cases h with
      | skip hu _ => cases hu
      | visit _ hd hr =>
        obtain ⟨⟨new1, h11, -, -⟩, -⟩ := dfs_visited hd
        obtain ⟨⟨new2, h21, -, -⟩, -⟩ := dfs_visited hr
        simp only at h21
        rw [h21, h11]; simp
    · obtain ⟨u, hu, hr⟩ := h3 f hf
      rw [List.mem_singleton.mp hu] at hr
      exact hr
    · induction hf with
      | refl => exact hus start (by simp)
      | tail _ hbc ih => exact hc _ ih (by simp) _ hbc

/-- Functions 0, 1 and 2, of which 0 calls 1 and 2, and they call each other. -/
def three : Graph where
  keys := [0, 1, 2]
  next u := if u = 0 then [1, 2] else if u = 1 then [2] else if u = 2 then [1] else []
  missing u h := by simp at h; simp [h]

example : CollectCalled three (fun u => [10 * u, 10 * u + 1]) 0 [0, 1, 10, 11, 20, 21] := by
  refine ⟨[0, 1, 2], .visit (by decide) ?_ .nil⟩
  exact .visit (by decide) (.visit (by decide) (.skip (by decide) .nil) .nil) (.skip (by decide) .nil)

example : JustRecursive three 0 false ∧ ¬ JustRecursive three 1 true := by
  constructor
  · refine ⟨[1, 2], [], ?_, .done, by decide⟩
    exact .visit (by decide) (.visit (by decide) (.skip (by decide) (.skip (by decide) .done)))
  · intro h
    have : TransGen three.Calls 1 0 := C107_partial h 0 (.single (by simp [Graph.Calls, three]))
    have h1 : ∀ b c, three.Calls b c → c ≠ 0 := by
      rintro b c h rfl
      simp only [Graph.Calls, three] at h
      split at h
      · simp at h
      · split at h
        · simp at h
        · split at h <;> simp at h
    cases this with
    | single h => exact h1 _ _ h rfl
    | tail _ h => exact h1 _ _ h rfl

end Verif.CallGraph

import Verif.Lemmas.TraverseFlow

/-!
**C83**: traversals and executions.

Full statement: from a location, the traversal along successors (predecessors) yields another one exactly if some execution
of the program gets from the first to the second (from the second to the first) without passing a location at which the
traversal is to stop.

That what executions get to is yielded is proved of the programs for which C70 is, that what is yielded is something
executions get to, of those for which C71 is; for the others, it is false.
-/

namespace Verif.Traverse

open Verif.Flow

/-- **C83**, for modules: what may be executed after a location is yielded. Missing: see C70. -/
theorem C83_after_partial (W : World) (p : Body) (hm : p.mild = true) (hf : W.asks = true ∨ p.noFor = true)
    (ht : p.noTry = true ∨ ∀ l x, ¬ W.raises l x) (hfin : p.noFinally = true) (hd : p.locations.Nodup) (tr : List Nat) (o : Out)
    (hr : RunBody W p tr o) (stop : Nat → Bool) (incS incE : Bool) (t1 t2 t3 : List Nat) (x y : Nat)
    (htr : tr = t1 ++ x :: (t2 ++ y :: t3)) (hx : incS = true → stop x = false) (hbetween : ∀ z ∈ t2, stop z = false)
    (hy : incE = true ∨ stop y = false) (lx : Loc) (hlx : locAt (moduleGraph p) lx = some x) (locs : List Loc)
    (h : Locs (ofFlow (moduleGraph p)) ⟨.successors, onLoc (moduleGraph p) stop, incS, incE⟩ [lx] locs) :
    ∃ ly ∈ locs, locAt (moduleGraph p) ly = some y := by
  obtain ⟨path, hp, hpre, -⟩ := C70_module_partial W p hm hf ht tr o hr
  subst htr
  exact after_yielded (module_sane p) ((module_all p hfin).nodup_iff.2 hd) hp hpre hx hbetween hy hlx h

/-- **C83**, for functions; `args` is the location of the arguments. -/
theorem C83_after_function_partial (W : World) (args : Nat) (p : Body) (hm : p.mild = true) (hf : W.asks = true ∨ p.noFor = true)
    (ht : p.noTry = true ∨ ∀ l x, ¬ W.raises l x) (hfin : p.noFinally = true) (hd : (args :: p.locations).Nodup)
    (tr : List Nat) (o : Out) (hr : RunBody W p tr o) (stop : Nat → Bool) (incS incE : Bool) (t1 t2 t3 : List Nat) (x y : Nat)
    (htr : args :: tr = t1 ++ x :: (t2 ++ y :: t3)) (hx : incS = true → stop x = false) (hbetween : ∀ z ∈ t2, stop z = false)
    (hy : incE = true ∨ stop y = false) (lx : Loc) (hlx : locAt (functionGraph args p) lx = some x) (locs : List Loc)
    (h : Locs (ofFlow (functionGraph args p)) ⟨.successors, onLoc (functionGraph args p) stop, incS, incE⟩ [lx] locs) :
    ∃ ly ∈ locs, locAt (functionGraph args p) ly = some y := by
  obtain ⟨path, hp, hpre, -⟩ := C70_function_partial W args p hm hf ht tr o hr
  rw [htr] at hpre
  exact after_yielded (function_sane args p) ((function_all args p hfin).nodup_iff.2 hd) hp hpre hx hbetween hy hlx h

/-- **C83**, for modules: what may be executed before a location is yielded by the traversal along predecessors. -/
theorem C83_before_partial (W : World) (p : Body) (hm : p.mild = true) (hf : W.asks = true ∨ p.noFor = true)
    (ht : p.noTry = true ∨ ∀ l x, ¬ W.raises l x) (hfin : p.noFinally = true) (hd : p.locations.Nodup) (tr : List Nat) (o : Out)
    (hr : RunBody W p tr o) (stop : Nat → Bool) (incS incE : Bool) (t1 t2 t3 : List Nat) (x y : Nat)
    (htr : tr = t1 ++ x :: (t2 ++ y :: t3)) (hy : incS = true → stop y = false) (hbetween : ∀ z ∈ t2, stop z = false)
    (hx : incE = true ∨ stop x = false) (lx ly : Loc) (hlx : locAt (moduleGraph p) lx = some x)
    (hly : locAt (moduleGraph p) ly = some y) (locs : List Loc)
    (h : Locs (ofFlow (moduleGraph p)) ⟨.predecessors, onLoc (moduleGraph p) stop, incS, incE⟩ [ly] locs) : lx ∈ locs := by
  obtain ⟨path, hp, hpre, -⟩ := C70_module_partial W p hm hf ht tr o hr
  subst htr
  exact before_yielded (module_sane p) ((module_all p hfin).nodup_iff.2 hd) hp hpre hy hbetween hx hlx hly h

/-- **C83**, for functions, along predecessors. -/
theorem C83_before_function_partial (W : World) (args : Nat) (p : Body) (hm : p.mild = true)
    (hf : W.asks = true ∨ p.noFor = true) (ht : p.noTry = true ∨ ∀ l x, ¬ W.raises l x) (hfin : p.noFinally = true)
    (hd : (args :: p.locations).Nodup) (tr : List Nat) (o : Out) (hr : RunBody W p tr o) (stop : Nat → Bool) (incS incE : Bool)
    (t1 t2 t3 : List Nat) (x y : Nat) (htr : args :: tr = t1 ++ x :: (t2 ++ y :: t3)) (hy : incS = true → stop y = false)
    (hbetween : ∀ z ∈ t2, stop z = false) (hx : incE = true ∨ stop x = false) (lx ly : Loc)
    (hlx : locAt (functionGraph args p) lx = some x) (hly : locAt (functionGraph args p) ly = some y) (locs : List Loc)
    (h : Locs (ofFlow (functionGraph args p)) ⟨.predecessors, onLoc (functionGraph args p) stop, incS, incE⟩ [ly] locs) :
    lx ∈ locs := by
  obtain ⟨path, hp, hpre, -⟩ := C70_function_partial W args p hm hf ht tr o hr
  rw [htr] at hpre
  exact before_yielded (function_sane args p) ((function_all args p hfin).nodup_iff.2 hd) hp hpre hy hbetween hx hlx hly h

/-- **C83**, for modules: what is yielded, from a location that may be executed, may be executed after it. Missing: programs
with `try`, see C71. -/
theorem C83_possible_after_partial (W : World) (p : Body) (hp : p.noTry = true) (hf : W.asks = true ∨ p.noFor = true)
    (hfin : p.noFinally = true) (hd : p.locations.Nodup) (x : Nat) (hx : ∃ tr o, RunBody W p tr o ∧ x ∈ tr) (stop : Nat → Bool)
    (incS incE : Bool) (lx ly : Loc) (hlx : locAt (moduleGraph p) lx = some x) (locs : List Loc)
    (h : Locs (ofFlow (moduleGraph p)) ⟨.successors, onLoc (moduleGraph p) stop, incS, incE⟩ [lx] locs) (hly : ly ∈ locs)
    (hne : incS = false ∨ ly ≠ lx) :
    ∃ y tr o t1 t2 t3, locAt (moduleGraph p) ly = some y ∧ RunBody W p tr o ∧ tr = t1 ++ x :: (t2 ++ y :: t3) ∧
      (∀ z ∈ t2, stop z = false) ∧ (incS = true → stop x = false) ∧ (incE = true ∨ stop y = false) := by
  obtain ⟨path, hpath, hmem⟩ := (C71_locations_partial W p hp hf x).2 hx
  obtain ⟨y, t1, t2, t3, path', h1, h2, h3, h4⟩ := yielded_after (module_sane p) ((module_all p hfin).nodup_iff.2 hd) hpath hmem
    hlx h hly hne
  exact ⟨y, _, _, t1, t2, t3, h1, C71_module_partial W p hp hf path' h2, h3, h4⟩

/-- **C83**, for modules, along predecessors: what is yielded and may be executed may be executed before the location. -/
theorem C83_possible_before_partial (W : World) (p : Body) (hp : p.noTry = true) (hf : W.asks = true ∨ p.noFor = true)
    (hfin : p.noFinally = true) (hd : p.locations.Nodup) (x y : Nat) (hx : ∃ tr o, RunBody W p tr o ∧ x ∈ tr)
    (stop : Nat → Bool) (incS incE : Bool) (lx ly : Loc) (hlx : locAt (moduleGraph p) lx = some x)
    (hly : locAt (moduleGraph p) ly = some y) (locs : List Loc)
    (h : Locs (ofFlow (moduleGraph p)) ⟨.predecessors, onLoc (moduleGraph p) stop, incS, incE⟩ [ly] locs) (hm : lx ∈ locs)
    (hne : incS = false ∨ lx ≠ ly) :
    ∃ tr o t1 t2 t3, RunBody W p tr o ∧ tr = t1 ++ x :: (t2 ++ y :: t3) ∧
      (∀ z ∈ t2, stop z = false) ∧ (incS = true → stop y = false) ∧ (incE = true ∨ stop x = false) := by
  obtain ⟨path, hpath, hmem⟩ := (C71_locations_partial W p hp hf x).2 hx
  obtain ⟨t1, t2, t3, path', h1, h2, h3⟩ := yielded_before (module_sane p) ((module_all p hfin).nodup_iff.2 hd) hpath hmem
    hlx hly h hm hne
  exact ⟨_, _, t1, t2, t3, C71_module_partial W p hp hf path' h1, h2, h3⟩

/-- What may be executed in a function lies on a path. -/
theorem function_path {W : World} {args : Nat} {p : Body} (hp : p.noTry = true) (hf : W.asks = true ∨ p.noFor = true) {x : Nat}
    (hx : x = args ∨ ∃ tr o, RunBody W p tr o ∧ x ∈ tr) : ∃ path, (functionGraph args p).IsPath path ∧ x ∈ (functionGraph args p).along path := by
  rcases hx with rfl | ⟨tr, o, hr, hx⟩
  · obtain ⟨path, h1, h2, -⟩ := C70_function_partial W x p (body_mild p hp) hf (.inl hp) [] _ (body_cuts W p)
    exact ⟨path, h1, h2.subset (List.mem_cons_self ..)⟩
  · obtain ⟨path, h1, h2, -⟩ := C70_function_partial W args p (body_mild p hp) hf (.inl hp) tr o hr
    exact ⟨path, h1, h2.subset (List.mem_cons_of_mem _ hx)⟩

/-- **C83**, for functions: what is yielded, from a location that may be executed, may be executed after it. -/
theorem C83_possible_after_function_partial (W : World) (args : Nat) (p : Body) (hp : p.noTry = true) (hf : W.asks = true ∨ p.noFor = true)
    (hfin : p.noFinally = true) (hd : (args :: p.locations).Nodup) (x : Nat) (hx : x = args ∨ ∃ tr o, RunBody W p tr o ∧ x ∈ tr) (stop : Nat → Bool)
    (incS incE : Bool) (lx ly : Loc) (hlx : locAt (functionGraph args p) lx = some x) (locs : List Loc)
    (h : Locs (ofFlow (functionGraph args p)) ⟨.successors, onLoc (functionGraph args p) stop, incS, incE⟩ [lx] locs) (hly : ly ∈ locs)
    (hne : incS = false ∨ ly ≠ lx) :
    ∃ y tr o t1 t2 t3, locAt (functionGraph args p) ly = some y ∧ RunBody W p tr o ∧ args :: tr = t1 ++ x :: (t2 ++ y :: t3) ∧
      (∀ z ∈ t2, stop z = false) ∧ (incS = true → stop x = false) ∧ (incE = true ∨ stop y = false) := by
  obtain ⟨path, hpath, hmem⟩ := function_path hp hf hx
  obtain ⟨y, t1, t2, t3, path', h1, h2, h3, h4⟩ := yielded_after (function_sane args p) ((function_all args p hfin).nodup_iff.2 hd) hpath hmem
    hlx h hly hne
  obtain ⟨tr, h5, h6⟩ := C71_function_partial W args p hp hf path' h2
  exact ⟨y, tr, _, t1, t2, t3, h1, h6, h5.trans h3, h4⟩

/-- **C83**, for functions, along predecessors: what is yielded and may be executed may be executed before the location. -/
theorem C83_possible_before_function_partial (W : World) (args : Nat) (p : Body) (hp : p.noTry = true) (hf : W.asks = true ∨ p.noFor = true)
    (hfin : p.noFinally = true) (hd : (args :: p.locations).Nodup) (x y : Nat) (hx : x = args ∨ ∃ tr o, RunBody W p tr o ∧ x ∈ tr)
    (stop : Nat → Bool) (incS incE : Bool) (lx ly : Loc) (hlx : locAt (functionGraph args p) lx = some x)
    (hly : locAt (functionGraph args p) ly = some y) (locs : List Loc)
    (h : Locs (ofFlow (functionGraph args p)) ⟨.predecessors, onLoc (functionGraph args p) stop, incS, incE⟩ [ly] locs) (hm : lx ∈ locs)
    (hne : incS = false ∨ lx ≠ ly) :
    ∃ tr o t1 t2 t3, RunBody W p tr o ∧ args :: tr = t1 ++ x :: (t2 ++ y :: t3) ∧
      (∀ z ∈ t2, stop z = false) ∧ (incS = true → stop y = false) ∧ (incE = true ∨ stop x = false) := by
  obtain ⟨path, hpath, hmem⟩ := function_path hp hf hx
  obtain ⟨t1, t2, t3, path', h1, h2, h3⟩ := yielded_before (function_sane args p) ((function_all args p hfin).nodup_iff.2 hd) hpath hmem
    hlx hly h hm hne
  obtain ⟨tr, h5, h6⟩ := C71_function_partial W args p hp hf path' h1
  exact ⟨tr, _, t1, t2, t3, h6, h5.trans h2, h3⟩

/-- **C83** does not hold with `finally`: from `a` in `try: a`, `finally: b`, nothing is yielded. -/
theorem C83_finally_counterexample :
    let p := seq [.try_ (.simple 0) .nil .nil .nil (seq [.simple 1])]
    RunBody quiet p [0, 1] .normal ∧ locAt (moduleGraph p) (0, 0) = some 0 ∧
      Locs (ofFlow (moduleGraph p)) ⟨.successors, fun _ => false, false, false⟩ [(0, 0)] [] :=
  ⟨C70_finally_counterexample.1, by decide +kernel, [], ⟨20, _, rfl, by decide +kernel, by decide +kernel, by decide +kernel⟩, rfl⟩

/-- **C83** does not hold with exceptions: `try: a; b`, `except E: c`, where `a` raises `E`. From `a`, stopping at `b`, nothing
is yielded, but `c` may be executed next. -/
theorem C83_raises_counterexample :
    let p := seq [.try_ (.simple 0) (seq [.simple 1]) (exceptE [.simple 2]) .nil .nil]
    RunBody raising p [0, 2] .normal ∧ locAt (moduleGraph p) (0, 0) = some 0 ∧
      Locs (ofFlow (moduleGraph p)) ⟨.successors, onLoc (moduleGraph p) (· == 1), false, false⟩ [(0, 0)] [] :=
  ⟨C70_raises_counterexample.1, by decide +kernel, [], ⟨20, _, rfl, by decide +kernel, by decide +kernel, by decide +kernel⟩, rfl⟩

/-! `a`, `while b: c; if d: break`, `e` -/

def whileBreak : Body :=
  seq [.simple 0, .loop 1 (seq [.simple 2, .cond 3 (seq [.jump .brk 4]) .nil]) .nil, .simple 5]

/-- From `c`, stopping at `b`: `d`, `break` and `e`. -/
example : ∃ locs, Locs (ofFlow (moduleGraph whileBreak))
      ⟨.successors, onLoc (moduleGraph whileBreak) (· == 1), false, false⟩ [(4, 0)] locs ∧
    locAt (moduleGraph whileBreak) (4, 0) = some 2 ∧
    locs.map (locAt (moduleGraph whileBreak)) = [some 3, some 4, some 5] :=
  ⟨_, ⟨_, ⟨20, _, rfl, by decide +kernel, by decide +kernel, rfl⟩, rfl⟩, by decide +kernel, by decide +kernel⟩

theorem whileBreak_run : RunBody quiet whileBreak [0, 1, 2, 3, 4, 5] .normal := by
  refine .both (t1 := [0]) (t2 := [1, 2, 3, 4, 5]) .ok (.both (t1 := [1, 2, 3, 4]) (t2 := [5]) ?_ (.both (t1 := [5]) (t2 := []) .ok .ok))
  refine .brk (t1 := [1]) (t2 := [2, 3, 4]) .ok (.both (t1 := [2]) (t2 := [3, 4]) .ok ?_)
  refine .first (.both (t1 := [3]) (t2 := [4]) .ok (.left ?_)) (by decide)
  exact .first (.both (t1 := [4]) (t2 := []) .ok .brk) (by decide)

/-- In an execution, `break` comes after `c` without `b` in between, so it is yielded; the same from `break` back to `c`. -/
example (locs locs' : List Loc)
    (h : Locs (ofFlow (moduleGraph whileBreak)) ⟨.successors, onLoc (moduleGraph whileBreak) (· == 1), false, false⟩ [(4, 0)] locs)
    (h' : Locs (ofFlow (moduleGraph whileBreak)) ⟨.predecessors, onLoc (moduleGraph whileBreak) (· == 1), true, false⟩
      [(5, 0)] locs') :
    (∃ ly ∈ locs, locAt (moduleGraph whileBreak) ly = some 4) ∧ (4, 0) ∈ locs' := by
  have hr := whileBreak_run
  exact ⟨C83_after_partial quiet whileBreak (by decide) (.inr (by decide)) (.inl (by decide)) (by decide) (by decide) _ _ hr (· == 1) false
      false [0, 1] [3] [5] 2 4 rfl (by decide) (by decide) (by decide) (4, 0) (by decide +kernel) locs h,
    C83_before_partial quiet whileBreak (by decide) (.inr (by decide)) (.inl (by decide)) (by decide) (by decide) _ _ hr (· == 1) true
      false [0, 1] [3] [5] 2 4 rfl (by decide) (by decide) (by decide) (4, 0) (5, 0) (by decide +kernel) (by decide +kernel) locs' h'⟩

/-- The same in a function. -/
example (locs locs' : List Loc)
    (h : Locs (ofFlow (functionGraph 9 whileBreak)) ⟨.successors, onLoc (functionGraph 9 whileBreak) (· == 1), false, false⟩ [(5, 0)] locs)
    (h' : Locs (ofFlow (functionGraph 9 whileBreak)) ⟨.predecessors, onLoc (functionGraph 9 whileBreak) (· == 1), true, false⟩
      [(6, 0)] locs') :
    (∃ ly ∈ locs, locAt (functionGraph 9 whileBreak) ly = some 4) ∧ (5, 0) ∈ locs' :=
  ⟨C83_after_function_partial quiet 9 whileBreak (by decide) (.inr (by decide)) (.inl (by decide)) (by decide) (by decide) _ _ whileBreak_run
      (· == 1) false false [9, 0, 1] [3] [5] 2 4 rfl (by decide) (by decide) (by decide) (5, 0) (by decide +kernel) locs h,
    C83_before_function_partial quiet 9 whileBreak (by decide) (.inr (by decide)) (.inl (by decide)) (by decide) (by decide) _ _ whileBreak_run
      (· == 1) true false [9, 0, 1] [3] [5] 2 4 rfl (by decide) (by decide) (by decide) (5, 0) (6, 0) (by decide +kernel) (by decide +kernel)
      locs' h'⟩

/-- `e` is yielded from `c` without going through `b`, so that there is an execution in which it comes after it like that; in a
module as in a function. -/
example (locs locs' : List Loc)
    (h : Locs (ofFlow (moduleGraph whileBreak)) ⟨.successors, onLoc (moduleGraph whileBreak) (· == 1), false, false⟩ [(4, 0)] locs)
    (hm : (3, 0) ∈ locs)
    (h' : Locs (ofFlow (functionGraph 9 whileBreak)) ⟨.successors, onLoc (functionGraph 9 whileBreak) (· == 1), false, false⟩ [(5, 0)] locs')
    (hm' : (4, 0) ∈ locs') :
    (∃ tr o t1 t2 t3, RunBody quiet whileBreak tr o ∧ tr = t1 ++ 2 :: (t2 ++ 5 :: t3) ∧ ∀ z ∈ t2, (z == 1) = false) ∧
    ∃ tr o t1 t2 t3, RunBody quiet whileBreak tr o ∧ 9 :: tr = t1 ++ 2 :: (t2 ++ 5 :: t3) ∧ ∀ z ∈ t2, (z == 1) = false := by
  obtain ⟨y, tr, o, t1, t2, t3, h1, h2, h3, h4, -⟩ := C83_possible_after_partial quiet whileBreak (by decide) (.inr (by decide)) (by decide)
    (by decide) 2 ⟨_, _, whileBreak_run, by simp⟩ (· == 1) false false (4, 0) (3, 0) (by decide +kernel) locs h hm (.inl rfl)
  obtain ⟨y', tr', o', t1', t2', t3', h1', h2', h3', h4', -⟩ := C83_possible_after_function_partial quiet 9 whileBreak (by decide)
    (.inr (by decide)) (by decide) (by decide) 2 (.inr ⟨_, _, whileBreak_run, by simp⟩) (· == 1) false false (5, 0) (4, 0) (by decide +kernel)
    locs' h' hm' (.inl rfl)
  have hy : locAt (moduleGraph whileBreak) (3, 0) = some 5 := by decide +kernel
  have hy' : locAt (functionGraph 9 whileBreak) (4, 0) = some 5 := by decide +kernel
  rw [hy] at h1
  rw [hy'] at h1'
  cases h1
  cases h1'
  exact ⟨⟨tr, o, t1, t2, t3, h2, h3, h4⟩, tr', o', t1', t2', t3', h2', h3', h4'⟩

/-- Backwards from `e`. -/
example (locs locs' : List Loc)
    (h : Locs (ofFlow (moduleGraph whileBreak)) ⟨.predecessors, onLoc (moduleGraph whileBreak) (· == 1), false, false⟩ [(3, 0)] locs)
    (hm : (4, 0) ∈ locs)
    (h' : Locs (ofFlow (functionGraph 9 whileBreak)) ⟨.predecessors, onLoc (functionGraph 9 whileBreak) (· == 1), false, false⟩ [(4, 0)] locs')
    (hm' : (5, 0) ∈ locs') :
    (∃ tr o t1 t2 t3, RunBody quiet whileBreak tr o ∧ tr = t1 ++ 2 :: (t2 ++ 5 :: t3) ∧ ∀ z ∈ t2, (z == 1) = false) ∧
    ∃ tr o t1 t2 t3, RunBody quiet whileBreak tr o ∧ 9 :: tr = t1 ++ 2 :: (t2 ++ 5 :: t3) ∧ ∀ z ∈ t2, (z == 1) = false := by
  obtain ⟨tr, o, t1, t2, t3, h2, h3, h4, -⟩ := C83_possible_before_partial quiet whileBreak (by decide) (.inr (by decide)) (by decide)
    (by decide) 2 5 ⟨_, _, whileBreak_run, by simp⟩ (· == 1) false false (4, 0) (3, 0) (by decide +kernel) (by decide +kernel) locs h hm (.inl rfl)
  obtain ⟨tr', o', t1', t2', t3', h2', h3', h4', -⟩ := C83_possible_before_function_partial quiet 9 whileBreak (by decide)
    (.inr (by decide)) (by decide) (by decide) 2 5 (.inr ⟨_, _, whileBreak_run, by simp⟩) (· == 1) false false (5, 0) (4, 0) (by decide +kernel)
    (by decide +kernel) locs' h' hm' (.inl rfl)
  exact ⟨⟨tr, o, t1, t2, t3, h2, h3, h4⟩, tr', o', t1', t2', t3', h2', h3', h4'⟩

end Verif.Traverse

import Verif.Lemmas.InsideAll
import Verif.Model.Modified

/-!
**C90**: the locations in statements.

Full statement: `syntactic_children_locs` of statements in a row yields each location in them that is executed in some execution
once, and nothing that is not in them. False for a `with` that is followed by statements in the same suite, and for programs for
which C70 is false.

**C91**: whether variables are modified in statements.

Full statement: if `modified_in` is false, no execution changes one of the variables in the statements. False for `del`, and where
C90 is false.
-/

namespace Verif.Inside

open Verif.Flow
open Verif.Traverse (Loc locAt)
open Verif.Cfg (Event EventType)

/-- **C90**, for modules: what is yielded is in the statements, and nothing is yielded twice. Missing: programs with `finally`. -/
theorem C90_sound_partial (p b : Body) (f : Bool) (hat : At b true p f) (hfin : p.noFinally = true) (hd : p.locations.Nodup)
    (locs : List Loc) (h : Inside (moduleGraph p) b locs) :
    locs.Nodup ∧ ∀ x ∈ locs, ∃ l, locAt (moduleGraph p) x = some l ∧ l ∈ b.locations :=
  have hg := module_sane p
  have hd' := (module_all p hfin).nodup_iff.2 hd
  have hf := hat.noFinally hfin
  have hn := hat.sublist.nodup hd
  ⟨inside_nodup hg hd' hf hn (hat.module hd) h, inside_sound hg hd' hf hn (hat.module hd) h⟩

/-- **C90**, for functions. -/
theorem C90_sound_function_partial (args : Nat) (p b : Body) (f : Bool) (hat : At b true p f) (hfin : p.noFinally = true)
    (hd : (args :: p.locations).Nodup) (locs : List Loc) (h : Inside (functionGraph args p) b locs) :
    locs.Nodup ∧ ∀ x ∈ locs, ∃ l, locAt (functionGraph args p) x = some l ∧ l ∈ b.locations :=
  have hg := function_sane args p
  have hd' := (function_all args p hfin).nodup_iff.2 hd
  have hf := hat.noFinally hfin
  have hn := hat.sublist.nodup (List.nodup_cons.1 hd).2
  ⟨inside_nodup hg hd' hf hn (hat.function hd) h, inside_sound hg hd' hf hn (hat.function hd) h⟩

/-- Statements in a row that are not none. -/
theorem cons_of {F : Graph} {b : Body} {locs : List Loc} (h : Inside F b locs) : ∃ s rest, b = .cons s rest := by
  obtain ⟨s, ss, x, h1, -⟩ := h
  cases b with
  | nil => cases h1
  | cons s rest => exact ⟨s, rest, rfl⟩

/-- **C90**, for modules: what is executed of the statements is yielded. Missing: statements in a row one of which is a
`with`, unless they are the last ones of their suite, for which it is false; programs for which C70 is false. -/
theorem C90_partial (W : World) (p b : Body) (f : Bool) (hat : At b true p f) (hwith : f = true ∨ noWith b = true)
    (hm : p.mild = true) (hf : W.asks = true ∨ p.noFor = true) (ht : p.noTry = true ∨ ∀ l x, ¬ W.raises l x)
    (hfin : p.noFinally = true) (hd : p.locations.Nodup) (locs : List Loc) (h : Inside (moduleGraph p) b locs) (tr : List Nat)
    (o : Out) (hr : RunBody W p tr o) (l : Nat) (hl : l ∈ tr) (hb : l ∈ b.locations) :
    ∃ x ∈ locs, locAt (moduleGraph p) x = some l := by
  obtain ⟨s, rest, hbe⟩ := cons_of h
  obtain ⟨path, hp, hpre, -⟩ := C70_module_partial W p hm hf ht tr o hr
  obtain ⟨t0, t1, rfl⟩ := List.append_of_mem hl
  obtain ⟨a, m, h1, h2⟩ := hat.begins (W := W) hbe hd _ _ hr t0 l t1 rfl hb
  have e : t0 ++ l :: t1 = a ++ first s :: (m ++ t1) := by
    rw [show t0 ++ l :: t1 = (t0 ++ [l]) ++ t1 by simp, h1]; simp
  rw [e] at hpre
  refine inside_complete (module_sane p) ((module_all p hfin).nodup_iff.2 hd) (hat.noFinally hfin) (hat.sublist.nodup hd) (hat.module hd)
    (noWith_eq b ▸ hwith) hbe h hp hpre h2 l (last_mem h1)

/-- **C90**, for functions. -/
theorem C90_function_partial (W : World) (args : Nat) (p b : Body) (f : Bool) (hat : At b true p f)
    (hwith : f = true ∨ noWith b = true) (hm : p.mild = true) (hf : W.asks = true ∨ p.noFor = true)
    (ht : p.noTry = true ∨ ∀ l x, ¬ W.raises l x) (hfin : p.noFinally = true) (hd : (args :: p.locations).Nodup) (locs : List Loc)
    (h : Inside (functionGraph args p) b locs) (tr : List Nat) (o : Out) (hr : RunBody W p tr o) (l : Nat) (hl : l ∈ tr)
    (hb : l ∈ b.locations) : ∃ x ∈ locs, locAt (functionGraph args p) x = some l := by
  obtain ⟨s, rest, hbe⟩ := cons_of h
  obtain ⟨path, hp, hpre, -⟩ := C70_function_partial W args p hm hf ht tr o hr
  obtain ⟨t0, t1, rfl⟩ := List.append_of_mem hl
  have hd' := (List.nodup_cons.1 hd).2
  obtain ⟨a, m, h1, h2⟩ := hat.begins (W := W) hbe hd' _ _ hr t0 l t1 rfl hb
  have e : args :: (t0 ++ l :: t1) = (args :: a) ++ first s :: (m ++ t1) := by
    rw [show t0 ++ l :: t1 = (t0 ++ [l]) ++ t1 by simp, h1]; simp
  rw [e] at hpre
  exact inside_complete (function_sane args p) ((function_all args p hfin).nodup_iff.2 hd) (hat.noFinally hfin) (hat.sublist.nodup hd')
    (hat.function hd) (noWith_eq b ▸ hwith) hbe h hp hpre h2 l (last_mem h1)

/-- **C90**: `syntactic_children_locs` of statements comes to an end, without an exception. -/
theorem C90_total_partial (p b : Body) (f : Bool) (hat : At b true p f) (hb : b.isNil = false) (hfin : p.noFinally = true)
    (hd : p.locations.Nodup) : ∃ locs, Inside (moduleGraph p) b locs ∧ ∀ locs', Inside (moduleGraph p) b locs' → locs' = locs := by
  obtain ⟨locs, h⟩ := inside_total (module_sane p) ((module_all p hfin).nodup_iff.2 hd) (hat.noFinally hfin) (hat.sublist.nodup hd)
    (hat.module hd) hb
  exact ⟨locs, h, fun locs' h' => inside_unique h' h⟩

/-- **C90** for functions. -/
theorem C90_total_function_partial (args : Nat) (p b : Body) (f : Bool) (hat : At b true p f) (hb : b.isNil = false)
    (hfin : p.noFinally = true) (hd : (args :: p.locations).Nodup) :
    ∃ locs, Inside (functionGraph args p) b locs ∧ ∀ locs', Inside (functionGraph args p) b locs' → locs' = locs := by
  obtain ⟨locs, h⟩ := inside_total (function_sane args p) ((function_all args p hfin).nodup_iff.2 hd) (hat.noFinally hfin)
    (hat.sublist.nodup (List.nodup_cons.1 hd).2) (hat.function hd) hb
  exact ⟨locs, h, fun locs' h' => inside_unique h' h⟩

/-! ### Examples -/

/-- `a`, `while b: (if c: d)`, `(if e: f)`, `g`: the two statements in the middle. -/
def around : Body := seq [.simple 0, .loop 1 (seq [.cond 2 (seq [.simple 3]) .nil]) .nil, .cond 4 (seq [.simple 5]) .nil, .simple 6]

def middle : Body := seq [.loop 1 (seq [.cond 2 (seq [.simple 3]) .nil]) .nil, .cond 4 (seq [.simple 5]) .nil]

theorem middle_at : At middle true around false := .skip (.here (seq [.simple 6]))

theorem middle_inside : Inside (moduleGraph around) middle [(2, 0), (4, 0), (5, 0), (3, 0), (8, 0)] := insideIn_eq (n := 40) (by decide +kernel)

example : ∀ x ∈ [(2, 0), (4, 0), (5, 0), (3, 0), (8, 0)], ∃ l, locAt (moduleGraph around) x = some l ∧ l ∈ [1, 2, 3, 4, 5] :=
  (C90_sound_partial around middle false middle_at rfl (by decide) _ middle_inside).2

/-- What is executed if the test of the `while` is true once, and those of the `if`s are not. -/
theorem around_run : RunBody quiet around [0, 1, 2, 1, 4, 6] .normal := by
  refine .both (t1 := [0]) .ok (.both (t1 := [1, 2, 1]) ?_ (.both (t1 := [4]) (.both (t1 := [4]) (t2 := []) .ok (.right .ok))
    (.both (t1 := [6]) (t2 := []) .ok .ok)))
  exact .next (t1 := [1]) (t2 := [2]) (o := .normal) (t3 := [1]) .ok
    (.both (t1 := [2]) (t2 := []) (.both (t1 := [2]) (t2 := []) .ok (.right .ok)) .ok) (.inl rfl) (.done (.both (t1 := [1]) (t2 := []) .ok .ok))

example : ∃ x ∈ [(2, 0), (4, 0), (5, 0), (3, 0), (8, 0)], locAt (moduleGraph around) x = some 4 :=
  C90_partial quiet around middle false middle_at (.inr rfl) rfl (.inr rfl) (.inl rfl) rfl (by decide) _ middle_inside _ _ around_run 4
    (by simp) (by decide)

/-- The same in a function. -/
example (locs : List Loc) (h : Inside (functionGraph 9 around) middle locs) :
    (∃ x ∈ locs, locAt (functionGraph 9 around) x = some 4) ∧ ∀ x ∈ locs, ∃ l, locAt (functionGraph 9 around) x = some l ∧ l ∈ [1, 2, 3, 4, 5] :=
  ⟨C90_function_partial quiet 9 around middle false middle_at (.inr rfl) rfl (.inr rfl) (.inl rfl) rfl (by decide) locs h _ _ around_run 4 (by simp) (by decide),
    (C90_sound_function_partial 9 around middle false middle_at rfl (by decide) locs h).2⟩

example : ∃ locs, Inside (moduleGraph around) middle locs ∧ ∀ locs', Inside (moduleGraph around) middle locs' → locs' = locs :=
  C90_total_partial around middle false middle_at rfl rfl (by decide)

/-! ### Disagreements -/

/-- `with a: (if b: c); d` and then `e`. -/
def withIf : Stmt := .enter 0 [] (seq [.cond 1 (seq [.simple 2]) .nil, .simple 3])

theorem withIf_run {rest : Body} {t : List Nat} (h : RunBody quiet rest t .normal) : RunBody quiet (.cons withIf rest) (0 :: 1 :: 2 :: 3 :: t) .normal := by
  refine .both (t1 := [0, 1, 2, 3]) (.both (t1 := [0]) .ok (.both (t1 := []) .ok ?_)) h
  exact .both (t1 := [1, 2]) (.both (t1 := [1]) (t2 := [2]) .ok (.left (.both (t1 := [2]) (t2 := []) .ok .ok))) (.both (t1 := [3]) (t2 := []) .ok .ok)

/-- **C90** is false for a `with` that is followed by a statement: what is in it after an `if` in it is in the same block as what
follows it, and the whole block counts as not in it. -/
theorem C90_with_counterexample :
    let p := seq [withIf, .simple 4]
    let b := seq [withIf]
    At b true p false ∧ p.mild = true ∧ p.noFinally = true ∧ p.locations.Nodup ∧ RunBody quiet p [0, 1, 2, 3, 4] .normal ∧
      3 ∈ b.locations ∧ ∃ locs, Inside (moduleGraph p) b locs ∧ ∀ x ∈ locs, locAt (moduleGraph p) x ≠ some 3 := by
  refine ⟨.here (seq [.simple 4]), rfl, rfl, by decide, withIf_run (.both (t1 := [4]) (t2 := []) .ok .ok), by decide, ?_⟩
  exact ⟨[(0, 0), (0, 1), (2, 0)], insideIn_eq (n := 40) (by decide +kernel), by decide +kernel⟩

/-- The same if the statement after the `with` is one of the statements. -/
theorem C90_with_more_counterexample :
    let p := seq [withIf, .simple 4, .simple 5]
    let b := seq [withIf, .simple 4]
    At b true p false ∧ p.mild = true ∧ p.noFinally = true ∧ p.locations.Nodup ∧ RunBody quiet p [0, 1, 2, 3, 4, 5] .normal ∧
      3 ∈ b.locations ∧ ∃ locs, Inside (moduleGraph p) b locs ∧ ∀ x ∈ locs, locAt (moduleGraph p) x ≠ some 3 := by
  refine ⟨.here (seq [.simple 5]), rfl, rfl, by decide,
    withIf_run (.both (t1 := [4]) .ok (.both (t1 := [5]) (t2 := []) .ok .ok)), by decide, ?_⟩
  exact ⟨[(0, 0), (0, 1), (2, 0), (3, 1)], insideIn_eq (n := 40) (by decide +kernel), by decide +kernel⟩

/-- As the last statement, the same `with` is found. -/
example : ∃ x ∈ [(0, 1), (0, 2), (2, 0), (3, 0)], locAt (moduleGraph (seq [.simple 4, withIf])) x = some 3 :=
  C90_partial quiet (seq [.simple 4, withIf]) (seq [withIf]) true (.skip (.here .nil)) (.inl rfl) rfl (.inr rfl) (.inl rfl) rfl (by decide)
    _ (insideIn_eq (n := 40) (by decide +kernel)) _ _ (.both (t1 := [4]) .ok (withIf_run (t := []) .ok)) 3 (by simp) (by decide)

/-! ### Modifying -/

theorem modifies_eq {g : Graph} {events : Nat → List Event} {vars : List Nat} {x : Loc} {l : Nat} (hx : locAt g x = some l) :
    modifies g events vars x = true ↔ ∃ e ∈ events l, e.var ∈ vars ∧ modifying e.type = true := by
  unfold modifies
  rw [hx]
  simp only [List.any_eq_true, Bool.and_eq_true, List.contains_iff_mem]

/-- **C91**, for modules: if `modified_in` is false, then what is executed of the statements assigns to none of the variables and
modifies none. Missing: what deletes variables; what is done by functions that are called; statements and programs for which C90 is
missing. -/
theorem C91_partial (W : World) (p b : Body) (f : Bool) (hat : At b true p f) (hwith : f = true ∨ noWith b = true)
    (hm : p.mild = true) (hf : W.asks = true ∨ p.noFor = true) (ht : p.noTry = true ∨ ∀ l x, ¬ W.raises l x)
    (hfin : p.noFinally = true) (hd : p.locations.Nodup) (events : Nat → List Event) (vars : List Nat)
    (h : ModifiedIn (moduleGraph p) events vars b false) (tr : List Nat) (o : Out) (hr : RunBody W p tr o) (l : Nat) (hl : l ∈ tr)
    (hb : l ∈ b.locations) (e : Event) (he : e ∈ events l) (hv : e.var ∈ vars) : e.type = .read ∨ e.type = .delete := by
  cases b with
  | nil => cases hb
  | cons s rest =>
    obtain ⟨locs, h1, h2⟩ := h
    obtain ⟨x, hx, hxl⟩ := C90_partial W p _ f hat hwith hm hf ht hfin hd locs h1 tr o hr l hl hb
    have h3 := List.any_eq_false.1 h2.symm x hx
    cases ht : e.type with
    | read => exact .inl rfl
    | delete => exact .inr rfl
    | assign => exact absurd ((modifies_eq hxl).2 ⟨e, he, hv, by rw [ht]; rfl⟩) h3
    | reassign => exact absurd ((modifies_eq hxl).2 ⟨e, he, hv, by rw [ht]; rfl⟩) h3
    | modify => exact absurd ((modifies_eq hxl).2 ⟨e, he, hv, by rw [ht]; rfl⟩) h3

/-- **C91**, for functions. -/
theorem C91_function_partial (W : World) (args : Nat) (p b : Body) (f : Bool) (hat : At b true p f)
    (hwith : f = true ∨ noWith b = true) (hm : p.mild = true) (hf : W.asks = true ∨ p.noFor = true)
    (ht : p.noTry = true ∨ ∀ l x, ¬ W.raises l x) (hfin : p.noFinally = true) (hd : (args :: p.locations).Nodup)
    (events : Nat → List Event) (vars : List Nat) (h : ModifiedIn (functionGraph args p) events vars b false) (tr : List Nat) (o : Out)
    (hr : RunBody W p tr o) (l : Nat) (hl : l ∈ tr) (hb : l ∈ b.locations) (e : Event) (he : e ∈ events l) (hv : e.var ∈ vars) :
    e.type = .read ∨ e.type = .delete := by
  cases b with
  | nil => cases hb
  | cons s rest =>
    obtain ⟨locs, h1, h2⟩ := h
    obtain ⟨x, hx, hxl⟩ := C90_function_partial W args p _ f hat hwith hm hf ht hfin hd locs h1 tr o hr l hl hb
    have h3 := List.any_eq_false.1 h2.symm x hx
    cases ht : e.type with
    | read => exact .inl rfl
    | delete => exact .inr rfl
    | assign => exact absurd ((modifies_eq hxl).2 ⟨e, he, hv, by rw [ht]; rfl⟩) h3
    | reassign => exact absurd ((modifies_eq hxl).2 ⟨e, he, hv, by rw [ht]; rfl⟩) h3
    | modify => exact absurd ((modifies_eq hxl).2 ⟨e, he, hv, by rw [ht]; rfl⟩) h3

/-- **C91**, the other direction: if `modified_in` is true, then one of the variables is assigned to or modified at a location in
the statements. -/
theorem C91_true_partial (p b : Body) (f : Bool) (hat : At b true p f) (hfin : p.noFinally = true) (hd : p.locations.Nodup)
    (events : Nat → List Event) (vars : List Nat) (h : ModifiedIn (moduleGraph p) events vars b true) :
    ∃ l ∈ b.locations, ∃ e ∈ events l, e.var ∈ vars ∧ e.type ≠ .read ∧ e.type ≠ .delete := by
  cases b with
  | nil => cases h
  | cons s rest =>
    obtain ⟨locs, h1, h2⟩ := h
    obtain ⟨x, hx, h3⟩ := List.any_eq_true.1 h2.symm
    obtain ⟨l, hl, hb⟩ := (C90_sound_partial p _ f hat hfin hd locs h1).2 x hx
    obtain ⟨e, he, hv, ht⟩ := (modifies_eq hl).1 h3
    exact ⟨l, hb, e, he, hv, (fun h => by rw [h] at ht; cases ht), (fun h => by rw [h] at ht; cases ht)⟩

/-- **C91**, the other direction, for functions. -/
theorem C91_true_function_partial (args : Nat) (p b : Body) (f : Bool) (hat : At b true p f) (hfin : p.noFinally = true)
    (hd : (args :: p.locations).Nodup) (events : Nat → List Event) (vars : List Nat) (h : ModifiedIn (functionGraph args p) events vars b true) :
    ∃ l ∈ b.locations, ∃ e ∈ events l, e.var ∈ vars ∧ e.type ≠ .read ∧ e.type ≠ .delete := by
  cases b with
  | nil => cases h
  | cons s rest =>
    obtain ⟨locs, h1, h2⟩ := h
    obtain ⟨x, hx, h3⟩ := List.any_eq_true.1 h2.symm
    obtain ⟨l, hl, hb⟩ := (C90_sound_function_partial args p _ f hat hfin hd locs h1).2 x hx
    obtain ⟨e, he, hv, ht⟩ := (modifies_eq hl).1 h3
    exact ⟨l, hb, e, he, hv, (fun h => by rw [h] at ht; cases ht), (fun h => by rw [h] at ht; cases ht)⟩

/-- What happens to variables in `around`: `x = 0`, `while x < 3: (if y: x += 1)`, `(if z: y = 1)`, `print(x)`, with `x`, `y` and `z`
as 0, 1 and 2. -/
def aroundEvents : Nat → List Event
  | 0 => [⟨0, 0, .assign⟩]
  | 1 => [⟨0, 1, .read⟩]
  | 2 => [⟨1, 2, .read⟩]
  | 3 => [⟨0, 3, .modify⟩]
  | 4 => [⟨2, 4, .read⟩]
  | 5 => [⟨1, 5, .reassign⟩]
  | _ => [⟨0, 6, .read⟩]

/-- `x` and `y` are modified in the middle, `z` is not. -/
example : ModifiedIn (moduleGraph around) aroundEvents [0] middle true ∧ ModifiedIn (moduleGraph around) aroundEvents [1] middle true ∧
    ModifiedIn (moduleGraph around) aroundEvents [2] middle false ∧ ModifiedIn (moduleGraph around) aroundEvents [2, 1] middle true :=
  ⟨⟨_, middle_inside, by decide +kernel⟩, ⟨_, middle_inside, by decide +kernel⟩, ⟨_, middle_inside, by decide +kernel⟩,
    ⟨_, middle_inside, by decide +kernel⟩⟩

example (e : Event) (he : e ∈ aroundEvents 4) (hv : e.var = 2) : e.type = .read ∨ e.type = .delete :=
  C91_partial quiet around middle false middle_at (.inr rfl) rfl (.inr rfl) (.inl rfl) rfl (by decide) aroundEvents [2]
    ⟨_, middle_inside, by decide +kernel⟩ _ _ around_run 4 (by simp) (by decide) e he (by simp [hv])

/-- In a function. -/
example (h : ModifiedIn (functionGraph 9 around) aroundEvents [2] middle false) (e : Event) (he : e ∈ aroundEvents 4) (hv : e.var = 2) :
    e.type = .read ∨ e.type = .delete :=
  C91_function_partial quiet 9 around middle false middle_at (.inr rfl) rfl (.inr rfl) (.inl rfl) rfl (by decide) aroundEvents [2] h _ _ around_run 4 (by simp)
    (by decide) e he (by simp [hv])

/-- The third variable is not modified, as all is read that happens to it: in the module as in the function. -/
example : ¬ ModifiedIn (moduleGraph around) aroundEvents [2] middle true ∧ ¬ ModifiedIn (functionGraph 9 around) aroundEvents [2] middle true := by
  have key : ¬ ∃ l ∈ middle.locations, ∃ e ∈ aroundEvents l, e.var ∈ [2] ∧ e.type ≠ .read ∧ e.type ≠ .delete := by decide
  exact ⟨fun h => key (C91_true_partial around middle false middle_at rfl (by decide) _ _ h),
    fun h => key (C91_true_function_partial 9 around middle false middle_at rfl (by decide) _ _ h)⟩

/-- **C91** is false of `del`: `x = 1`, `del x`, where `modified_in` of `x` and the second statement is false. -/
theorem C91_delete_counterexample :
    let p := seq [.simple 0, .simple 1]
    let b := seq [.simple 1]
    let events : Nat → List Event := fun l => if l = 0 then [⟨0, 0, .assign⟩] else [⟨0, 1, .delete⟩]
    At b true p true ∧ RunBody quiet p [0, 1] .normal ∧ ModifiedIn (moduleGraph p) events [0] b false ∧
      ⟨0, 1, .delete⟩ ∈ events 1 := by
  refine ⟨.skip (.here .nil), .both (t1 := [0]) .ok (.both (t1 := [1]) (t2 := []) .ok .ok),
    ⟨[(0, 1)], insideIn_eq (n := 20) (by decide +kernel), by decide +kernel⟩, by simp⟩

/-- **C91** is false where C90 is: `with a: (if b: c); x = 1` and then `d`. -/
theorem C91_with_counterexample :
    let p := seq [withIf, .simple 4]
    let b := seq [withIf]
    let events : Nat → List Event := fun l => if l = 3 then [⟨0, 3, .assign⟩] else []
    At b true p false ∧ RunBody quiet p [0, 1, 2, 3, 4] .normal ∧ 3 ∈ b.locations ∧ ⟨0, 3, .assign⟩ ∈ events 3 ∧
      ModifiedIn (moduleGraph p) events [0] b false := by
  refine ⟨.here (seq [.simple 4]), withIf_run (.both (t1 := [4]) (t2 := []) .ok .ok), by decide, by simp, ?_⟩
  exact ⟨[(0, 0), (0, 1), (2, 0)], insideIn_eq (n := 40) (by decide +kernel), by decide +kernel⟩

end Verif.Inside

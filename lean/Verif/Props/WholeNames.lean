import Verif.Props.Renamed

/-!
C157: where names have to be consistent, a variable with a counterpart is not replaced by something else.
-/

namespace Verif.Aunify

/-! ### Proofs -/

theorem step_whole {s s' : Merge} {seen : List Hole} {n p : Hole} (hC : Consistent seen s) (hn : n ∈ seen) (hp : p.isName = false)
    (hl : ∀ l, p.subs.head? ≠ some (.seq l)) {i : Nat} {x v : Ast} (hx : n.subs[i]? = some x) (hv : p.subs[i]? = some v) (hvx : v.varName = some x)
    (h : s.step true p = some s') : False := by
  have ho := hC.owned n hn i x hx
  obtain ⟨k, hk⟩ := Option.ne_none_iff_exists'.1 ho
  have hmem : k ∈ canonicals s.owner p := by
    unfold canonicals
    simp only [hp, Bool.false_eq_true, if_false, List.mem_eraseDups, List.mem_filterMap]
    exact ⟨(i, x), ⟨(i, v), mem_indexed.2 hv, by simp [hvx]⟩, hk⟩
  unfold Merge.step at h
  split at h
  · rename_i l _ hsub
    exact hl l (by rw [hsub]; rfl)
  · simp only [Bool.not_true, Bool.false_and, Bool.false_eq_true, if_false, if_true, hp, false_and] at h
    split at h
    · rename_i hc
      rw [hc] at hmem
      exact nomatch hmem
    · exact nomatch h
    · exact nomatch h

theorem steps_whole : ∀ {hs : List Hole} {s s' : Merge} {seen : List Hole} {n p : Hole}, Merge.steps true s hs = some s' → Consistent seen s →
    (∀ h ∈ hs, h.isName = true → ∃ n, h.subs.head? = some (.const (.str n))) → n ∈ seen → p ∈ hs → p.isName = false →
    (∀ l, p.subs.head? ≠ some (.seq l)) → ∀ {i : Nat} {x v : Ast}, n.subs[i]? = some x → p.subs[i]? = some v → v.varName = some x → False
  | y :: hs, s, s', seen, n, p, h, hC, hh, hn, hp, hpn, hl, i, x, v, hx, hv, hvx => by
    simp only [Merge.steps] at h
    cases hy : s.step true y with
    | none => simp [hy] at h
    | some t =>
      simp only [hy] at h
      rcases List.mem_cons.1 hp with rfl | hp
      · exact step_whole hC hn hpn hl hx hv hvx hy
      · refine steps_whole h (step_consistent hy hC (hh y (by simp))) (fun z hz => hh z (List.mem_cons_of_mem _ hz)) ?_ hp hpn hl hx hv hvx
        split
        · exact List.mem_cons_of_mem _ hn
        · exact hn

theorem steps_pair : ∀ {hs : List Hole} {s s' : Merge} {seen : List Hole} {n p : Hole}, Merge.steps true s hs = some s' → Consistent seen s →
    (∀ h ∈ hs, h.isName = true → ∃ n, h.subs.head? = some (.const (.str n))) → [n, p].Sublist hs → n.isName = true → p.isName = false →
    (∀ l, p.subs.head? ≠ some (.seq l)) → ∀ {i : Nat} {x v : Ast}, n.subs[i]? = some x → p.subs[i]? = some v → v.varName = some x → False
  | y :: hs, s, s', seen, n, p, h, hC, hh, hsub, hn, hpn, hl, i, x, v, hx, hv, hvx => by
    simp only [Merge.steps] at h
    cases hy : s.step true y with
    | none => simp [hy] at h
    | some t =>
      simp only [hy] at h
      have hC' := step_consistent hy hC (hh y (by simp))
      have hh' : ∀ h ∈ hs, h.isName = true → ∃ n, h.subs.head? = some (.const (.str n)) := fun z hz => hh z (List.mem_cons_of_mem _ hz)
      cases hsub with
      | cons _ hsub => exact steps_pair h hC' hh' hsub hn hpn hl hx hv hvx
      | cons_cons _ hsub =>
        rw [hn] at hC'
        exact steps_whole h hC' hh' (List.mem_cons_self ..) (List.singleton_sublist.1 hsub) hpn hl hx hv hvx

/-! ### The property -/

/-- **C157**: if there is a core with consistent names, and one of the fragments has the name of a variable in a place where others have names too, then
where the fragments differ in more than a name further on, that one has not the variable. Missing: places further back. -/
theorem C157_later_partial {L : Lang} {stop : StopOn} {stopAfter mergeable : List Hole → Bool} {limit : Nat} {ts : List Ast} {core₀ core : Core}
    {avars : List Avar} {num : Nat} {hs : List Hole} (hN : Named ts) (ha : aunify L stop limit 0 ts = .ok (core₀, avars, num))
    (h : antiunify L stop stopAfter mergeable true limit ts = .ok (some (core, hs))) {n p : Hole} (hsub : [n, p].Sublist (core₀.holes false))
    (hn : n.isName = true) (hp : p.isName = false) (hl : ∀ l, p.subs.head? ≠ some (.seq l)) {i : Nat} {x : Ast} (hx : n.subs[i]? = some x) {cls : Str}
    {attrs : List (Str × Ast)} (hcls : cls = "Name".toList ∨ cls = "AssignName".toList) (hv : p.subs[i]? = some (.node cls attrs)) :
    attrs.lookup "name".toList ≠ some x := by
  intro hvx
  obtain ⟨core₁, avars₁, num₁, groups, ha₁, hm, -, -⟩ := antiunify_ok h
  rw [ha] at ha₁
  cases ha₁
  unfold mergeCandidates at hm
  rw [Option.map_eq_some_iff] at hm
  obtain ⟨s, hs', -⟩ := hm
  refine steps_pair hs' (seen := []) ⟨by simp, by simp, by simp⟩ (fun q hq hqn => (aunify_holes ha q hq).2 hqn hN) hsub hn hp hl hx hv ?_
  simp only [Ast.varName, isNameCls, hcls, decide_true, if_true, hvx]

/-! ### Examples -/

/-- `print(x, x)` and `print(y, 1)` -/
def wnAfter : List Ast := [exCall "print" [exName "x", exName "x"], exCall "print" [exName "y", exConst (.int 1)]]

/-- `print(x, x)` and `print(1, y)` -/
def wnBefore : List Ast := [exCall "print" [exName "x", exName "x"], exCall "print" [exConst (.int 1), exName "y"]]

/-- What is left open in the core before names are merged. -/
def wnHoles (ts : List Ast) : List Hole :=
  match aunify exLang (fun _ _ => false) 20 0 ts with
  | .ok (core, _, _) => core.holes false
  | .error _ => []

example : wnHoles wnAfter = [⟨1, true, [.const (.str "print".toList), .const (.str "print".toList)]⟩,
    ⟨2, true, [.const (.str "x".toList), .const (.str "y".toList)]⟩, ⟨3, false, [exName "x", exConst (.int 1)]⟩] := by decide +kernel

example : noCore (antiunify exLang (fun _ _ => false) (fun _ => false) (fun _ => true) true 20 wnAfter) = true := by decide +kernel

/-- As the theorem says: whatever is decided about what is mergeable and where to stop afterwards, `print(x, x)` and `print(y, 1)` have no core with
consistent names. -/
example (stopAfter mergeable : List Hole → Bool) (core : Core) (hs : List Hole) :
    antiunify exLang (fun _ _ => false) stopAfter mergeable true 20 wnAfter ≠ .ok (some (core, hs)) := by
  intro h
  have hh : wnHoles wnAfter = [⟨1, true, [.const (.str "print".toList), .const (.str "print".toList)]⟩,
    ⟨2, true, [.const (.str "x".toList), .const (.str "y".toList)]⟩, ⟨3, false, [exName "x", exConst (.int 1)]⟩] := by decide +kernel
  unfold wnHoles at hh
  split at hh
  · rename_i core₀ avars num ha
    exact C157_later_partial (plainCheck_ok (L := exLang) (by decide +kernel)).2 ha h (n := ⟨2, true, [.const (.str "x".toList), .const (.str "y".toList)]⟩)
      (p := ⟨3, false, [exName "x", exConst (.int 1)]⟩) (by rw [hh]; decide) rfl rfl (fun l hl => by cases hl) (i := 0) rfl (.inl rfl) rfl rfl
  · cases hh

/-- `print(x, z)` and `print(y, 1)`: `z` has no counterpart. -/
example : (exRun true true [exCall "print" [exName "x", exName "z"], exCall "print" [exName "y", exConst (.int 1)]]).isSome = true := by decide +kernel

/-- **C157** is false of places further back: `print(x, x)` and `print(1, y)` have a core with consistent names, `x` has the counterpart `y` in the one place and
is replaced by `1` in the other. -/
theorem C157_before_counterexample :
    wnHoles wnBefore = [⟨1, true, [.const (.str "print".toList), .const (.str "print".toList)]⟩, ⟨2, false, [exName "x", exConst (.int 1)]⟩,
      ⟨3, true, [.const (.str "x".toList), .const (.str "y".toList)]⟩] ∧
      (exRun true true wnBefore).isSome = true := by
  constructor <;> decide +kernel

end Verif.Aunify

import Verif.Model.Changed
import Verif.Props.TraverseFlow

/-!
**C84**: whether a variable is changed between locations.

Full statement: if `is_changed_between` is false, no execution changes the variable from the location before to one of
those after it. False if functions called change the variable, or for programs for which C70 is false.
-/

namespace Verif.Traverse

open Verif.Flow
open Verif.Cfg (Event Item EventType)

theorem IsChanged.false_mem {g : Flow.Graph} {items : Nat → List Item} {v : Nat} {before : Loc} {afters : List Loc}
    (h : IsChanged g items v before afters false) : ∀ after ∈ afters, ∃ locs,
      Locs (ofFlow g) ⟨.predecessors, fun x => x == before, true, false⟩ [after] locs ∧ ∀ x ∈ locs, changes g items v x = false := by
  have key : ∀ {r : Bool} {afters : List Loc}, IsChanged g items v before afters r → r = false → ∀ after ∈ afters, ∃ locs,
      Locs (ofFlow g) ⟨.predecessors, fun x => x == before, true, false⟩ [after] locs ∧
        ∀ x ∈ locs, changes g items v x = false := by
    intro r afters h
    induction h with
    | nil => simp
    | here _ _ => exact fun hr => nomatch hr
    | @next after afters locs r h1 h2 _ ih =>
      intro hr after' ha
      rcases List.mem_cons.1 ha with rfl | ha
      · exact ⟨locs, h1, by simpa using h2⟩
      · exact ih hr after' ha
  exact key h rfl

theorem IsChanged.true_mem {g : Flow.Graph} {items : Nat → List Item} {v : Nat} {before : Loc} {afters : List Loc}
    (h : IsChanged g items v before afters true) : ∃ after ∈ afters, ∃ locs,
      Locs (ofFlow g) ⟨.predecessors, fun x => x == before, true, false⟩ [after] locs ∧ ∃ x ∈ locs, changes g items v x = true := by
  have key : ∀ {r : Bool} {afters : List Loc}, IsChanged g items v before afters r → r = true → ∃ after ∈ afters, ∃ locs,
      Locs (ofFlow g) ⟨.predecessors, fun x => x == before, true, false⟩ [after] locs ∧
        ∃ x ∈ locs, changes g items v x = true := by
    intro r afters h
    induction h with
    | nil => exact fun hr => nomatch hr
    | @here after afters locs h1 h2 => exact fun _ => ⟨after, by simp, locs, h1, by simpa using h2⟩
    | next _ _ _ ih =>
      intro hr
      obtain ⟨after, h1, h2⟩ := ih hr
      exact ⟨after, by simp [h1], h2⟩
  exact key h rfl

theorem changes_eq {g : Flow.Graph} {items : Nat → List Item} {v : Nat} {x : Loc} {l : Nat} (hx : locAt g x = some l) :
    changes g items v x = true ↔ ∃ e, .own e ∈ items l ∧ e.var = v ∧ e.type ≠ .read := by
  unfold changes
  rw [hx]
  simp only [List.any_eq_true]
  constructor
  · rintro ⟨it, h1, h2⟩
    cases it with
    | own e =>
      simp only [Bool.and_eq_true, beq_iff_eq, bne_iff_ne] at h2
      exact ⟨e, h1, h2⟩
    | called e => cases h2
  · rintro ⟨e, h1, h2, h3⟩
    exact ⟨.own e, h1, by simp [h2, h3]⟩

/-- To stop at a position is to stop at the location there. -/
theorem stop_eq {g : Flow.Graph} (hg : Sane g) (hd : g.all.Nodup) {x : Nat} {lx : Loc} (hlx : locAt g lx = some x) :
    (fun y : Loc => y == lx) = onLoc g (· == x) := by
  funext y
  unfold onLoc
  cases h : locAt g y with
  | none =>
    simp only [beq_eq_false_iff_ne, ne_eq]
    rintro rfl
    rw [hlx] at h; cases h
  | some l =>
    by_cases e : l = x
    · subst e
      rw [locAt_unique hg hd h hlx]; simp
    · have : y ≠ lx := by rintro rfl; rw [hlx] at h; cases h; exact e rfl
      simp [this, e]

theorem unchanged {g : Flow.Graph} (hg : Sane g) (hd : g.all.Nodup) {path : List Nat} (hp : g.IsPath path)
    {items : Nat → List Item} {v : Nat} {t1 t2 t3 : List Nat} {x y : Nat} (htr : t1 ++ x :: (t2 ++ y :: t3) <+: g.along path)
    (hx : x ∉ t2) (hxy : x ≠ y) {before after : Loc} {afters : List Loc} (hb : locAt g before = some x)
    (ha : locAt g after = some y) (hm : after ∈ afters) (h : IsChanged g items v before afters false) :
    ∀ z ∈ t2 ++ [y], ∀ e, .own e ∈ items z → e.var = v → e.type = .read := by
  obtain ⟨locs, h1, h2⟩ := h.false_mem after hm
  rw [stop_eq hg hd hb] at h1
  intro z hz e he hv
  have key : ∀ lz, lz ∈ locs → locAt g lz = some z → e.type = .read := by
    intro lz h3 h4
    have := h2 lz h3
    by_contra hn
    rw [(changes_eq h4).2 ⟨e, he, hv, hn⟩] at this
    cases this
  rcases List.mem_append.1 hz with hz | hz
  · obtain ⟨a, b, rfl⟩ := List.append_of_mem hz
    obtain ⟨mid, lz, -, -, h3⟩ := trail_of_path hg hd hp (t2 := a) (y := z) (t3 := b ++ y :: t3) (by simpa using htr) hb
    refine key lz (before_yielded hg hd hp (t1 := t1 ++ x :: a) (t2 := b) (x := z) (y := y) (t3 := t3) (by simpa using htr)
      ?_ ?_ ?_ h3 ha h1) h3
    · exact fun _ => by simpa using fun h => hxy h.symm
    · intro w hw
      simp only [beq_eq_false_iff_ne, ne_eq]
      rintro rfl
      exact hx (by simp [hw])
    · refine .inr ?_
      simp only [beq_eq_false_iff_ne, ne_eq]
      rintro rfl
      exact hx (by simp)
  · have hz := List.mem_singleton.1 hz
    subst hz
    refine key after (((C82_partial [after] (fun l hl => ?_) (.inl ⟨after, rfl⟩) locs h1).2 after).2 ⟨?_, .inr ?_⟩) ha
    · rw [List.mem_singleton.1 hl]; exact lt_of_get ha
    · exact (entered_pred rfl).2 (.inl ⟨rfl, rfl⟩)
    · show onLoc g (· == x) after = false
      rw [onLoc_eq ha]
      simpa using fun h => hxy h.symm

/-- **C84**, for modules: if `is_changed_between` is false, then from the last time that the location before is executed to
any time that one of those after it is, nothing that is executed changes the variable itself. Missing: what functions called
do, for which it is false; programs for which C70 is false. -/
theorem C84_partial (W : World) (p : Body) (hm : p.mild = true) (hf : W.asks = true ∨ p.noFor = true)
    (ht : p.noTry = true ∨ ∀ l x, ¬ W.raises l x) (hfin : p.noFinally = true) (hd : p.locations.Nodup) (tr : List Nat) (o : Out)
    (hr : RunBody W p tr o) (items : Nat → List Item) (v : Nat) (t1 t2 t3 : List Nat) (x y : Nat)
    (htr : tr = t1 ++ x :: (t2 ++ y :: t3)) (hx : x ∉ t2) (hxy : x ≠ y) (before after : Loc) (afters : List Loc)
    (hbefore : locAt (moduleGraph p) before = some x) (hafter : locAt (moduleGraph p) after = some y) (hmem : after ∈ afters)
    (h : IsChanged (moduleGraph p) items v before afters false) :
    ∀ z ∈ t2 ++ [y], ∀ e, .own e ∈ items z → e.var = v → e.type = .read := by
  obtain ⟨path, hp, hpre, -⟩ := C70_module_partial W p hm hf ht tr o hr
  subst htr
  exact unchanged (module_sane p) ((module_all p hfin).nodup_iff.2 hd) hp hpre hx hxy hbefore hafter hmem h

/-- **C84**, for functions. -/
theorem C84_function_partial (W : World) (args : Nat) (p : Body) (hm : p.mild = true) (hf : W.asks = true ∨ p.noFor = true)
    (ht : p.noTry = true ∨ ∀ l x, ¬ W.raises l x) (hfin : p.noFinally = true) (hd : (args :: p.locations).Nodup)
    (tr : List Nat) (o : Out) (hr : RunBody W p tr o) (items : Nat → List Item) (v : Nat) (t1 t2 t3 : List Nat) (x y : Nat)
    (htr : args :: tr = t1 ++ x :: (t2 ++ y :: t3)) (hx : x ∉ t2) (hxy : x ≠ y) (before after : Loc) (afters : List Loc)
    (hbefore : locAt (functionGraph args p) before = some x) (hafter : locAt (functionGraph args p) after = some y)
    (hmem : after ∈ afters) (h : IsChanged (functionGraph args p) items v before afters false) :
    ∀ z ∈ t2 ++ [y], ∀ e, .own e ∈ items z → e.var = v → e.type = .read := by
  obtain ⟨path, hp, hpre, -⟩ := C70_function_partial W args p hm hf ht tr o hr
  rw [htr] at hpre
  exact unchanged (function_sane args p) ((function_all args p hfin).nodup_iff.2 hd) hp hpre hx hxy hbefore hafter hmem h

/-- **C84**, the other direction: if `is_changed_between` is true, then one of the locations after changes the variable, or
some location does that, if it may be executed at all, may be executed before one of those, without the location before in
between. -/
theorem C84_possible_partial (W : World) (p : Body) (hp : p.noTry = true) (hf : W.asks = true ∨ p.noFor = true)
    (hfin : p.noFinally = true) (hd : p.locations.Nodup) (items : Nat → List Item) (v x : Nat) (before : Loc) (afters : List Loc)
    (hbefore : locAt (moduleGraph p) before = some x) (hafters : ∀ a ∈ afters, ∃ y, locAt (moduleGraph p) a = some y)
    (h : IsChanged (moduleGraph p) items v before afters true) :
    ∃ after ∈ afters, ∃ y z e, locAt (moduleGraph p) after = some y ∧ .own e ∈ items z ∧ e.var = v ∧ e.type ≠ .read ∧ y ≠ x ∧
      (z = y ∨ ((∃ tr o, RunBody W p tr o ∧ z ∈ tr) → ∃ tr o t1 t2 t3, RunBody W p tr o ∧ tr = t1 ++ z :: (t2 ++ y :: t3) ∧
        x ∉ z :: t2)) := by
  obtain ⟨after, h1, locs, h2, lz, h3, h4⟩ := h.true_mem
  obtain ⟨y, hy⟩ := hafters after h1
  have hsane := module_sane p
  have hall := (module_all p hfin).nodup_iff.2 hd
  rw [stop_eq hsane hall hbefore] at h2
  obtain ⟨z, hz⟩ : ∃ z, locAt (moduleGraph p) lz = some z := by
    unfold changes at h4
    cases h5 : locAt (moduleGraph p) lz with
    | none => rw [h5] at h4; cases h4
    | some z => exact ⟨z, rfl⟩
  obtain ⟨e, h5, h6, h7⟩ := (changes_eq hz).1 h4
  obtain ⟨h8, h9⟩ := ((C82_partial [after] (fun l hl => by rw [List.mem_singleton.1 hl]; exact lt_of_get hy) (.inl ⟨after, rfl⟩)
    locs h2).2 lz).1 h3
  have hyx : y ≠ x := by
    rcases (entered_pred rfl).1 h8 with ⟨-, rfl⟩ | ⟨hs, -⟩
    · rcases h9 with h9 | h9
      · cases h9
      · have h9 : onLoc (moduleGraph p) (· == x) lz = false := h9
        rw [onLoc_eq hy] at h9
        simpa using h9
    · have hs : onLoc (moduleGraph p) (· == x) after = false := hs rfl
      rw [onLoc_eq hy] at hs
      simpa using hs
  refine ⟨after, h1, y, z, e, hy, h5, h6, h7, hyx, ?_⟩
  by_cases he : lz = after
  · subst he
    rw [hy] at hz
    cases hz
    exact .inl rfl
  · refine .inr fun hex => ?_
    obtain ⟨tr, o, t1, t2, t3, g1, g2, g3, -, g5⟩ := C83_possible_before_partial W p hp hf hfin hd z y hex (· == x) true false
      lz after hz hy locs h2 h3 (.inr he)
    refine ⟨tr, o, t1, t2, t3, g1, g2, fun hm => ?_⟩
    rcases List.mem_cons.1 hm with rfl | hm
    · rcases g5 with g5 | g5
      · cases g5
      · simp at g5
    · have := g3 x hm
      simp at this

/-- **C84**, the other direction, for functions. -/
theorem C84_possible_function_partial (W : World) (args : Nat) (p : Body) (hp : p.noTry = true) (hf : W.asks = true ∨ p.noFor = true)
    (hfin : p.noFinally = true) (hd : (args :: p.locations).Nodup) (items : Nat → List Item) (v x : Nat) (before : Loc) (afters : List Loc)
    (hbefore : locAt (functionGraph args p) before = some x) (hafters : ∀ a ∈ afters, ∃ y, locAt (functionGraph args p) a = some y)
    (h : IsChanged (functionGraph args p) items v before afters true) :
    ∃ after ∈ afters, ∃ y z e, locAt (functionGraph args p) after = some y ∧ .own e ∈ items z ∧ e.var = v ∧ e.type ≠ .read ∧ y ≠ x ∧
      (z = y ∨ ((z = args ∨ ∃ tr o, RunBody W p tr o ∧ z ∈ tr) → ∃ tr o t1 t2 t3, RunBody W p tr o ∧ args :: tr = t1 ++ z :: (t2 ++ y :: t3) ∧
        x ∉ z :: t2)) := by
  obtain ⟨after, h1, locs, h2, lz, h3, h4⟩ := h.true_mem
  obtain ⟨y, hy⟩ := hafters after h1
  have hsane := function_sane args p
  have hall := (function_all args p hfin).nodup_iff.2 hd
  rw [stop_eq hsane hall hbefore] at h2
  obtain ⟨z, hz⟩ : ∃ z, locAt (functionGraph args p) lz = some z := by
    unfold changes at h4
    cases h5 : locAt (functionGraph args p) lz with
    | none => rw [h5] at h4; cases h4
    | some z => exact ⟨z, rfl⟩
  obtain ⟨e, h5, h6, h7⟩ := (changes_eq hz).1 h4
  obtain ⟨h8, h9⟩ := ((C82_partial [after] (fun l hl => by rw [List.mem_singleton.1 hl]; exact lt_of_get hy) (.inl ⟨after, rfl⟩)
    locs h2).2 lz).1 h3
  have hyx : y ≠ x := by
    rcases (entered_pred rfl).1 h8 with ⟨-, rfl⟩ | ⟨hs, -⟩
    · rcases h9 with h9 | h9
      · cases h9
      · have h9 : onLoc (functionGraph args p) (· == x) lz = false := h9
        rw [onLoc_eq hy] at h9
        simpa using h9
    · have hs : onLoc (functionGraph args p) (· == x) after = false := hs rfl
      rw [onLoc_eq hy] at hs
      simpa using hs
  refine ⟨after, h1, y, z, e, hy, h5, h6, h7, hyx, ?_⟩
  by_cases he : lz = after
  · subst he
    rw [hy] at hz
    cases hz
    exact .inl rfl
  · refine .inr fun hex => ?_
    obtain ⟨tr, o, t1, t2, t3, g1, g2, g3, -, g5⟩ := C83_possible_before_function_partial W args p hp hf hfin hd z y hex (· == x) true false
      lz after hz hy locs h2 h3 (.inr he)
    refine ⟨tr, o, t1, t2, t3, g1, g2, fun hm => ?_⟩
    rcases List.mem_cons.1 hm with rfl | hm
    · rcases g5 with g5 | g5
      · cases g5
      · simp at g5
    · have := g3 x hm
      simp at this

/-! `if c: f(); print(1)` -/

def callInIf : Body := seq [.cond 0 (seq [.simple 1, .simple 2]) .nil]

/-- Between the condition and `print(1)`, `f` assigns to a variable, but `is_changed_between` is false. -/
theorem C84_call_counterexample :
    let items : Nat → List Item := fun l => if l = 1 then [.called ⟨0, 7, .assign⟩] else []
    IsChanged (moduleGraph callInIf) items 0 (0, 0) [(2, 1)] false ∧ locAt (moduleGraph callInIf) (0, 0) = some 0 ∧
      locAt (moduleGraph callInIf) (2, 1) = some 2 ∧ RunBody quiet callInIf [0, 1, 2] .normal ∧
      Item.called ⟨0, 7, .assign⟩ ∈ items 1 := by
  refine ⟨.next (locs := [(2, 1), (2, 0)]) ⟨_, ⟨20, _, rfl, by decide +kernel, by decide +kernel, rfl⟩, by decide +kernel⟩ (by decide +kernel) .nil,
    by decide +kernel, by decide +kernel, ?_, by simp⟩
  refine .both (t1 := [0, 1, 2]) (t2 := []) (.both (t1 := [0]) (t2 := [1, 2]) .ok (.left ?_)) .ok
  exact .both (t1 := [1]) (t2 := [2]) .ok (.both (t1 := [2]) (t2 := []) .ok .ok)

/-- If the first statement assigns to the variable itself, it is changed; if it only reads it, it is not. -/
example :
    IsChanged (moduleGraph callInIf) (fun l => if l = 1 then [.own ⟨0, 7, .assign⟩] else []) 0 (0, 0) [(2, 1)] true ∧
    IsChanged (moduleGraph callInIf) (fun l => if l = 1 then [.own ⟨0, 7, .read⟩] else []) 0 (0, 0) [(2, 1)] false :=
  ⟨.here (locs := [(2, 1), (2, 0)]) ⟨_, ⟨20, _, rfl, by decide +kernel, by decide +kernel, rfl⟩, by decide +kernel⟩ (by decide +kernel),
   .next (locs := [(2, 1), (2, 0)]) ⟨_, ⟨20, _, rfl, by decide +kernel, by decide +kernel, rfl⟩, by decide +kernel⟩ (by decide +kernel) .nil⟩

example (items : Nat → List Item) (h : IsChanged (moduleGraph callInIf) items 0 (0, 0) [(2, 1)] false) (e : Event)
    (he : .own e ∈ items 1) (hv : e.var = 0) : e.type = .read :=
  C84_partial quiet callInIf (by decide) (.inr (by decide)) (.inl (by decide)) (by decide) (by decide) [0, 1, 2] .normal
    C84_call_counterexample.2.2.2.1 items 0 [] [1] [] 0 2 rfl (by decide) (by decide) (0, 0) (2, 1) [(2, 1)] (by decide +kernel)
    (by decide +kernel) (by simp) h 1 (by simp) e he hv

/-- In a function. -/
example (items : Nat → List Item) (h : IsChanged (functionGraph 9 callInIf) items 0 (2, 0) [(3, 1)] false) (e : Event)
    (he : .own e ∈ items 1) (hv : e.var = 0) : e.type = .read :=
  C84_function_partial quiet 9 callInIf (by decide) (.inr (by decide)) (.inl (by decide)) (by decide) (by decide) [0, 1, 2] .normal
    C84_call_counterexample.2.2.2.1 items 0 [9] [1] [] 0 2 rfl (by decide) (by decide) (2, 0) (3, 1) [(3, 1)] (by decide +kernel)
    (by decide +kernel) (by simp) h 1 (by simp) e he hv

/-- If only the condition changes the variable, it is not changed between the condition and `print(1)`: in a module as in a function. -/
example (items : Nat → List Item) (hi : ∀ z, z ≠ 0 → items z = []) :
    ¬ IsChanged (moduleGraph callInIf) items 0 (0, 0) [(2, 1)] true ∧ ¬ IsChanged (functionGraph 9 callInIf) items 0 (2, 0) [(3, 1)] true := by
  have hr := C84_call_counterexample.2.2.2.1
  constructor <;> intro h
  · obtain ⟨a, ha, y, z, e, h1, h2, -, -, h3, h4⟩ := C84_possible_partial quiet callInIf (by decide) (.inr (by decide)) (by decide) (by decide)
      items 0 0 (0, 0) [(2, 1)] (by decide +kernel) (fun a ha => by rw [List.mem_singleton.1 ha]; exact ⟨2, by decide +kernel⟩) h
    have hz : z = 0 := by
      by_cases hz : z = 0
      · exact hz
      · rw [hi z hz] at h2
        cases h2
    subst hz
    rcases h4 with h4 | h4
    · exact h3 h4.symm
    · obtain ⟨tr, o, t1, t2, t3, -, -, h5⟩ := h4 ⟨_, _, hr, by simp⟩
      simp at h5
  · obtain ⟨a, ha, y, z, e, h1, h2, -, -, h3, h4⟩ := C84_possible_function_partial quiet 9 callInIf (by decide) (.inr (by decide)) (by decide)
      (by decide) items 0 0 (2, 0) [(3, 1)] (by decide +kernel) (fun a ha => by rw [List.mem_singleton.1 ha]; exact ⟨2, by decide +kernel⟩) h
    have hz : z = 0 := by
      by_cases hz : z = 0
      · exact hz
      · rw [hi z hz] at h2
        cases h2
    subst hz
    rcases h4 with h4 | h4
    · exact h3 h4.symm
    · obtain ⟨tr, o, t1, t2, t3, -, -, h5⟩ := h4 (.inr ⟨_, _, hr, by simp⟩)
      simp at h5

end Verif.Traverse

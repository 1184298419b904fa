import Verif.Model.Parts
import Mathlib.Data.List.Forall2

/-!
C131: events in a part of a statement, and events of a part of a variable.
-/

namespace Verif.Parts

theorem flatMap_same {α β : Type} {xs : List α} {f g : α → List β} (h : ∀ x ∈ xs, f x = g x) : xs.flatMap f = xs.flatMap g := by
  rw [List.flatMap_def, List.flatMap_def, List.map_congr_left h]

theorem prefix_of_check {ps : List Place} (h : checkAncestors ps = true) {p : Place} (hp : p ∈ ps) (e : Event) : ps.any (within p.stmt e) = true := by
  rw [checkAncestors, List.all_eq_true] at h
  refine List.any_eq_true.mpr ⟨p, hp, ?_⟩
  have := h p hp
  rw [List.isEmpty_iff] at this
  simp [within, this]

/-- The events that are found are those of the statements that the nodes are in, whichever parts of these the nodes are. -/
theorem C131_found (events : Nat → List Event) (vars : List Str) (ps : List Place) :
    eventsFor events vars ps = ps.flatMap (fun p => vars.flatMap fun v => (events p.stmt).filter fun e => e.var == v) ∧
      eventsIn events ps = ps.flatMap fun p => events p.stmt := by
  have key : ∀ p ∈ ps, ∀ e, (!checkAncestors ps || ps.any (within p.stmt e)) = true := by
    intro p hp e
    cases h : checkAncestors ps with
    | false => rfl
    | true => simp [prefix_of_check h hp e]
  constructor
  · rw [eventsFor]
    refine flatMap_same fun p hp => ?_
    simp only [key p hp, Bool.and_true]
  · rw [eventsIn]
    refine flatMap_same fun p hp => ?_
    exact List.filter_eq_self.mpr fun e _ => key p hp e

theorem foldl_addEvent (es : List Event) (d : Dict Str (List Event)) (v : Str) :
    Dict.get? (es.foldl addEvent d) v =
      if es.filter (fun e => e.var == v) = [] then Dict.get? d v else some ((Dict.get? d v).getD [] ++ es.filter fun e => e.var == v) := by
  induction es generalizing d with
  | nil => simp
  | cons e es ih =>
    rw [List.foldl_cons, ih, addEvent, Dict.get?_set]
    by_cases h : e.var = v
    · subst h
      rw [if_pos rfl, List.filter_cons_of_pos (by simp)]
      by_cases h' : es.filter (fun e' => e'.var == e.var) = []
      · simp [h']
      · rw [if_neg h', if_neg (by simp)]
        simp
    · have hne : ¬ v = e.var := fun h' => h h'.symm
      simp only [hne, if_false]
      rw [List.filter_cons_of_neg (by simpa using h)]

/-- C131: Events are grouped by their variables, in order; there is a group just for variables that have events. If no variable is given twice, a group
has the events of the variable in the statements of the nodes. -/
theorem C131_by_var (events : Nat → List Event) (vars : List Str) (ps : List Place) (v : Str) :
    (Dict.get? (eventsByVar events vars ps) v = none ↔ ∀ e ∈ eventsFor events vars ps, e.var ≠ v) ∧
      (∀ es, Dict.get? (eventsByVar events vars ps) v = some es → es = (eventsFor events vars ps).filter fun e => e.var == v) ∧
      (vars.Nodup → v ∈ vars →
        (Dict.get? (eventsByVar events vars ps) v).getD [] = ps.flatMap fun p => (events p.stmt).filter fun e => e.var == v) := by
  have hg : Dict.get? (eventsByVar events vars ps) v = if (eventsFor events vars ps).filter (fun e => e.var == v) = [] then none
      else some ((eventsFor events vars ps).filter fun e => e.var == v) := by
    rw [eventsByVar, foldl_addEvent]
    simp [Dict.get?]
  refine ⟨?_, ?_, ?_⟩
  · rw [hg]
    split
    · rename_i h
      simpa [List.filter_eq_nil_iff] using h
    · rename_i h
      simpa [List.filter_eq_nil_iff] using h
  · intro es h
    rw [hg] at h
    split at h
    · cases h
    · cases h
      rfl
  · intro hn hv
    have h1 : (Dict.get? (eventsByVar events vars ps) v).getD [] = (eventsFor events vars ps).filter fun e => e.var == v := by
      rw [hg]
      split
      · rename_i h
        rw [h]
        rfl
      · rfl
    rw [h1, (C131_found events vars ps).1, List.filter_flatMap]
    congr 1
    funext p
    rw [List.filter_flatMap]
    have h2 : ∀ w, ((events p.stmt).filter fun e => e.var == w).filter (fun e => e.var == v) =
        if w = v then (events p.stmt).filter fun e => e.var == v else [] := by
      intro w
      rw [List.filter_filter]
      split
      · rename_i h
        subst h
        simp
      · rename_i h
        rw [List.filter_eq_nil_iff]
        intro e _ he
        simp only [Bool.and_eq_true, beq_iff_eq] at he
        exact h (he.2.symm.trans he.1)
    simp only [h2]
    clear h1 hg h2
    induction vars with
    | nil => cases hv
    | cons w ws ih =>
      rw [List.flatMap_cons]
      rw [List.nodup_cons] at hn
      rcases List.mem_cons.mp hv with rfl | hv
      · rw [if_pos rfl]
        have : ws.flatMap (fun w => if w = v then (events p.stmt).filter (fun e => e.var == v) else []) = [] := by
          rw [List.flatMap_eq_nil_iff]
          intro w hw
          rw [if_neg]
          rintro rfl
          exact hn.1 hw
        rw [this, List.append_nil]
      · rw [if_neg, List.nil_append]
        · exact ih hn.2 hv
        · rintro rfl
          exact hn.1 hv

/-- Events of `i` and `a` in two statements -/
example : eventsByVar (fun n => if n = 0 then [⟨"a".toList, [0]⟩, ⟨"i".toList, [1]⟩] else [⟨"a".toList, [2]⟩]) ["i".toList, "a".toList, "x".toList] [⟨0, []⟩, ⟨1, []⟩] =
    [("i".toList, [⟨"i".toList, [1]⟩]), ("a".toList, [⟨"a".toList, [0]⟩, ⟨"a".toList, [2]⟩])] := by decide +kernel

example : (Dict.get? (eventsByVar (fun n => if n = 0 then [⟨"a".toList, [0]⟩, ⟨"i".toList, [1]⟩] else [⟨"a".toList, [2]⟩]) ["i".toList, "a".toList] [⟨0, []⟩, ⟨1, []⟩])
    "a".toList).getD [] = [⟨"a".toList, [0]⟩, ⟨"a".toList, [2]⟩] := by
  rw [(C131_by_var _ _ _ _).2.2 (by decide) (by decide)]
  decide +kernel

/-- C131: All events of the variables in the nodes are found; if the nodes are whole statements, no others are. -/
theorem C131_events {events : Nat → List Event} {vars : List Str} {ps : List Place} :
    (∀ p ∈ ps, ∀ e ∈ events p.stmt, e.var ∈ vars → p.path <+: e.path → e ∈ eventsFor events vars ps) ∧
      ((∀ p ∈ ps, p.path = []) → ∀ e ∈ eventsFor events vars ps, e.var ∈ vars ∧ ∃ p ∈ ps, e ∈ events p.stmt ∧ p.path <+: e.path) := by
  rw [(C131_found events vars ps).1]
  constructor
  · intro p hp e he hv _
    exact List.mem_flatMap.mpr ⟨p, hp, List.mem_flatMap.mpr ⟨e.var, hv, List.mem_filter.mpr ⟨he, by simp⟩⟩⟩
  · intro h e he
    obtain ⟨p, hp, he⟩ := List.mem_flatMap.mp he
    obtain ⟨v, hv, he⟩ := List.mem_flatMap.mp he
    obtain ⟨he, hev⟩ := List.mem_filter.mp he
    rw [beq_iff_eq] at hev
    refine ⟨hev ▸ hv, p, hp, he, ?_⟩
    rw [h p hp]
    exact List.nil_prefix

/-- In `a[i] + i`, the second `i` is found as one of the slice `i`. -/
theorem C131_events_counterexample : ∃ (events : Nat → List Event) (v : Str) (p : Place), ∃ e ∈ eventsFor events [v] [p], ¬ p.path <+: e.path := by
  refine ⟨fun _ => [⟨"i".toList, [0, 1]⟩, ⟨"i".toList, [1]⟩], "i".toList, ⟨0, [0, 1]⟩, ⟨"i".toList, [1]⟩, by decide, by decide⟩

/-! ### Parts of variables -/

theorem reads_build {e : E} {steps : List Step} {v : Str} : v ∈ reads e → v ∈ reads (build e steps) := by
  induction steps generalizing e with
  | nil => exact id
  | cons st steps ih =>
    intro h
    cases st with
    | attr a => exact ih h
    | sub s => exact ih (by rw [reads]; exact List.mem_append_left _ h)

theorem reads_slice {e s : E} {steps : List Step} (h : .sub s ∈ steps) {v : Str} (hv : v ∈ reads s) : v ∈ reads (build e steps) := by
  induction steps generalizing e with
  | nil => cases h
  | cons st steps ih =>
    rcases List.mem_cons.mp h with rfl | h'
    · exact reads_build (e := .sub e s) (by rw [reads]; exact List.mem_append_right _ hv)
    · cases st <;> exact ih h'

theorem eval_congr {V : Type} (I : Interp V) {ρ ρ' : Str → V} {e : E} (h : ∀ v ∈ reads e, ρ v = ρ' v) : eval I ρ e = eval I ρ' e := by
  induction e with
  | name x => exact h x (by simp [reads])
  | const n => rfl
  | attr e a ih => rw [eval, eval, ih h]
  | sub e i ih1 ih2 =>
    rw [eval, eval, ih1 fun v hv => h v (by simp [reads, hv]), ih2 fun v hv => h v (by simp [reads, hv])]
  | op n a b ih1 ih2 =>
    rw [eval, eval, ih1 fun v hv => h v (by simp [reads, hv]), ih2 fun v hv => h v (by simp [reads, hv])]

/-- The steps from a name that the nodes above it are. -/
def Step.up : Step → Up
  | .attr a => .attr a
  | .sub s => .sub s

theorem defs_eq_of_match {l l' : Loc} {v : Str} (hv : v ∈ reads l.expr) (h : defsOf l v = defsOf l' v) : l.defs v = l'.defs v := by
  have h1 : (reads l.expr).filter (· == v) = List.replicate ((reads l.expr).count v) v := List.filter_beq _
  have h2 : (reads l'.expr).filter (· == v) = List.replicate ((reads l'.expr).count v) v := List.filter_beq _
  rw [defsOf, defsOf, h1, h2, List.map_replicate, List.map_replicate] at h
  have hc : (reads l.expr).count v ≠ 0 := by
    have := List.count_pos_iff.mpr hv
    omega
  have := congrArg List.length h
  simp only [List.length_replicate] at this
  rw [← this] at h
  exact List.eq_of_mem_replicate (h ▸ List.mem_replicate.mpr ⟨hc, rfl⟩)

theorem defsOf_eq {l l' : Loc} {v : Str} (hc : (reads l.expr).count v = (reads l'.expr).count v) (h : l.defs v = l'.defs v) : defsOf l v = defsOf l' v := by
  have h1 : (reads l.expr).filter (· == v) = List.replicate ((reads l.expr).count v) v := List.filter_beq _
  have h2 : (reads l'.expr).filter (· == v) = List.replicate ((reads l'.expr).count v) v := List.filter_beq _
  rw [defsOf, defsOf, h1, h2, List.map_replicate, List.map_replicate, hc, h]

/-- The values of two variables are the same if their definitions are. -/
def Agree {V : Type} (l l' : Loc) (ρ ρ' : Str → V) : Prop := ∀ v, l.defs v = l'.defs v → ρ v = ρ' v

theorem superpart_sound {V : Type} (I : Interp V) {l l' : Loc} {ρ ρ' : Str → V} (hagree : Agree l l' ρ ρ') {steps steps' : List Step} {rest up : List Up}
    (h : superpart l l' steps (steps'.map Step.up ++ up) = some rest) (hlen : steps'.length = steps.length)
    (hsame : ∀ s s', (.sub s, .sub s') ∈ steps.zip steps' → s = s') (hin : ∀ s, .sub s ∈ steps → ∀ v ∈ reads s, v ∈ reads l.expr) {e e' : E}
    (he : eval I ρ e = eval I ρ' e') : rest = up ∧ eval I ρ (build e steps) = eval I ρ' (build e' steps') := by
  induction steps generalizing steps' e e' with
  | nil =>
    rw [List.length_nil, List.length_eq_zero_iff] at hlen
    subst hlen
    rw [superpart] at h
    cases h
    exact ⟨rfl, he⟩
  | cons st steps ih =>
    cases steps' with
    | nil => simp at hlen
    | cons st' steps' =>
      have hlen' : steps'.length = steps.length := by simpa using hlen
      have hsame' : ∀ s s', (.sub s, .sub s') ∈ steps.zip steps' → s = s' := fun s s' hm => hsame s s' (by simp [hm])
      have hin' : ∀ s, .sub s ∈ steps → ∀ v ∈ reads s, v ∈ reads l.expr := fun s hs => hin s (List.mem_cons_of_mem _ hs)
      cases st with
      | attr a =>
        cases st' with
        | attr a' =>
          simp only [List.map_cons, List.cons_append, Step.up, superpart] at h
          split at h
          · rename_i ha
            subst ha
            exact ih h hlen' hsame' hin' (by rw [eval, eval, he])
          · cases h
        | sub s' => simp [Step.up, superpart] at h
      | sub s =>
        cases st' with
        | attr a' => simp [Step.up, superpart] at h
        | sub s' =>
          simp only [List.map_cons, List.cons_append, Step.up, superpart] at h
          split at h
          · rename_i hm
            have hs : s = s' := hsame s s' (by simp)
            subst hs
            refine ih h hlen' hsame' hin' ?_
            rw [eval, eval, he]
            refine congrArg _ (eval_congr I fun v hv => hagree v (defs_eq_of_match (hin s List.mem_cons_self v hv) ?_))
            rw [sliceMatches, Bool.and_eq_true] at hm
            simpa using (List.all_eq_true.mp hm.2) v hv
          · cases h

/-- C131: A part of a variable that is matched with a structure is the same object, if the slices of both are the same expressions. -/
theorem C131_same_partial {V : Type} (I : Interp V) {l l' : Loc} {ρ ρ' : Str → V} (hagree : Agree l l' ρ ρ') {x : Str} (hx : ρ x = ρ' x)
    {steps steps' : List Step} {up rest : List Up} (h : superpart l l' steps (steps'.map Step.up ++ up) = some rest) (hlen : steps'.length = steps.length)
    (hsame : ∀ s s', (.sub s, .sub s') ∈ steps.zip steps' → s = s') (hin : ∀ v ∈ reads (build (.name x) steps), v ∈ reads l.expr) :
    eval I ρ (build (.name x) steps) = eval I ρ' (build (.name x) steps') :=
  (superpart_sound I hagree h hlen hsame (fun _ hs v hv => hin v (reads_slice hs hv)) (e := .name x) (e' := .name x) hx).2

/-- C131: A part that is written as the structure is matched with it if the definitions of the variables of slices are the same and the statements read these
equally often. -/
theorem C131_matched_partial {l l' : Loc} {steps : List Step} {up : List Up}
    (hdefs : ∀ s, .sub s ∈ steps → ∀ v ∈ reads s, l.defs v = l'.defs v ∧ (reads l.expr).count v = (reads l'.expr).count v) :
    superpart l l' steps (steps.map Step.up ++ up) = some up := by
  induction steps with
  | nil => rfl
  | cons st steps ih =>
    have ih := ih fun s hs => hdefs s (List.mem_cons_of_mem _ hs)
    cases st with
    | attr a => simpa [Step.up, superpart] using ih
    | sub s =>
      have hm : sliceMatches l s l' s = true := by
        rw [sliceMatches]
        simp only [Bool.and_eq_true, List.all_eq_true, List.contains_iff_mem, beq_iff_eq]
        exact ⟨⟨fun v hv => hv, fun v hv => hv⟩, fun v hv => defsOf_eq (hdefs s List.mem_cons_self v hv).2 (hdefs s List.mem_cons_self v hv).1⟩
      simpa [Step.up, superpart, hm] using ih

theorem sliceMatches_iff {l l' : Loc} {s s' : E} : sliceMatches l s l' s' = true ↔
    (∀ v, v ∈ reads s ↔ v ∈ reads s') ∧ ∀ v ∈ reads s, defsOf l v = defsOf l' v := by
  rw [sliceMatches]
  simp only [Bool.and_eq_true, List.all_eq_true, List.contains_iff_mem, beq_iff_eq]
  exact ⟨fun ⟨⟨h1, h2⟩, h3⟩ => ⟨fun v => ⟨h1 v, h2 v⟩, h3⟩, fun ⟨h1, h2⟩ => ⟨⟨fun v => (h1 v).mp, fun v => (h1 v).mpr⟩, h2⟩⟩

/-- Two steps that are matched: attributes of the same name, or slices with the same variables, which are read as often and have the same definitions in the
statements. -/
def Same (l l' : Loc) : Step → Step → Prop
  | .attr a, .attr a' => a = a'
  | .sub s, .sub s' => (∀ v, v ∈ reads s ↔ v ∈ reads s') ∧ ∀ v ∈ reads s, (reads l.expr).count v = (reads l'.expr).count v ∧ l.defs v = l'.defs v
  | _, _ => False

/-- C131: Just that is matched which goes down as far as the structure, by the same steps. -/
theorem C131_steps {l l' : Loc} {steps : List Step} (hin : ∀ s, .sub s ∈ steps → ∀ v ∈ reads s, v ∈ reads l.expr) {ups rest : List Up} :
    superpart l l' steps ups = some rest ↔ ∃ steps' : List Step, ups = steps'.map Step.up ++ rest ∧ List.Forall₂ (Same l l') steps steps' := by
  induction steps generalizing ups with
  | nil =>
    rw [superpart]
    constructor
    · rintro ⟨⟩
      exact ⟨[], rfl, .nil⟩
    · rintro ⟨steps', rfl, h⟩
      cases h
      rfl
  | cons st steps ih =>
    have ih := fun {ups} => ih (ups := ups) fun s hs => hin s (List.mem_cons_of_mem _ hs)
    constructor
    · intro h
      cases ups with
      | nil => cases st <;> simp [superpart] at h
      | cons u ups =>
        cases st with
        | attr a =>
          cases u with
          | attr a' =>
            rw [superpart] at h
            split at h
            · rename_i ha
              obtain ⟨steps', hu, hs⟩ := ih.mp h
              exact ⟨.attr a' :: steps', by simp [hu, Step.up], .cons ha hs⟩
            · cases h
          | _ => simp [superpart] at h
        | sub s =>
          cases u with
          | sub s' =>
            rw [superpart] at h
            split at h
            · rename_i hm
              obtain ⟨steps', hu, hs⟩ := ih.mp h
              obtain ⟨hv, hd⟩ := sliceMatches_iff.mp hm
              refine ⟨.sub s' :: steps', by simp [hu, Step.up], .cons ⟨hv, fun v hr => ⟨?_, defs_eq_of_match (hin s List.mem_cons_self v hr) (hd v hr)⟩⟩ hs⟩
              have := congrArg List.length (hd v hr)
              simpa [defsOf, List.filter_beq] using this
            · cases h
          | _ => simp [superpart] at h
    · rintro ⟨steps', rfl, h⟩
      cases h with
      | cons hs hrest =>
        rename_i st' steps'
        have hr := ih.mpr ⟨steps', rfl, hrest⟩
        cases st with
        | attr a =>
          cases st' with
          | attr a' =>
            cases hs
            simpa [Step.up, superpart] using hr
          | sub s' => exact hs.elim
        | sub s =>
          cases st' with
          | attr a' => exact hs.elim
          | sub s' =>
            have hm : sliceMatches l s l' s' = true := sliceMatches_iff.mpr ⟨hs.1, fun v hv => defsOf_eq (hs.2 v hv).1 (hs.2 v hv).2⟩
            simpa [Step.up, superpart, hm] using hr

/-- Events of a variable itself are not filtered; of those of a structure, just such that match remain. -/
theorem C131_filter (l : Loc) (steps : List Step) (events : List (Loc × List Up)) :
    (steps = [] → filterEvents l steps events = events) ∧
      ∀ l' up, (l', up) ∈ filterEvents l steps events ↔ ∃ ups, (l', ups) ∈ events ∧ superpart l l' steps ups = some up := by
  constructor
  · intro h
    rw [filterEvents, if_pos h]
  · intro l' up
    rw [filterEvents]
    split
    · rename_i h
      subst h
      simp [superpart]
    · simp only [List.mem_filterMap, Option.map_eq_some_iff, Prod.mk.injEq, Prod.exists]
      constructor
      · rintro ⟨l'', ups, hm, _, hs, rfl, rfl⟩
        exact ⟨ups, hm, hs⟩
      · rintro ⟨ups, hm, hs⟩
        exact ⟨l', ups, hm, up, hs, rfl, rfl⟩

/-- `a[0]` and `a[1]` are matched, and so are `a[i]` and `a[i + 1]`. -/
theorem C131_slices_counterexample : ∃ (l l' : Loc) (steps steps' : List Step), superpart l l' steps (steps'.map Step.up) = some [] ∧
    l.defs = l'.defs ∧ ∃ (I : Interp Nat) (ρ : Str → Nat), eval I ρ (build (.name "a".toList) steps) ≠ eval I ρ (build (.name "a".toList) steps') := by
  refine ⟨⟨.sub (.name "a".toList) (.const 0), fun _ => []⟩, ⟨.sub (.name "a".toList) (.const 1), fun _ => []⟩, [.sub (.const 0)], [.sub (.const 1)], by decide, rfl,
    ⟨id, fun n _ => n, fun a b => a + b, fun _ a b => a + b⟩, fun _ => 0, by decide⟩

/-- `a[i]` in `a[i].append(i)` is not matched with `a[i]` in `len(a[i])`, though these are the same: the first statement reads `i` twice. So it is not noticed that
the list is modified. -/
theorem C131_missed_counterexample : ∃ (l l' : Loc) (steps : List Step) (up : List Up), l.defs = l'.defs ∧ superpart l l' steps (steps.map Step.up ++ up) = none ∧
    filterEvents l steps [(l', steps.map Step.up ++ up)] = [] := by
  refine ⟨⟨.op 0 (.name "len".toList) (.sub (.name "a".toList) (.name "i".toList)), fun _ => [1]⟩,
    ⟨.op 0 (.attr (.sub (.name "a".toList) (.name "i".toList)) "append".toList) (.name "i".toList), fun _ => [1]⟩, [.sub (.name "i".toList)], [.attr "append".toList, .other],
    rfl, by decide, by decide⟩

/-! ### Examples -/

/-- `self.rows[i]` in `print(self.rows[i][k])` is matched with the one in `len(self.rows[i])`. -/
example : superpart ⟨.op 0 (.name "len".toList) (.sub (.attr (.name "self".toList) "rows".toList) (.name "i".toList)), fun _ => [1]⟩
    ⟨.op 0 (.name "print".toList) (.sub (.sub (.attr (.name "self".toList) "rows".toList) (.name "i".toList)) (.name "k".toList)), fun _ => [1]⟩
    [.attr "rows".toList, .sub (.name "i".toList)] [.attr "rows".toList, .sub (.name "i".toList), .sub (.name "k".toList), .other] =
    some [.sub (.name "k".toList), .other] := by decide

example : eventsFor (fun _ => [⟨"i".toList, [0, 1]⟩, ⟨"j".toList, [1]⟩]) ["i".toList] [⟨0, []⟩] = [⟨"i".toList, [0, 1]⟩] := by decide

end Verif.Parts

import Verif.Model.GlobalVars

/-!
C120: global variables that are modified in functions are reported.
-/

namespace Verif.GlobalVars

/-! ### What is meant -/

/-- The events in the order in which locations are reached. -/
def history (locs : List Loc) : List (Var × Ev) := locs.flatMap Loc.all

/-- Among the statements of the module that are no imports, this is the last that assigns to the variable. -/
def LastDef (top : List Loc) (v : Var) (e : Ev) : Prop :=
  ∃ before after, history (top.filter fun l => !l.isImport) = before ++ (v, e) :: after ∧ (e.type = .assign ∨ e.type = .reassign) ∧
    ∀ e', (v, e') ∈ after → e'.type ≠ .assign ∧ e'.type ≠ .reassign

/-- This is the first in a function, class or comprehension that does more with the variable than read it. -/
def FirstChange (locs : List Loc) (v : Var) (e : Ev) : Prop :=
  ∃ before after, history locs = before ++ (v, e) :: after ∧ e.type ≠ .read ∧ e.inside = true ∧
    ∀ e', (v, e') ∈ before → e'.type = .read ∨ e'.inside = false

/-! ### Proofs -/

/-- First occurrence of something about a variable in a list. -/
theorem find_split (l : List (Var × Ev)) (p : Ev → Bool) (v : Var) (e : Ev) :
    (∃ before after, l = before ++ (v, e) :: after ∧ p e = true ∧ ∀ e', (v, e') ∈ before → p e' = false) ↔
      ((l.filter fun q => q.1 = v).map (·.2)).find? p = some e := by
  induction l with
  | nil => simp
  | cons q l ih =>
    obtain ⟨w, f⟩ := q
    by_cases hw : w = v
    · subst hw
      simp only [decide_true, List.filter_cons_of_pos, List.map_cons]
      by_cases hp : p f = true
      · rw [List.find?_cons_of_pos hp]
        constructor
        · rintro ⟨b, a, h1, h2, h3⟩
          cases b with
          | nil => simp at h1; simp [h1.1]
          | cons x b =>
            simp only [List.cons_append, List.cons.injEq] at h1
            have := h3 f (by simp [← h1.1])
            rw [hp] at this
            cases this
        · intro h
          cases h
          exact ⟨[], l, rfl, hp, by simp⟩
      · rw [List.find?_cons_of_neg hp, ← ih]
        constructor
        · rintro ⟨b, a, h1, h2, h3⟩
          cases b with
          | nil => simp at h1; exact absurd (h1.1 ▸ h2) hp
          | cons x b =>
            simp only [List.cons_append, List.cons.injEq] at h1
            exact ⟨b, a, h1.2, h2, fun e' he => h3 e' (by simp [he])⟩
        · rintro ⟨b, a, h1, h2, h3⟩
          refine ⟨(w, f) :: b, a, by simp [h1], h2, fun e' he => ?_⟩
          rcases List.mem_cons.1 he with he | he
          · cases he; simpa using hp
          · exact h3 e' he
    · rw [List.filter_cons_of_neg (by simpa using hw), ← ih]
      constructor
      · rintro ⟨b, a, h1, h2, h3⟩
        cases b with
        | nil => simp at h1; exact absurd h1.1.1 hw
        | cons x b =>
          simp only [List.cons_append, List.cons.injEq] at h1
          exact ⟨b, a, h1.2, h2, fun e' he => h3 e' (by simp [he])⟩
      · rintro ⟨b, a, h1, h2, h3⟩
        refine ⟨(w, f) :: b, a, by simp [h1], h2, fun e' he => ?_⟩
        rcases List.mem_cons.1 he with he | he
        · cases he; exact absurd rfl hw
        · exact h3 e' he

/-- Dictionaries without a key. -/
theorem get?_without (d : Dict Var Ev) (v w : Var) : Dict.get? (d.filter fun p => p.1 ≠ v) w = if w = v then none else d.get? w := by
  induction d with
  | nil => simp [Dict.get?]
  | cons q d ih =>
    obtain ⟨k, e⟩ := q
    by_cases hk : k = v
    · subst hk
      rw [List.filter_cons_of_neg (by simp), ih]
      by_cases hw : w = k
      · simp [hw]
      · have : ¬ k = w := fun h => hw h.symm
        simp [hw, Dict.get?, this]
    · rw [List.filter_cons_of_pos (by simpa using hk)]
      by_cases hw : k = w
      · subst hw
        simp [Dict.get?, hk]
      · simpa [Dict.get?, hw] using ih

/-- What the loops have put into the dictionary. -/
theorem toplevel_all (l : List (Var × Ev)) (d : Dict Var Ev) (v : Var) :
    Dict.get? (l.foldl (fun d (p : Var × Ev) => if defines p.1 p.2 then d.set p.1 p.2 else d) d) v =
      (((l.reverse.filter fun q => q.1 = v).map (·.2)).find? (defines v)).or (d.get? v) := by
  induction l generalizing d with
  | nil => simp
  | cons q l ih =>
    obtain ⟨w, f⟩ := q
    rw [List.foldl_cons, ih, List.reverse_cons, List.filter_append, List.map_append, List.find?_append, Option.or_assoc]
    congr 1
    by_cases hw : w = v
    · subst hw
      by_cases hd : defines w f = true
      · simp [hd, Dict.get?_set_self]
      · simp [hd]
    · have hw' : ¬ v = w := fun h => hw h.symm
      by_cases hd : defines w f = true
      · simp [hd, hw, Dict.get?_set, hw']
      · simp [hd, hw]

theorem toplevel_flat (locs : List Loc) (d : Dict Var Ev) :
    locs.foldl (fun d (l : Loc) => if l.isImport then d else l.all.foldl (fun d (p : Var × Ev) => if defines p.1 p.2 then d.set p.1 p.2 else d) d) d =
      (history (locs.filter fun l => !l.isImport)).foldl (fun d (p : Var × Ev) => if defines p.1 p.2 then d.set p.1 p.2 else d) d := by
  induction locs generalizing d with
  | nil => rfl
  | cons l locs ih =>
    rw [List.foldl_cons, ih]
    by_cases hl : l.isImport = true
    · simp [hl]
    · simp [hl, history, List.foldl_append]

theorem defines_iff (v : Var) (e : Ev) : defines v e = true ↔ v.scope = none ∧ (e.type = .assign ∨ e.type = .reassign) := by
  simp [defines]

theorem toplevel_iff (top : List Loc) (v : Var) (e : Ev) : (toplevel top).get? v = some e ↔ v.scope = none ∧ LastDef top v e := by
  have h0 : (toplevel top).get? v = (((history (top.filter fun l => !l.isImport)).reverse.filter fun q => q.1 = v).map (·.2)).find? (defines v) := by
    unfold toplevel
    rw [toplevel_flat, toplevel_all]
    simp [Dict.get?]
  rw [h0, ← find_split]
  constructor
  · rintro ⟨b, a, h1, h2, h3⟩
    obtain ⟨h4, h5⟩ := (defines_iff v e).1 h2
    refine ⟨h4, a.reverse, b.reverse, ?_, h5, fun e' he => ?_⟩
    · have := congrArg List.reverse h1
      simpa using this
    · have h6 := h3 e' (by simpa using he)
      have h7 : ¬ (v.scope = none ∧ (e'.type = .assign ∨ e'.type = .reassign)) := by
        rw [← defines_iff, h6]
        simp
      exact ⟨fun h => h7 ⟨h4, .inl h⟩, fun h => h7 ⟨h4, .inr h⟩⟩
  · rintro ⟨h4, b, a, h1, h2, h3⟩
    refine ⟨a.reverse, b.reverse, by simp [h1], (defines_iff v e).2 ⟨h4, h2⟩, fun e' he => ?_⟩
    obtain ⟨h5, h6⟩ := h3 e' (by simpa using he)
    rw [← Bool.not_eq_true, defines_iff]
    rintro ⟨-, h | h⟩
    · exact h5 h
    · exact h6 h

/-- All events of a list of variables with theirs. -/
def flat (l : List (Var × List Ev)) : List (Var × Ev) := l.flatMap fun (v, es) => es.map fun e => (v, e)

theorem history_flat (locs : List Loc) : history locs = flat (locs.flatMap Loc.events) := by
  unfold history flat
  rw [List.flatMap_assoc]
  rfl

theorem flat_cons_self (v : Var) (es : List Ev) (l : List (Var × List Ev)) :
    ((flat ((v, es) :: l)).filter fun q => q.1 = v).map (·.2) = es ++ ((flat l).filter fun q => q.1 = v).map (·.2) := by
  unfold flat
  rw [List.flatMap_cons, List.filter_append, List.map_append]
  congr 1
  induction es with
  | nil => rfl
  | cons e es ih => simp [ih]

theorem flat_cons_ne {v w : Var} (h : v ≠ w) (es : List Ev) (l : List (Var × List Ev)) :
    ((flat ((v, es) :: l)).filter fun q => q.1 = w).map (·.2) = ((flat l).filter fun q => q.1 = w).map (·.2) := by
  unfold flat
  rw [List.flatMap_cons, List.filter_append, List.map_append]
  have : (es.map fun e => (v, e)).filter (fun q => q.1 = w) = [] := by
    simp [List.filter_eq_nil_iff, h]
  rw [this]
  rfl

/-- What is reported, as a list of variables with the two events. -/
def found : Dict Var Ev → List (Var × List Ev) → List (Var × Ev × Ev)
  | _, [] => []
  | d, (v, es) :: rest =>
    match d.get? v, es.find? counts with
    | some e0, some e1 => (v, e0, e1) :: found (d.filter fun p => p.1 ≠ v) rest
    | _, _ => found d rest

theorem visitAll_found (d : Dict Var Ev) (l : List (Var × List Ev)) :
    visitAll d l = (found d l).map fun (v, e0, e1) => ⟨e0.node, v.name, e1.line⟩ := by
  induction l generalizing d with
  | nil => rfl
  | cons q l ih =>
    obtain ⟨v, es⟩ := q
    rw [visitAll, ih, visit, found]
    cases d.get? v <;> cases es.find? counts <;> rfl

theorem found_iff (l : List (Var × List Ev)) : ∀ (d : Dict Var Ev) (v : Var) (e0 e1 : Ev), (v, e0, e1) ∈ found d l ↔
    d.get? v = some e0 ∧ (((flat l).filter fun q => q.1 = v).map (·.2)).find? counts = some e1 := by
  induction l with
  | nil => simp [found, flat]
  | cons q l ih =>
    intro d v e0 e1
    obtain ⟨w, es⟩ := q
    rw [found]
    by_cases hw : w = v
    · subst hw
      rw [flat_cons_self, List.find?_append]
      cases hd : d.get? w with
      | none => simp [ih, hd]
      | some x =>
        cases hf : es.find? counts with
        | none => simp [ih, hd]
        | some y =>
          simp only [List.mem_cons, Prod.mk.injEq, true_and, ih, get?_without, if_true, Option.some_or, Option.some.injEq]
          constructor
          · rintro (⟨rfl, rfl⟩ | ⟨h, -⟩)
            · exact ⟨rfl, rfl⟩
            · cases h
          · rintro ⟨rfl, rfl⟩
            exact .inl ⟨rfl, rfl⟩
    · rw [flat_cons_ne hw]
      have hw' : ¬ v = w := fun h => hw h.symm
      split
      · rw [List.mem_cons, ih, get?_without, if_neg hw']
        simp [hw']
      · exact ih d v e0 e1

theorem found_nodup (l : List (Var × List Ev)) : ∀ d : Dict Var Ev, ((found d l).map (·.1)).Nodup := by
  induction l with
  | nil => simp [found]
  | cons q l ih =>
    intro d
    obtain ⟨w, es⟩ := q
    rw [found]
    split
    · rw [List.map_cons, List.nodup_cons]
      refine ⟨?_, ih _⟩
      intro h
      simp only [List.mem_map] at h
      obtain ⟨⟨v, e0, e1⟩, h1, rfl⟩ := h
      rw [found_iff, get?_without] at h1
      simp at h1
    · exact ih d

theorem counts_false (e : Ev) : counts e = false ↔ e.type = .read ∨ e.inside = false := by
  unfold counts
  cases e.inside <;> cases e.type <;> decide

theorem firstChange_iff (locs : List Loc) (v : Var) (e : Ev) :
    FirstChange locs v e ↔ (((flat (locs.flatMap Loc.events)).filter fun q => q.1 = v).map (·.2)).find? counts = some e := by
  rw [← find_split, ← history_flat]
  unfold FirstChange
  simp only [counts_false]
  simp [counts, and_assoc]

/-- **C120**: what is reported are the variables of the module that are assigned to by its statements other than imports, and that functions, classes or
comprehensions do more with than read them: at the last assignment, with the line of the first change. -/
theorem C120_reported (top locs : List Loc) (m : Msg) :
    m ∈ check top locs ↔
      ∃ x e0 e1, LastDef top ⟨x, none⟩ e0 ∧ FirstChange locs ⟨x, none⟩ e1 ∧ m = ⟨e0.node, x, e1.line⟩ := by
  unfold check
  rw [visitAll_found, List.mem_map]
  constructor
  · rintro ⟨⟨v, e0, e1⟩, h, rfl⟩
    rw [found_iff, toplevel_iff, ← firstChange_iff] at h
    obtain ⟨⟨h1, h2⟩, h3⟩ := h
    obtain ⟨x, s⟩ := v
    simp only at h1
    subst h1
    exact ⟨x, e0, e1, h2, h3, rfl⟩
  · rintro ⟨x, e0, e1, h1, h2, rfl⟩
    exact ⟨(⟨x, none⟩, e0, e1), (found_iff _ _ _ _ _).2 ⟨(toplevel_iff _ _ _).2 ⟨rfl, h1⟩, (firstChange_iff _ _ _).1 h2⟩, rfl⟩

/-- **C120**: each variable is reported once. -/
theorem C120_once (top locs : List Loc) : ((check top locs).map Msg.name).Nodup := by
  unfold check
  rw [visitAll_found, List.map_map]
  have h := found_nodup (locs.flatMap Loc.events) (toplevel top)
  have hs : ∀ p ∈ found (toplevel top) (locs.flatMap Loc.events), p.1.scope = none := by
    rintro ⟨v, e0, e1⟩ hp
    rw [found_iff, toplevel_iff] at hp
    exact hp.1.1
  revert h hs
  generalize found (toplevel top) (locs.flatMap Loc.events) = L
  intro h hs
  induction L with
  | nil => simp
  | cons p L ih =>
    simp only [List.map_cons, List.nodup_cons] at h ⊢
    refine ⟨fun hm => h.1 ?_, ih h.2 fun q hq => hs q (by simp [hq])⟩
    simp only [List.mem_map] at hm
    obtain ⟨q, hq, he⟩ := hm
    have h1 := hs p (by simp)
    have h2 := hs q (by simp [hq])
    obtain ⟨⟨a, b⟩, _, _⟩ := p
    obtain ⟨⟨c, d⟩, _, _⟩ := q
    simp only [Function.comp] at h1 h2 he
    subst h1; subst h2; subst he
    exact List.mem_map.2 ⟨_, hq, rfl⟩

/-- **C120**: a variable that functions only read is not reported, and neither is a module that is imported. -/
theorem C120_constant {top locs : List Loc} {x : Str} (h : ∀ e, (⟨x, none⟩, e) ∈ history locs → e.inside = true → e.type = .read) :
    ∀ m ∈ check top locs, m.name ≠ x := by
  intro m hm hx
  obtain ⟨y, e0, e1, -, ⟨b, a, h1, h2, h3, -⟩, rfl⟩ := (C120_reported _ _ _).1 hm
  simp only at hx
  subst hx
  exact h2 (h e1 (by simp [h1]) h3)

/-! ### Examples -/

def x : Var := ⟨"x".toList, none⟩
def f : Var := ⟨"f".toList, none⟩

/-- `x = 0`, `x = 1`, `def f(): global x; print(x); x += 1; x = 2` -/
def top1 : List Loc := [⟨false, [(x, [⟨1, 1, .assign, false⟩])]⟩, ⟨false, [(x, [⟨2, 2, .reassign, false⟩])]⟩, ⟨false, [(f, [⟨3, 3, .assign, false⟩])]⟩]
def in1 : List Loc :=
  [⟨false, [(x, [⟨4, 5, .read, true⟩])]⟩, ⟨false, [(x, [⟨5, 6, .read, true⟩, ⟨5, 6, .reassign, true⟩])]⟩, ⟨false, [(x, [⟨6, 7, .reassign, true⟩])]⟩]

/-- It is reported at the second assignment, with the line of `x += 1`. -/
example : check top1 (top1 ++ in1) = [⟨2, "x".toList, 6⟩] := by decide

/-- It is not reported if the function only reads it. -/
example : check top1 (top1 ++ in1.take 1) = [] := by decide

/-- A variable of the function of the same name is another one. -/
example : check top1 (top1 ++ [⟨false, [(⟨"x".toList, some 1⟩, [⟨4, 5, .assign, true⟩])]⟩]) = [] := by decide

/-- `from m import x`, `def f(): x.append(1)` is not reported. -/
example : check [⟨true, [(x, [⟨1, 1, .assign, false⟩])]⟩] [⟨true, [(x, [⟨1, 1, .assign, false⟩])]⟩, ⟨false, [(x, [⟨2, 3, .modify, true⟩])]⟩] = [] := by decide

/-- `x = [1]`, `def f(): x.append(1); del x[0]`, `x[0] = 2` in a method. -/
example : check (top1.take 1) (top1.take 1 ++ [⟨false, [(x, [⟨2, 3, .modify, true⟩])]⟩, ⟨false, [(x, [⟨3, 4, .delete, true⟩])]⟩]) = [⟨1, "x".toList, 3⟩] := by decide

example : ∀ m ∈ check top1 (top1 ++ in1.take 1), m.name ≠ "x".toList :=
  C120_constant (by
    intro e h
    simp only [history, in1, top1] at h
    simp [Loc.all, x, f] at h
    rcases h with rfl | rfl | rfl <;> simp)

/-! ### Where the code does not do what is said -/

/-- `def f(): global x; x = 1` and `def g(): global x; x += 1`, with `x` assigned to nowhere else: `x` is a global variable and is not reported. -/
theorem C120_global_counterexample :
    let locs : List Loc := [⟨false, [(f, [⟨1, 1, .assign, false⟩])]⟩, ⟨false, [(x, [⟨2, 3, .reassign, true⟩])]⟩, ⟨false, [(x, [⟨3, 6, .read, true⟩, ⟨3, 6, .reassign, true⟩])]⟩]
    FirstChange locs x ⟨2, 3, .reassign, true⟩ ∧ check (locs.take 1) locs = [] := by
  refine ⟨⟨[(f, ⟨1, 1, .assign, false⟩)], [(x, ⟨3, 6, .read, true⟩), (x, ⟨3, 6, .reassign, true⟩)], rfl, by decide, rfl, ?_⟩, by decide⟩
  simp [f, x]

/-- `x = []` and `[x.append(i) for i in range(3)]`, without any function: `x` is reported, as the comprehension is a scope of its own. -/
theorem C120_comprehension_counterexample :
    check (top1.take 1) (top1.take 1 ++ [⟨false, [(x, [⟨2, 2, .modify, true⟩])]⟩]) = [⟨1, "x".toList, 2⟩] := by decide

end Verif.GlobalVars

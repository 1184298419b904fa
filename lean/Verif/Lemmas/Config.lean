import Verif.Model.Config

/-!
Auxiliary lemmas about `_combine`, `_translate` and `to_immutable`.
-/

namespace Verif

/-- The arguments of a configuration without the emptied slots. -/
def present (l : List (Option Arg)) : List Arg := l.filterMap id

@[simp] theorem present_nil : present [] = [] := rfl
@[simp] theorem present_none (l) : present (none :: l) = present l := rfl
@[simp] theorem present_some (a l) : present (some a :: l) = a :: present l := rfl
@[simp] theorem present_append (l m) : present (l ++ m) = present l ++ present m := by
  simp [present]
@[simp] theorem present_map_some (l : List Arg) : present (l.map some) = l := by
  induction l with
  | nil => rfl
  | cons a l ih => simp [ih]

/-- Values of an option, in order. -/
def valsOf (o : Opt) (l : List Arg) : List Val := (l.filter (fun a => a.option = o)).map (·.val)

@[simp] theorem valsOf_nil (o) : valsOf o [] = [] := rfl
theorem valsOf_cons (o) (a : Arg) (l) :
    valsOf o (a :: l) = if a.option = o then a.val :: valsOf o l else valsOf o l := by
  by_cases h : a.option = o <;> simp [valsOf, h]
@[simp] theorem valsOf_append (o l m) : valsOf o (l ++ m) = valsOf o l ++ valsOf o m := by
  simp [valsOf]

/-- Values of extending options are lists. -/
def WT (l : List Arg) : Prop :=
  ∀ a ∈ l, (optionParse a.option).combine = .extend → ∃ vs, a.val = .list vs

theorem WT.append {l m} (h : WT l) (h' : WT m) : WT (l ++ m) := by
  intro a ha; rcases List.mem_append.1 ha with h1 | h1
  · exact h a h1
  · exact h' a h1

theorem WT.of_cons {a l} (h : WT (a :: l)) : WT l := fun b hb => h b (List.mem_cons_of_mem _ hb)

theorem WT.sub {l m : List Arg} (h : WT m) (hs : ∀ a ∈ l, a ∈ m) : WT l := fun a ha => h a (hs a ha)

/-- Combining two values when it cannot fail. -/
def combineVal : Combine → Val → Val → Val
  | .extend, .list a, .list b => .list (a ++ b)
  | _, _, b => b

/-- One step of `_combine` on the list of present arguments. -/
def collapseStep (allowed : List Combine) (acc : List Arg) (a : Arg) : List Arg :=
  if (optionParse a.option).combine ∈ allowed then
    match acc.find? (fun b => b.option = a.option) with
    | none => acc ++ [a]
    | some old =>
      acc.filter (fun b => b.option ≠ a.option)
        ++ [⟨a.option, combineVal (optionParse a.option).combine old.val a.val⟩]
  else acc ++ [a]

/-- `_combine` on present arguments. -/
def collapse (allowed : List Combine) (args : List Arg) : List Arg :=
  args.foldl (collapseStep allowed) []

/-- Invariant of the loop of `_combine`. -/
def CombineInv (allowed : List Combine) (st : CombineState) : Prop :=
  WT (present st.results) ∧
  ∀ o, (optionParse o).combine ∈ allowed →
    match st.indices o with
    | none => ∀ (j : Nat) b, st.results[j]? = some (some b) → b.option ≠ o
    | some i => ∃ a, st.results[i]? = some (some a) ∧ a.option = o ∧
        ∀ (j : Nat) b, st.results[j]? = some (some b) → b.option = o → j = i

theorem present_set_none (l : List (Option Arg)) (o : Opt) :
    ∀ (i : Nat) (a : Arg), l[i]? = some (some a) → a.option = o →
      (∀ (j : Nat) b, l[j]? = some (some b) → b.option = o → j = i) →
      present (l.set i none) = (present l).filter (fun b => b.option ≠ o) ∧
      (present l).find? (fun b => b.option = o) = some a := by
  have none_of : ∀ l : List (Option Arg),
      (∀ (j : Nat) b, l[j]? = some (some b) → b.option ≠ o) →
      (present l).filter (fun b => b.option ≠ o) = present l := by
    intro l
    induction l with
    | nil => intro _; rfl
    | cons x l ih =>
      intro h
      have h' : ∀ (j : Nat) b, l[j]? = some (some b) → b.option ≠ o := fun j b hb =>
        h (j + 1) b (by simpa using hb)
      cases x with
      | none => simpa using ih h'
      | some b =>
        have hb := h 0 b (by simp)
        simp only [present_some, List.filter_cons]
        simp [hb] at *
        simpa using ih h'
  induction l with
  | nil => intro i a h; simp at h
  | cons x l ih =>
    intro i a hi ho huniq
    cases i with
    | zero =>
      simp at hi
      subst hi
      have h' : ∀ (j : Nat) b, l[j]? = some (some b) → b.option ≠ o := fun j b hb hbo => by
        have := huniq (j + 1) b (by simpa using hb) hbo
        omega
      have := none_of l h'
      constructor
      · simp [ho]; simpa using this.symm
      · simp [ho]
    | succ i =>
      have hi' : l[i]? = some (some a) := by simpa using hi
      have huniq' : ∀ (j : Nat) b, l[j]? = some (some b) → b.option = o → j = i := fun j b hb hbo => by
        have := huniq (j + 1) b (by simpa using hb) hbo
        omega
      obtain ⟨h1, h2⟩ := ih i a hi' ho huniq'
      cases x with
      | none => exact ⟨h1, h2⟩
      | some b =>
        have hb : b.option ≠ o := fun hbo => by
          have := huniq 0 b (by simp) hbo
          omega
        constructor
        · simp [hb]; simpa using h1
        · simp [hb]; simpa using h2

theorem present_find_none (l : List (Option Arg)) (o : Opt)
    (h : ∀ (j : Nat) b, l[j]? = some (some b) → b.option ≠ o) :
    (present l).find? (fun b => b.option = o) = none := by
  induction l with
  | nil => rfl
  | cons x l ih =>
    have h' : ∀ (j : Nat) b, l[j]? = some (some b) → b.option ≠ o := fun j b hb =>
      h (j + 1) b (by simpa using hb)
    cases x with
    | none => simpa using ih h'
    | some b =>
      have hb := h 0 b (by simp)
      have := ih h'
      simp [hb]; simpa using this

theorem mem_present {l : List (Option Arg)} {a : Arg} : a ∈ present l ↔ some a ∈ l := by
  simp [present]

theorem combineVal_list {c : Combine} {x y : Val} (hc : c = .extend → (∃ a, x = .list a) ∧ ∃ b, y = .list b) :
    c.apply x y = .ok (combineVal c x y) := by
  cases c with
  | replace => simp [Combine.apply, combineVal]
  | extend =>
    obtain ⟨⟨a, rfl⟩, ⟨b, rfl⟩⟩ := hc rfl
    rfl

/-- Appending a fresh argument keeps the invariant. -/
theorem inv_append {allowed st} {a : Arg} (h : CombineInv allowed st)
    (hwt : (optionParse a.option).combine = .extend → ∃ vs, a.val = .list vs)
    (hfresh : (optionParse a.option).combine ∈ allowed → st.indices a.option = none) :
    CombineInv allowed
      { indices := fun o => if o = a.option then some ((st.results ++ [some a]).length - 1) else st.indices o,
        results := st.results ++ [some a] } := by
  obtain ⟨h1, h2⟩ := h
  refine ⟨?_, ?_⟩
  · simp only [present_append]
    apply h1.append
    intro b hb; simp [present] at hb; subst hb; exact hwt
  · intro o ho
    have h2o := h2 o ho
    by_cases hoa : o = a.option
    · subst hoa
      rw [hfresh ho] at h2o
      simp only [if_true]
      refine ⟨a, by simp, rfl, ?_⟩
      intro j b hb hbo
      by_cases hj : j < st.results.length
      · rw [List.getElem?_append_left hj] at hb
        exact absurd hbo (h2o j b hb)
      · by_cases hj2 : j = st.results.length
        · subst hj2; simp
        · rw [List.getElem?_eq_none (by simp; omega)] at hb; simp at hb
    · simp only [if_neg hoa]
      cases hidx : st.indices o with
      | none =>
        rw [hidx] at h2o
        intro j b hb
        by_cases hj : j < st.results.length
        · rw [List.getElem?_append_left hj] at hb; exact h2o j b hb
        · by_cases hj2 : j = st.results.length
          · subst hj2; simp at hb; subst hb; exact fun x => hoa x.symm
          · rw [List.getElem?_eq_none (by simp; omega)] at hb; simp at hb
      | some i =>
        rw [hidx] at h2o
        obtain ⟨c, hc1, hc2, hc3⟩ := h2o
        have hi : i < st.results.length := by
          rcases Nat.lt_or_ge i st.results.length with h | h
          · exact h
          · rw [List.getElem?_eq_none h] at hc1; simp at hc1
        refine ⟨c, by rw [List.getElem?_append_left hi]; exact hc1, hc2, ?_⟩
        intro j b hb hbo
        by_cases hj : j < st.results.length
        · rw [List.getElem?_append_left hj] at hb; exact hc3 j b hb hbo
        · by_cases hj2 : j = st.results.length
          · subst hj2; simp at hb; subst hb; exact absurd hbo.symm hoa
          · rw [List.getElem?_eq_none (by simp; omega)] at hb; simp at hb

theorem combineStep_spec {allowed st} {x : Option Arg} (h : CombineInv allowed st)
    (hwt : ∀ a, x = some a → (optionParse a.option).combine = .extend → ∃ vs, a.val = .list vs) :
    ∃ st', combineStep allowed st x = .ok st' ∧ CombineInv allowed st' ∧
      present st'.results = (match x with
        | none => present st.results
        | some a => collapseStep allowed (present st.results) a) := by
  cases x with
  | none => exact ⟨st, rfl, h, rfl⟩
  | some a =>
    have hwt := hwt a rfl
    by_cases hall : (optionParse a.option).combine ∈ allowed
    · cases hidx : st.indices a.option with
      | none =>
        have hn := h.2 a.option hall
        rw [hidx] at hn
        refine ⟨_, by simp only [combineStep, if_pos hall, hidx], inv_append h hwt (fun _ => hidx), ?_⟩
        simp only [collapseStep, if_pos hall, present_append,
          present_find_none _ _ hn]
        simp
      | some i =>
        have hn := h.2 a.option hall
        rw [hidx] at hn
        obtain ⟨old, ho1, ho2, ho3⟩ := hn
        have hold : old ∈ present st.results := by
          rw [mem_present]; exact List.mem_of_getElem? ho1
        have happ : (optionParse a.option).combine.apply old.val a.val
            = .ok (combineVal (optionParse a.option).combine old.val a.val) := by
          apply combineVal_list
          intro hc
          exact ⟨h.1 old hold (by rw [ho2]; exact hc), hwt hc⟩
        have hi : i < st.results.length := by
          rcases Nat.lt_or_ge i st.results.length with h | h
          · exact h
          · rw [List.getElem?_eq_none h] at ho1; simp at ho1
        obtain ⟨hp1, hp2⟩ := present_set_none st.results a.option i old ho1 ho2 ho3
        let v := combineVal (optionParse a.option).combine old.val a.val
        have hset : (st.results ++ [some (Arg.mk a.option v)]).set i none
            = st.results.set i none ++ [some (Arg.mk a.option v)] := by
          rw [List.set_append_left _ _ hi]
        refine ⟨_, by simp only [combineStep, if_pos hall, hidx, ho1, happ]; rfl, ?_, ?_⟩
        · -- first empty the slot, then append
          have hinv : CombineInv allowed
              { indices := fun o => if o = a.option then none else st.indices o,
                results := st.results.set i none } := by
            refine ⟨?_, ?_⟩
            · show WT (present (st.results.set i none))
              rw [hp1]
              exact h.1.sub (fun b hb => (List.mem_filter.1 hb).1)
            · intro o ho
              by_cases hoa : o = a.option
              · subst hoa
                simp only [if_true]
                intro j b hb
                by_cases hji : j = i
                · subst hji; rw [List.getElem?_set_self hi] at hb; simp at hb
                · rw [List.getElem?_set_ne (fun x => hji x.symm)] at hb
                  exact fun hbo => hji (ho3 j b hb hbo)
              · simp only [if_neg hoa]
                have h2o := h.2 o ho
                cases hidx' : st.indices o with
                | none =>
                  rw [hidx'] at h2o
                  intro j b hb
                  by_cases hji : j = i
                  · subst hji; rw [List.getElem?_set_self hi] at hb; simp at hb
                  · rw [List.getElem?_set_ne (fun x => hji x.symm)] at hb
                    exact h2o j b hb
                | some k =>
                  rw [hidx'] at h2o
                  obtain ⟨c, hc1, hc2, hc3⟩ := h2o
                  have hki : k ≠ i := by
                    intro hki; subst hki
                    rw [ho1] at hc1
                    simp at hc1; subst hc1
                    exact hoa (hc2.symm.trans ho2)
                  refine ⟨c, by rw [List.getElem?_set_ne (fun x => hki x.symm)]; exact hc1, hc2, ?_⟩
                  intro j b hb hbo
                  by_cases hji : j = i
                  · subst hji; rw [List.getElem?_set_self hi] at hb; simp at hb
                  · rw [List.getElem?_set_ne (fun x => hji x.symm)] at hb
                    exact hc3 j b hb hbo
          have hv : (optionParse a.option).combine = .extend → ∃ vs, v = .list vs := by
            intro hc
            obtain ⟨x, hx⟩ := h.1 old hold (by rw [ho2]; exact hc)
            obtain ⟨y, hy⟩ := hwt hc
            exact ⟨x ++ y, by simp only [v, hc, hx, hy, combineVal]⟩
          have := inv_append (a := Arg.mk a.option v) hinv hv (fun _ => by simp)
          rw [show combineVal (optionParse a.option).combine old.val a.val = v from rfl, hset]
          have heq : ∀ o, (if o = a.option then
              some ((st.results.set i none ++ [some (Arg.mk a.option v)]).length - 1)
              else (if o = a.option then none else st.indices o))
              = (if o = a.option then
              some ((st.results.set i none ++ [some (Arg.mk a.option v)]).length - 1)
              else st.indices o) := by
            intro o; by_cases ho : o = a.option <;> simp [ho]
          simp only [heq] at this
          exact this
        · rw [show combineVal (optionParse a.option).combine old.val a.val = v from rfl, hset]
          simp only [collapseStep, if_pos hall, hp2, present_append, hp1]
          rfl
    · refine ⟨_, by simp only [combineStep, if_neg hall],
        inv_append h hwt (fun hx => absurd hx hall), ?_⟩
      simp [collapseStep, if_neg hall]

theorem combineFold_spec {allowed} (args : List (Option Arg)) :
    ∀ st, CombineInv allowed st → WT (present args) →
    ∃ st', args.foldlM (combineStep allowed) st = .ok st' ∧ CombineInv allowed st' ∧
      present st'.results = (present args).foldl (collapseStep allowed) (present st.results) := by
  induction args with
  | nil => intro st h _; exact ⟨st, rfl, h, rfl⟩
  | cons x args ih =>
    intro st h hwt
    have hx : ∀ a, x = some a → (optionParse a.option).combine = .extend → ∃ vs, a.val = .list vs := by
      intro a ha; subst ha; exact hwt a (by simp)
    have hrest : WT (present args) := by
      cases x with
      | none => simpa using hwt
      | some a => rw [present_some] at hwt; exact hwt.of_cons
    obtain ⟨st1, h1, h2, h3⟩ := combineStep_spec h hx
    obtain ⟨st2, h4, h5, h6⟩ := ih st1 h2 hrest
    refine ⟨st2, ?_, h5, ?_⟩
    · rw [List.foldlM_cons, h1]; exact h4
    · rw [h6, h3]
      cases x <;> rfl

/-- `_combine` never fails on well-typed arguments and computes `collapse`. -/
theorem combineArgs_spec {allowed} (args : List (Option Arg)) (h : WT (present args)) :
    ∃ res, combineArgs allowed args = .ok res ∧ present res = collapse allowed (present args) := by
  have hinv : CombineInv allowed ⟨fun _ => none, []⟩ := by
    refine ⟨by intro a ha; simp at ha, ?_⟩
    intro o _; simp
  obtain ⟨st, h1, _, h3⟩ := combineFold_spec args _ hinv h
  exact ⟨st.results, by simp [combineArgs, h1], h3⟩

/-! ### Only replacing options are combined -/

/-- Is the option of the replacing kind? -/
def isReplace (o : Opt) : Bool := decide ((optionParse o).combine = .replace)

/-- Keep only the last argument of each replacing option. -/
def dropOverridden : List Arg → List Arg
  | [] => []
  | a :: as =>
    if isReplace a.option ∧ a.option ∈ as.map (·.option) then dropOverridden as
    else a :: dropOverridden as

theorem collapseStep_replace (acc : List Arg) (a : Arg) :
    collapseStep [.replace] acc a =
      acc.filter (fun b => !(isReplace b.option && decide (b.option = a.option))) ++ [a] := by
  by_cases h : (optionParse a.option).combine = .replace
  · have hr : isReplace a.option = true := by simp [isReplace, h]
    have hf : acc.filter (fun b => !(isReplace b.option && decide (b.option = a.option)))
        = acc.filter (fun b => b.option ≠ a.option) := by
      apply List.filter_congr
      intro b _
      by_cases hb : b.option = a.option
      · simp [hb, hr]
      · simp [hb]
    rw [hf]
    simp only [collapseStep, h, List.mem_singleton, if_true]
    cases hfind : acc.find? (fun b => decide (b.option = a.option)) with
    | none =>
      have : acc.filter (fun b => b.option ≠ a.option) = acc := by
        rw [List.filter_eq_self]
        intro b hb
        have := List.find?_eq_none.1 hfind b hb
        simpa using this
      rw [this]
    | some old => simp [combineVal]
  · have hr : isReplace a.option = false := by simp [isReplace, h]
    have hf : acc.filter (fun b => !(isReplace b.option && decide (b.option = a.option))) = acc := by
      rw [List.filter_eq_self]
      intro b _
      by_cases hb : b.option = a.option
      · simp [hb, hr]
      · simp [hb]
    rw [hf]
    simp [collapseStep, h]

theorem collapse_replace_acc (args : List Arg) : ∀ acc,
    args.foldl (collapseStep [.replace]) acc =
      acc.filter (fun b => !(isReplace b.option && decide (b.option ∈ args.map (·.option))))
        ++ dropOverridden args := by
  induction args with
  | nil =>
    intro acc
    have : acc.filter (fun _ => true) = acc := List.filter_eq_self.2 (by simp)
    simp [dropOverridden, this]
  | cons a as ih =>
    intro acc
    rw [List.foldl_cons, collapseStep_replace, ih, List.filter_append, List.filter_filter]
    have hacc : acc.filter (fun b =>
        (!(isReplace b.option && decide (b.option ∈ as.map (·.option)))) &&
        (!(isReplace b.option && decide (b.option = a.option))))
        = acc.filter (fun b => !(isReplace b.option && decide (b.option ∈ (a :: as).map (·.option)))) := by
      apply List.filter_congr
      intro b _
      cases isReplace b.option <;> by_cases h1 : b.option = a.option <;>
        by_cases h2 : b.option ∈ as.map (·.option) <;> simp_all
    rw [hacc, List.append_assoc]
    congr 1
    by_cases h : isReplace a.option ∧ a.option ∈ as.map (·.option)
    · simp only [dropOverridden, if_pos h]
      have : (!(isReplace a.option && decide (a.option ∈ as.map (·.option)))) = false := by
        simp only [h.1, Bool.true_and, Bool.not_eq_false']; exact decide_eq_true h.2
      simp only [List.filter_cons, this]; simp
    · simp only [dropOverridden, if_neg h]
      have : (!(isReplace a.option && decide (a.option ∈ as.map (·.option)))) = true := by
        cases hr : isReplace a.option
        · rfl
        · have : a.option ∉ as.map (·.option) := fun hm => h ⟨hr, hm⟩
          simp only [Bool.true_and, Bool.not_eq_true']; exact decide_eq_false this
      simp only [List.filter_cons, this]; simp

theorem collapse_replace (args : List Arg) : collapse [.replace] args = dropOverridden args := by
  simp [collapse, collapse_replace_acc]

theorem mem_options_dropOverridden (l : List Arg) (o : Opt) :
    o ∈ (dropOverridden l).map (·.option) ↔ o ∈ l.map (·.option) := by
  induction l with
  | nil => simp [dropOverridden]
  | cons a as ih =>
    by_cases h : isReplace a.option ∧ a.option ∈ as.map (·.option)
    · simp only [dropOverridden, if_pos h, ih, List.map_cons, List.mem_cons]
      constructor
      · exact fun x => Or.inr x
      · rintro (rfl | x)
        · exact h.2
        · exact x
    · simp only [dropOverridden, if_neg h, List.map_cons, List.mem_cons, ih]

theorem dropOverridden_subset (l : List Arg) : ∀ a ∈ dropOverridden l, a ∈ l := by
  induction l with
  | nil => simp [dropOverridden]
  | cons a as ih =>
    intro b hb
    by_cases h : isReplace a.option ∧ a.option ∈ as.map (·.option)
    · simp only [dropOverridden, if_pos h] at hb; exact List.mem_cons_of_mem _ (ih b hb)
    · simp only [dropOverridden, if_neg h, List.mem_cons] at hb
      rcases hb with rfl | hb
      · simp
      · exact List.mem_cons_of_mem _ (ih b hb)

theorem dropOverridden_append (x y : List Arg) :
    dropOverridden (x ++ y) =
      (dropOverridden x).filter (fun b => !(isReplace b.option && decide (b.option ∈ y.map (·.option))))
        ++ dropOverridden y := by
  induction x with
  | nil => simp [dropOverridden]
  | cons a as ih =>
    rw [List.cons_append]
    by_cases h : isReplace a.option ∧ a.option ∈ as.map (·.option)
    · have h' : isReplace a.option ∧ a.option ∈ (as ++ y).map (·.option) :=
        ⟨h.1, by rw [List.map_append]; exact List.mem_append_left _ h.2⟩
      simp only [dropOverridden, if_pos h, if_pos h', ih]
    · by_cases hy : isReplace a.option ∧ a.option ∈ y.map (·.option)
      · have h' : isReplace a.option ∧ a.option ∈ (as ++ y).map (·.option) :=
          ⟨hy.1, by rw [List.map_append]; exact List.mem_append_right _ hy.2⟩
        have hf : (!(isReplace a.option && decide (a.option ∈ y.map (·.option)))) = false := by
          simp only [hy.1, Bool.true_and, Bool.not_eq_false']; exact decide_eq_true hy.2
        simp only [dropOverridden, if_neg h, if_pos h', ih, List.filter_cons, hf]; simp
      · have h' : ¬ (isReplace a.option ∧ a.option ∈ (as ++ y).map (·.option)) := by
          rintro ⟨h1, h2⟩
          rw [List.map_append, List.mem_append] at h2
          rcases h2 with h2 | h2
          · exact h ⟨h1, h2⟩
          · exact hy ⟨h1, h2⟩
        have hf : (!(isReplace a.option && decide (a.option ∈ y.map (·.option)))) = true := by
          cases hr : isReplace a.option
          · rfl
          · have : a.option ∉ y.map (·.option) := fun hm => hy ⟨hr, hm⟩
            simp only [Bool.true_and, Bool.not_eq_true']; exact decide_eq_false this
        simp only [dropOverridden, if_neg h, if_neg h', ih, List.filter_cons, hf]; simp

theorem dropOverridden_idem (l : List Arg) : dropOverridden (dropOverridden l) = dropOverridden l := by
  induction l with
  | nil => rfl
  | cons a as ih =>
    by_cases h : isReplace a.option ∧ a.option ∈ as.map (·.option)
    · simp only [dropOverridden, if_pos h, ih]
    · have h' : ¬ (isReplace a.option ∧ a.option ∈ (dropOverridden as).map (·.option)) := by
        rwa [mem_options_dropOverridden]
      simp only [dropOverridden, if_neg h, if_neg h', ih]

theorem dropOverridden_append_drop (x y : List Arg) :
    dropOverridden (dropOverridden x ++ dropOverridden y) = dropOverridden (x ++ y) := by
  rw [dropOverridden_append, dropOverridden_append x y, dropOverridden_idem, dropOverridden_idem]
  congr 1
  apply List.filter_congr
  intro b _
  simp only [mem_options_dropOverridden]

theorem valsOf_filter_ne {l : List Arg} {o : Opt} {p : Arg → Bool} (h : ∀ a ∈ l, a.option = o → p a = true) :
    valsOf o (l.filter p) = valsOf o l := by
  induction l with
  | nil => rfl
  | cons a as ih =>
    have ih := ih (fun b hb => h b (List.mem_cons_of_mem _ hb))
    by_cases ha : a.option = o
    · have := h a (by simp) ha
      simp only [List.filter_cons, this, valsOf_cons, ha]; simp [valsOf_cons, ha, ih]
    · cases hp : p a
      · simp only [List.filter_cons, hp, valsOf_cons, ha]; simp [ih]
      · simp only [List.filter_cons, hp, valsOf_cons, ha]; simp [valsOf_cons, ha, ih]

theorem valsOf_eq_nil {l : List Arg} {o : Opt} : valsOf o l = [] ↔ o ∉ l.map (·.option) := by
  induction l with
  | nil => simp
  | cons a as ih =>
    by_cases h : a.option = o
    · simp [valsOf_cons, h]
    · simp only [valsOf_cons, h, if_false, ih, List.map_cons, List.mem_cons, not_or]
      exact ⟨fun x => ⟨fun y => h y.symm, x⟩, fun x => x.2⟩

/-- For a replacing option only the last value survives. -/
theorem valsOf_dropOverridden_replace (l : List Arg) {o : Opt} (h : isReplace o = true) :
    valsOf o (dropOverridden l) = (valsOf o l).getLast?.toList := by
  induction l with
  | nil => rfl
  | cons a as ih =>
    by_cases ha : a.option = o
    · subst ha
      by_cases hm : a.option ∈ as.map (·.option)
      · have hn : valsOf a.option as ≠ [] := fun x => valsOf_eq_nil.1 x hm
        simp only [dropOverridden, if_pos (And.intro h hm), ih, valsOf_cons, if_true]
        rw [List.getLast?_cons]
        cases hl : (valsOf a.option as).getLast? with
        | none => rw [List.getLast?_eq_none_iff] at hl; exact absurd hl hn
        | some v => rfl
      · have hn : valsOf a.option as = [] := valsOf_eq_nil.2 hm
        have hm' : ¬ (isReplace a.option ∧ a.option ∈ as.map (·.option)) := fun x => hm x.2
        simp only [dropOverridden, if_neg hm', valsOf_cons, if_true, ih, hn]; rfl
    · by_cases hm : isReplace a.option ∧ a.option ∈ as.map (·.option)
      · simp only [dropOverridden, if_pos hm, ih, valsOf_cons, ha, if_false]
      · simp only [dropOverridden, if_neg hm, ih, valsOf_cons, ha, if_false]

/-- Other options are untouched. -/
theorem valsOf_dropOverridden_extend (l : List Arg) {o : Opt} (h : isReplace o = false) :
    valsOf o (dropOverridden l) = valsOf o l := by
  induction l with
  | nil => rfl
  | cons a as ih =>
    by_cases hm : isReplace a.option ∧ a.option ∈ as.map (·.option)
    · have ha : a.option ≠ o := fun x => by rw [x, h] at hm; simp at hm
      simp only [dropOverridden, if_pos hm, ih, valsOf_cons, ha, if_false]
    · simp only [dropOverridden, if_neg hm, valsOf_cons, ih]

end Verif

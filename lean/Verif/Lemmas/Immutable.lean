import Mathlib.Data.List.Induction
import Verif.Lemmas.Config

/-!
Auxiliary lemmas: what `to_immutable` computes.
-/

namespace Verif

/-- Values have the shape their option's conversion produces (as far as the code depends on it). -/
def WTyped (l : List Arg) : Prop :=
  WT l ∧ ∀ a ∈ l, a.option = .setGroups → ∃ vs, a.val = .list vs

theorem WTyped.append {l m} (h : WTyped l) (h' : WTyped m) : WTyped (l ++ m) := by
  refine ⟨h.1.append h'.1, ?_⟩
  intro a ha; rcases List.mem_append.1 ha with h1 | h1
  · exact h.2 a h1
  · exact h'.2 a h1

theorem WTyped.sub {l m : List Arg} (h : WTyped m) (hs : ∀ a ∈ l, a ∈ m) : WTyped l :=
  ⟨h.1.sub hs, fun a ha => h.2 a (hs a ha)⟩

theorem WTyped.of_cons {a l} (h : WTyped (a :: l)) : WTyped l :=
  h.sub fun _ hb => List.mem_cons_of_mem _ hb

theorem wtyped_nil : WTyped [] := ⟨fun _ h => by simp at h, fun _ h => by simp at h⟩

theorem wtyped_convert (raw : List RawArg) : WTyped (raw.map convertArg) := by
  constructor
  · intro a ha hc
    obtain ⟨r, _, rfl⟩ := List.mem_map.1 ha
    obtain ⟨o, v⟩ := r
    cases o <;> simp [convertArg, optionParse] at hc ⊢ <;> simp [OptType.convert]
  · intro a ha hc
    obtain ⟨r, _, rfl⟩ := List.mem_map.1 ha
    obtain ⟨o, v⟩ := r
    simp [convertArg] at hc
    subst hc
    simp [convertArg, optionParse, OptType.convert]

theorem wtyped_dropOverridden {l} (h : WTyped l) : WTyped (dropOverridden l) :=
  h.sub (dropOverridden_subset l)

/-! ### Construction and combination of configurations -/

theorem mkConfig_spec (e : Option Str) (raw : List RawArg) :
    ∃ c, mkConfig e raw = .ok c ∧ present c.config = dropOverridden (raw.map convertArg) ∧
      c.enablers = enablersOf e c.config := by
  have hp : present (raw.map fun a => some (convertArg a)) = raw.map convertArg := by
    rw [show (raw.map fun a => some (convertArg a)) = (raw.map convertArg).map some by simp]
    exact present_map_some _
  obtain ⟨res, h1, h2⟩ := combineArgs_spec (allowed := [.replace])
    (raw.map fun a => some (convertArg a)) (by rw [hp]; exact (wtyped_convert raw).1)
  refine ⟨⟨res, enablersOf e res⟩, by simp [mkConfig, h1], ?_, rfl⟩
  rw [h2, hp, collapse_replace]

theorem combine_spec (lt rt : Config) (h1 : WTyped (present lt.config))
    (h2 : WTyped (present rt.config)) :
    ∃ c, Config.combine lt rt = .ok c ∧
      present c.config = dropOverridden (present lt.config ++ present rt.config) ∧
      c.enablers = Dict.merge lt.enablers rt.enablers := by
  obtain ⟨res, hr, hp⟩ := combineArgs_spec (allowed := [.replace]) (lt.config ++ rt.config)
    (by rw [present_append]; exact (h1.append h2).1)
  refine ⟨⟨res, Dict.merge lt.enablers rt.enablers⟩, by simp [Config.combine, hr], ?_, rfl⟩
  rw [hp, present_append, collapse_replace]

/-! ### Translation -/

/-- No option set addresses the linter `edulint` (such a set makes the code fail). -/
def SetsOk (sets : OptionSets) : Prop :=
  ∀ p ∈ sets, ∀ q ∈ p.2, q.1 ≠ Linter.edulint

/-- The arguments of an option set. -/
def setArgs (os : OptionSet) : List Arg :=
  os.flatMap fun q => match q.1 with
    | .pylint => q.2.map fun v => Arg.mk .pylint (.list [v])
    | .flake8 => q.2.map fun v => Arg.mk .flake8 (.list [v])
    | .edulint => []

theorem toOption_pylint : Linter.toOption .pylint = .ok .pylint := by decide
theorem toOption_flake8 : Linter.toOption .flake8 = .ok .flake8 := by decide
theorem toOption_edulint : Linter.toOption .edulint = .error .assertionError := by decide

theorem optionSetArgs_spec (os : OptionSet) (h : ∀ q ∈ os, q.1 ≠ Linter.edulint) :
    optionSetArgs os = .ok (setArgs os) := by
  induction os with
  | nil => rfl
  | cons q rest ih =>
    obtain ⟨l, vals⟩ := q
    have ih := ih fun q hq => h q (List.mem_cons_of_mem _ hq)
    have hl := h (l, vals) (by simp)
    cases l with
    | edulint => simp at hl
    | pylint =>
      simp only [optionSetArgs, toOption_pylint, ih]
      simp [setArgs, optionParse, OptType.convert]
    | flake8 =>
      simp only [optionSetArgs, toOption_flake8, ih]
      simp [setArgs, optionParse, OptType.convert]

/-- The arguments of the groups named in a list. -/
def groupArgs (sets : OptionSets) (gs : List Str) : List Arg :=
  gs.flatMap fun g => ((Dict.get? sets g).map setArgs).getD []

theorem groupsArgs_spec (sets : OptionSets) (h : SetsOk sets) (gs : List Str) :
    groupsArgs sets gs = .ok (groupArgs sets gs) := by
  induction gs with
  | nil => rfl
  | cons g gs ih =>
    cases hg : Dict.get? sets g with
    | none => simp [groupsArgs, groupArgs, hg, ih]
    | some os =>
      have hm := Dict.mem_of_get? hg
      simp [groupsArgs, groupArgs, hg, ih, optionSetArgs_spec os (h _ hm)]

/-- The arguments that the translation inserts after an argument. -/
def insertedArgs (sets : OptionSets) (a : Arg) : List Arg :=
  (match a.option, a.val with
    | .setGroups, .list gs => groupArgs sets gs
    | _, _ => []) ++ ((Dict.get? sets a.option.toName).map setArgs).getD []

theorem expansionOf_spec (sets : OptionSets) (h : SetsOk sets) (a : Arg)
    (ha : a.option = .setGroups → ∃ vs, a.val = .list vs) :
    expansionOf sets a = .ok (insertedArgs sets a) := by
  by_cases hg : a.option = .setGroups
  · obtain ⟨vs, hv⟩ := ha hg
    obtain ⟨o, v⟩ := a
    simp at hg hv; subst hg hv
    cases hs : Dict.get? sets (Opt.toName .setGroups) with
    | none => simp [expansionOf, insertedArgs, iterVal, groupsArgs_spec sets h, hs]
    | some os =>
      have hm := Dict.mem_of_get? hs
      simp [expansionOf, insertedArgs, iterVal, groupsArgs_spec sets h, hs,
        optionSetArgs_spec os (h _ hm)]
  · obtain ⟨o, v⟩ := a
    simp at hg
    have hi : insertedArgs sets ⟨o, v⟩ = ((Dict.get? sets o.toName).map setArgs).getD [] := by
      cases o <;> simp_all [insertedArgs]
    rw [hi]
    cases hs : Dict.get? sets o.toName with
    | none => simp [expansionOf, hg, hs]
    | some os =>
      have hm := Dict.mem_of_get? hs
      simp [expansionOf, hg, hs, optionSetArgs_spec os (h _ hm)]

/-- `_translate` on present arguments. -/
def expand (sets : OptionSets) (l : List Arg) : List Arg :=
  l.flatMap fun a => a :: insertedArgs sets a

@[simp] theorem expand_nil (sets) : expand sets [] = [] := rfl
@[simp] theorem expand_append (sets l m) : expand sets (l ++ m) = expand sets l ++ expand sets m := by
  simp [expand]
theorem expand_cons (sets a l) : expand sets (a :: l) = a :: (insertedArgs sets a ++ expand sets l) := by
  simp [expand]

theorem translateArgs_spec (sets : OptionSets) (h : SetsOk sets) (l : List (Option Arg))
    (hl : WTyped (present l)) :
    ∃ r, translateArgs sets l = .ok r ∧ present r = expand sets (present l) := by
  induction l with
  | nil => exact ⟨[], rfl, rfl⟩
  | cons x l ih =>
    cases x with
    | none =>
      obtain ⟨r, h1, h2⟩ := ih hl
      exact ⟨r, by simpa [translateArgs] using h1, by simpa using h2⟩
    | some a =>
      rw [present_some] at hl
      obtain ⟨r, h1, h2⟩ := ih hl.of_cons
      have he := expansionOf_spec sets h a (hl.2 a (by simp))
      refine ⟨some a :: (insertedArgs sets a).map some ++ r, by simp [translateArgs, he, h1], ?_⟩
      simp [present_append, h2, expand_cons]

theorem mem_setArgs {os a} (h : a ∈ setArgs os) :
    (a.option = .pylint ∨ a.option = .flake8) ∧ ∃ v, a.val = .list [v] := by
  simp only [setArgs, List.mem_flatMap] at h
  obtain ⟨q, _, hq⟩ := h
  obtain ⟨l, vals⟩ := q
  cases l <;> simp at hq
  · obtain ⟨v, _, rfl⟩ := hq; exact ⟨Or.inl rfl, v, rfl⟩
  · obtain ⟨v, _, rfl⟩ := hq; exact ⟨Or.inr rfl, v, rfl⟩

theorem mem_insertedArgs {sets b a} (h : a ∈ insertedArgs sets b) :
    (a.option = .pylint ∨ a.option = .flake8) ∧ ∃ v, a.val = .list [v] := by
  have key : ∀ g, a ∈ ((Dict.get? sets g).map setArgs).getD [] →
      (a.option = .pylint ∨ a.option = .flake8) ∧ ∃ v, a.val = .list [v] := by
    intro g hg
    cases hs : Dict.get? sets g with
    | none => simp [hs] at hg
    | some os => simp [hs] at hg; exact mem_setArgs hg
  simp only [insertedArgs, List.mem_append] at h
  rcases h with h | h
  · split at h
    · simp only [groupArgs, List.mem_flatMap] at h
      obtain ⟨g, _, hg⟩ := h
      exact key g hg
    · simp at h
  · exact key _ h

theorem wtyped_inserted (sets a) : WTyped (insertedArgs sets a) := by
  constructor
  · intro b hb _
    obtain ⟨v, hv⟩ := (mem_insertedArgs hb).2; exact ⟨_, hv⟩
  · intro b hb ho
    rcases (mem_insertedArgs hb).1 with h | h <;> rw [h] at ho <;> simp at ho

theorem wtyped_expand {l} (sets) (h : WTyped l) : WTyped (expand sets l) := by
  induction l with
  | nil => exact wtyped_nil
  | cons a l ih =>
    rw [expand_cons]
    have h1 : WTyped [a] := h.sub (by simp)
    exact h1.append ((wtyped_inserted sets a).append (ih h.of_cons))

theorem valsOf_inserted_replace {o} (h : isReplace o = true) (sets a) :
    valsOf o (insertedArgs sets a) = [] := by
  rw [valsOf_eq_nil]
  intro hm
  obtain ⟨b, hb, rfl⟩ := List.mem_map.1 hm
  rcases (mem_insertedArgs hb).1 with h' | h' <;> rw [h'] at h <;> simp [isReplace, optionParse] at h

theorem valsOf_expand_replace {o} (h : isReplace o = true) (sets l) :
    valsOf o (expand sets l) = valsOf o l := by
  induction l with
  | nil => rfl
  | cons a l ih =>
    rw [expand_cons, valsOf_cons, valsOf_append, valsOf_inserted_replace h, ih, valsOf_cons]; simp

/-! ### Complete combination -/

/-- Combination of all values given for an option. -/
def combineAll (c : Combine) : List Val → Option Val
  | [] => none
  | v :: vs => some (vs.foldl (combineVal c) v)

theorem combineAll_snoc (c : Combine) (vs : List Val) (w : Val) :
    combineAll c (vs ++ [w]) = some (match combineAll c vs with
      | none => w
      | some v => combineVal c v w) := by
  cases vs with
  | nil => rfl
  | cons v vs => simp [combineAll]

theorem combineAll_replace (vs : List Val) : combineAll .replace vs = vs.getLast? := by
  induction vs using List.reverseRecOn with
  | nil => rfl
  | append_singleton vs w _ =>
    rw [combineAll_snoc]
    cases combineAll .replace vs <;> simp [combineVal]

/-- The strings of list values. -/
def listItems : Val → List Str
  | .list l => l
  | _ => []

theorem combineAll_extend (vs : List Val) (h : ∀ v ∈ vs, ∃ l, v = .list l) (hne : vs ≠ []) :
    combineAll .extend vs = some (.list (vs.flatMap listItems)) := by
  induction vs using List.reverseRecOn with
  | nil => exact absurd rfl hne
  | append_singleton vs w ih =>
    obtain ⟨lw, rfl⟩ := h w (by simp)
    rw [combineAll_snoc]
    by_cases hv : vs = []
    · subst hv; simp [combineAll, listItems]
    · rw [ih (fun v hv => h v (by simp [hv])) hv]
      simp [combineVal, listItems]

/-- Each option occurs at most once. -/
def OptsNodup (l : List Arg) : Prop := (l.map (·.option)).Nodup

theorem mem_both (c : Combine) : c ∈ [Combine.replace, Combine.extend] := by cases c <;> simp

theorem collapseStep_both (acc : List Arg) (a : Arg) (_hu : OptsNodup acc) (o : Opt) :
    valsOf o (collapseStep [.replace, .extend] acc a) =
      if o = a.option then [match (valsOf o acc).head? with
        | none => a.val
        | some v => combineVal (optionParse o).combine v a.val]
      else valsOf o acc := by
  have hhead : ∀ l : List Arg, (valsOf a.option l).head? = (l.find? fun b => decide (b.option = a.option)).map (·.val) := by
    intro l
    induction l with
    | nil => rfl
    | cons b l ih =>
      by_cases hb : b.option = a.option
      · simp [valsOf_cons, hb]
      · simp only [valsOf_cons, hb, if_false, ih]; simp [hb]
  simp only [collapseStep, if_pos (mem_both _)]
  by_cases ho : o = a.option
  · subst ho
    rw [if_pos rfl, hhead]
    cases hf : acc.find? (fun b => decide (b.option = a.option)) with
    | none =>
      have : valsOf a.option acc = [] := by
        rw [valsOf_eq_nil]; intro hm
        obtain ⟨b, hb, hbo⟩ := List.mem_map.1 hm
        have := List.find?_eq_none.1 hf b hb
        simp [hbo] at this
      simp [this, valsOf_cons]
    | some old =>
      have : valsOf a.option (acc.filter fun b => b.option ≠ a.option) = [] := by
        rw [valsOf_eq_nil]; intro hm
        obtain ⟨b, hb, hbo⟩ := List.mem_map.1 hm
        simp at hb
        exact hb.2 hbo
      simp only [valsOf_append, this]; simp [valsOf_cons]
  · rw [if_neg ho]
    have ho' : ¬ a.option = o := fun x => ho x.symm
    cases hf : acc.find? (fun b => decide (b.option = a.option)) with
    | none => simp [valsOf_cons, ho']
    | some old =>
      simp only [valsOf_append]
      rw [valsOf_filter_ne]
      · simp [valsOf_cons, ho']
      · intro b _ hb; simp [hb, ho]

theorem valsOf_length_of_nodup {l : List Arg} (h : OptsNodup l) (o) : (valsOf o l).length ≤ 1 := by
  induction l with
  | nil => simp
  | cons a l ih =>
    simp only [OptsNodup, List.map_cons, List.nodup_cons] at h
    rw [valsOf_cons]
    by_cases ha : a.option = o
    · subst ha
      have : valsOf a.option l = [] := valsOf_eq_nil.2 h.1
      simp [this]
    · simp [ha, ih h.2]

theorem collapseStep_nodup (acc : List Arg) (a : Arg) (hu : OptsNodup acc) :
    OptsNodup (collapseStep [.replace, .extend] acc a) := by
  simp only [collapseStep, if_pos (mem_both _)]
  cases hf : acc.find? (fun b => decide (b.option = a.option)) with
  | none =>
    simp only [OptsNodup, List.map_append, List.nodup_append, List.map_cons, List.map_nil]
    refine ⟨hu, by simp, ?_⟩
    intro x hx y hy
    simp at hy; subst hy
    obtain ⟨b, hb, rfl⟩ := List.mem_map.1 hx
    have := List.find?_eq_none.1 hf b hb
    simpa using this
  | some old =>
    simp only [OptsNodup, List.map_append, List.nodup_append, List.map_cons, List.map_nil]
    refine ⟨hu.sublist (List.filter_sublist.map _), by simp, ?_⟩
    intro x hx y hy
    simp at hy; subst hy
    obtain ⟨b, hb, rfl⟩ := List.mem_map.1 hx
    simp at hb
    exact hb.2

theorem collapse_both_aux (l : List Arg) : OptsNodup (collapse [.replace, .extend] l) ∧
    ∀ o, valsOf o (collapse [.replace, .extend] l)
      = (combineAll (optionParse o).combine (valsOf o l)).toList := by
  induction l using List.reverseRecOn with
  | nil => exact ⟨by simp [OptsNodup, collapse], fun o => rfl⟩
  | append_singleton l a ih =>
    have hc : collapse [.replace, .extend] (l ++ [a]) =
        collapseStep [.replace, .extend] (collapse [.replace, .extend] l) a := by
      simp [collapse]
    rw [hc]
    refine ⟨collapseStep_nodup _ _ ih.1, ?_⟩
    intro o
    rw [collapseStep_both _ _ ih.1, ih.2 o, valsOf_append, valsOf_cons]
    by_cases ho : o = a.option
    · subst ho
      simp only [if_true, valsOf_nil, combineAll_snoc]
      cases combineAll (optionParse a.option).combine (valsOf a.option l) <;> rfl
    · have ho' : ¬ a.option = o := fun x => ho x.symm
      simp [ho, ho']

/-! ### Ordered arguments -/

/-- The value stored for a combined argument. -/
def storedVal (o : Opt) (v : Val) : Val :=
  match o, v with
  | .pylint, .list l => .list (resolveEnableDisableAll l)
  | _, v => v

theorem toNat_inj {a b : Opt} (h : a.toNat = b.toNat) : a = b := by
  cases a <;> cases b <;> simp [Opt.toNat] at h <;> rfl

theorem toNat_lt (o : Opt) : o.toNat < 10 := by cases o <;> simp [Opt.toNat]

theorem fillOrdered_spec (l : List (Option Arg)) : ∀ acc : List Arg, acc.length = 10 →
    WTyped (present l) →
    ∃ r, fillOrdered l acc = .ok r ∧ r.length = 10 ∧
      ∀ o : Opt, (r[o.toNat]?).map (·.val) =
        match (valsOf o (present l)).getLast? with
        | some v => some (storedVal o v)
        | none => (acc[o.toNat]?).map (·.val) := by
  induction l with
  | nil => intro acc h _; exact ⟨acc, rfl, h, fun o => rfl⟩
  | cons x l ih =>
    intro acc hacc hwt
    cases x with
    | none => exact ih acc hacc hwt
    | some a =>
      rw [present_some] at hwt
      obtain ⟨ao, av⟩ := a
      have hstep : fillOrdered (some ⟨ao, av⟩ :: l) acc
          = fillOrdered l (acc.set ao.toNat ⟨ao, storedVal ao av⟩) := by
        by_cases hp : ao = .pylint
        · subst hp
          obtain ⟨vs, hv⟩ := hwt.1 ⟨.pylint, av⟩ (by simp) (by rfl)
          simp at hv; subst hv
          simp [fillOrdered, storedVal]
        · have : storedVal ao av = av := by cases ao <;> simp_all [storedVal]
          simp [fillOrdered, hp, this]
      obtain ⟨r, h1, h2, h3⟩ := ih (acc.set ao.toNat ⟨ao, storedVal ao av⟩) (by simpa using hacc) hwt.of_cons
      refine ⟨r, by rw [hstep]; exact h1, h2, ?_⟩
      intro o
      rw [h3 o, present_some, valsOf_cons]
      by_cases ho : ao = o
      · subst ho
        simp only [if_true]
        rw [List.getLast?_cons]
        cases hl : (valsOf ao (present l)).getLast? with
        | some v => simp
        | none =>
          have := toNat_lt ao
          simp [hacc, this]
      · have hne : ao.toNat ≠ o.toNat := fun x => ho (toNat_inj x)
        simp only [if_neg ho]
        cases hl : (valsOf o (present l)).getLast? with
        | some v => rfl
        | none => simp [List.getElem?_set_ne hne]

theorem readOrdered_spec (ordered : List Arg) (f : Opt → Val)
    (h : ∀ o : Opt, (ordered[o.toNat]?).map (·.val) = some (f o)) (os : List Opt) :
    readOrdered ordered os = .ok (os.map fun o => ⟨o, f o⟩) := by
  induction os with
  | nil => rfl
  | cons o os ih =>
    have ho := h o
    cases hx : ordered[o.toNat]? with
    | none => simp [hx] at ho
    | some a =>
      simp [hx] at ho
      simp [readOrdered, hx, ih, ho]

/-- The value of an option in force, as a function of all arguments (after expansion of groups). -/
def inForce (o : Opt) (l : List Arg) : Val :=
  match combineAll (optionParse o).combine (valsOf o l) with
  | some v => storedVal o v
  | none => (optionParse o).default

theorem defaults_getElem (o : Opt) :
    ((Opt.all.map fun o => Arg.mk o (optionParse o).default)[o.toNat]?).map (·.val)
      = some (optionParse o).default := by
  cases o <;> rfl

theorem enablersOfSets_go_ok (name : Str) (os : OptionSet) (h : ∀ q ∈ os, q.1 ≠ Linter.edulint) :
    ∀ acc, ∃ e, enablersOfSets.go name os acc = .ok e := by
  induction os with
  | nil => intro acc; exact ⟨acc, rfl⟩
  | cons q rest ih =>
    intro acc
    obtain ⟨l, vals⟩ := q
    have hl := h (l, vals) (by simp)
    have ih := ih fun q hq => h q (List.mem_cons_of_mem _ hq)
    cases vals with
    | nil => simpa [enablersOfSets.go] using ih acc
    | cons v vs =>
      cases l with
      | edulint => simp at hl
      | pylint => simp only [enablersOfSets.go, toOption_pylint]; exact ih _
      | flake8 => simp only [enablersOfSets.go, toOption_flake8]; exact ih _

theorem enablersOfSets_ok (sets : OptionSets) (h : SetsOk sets) :
    ∀ acc, ∃ e, enablersOfSets sets acc = .ok e := by
  induction sets with
  | nil => intro acc; exact ⟨acc, rfl⟩
  | cons p rest ih =>
    intro acc
    obtain ⟨name, os⟩ := p
    obtain ⟨e, he⟩ := enablersOfSets_go_ok name os (h (name, os) (by simp)) acc
    obtain ⟨e', he'⟩ := ih (fun p hp => h p (List.mem_cons_of_mem _ hp)) e
    exact ⟨e', by simp [enablersOfSets, he, he']⟩

/-- `to_immutable` never fails on configurations the code builds, and this is its result. -/
theorem toImmutable_spec (c : Config) (sets : OptionSets) (hs : SetsOk sets)
    (hc : WTyped (present c.config)) :
    ∃ en, enablersOfSets sets [] = .ok en ∧
      c.toImmutable sets = .ok ⟨Opt.all.map fun o => ⟨o, inForce o (expand sets (present c.config))⟩,
        Dict.merge en c.enablers⟩ := by
  obtain ⟨tr, ht1, ht2⟩ := translateArgs_spec sets hs c.config hc
  have htw : WTyped (present tr) := by rw [ht2]; exact wtyped_expand sets hc
  obtain ⟨cb, hc1, hc2⟩ := combineArgs_spec (allowed := [.replace, .extend]) tr htw.1
  obtain ⟨hnd, hvals⟩ := collapse_both_aux (present tr)
  have hcw : WTyped (present cb) := by
    constructor
    · intro a ha hx
      have hv : a.val ∈ valsOf a.option (present cb) := by
        simp [valsOf]; exact ⟨a, ⟨ha, rfl⟩, rfl⟩
      rw [hc2, hvals, hx] at hv
      simp at hv
      by_cases hne : valsOf a.option (present tr) = []
      · simp [hne, combineAll] at hv
      · rw [combineAll_extend _ _ hne] at hv
        · simp at hv; exact ⟨_, hv.symm⟩
        · intro v hv
          simp only [valsOf, List.mem_map, List.mem_filter] at hv
          obtain ⟨b, ⟨hb1, hb2⟩, rfl⟩ := hv
          simp at hb2
          exact htw.1 b hb1 (by rw [hb2]; exact hx)
    · intro a ha hx
      have hv : a.val ∈ valsOf a.option (present cb) := by
        simp [valsOf]; exact ⟨a, ⟨ha, rfl⟩, rfl⟩
      rw [hc2, hvals, hx] at hv
      simp [optionParse, combineAll_replace] at hv
      have := List.mem_of_getLast? hv
      simp only [valsOf, List.mem_map, List.mem_filter] at this
      obtain ⟨b, ⟨hb1, hb2⟩, hb3⟩ := this
      simp at hb2
      rw [← hb3]
      exact htw.2 b hb1 hb2
  obtain ⟨ord, ho1, _, ho3⟩ := fillOrdered_spec cb
    (Opt.all.map fun o => ⟨o, (optionParse o).default⟩) (by rfl) hcw
  obtain ⟨en, hen⟩ := enablersOfSets_ok sets hs []
  refine ⟨en, hen, ?_⟩
  have hf : ∀ o : Opt, (ord[o.toNat]?).map (·.val) = some (inForce o (expand sets (present c.config))) := by
    intro o
    rw [ho3 o, hc2, hvals, ht2, inForce]
    cases combineAll (optionParse o).combine (valsOf o (expand sets (present c.config))) with
    | none => simpa using defaults_getElem o
    | some v => simp
  have hr := readOrdered_spec ord _ hf Opt.all
  simp only [Config.toImmutable, ht1, hc1, ho1, hen, hr]

end Verif

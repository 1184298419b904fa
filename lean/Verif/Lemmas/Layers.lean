import Verif.Lemmas.Immutable

/-!
Auxiliary lemmas: layers of arguments are equivalent to one list of arguments; resolution of
`--enable`/`--disable` arguments.
-/

namespace Verif

theorem dropOverridden_drop_left (x y : List Arg) :
    dropOverridden (dropOverridden x ++ y) = dropOverridden (x ++ y) := by
  rw [dropOverridden_append, dropOverridden_append x y, dropOverridden_idem]

theorem dropOverridden_drop_right (x y : List Arg) :
    dropOverridden (x ++ dropOverridden y) = dropOverridden (x ++ y) := by
  rw [dropOverridden_append, dropOverridden_append x y, dropOverridden_idem]
  congr 1
  apply List.filter_congr
  intro b _
  simp only [mem_options_dropOverridden]

/-- All arguments of a chain of files, base first. -/
def chainArgs (files : List (Str × List RawArg)) : List RawArg := files.flatMap (·.2)

theorem chain_fold (files : List (Str × List RawArg)) : ∀ (start : Config) (raw : List RawArg),
    present start.config = dropOverridden (raw.map convertArg) →
    ∃ c, files.foldlM (fun base f =>
        match mkConfig (some f.1) f.2 with
        | .error e => .error e
        | .ok this => Config.combine base this) start = Except.ok c ∧
      present c.config = dropOverridden ((raw ++ chainArgs files).map convertArg) := by
  induction files with
  | nil => intro start raw h; exact ⟨start, rfl, by simpa [chainArgs] using h⟩
  | cons f files ih =>
    intro start raw h
    obtain ⟨c1, h1, h2, _⟩ := mkConfig_spec (some f.1) f.2
    obtain ⟨c2, h3, h4, _⟩ := combine_spec start c1
      (by rw [h]; exact wtyped_dropOverridden (wtyped_convert _))
      (by rw [h2]; exact wtyped_dropOverridden (wtyped_convert _))
    have h5 : present c2.config = dropOverridden ((raw ++ f.2).map convertArg) := by
      rw [h4, h, h2, dropOverridden_append_drop, List.map_append]
    obtain ⟨c, h6, h7⟩ := ih c2 (raw ++ f.2) h5
    refine ⟨c, ?_, by rw [h7]; simp [chainArgs]⟩
    simp only [List.foldlM_cons, h1, h3]
    exact h6

theorem chainConfig_spec (files : List (Str × List RawArg)) :
    ∃ c, chainConfig files = .ok c ∧
      present c.config = dropOverridden ((chainArgs files).map convertArg) := by
  obtain ⟨c0, h1, h2, _⟩ := mkConfig_spec none []
  obtain ⟨c, h3, h4⟩ := chain_fold files c0 [] h2
  refine ⟨c, ?_, by simpa using h4⟩
  simp only [chainConfig, h1]
  exact h3

/-- The effective configuration of one list of arguments. -/
def effOfArgs (sets : OptionSets) (raw : List RawArg) : List Arg :=
  Opt.all.map fun o => ⟨o, inForce o (expand sets (dropOverridden (raw.map convertArg)))⟩

theorem layeredConfig_spec (files : List (Str × List RawArg)) (infile cmd : List RawArg)
    (sets : OptionSets) (hs : SetsOk sets) :
    ∃ ic, layeredConfig files infile cmd sets = .ok ic ∧
      ic.config = effOfArgs sets (chainArgs files ++ infile ++ cmd) := by
  obtain ⟨cf, hf1, hf2⟩ := chainConfig_spec files
  obtain ⟨ci, hi1, hi2, _⟩ := mkConfig_spec (some "in-file".toList) infile
  obtain ⟨cc, hc1, hc2, _⟩ := mkConfig_spec (some "cmd".toList) cmd
  have w : ∀ r : List RawArg, WTyped (dropOverridden (r.map convertArg)) :=
    fun r => wtyped_dropOverridden (wtyped_convert r)
  obtain ⟨cb, hb1, hb2, _⟩ := combine_spec ci cc (by rw [hi2]; exact w _) (by rw [hc2]; exact w _)
  have hbw : WTyped (present cb.config) := by
    rw [hb2, hi2, hc2]; exact wtyped_dropOverridden ((w _).append (w _))
  obtain ⟨c, h1, h2, _⟩ := combine_spec cf cb (by rw [hf2]; exact w _) hbw
  have h3 : present c.config = dropOverridden ((chainArgs files ++ infile ++ cmd).map convertArg) := by
    rw [hi2, hc2, dropOverridden_append_drop] at hb2
    rw [h2, hf2, hb2, dropOverridden_append_drop, List.append_assoc, List.map_append, List.map_append]
  have hw : WTyped (present c.config) := by rw [h3]; exact w _
  obtain ⟨en, _, h5⟩ := toImmutable_spec c sets hs hw
  refine ⟨_, by simp only [layeredConfig, hf1, hi1, hc1, hb1, h1]; exact h5, ?_⟩
  simp only [effOfArgs, h3]

theorem getItem_map (f : Opt → Val) (en) (o : Opt) :
    ImmutableConfig.getItem ⟨Opt.all.map fun o => ⟨o, f o⟩, en⟩ o = .ok (f o) := by
  cases o <;> rfl

theorem inForce_replace {o : Opt} (h : isReplace o = true) (sets : OptionSets) (l : List Arg) :
    inForce o (expand sets (dropOverridden l)) = (valsOf o l).getLast?.getD (optionParse o).default := by
  have hc : (optionParse o).combine = .replace := by simpa [isReplace] using h
  rw [inForce, hc, combineAll_replace, valsOf_expand_replace h, valsOf_dropOverridden_replace _ h]
  have hp : o ≠ .pylint := by intro hp; subst hp; simp [isReplace, optionParse] at h
  have hst : ∀ v, storedVal o v = v := by intro v; cases o <;> simp_all [storedVal]
  cases (valsOf o l).getLast? with
  | none => rfl
  | some v => simp [hst]

theorem flatMap_listItems_convert (o : Opt) (hl : (optionParse o).type = .list) (raw : List RawArg) :
    (valsOf o (raw.map convertArg)).flatMap listItems
      = (raw.filter fun a => a.option = o).flatMap fun a => a.val.toList := by
  induction raw with
  | nil => rfl
  | cons a raw ih =>
    rw [List.map_cons, valsOf_cons]
    by_cases h : a.option = o
    · have hv : listItems (convertArg a).val = a.val.toList := by
        simp only [convertArg, h, hl, OptType.convert, listItems]
        cases a.val <;> rfl
      have h' : (convertArg a).option = o := h
      simp only [h', if_true, List.flatMap_cons, ih, hv, List.filter_cons, h, decide_true]
    · have h' : ¬ (convertArg a).option = o := h
      simp only [h', if_false, ih, List.filter_cons, h, decide_false]
      simp

theorem inForce_extend {o : Opt} (h : (optionParse o).combine = .extend) (l : List Arg) (hw : WTyped l) :
    inForce o l = storedVal o (.list ((valsOf o l).flatMap listItems)) := by
  rw [inForce, h]
  by_cases hne : valsOf o l = []
  · rw [hne]
    cases o <;> simp [optionParse] at h <;> rfl
  · rw [combineAll_extend _ _ hne]
    intro v hv
    simp only [valsOf, List.mem_map, List.mem_filter] at hv
    obtain ⟨b, ⟨hb1, hb2⟩, rfl⟩ := hv
    simp at hb2
    exact hw.1 b hb1 (by rw [hb2]; exact h)

end Verif

import Verif.Lemmas.Resolve

/-!
Property theorems about option layering: C01 – C07 and C11.
-/

namespace Verif

/-! ### C01 Configuration source precedence -/

/-- The last value written for an option in a list of written options. -/
def lastGiven (o : Opt) : List RawArg → Option (Option Str)
  | [] => none
  | a :: rest =>
    match lastGiven o rest with
    | some v => some v
    | none => if a.option = o then some a.val else none

/-- The last value written for an option in a chain of files given base first: the file that extends
all the others is looked at first. -/
def lastInChain (o : Opt) : List (Str × List RawArg) → Option (Option Str)
  | [] => none
  | f :: rest =>
    match lastInChain o rest with
    | some v => some v
    | none => lastGiven o f.2

/-- The documented precedence: command line, then the linted file, then the configuration files,
then the default. -/
def documentedValue (o : Opt) (files : List (Str × List RawArg)) (infile cmd : List RawArg) : Val :=
  match lastGiven o cmd, lastGiven o infile, lastInChain o files with
  | some v, _, _ => (optionParse o).type.convert v
  | none, some v, _ => (optionParse o).type.convert v
  | none, none, some v => (optionParse o).type.convert v
  | none, none, none => (optionParse o).default

theorem getLast?_valsOf_convert (o : Opt) (raw : List RawArg) :
    (valsOf o (raw.map convertArg)).getLast?
      = (lastGiven o raw).map (optionParse o).type.convert := by
  induction raw with
  | nil => rfl
  | cons a raw ih =>
    rw [List.map_cons, valsOf_cons, lastGiven]
    by_cases h : a.option = o
    · have h' : (convertArg a).option = o := h
      rw [if_pos h', List.getLast?_cons, ih]
      cases lastGiven o raw with
      | none => simp [h, convertArg]
      | some v => simp
    · have h' : ¬ (convertArg a).option = o := h
      rw [if_neg h', ih]
      cases lastGiven o raw with
      | none => simp [h]
      | some v => simp

theorem lastGiven_append (o : Opt) (l m : List RawArg) :
    lastGiven o (l ++ m) = (lastGiven o m).or (lastGiven o l) := by
  induction l with
  | nil => simp [lastGiven]
  | cons a l ih =>
    simp only [List.cons_append, lastGiven, ih]
    cases lastGiven o m <;> simp

theorem lastGiven_chainArgs (o : Opt) (files) : lastGiven o (chainArgs files) = lastInChain o files := by
  induction files with
  | nil => rfl
  | cons f files ih =>
    have : chainArgs (f :: files) = f.2 ++ chainArgs files := rfl
    rw [this, lastGiven_append, ih, lastInChain]
    cases lastInChain o files <;> simp

/-- **C01.** For every option of the replacing kind, whatever the chain of configuration files, the
in-file options, the command line and the option groups: building the effective configuration
succeeds and the value in force is the documented one. -/
theorem C01_source_precedence (files : List (Str × List RawArg)) (infile cmd : List RawArg)
    (sets : OptionSets) (hs : SetsOk sets) :
    ∃ ic, layeredConfig files infile cmd sets = .ok ic ∧
      ∀ o, (optionParse o).combine = .replace →
        ic.getItem o = .ok (documentedValue o files infile cmd) := by
  obtain ⟨ic, h1, h2⟩ := layeredConfig_spec files infile cmd sets hs
  refine ⟨ic, h1, ?_⟩
  intro o ho
  have hr : isReplace o = true := by simp [isReplace, ho]
  obtain ⟨cfg, en⟩ := ic
  simp only at h2
  subst h2
  rw [effOfArgs, getItem_map, inForce_replace hr, getLast?_valsOf_convert]
  simp only [lastGiven_append, lastGiven_chainArgs, documentedValue]
  cases lastGiven o cmd <;> cases lastGiven o infile <;> cases lastInChain o files <;> simp

-- Non-vacuity: two files, an in-file option and a command line option that all set something.
example :
    let files : List (Str × List RawArg) :=
      [("base".toList, [⟨.languageFile, some "a".toList⟩, ⟨.allowedOnecharNames, some "xy".toList⟩]),
       ("top".toList, [⟨.languageFile, some "b".toList⟩])]
    let infile : List RawArg := [⟨.allowedOnecharNames, some "z".toList⟩, ⟨.noFlake8, none⟩]
    let cmd : List RawArg := [⟨.pylint, some "--enable=x".toList⟩]
    let sets : OptionSets := [("g".toList, [(.pylint, ["--disable=all".toList])])]
    SetsOk sets ∧
    documentedValue .languageFile files infile cmd = .str "b".toList ∧
    documentedValue .allowedOnecharNames files infile cmd = .str "z".toList ∧
    documentedValue .noFlake8 files infile cmd = .bool true ∧
    documentedValue .exportGroups files infile cmd = .list [] := by
  refine ⟨?_, by decide, by decide, by decide, by decide⟩
  intro p hp q hq
  simp at hp; subst hp; simp at hq; subst hq; decide

/-! ### C02 Linter arguments accumulate in order -/

/-- All strings written for an option, in the order written. -/
def written (o : Opt) (raw : List RawArg) : List Str :=
  raw.flatMap fun a => if a.option = o then a.val.toList else []

theorem written_eq (o : Opt) (raw : List RawArg) :
    (raw.filter fun a => a.option = o).flatMap (fun a => a.val.toList) = written o raw := by
  induction raw with
  | nil => rfl
  | cons a raw ih =>
    by_cases h : a.option = o <;> simp [written, h] at ih ⊢
    · rw [ih]
    · exact ih

theorem expand_noSets (l : List Arg) : expand [] l = l := by
  have hi : ∀ a, insertedArgs [] a = [] := by
    intro a
    obtain ⟨o, v⟩ := a
    cases o <;> simp [insertedArgs, Dict.get?]
    cases v <;> simp [groupArgs, Dict.get?]
  induction l with
  | nil => rfl
  | cons a l ih => rw [expand_cons, ih, hi]; rfl

theorem written_append (o l m) : written o (l ++ m) = written o l ++ written o m := by
  simp [written]

theorem written_chainArgs (o : Opt) (files : List (Str × List RawArg)) :
    written o (chainArgs files) = files.flatMap fun f => written o f.2 := by
  induction files with
  | nil => rfl
  | cons f files ih =>
    have : chainArgs (f :: files) = f.2 ++ chainArgs files := rfl
    rw [this, written_append, ih]; rfl

/-- **C02.** Without option groups, the arguments in force for flake8 are exactly those written in the
configuration files (base first), then in the file, then on the command line; the arguments for pylint
are the same concatenation after the resolution of `--enable`/`--disable` (see C05 and C06). -/
theorem C02_linter_args_accumulate (files : List (Str × List RawArg)) (infile cmd : List RawArg) :
    ∃ ic, layeredConfig files infile cmd [] = .ok ic ∧
      ic.getItem .flake8 = .ok (.list
        (files.flatMap (fun f => written .flake8 f.2) ++ written .flake8 infile ++ written .flake8 cmd)) ∧
      ic.getItem .pylint = .ok (.list (resolveEnableDisableAll
        (files.flatMap (fun f => written .pylint f.2) ++ written .pylint infile ++ written .pylint cmd))) := by
  obtain ⟨ic, h1, h2⟩ := layeredConfig_spec files infile cmd [] (fun _ h => by simp at h)
  refine ⟨ic, h1, ?_⟩
  obtain ⟨cfg, en⟩ := ic
  simp only at h2
  subst h2
  have key : ∀ o, (optionParse o).combine = .extend → (optionParse o).type = .list →
      inForce o (expand [] (dropOverridden ((chainArgs files ++ infile ++ cmd).map convertArg)))
      = storedVal o (.list (files.flatMap (fun f => written o f.2) ++ written o infile ++ written o cmd)) := by
    intro o h3 h4
    rw [expand_noSets, inForce_extend h3 _ (wtyped_dropOverridden (wtyped_convert _)),
      valsOf_dropOverridden_extend _ (by simp [isReplace, h3]), flatMap_listItems_convert o h4, written_eq,
      written_append, written_append, written_chainArgs]
  constructor
  · rw [effOfArgs, getItem_map, key .flake8 rfl rfl]; rfl
  · rw [effOfArgs, getItem_map, key .pylint rfl rfl]; rfl

theorem sublist_valsOf_expand (o : Opt) (sets : OptionSets) (l : List Arg) :
    ((valsOf o l).flatMap listItems).Sublist ((valsOf o (expand sets l)).flatMap listItems) := by
  induction l with
  | nil => simp
  | cons a l ih =>
    rw [expand_cons, valsOf_cons, valsOf_cons, valsOf_append]
    by_cases h : a.option = o
    · simp only [h, if_true, List.flatMap_cons, List.flatMap_append]
      exact List.Sublist.append (List.Sublist.refl _) (ih.trans (List.sublist_append_right _ _))
    · simp only [h, if_false, List.flatMap_append]
      exact ih.trans (List.sublist_append_right _ _)

/-- **C02**, with arbitrary option groups: no written flake8 argument is lost or reordered; the groups
only add arguments between them. -/
theorem C02_linter_args_kept_with_groups (files : List (Str × List RawArg)) (infile cmd : List RawArg)
    (sets : OptionSets) (hs : SetsOk sets) :
    ∃ ic args, layeredConfig files infile cmd sets = .ok ic ∧ ic.getItem .flake8 = .ok (.list args) ∧
      (files.flatMap (fun f => written .flake8 f.2) ++ written .flake8 infile ++ written .flake8 cmd).Sublist args := by
  obtain ⟨ic, h1, h2⟩ := layeredConfig_spec files infile cmd sets hs
  obtain ⟨cfg, en⟩ := ic
  simp only at h2
  subst h2
  refine ⟨_, _, h1, by rw [effOfArgs, getItem_map, inForce_extend rfl _ (wtyped_expand sets (wtyped_dropOverridden (wtyped_convert _)))]; rfl, ?_⟩
  refine List.Sublist.trans ?_ (sublist_valsOf_expand .flake8 sets _)
  rw [valsOf_dropOverridden_extend _ (by rfl), flatMap_listItems_convert _ rfl, written_eq,
      written_append, written_append, written_chainArgs]
  exact List.Sublist.refl _

example : (layeredConfig [("f".toList, [⟨.flake8, some "--a".toList⟩])] [⟨.flake8, some "--b".toList⟩]
    [⟨.flake8, some "--a".toList⟩] []).toOption.map (fun ic => (ic.getItem .flake8).toOption)
    = some (some (.list ["--a".toList, "--b".toList, "--a".toList])) := by decide

/-! ### C03 Layering is associative with the empty configuration neutral -/

/-- The configurations the program builds. -/
inductive Built : Config → Prop
  | make {enabler raw c} : mkConfig enabler raw = .ok c → Built c
  | combine {lt rt c} : Built lt → Built rt → Config.combine lt rt = .ok c → Built c

theorem Built.ok {c : Config} (h : Built c) : WTyped (present c.config) ∧ (Dict.keys c.enablers).Nodup := by
  induction h with
  | @make enabler raw c h =>
    obtain ⟨c', h1, h2, h3⟩ := mkConfig_spec enabler raw
    rw [h] at h1; cases h1
    exact ⟨by rw [h2]; exact wtyped_dropOverridden (wtyped_convert _), by rw [h3]; exact nodup_enablersOf _ _⟩
  | combine _ _ h ih1 ih2 =>
    obtain ⟨c', h1, h2, h3⟩ := combine_spec _ _ ih1.1 ih2.1
    rw [h] at h1; cases h1
    refine ⟨by rw [h2]; exact wtyped_dropOverridden (ih1.1.append ih2.1), ?_⟩
    rw [h3]; exact Dict.nodup_keys_merge _ _ ih1.2

/-- Two effective configurations are the same: equal values, and equal enablers as dictionaries (the
order of dictionary entries does not matter, as in Python's `==`). -/
def SameEffective (a b : ImmutableConfig) : Prop :=
  a.config = b.config ∧ ∀ k, Dict.get? a.enablers k = Dict.get? b.enablers k

/-- Two configurations have the same effective configuration under every table of option groups. -/
def SameConfig (a b : Config) : Prop :=
  ∀ sets, SetsOk sets → ∃ x y, a.toImmutable sets = .ok x ∧ b.toImmutable sets = .ok y ∧ SameEffective x y

theorem sameConfig_of {a b : Config} (ha : WTyped (present a.config)) (hb : WTyped (present b.config))
    (hna : (Dict.keys a.enablers).Nodup) (hnb : (Dict.keys b.enablers).Nodup)
    (h : dropOverridden (present a.config) = dropOverridden (present b.config) ∧
      (∀ o, valsOf o (present a.config) = valsOf o (present b.config)) ∧
      (∀ sets o, valsOf o (expand sets (present a.config)) = valsOf o (expand sets (present b.config))))
    (he : ∀ k, Dict.get? a.enablers k = Dict.get? b.enablers k) : SameConfig a b := by
  intro sets hs
  obtain ⟨en, he1, h1⟩ := toImmutable_spec a sets hs ha
  obtain ⟨en', he2, h2⟩ := toImmutable_spec b sets hs hb
  rw [he1] at he2; cases he2
  refine ⟨_, _, h1, h2, ?_, ?_⟩
  · simp only
    apply List.map_congr_left
    intro o _
    simp only [inForce, h.2.2 sets o]
  · intro k
    simp only
    rw [Dict.get?_merge_nodup _ _ hna, Dict.get?_merge_nodup _ _ hnb, he k]

/-- **C03** (associativity): however three built configurations are bracketed, the combination succeeds
and has the same effective configuration. -/
theorem C03_layering_assoc (a b c : Config) (ha : Built a) (hb : Built b) (hc : Built c) :
    ∃ ab bc ab_c a_bc, Config.combine a b = .ok ab ∧ Config.combine ab c = .ok ab_c ∧
      Config.combine b c = .ok bc ∧ Config.combine a bc = .ok a_bc ∧ SameConfig ab_c a_bc := by
  obtain ⟨wa, na⟩ := ha.ok
  obtain ⟨wb, nb⟩ := hb.ok
  obtain ⟨wc, nc⟩ := hc.ok
  obtain ⟨ab, hab1, hab2, hab3⟩ := combine_spec a b wa wb
  obtain ⟨wab, nab⟩ := (Built.combine ha hb hab1).ok
  obtain ⟨bc, hbc1, hbc2, hbc3⟩ := combine_spec b c wb wc
  obtain ⟨wbc, nbc⟩ := (Built.combine hb hc hbc1).ok
  obtain ⟨x, hx1, hx2, hx3⟩ := combine_spec ab c wab wc
  obtain ⟨y, hy1, hy2, hy3⟩ := combine_spec a bc wa wbc
  have hx := (Built.combine (Built.combine ha hb hab1) hc hx1).ok
  have hy := (Built.combine ha (Built.combine hb hc hbc1) hy1).ok
  refine ⟨ab, bc, x, y, hab1, hx1, hbc1, hy1, ?_⟩
  have hp : present x.config = present y.config := by
    rw [hx2, hy2, hab2, hbc2, dropOverridden_drop_left, dropOverridden_drop_right, List.append_assoc]
  apply sameConfig_of hx.1 hy.1 hx.2 hy.2
  · rw [hp]; exact ⟨rfl, fun _ => rfl, fun _ _ => rfl⟩
  · intro k
    rw [hx3, hy3, hab3, hbc3, Dict.get?_merge_nodup _ _ nc, Dict.get?_merge_nodup _ _ nb,
      Dict.get?_merge_nodup _ _ (Dict.nodup_keys_merge _ _ nb), Dict.get?_merge_nodup _ _ nc, Option.or_assoc]

/-- **C03** (neutrality): combining with the configuration of no options, on either side, changes nothing. -/
theorem C03_empty_neutral (a : Config) (ha : Built a) :
    ∃ e l r, mkConfig none [] = .ok e ∧ Config.combine e a = .ok l ∧ Config.combine a e = .ok r ∧
      SameConfig l a ∧ SameConfig r a := by
  obtain ⟨e, he1, he2, he3⟩ := mkConfig_spec none []
  have hen : e.enablers = [] := by rw [he3]; rfl
  have hep : present e.config = [] := by rw [he2]; rfl
  obtain ⟨wa, na⟩ := ha.ok
  obtain ⟨we, ne⟩ := (Built.make he1).ok
  obtain ⟨l, hl1, hl2, hl3⟩ := combine_spec e a we wa
  obtain ⟨r, hr1, hr2, hr3⟩ := combine_spec a e wa we
  have hl := (Built.combine (Built.make he1) ha hl1).ok
  have hr := (Built.combine ha (Built.make he1) hr1).ok
  -- a built configuration has no overridden arguments left
  have hda : dropOverridden (present a.config) = present a.config := by
    cases ha with
    | make h =>
      obtain ⟨c', h1, h2, _⟩ := mkConfig_spec _ _
      rw [h] at h1; cases h1
      rw [h2, dropOverridden_idem]
    | combine h1 h2 h =>
      obtain ⟨c', h3, h4, _⟩ := combine_spec _ _ h1.ok.1 h2.ok.1
      rw [h] at h3; cases h3
      rw [h4, dropOverridden_idem]
  refine ⟨e, l, r, he1, hl1, hr1, ?_, ?_⟩
  · apply sameConfig_of hl.1 wa hl.2 na
    · rw [hl2, hep, List.nil_append, hda]; exact ⟨hda, fun _ => rfl, fun _ _ => rfl⟩
    · intro k; rw [hl3, Dict.get?_merge_nodup _ _ na, hen]; simp [Dict.get?]
  · apply sameConfig_of hr.1 wa hr.2 na
    · rw [hr2, hep, List.append_nil, hda]; exact ⟨hda, fun _ => rfl, fun _ _ => rfl⟩
    · intro k; rw [hr3, Dict.get?_merge_nodup _ _ ne, hen]; simp [Dict.get?]

example : ∃ c, Built c ∧ c.enablers = [("a".toList, "cmd".toList)] ∧ (present c.config).length = 2 :=
  ⟨_, .make (enabler := some "cmd".toList)
    (raw := [⟨.pylint, some "--enable=a".toList⟩, ⟨.noFlake8, none⟩]) rfl, by decide, by decide⟩

/-! ### C04 Enabling a group equals writing its arguments at that place -/

/-- The options a group stands for: the arguments of its linters, in order. -/
def groupOptions (sets : OptionSets) (group : Str) : List RawArg :=
  match sets.find? (fun p => p.1 = group) with
  | none => []
  | some (_, set) => set.flatMap fun q => q.2.map fun arg =>
      { option := match q.1 with | .flake8 => .flake8 | _ => .pylint, val := some arg }

/-- No option group is named like an option. (Groups named like an option are expanded after every
use of that option; `C04_groups_are_macros` below covers them.) -/
def NoOptionNamed (sets : OptionSets) : Prop := ∀ o, Dict.get? sets (Opt.toName o) = none

theorem get?_eq_find? (sets : OptionSets) (g : Str) :
    Dict.get? sets g = (sets.find? (fun p => p.1 = g)).map (·.2) := by
  induction sets with
  | nil => rfl
  | cons p sets ih =>
    by_cases h : p.1 = g <;> simp [Dict.get?, h, ih]

theorem groupOptions_convert (sets : OptionSets) (hs : SetsOk sets) (g : Str) :
    (groupOptions sets g).map convertArg = ((Dict.get? sets g).map setArgs).getD [] := by
  rw [get?_eq_find?, groupOptions]
  cases h : sets.find? (fun p => decide (p.1 = g)) with
  | none => rfl
  | some p =>
    obtain ⟨n, set⟩ := p
    have hok : ∀ q ∈ set, q.1 ≠ Linter.edulint := hs _ (List.mem_of_find?_eq_some h)
    simp only [Option.map_some, Option.getD_some, setArgs, List.map_flatMap]
    clear h
    induction set with
    | nil => rfl
    | cons q set ih =>
      rw [List.flatMap_cons, List.flatMap_cons, ih fun q hq => hok q (List.mem_cons_of_mem _ hq)]
      congr 1
      obtain ⟨l, vs⟩ := q
      have := hok (l, vs) (by simp)
      cases l <;> simp [convertArg, optionParse, OptType.convert] at this ⊢

/-- Options addressed at groups are split like the option's value. -/
def groupsOf (val : Str) : List Str := if val = [] then [] else splitOn ',' val

theorem insertedArgs_none {sets : OptionSets} (hn : NoOptionNamed sets) {a : Arg} (h : a.option ≠ .setGroups) :
    insertedArgs sets a = [] := by
  obtain ⟨o, v⟩ := a
  cases o <;> simp_all [insertedArgs, NoOptionNamed]

theorem expand_none {sets : OptionSets} (hn : NoOptionNamed sets) {l : List Arg}
    (h : ∀ a ∈ l, a.option ≠ .setGroups) : expand sets l = l := by
  induction l with
  | nil => rfl
  | cons a l ih =>
    rw [expand_cons, insertedArgs_none hn (h a (by simp)), ih fun b hb => h b (List.mem_cons_of_mem _ hb)]
    rfl

/-- **C04.** Let `before`, `set-groups=val`, `after` be the written options (of all layers together), the
last use of `set-groups` being the shown one. The effective values are those obtained when the options of
the named groups are written immediately after it and no groups exist at all. -/
theorem C04_group_is_macro (sets : OptionSets) (hs : SetsOk sets) (hn : NoOptionNamed sets)
    (before after : List RawArg) (val : Str) (hlast : ∀ a ∈ after, a.option ≠ .setGroups) (e : Option Str) :
    ∃ c c' ic ic',
      mkConfig e (before ++ [⟨.setGroups, some val⟩] ++ after) = .ok c ∧ c.toImmutable sets = .ok ic ∧
      mkConfig e (before ++ [⟨.setGroups, some val⟩] ++ (groupsOf val).flatMap (groupOptions sets) ++ after) = .ok c' ∧
      c'.toImmutable [] = .ok ic' ∧ ic.config = ic'.config := by
  obtain ⟨c, hc1, hc2, _⟩ := mkConfig_spec e (before ++ [⟨.setGroups, some val⟩] ++ after)
  obtain ⟨c', hd1, hd2, _⟩ := mkConfig_spec e
    (before ++ [⟨.setGroups, some val⟩] ++ (groupsOf val).flatMap (groupOptions sets) ++ after)
  have w : ∀ r : List RawArg, WTyped (dropOverridden (r.map convertArg)) :=
    fun r => wtyped_dropOverridden (wtyped_convert r)
  obtain ⟨en, _, h1⟩ := toImmutable_spec c sets hs (by rw [hc2]; exact w _)
  obtain ⟨en', _, h2⟩ := toImmutable_spec c' [] (fun _ h => by simp at h) (by rw [hd2]; exact w _)
  refine ⟨c, c', _, _, hc1, h1, hd1, h2, ?_⟩
  simp only
  apply List.map_congr_left
  intro o _
  have hconv : convertArg ⟨.setGroups, some val⟩ = ⟨.setGroups, .list (groupsOf val)⟩ := by
    cases val <;> rfl
  have hga : ((groupsOf val).flatMap (groupOptions sets)).map convertArg = groupArgs sets (groupsOf val) := by
    rw [List.map_flatMap, groupArgs]
    congr 1
    funext g
    exact groupOptions_convert sets hs g
  have hins : insertedArgs sets ⟨.setGroups, .list (groupsOf val)⟩ = groupArgs sets (groupsOf val) := by
    simp [insertedArgs, hn .setGroups]
  have hafter : ∀ a ∈ after.map convertArg, a.option ≠ .setGroups := by
    intro a ha
    obtain ⟨r, hr, rfl⟩ := List.mem_map.1 ha
    exact hlast r hr
  have hgm : ∀ a ∈ groupArgs sets (groupsOf val), a.option = .pylint ∨ a.option = .flake8 := by
    intro a ha
    rw [← hins] at ha
    exact (mem_insertedArgs ha).1
  -- only the values of each option matter
  suffices hv : valsOf o (expand sets (present c.config)) = valsOf o (expand [] (present c'.config))
      ∨ (isReplace o = true ∧ (valsOf o (expand sets (present c.config))).getLast?
          = (valsOf o (expand [] (present c'.config))).getLast?) by
    rcases hv with hv | ⟨hr, hv⟩
    · simp only [inForce, hv]
    · have hc : (optionParse o).combine = .replace := by simpa [isReplace] using hr
      simp only [inForce, hc, combineAll_replace, hv]
  by_cases hr : isReplace o = true
  · right
    refine ⟨hr, ?_⟩
    rw [expand_noSets, valsOf_expand_replace hr, hc2, hd2, valsOf_dropOverridden_replace _ hr,
      valsOf_dropOverridden_replace _ hr]
    have hg0 : valsOf o (groupArgs sets (groupsOf val)) = [] := by
      rw [← hins]; exact valsOf_inserted_replace hr _ _
    simp only [List.map_append, List.map_cons, List.map_nil, hga, valsOf_append, hg0, List.append_nil]
  · left
    have hr' : isReplace o = false := by simpa using hr
    rw [expand_noSets, hc2, hd2, valsOf_dropOverridden_extend _ hr']
    simp only [List.map_append, List.map_cons, List.map_nil, hga, hconv]
    rw [dropOverridden_append, dropOverridden_append, List.filter_append]
    have hsingle : (dropOverridden [Arg.mk .setGroups (.list (groupsOf val))]).filter
        (fun b => !(isReplace b.option && decide (b.option ∈ (after.map convertArg).map (·.option))))
        = [⟨.setGroups, .list (groupsOf val)⟩] := by
      have h : (Opt.setGroups) ∉ (after.map convertArg).map (·.option) := by
        intro hm
        obtain ⟨a, ha, hao⟩ := List.mem_map.1 hm
        exact hafter a ha hao
      have hd : dropOverridden [Arg.mk .setGroups (.list (groupsOf val))]
          = [⟨.setGroups, .list (groupsOf val)⟩] := by simp [dropOverridden]
      rw [hd, List.filter_cons]
      have : (!(isReplace Opt.setGroups && decide (Opt.setGroups ∈ (after.map convertArg).map (·.option)))) = true := by
        rw [decide_eq_false h]; simp
      simp only [this, if_true, List.filter_nil]
    rw [hsingle, expand_append, expand_append]
    have hleft : ∀ p : Arg → Bool, expand sets (((dropOverridden (before.map convertArg)).filter
        (fun b => !(isReplace b.option && decide (b.option ∈ [Arg.mk .setGroups (.list (groupsOf val))].map (·.option))))).filter p)
        = (((dropOverridden (before.map convertArg)).filter
        (fun b => !(isReplace b.option && decide (b.option ∈ [Arg.mk .setGroups (.list (groupsOf val))].map (·.option))))).filter p) := by
      intro p
      apply expand_none hn
      intro a ha
      simp only [List.mem_filter] at ha
      have := ha.1.2
      intro hao
      rw [hao] at this
      simp [isReplace, optionParse] at this
    rw [hleft, expand_none hn (l := dropOverridden (after.map convertArg))
      (fun a ha => hafter a (dropOverridden_subset _ a ha))]
    rw [expand_cons, expand_nil, hins]
    simp only [valsOf_append, List.append_nil]
    rw [valsOf_dropOverridden_extend _ hr', valsOf_filter_ne, valsOf_filter_ne, valsOf_dropOverridden_extend _ hr']
    · simp only [valsOf_cons, valsOf_nil, List.append_assoc]
      by_cases ho : Opt.setGroups = o
      · subst ho; simp [isReplace, optionParse] at hr'
      · simp [ho]
    · intro a _ hao; simp [hao, hr']
    · intro a _ hao; simp [hao, hr']

example : SetsOk [("g".toList, [(.pylint, ["--enable=a".toList]), (.flake8, ["--select=b".toList])])] ∧
    NoOptionNamed [("g".toList, [(.pylint, ["--enable=a".toList]), (.flake8, ["--select=b".toList])])] ∧
    (groupsOf "g,h".toList).flatMap
      (groupOptions [("g".toList, [(.pylint, ["--enable=a".toList]), (.flake8, ["--select=b".toList])])])
      = [⟨.pylint, some "--enable=a".toList⟩, ⟨.flake8, some "--select=b".toList⟩] := by
  refine ⟨?_, ?_, by decide⟩
  · intro p hp q hq
    simp at hp; subst hp; simp at hq; rcases hq with rfl | rfl <;> decide
  · intro o; cases o <;> decide

/-- The written options without those that a later use of the same (replacing) option overrides. -/
def notOverridden : List RawArg → List RawArg
  | [] => []
  | a :: rest =>
    if (optionParse a.option).combine = .replace ∧ rest.any (fun b => b.option = a.option)
    then notOverridden rest else a :: notOverridden rest

/-- An option written out: followed by the options of the groups it enables, and by the options of the
group named like it. -/
def writtenOut (sets : OptionSets) (a : RawArg) : List RawArg :=
  a :: ((match a.option, a.val with
    | .setGroups, some val => (groupsOf val).flatMap (groupOptions sets)
    | _, _ => []) ++ groupOptions sets a.option.toName)

theorem notOverridden_convert (raw : List RawArg) :
    dropOverridden (raw.map convertArg) = (notOverridden raw).map convertArg := by
  induction raw with
  | nil => rfl
  | cons a raw ih =>
    have hiff : (isReplace (convertArg a).option = true ∧
        (convertArg a).option ∈ (raw.map convertArg).map (·.option)) ↔
        ((optionParse a.option).combine = .replace ∧ raw.any (fun b => b.option = a.option)) := by
      have : (convertArg a).option ∈ (raw.map convertArg).map (·.option)
          ↔ raw.any (fun b => b.option = a.option) = true := by
        simp [convertArg]
      rw [this]
      exact ⟨fun h => ⟨of_decide_eq_true h.1, h.2⟩, fun h => ⟨decide_eq_true h.1, h.2⟩⟩
    by_cases h : (optionParse a.option).combine = .replace ∧ raw.any (fun b => b.option = a.option)
    · simp only [List.map_cons, dropOverridden, notOverridden, if_pos h, if_pos (hiff.2 h), ih]
    · simp only [List.map_cons, dropOverridden, notOverridden, if_neg h, if_neg (fun x => h (hiff.1 x)), ih]

theorem writtenOut_convert (sets : OptionSets) (hs : SetsOk sets) (a : RawArg) :
    (writtenOut sets a).map convertArg = convertArg a :: insertedArgs sets (convertArg a) := by
  obtain ⟨o, v⟩ := a
  have h2 := groupOptions_convert sets hs o.toName
  by_cases ho : o = .setGroups
  · subst ho
    cases v with
    | none => simp [writtenOut, h2, insertedArgs, convertArg, optionParse, OptType.convert, groupArgs]
    | some val =>
      have hconv : convertArg ⟨.setGroups, some val⟩ = ⟨.setGroups, .list (groupsOf val)⟩ := by
        cases val <;> rfl
      have hga : ((groupsOf val).flatMap (groupOptions sets)).map convertArg = groupArgs sets (groupsOf val) := by
        rw [List.map_flatMap, groupArgs]
        congr 1
        funext g
        exact groupOptions_convert sets hs g
      simp only [writtenOut, List.map_cons, List.map_append, h2, hga, hconv, insertedArgs]
  · have h1 : (match o, v with
      | .setGroups, some val => (groupsOf val).flatMap (groupOptions sets)
      | _, _ => ([] : List RawArg)) = [] := by cases o <;> simp_all
    have h3 : insertedArgs sets (convertArg ⟨o, v⟩) = ((Dict.get? sets o.toName).map setArgs).getD [] := by
      cases o <;> simp_all [insertedArgs, convertArg]
    simp only [writtenOut, h1, List.nil_append, List.map_cons, h2, h3]

/-- **C04**, for every table of groups: the effective values are those obtained when every option that is
not overridden is followed by the options its groups stand for, and no groups exist at all. -/
theorem C04_groups_are_macros (sets : OptionSets) (hs : SetsOk sets) (raw : List RawArg) (e : Option Str) :
    ∃ c c' ic ic',
      mkConfig e raw = .ok c ∧ c.toImmutable sets = .ok ic ∧
      mkConfig e ((notOverridden raw).flatMap (writtenOut sets)) = .ok c' ∧
      c'.toImmutable [] = .ok ic' ∧ ic.config = ic'.config := by
  obtain ⟨c, hc1, hc2, _⟩ := mkConfig_spec e raw
  obtain ⟨c', hd1, hd2, _⟩ := mkConfig_spec e ((notOverridden raw).flatMap (writtenOut sets))
  have w : ∀ r : List RawArg, WTyped (dropOverridden (r.map convertArg)) :=
    fun r => wtyped_dropOverridden (wtyped_convert r)
  obtain ⟨en, _, h1⟩ := toImmutable_spec c sets hs (by rw [hc2]; exact w _)
  obtain ⟨en', _, h2⟩ := toImmutable_spec c' [] (fun _ h => by simp at h) (by rw [hd2]; exact w _)
  refine ⟨c, c', _, _, hc1, h1, hd1, h2, ?_⟩
  have hexp : ((notOverridden raw).flatMap (writtenOut sets)).map convertArg
      = expand sets (dropOverridden (raw.map convertArg)) := by
    rw [notOverridden_convert]
    generalize notOverridden raw = l
    induction l with
    | nil => rfl
    | cons a l ih =>
      rw [List.flatMap_cons, List.map_append, ih, writtenOut_convert sets hs, List.map_cons, expand_cons]
      simp
  simp only
  apply List.map_congr_left
  intro o _
  rw [expand_noSets, hd2, hexp, hc2]
  by_cases hr : isReplace o = true
  · have hc : (optionParse o).combine = .replace := by simpa [isReplace] using hr
    simp only [inForce, hc, combineAll_replace, valsOf_dropOverridden_replace _ hr]
    cases (valsOf o (expand sets (dropOverridden (raw.map convertArg)))).getLast? <;> rfl
  · have hr' : isReplace o = false := by simpa using hr
    simp only [inForce, valsOf_dropOverridden_extend _ hr']

example : (notOverridden [⟨.setGroups, some "g".toList⟩, ⟨.pylint, some "--a".toList⟩, ⟨.setGroups, some "h".toList⟩]).flatMap
    (writtenOut [("g".toList, [(.pylint, ["--g".toList])]), ("h".toList, [(.pylint, ["--h".toList])]),
      ("pylint".toList, [(.flake8, ["--p".toList])])])
    = [⟨.pylint, some "--a".toList⟩, ⟨.flake8, some "--p".toList⟩, ⟨.setGroups, some "h".toList⟩,
       ⟨.pylint, some "--h".toList⟩] := by decide

/-! ### C05 Enable/disable resolution preserves pylint's left-to-right meaning -/

/-- The two kinds of switches. -/
def enableEq : Str := "--enable=".toList
@[inherit_doc enableEq] def disableEq : Str := "--disable=".toList
@[inherit_doc enableEq] def allName : Str := "all".toList

/-- What a pylint argument switches: `(true, names)` for `--enable=names`, `(false, names)` for
`--disable=names`. Letter case does not matter. -/
def switches (arg : Str) : Option (Bool × List Str) :=
  if startsWith (lower arg) enableEq then
    some (true, splitOn ',' ((lower arg).drop enableEq.length))
  else if startsWith (lower arg) disableEq then
    some (false, splitOn ',' ((lower arg).drop disableEq.length))
  else none

/-- Which messages are on after one more argument; `all` addresses every message. -/
def afterArg (on : Str → Bool) (arg : Str) : Str → Bool :=
  match switches arg with
  | none => on
  | some (b, names) => fun m => if allName ∈ names ∨ lower m ∈ names then b else on m

/-- Pylint reads its arguments from left to right. -/
def afterArgs (on : Str → Bool) (args : List Str) : Str → Bool := args.foldl afterArg on

theorem switches_lower (arg : Str) : switches (lower arg) = switches arg := by
  simp [switches, lower_lower]

theorem afterArg_lower (on) (arg : Str) : afterArg on (lower arg) = afterArg on arg := by
  simp [afterArg, switches_lower]

theorem afterArgs_append (on) (l m : List Str) : afterArgs on (l ++ m) = afterArgs (afterArgs on l) m := by
  simp [afterArgs]

/-- Once the kept suffix ignores what was on before, nothing put in front of it matters. -/
theorem resolveGo_const (l : List Str) : ∀ (en : Bool) (acc : List Str),
    (∀ s s', afterArgs s acc = afterArgs s' acc) →
    ∀ s s', afterArgs s (resolveGo l true en acc) = afterArgs s' acc := by
  induction l with
  | nil => intro en acc h s s'; exact h s s'
  | cons a l ih =>
    intro en acc h s s'
    have hc : ∀ x, (∀ s s', afterArgs s (x :: acc) = afterArgs s' (x :: acc)) := by
      intro x s s'
      show afterArgs (afterArg s x) acc = afterArgs (afterArg s' x) acc
      exact h _ _
    have hx : ∀ x en, afterArgs s (resolveGo l true en (x :: acc)) = afterArgs s' acc := by
      intro x en
      rw [ih en (x :: acc) (hc x) s s']
      exact h _ _
    simp only [resolveGo]
    split
    · exact hx _ _
    · split
      · simp only [if_true]; exact ih en acc h s s'
      · split
        · exact ih en acc h s s'
        · exact hx _ _

theorem resolveGo_sem (l : List Str) : ∀ (en : Bool) (acc : List Str) (s : Str → Bool),
    afterArgs s (resolveGo l false en acc) = afterArgs s (l.reverse ++ acc) := by
  induction l with
  | nil => intro en acc s; rfl
  | cons a l ih =>
    intro en acc s
    have key : afterArgs s ((a :: l).reverse ++ acc) = afterArgs s (l.reverse ++ (lower a :: acc)) := by
      rw [List.reverse_cons, List.append_assoc, afterArgs_append, afterArgs_append s l.reverse]
      show afterArgs (afterArg _ a) acc = afterArgs (afterArg _ (lower a)) acc
      rw [afterArg_lower]
    rw [key]
    simp only [resolveGo]
    split
    · exact ih _ _ _
    · rename_i h1
      split
      · rename_i h2
        simp only [Bool.false_eq_true, if_false]
        have hall : ∀ t t', afterArg t (lower a) = afterArg t' (lower a) := by
          intro t t'
          rcases h2 with h2 | h2 <;> rw [h2]
          · have : switches disableAll = some (false, [allName]) := by decide
            funext m; simp [afterArg, this]
          · have : switches enableAll = some (true, [allName]) := by decide
            funext m; simp [afterArg, this]
        have hconst : ∀ t t', afterArgs t (lower a :: acc) = afterArgs t' (lower a :: acc) := by
          intro t t'
          show afterArgs (afterArg t (lower a)) acc = afterArgs (afterArg t' (lower a)) acc
          rw [hall t t']
        rw [resolveGo_const l _ _ hconst s (afterArgs s l.reverse), afterArgs_append]
      · simp only [Bool.false_eq_true, false_and, if_false]
        exact ih _ _ _

/-- **C05.** The arguments passed to pylint switch on exactly the messages the written ones do, whatever
was on before. -/
theorem C05_resolution_preserves_meaning (args : List Str) (on : Str → Bool) :
    afterArgs on (resolveEnableDisableAll args) = afterArgs on args := by
  rw [resolveEnableDisableAll, resolveGo_sem]; simp

/-- **C05** (the purpose of the resolution): at most one argument that addresses every message is passed,
so that the outcome does not depend on how pylint treats repeated `all`s. -/
theorem resolveGo_all_count (l : List Str) : ∀ (b en : Bool) (acc : List Str),
    (resolveGo l b en acc).countP (fun a => a = disableAll ∨ a = enableAll)
      ≤ (if b then 0 else 1) + acc.countP (fun a => a = disableAll ∨ a = enableAll) := by
  induction l with
  | nil => intro b en acc; simp [resolveGo]
  | cons a l ih =>
    intro b en acc
    simp only [resolveGo]
    split
    · rename_i h
      refine Nat.le_trans (ih b en _) ?_
      have hne : ¬ (enableNoop = disableAll ∨ enableNoop = enableAll) := by decide
      rw [h, List.countP_cons]
      simp only [hne, decide_false]
      simp
    · split
      · cases b with
        | true => simpa using ih true en acc
        | false =>
          simp only [Bool.false_eq_true, if_false]
          refine Nat.le_trans (ih true _ _) ?_
          rw [List.countP_cons]
          simp only [if_true]
          split <;> omega
      · rename_i h
        split
        · exact ih b en acc
        · refine Nat.le_trans (ih b en _) ?_
          rw [List.countP_cons]
          simp only [h, decide_false]
          simp

theorem C05_at_most_one_all (args : List Str) :
    (resolveEnableDisableAll args).countP (fun a => a = disableAll ∨ a = enableAll) ≤ 1 := by
  exact resolveGo_all_count args.reverse false false []

example : resolveEnableDisableAll
    ["--enable=a".toList, "--disable=all".toList, "--Enable=b,c".toList, "--disable=b".toList]
    = ["--disable=all".toList, "--enable=b,c".toList, "--disable=b".toList] := by decide

example : afterArgs (fun _ => true)
    ["--enable=a".toList, "--disable=all".toList, "--Enable=b,c".toList, "--disable=b".toList] "c".toList = true ∧
  afterArgs (fun _ => true)
    ["--enable=a".toList, "--disable=all".toList, "--Enable=b,c".toList, "--disable=b".toList] "b".toList = false := by
  decide

/-! ### C06 Pylint arguments reach pylint verbatim -/

/-- The full claim: every argument that is not an `--enable=`/`--disable=` is passed as written, in order. -/
def C06_claim : Prop :=
  ∀ args : List Str,
    (resolveEnableDisableAll args).filter (fun a => (switches a).isNone)
      = args.filter (fun a => (switches a).isNone)

/-- **C06** is false of the code: letter case is lost … -/
theorem C06_counterexample_case : ¬ C06_claim := by
  intro h
  have := h ["--good-names=I".toList]
  revert this
  decide

/-- … and an unrelated argument that starts with `--enable` is dropped before `--disable=all`. -/
theorem C06_counterexample_dropped :
    resolveEnableDisableAll ["--enable-all-extensions".toList, "--disable=all".toList]
      = ["--disable=all".toList] := by decide

/-- An argument that neither starts with `--enable` nor `--disable`. -/
def unrelated (a : Str) : Bool :=
  !startsWith (lower a) enablePrefix && !startsWith (lower a) disablePrefix

theorem resolveGo_unrelated (l : List Str) : ∀ (b en : Bool) (acc : List Str),
    (resolveGo l b en acc).filter unrelated
      = ((l.filter unrelated).map lower).reverse ++ acc.filter unrelated := by
  induction l with
  | nil => intro b en acc; simp [resolveGo]
  | cons a l ih =>
    intro b en acc
    have hlow : unrelated (lower a) = unrelated a := by simp [unrelated, lower_lower]
    have hstep : ∀ b en, (resolveGo l b en (lower a :: acc)).filter unrelated
        = (((a :: l).filter unrelated).map lower).reverse ++ acc.filter unrelated := by
      intro b en
      rw [ih]
      by_cases hu : unrelated a = true
      · simp [hlow, hu]
      · simp [hlow, hu]
    have hskip : unrelated a = false → ∀ b en, (resolveGo l b en acc).filter unrelated
        = (((a :: l).filter unrelated).map lower).reverse ++ acc.filter unrelated := by
      intro hu b en
      rw [ih]
      simp [hu]
    simp only [resolveGo]
    split
    · exact hstep _ _
    · split
      · rename_i h
        have hu : unrelated a = false := by
          rcases h with h | h <;> simp only [unrelated, h] <;> decide
        split
        · exact hskip hu _ _
        · exact hstep _ _
      · split
        · rename_i h
          have hu : unrelated a = false := by
            rcases h.2 with h | h <;> simp [unrelated, h.1]
          exact hskip hu _ _
        · exact hstep _ _

/-- **C06**, the part that holds: arguments which do not start with `--enable`/`--disable` and have no
upper case letters are passed as written, none is lost, added or reordered. (Missing: letter case is not
preserved, and arguments that merely start with `--enable`/`--disable` may be dropped.) -/
theorem C06_verbatim_partial (args : List Str) (hlow : ∀ a ∈ args, unrelated a → lower a = a) :
    (resolveEnableDisableAll args).filter unrelated = args.filter unrelated := by
  rw [resolveEnableDisableAll, resolveGo_unrelated]
  simp only [List.filter_nil, List.append_nil, List.filter_reverse, List.map_reverse, List.reverse_reverse]
  conv_rhs => rw [← List.map_id (args.filter unrelated)]
  apply List.map_congr_left
  intro a ha
  simp only [List.mem_filter] at ha
  simpa using hlow a ha.1 ha.2

/-- In general the letters, ignoring case, and the order are preserved. -/
theorem C06_up_to_case_partial (args : List Str) :
    (resolveEnableDisableAll args).filter unrelated = (args.filter unrelated).map lower := by
  rw [resolveEnableDisableAll, resolveGo_unrelated]
  simp

example : ∀ a ∈ ["--max-line-length=100".toList, "--enable=A".toList, "--disable=all".toList],
    unrelated a → lower a = a := by decide

/-! ### C07 Effective configuration is total and canonical -/

/-- **C07** (totality): the effective configuration of any options under any groups exists, lists every
option exactly once in the fixed order, and answers every look-up. -/
theorem C07_total (files : List (Str × List RawArg)) (infile cmd : List RawArg)
    (sets : OptionSets) (hs : SetsOk sets) :
    ∃ ic, layeredConfig files infile cmd sets = .ok ic ∧ ic.config.map (·.option) = Opt.all ∧
      (∀ o, o ∈ Opt.all) ∧ Opt.all.Nodup ∧
      ∀ o, ∃ v, ic.getItem o = .ok v ∧ ⟨o, v⟩ ∈ ic.config := by
  obtain ⟨ic, h1, h2⟩ := layeredConfig_spec files infile cmd sets hs
  refine ⟨ic, h1, ?_, by intro o; cases o <;> decide, by decide, ?_⟩
  · rw [h2]; rfl
  · obtain ⟨cfg, en⟩ := ic
    simp only at h2
    subst h2
    intro o
    refine ⟨_, by rw [effOfArgs, getItem_map], ?_⟩
    exact List.mem_map.2 ⟨o, by cases o <;> decide, rfl⟩

/-- **C07** (canonicity): if for every option the sequences of written values agree, the effective values
agree, however the uses of different options are interleaved or split into layers. -/
theorem C07_canonical (files files' : List (Str × List RawArg)) (infile infile' cmd cmd' : List RawArg)
    (h : ∀ o, ((chainArgs files ++ infile ++ cmd).filter (fun a => a.option = o))
      = (chainArgs files' ++ infile' ++ cmd').filter (fun a => a.option = o)) :
    ∃ ic ic', layeredConfig files infile cmd [] = .ok ic ∧ layeredConfig files' infile' cmd' [] = .ok ic' ∧
      ic.config = ic'.config := by
  have hn : SetsOk [] := fun _ h => by simp at h
  obtain ⟨ic, h1, h2⟩ := layeredConfig_spec files infile cmd [] hn
  obtain ⟨ic', h1', h2'⟩ := layeredConfig_spec files' infile' cmd' [] hn
  refine ⟨ic, ic', h1, h1', ?_⟩
  rw [h2, h2', effOfArgs, effOfArgs]
  apply List.map_congr_left
  intro o _
  have hv : ∀ raw : List RawArg, valsOf o (raw.map convertArg)
      = (raw.filter fun a => a.option = o).map fun a => (convertArg a).val := by
    intro raw
    rw [valsOf, List.filter_map, List.map_map]
    rfl
  by_cases hr : isReplace o = true
  · rw [inForce_replace hr, inForce_replace hr, hv, hv, h o]
  · have hr' : isReplace o = false := by simpa using hr
    simp only [inForce, expand_noSets, valsOf_dropOverridden_extend _ hr', hv, h o]

/-- **C07** (canonicity of the result): effective values are determined by the look-ups. -/
theorem C07_extensional (files files' : List (Str × List RawArg)) (infile infile' cmd cmd' : List RawArg)
    (sets sets' : OptionSets) (hs : SetsOk sets) (hs' : SetsOk sets') (ic ic' : ImmutableConfig)
    (h1 : layeredConfig files infile cmd sets = .ok ic) (h2 : layeredConfig files' infile' cmd' sets' = .ok ic')
    (h : ∀ o, ic.getItem o = ic'.getItem o) : ic.config = ic'.config := by
  obtain ⟨x, h3, h4⟩ := layeredConfig_spec files infile cmd sets hs
  obtain ⟨y, h5, h6⟩ := layeredConfig_spec files' infile' cmd' sets' hs'
  rw [h1] at h3; cases h3
  rw [h2] at h5; cases h5
  obtain ⟨c, e⟩ := ic
  obtain ⟨c', e'⟩ := ic'
  simp only at h4 h6
  subst h4 h6
  simp only
  rw [effOfArgs, effOfArgs]
  apply List.map_congr_left
  intro o _
  have := h o
  rw [effOfArgs, effOfArgs, getItem_map, getItem_map] at this
  injection this with this
  rw [this]

example : ∃ ic ic', layeredConfig [] [⟨.pylint, some "--a".toList⟩, ⟨.noFlake8, none⟩] [] [] = .ok ic ∧
    layeredConfig [("f".toList, [⟨.noFlake8, none⟩])] [] [⟨.pylint, some "--a".toList⟩] [] = .ok ic' ∧
    ic.config = ic'.config ∧ ic.config ≠ Opt.all.map fun o => ⟨o, (optionParse o).default⟩ :=
  ⟨_, _, rfl, rfl, by decide, by decide⟩

/-! ### C11 Option names round-trip -/

/-- **C11.** A string addresses an option exactly if, up to letter case, it is the option's printed name or
the documented alias of the configuration file option. -/
theorem C11_names (s : Str) (o : Opt) :
    Opt.safeFromName s = some o ↔ (lower s = o.toName ∨ (lower s = "config".toList ∧ o = .configFile)) := by
  have hk : ∀ o : Opt, lower "config".toList ≠ o.toName := by intro o; cases o <;> decide
  unfold Opt.safeFromName
  by_cases hc : lower s = "config".toList
  · have h1 : Dict.get? Opt.aliases (lower s) = some .configFile := by rw [hc]; decide
    rw [h1]
    constructor
    · intro h; right; exact ⟨hc, by simpa using h.symm⟩
    · rintro (h | h)
      · exact absurd (by rw [← h, hc]; decide) (hk o)
      · rw [h.2]
  · have h1 : Dict.get? Opt.aliases (lower s) = none := by
      simp only [Opt.aliases, Dict.get?]
      have : ¬ "config".toList = lower s := fun x => hc x.symm
      simp only [this, if_false]
    rw [h1]
    simp only [hc, false_and, or_false]
    generalize lower s = t
    constructor
    · intro h
      have := List.find?_some h
      simpa using (by simpa using this : o.toName = t).symm
    · intro h; subst h
      cases o <;> decide

/-- **C11**: printed names are distinct, so no string addresses two options, and every option is addressed
by its printed name in any letter case. -/
theorem C11_round_trip : (∀ o o', Opt.toName o = Opt.toName o' → o = o') ∧
    (∀ o s, lower s = Opt.toName o → Opt.safeFromName s = some o ∧ Opt.fromName s = .ok o) := by
  constructor
  · intro o o'; cases o <;> cases o' <;> decide
  · intro o s h
    have := (C11_names s o).2 (Or.inl h)
    exact ⟨this, by simp [Opt.fromName, this]⟩

example : Opt.safeFromName "Set-GROUPS".toList = some .setGroups ∧ Opt.safeFromName "set_groups".toList = none := by
  decide

end Verif

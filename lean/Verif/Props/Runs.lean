import Verif.Lemmas.Run
import Mathlib.Data.List.Nodup

/-!
Property theorems about whole runs: C08, C09, C12, and C01 from the written texts to the value in force.
-/

namespace Verif

/-! ### C08 Every file is linted exactly once -/

/-- All Python files found under the given paths. -/
def filesUnder (items : List Item) : List PyFile := items.flatMap Item.files

/-- **C08** (grouping). The Python files of the groups are those found under the given paths, each as often as
it was found; the files of a group all have the group's configuration, and no two groups have the same one. -/
theorem C08_each_file_once (env : Env) (items : List Item) (cmd : Config) (groups : Groups)
    (hcmd : ignoreInfile cmd = .ok false) (h : parseInfileConfigs env items cmd = .ok groups) :
    (groups.flatMap fun g => filesUnder g.2.2).Perm (filesUnder items) ∧
    (∀ g ∈ groups, ∀ f ∈ filesUnder g.2.2, ∃ c ic, parseInfileConfig env f.1 f.2 = .ok c ∧
      c.toImmutable [] = .ok ic ∧ SameEffective ic g.1) ∧
    groups.Pairwise (fun g g' => ¬ SameEffective g.1 g'.1) := by
  unfold parseInfileConfigs at h
  rw [hcmd] at h
  obtain ⟨h1, h2, h3⟩ := infileItems_spec env items [] groups [] (grouped_nil env) h
  refine ⟨h2, ?_, h3⟩
  intro g hg f hf
  obtain ⟨c, ic, ⟨ho1, ho2⟩, ha⟩ := (h1 g hg).own f hf
  exact ⟨c, ic, ho1, ho2, ha⟩

/-- **C08** (in-file configuration switched off). There is one group, made of the given paths. -/
theorem C08_one_group (env : Env) (cmd : Config) (hcmd : ignoreInfile cmd = .ok true) :
    ∃ ic c, ∀ items : List Item, parseInfileConfigs env items cmd = .ok [(ic, c, items)] := by
  obtain ⟨c, hc, _⟩ := mkConfig_spec none []
  obtain ⟨ic, hi⟩ : ∃ ic, c.toImmutable [] = .ok ic := by
    obtain ⟨en, _, hi⟩ := toImmutable_spec c [] (fun _ h => by cases h) (typed_mkConfig hc).vals
    exact ⟨_, hi⟩
  exact ⟨ic, c, fun items => by unfold parseInfileConfigs; rw [hcmd]; simp only [hc, hi]⟩

/-- **C08** (groups are exclusive). If no file is found twice under the given paths, no file is in two
groups or twice in one. -/
theorem C08_exclusive (env : Env) (items : List Item) (cmd : Config) (groups : Groups)
    (hcmd : ignoreInfile cmd = .ok false) (h : parseInfileConfigs env items cmd = .ok groups)
    (hn : (filesUnder items).Nodup) :
    (∀ f ∈ filesUnder items, ∃ g ∈ groups, f ∈ filesUnder g.2.2) ∧
    (∀ g ∈ groups, (filesUnder g.2.2).Nodup) ∧
    groups.Pairwise fun g g' => ∀ f ∈ filesUnder g.2.2, f ∉ filesUnder g'.2.2 := by
  obtain ⟨hp, _, _⟩ := C08_each_file_once env items cmd groups hcmd h
  refine ⟨fun f hf => ?_, ?_⟩
  · obtain ⟨g, hg, hfg⟩ := List.mem_flatMap.1 (hp.mem_iff.2 hf)
    exact ⟨g, hg, hfg⟩
  · have := hp.nodup_iff.2 hn
    rw [List.nodup_flatMap] at this
    refine ⟨this.1, this.2.imp ?_⟩
    intro g g' hd f hf hf'
    exact hd hf hf'

/-- The configuration files that would be used for a linted file: the one from the command line, or the one
in force in the file itself. -/
def UsesConfigFile (env : Env) (cmd : Config) (f : PyFile) (path : Val) : Prop :=
  (cmd.getLastValue .configFile false = .ok path ∧ path ≠ .none) ∨
  (cmd.getLastValue .configFile false = .ok .none ∧
    ∃ c ic, parseInfileConfig env f.1 f.2 = .ok c ∧ c.toImmutable [] = .ok ic ∧ ic.getItem .configFile = .ok path)

theorem setsOk_nil : SetsOk [] := fun _ h => by cases h

theorem key_getItem {c : Config} {ic} (hc : Typed c) (h : c.toImmutable [] = .ok ic) (o : Opt) :
    ic.getItem o = .ok (inForce o (present c.config)) := by
  obtain ⟨en, _, h2⟩ := toImmutable_spec c [] setsOk_nil hc.vals
  rw [h] at h2
  cases h2
  rw [getItem_map, expand_noSets]

theorem inForce_replace' {o : Opt} (h : isReplace o = true) (l : List Arg) :
    inForce o l = (valsOf o l).getLast?.getD (optionParse o).default := by
  have hc : (optionParse o).combine = .replace := by simpa [isReplace] using h
  rw [inForce, hc, combineAll_replace]
  have hp : o ≠ .pylint := by intro hp; subst hp; simp [isReplace, optionParse] at h
  have hst : ∀ v, storedVal o v = v := by intro v; cases o <;> simp_all [storedVal]
  cases (valsOf o l).getLast? with
  | none => rfl
  | some v => simp [hst]

theorem oneConfig_none {env fuel cmd cmdPath infile} (h : oneConfig env fuel cmd cmdPath infile = .ok none) :
    ∃ path, (if cmdPath ≠ .none then .ok cmdPath else infile.getLastValue .configFile true : Except PyErr Val) = .ok path
      ∧ parseConfigVal env fuel path = .ok none := by
  unfold oneConfig at h
  split at h
  · cases h
  · rename_i path hp
    split at h
    · cases h
    · rename_i hn; exact ⟨path, hp, hn⟩
    · split at h
      · cases h
      · split at h <;> cases h

/-- **C08** (run). The Python files given to the linters are those found under the given paths, each as often
as it was found, except the files whose configuration file cannot be read, which are left out. -/
theorem C08_run (env : Env) (fuel : Nat) (items : List Item) (args : List Str) (groups : List RunGroup)
    (h : getConfigMany env fuel items args = .ok groups) :
    ∃ cmd skipped, mkConfig (some "cmd".toList) (parseArgs args).1 = .ok cmd ∧
      ((groups.flatMap fun g => filesUnder g.items) ++ skipped).Perm (filesUnder items) ∧
      (ignoreInfile cmd = .ok false →
        ∀ f ∈ skipped, ∃ path, UsesConfigFile env cmd f path ∧ parseConfigVal env fuel path = .ok none) := by
  unfold getConfigMany at h
  split at h
  · cases h
  rename_i cmd hcmd
  split at h
  · cases h
  rename_i gs hgs
  split at h
  · cases h
  rename_i cmdPath hpath
  obtain ⟨⟨sk, h1, h2⟩, _, _⟩ := runGroups_spec gs _ _ h
  have hcov : (covered gs).Perm (filesUnder items) := by
    obtain ⟨b, hb⟩ := ignoreInfile_ok (typed_mkConfig hcmd)
    cases b with
    | false => exact (C08_each_file_once env items cmd gs hb hgs).1
    | true =>
      obtain ⟨ic, c, hg⟩ := C08_one_group env cmd hb
      have hg := hg items
      rw [hgs] at hg
      cases hg
      simp [covered, groupFiles, filesUnder]
  refine ⟨cmd, sk, hcmd, h1.trans hcov, ?_⟩
  intro hno f hf
  obtain ⟨g, hg, hfg, hone⟩ := h2 f hf
  obtain ⟨path, hp1, hp2⟩ := oneConfig_none hone
  refine ⟨path, ?_, hp2⟩
  by_cases hc : cmdPath = .none
  · right
    subst hc
    refine ⟨hpath, ?_⟩
    simp only [ne_eq, not_true_eq_false, if_false] at hp1
    unfold parseInfileConfigs at hgs
    rw [hno] at hgs
    obtain ⟨k1, _, _⟩ := infileItems_spec env items [] gs [] (grouped_nil env) hgs
    have ok := k1 g hg
    obtain ⟨c, ic, ⟨ho1, ho2⟩, ha⟩ := ok.own f hfg
    obtain ⟨r, _, hr1, hr2⟩ := ok.rep
    refine ⟨c, ic, ho1, ho2, ?_⟩
    have e1 : ic.getItem .configFile = g.1.getItem .configFile := by
      unfold ImmutableConfig.getItem; rw [ha.1]
    rw [e1, key_getItem (typed_infile hr1) hr2, inForce_replace' rfl]
    rw [getLastValue_spec _ rfl] at hp1
    exact hp1
  · left
    rw [if_pos hc] at hp1
    cases hp1
    exact ⟨hpath, hc⟩

/-! ### C12 Command line can switch in-file configuration off -/

/-- The command line asks to ignore in-file configuration: the last `ignore-infile-config-for` lists `all`
or `edulint`. -/
def AsksToIgnore (args : List Str) : Prop :=
  ∃ v, lastGiven .ignoreInfileConfigFor (parseArgs args).1 = some (some v) ∧
    ("all".toList ∈ splitOn ',' v ∨ "edulint".toList ∈ splitOn ',' v)

/-- What a user sees of a run's configurations: for each group its paths, its configuration and translations. -/
def observed (r : Except PyErr (List RunGroup)) : Except PyErr (List (List Str × ImmutableConfig × LangTranslations)) :=
  match r with
  | .error e => .error e
  | .ok gs => .ok (gs.map fun g => (g.items.map (·.path), g.config, g.lang))

theorem ignoreInfile_cmd {args : List Str} {cmd : Config} (h : AsksToIgnore args)
    (hc : mkConfig (some "cmd".toList) (parseArgs args).1 = .ok cmd) : ignoreInfile cmd = .ok true := by
  obtain ⟨v, hv, hm⟩ := h
  obtain ⟨c', h1, h2, _⟩ := mkConfig_spec (some "cmd".toList) (parseArgs args).1
  rw [hc] at h1; cases h1
  unfold ignoreInfile
  rw [getLastValue_spec _ rfl, h2, valsOf_dropOverridden_replace _ rfl, getLast?_valsOf_convert]
  rw [hv]
  have hne : v ≠ [] := by rintro rfl; revert hm; decide
  have : (optionParse .ignoreInfileConfigFor).type.convert (some v) = .list (splitOn ',' v) := by
    cases v with
    | nil => exact absurd rfl hne
    | cons a v => rfl
  simp only [Option.map_some, Option.toList_some, List.getLast?_singleton, Option.getD_some, this]
  congr 1
  rcases hm with hm | hm <;> simp only [List.contains_eq_mem, hm, decide_true, Bool.or_true, Bool.true_or]

/-- **C12.** If the command line asks to ignore in-file configuration, the outcome is the same for every
contents of the files and directories at the given paths. -/
theorem C12_infile_switched_off (env : Env) (fuel : Nat) (items items' : List Item) (args : List Str)
    (hp : items.map (·.path) = items'.map (·.path)) (h : AsksToIgnore args) :
    observed (getConfigMany env fuel items args) = observed (getConfigMany env fuel items' args) := by
  unfold getConfigMany
  split
  · rfl
  · rename_i cmd hcmd
    obtain ⟨ic, c, hg⟩ := C08_one_group env cmd (ignoreInfile_cmd h hcmd)
    rw [hg items, hg items']
    simp only
    cases cmd.getLastValue .configFile false with
    | error e => rfl
    | ok cmdPath =>
      simp only [runGroups_cons]
      cases oneConfig env fuel cmd cmdPath c with
      | error e => rfl
      | ok r =>
        cases r with
        | none => rfl
        | some r =>
          obtain ⟨ic, lang⟩ := r
          simp only
          cases langOf env ic lang [] with
          | error e => rfl
          | ok lc =>
            obtain ⟨l, cache⟩ := lc
            simp [runGroups, observed, hp]

example : AsksToIgnore ["ignore-infile-config-for=pylint,all".toList] := ⟨"pylint,all".toList, by decide, by decide⟩

/-! ### C09 Linting a file does not depend on the other files in the run -/

/-- A run over a single file. -/
def aloneItem (f : PyFile) : Item := ⟨f.1, .file f.2⟩

/-- C09: whatever group of a run holds a file, linting the file alone gives it the same configuration and
the same translations. -/
def C09_claim : Prop :=
  ∀ env fuel items args together alone, ∀ f ∈ filesUnder items,
    getConfigMany env fuel items args = .ok together → getConfigMany env fuel [aloneItem f] args = .ok alone →
    ∀ g ∈ together, f ∈ filesUnder g.items →
      ∃ g' ∈ alone, SameEffective g.config g'.config ∧ ∀ k, Dict.get? g.lang k = Dict.get? g'.lang k

/-- Words separated by single spaces, as `shlex.split` reads them when there are no quotes. -/
def words (s : Str) : List Str := (splitOn ' ' s).filter (· ≠ [])

/-- A default configuration with a group `g` that switches everything off and names of builtins; two language files. -/
def exEnv : Env where
  shlex := fun s => .ok (words s)
  load := fun p =>
    if p = "empty".toList then some []
    else if p = "default".toList then
      some [("translations".toList, .table [("g".toList, .table [("pylint".toList, .arr [.str "--disable=all".toList])])]),
        ("disallowed-builtin-names".toList, .str "id".toList)]
    else if p = "/a.toml".toList then
      some [("language-translations".toList, .table [("x".toList, .str "A".toList)])]
    else if p = "/l.toml".toList then some []
    else none
  isDir := fun _ => false
  absJoin := fun f _ => f
  stem := id
  parents := fun _ => []

/-- A run over `items` gives `f` values of options or translations it does not have in a run over `f` alone. -/
def differs (env : Env) (fuel : Nat) (items : List Item) (f : PyFile) (args : List Str) (o : Opt) (k : Str) : Bool :=
  match getConfigMany env fuel items args, getConfigMany env fuel [aloneItem f] args with
  | .ok together, .ok alone =>
    decide (f ∈ filesUnder items) && together.any fun g => decide (f ∈ filesUnder g.items) &&
      alone.all fun g' => decide ((g.config.getItem o).toOption ≠ (g'.config.getItem o).toOption)
        || decide ((Dict.get? g.lang k).isSome ≠ (Dict.get? g'.lang k).isSome)
  | _, _ => false

theorem not_claim_of_differs {env fuel items f args o k} (h : differs env fuel items f args o k = true) : ¬ C09_claim := by
  intro hc
  unfold differs at h
  split at h
  · rename_i together alone ht ha
    simp only [Bool.and_eq_true, decide_eq_true_eq, List.any_eq_true, List.all_eq_true, Bool.or_eq_true] at h
    obtain ⟨hf, g, hg, hfg, hall⟩ := h
    obtain ⟨g', hg', hs, hl⟩ := hc env fuel items args together alone f hf ht ha g hg hfg
    rcases hall g' hg' with hx | hx
    · apply hx
      unfold ImmutableConfig.getItem
      rw [hs.1]
    · exact hx (by rw [hl k])
  · cases h

/-- **C09** is false: two files with the same options in a different order share a configuration, although the
order matters once the option groups are known. -/
theorem C09_counterexample_order : ¬ C09_claim :=
  not_claim_of_differs (env := exEnv) (fuel := 3) (args := []) (o := .pylint) (k := [])
    (items := [⟨"a.py".toList, .file ["# edulint: set-groups=g pylint=--enable=x".toList]⟩,
      ⟨"b.py".toList, .file ["# edulint: pylint=--enable=x set-groups=g".toList]⟩])
    (f := ("b.py".toList, ["# edulint: pylint=--enable=x set-groups=g".toList])) (by decide +kernel)

/-- … a file that sets an option to its default value shares its configuration with files that do not set it,
although the default wins over the configuration file only for the former … -/
theorem C09_counterexample_default : ¬ C09_claim :=
  not_claim_of_differs (env := exEnv) (fuel := 3) (args := []) (o := .disallowedBuiltinNames) (k := [])
    (items := [⟨"a.py".toList, .file ["# edulint: disallowed-builtin-names=".toList]⟩, ⟨"b.py".toList, .file []⟩])
    (f := ("b.py".toList, [])) (by decide +kernel)

/-- … and the translations of a configuration file used by one file leak to other files with the same
language file. -/
theorem C09_counterexample_translations : ¬ C09_claim :=
  not_claim_of_differs (env := exEnv) (fuel := 3) (args := []) (o := .configFile) (k := "x".toList)
    (items := [⟨"a.py".toList, .file ["# edulint: config-file=/a.toml language-file=/l.toml".toList]⟩,
      ⟨"b.py".toList, .file ["# edulint: language-file=/l.toml".toList]⟩])
    (f := ("b.py".toList, ["# edulint: language-file=/l.toml".toList])) (by decide +kernel)

/-- The in-file options of a file: none sets the groups, none has the default value. -/
def PlainInfile (env : Env) (f : PyFile) : Prop :=
  ∀ c, parseInfileConfig env f.1 f.2 = .ok c → ∀ a ∈ present c.config,
    a.option ≠ .setGroups ∧ a.val ≠ (optionParse a.option).default

/-- The same configuration up to the spelling of pylint's arguments: these switch on the same messages, and
those which do not switch messages are the same. -/
structure SameMeaning (a b : ImmutableConfig) : Prop where
  others : ∀ o, o ≠ .pylint → a.getItem o = b.getItem o
  pylint : ∃ l l', a.getItem .pylint = .ok (.list l) ∧ b.getItem .pylint = .ok (.list l') ∧
    (∀ on, afterArgs on l = afterArgs on l') ∧ l.filter unrelated = l'.filter unrelated
  enablers : ∀ k, Dict.get? a.enablers k = Dict.get? b.enablers k

/-- Two in-file configurations that grouping treats alike and that hold no surprises. -/
structure Twins (c c' : Config) : Prop where
  t : Typed c
  t' : Typed c'
  last : ∀ o, isReplace o = true → (valsOf o (present c.config)).getLast? = (valsOf o (present c'.config)).getLast?
  flake8 : (valsOf .flake8 (present c.config)).flatMap listItems = (valsOf .flake8 (present c'.config)).flatMap listItems
  pylint : resolveEnableDisableAll ((valsOf .pylint (present c.config)).flatMap listItems)
    = resolveEnableDisableAll ((valsOf .pylint (present c'.config)).flatMap listItems)
  plain : ∀ a ∈ present c.config, a.option ≠ .setGroups
  plain' : ∀ a ∈ present c'.config, a.option ≠ .setGroups
  enablers : ∀ k, Dict.get? c.enablers k = Dict.get? c'.enablers k

theorem twins_of_alike {env : Env} {f f' : PyFile} {c c' : Config} {ic ic'} (h : OwnConfig env f c ic)
    (h' : OwnConfig env f' c' ic') (ha : Alike ic ic') (hp : PlainInfile env f) (hp' : PlainInfile env f') : Twins c c' := by
  have t := typed_infile h.1
  have t' := typed_infile h'.1
  have key : ∀ o, inForce o (present c.config) = inForce o (present c'.config) := by
    intro o
    have e1 := key_getItem t h.2 o
    have e2 := key_getItem t' h'.2 o
    have e3 : ic.getItem o = ic'.getItem o := by unfold ImmutableConfig.getItem; rw [ha.1]
    rw [e1, e2] at e3
    exact Except.ok.inj e3
  have en : ∀ {c : Config} {ic}, Typed c → c.toImmutable [] = .ok ic → ∀ k, Dict.get? ic.enablers k = Dict.get? c.enablers k := by
    intro c ic t h k
    obtain ⟨e, he, h2⟩ := toImmutable_spec c [] setsOk_nil t.vals
    rw [h] at h2
    cases h2
    cases he
    rw [Dict.get?_merge_nodup _ _ t.keys]
    cases Dict.get? c.enablers k <;> rfl
  have nd : ∀ {c : Config}, (∀ a ∈ present c.config, a.option ≠ .setGroups ∧ a.val ≠ (optionParse a.option).default) →
      ∀ o v, (valsOf o (present c.config)).getLast? = some v → v ≠ (optionParse o).default := by
    intro c hc o v hv
    have hm := List.mem_of_getLast? hv
    simp only [valsOf, List.mem_map, List.mem_filter] at hm
    obtain ⟨a, ⟨ha, ho⟩, rfl⟩ := hm
    simp only [decide_eq_true_eq] at ho
    have := (hc a ha).2
    rwa [ho] at this
  refine ⟨t, t', ?_, ?_, ?_, fun a ha => (hp c h.1 a ha).1, fun a ha => (hp' c' h'.1 a ha).1, ?_⟩
  · intro o ho
    have k := key o
    rw [inForce_replace' ho, inForce_replace' ho] at k
    cases h1 : (valsOf o (present c.config)).getLast? with
    | none =>
      cases h2 : (valsOf o (present c'.config)).getLast? with
      | none => rfl
      | some v => rw [h1, h2] at k; exact absurd k.symm (nd (hp' c' h'.1) o v h2)
    | some v =>
      cases h2 : (valsOf o (present c'.config)).getLast? with
      | none => rw [h1, h2] at k; exact absurd k (nd (hp c h.1) o v h1)
      | some w => rw [h1, h2] at k; simpa using k
  · have k := key .flake8
    rw [inForce_extend rfl _ t.vals, inForce_extend rfl _ t'.vals] at k
    simpa [storedVal] using k
  · have k := key .pylint
    rw [inForce_extend rfl _ t.vals, inForce_extend rfl _ t'.vals] at k
    simpa [storedVal] using k
  · intro k
    rw [← en t h.2, ← en t' h'.2]
    exact ha.2 k

/-- An in-file configuration between the configuration file's options and those of the command line. -/
theorem vals_between (sets : OptionSets) (hn : NoOptionNamed sets) {F I C : List Arg}
    (hp : ∀ a ∈ I, a.option ≠ .setGroups) {o : Opt} (ho : isReplace o = false) :
    valsOf o (expand sets (dropOverridden (F ++ I ++ C))) =
      valsOf o (expand sets (((dropOverridden F).filter
        (fun b => !(isReplace b.option && decide (b.option ∈ I.map (·.option))))).filter
        (fun b => !(isReplace b.option && decide (b.option ∈ C.map (·.option))))))
      ++ valsOf o I ++ valsOf o (expand sets (dropOverridden C)) := by
  rw [dropOverridden_append, dropOverridden_append, List.filter_append, expand_append, expand_append, valsOf_append,
    valsOf_append]
  congr 2
  rw [expand_none hn (fun a ha => hp a (dropOverridden_subset _ a (List.mem_of_mem_filter ha))),
    valsOf_filter_ne, valsOf_dropOverridden_extend _ ho]
  intro a _ h
  rw [h, ho]
  rfl

theorem Twins.front {c c' : Config} (h : Twins c c') (F : List Arg) :
    F.filter (fun b => !(isReplace b.option && decide (b.option ∈ (present c.config).map (·.option))))
      = F.filter (fun b => !(isReplace b.option && decide (b.option ∈ (present c'.config).map (·.option)))) := by
  apply List.filter_congr
  intro b _
  cases hr : isReplace b.option with
  | false => rfl
  | true =>
    have hl := h.last b.option hr
    have : b.option ∈ (present c.config).map (·.option) ↔ b.option ∈ (present c'.config).map (·.option) := by
      rw [← not_iff_not, ← valsOf_eq_nil, ← valsOf_eq_nil, ← List.getLast?_eq_none_iff, ← List.getLast?_eq_none_iff, hl]
    simp only [Bool.true_and, this]

theorem getLast?_append' {α} (a b : List α) : (a ++ b).getLast? = b.getLast?.or a.getLast? := by
  rw [List.getLast?_append]

/-- The configurations of twins in the same surroundings mean the same. -/
theorem twins_meaning {c c' : Config} (h : Twins c c') {file cmd : Config} (tf : Typed file) (tc : Typed cmd)
    (sets : OptionSets) (hs : SetsOk sets) (hn : NoOptionNamed sets) (p : Val) :
    ∃ r r' ic ic', chooseConfig file c cmd p = .ok r ∧ chooseConfig file c' cmd p = .ok r' ∧
      r.toImmutable sets = .ok ic ∧ r'.toImmutable sets = .ok ic' ∧ SameMeaning ic ic' := by
  obtain ⟨b, hb⟩ := ignoreInfile_ok tf
  obtain ⟨k, hk1, hk2, hk3⟩ := combine_spec c cmd h.t.vals tc.vals
  obtain ⟨k', hk1', hk2', hk3'⟩ := combine_spec c' cmd h.t'.vals tc.vals
  have same : ∀ r, Typed r → ∃ ic, r.toImmutable sets = .ok ic ∧ SameMeaning ic ic := by
    intro r tr
    obtain ⟨en, _, hi⟩ := toImmutable_spec r sets hs tr.vals
    have hp : ImmutableConfig.getItem
        ⟨Opt.all.map fun o => ⟨o, inForce o (expand sets (present r.config))⟩, Dict.merge en r.enablers⟩ .pylint
        = .ok (.list (resolveEnableDisableAll ((valsOf .pylint (expand sets (present r.config))).flatMap listItems))) := by
      rw [getItem_map, inForce_extend rfl _ (wtyped_expand sets tr.vals)]; rfl
    exact ⟨_, hi, fun _ _ => rfl, ⟨_, _, hp, hp, fun _ => rfl, rfl⟩, fun _ => rfl⟩
  cases b with
  | true =>
    by_cases hp : p = .none
    · obtain ⟨ic, hi, hm⟩ := same cmd tc
      refine ⟨cmd, cmd, ic, ic, ?_, ?_, hi, hi, hm⟩ <;> simp [chooseConfig, hk1, hk1', hb, hp]
    · obtain ⟨r, hr1, _, _⟩ := combine_spec file cmd tf.vals tc.vals
      obtain ⟨ic, hi, hm⟩ := same r (typed_combine tf tc hr1)
      refine ⟨r, r, ic, ic, ?_, ?_, hi, hi, hm⟩ <;> simp [chooseConfig, hk1, hk1', hb, hp, hr1]
  | false =>
    have tk := typed_combine h.t tc hk1
    have tk' := typed_combine h.t' tc hk1'
    obtain ⟨r, hr1, hr2, hr3⟩ := combine_spec file k tf.vals tk.vals
    obtain ⟨r', hr1', hr2', hr3'⟩ := combine_spec file k' tf.vals tk'.vals
    have tr := typed_combine tf tk hr1
    have tr' := typed_combine tf tk' hr1'
    obtain ⟨en, hen, hi⟩ := toImmutable_spec r sets hs tr.vals
    obtain ⟨en', hen', hi'⟩ := toImmutable_spec r' sets hs tr'.vals
    rw [hen] at hen'; cases hen'
    have e : present r.config = dropOverridden (present file.config ++ present c.config ++ present cmd.config) := by
      rw [hr2, hk2, dropOverridden_drop_right, List.append_assoc]
    have e' : present r'.config = dropOverridden (present file.config ++ present c'.config ++ present cmd.config) := by
      rw [hr2', hk2', dropOverridden_drop_right, List.append_assoc]
    refine ⟨r, r', _, _, ?_, ?_, hi, hi', ?_, ?_, ?_⟩
    · simp [chooseConfig, hk1, hb, hr1]
    · simp [chooseConfig, hk1', hb, hr1']
    · intro o ho
      rw [getItem_map, getItem_map, e, e']
      congr 1
      cases hr : isReplace o with
      | true =>
        rw [inForce_replace hr, inForce_replace hr]
        simp only [valsOf_append, getLast?_append', h.last o hr]
      | false =>
        have hx : o = .flake8 := by cases o <;> simp_all [isReplace, optionParse]
        subst hx
        rw [inForce_extend rfl _ (by rw [← e]; exact wtyped_expand sets tr.vals),
          inForce_extend rfl _ (by rw [← e']; exact wtyped_expand sets tr'.vals),
          vals_between sets hn h.plain hr, vals_between sets hn h.plain' hr, h.front]
        simp only [List.flatMap_append, h.flake8]
    · refine ⟨_, _, by rw [getItem_map, inForce_extend rfl _ (wtyped_expand sets tr.vals)]; rfl,
        by rw [getItem_map, inForce_extend rfl _ (wtyped_expand sets tr'.vals)]; rfl, ?_, ?_⟩
      · intro on
        rw [C05_resolution_preserves_meaning, C05_resolution_preserves_meaning, e, e', vals_between sets hn h.plain rfl,
          vals_between sets hn h.plain' rfl, h.front]
        simp only [List.flatMap_append, afterArgs_append]
        congr 1
        rw [← C05_resolution_preserves_meaning, h.pylint, C05_resolution_preserves_meaning]
      · rw [C06_up_to_case_partial, C06_up_to_case_partial, e, e', vals_between sets hn h.plain rfl,
          vals_between sets hn h.plain' rfl, h.front]
        simp only [List.flatMap_append, List.filter_append, List.map_append]
        congr 2
        rw [← C06_up_to_case_partial, h.pylint, C06_up_to_case_partial]
    · intro x
      simp only [hr3, hr3', hk3, hk3']
      have n1 := Dict.nodup_keys_merge c.enablers cmd.enablers h.t.keys
      have n1' := Dict.nodup_keys_merge c'.enablers cmd.enablers h.t'.keys
      rw [Dict.get?_merge_nodup _ _ (Dict.nodup_keys_merge _ _ tf.keys),
        Dict.get?_merge_nodup _ _ (Dict.nodup_keys_merge _ _ tf.keys),
        Dict.get?_merge_nodup _ _ n1, Dict.get?_merge_nodup _ _ n1', Dict.get?_merge_nodup _ _ tc.keys,
        Dict.get?_merge_nodup _ _ tc.keys, h.enablers]

theorem oneConfig_some {env fuel cmd cmdPath infile r} (h : oneConfig env fuel cmd cmdPath infile = .ok (some r)) :
    ∃ path file sets config, (if cmdPath ≠ .none then .ok cmdPath else infile.getLastValue .configFile true : Except PyErr Val) = .ok path
      ∧ parseConfigVal env fuel path = .ok (some (file, sets, r.2)) ∧ chooseConfig file infile cmd cmdPath = .ok config ∧
      config.toImmutable sets = .ok r.1 := by
  unfold oneConfig at h
  split at h
  · cases h
  · rename_i path hp
    split at h
    · cases h
    · cases h
    · rename_i file sets lang hf
      split at h
      · cases h
      · rename_i config hc
        split at h
        · cases h
        · rename_i ic hi
          cases h
          exact ⟨path, file, sets, config, hp, hf, hc, hi⟩

/-- **C09**, for runs whose files neither enable groups nor set an option to its default value, under
configuration files whose groups are not named like options: linting a file alone succeeds and gives it the same
configuration (pylint's arguments up to spelling), and the same translations unless a language file is in force.
Missing: other runs; the three counterexamples are such. -/
theorem C09_independent_partial (env : Env) (fuel : Nat) (items : List Item) (args : List Str)
    (hplain : ∀ f ∈ filesUnder items, PlainInfile env f)
    (hsets : ∀ path fc, parseConfigVal env fuel path = .ok (some fc) → SetsOk fc.2.1 ∧ NoOptionNamed fc.2.1)
    (together : List RunGroup) (h : getConfigMany env fuel items args = .ok together)
    (g : RunGroup) (hg : g ∈ together) (f : PyFile) (hf : f ∈ filesUnder g.items) (hpy : isPython f.1 = true) :
    ∃ g', getConfigMany env fuel [aloneItem f] args = .ok [g'] ∧ g'.items.map (·.path) = [f.1] ∧
      SameMeaning g.config g'.config ∧ ((∀ s, g'.config.getItem .languageFile ≠ .ok (.str s)) → g.lang = g'.lang) := by
  have hperm : f ∈ filesUnder items := by
    obtain ⟨_, sk, _, hp, _⟩ := C08_run env fuel items args together h
    exact hp.mem_iff.1 (List.mem_append_left _ (List.mem_flatMap.2 ⟨g, hg, hf⟩))
  have hrun : ∀ cmd cmdPath items, mkConfig (some "cmd".toList) (parseArgs args).1 = .ok cmd →
      cmd.getLastValue .configFile false = .ok cmdPath → getConfigMany env fuel items args =
        match parseInfileConfigs env items cmd with
        | .error e => .error e
        | .ok groups => runGroups env fuel cmd cmdPath groups [] := by
    intro cmd cmdPath items h1 h2
    unfold getConfigMany
    rw [h1]
    simp only [h2]
    cases parseInfileConfigs env items cmd <;> rfl
  unfold getConfigMany at h
  split at h
  · cases h
  rename_i cmd hcmd
  split at h
  · cases h
  rename_i gs hgs
  split at h
  · cases h
  rename_i cmdPath hpath
  obtain ⟨_, hfrom, _⟩ := runGroups_spec gs _ _ h
  obtain ⟨k, hk, hitems, lang, cache, cache', hone, hlang⟩ := hfrom g hg
  rw [hrun cmd cmdPath _ hcmd hpath]
  have tc := typed_mkConfig hcmd
  -- the final step, once the alone run has one group
  have finish : ∀ key c, parseInfileConfigs env [aloneItem f] cmd = .ok [(key, c, [aloneItem f])] →
      (∃ ic', oneConfig env fuel cmd cmdPath c = .ok (some (ic', lang)) ∧ SameMeaning g.config ic') →
      ∃ g', (match parseInfileConfigs env [aloneItem f] cmd with
        | .error e => .error e
        | .ok groups => runGroups env fuel cmd cmdPath groups [] : Except PyErr (List RunGroup)) = .ok [g'] ∧
        g'.items.map (·.path) = [f.1] ∧
        SameMeaning g.config g'.config ∧ ((∀ s, g'.config.getItem .languageFile ≠ .ok (.str s)) → g.lang = g'.lang) := by
    intro key c hpi ⟨ic', ho, hm⟩
    have hlf : ∃ v, ic'.getItem .languageFile = .ok v ∧ g.config.getItem .languageFile = .ok v := by
      have hx := hm.others .languageFile (by decide)
      unfold langOf at hlang
      cases hv : g.config.getItem .languageFile with
      | error e => rw [hv] at hlang; cases hlang
      | ok v => exact ⟨v, by rw [← hx, hv], rfl⟩
    obtain ⟨v, hv, hv'⟩ := hlf
    obtain ⟨l, c2, hl, hno⟩ := langOf_ok env ic' lang [] v hv
    refine ⟨⟨[aloneItem f], ic', l⟩, ?_, rfl, hm, ?_⟩
    · rw [hpi]
      simp only
      rw [runGroups_cons, ho]
      simp only [hl, runGroups]
    · intro hn
      have hn' : ∀ s, v ≠ .str s := fun s hs => hn s (by rw [hv, hs])
      obtain ⟨l2, c3, hl2, hno2⟩ := langOf_ok env g.config lang cache v hv'
      rw [hlang] at hl2
      cases hl2
      rw [hno hn', hno2 hn']
  obtain ⟨b, hb⟩ := ignoreInfile_ok tc
  cases b with
  | true =>
    obtain ⟨ic, c, hog⟩ := C08_one_group env cmd hb
    rw [hog items] at hgs
    cases hgs
    simp only [List.mem_singleton] at hk
    subst hk
    obtain ⟨path, file, sets, config, hp1, hp2, hp3, hp4⟩ := oneConfig_some hone
    obtain ⟨c0, hc0, _⟩ := mkConfig_spec none []
    have tcfg : Typed c := by
      unfold parseInfileConfigs at hog
      have := hog []
      rw [hb] at this
      simp only [hc0] at this
      split at this
      · cases this
      · cases this; exact typed_mkConfig hc0
    have tself : Twins c c := by
      have hnil : present c.config = [] := by
        unfold parseInfileConfigs at hog
        have := hog []
        rw [hb] at this
        obtain ⟨c1, h1, h2, _⟩ := mkConfig_spec none []
        rw [hc0] at h1; cases h1
        simp only [hc0] at this
        split at this
        · cases this
        · cases this; exact h2
      exact ⟨tcfg, tcfg, fun _ _ => rfl, rfl, rfl, by rw [hnil]; simp, by rw [hnil]; simp, fun _ => rfl⟩
    obtain ⟨s1, s2⟩ := hsets _ _ hp2
    obtain ⟨r, r', i, i', e1, e2, e3, e4, hm⟩ := twins_meaning tself (typed_configFile hp2) tc sets s1 s2 cmdPath
    rw [hp3] at e1 e2
    cases e1; cases e2
    rw [hp4] at e3 e4
    cases e3; cases e4
    exact finish _ _ (hog _) ⟨_, hone, hm⟩
  | false =>
    have hgs' := hgs
    unfold parseInfileConfigs at hgs'
    rw [hb] at hgs'
    obtain ⟨k1, _, _⟩ := infileItems_spec env items [] gs [] (grouped_nil env) hgs'
    have ok := k1 k hk
    have hfk : f ∈ groupFiles k := by unfold groupFiles; rw [← hitems]; exact hf
    obtain ⟨c, ic, ho, ha⟩ := ok.own f hfk
    obtain ⟨rep, hrep, hr⟩ := ok.rep
    have hrepi : rep ∈ filesUnder items := by
      have := (C08_each_file_once env items cmd gs hb hgs).1
      exact this.mem_iff.1 (List.mem_flatMap.2 ⟨k, hk, hrep⟩)
    have tw : Twins k.2.1 c := twins_of_alike hr ho ha.symm (hplain _ hrepi) (hplain _ hperm)
    obtain ⟨path, file, sets, config, hp1, hp2, hp3, hp4⟩ := oneConfig_some hone
    obtain ⟨s1, s2⟩ := hsets _ _ hp2
    obtain ⟨r, r', i, i', e1, e2, e3, e4, hm⟩ := twins_meaning tw (typed_configFile hp2) tc sets s1 s2 cmdPath
    rw [hp3] at e1; cases e1
    rw [hp4] at e3; cases e3
    have hpath' : (if cmdPath ≠ .none then .ok cmdPath else c.getLastValue .configFile true : Except PyErr Val) = .ok path := by
      rw [← hp1, getLastValue_spec _ rfl, getLastValue_spec _ rfl, tw.last .configFile rfl]
    refine finish ic c ?_ ⟨i', ?_, hm⟩
    · unfold parseInfileConfigs
      rw [hb]
      simp only [infileItems, aloneItem, infileRec, hpy, if_true, ho.1, ho.2, addGroups, List.foldl_cons, List.foldl_nil, addGroup]
    · unfold oneConfig
      rw [hpath']
      simp only [hp2, e2, e4]

/-- A default configuration without groups. -/
def plainEnv : Env := { exEnv with
  load := fun p =>
    if p = "empty".toList then some []
    else if p = "default".toList then some [("pylint".toList, .str "--disable=all".toList)]
    else none }

theorem plainEnv_sets (fuel : Nat) (path : Val) (fc : FileConfig) (h : parseConfigVal plainEnv fuel path = .ok (some fc)) :
    fc.2.1 = [] := by
  cases path with
  | str p =>
    obtain ⟨files, hc, hlen, hr⟩ := C10_only_chains h
    clear hlen
    have hl : ∀ f ∈ files, plainEnv.load f.1 = some f.2 := by
      clear hr h
      induction hc with
      | base hd => intro f hf; simp only [List.mem_singleton] at hf; subst hf; exact hd
      | step _ hd _ _ ih =>
        intro f hf
        rcases List.mem_append.1 hf with hf | hf
        · exact ih f hf
        · simp only [List.mem_singleton] at hf; subst hf; exact hd
    have hd : ∀ f ∈ files, (Dict.keys f.2).Nodup ∧ groupsIn f.2 = [] := by
      intro f hf
      have := hl f hf
      unfold plainEnv at this
      simp only at this
      split at this
      · rw [← Option.some.inj this]; exact ⟨by decide, rfl⟩
      · split at this
        · rw [← Option.some.inj this]; exact ⟨by decide, rfl⟩
        · cases this
    have hclosest : ∀ (fs : List (Str × Dict Str Toml)), (∀ f ∈ fs, groupsIn f.2 = []) → ∀ key, closest groupsIn key fs = none := by
      intro fs
      induction fs with
      | nil => intro _ _; rfl
      | cons f fs ih =>
        intro hfs key
        rw [closest, ih (fun g hg => hfs g (List.mem_cons_of_mem _ hg)), hfs f (List.mem_cons_self ..)]
        rfl
    cases hs : fc.2.1 with
    | nil => rfl
    | cons e rest =>
      obtain ⟨k, v⟩ := e
      have := (C10_inherited plainEnv files fc (fun f hf => (hd f hf).1) hr k).1
      rw [hclosest files (fun f hf => (hd f hf).2), hs] at this
      simp [Dict.get?] at this
  | _ => cases h

-- Non-vacuity: a directory and a file with the same written options.
example :
    let line := "# edulint: pylint=--enable=x,y flake8=--a".toList
    let items : List Item := [⟨"d".toList, .dir (.cons "a.py".toList (.file [line]) (.cons "n.txt".toList (.file []) .nil))⟩,
      ⟨"b.py".toList, .file ["x = 1".toList, line]⟩, ⟨"c.py".toList, .file []⟩]
    (∀ f ∈ filesUnder items, PlainInfile plainEnv f) ∧
    (∀ path fc, parseConfigVal plainEnv 3 path = .ok (some fc) → SetsOk fc.2.1 ∧ NoOptionNamed fc.2.1) ∧
    (observed (getConfigMany plainEnv 3 items [])).toOption.map (fun gs => gs.map (·.1))
      = some [["d".toList, "b.py".toList], ["c.py".toList]] := by
  refine ⟨?_, ?_, by decide +kernel⟩
  · have : ∀ f ∈ filesUnder [⟨"d".toList, .dir (.cons "a.py".toList (.file ["# edulint: pylint=--enable=x,y flake8=--a".toList]) (.cons "n.txt".toList (.file []) .nil))⟩,
      ⟨"b.py".toList, .file ["x = 1".toList, "# edulint: pylint=--enable=x,y flake8=--a".toList]⟩, ⟨"c.py".toList, .file []⟩],
      (match parseInfileConfig plainEnv f.1 f.2 with
      | .ok c => (present c.config).all fun a => decide (a.option ≠ .setGroups ∧ a.val ≠ (optionParse a.option).default)
      | .error _ => true) = true := by decide +kernel
    intro f hf c hc a ha
    have h := this f hf
    rw [hc] at h
    have := List.all_eq_true.1 h a ha
    simpa using this
  · intro path fc h
    rw [plainEnv_sets 3 path fc h]
    exact ⟨setsOk_nil, fun o => rfl⟩

/-! ### C01 from the written texts to the value in force -/

/-- An option value that asks to ignore in-file configuration. -/
def Asks (given : Option (Option Str)) : Prop :=
  ∃ v, given = some (some v) ∧ ("all".toList ∈ splitOn ',' v ∨ "edulint".toList ∈ splitOn ',' v)

theorem ignoreInfile_false {c : Config} {given : Option (Option Str)}
    (hc : (valsOf .ignoreInfileConfigFor (present c.config)).getLast?
      = given.map (optionParse .ignoreInfileConfigFor).type.convert) (h : ¬ Asks given) : ignoreInfile c = .ok false := by
  unfold ignoreInfile
  rw [getLastValue_spec _ rfl, hc]
  cases given with
  | none => rfl
  | some v =>
    cases v with
    | none => rfl
    | some v =>
      cases v with
      | nil => rfl
      | cons x v =>
        have : (optionParse .ignoreInfileConfigFor).type.convert (some (x :: v)) = .list (splitOn ',' (x :: v)) := rfl
        simp only [Option.map_some, Option.getD_some, this]
        have h1 : "all".toList ∉ splitOn ',' (x :: v) := fun hm => h ⟨_, rfl, .inl hm⟩
        have h2 : "edulint".toList ∉ splitOn ',' (x :: v) := fun hm => h ⟨_, rfl, .inr hm⟩
        simp only [List.contains_eq_mem, h1, h2, decide_false, Bool.or_self]

theorem resolveRelative_vals {env path c o c'} (h : resolveRelative env path c o = .ok c') {o' : Opt} (hne : o' ≠ o) :
    valsOf o' (present c'.config) = valsOf o' (present c.config) := by
  unfold resolveRelative at h
  split at h
  · cases h
  · split at h
    · cases h
    · cases h
      simp only [present_append, valsOf_append, present_some, present_nil, valsOf_cons, if_neg hne.symm, valsOf_nil,
        List.append_nil]
  · cases h; rfl
  · cases h

theorem infile_vals {env : Env} {f : PyFile} {c extracted} (h : parseInfileConfig env f.1 f.2 = .ok c) (hx : extractArgs env f.2 = .ok extracted)
    (hno : ¬ Asks (lastGiven .ignoreInfileConfigFor (parseArgs extracted).1)) {o : Opt} (ho : isReplace o = true)
    (h1 : o ≠ .configFile) (h2 : o ≠ .languageFile) :
    (valsOf o (present c.config)).getLast? = (lastGiven o (parseArgs extracted).1).map (optionParse o).type.convert := by
  unfold parseInfileConfig at h
  rw [hx] at h
  simp only [C13_never_found] at h
  split at h
  · cases h
  rename_i c0 h0
  obtain ⟨c', e1, e2, _⟩ := mkConfig_spec (some "in-file".toList) (parseArgs extracted).1
  rw [h0] at e1; cases e1
  have base : ∀ o, isReplace o = true → (valsOf o (present c0.config)).getLast?
      = (lastGiven o (parseArgs extracted).1).map (optionParse o).type.convert := by
    intro o ho
    rw [e2, valsOf_dropOverridden_replace _ ho, getLast?_valsOf_convert]
    cases lastGiven o (parseArgs extracted).1 <;> rfl
  split at h
  · cases h
  rename_i c1 hc1
  split at h
  · cases h
  rename_i c2 hc2
  have v2 : ∀ o, o ≠ .configFile → o ≠ .languageFile → valsOf o (present c2.config) = valsOf o (present c0.config) := by
    intro o a b
    rw [resolveRelative_vals hc2 b, resolveRelative_vals hc1 a]
  have hi : ignoreInfile c2 = .ok false :=
    ignoreInfile_false (by rw [v2 _ (by decide) (by decide)]; exact base _ rfl) hno
  unfold resolveIgnoreInfile at h
  rw [hi] at h
  cases h
  rw [v2 o h1 h2]
  exact base o ho

/-- **C01** (end to end). For a run over one file, when nothing asks to ignore the file's configuration: a
configuration file (a chain of files) is used, and every option of the replacing kind except the two that name
files has the documented value, computed from the written options of the command line, of the file's comments and of
the chain. -/
theorem C01_end_to_end (env : Env) (fuel : Nat) (f : PyFile) (args : List Str) (g : RunGroup) (hpy : isPython f.1 = true)
    (hsets : ∀ path fc, parseConfigVal env fuel path = .ok (some fc) → SetsOk fc.2.1)
    (h : getConfigMany env fuel [aloneItem f] args = .ok [g])
    (hcmd : ¬ Asks (lastGiven .ignoreInfileConfigFor (parseArgs args).1)) :
    ∃ path files layers extracted, RefChain env path files ∧
      List.Forall₂ (fun f l => l.1 = enablerName env f.1 f.2 ∧ WrittenIn env f.1 f.2 l.2) files layers ∧
      extractArgs env f.2 = .ok extracted ∧
      (¬ Asks (lastGiven .ignoreInfileConfigFor (parseArgs extracted).1) →
        ¬ Asks (lastInChain .ignoreInfileConfigFor layers) →
        ∀ o, (optionParse o).combine = .replace → o ≠ .configFile → o ≠ .languageFile →
          g.config.getItem o = .ok (documentedValue o layers (parseArgs extracted).1 (parseArgs args).1)) := by
  unfold getConfigMany at h
  split at h
  · cases h
  rename_i cmd hc
  split at h
  · cases h
  rename_i gs hgs
  split at h
  · cases h
  rename_i cmdPath hpath
  obtain ⟨ccmd, k1, k2, _⟩ := mkConfig_spec (some "cmd".toList) (parseArgs args).1
  rw [hc] at k1; cases k1
  have vcmd : ∀ o, isReplace o = true → (valsOf o (present cmd.config)).getLast?
      = (lastGiven o (parseArgs args).1).map (optionParse o).type.convert := by
    intro o ho
    rw [k2, valsOf_dropOverridden_replace _ ho, getLast?_valsOf_convert]
    cases lastGiven o (parseArgs args).1 <;> rfl
  have hno := ignoreInfile_false (vcmd _ rfl) hcmd
  unfold parseInfileConfigs at hgs
  rw [hno] at hgs
  simp only [infileItems, aloneItem, infileRec, hpy, if_true] at hgs
  split at hgs
  · cases hgs
  rename_i sub hsub
  split at hsub
  · cases hsub
  rename_i c hinf
  split at hsub
  · cases hsub
  rename_i ic hic
  cases hsub
  simp only [addGroups, List.foldl_cons, List.foldl_nil, addGroup, Except.ok.injEq] at hgs
  subst hgs
  rw [runGroups_cons] at h
  split at h
  · cases h
  · cases h
  rename_i ic' lang hone
  split at h
  · cases h
  simp only [runGroups] at h
  cases h
  obtain ⟨path, file, sets, config, hp1, hp2, hp3, hp4⟩ := oneConfig_some hone
  cases path with
  | str p =>
    obtain ⟨files, hch, _, hr⟩ := C10_only_chains hp2
    obtain ⟨layers, hl1, hl2, _⟩ := C10_contributions env files _ hr
    obtain ⟨extracted, hx⟩ : ∃ e, extractArgs env f.2 = .ok e := by
      unfold parseInfileConfig at hinf
      split at hinf
      · cases hinf
      · exact ⟨_, by assumption⟩
    refine ⟨p, files, layers, extracted, hch, hl1, hx, ?_⟩
    intro hn1 hn2 o ho h1 h2
    have hro : isReplace o = true := by simp [isReplace, ho]
    obtain ⟨fc, m1, m2⟩ := chainConfig_spec layers
    simp only at hl2
    rw [hl2] at m1; cases m1
    have vfile : ∀ o, isReplace o = true → (valsOf o (present file.config)).getLast?
        = (lastInChain o layers).map (optionParse o).type.convert := by
      intro o ho
      rw [m2, valsOf_dropOverridden_replace _ ho, getLast?_valsOf_convert, lastGiven_chainArgs]
      cases lastInChain o layers <;> rfl
    have hif := ignoreInfile_false (vfile _ rfl) hn2
    have tf := typed_configFile hp2
    have ti := typed_infile hinf
    have tc := typed_mkConfig hc
    unfold chooseConfig at hp3
    obtain ⟨k, a1, a2, _⟩ := combine_spec c cmd ti.vals tc.vals
    rw [a1, hif] at hp3
    simp only at hp3
    obtain ⟨r, b1, b2, _⟩ := combine_spec file k tf.vals (typed_combine ti tc a1).vals
    rw [hp3] at b1; cases b1
    obtain ⟨en, _, hi⟩ := toImmutable_spec config sets (hsets _ _ hp2) (typed_combine tf (typed_combine ti tc a1) hp3).vals
    rw [hp4] at hi; cases hi
    rw [getItem_map, b2, a2, inForce_replace hro]
    simp only [valsOf_append, getLast?_append', valsOf_dropOverridden_replace _ hro]
    have hlast : ∀ x : Option Val, x.toList.getLast? = x := by
      intro x; cases x <;> rfl
    rw [hlast]
    simp only [vcmd o hro, infile_vals hinf hx hn1 hro h1 h2, vfile o hro, documentedValue]
    cases lastGiven o (parseArgs args).1 <;> cases lastGiven o (parseArgs extracted).1 <;>
      cases lastInChain o layers <;> rfl
  | _ => cases hp2

-- Non-vacuity: one file with a comment, linted under the default configuration with a command line option.
example : ∃ g, getConfigMany exEnv 3 [aloneItem ("b.py".toList, ["# edulint: allowed-onechar-names=ij".toList])]
      ["no-flake8".toList] = .ok [g] ∧
    ¬ Asks (lastGiven .ignoreInfileConfigFor (parseArgs ["no-flake8".toList]).1) ∧
    (g.config.getItem .allowedOnecharNames).toOption = some (.str "ij".toList) ∧
    (g.config.getItem .disallowedBuiltinNames).toOption = some (.list ["id".toList]) ∧
    (g.config.getItem .noFlake8).toOption = some (.bool true) := by
  refine ⟨_, rfl, ?_, by decide +kernel, by decide +kernel, by decide +kernel⟩
  rintro ⟨v, hv, _⟩
  revert hv
  have : lastGiven .ignoreInfileConfigFor (parseArgs ["no-flake8".toList]).1 = none := by decide
  rw [this]
  intro hv; cases hv

end Verif

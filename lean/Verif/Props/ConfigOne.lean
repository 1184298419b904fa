import Verif.Model.ConfigOne
import Verif.Props.Runs

/-!
# C153: the configuration for one path
-/

namespace Verif

theorem runGroups_length {env fuel cmd cmdPath} : ∀ (gs : Groups) (cache rgs), runGroups env fuel cmd cmdPath gs cache = .ok rgs → rgs.length ≤ gs.length
  | [], cache, rgs, h => by
    rw [runGroups] at h
    cases h
    simp
  | (k, infile, items) :: rest, cache, rgs, h => by
    rw [runGroups_cons] at h
    cases ho : oneConfig env fuel cmd cmdPath infile with
    | error e => rw [ho] at h; cases h
    | ok r =>
      rw [ho] at h
      cases r with
      | none =>
        simp only at h
        have := runGroups_length rest cache rgs h
        simp only [List.length_cons]
        omega
      | some r =>
        obtain ⟨ic, lang⟩ := r
        simp only at h
        cases hl : langOf env ic lang cache with
        | error e => rw [hl] at h; cases h
        | ok lc =>
          rw [hl] at h
          simp only at h
          cases hr : runGroups env fuel cmd cmdPath rest lc.2 with
          | error e => rw [hr] at h; cases h
          | ok more =>
            rw [hr] at h
            cases h
            have := runGroups_length rest lc.2 more hr
            simp only [List.length_cons]
            omega

theorem parseInfileConfigs_file {env : Env} {f : PyFile} {cmd : Config} {groups : Groups} (h : parseInfileConfigs env [aloneItem f] cmd = .ok groups) : groups.length ≤ 1 := by
  unfold parseInfileConfigs at h
  split at h
  · cases h
  · split at h
    · cases h
    · split at h
      · cases h
      · cases h; simp
  · simp only [infileItems, aloneItem, infileRec] at h
    by_cases hp : isPython f.1 = true
    · simp only [hp, if_true] at h
      cases h1 : parseInfileConfig env f.1 f.2 with
      | error e => rw [h1] at h; cases h
      | ok c =>
        simp only [h1] at h
        cases h2 : c.toImmutable [] with
        | error e => rw [h2] at h; cases h
        | ok ic =>
          simp only [h2, addGroups, List.foldl_cons, List.foldl_nil, addGroup] at h
          cases h
          simp
    · simp only [hp] at h
      cases h
      simp [addGroups]

/-- **C153**, a file. For a file, there is at most one configuration under which it is linted alone, and this is the one that is returned; `None` is returned exactly if the file is
not linted. -/
theorem C153_file (env : Env) (fuel : Nat) (f : PyFile) (args : List Str) (groups : List RunGroup) (h : getConfigMany env fuel [aloneItem f] args = .ok groups) :
    (∃ g, groups = [g] ∧ getConfigOne env fuel (aloneItem f) args = .ok (some (g.config, g.lang))) ∨ (groups = [] ∧ getConfigOne env fuel (aloneItem f) args = .ok none) := by
  have hl : groups.length ≤ 1 := by
    unfold getConfigMany at h
    split at h
    · cases h
    split at h
    · cases h
    rename_i gs hgs
    split at h
    · cases h
    exact Nat.le_trans (runGroups_length _ _ _ h) (parseInfileConfigs_file hgs)
  unfold getConfigOne
  rw [h]
  match groups, hl with
  | [], _ => exact .inr ⟨rfl, rfl⟩
  | [g], _ => exact .inl ⟨g, rfl, rfl⟩

/-- **C153**, failing. It fails exactly if linting the file alone does, in the same way. -/
theorem C153_fails (env : Env) (fuel : Nat) (f : PyFile) (args : List Str) (e : PyErr) :
    getConfigOne env fuel (aloneItem f) args = .error e ↔ getConfigMany env fuel [aloneItem f] args = .error e := by
  unfold getConfigOne
  cases h : getConfigMany env fuel [aloneItem f] args with
  | error x => simp
  | ok gs => cases gs <;> simp

/-- **C153** (partial), in a run. If a file is linted together with others, then the configuration that is returned for it means the same as the one under which it is linted, and the
translations are the same unless a language file is in force.

Missing: what is missing of C09. -/
theorem C153_run_partial (env : Env) (fuel : Nat) (items : List Item) (args : List Str)
    (hplain : ∀ f ∈ filesUnder items, PlainInfile env f)
    (hsets : ∀ path fc, parseConfigVal env fuel path = .ok (some fc) → SetsOk fc.2.1 ∧ NoOptionNamed fc.2.1)
    (together : List RunGroup) (h : getConfigMany env fuel items args = .ok together)
    (g : RunGroup) (hg : g ∈ together) (f : PyFile) (hf : f ∈ filesUnder g.items) (hpy : isPython f.1 = true) :
    ∃ config lang, getConfigOne env fuel (aloneItem f) args = .ok (some (config, lang)) ∧ SameMeaning g.config config ∧
      ((∀ s, config.getItem .languageFile ≠ .ok (.str s)) → g.lang = lang) := by
  obtain ⟨g', h1, _, h2, h3⟩ := C09_independent_partial env fuel items args hplain hsets together h g hg f hf hpy
  refine ⟨g'.config, g'.lang, ?_, h2, h3⟩
  unfold getConfigOne
  rw [h1]

/-- **C153**, other files. For a file that is not a Python file, `None` is returned unless the command line asks to ignore the configuration in files. -/
theorem C153_not_python (env : Env) (fuel : Nat) (f : PyFile) (args : List Str) (cmd : Config) (hcmd : mkConfig (some "cmd".toList) (parseArgs args).1 = .ok cmd)
    (hi : ignoreInfile cmd = .ok false) (hpy : isPython f.1 = false) : getConfigOne env fuel (aloneItem f) args = .ok none := by
  obtain ⟨v, hv⟩ : ∃ v, cmd.getLastValue .configFile false = .ok v := ⟨_, getLastValue_spec cmd (o := .configFile) rfl false⟩
  unfold getConfigOne getConfigMany
  rw [hcmd]
  simp [parseInfileConfigs, hi, infileItems, aloneItem, infileRec, hpy, addGroups, hv, runGroups]

/-! ### Examples -/

/-- The values of an option in all configurations. -/
def valuesIn (o : Opt) (r : Except PyErr (List RunGroup)) : List (Option Val) :=
  match r with
  | .ok gs => gs.map fun g => (g.config.getItem o).toOption
  | .error _ => []

def valueOne (o : Opt) (r : Except PyErr (Option (ImmutableConfig × LangTranslations))) : Option Val :=
  match r with
  | .ok (some (c, _)) => (c.getItem o).toOption
  | _ => none

example : valueOne .allowedOnecharNames (getConfigOne exEnv 3 (aloneItem ("b.py".toList, ["# edulint: allowed-onechar-names=ij".toList])) []) = some (.str "ij".toList) := by
  decide +kernel

example : getConfigOne exEnv 3 (aloneItem ("b.txt".toList, [])) [] = .ok none := by
  obtain ⟨cmd, h, _⟩ := mkConfig_spec (some "cmd".toList) (parseArgs []).1
  exact C153_not_python exEnv 3 ("b.txt".toList, []) [] cmd h (by
    have : (match mkConfig (some "cmd".toList) (parseArgs []).1 with | .ok c => decide (ignoreInfile c = .ok false) | .error _ => false) = true := by decide +kernel
    rw [h] at this
    exact of_decide_eq_true this) (by decide +kernel)

/-- A directory with two files that have different configurations. -/
def twoFiles : Item :=
  ⟨"d".toList, .dir (.cons "a.py".toList (.file ["# edulint: allowed-onechar-names=ij".toList]) (.cons "b.py".toList (.file ["# edulint: allowed-onechar-names=xy".toList]) .nil))⟩

/-- **C153** is false of directories: for one with two files, they are linted under different configurations, and the first one is returned for the directory. -/
theorem C153_directory_counterexample :
    valuesIn .allowedOnecharNames (getConfigMany exEnv 3 [twoFiles] []) = [some (.str "ij".toList), some (.str "xy".toList)] ∧
    valueOne .allowedOnecharNames (getConfigOne exEnv 3 twoFiles []) = some (.str "ij".toList) := by
  decide +kernel

end Verif

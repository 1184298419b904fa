import Verif.Props.ConfigFiles
import Verif.Lemmas.Str

/-!
Property theorems about the meaning of option values: C47, C48.
-/

namespace Verif

/-! ### C47 Option values are read as documented -/

/-- What a written value denotes for an option, stated option by option. -/
def Denotes : Opt → Option Str → Val → Prop
  | .noFlake8, v, w =>
    ((v = none ∨ v = some "true".toList ∨ v = some "on".toList) ∧ w = .bool true) ∨
    (¬ (v = none ∨ v = some "true".toList ∨ v = some "on".toList) ∧ w = .bool false)
  | .pylint, v, w | .flake8, v, w => w = .list v.toList
  | .configFile, v, w | .languageFile, v, w | .allowedOnecharNames, v, w =>
    (v = none ∧ w = .none) ∨ ∃ s, v = some s ∧ w = .str s
  | .ignoreInfileConfigFor, v, w | .exportGroups, v, w | .setGroups, v, w | .disallowedBuiltinNames, v, w =>
    ∃ parts : List Str, w = .list parts ∧
      (((v = none ∨ v = some []) ∧ parts = []) ∨
        ∃ s, v = some s ∧ s ≠ [] ∧ parts ≠ [] ∧ (∀ p ∈ parts, ',' ∉ p) ∧ joinWith [','] parts = s)

/-- **C47.** Every written value is read as what it denotes. -/
theorem C47_values (o : Opt) (v : Option Str) : Denotes o v (convertArg ⟨o, v⟩).val := by
  have hl : ∀ v : Option Str, ∃ parts : List Str,
      OptType.convert .commaSeparatedList v = .list parts ∧
      (((v = none ∨ v = some []) ∧ parts = []) ∨
        ∃ s, v = some s ∧ s ≠ [] ∧ parts ≠ [] ∧ (∀ p ∈ parts, ',' ∉ p) ∧ joinWith [','] parts = s) := by
    intro v
    cases v with
    | none => exact ⟨[], rfl, .inl ⟨.inl rfl, rfl⟩⟩
    | some s =>
      cases s with
      | nil => exact ⟨[], rfl, .inl ⟨.inr rfl, rfl⟩⟩
      | cons c s =>
        exact ⟨_, rfl, .inr ⟨_, rfl, by simp, splitOn_ne_nil _ _, (splitOn_spec ',' _).1, (splitOn_spec ',' _).2⟩⟩
  cases o with
  | noFlake8 =>
    cases v with
    | none => exact .inl ⟨.inl rfl, rfl⟩
    | some s =>
      by_cases h1 : s = "true".toList
      · subst h1; exact .inl ⟨.inr (.inl rfl), by decide⟩
      · by_cases h2 : s = "on".toList
        · subst h2; exact .inl ⟨.inr (.inr rfl), by decide⟩
        · refine .inr ⟨?_, ?_⟩
          · rintro (h | h | h)
            · cases h
            · exact h1 (Option.some.inj h)
            · exact h2 (Option.some.inj h)
          · show Val.bool (decide (s = "true".toList) || decide (s = "on".toList)) = _
            rw [decide_eq_false h1, decide_eq_false h2]; rfl
  | pylint => cases v <;> rfl
  | flake8 => cases v <;> rfl
  | configFile => cases v with
    | none => exact .inl ⟨rfl, rfl⟩
    | some s => exact .inr ⟨s, rfl, rfl⟩
  | languageFile => cases v with
    | none => exact .inl ⟨rfl, rfl⟩
    | some s => exact .inr ⟨s, rfl, rfl⟩
  | allowedOnecharNames => cases v with
    | none => exact .inl ⟨rfl, rfl⟩
    | some s => exact .inr ⟨s, rfl, rfl⟩
  | ignoreInfileConfigFor => exact hl v
  | exportGroups => exact hl v
  | setGroups => exact hl v
  | disallowedBuiltinNames => exact hl v

/-- **C47** (defaults). With nothing written anywhere, every option has its documented default. -/
theorem C47_defaults : ∃ ic, layeredConfig [] [] [] [] = .ok ic ∧
    ic.getItem .configFile = .ok (.str "default".toList) ∧ ic.getItem .pylint = .ok (.list []) ∧
    ic.getItem .flake8 = .ok (.list []) ∧ ic.getItem .allowedOnecharNames = .ok .none ∧
    ic.getItem .disallowedBuiltinNames = .ok (.list []) ∧ ic.getItem .noFlake8 = .ok (.bool false) ∧
    ic.getItem .ignoreInfileConfigFor = .ok (.list []) ∧ ic.getItem .exportGroups = .ok (.list []) ∧
    ic.getItem .setGroups = .ok (.list []) ∧ ic.getItem .languageFile = .ok .none :=
  ⟨_, rfl, rfl, rfl, rfl, rfl, rfl, rfl, rfl, rfl, rfl, rfl⟩

/-- **C47** (which options take a value): all but `no-flake8`, which takes none. -/
theorem C47_takes_value (o : Opt) (name : Str) (h : Opt.safeFromName name = some o) (v : Bool) :
    parseOption name v = .ok o ↔ (v = true ↔ o ≠ .noFlake8) := by
  unfold parseOption
  rw [h]
  cases o <;> cases v <;> simp [optionParse]

example : Denotes .setGroups (some "a,,b".toList) (.list ["a".toList, [], "b".toList]) :=
  ⟨_, rfl, .inr ⟨_, rfl, by decide, by decide, by decide, by decide⟩⟩

/-! ### C48 Notations of configuration files -/

theorem joinToml_strs (parts : List Str) : joinToml (parts.map Toml.str) = .ok parts := by
  induction parts with
  | nil => rfl
  | cons p ps ih => simp [joinToml, ih]

/-- **C48** (lists). A TOML list of strings means the same as the comma separated string. -/
theorem C48_list_notation (env : Env) (path : Str) (o : Opt) (parts : List Str) (ho : o ≠ .languageFile) :
    entryStrings env path o (.arr (parts.map .str)) = entryStrings env path o (.str (joinWith [','] parts)) ∧
    entryStrings env path o (.str (joinWith [','] parts)) = .ok [joinWith [','] parts] := by
  constructor
  · simp [entryStrings, ho, tomlStrings, tomlToStr, joinToml_strs]
  · simp [entryStrings, ho, tomlStrings, tomlToStr]

/-- **C48** (tables). In a table for pylint or flake8, each entry means the command line argument spelled
`--key=value`, in the order written, lists again being comma separated. -/
theorem C48_table_notation (env : Env) (path : Str) (o : Opt) (ho : o = .pylint ∨ o = .flake8)
    (entries : List (Str × List Str)) :
    entryStrings env path o (.table (entries.map fun e => (e.1, .arr (e.2.map .str))))
      = .ok (entries.map fun e => "--".toList ++ e.1 ++ ['='] ++ joinWith [','] e.2) ∧
    entryStrings env path o (.table (entries.map fun e => (e.1, .str (joinWith [','] e.2))))
      = .ok (entries.map fun e => "--".toList ++ e.1 ++ ['='] ++ joinWith [','] e.2) := by
  have hl : isLinterName o.toName = true := by rcases ho with rfl | rfl <;> decide
  have hn : o ≠ .languageFile := by rcases ho with rfl | rfl <;> decide
  have h1 : ∀ es : List (Str × List Str), tomlPairs (es.map fun e => (e.1, Toml.arr (e.2.map .str)))
      = .ok (es.map fun e => "--".toList ++ e.1 ++ ['='] ++ joinWith [','] e.2) := by
    intro es
    induction es with
    | nil => rfl
    | cons e es ih =>
      simp only [List.map_cons, tomlPairs, tomlPairToStr, tomlToStr, joinToml_strs, ih, Option.toList_some]
      rfl
  have h2 : ∀ es : List (Str × List Str), tomlPairs (es.map fun e => (e.1, Toml.str (joinWith [','] e.2)))
      = .ok (es.map fun e => "--".toList ++ e.1 ++ ['='] ++ joinWith [','] e.2) := by
    intro es
    induction es with
    | nil => rfl
    | cons e es ih =>
      simp only [List.map_cons, tomlPairs, tomlPairToStr, tomlToStr, ih, Option.toList_some]
      rfl
  unfold entryStrings
  simp only [if_neg hn, hl, if_true, h1, h2, and_self]

/-- C48, every option: each option can be set from a configuration file. -/
def C48_claim : Prop :=
  ∀ o : Opt, o ≠ .configFile → ∃ env path v parts,
    fileEntries env path [(o.toName, v)] ⟨[], some [], some []⟩ = .ok parts ∧ ∃ a ∈ parts.args, a.option = o

/-- **C48** is false: `no-flake8` takes no value, and an entry of a TOML file always has one, so it is refused
whatever is written. -/
theorem C48_counterexample : ¬ C48_claim := by
  intro h
  obtain ⟨env, path, v, parts, hp, a, ha, _⟩ := h .noFlake8 (by decide)
  have e1 : (Opt.toName .noFlake8) ≠ optionSetsLabel := by decide
  have e2 : (Opt.toName .noFlake8) ≠ langTranslationsLabel := by decide
  have e3 : (Opt.toName .noFlake8) ≠ defaultEnablerLabel := by decide
  have e4 : parseOption (Opt.toName .noFlake8) true = .error .valueUnexpected := by decide
  simp only [fileEntries, if_neg e1, if_neg e2, if_neg e3, e4] at hp
  cases hp
  cases ha

/-- **C48**, the other options: each can be set to any string. Missing: `no-flake8`. -/
theorem C48_settable_partial (env : Env) (path : Str) (o : Opt) (s : Str) (h1 : o ≠ .configFile)
    (h2 : o ≠ .noFlake8) (h3 : o ≠ .languageFile) :
    fileEntries env path [(o.toName, .str s)] ⟨[], some [], some []⟩ = .ok ⟨[⟨o, some s⟩], some [], some []⟩ := by
  have e1 : o.toName ≠ optionSetsLabel := by cases o <;> decide
  have e2 : o.toName ≠ langTranslationsLabel := by cases o <;> decide
  have e3 : o.toName ≠ defaultEnablerLabel := by cases o <;> decide
  have e4 : parseOption o.toName true = .ok o := by
    cases o <;> first | exact absurd rfl h2 | decide
  simp only [fileEntries, if_neg e1, if_neg e2, if_neg e3, e4, if_neg h1, entryStrings, if_neg h3, tomlStrings,
    tomlToStr, Option.toList_some, List.map_cons, List.map_nil, List.nil_append]

example : entryStrings twoEnv [] .pylint (.table [("enable".toList, .arr [.str "a".toList, .str "b".toList])])
    = .ok ["--enable=a,b".toList] := by decide

end Verif

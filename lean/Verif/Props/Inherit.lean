import Verif.Props.ConfigFiles

/-!
Property theorems about what a configuration file inherits from its base: C10.
-/

namespace Verif

/-- The options written in the entries of a configuration file, in order. The tables for groups and
translations, the file's display name, the reference to the base, names that are no options and the option
that takes no value contribute none. -/
inductive WrittenIn (env : Env) (path : Str) : Dict Str Toml → List RawArg → Prop
  | nil : WrittenIn env path [] []
  | skip {name v rest args} :
      (name = "translations".toList ∨ name = "language-translations".toList ∨ name = "default-enabler-name".toList ∨
        Opt.safeFromName name = none ∨ Opt.safeFromName name = some .configFile ∨
        Opt.safeFromName name = some .noFlake8) →
      WrittenIn env path rest args → WrittenIn env path ((name, v) :: rest) args
  | option {name v rest args o strs} :
      Opt.safeFromName name = some o → o ≠ .configFile → o ≠ .noFlake8 → entryStrings env path o v = .ok strs →
      WrittenIn env path rest args →
      WrittenIn env path ((name, v) :: rest) (strs.map (fun s => RawArg.mk o (some s)) ++ args)

/-- The option groups a configuration file defines itself. -/
def groupsIn (d : Dict Str Toml) : OptionSets :=
  match Dict.get? d "translations".toList with
  | none => []
  | some v =>
    match parseOptionSets v with
    | .ok (some s) => s
    | _ => []

/-- The translations a configuration file defines itself. -/
def translationsIn (d : Dict Str Toml) : LangTranslations :=
  match Dict.get? d "language-translations".toList with
  | none => []
  | some v => (parseLangTranslations v).getD []

theorem parseOption_true {name : Str} {o : Opt} (h : Opt.safeFromName name = some o) :
    parseOption name true = if o = .noFlake8 then .error .valueUnexpected else .ok o := by
  unfold parseOption
  rw [h]
  cases o <;> simp [optionParse]

theorem fileEntries_args (env : Env) (path : Str) (d : Dict Str Toml) : ∀ acc parts,
    fileEntries env path d acc = .ok parts → ∃ args, WrittenIn env path d args ∧ parts.args = acc.args ++ args := by
  induction d with
  | nil => intro acc parts h; cases h; exact ⟨[], .nil, by simp⟩
  | cons e d ih =>
    intro acc parts h
    obtain ⟨name, v⟩ := e
    unfold fileEntries at h
    by_cases h1 : name = optionSetsLabel
    · rw [if_pos h1] at h
      split at h
      · cases h
      · obtain ⟨args, ha, hb⟩ := ih _ _ h
        exact ⟨args, .skip (.inl h1) ha, hb⟩
    rw [if_neg h1] at h
    by_cases h2 : name = langTranslationsLabel
    · rw [if_pos h2] at h
      obtain ⟨args, ha, hb⟩ := ih _ _ h
      exact ⟨args, .skip (.inr (.inl h2)) ha, hb⟩
    rw [if_neg h2] at h
    by_cases h3 : name = defaultEnablerLabel
    · rw [if_pos h3] at h
      obtain ⟨args, ha, hb⟩ := ih _ _ h
      exact ⟨args, .skip (.inr (.inr (.inl h3))) ha, hb⟩
    rw [if_neg h3] at h
    cases hn : Opt.safeFromName name with
    | none =>
      have : parseOption name true = .error .unrecognized := by unfold parseOption; rw [hn]
      rw [this] at h
      obtain ⟨args, ha, hb⟩ := ih _ _ h
      exact ⟨args, .skip (.inr (.inr (.inr (.inl hn)))) ha, hb⟩
    | some o =>
      rw [parseOption_true hn] at h
      by_cases h4 : o = .noFlake8
      · subst h4
        obtain ⟨args, ha, hb⟩ := ih _ _ h
        exact ⟨args, .skip (.inr (.inr (.inr (.inr (.inr hn))))) ha, hb⟩
      rw [if_neg h4] at h
      simp only at h
      by_cases h5 : o = .configFile
      · subst h5
        obtain ⟨args, ha, hb⟩ := ih _ _ h
        exact ⟨args, .skip (.inr (.inr (.inr (.inr (.inl hn))))) ha, hb⟩
      rw [if_neg h5] at h
      cases he : entryStrings env path o v with
      | error e => rw [he] at h; cases h
      | ok strs =>
        rw [he] at h
        obtain ⟨args, ha, hb⟩ := ih _ _ h
        exact ⟨_, .option hn h5 h4 he ha, by rw [hb]; simp⟩

theorem fileEntries_rest (env : Env) (path : Str) (d : Dict Str Toml) : ∀ acc parts,
    (Dict.keys d).Nodup → fileEntries env path d acc = .ok parts →
    (match Dict.get? d optionSetsLabel with
      | none => parts.sets = acc.sets
      | some v => parseOptionSets v = .ok parts.sets) ∧
    (match Dict.get? d langTranslationsLabel with
      | none => parts.lang = acc.lang
      | some v => parseLangTranslations v = parts.lang) := by
  induction d with
  | nil => intro acc parts _ h; cases h; exact ⟨rfl, rfl⟩
  | cons e d ih =>
    intro acc parts hn h
    obtain ⟨name, v⟩ := e
    have hn' : name ∉ Dict.keys d ∧ (Dict.keys d).Nodup := by simpa [Dict.keys] using hn
    have hlab : optionSetsLabel ≠ langTranslationsLabel := by decide
    unfold fileEntries at h
    by_cases h1 : name = optionSetsLabel
    · rw [if_pos h1] at h
      split at h
      · cases h
      · rename_i s hs
        have i := ih _ _ hn'.2 h
        subst h1
        rw [(Dict.get?_eq_none_iff _ _).2 hn'.1] at i
        refine ⟨?_, ?_⟩
        · simp only [Dict.get?, if_true, hs, i.1]
        · simpa [Dict.get?, hlab] using i.2
    rw [if_neg h1] at h
    by_cases h2 : name = langTranslationsLabel
    · rw [if_pos h2] at h
      have i := ih _ _ hn'.2 h
      subst h2
      rw [(Dict.get?_eq_none_iff _ _).2 hn'.1] at i
      refine ⟨?_, ?_⟩
      · simpa [Dict.get?, hlab.symm] using i.1
      · simp only [Dict.get?, if_true, i.2]
    rw [if_neg h2] at h
    have main : ∀ acc', acc'.sets = acc.sets → acc'.lang = acc.lang → fileEntries env path d acc' = .ok parts →
        (match Dict.get? ((name, v) :: d) optionSetsLabel with
          | none => parts.sets = acc.sets
          | some v => parseOptionSets v = .ok parts.sets) ∧
        (match Dict.get? ((name, v) :: d) langTranslationsLabel with
          | none => parts.lang = acc.lang
          | some v => parseLangTranslations v = parts.lang) := by
      intro acc' e1 e2 h'
      have i := ih _ _ hn'.2 h'
      rw [e1, e2] at i
      simpa only [Dict.get?, if_neg h1, if_neg h2] using i
    by_cases h3 : name = defaultEnablerLabel
    · rw [if_pos h3] at h; exact main _ rfl rfl h
    rw [if_neg h3] at h
    split at h
    · exact main _ rfl rfl h
    · split at h
      · exact main _ rfl rfl h
      · split at h
        · cases h
        · refine main _ ?_ ?_ h <;> rfl

/-- The value the file closest to the end of a chain gives to a key. -/
def closest {ν : Type} (here : Dict Str Toml → Dict Str ν) (key : Str) : List (Str × Dict Str Toml) → Option ν
  | [] => none
  | f :: rest =>
    match closest here key rest with
    | some v => some v
    | none => Dict.get? (here f.2) key

theorem closest_snoc {ν : Type} (here : Dict Str Toml → Dict Str ν) (key : Str) (files f) :
    closest here key (files ++ [f]) = (Dict.get? (here f.2) key).or (closest here key files) := by
  induction files with
  | nil => simp [closest]
  | cons g files ih =>
    simp only [List.cons_append, closest, ih]
    cases Dict.get? (here f.2) key <;> simp

theorem nodup_parseOptionSetsGo (d : List (Str × Toml)) : ∀ acc s, (Dict.keys acc).Nodup →
    parseOptionSetsGo d acc = .ok s → (Dict.keys s).Nodup := by
  induction d with
  | nil => intro acc s ha h; cases h; exact ha
  | cons e d ih =>
    intro acc s ha h
    obtain ⟨n, v⟩ := e
    cases v with
    | table t =>
      unfold parseOptionSetsGo at h
      split at h
      · cases h
      · rename_i os _
        refine ih _ _ ?_ h
        by_cases ho : os = []
        · simpa [ho] using ha
        · rw [if_neg ho]; exact Dict.nodup_keys_set _ _ _ ha
    | _ => exact ih _ _ ha (by simpa [parseOptionSetsGo] using h)

theorem nodup_parseOptionSets {v s} (h : parseOptionSets v = .ok (some s)) : (Dict.keys s).Nodup := by
  cases v with
  | table d =>
    simp only [parseOptionSets] at h
    split at h
    · cases h
    · rename_i s' hs; cases h; exact nodup_parseOptionSetsGo _ _ _ (by simp [Dict.keys]) hs
  | _ => simp [parseOptionSets] at h

theorem nodup_parseLangTranslations {v s} (h : parseLangTranslations v = some s) : (Dict.keys s).Nodup := by
  cases v with
  | table d =>
    simp only [parseLangTranslations, Option.some.injEq] at h
    subst h
    have : ∀ (ex : Dict Str Toml) (l : Dict Str Toml) (acc : LangTranslations), (Dict.keys acc).Nodup →
        (Dict.keys (l.foldl (fun acc kv =>
          match kv with
          | (id, .str s) =>
            if id = translatedExtractsLabel then acc
            else Dict.set acc id ⟨s, (Dict.get? ex id).getD (.table [])⟩
          | _ => acc) acc)).Nodup := by
      intro ex l
      induction l with
      | nil => intro acc h; exact h
      | cons e l ih =>
        intro acc h
        apply ih
        obtain ⟨n, v⟩ := e
        cases v with
        | str s =>
          simp only
          split
          · exact h
          · exact Dict.nodup_keys_set _ _ _ h
        | _ => exact h
    exact this _ d [] (by simp [Dict.keys])
  | _ => simp [parseLangTranslations] at h

/-- **C10** (what a file inherits). In the configuration read from a chain every option group and every
translation is the one of the closest file defining it: a file overrides its base key by key and inherits the
rest. (A TOML table has each key once.) -/
theorem C10_inherited (env : Env) (files r) (hk : ∀ f ∈ files, (Dict.keys f.2).Nodup)
    (h : readChain env files = .ok r) (key : Str) :
    Dict.get? r.2.1 key = closest groupsIn key files ∧ Dict.get? r.2.2 key = closest translationsIn key files := by
  induction files using List.reverseRecOn generalizing r with
  | nil =>
    obtain ⟨c, hc, _⟩ := mkConfig_spec none []
    unfold readChain at h
    rw [hc] at h
    cases h
    exact ⟨rfl, rfl⟩
  | append_singleton files f ih =>
    rw [readChain_snoc] at h
    cases hb : readChain env files with
    | error e => rw [hb] at h; cases h
    | ok base =>
      rw [hb] at h
      obtain ⟨i1, i2⟩ := ih base (fun g hg => hk g (by simp [hg])) hb
      simp only at h
      unfold extendBase at h
      split at h
      · cases h
      rename_i parts hp
      obtain ⟨p1, p2⟩ := fileEntries_rest _ _ _ _ _ (hk f (by simp)) hp
      split at h
      · cases h
      split at h
      · cases h
      split at h
      · cases h
      rename_i sets hs
      split at h
      · cases h
      rename_i lang hl
      cases h
      simp only [closest_snoc, ← i1, ← i2]
      constructor
      · have hg : parts.sets = some (groupsIn f.2) ∧ (Dict.keys (groupsIn f.2)).Nodup := by
          unfold groupsIn
          show _ = some (match Dict.get? f.2 optionSetsLabel with | none => _ | some v => _) ∧ _
          cases hd : Dict.get? f.2 optionSetsLabel with
          | none =>
            rw [hd] at p1
            have hd' : Dict.get? f.2 "translations".toList = none := hd
            rw [hd']
            exact ⟨p1, by simp [Dict.keys]⟩
          | some v =>
            rw [hd] at p1
            have hd' : Dict.get? f.2 "translations".toList = some v := hd
            rw [hd']
            simp only at p1 ⊢
            cases hsets : parts.sets with
            | none => rw [hsets] at hs; cases hs
            | some s => rw [hsets] at p1; rw [p1]; exact ⟨rfl, nodup_parseOptionSets p1⟩
        rw [hg.1] at hs
        cases hs
        rw [Dict.get?_merge_nodup _ _ hg.2]
      · have hg : parts.lang = some (translationsIn f.2) ∧ (Dict.keys (translationsIn f.2)).Nodup := by
          unfold translationsIn
          cases hd : Dict.get? f.2 langTranslationsLabel with
          | none =>
            rw [hd] at p2
            have hd' : Dict.get? f.2 "language-translations".toList = none := hd
            rw [hd']
            exact ⟨p2, by simp [Dict.keys]⟩
          | some v =>
            rw [hd] at p2
            have hd' : Dict.get? f.2 "language-translations".toList = some v := hd
            rw [hd']
            simp only at p2 ⊢
            rw [p2]
            cases hlang : parts.lang with
            | none => rw [hlang] at hl; cases hl
            | some s => rw [hlang] at p2; exact ⟨rfl, nodup_parseLangTranslations p2⟩
        rw [hg.1] at hl
        cases hl
        rw [Dict.get?_merge_nodup _ _ hg.2]

/-- **C10** (what a file contributes). The layers of a chain are the options written in its files, each file
under its display name; the reference to the base is not among them. -/
theorem C10_contributions (env : Env) (files r) (h : readChain env files = .ok r) :
    ∃ layers, List.Forall₂ (fun f l => l.1 = enablerName env f.1 f.2 ∧ WrittenIn env f.1 f.2 l.2) files layers ∧
      chainConfig layers = .ok r.1 ∧ ∀ l ∈ layers, ∀ a ∈ l.2, a.option ≠ .configFile := by
  obtain ⟨layers, h1, h2⟩ := C10_layers env files r h
  have h1' : List.Forall₂ (fun f l => l.1 = enablerName env f.1 f.2 ∧ WrittenIn env f.1 f.2 l.2) files layers := by
    refine h1.imp ?_
    rintro f l ⟨hn, parts, hp, hl⟩
    obtain ⟨args, ha, hb⟩ := fileEntries_args _ _ _ _ _ hp
    rw [hl, hb]
    exact ⟨hn, by simpa using ha⟩
  have key : ∀ {env path d args}, WrittenIn env path d args → ∀ a ∈ args, a.option ≠ .configFile := by
    intro env path d args hw
    induction hw with
    | nil => intro a ha; cases ha
    | skip _ _ ih => exact ih
    | option _ hc _ _ _ ih =>
      intro a ha
      rcases List.mem_append.1 ha with ha | ha
      · obtain ⟨s, _, rfl⟩ := List.mem_map.1 ha; exact hc
      · exact ih a ha
  refine ⟨layers, h1', h2, ?_⟩
  clear h1 h2 h
  induction h1' with
  | nil => intro l hl; cases hl
  | cons hr _ ih =>
    intro l hl
    rcases List.mem_cons.1 hl with rfl | hl
    · exact key hr.2
    · exact ih l hl

/-- A file redefining one of the two groups of its base. -/
example :
    let table (groups : List (Str × Str)) : Toml :=
      .table (groups.map fun g => (g.1, .table [("pylint".toList, .arr [.str g.2])]))
    let files : List (Str × Dict Str Toml) :=
      [("empty".toList, [("translations".toList, table [("g".toList, "--a".toList), ("h".toList, "--b".toList)])]),
       ("/b.toml".toList, [("translations".toList, table [("g".toList, "--c".toList)])])]
    (∀ f ∈ files, (Dict.keys f.2).Nodup) ∧
    (∃ r, readChain twoEnv files = .ok r) ∧
    closest groupsIn "g".toList files = some [(.pylint, ["--c".toList])] ∧
    closest groupsIn "h".toList files = some [(.pylint, ["--b".toList])] :=
  ⟨by decide, ⟨_, rfl⟩, by decide, by decide⟩

end Verif

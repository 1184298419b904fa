import Verif.Props.Runs

/-!
C49: which translations apply to a group of files.
-/

namespace Verif

theorem nodup_parseLangFile (env : Env) (f : Str) : (Dict.keys (parseLangFile env f)).Nodup := by
  unfold parseLangFile
  split
  · simp [Dict.keys]
  · rename_i d _
    cases h : parseLangTranslations (.table d) with
    | none => simp [Dict.keys]
    | some s => exact nodup_parseLangTranslations h

/-- The translations collected so far agree with the language files. -/
def CacheOk (env : Env) (cache : LangCache) : Prop :=
  ∀ f l, Dict.get? cache f = some l → (Dict.keys l).Nodup ∧
    ∀ id t, Dict.get? (parseLangFile env f) id = some t → Dict.get? l id = some t

theorem langOf_spec {env ic lang cache l c} (hn : (Dict.keys lang).Nodup) (hc : CacheOk env cache)
    (h : langOf env ic lang cache = .ok (l, c)) :
    CacheOk env c ∧
    (∀ f, ic.getItem .languageFile = .ok (.str f) →
      (∀ id t, Dict.get? (parseLangFile env f) id = some t → Dict.get? l id = some t) ∧
      (∀ id t, Dict.get? lang id = some t → ∃ t', Dict.get? l id = some t') ∧
      (Dict.get? cache f = none → ∀ id, Dict.get? l id = (Dict.get? (parseLangFile env f) id).or (Dict.get? lang id))) ∧
    ((∀ f, ic.getItem .languageFile ≠ .ok (.str f)) → l = lang ∧ c = cache) := by
  unfold langOf at h
  split at h
  · cases h
  · rename_i f hf
    simp only [Except.ok.injEq, Prod.mk.injEq] at h
    obtain ⟨rfl, rfl⟩ := h
    have hfile : (Dict.keys ((Dict.get? cache f).getD (parseLangFile env f))).Nodup ∧
        ∀ id t, Dict.get? (parseLangFile env f) id = some t →
          Dict.get? ((Dict.get? cache f).getD (parseLangFile env f)) id = some t := by
      cases hg : Dict.get? cache f with
      | none => exact ⟨nodup_parseLangFile env f, fun _ _ h => h⟩
      | some l => exact hc f l hg
    generalize hff : (Dict.get? cache f).getD (parseLangFile env f) = ff at hfile
    have hmem : ∀ id t, Dict.get? (parseLangFile env f) id = some t → Dict.get? (Dict.merge lang ff) id = some t := by
      intro id t ht
      rw [Dict.get?_merge_nodup _ _ hfile.1, hfile.2 id t ht]
      rfl
    refine ⟨?_, ?_, ?_⟩
    · intro f' l' hl'
      by_cases he : f' = f
      · subst he
        rw [Dict.get?_set_self] at hl'
        cases hl'
        exact ⟨Dict.nodup_keys_merge _ _ hn, hmem⟩
      · rw [Dict.get?_set_ne _ _ he] at hl'
        exact hc f' l' hl'
    · intro f' hf'
      rw [hf] at hf'
      cases hf'
      refine ⟨hmem, ?_, ?_⟩
      · intro id t ht
        rw [Dict.get?_merge_nodup _ _ hfile.1, ht]
        cases Dict.get? ff id <;> simp
      · intro hnone id
        rw [hnone] at hff
        simp only [Option.getD_none] at hff
        subst hff
        rw [Dict.get?_merge_nodup _ _ hfile.1]
    · intro hno
      exact absurd hf (hno f)
  · rename_i o ho hf
    simp only [Except.ok.injEq, Prod.mk.injEq] at h
    obtain ⟨rfl, rfl⟩ := h
    refine ⟨hc, fun f hf' => ?_, fun _ => ⟨rfl, rfl⟩⟩
    rw [hf] at hf'
    cases hf'
    exact absurd rfl (ho f)

theorem nodup_lang_parseConfigFile (env : Env) (fuel : Nat) (path : Str) (c sets lang)
    (h : parseConfigFile env fuel path = .ok (some (c, sets, lang))) : (Dict.keys lang).Nodup := by
  induction fuel generalizing path c sets lang with
  | zero => cases h
  | succ fuel ih =>
    simp only [parseConfigFile] at h
    split at h
    · cases h
    rename_i d hd
    split at h
    · cases h
    · cases h
    rename_i base hbase
    split at h
    · cases h
    rename_i r hr
    cases h
    have hb : (Dict.keys base.2.2).Nodup := by
      split at hbase
      · split at hbase
        · cases hbase
        · exact ih _ _ _ _ hbase
      · split at hbase
        · cases hbase
        · cases hbase; simp [Dict.keys]
    unfold extendBase at hr
    split at hr
    · cases hr
    split at hr
    · cases hr
    split at hr
    · cases hr
    split at hr
    · cases hr
    split at hr
    · cases hr
    rename_i lang' hl
    cases hr
    unfold mergeOrFail at hl
    split at hl
    · cases hl
    · cases hl
      exact Dict.nodup_keys_merge _ _ hb

theorem nodup_lang_oneConfig {env fuel cmd cmdPath infile ic lang}
    (h : oneConfig env fuel cmd cmdPath infile = .ok (some (ic, lang))) :
    (Dict.keys lang).Nodup ∧ ∃ path file sets, parseConfigFile env fuel path = .ok (some (file, sets, lang)) := by
  unfold oneConfig at h
  split at h
  · cases h
  rename_i path _
  split at h
  · cases h
  · cases h
  rename_i file sets lang' hp
  split at h
  · cases h
  split at h
  · cases h
  cases h
  cases path with
  | str s => exact ⟨nodup_lang_parseConfigFile _ _ _ _ _ _ hp, s, file, sets, hp⟩
  | _ => cases hp

/-- What the translations of a group are made of. -/
def GroupLang (env : Env) (fuel : Nat) (first : Bool) (g : RunGroup) : Prop :=
  ∃ path file sets lang, parseConfigFile env fuel path = .ok (some (file, sets, lang)) ∧
    (∀ f, g.config.getItem .languageFile = .ok (.str f) →
      (∀ id t, Dict.get? (parseLangFile env f) id = some t → Dict.get? g.lang id = some t) ∧
      (∀ id t, Dict.get? lang id = some t → ∃ t', Dict.get? g.lang id = some t') ∧
      (first = true →
        ∀ id, Dict.get? g.lang id = (Dict.get? (parseLangFile env f) id).or (Dict.get? lang id))) ∧
    ((∀ f, g.config.getItem .languageFile ≠ .ok (.str f)) → g.lang = lang)

theorem runGroups_lang {env fuel cmd cmdPath} : ∀ (gs : Groups) (cache rgs), CacheOk env cache →
    runGroups env fuel cmd cmdPath gs cache = .ok rgs →
    (∀ g ∈ rgs, GroupLang env fuel false g) ∧ (cache = [] → ∀ g rest, rgs = g :: rest → GroupLang env fuel true g) := by
  intro gs
  induction gs with
  | nil =>
    intro cache rgs _ h
    cases h
    exact ⟨fun g hg => (by cases hg), fun _ g rest h => (by cases h)⟩
  | cons g gs ih =>
    intro cache rgs hc h
    obtain ⟨key, infile, items⟩ := g
    rw [runGroups_cons] at h
    split at h
    · cases h
    · exact ih cache rgs hc h
    · rename_i ic lang hone
      split at h
      · cases h
      rename_i lang' cache' hl
      split at h
      · cases h
      rename_i more hmore
      cases h
      obtain ⟨hn, path, file, sets, hp⟩ := nodup_lang_oneConfig hone
      obtain ⟨h1, h2, h3⟩ := langOf_spec hn hc hl
      obtain ⟨k1, -⟩ := ih cache' more h1 hmore
      refine ⟨?_, ?_⟩
      · intro g hg
        rcases List.mem_cons.1 hg with rfl | hg
        · exact ⟨path, file, sets, lang, hp, fun f hf => ⟨(h2 f hf).1, (h2 f hf).2.1, fun h => (by cases h)⟩,
            fun hno => (h3 hno).1⟩
        · exact k1 g hg
      · rintro rfl g rest heq
        cases heq
        exact ⟨path, file, sets, lang, hp, fun f hf => ⟨(h2 f hf).1, (h2 f hf).2.1, fun _ => (h2 f hf).2.2 rfl⟩,
          fun hno => (h3 hno).1⟩

/-- **C49.** In every group of a run with a language file, each translation of the language file applies, and
whatever the configuration file translates is translated; without a language file exactly the
translations of the configuration file apply. For the first group, the translations are exactly those of
the language file, completed by those of the configuration file. Missing: that the latter holds for
all groups, which is false (see the counterexample). -/
theorem C49_translations_partial (env : Env) (fuel : Nat) (items : List Item) (args : List Str) (groups : List RunGroup)
    (h : getConfigMany env fuel items args = .ok groups) :
    (∀ g ∈ groups, GroupLang env fuel false g) ∧ ∀ g rest, groups = g :: rest → GroupLang env fuel true g := by
  unfold getConfigMany at h
  split at h
  · cases h
  split at h
  · cases h
  split at h
  · cases h
  obtain ⟨h1, h2⟩ := runGroups_lang _ [] groups (fun f l hl => by cases hl) h
  exact ⟨h1, h2 rfl⟩

/-- **C49 is false of the code** for later groups: in a run on `a.py` and `b.py` with the same language file, the
translations of the configuration file of `a.py` apply to `b.py`, too. -/
theorem C49_counterexample :
    ∃ env fuel items args g1 g2, getConfigMany env fuel items args = .ok [g1, g2] ∧
      ∃ id, (Dict.get? g2.lang id).isSome ∧
        (∀ f, g2.config.getItem .languageFile = .ok (.str f) → Dict.get? (parseLangFile env f) id = none) ∧
        ∀ path, g2.config.getItem .configFile = .ok (.str path) → ∀ file sets lang,
          parseConfigFile env fuel path = .ok (some (file, sets, lang)) → Dict.get? lang id = none := by
  let items : List Item := [⟨"a.py".toList, .file ["# edulint: config-file=/a.toml language-file=/l.toml".toList]⟩,
      ⟨"b.py".toList, .file ["# edulint: language-file=/l.toml".toList]⟩]
  have h : (match getConfigMany exEnv 3 items [] with
      | .ok [_, g2] => (Dict.get? g2.lang "x".toList).isSome &&
          decide (g2.config.getItem .languageFile = .ok (.str "/l.toml".toList)) &&
          (Dict.get? (parseLangFile exEnv "/l.toml".toList) "x".toList).isNone &&
          decide (g2.config.getItem .configFile = .ok (.str "default".toList)) &&
          (match parseConfigFile exEnv 3 "default".toList with
            | .ok (some (_, _, lang)) => (Dict.get? lang "x".toList).isNone
            | _ => true)
      | _ => false) = true := by
    decide +kernel
  split at h
  · rename_i g1 g2 hg
    simp only [Bool.and_eq_true, decide_eq_true_eq, Option.isNone_iff_eq_none] at h
    obtain ⟨⟨⟨⟨h1, h2⟩, h3⟩, h4⟩, h5⟩ := h
    refine ⟨exEnv, 3, items, [], g1, g2, hg, "x".toList, h1, ?_, ?_⟩
    · intro f hf
      rw [h2] at hf
      cases hf
      exact h3
    · intro path hpath file sets lang hp
      rw [h4] at hpath
      cases hpath
      rw [hp] at h5
      simpa using h5
  · cases h

/-- The replacements of filled-in parts that a table defines for a message. -/
def partsFor (d : Dict Str Toml) (id : Str) : Toml :=
  match Dict.get? d "translated_extracts".toList with
  | some (.table e) => (Dict.get? e id).getD (.table [])
  | _ => .table []

/-- **C49**, what a table of translations says: every text in it is the translation for its name, together with
the replacements of parts for that name. (A TOML table has each key once.) -/
theorem C49_table (d : Dict Str Toml) (hd : (Dict.keys d).Nodup) (lang : LangTranslations)
    (h : parseLangTranslations (.table d) = some lang) (id text : Str) (parts : Toml) :
    Dict.get? lang id = some ⟨text, parts⟩ ↔
      id ≠ "translated_extracts".toList ∧ Dict.get? d id = some (.str text) ∧ parts = partsFor d id := by
  simp only [parseLangTranslations, Option.some.injEq] at h
  subst h
  have key : ∀ (ex : Dict Str Toml) (l : Dict Str Toml) (acc : LangTranslations), (Dict.keys l).Nodup →
      (Dict.get? (l.foldl (fun acc kv =>
          match kv with
          | (id, .str s) =>
            if id = translatedExtractsLabel then acc
            else Dict.set acc id ⟨s, (Dict.get? ex id).getD (.table [])⟩
          | _ => acc) acc) id = some ⟨text, parts⟩ ↔
        (id ≠ translatedExtractsLabel ∧ Dict.get? l id = some (.str text) ∧ parts = (Dict.get? ex id).getD (.table [])) ∨
        ((id = translatedExtractsLabel ∨ ∀ s, Dict.get? l id ≠ some (.str s)) ∧
          Dict.get? acc id = some ⟨text, parts⟩)) := by
    intro ex l
    induction l with
    | nil => intro acc _; simp [Dict.get?]
    | cons e l ih =>
      intro acc hn
      obtain ⟨k, v⟩ := e
      have hn' : k ∉ Dict.keys l ∧ (Dict.keys l).Nodup := by simpa [Dict.keys] using hn
      have hkl : Dict.get? l k = none := (Dict.get?_eq_none_iff _ _).2 hn'.1
      rw [List.foldl_cons, ih _ hn'.2]
      by_cases hk : k = id
      · subst hk
        simp only [Dict.get?, if_true, hkl]
        cases v with
        | str s =>
          by_cases hlab : k = translatedExtractsLabel
          · simp [hlab]
          · simp only [hlab, if_false, Dict.get?_set_self, Option.some.injEq, Translation.mk.injEq, Toml.str.injEq, not_false_iff,
              true_and, ne_eq, false_or]
            simp [eq_comm]
        | _ => simp
      · simp only [Dict.get?, hk, if_false]
        cases v with
        | str s =>
          simp only
          split
          · rfl
          · rw [Dict.get?_set_ne _ _ (fun e => hk e.symm)]
        | _ => rfl
  refine (key _ d [] hd).trans ?_
  unfold partsFor
  rw [show "translated_extracts".toList = translatedExtractsLabel from rfl]
  generalize translatedExtractsLabel = label
  cases hg : Dict.get? d label with
  | none => simp [Dict.get?]
  | some v => cases v <;> simp [Dict.get?]

end Verif

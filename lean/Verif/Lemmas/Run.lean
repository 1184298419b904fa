import Verif.Lemmas.Grouping
import Verif.Props.Inherit

/-!
Lemmas about whole runs: typing of the configurations of a run, and the loop of `get_config_many`.
-/

namespace Verif

theorem lastFor_eq (o : Opt) (args : List (Option Arg)) : lastFor o args = (valsOf o (present args)).getLast? := by
  induction args using List.reverseRecOn with
  | nil => rfl
  | append_singleton l a ih =>
    unfold lastFor at ih ⊢
    rw [List.reverse_append, present_append, valsOf_append]
    simp only [List.reverse_singleton, List.singleton_append, List.find?_cons]
    cases a with
    | none => simpa using ih
    | some a =>
      by_cases h : a.option = o
      · simp [h, valsOf_cons]
      · simp only [h, decide_false, present_some, present_nil, valsOf_cons, if_false, valsOf_nil,
          List.append_nil]
        exact ih

theorem getLastValue_spec (c : Config) {o : Opt} (ho : isReplace o = true) (d : Bool) :
    c.getLastValue o d
      = .ok ((valsOf o (present c.config)).getLast?.getD (if d then (optionParse o).default else .none)) := by
  unfold Config.getLastValue
  rw [if_pos (by simpa [isReplace] using ho), lastFor_eq]
  cases (valsOf o (present c.config)).getLast? <;> rfl

/-- Lists for the option that switches in-file configuration off. -/
def ListsOk (l : List Arg) : Prop := ∀ a ∈ l, a.option = .ignoreInfileConfigFor → ∃ vs, a.val = .list vs

theorem ListsOk.append {l m} (h : ListsOk l) (h' : ListsOk m) : ListsOk (l ++ m) := by
  intro a ha; rcases List.mem_append.1 ha with h1 | h1
  · exact h a h1
  · exact h' a h1

theorem ListsOk.sub {l m : List Arg} (h : ListsOk m) (hs : ∀ a ∈ l, a ∈ m) : ListsOk l := fun a ha => h a (hs a ha)

/-- What every configuration of a run satisfies. -/
structure Typed (c : Config) : Prop where
  vals : WTyped (present c.config)
  lists : ListsOk (present c.config)
  keys : (Dict.keys c.enablers).Nodup

theorem typed_mkConfig {e raw c} (h : mkConfig e raw = .ok c) : Typed c := by
  obtain ⟨a, b⟩ := (Built.make h).ok
  refine ⟨a, ?_, b⟩
  obtain ⟨c', h1, h2, _⟩ := mkConfig_spec e raw
  rw [h] at h1; cases h1
  rw [h2]
  refine ListsOk.sub ?_ (dropOverridden_subset _)
  intro a ha ho
  obtain ⟨r, _, rfl⟩ := List.mem_map.1 ha
  obtain ⟨o, v⟩ := r
  simp only [convertArg] at ho
  subst ho
  exact ⟨_, rfl⟩

theorem typed_combine {a b c : Config} (ha : Typed a) (hb : Typed b) (h : Config.combine a b = .ok c) : Typed c := by
  obtain ⟨c', h1, h2, h3⟩ := combine_spec a b ha.vals hb.vals
  rw [h] at h1; cases h1
  exact ⟨by rw [h2]; exact wtyped_dropOverridden (ha.vals.append hb.vals),
    by rw [h2]; exact (ha.lists.append hb.lists).sub (dropOverridden_subset _),
    by rw [h3]; exact Dict.nodup_keys_merge _ _ ha.keys⟩

theorem typed_resolveRelative {env path c o c'} (ho : o = .configFile ∨ o = .languageFile) (hc : Typed c)
    (h : resolveRelative env path c o = .ok c') : Typed c' := by
  unfold resolveRelative at h
  split at h
  · cases h
  · split at h
    · cases h
    · rename_i p _
      cases h
      have hne : ∀ (q : Arg), q ∈ present [some (Arg.mk o (.str p))] → q.option = o := by
        intro a ha
        simp only [present_some, present_nil, List.mem_singleton] at ha
        subst ha; rfl
      refine ⟨?_, ?_, hc.keys⟩
      · rw [present_append]
        refine hc.vals.append ⟨?_, ?_⟩
        · intro a ha hx
          rw [hne a ha] at hx
          rcases ho with rfl | rfl <;> simp [optionParse] at hx
        · intro a ha hx
          rw [hne a ha] at hx
          rcases ho with rfl | rfl <;> simp at hx
      · rw [present_append]
        refine hc.lists.append ?_
        intro a ha hx
        rw [hne a ha] at hx
        rcases ho with rfl | rfl <;> simp at hx
  · cases h; exact hc
  · cases h

theorem typed_infile {env path lines c} (h : parseInfileConfig env path lines = .ok c) : Typed c := by
  unfold parseInfileConfig at h
  split at h
  · cases h
  · simp only at h
    split at h
    · cases h
    · rename_i c0 h0
      split at h
      · cases h
      · rename_i c1 h1
        split at h
        · cases h
        · rename_i c2 h2
          have t2 := typed_resolveRelative (.inr rfl) (typed_resolveRelative (.inl rfl) (typed_mkConfig h0) h1) h2
          unfold resolveIgnoreInfile at h
          split at h
          · cases h
          · cases h; exact t2
          · split at h
            · cases h
            · exact typed_mkConfig h
            · cases h

theorem typed_chainConfig (layers : List (Str × List RawArg)) : ∀ c, chainConfig layers = .ok c → Typed c := by
  induction layers using List.reverseRecOn with
  | nil =>
    intro c h
    obtain ⟨c0, h0, _⟩ := mkConfig_spec none []
    unfold chainConfig at h
    rw [h0] at h
    cases h
    exact typed_mkConfig h0
  | append_singleton layers l ih =>
    intro c h
    rw [chainConfig_snoc] at h
    split at h
    · cases h
    · rename_i base hb
      split at h
      · cases h
      · rename_i this ht
        exact typed_combine (ih _ hb) (typed_mkConfig ht) h

theorem typed_configFile {env fuel v fc} (h : parseConfigVal env fuel v = .ok (some fc)) : Typed fc.1 := by
  cases v with
  | str s =>
    obtain ⟨files, _, _, hr⟩ := C10_only_chains h
    obtain ⟨layers, _, hl⟩ := C10_layers env files fc hr
    exact typed_chainConfig layers _ hl
  | _ => cases h

theorem ignoreInfile_ok {c : Config} (hc : Typed c) : ∃ b, ignoreInfile c = .ok b := by
  unfold ignoreInfile
  rw [getLastValue_spec c rfl]
  cases hl : (valsOf .ignoreInfileConfigFor (present c.config)).getLast? with
  | none => exact ⟨_, rfl⟩
  | some v =>
    have hm := List.mem_of_getLast? hl
    simp only [valsOf, List.mem_map, List.mem_filter] at hm
    obtain ⟨a, ⟨ha, ho⟩, rfl⟩ := hm
    simp only [decide_eq_true_eq] at ho
    obtain ⟨vs, hv⟩ := hc.lists a ha ho
    simp only [Option.getD_some, hv]
    exact ⟨_, rfl⟩

/-! ### The loop of `get_config_many` -/

/-- The configuration of one group, before its language file is looked at. -/
def oneConfig (env : Env) (fuel : Nat) (cmd : Config) (cmdPath : Val) (infile : Config) :
    Except PyErr (Option (ImmutableConfig × LangTranslations)) :=
  match (if cmdPath ≠ .none then .ok cmdPath else infile.getLastValue .configFile true : Except PyErr Val) with
  | .error e => .error e
  | .ok path =>
    match parseConfigVal env fuel path with
    | .error e => .error e
    | .ok none => .ok none
    | .ok (some (file, sets, lang)) =>
      match chooseConfig file infile cmd cmdPath with
      | .error e => .error e
      | .ok config =>
        match config.toImmutable sets with
        | .error e => .error e
        | .ok ic => .ok (some (ic, lang))

theorem runGroups_cons (env fuel cmd cmdPath key infile items rest cache) :
    runGroups env fuel cmd cmdPath ((key, infile, items) :: rest) cache =
      match oneConfig env fuel cmd cmdPath infile with
      | .error e => .error e
      | .ok none => runGroups env fuel cmd cmdPath rest cache
      | .ok (some (ic, lang)) =>
        match langOf env ic lang cache with
        | .error e => .error e
        | .ok (lang, cache) =>
          match runGroups env fuel cmd cmdPath rest cache with
          | .error e => .error e
          | .ok more => .ok (⟨items, ic, lang⟩ :: more) := by
  conv_lhs => unfold runGroups
  unfold oneConfig
  simp only
  generalize (if cmdPath ≠ .none then .ok cmdPath else infile.getLastValue .configFile true : Except PyErr Val) = p
  cases p with
  | error e => rfl
  | ok path =>
    simp only
    cases parseConfigVal env fuel path with
    | error e => rfl
    | ok fc =>
      cases fc with
      | none => rfl
      | some fc =>
        obtain ⟨file, sets, lang⟩ := fc
        simp only
        cases chooseConfig file infile cmd cmdPath with
        | error e => rfl
        | ok config =>
          simp only
          cases config.toImmutable sets with
          | error e => rfl
          | ok ic => rfl

theorem langOf_ok (env : Env) (ic lang cache) (o) (h : ic.getItem .languageFile = .ok o) :
    ∃ l c, langOf env ic lang cache = .ok (l, c) ∧ ((∀ s, o ≠ .str s) → l = lang) := by
  unfold langOf
  rw [h]
  cases o with
  | str s => exact ⟨_, _, rfl, fun hn => absurd rfl (hn s)⟩
  | _ => exact ⟨_, _, rfl, fun _ => rfl⟩

/-- Every group of a run comes from a group of files, in order; the others have no readable configuration. -/
theorem runGroups_spec {env fuel cmd cmdPath} : ∀ (gs : Groups) (cache rgs),
    runGroups env fuel cmd cmdPath gs cache = .ok rgs →
    (∃ skipped : List PyFile,
      (rgs.flatMap (fun r => r.items.flatMap Item.files) ++ skipped).Perm (covered gs) ∧
      ∀ f ∈ skipped, ∃ g ∈ gs, f ∈ groupFiles g ∧ oneConfig env fuel cmd cmdPath g.2.1 = .ok none) ∧
    (∀ r ∈ rgs, ∃ g ∈ gs, r.items = g.2.2 ∧ ∃ lang cache cache',
      oneConfig env fuel cmd cmdPath g.2.1 = .ok (some (r.config, lang)) ∧
      langOf env r.config lang cache = .ok (r.lang, cache')) ∧
    (∀ g ∈ gs, ∀ ic lang, oneConfig env fuel cmd cmdPath g.2.1 = .ok (some (ic, lang)) →
      ∃ r ∈ rgs, r.items = g.2.2 ∧ r.config = ic) := by
  intro gs
  induction gs with
  | nil =>
    intro cache rgs h
    cases h
    refine ⟨⟨[], by simp [covered], fun f hf => (by cases hf)⟩, fun r hr => (by cases hr), fun g hg => (by cases hg)⟩
  | cons g gs ih =>
    intro cache rgs h
    obtain ⟨key, infile, items⟩ := g
    rw [runGroups_cons] at h
    split at h
    · cases h
    · rename_i hone
      obtain ⟨⟨sk, h1, h2⟩, h3, h4⟩ := ih _ _ h
      refine ⟨⟨groupFiles (key, infile, items) ++ sk, ?_, ?_⟩, ?_, ?_⟩
      · have : covered ((key, infile, items) :: gs) = groupFiles (key, infile, items) ++ covered gs := rfl
        rw [this, ← List.append_assoc]
        refine (List.Perm.append_right sk List.perm_append_comm).trans ?_
        rw [List.append_assoc]
        exact List.Perm.append_left _ h1
      · intro f hf
        rcases List.mem_append.1 hf with hf | hf
        · exact ⟨(key, infile, items), List.mem_cons_self .., hf, hone⟩
        · obtain ⟨g, hg, x⟩ := h2 f hf
          exact ⟨g, List.mem_cons_of_mem _ hg, x⟩
      · intro r hr
        obtain ⟨g, hg, x⟩ := h3 r hr
        exact ⟨g, List.mem_cons_of_mem _ hg, x⟩
      · intro g hg ic lang hg'
        rcases List.mem_cons.1 hg with rfl | hg
        · simp only at hg'; rw [hone] at hg'; cases hg'
        · exact h4 g hg ic lang hg'
    · rename_i ic lang hone
      split at h
      · cases h
      · rename_i lang'' cache' hl
        split at h
        · cases h
        · rename_i more hm
          cases h
          obtain ⟨⟨sk, h1, h2⟩, h3, h4⟩ := ih _ _ hm
          refine ⟨⟨sk, ?_, ?_⟩, ?_, ?_⟩
          · have : covered ((key, infile, items) :: gs) = items.flatMap Item.files ++ covered gs := rfl
            rw [this, List.flatMap_cons, List.append_assoc]
            exact List.Perm.append_left _ h1
          · intro f hf
            obtain ⟨g, hg, x⟩ := h2 f hf
            exact ⟨g, List.mem_cons_of_mem _ hg, x⟩
          · intro r hr
            rcases List.mem_cons.1 hr with rfl | hr
            · exact ⟨(key, infile, items), List.mem_cons_self .., rfl, lang, cache, cache', hone, hl⟩
            · obtain ⟨g, hg, x⟩ := h3 r hr
              exact ⟨g, List.mem_cons_of_mem _ hg, x⟩
          · intro g hg ic' lang' hg'
            rcases List.mem_cons.1 hg with rfl | hg
            · simp only at hg'
              rw [hone] at hg'; cases hg'
              exact ⟨⟨items, ic, lang''⟩, List.mem_cons_self .., rfl, rfl⟩
            · obtain ⟨r, hr, x⟩ := h4 g hg ic' lang' hg'
              exact ⟨r, List.mem_cons_of_mem _ hr, x⟩

end Verif

import Verif.Lemmas.Resolve
import Verif.Model.ConfigMany
import Verif.Lemmas.JoinPath
import Mathlib.Data.List.Perm.Subperm

/-!
Grouping of files by in-file configuration.
-/

namespace Verif

/-- Two configurations are the same: the same values, the same enablers. -/
def Alike (a b : ImmutableConfig) : Prop :=
  a.config = b.config ∧ ∀ k, Dict.get? a.enablers k = Dict.get? b.enablers k

theorem Alike.refl (a) : Alike a a := ⟨rfl, fun _ => rfl⟩
theorem Alike.symm {a b} (h : Alike a b) : Alike b a := ⟨h.1.symm, fun k => (h.2 k).symm⟩
theorem Alike.trans {a b c} (h : Alike a b) (h' : Alike b c) : Alike a c :=
  ⟨h.1.trans h'.1, fun k => (h.2 k).trans (h'.2 k)⟩

theorem dictEq_iff {a b : Dict Str Str} (ha : (Dict.keys a).Nodup) (hb : (Dict.keys b).Nodup) :
    dictEq a b = true ↔ ∀ k, Dict.get? a k = Dict.get? b k := by
  have hka : ∀ k, k ∈ Dict.keys a ↔ Dict.get? a k ≠ none := by
    intro k; rw [Ne, Dict.get?_eq_none_iff, not_not]
  have hkb : ∀ k, k ∈ Dict.keys b ↔ Dict.get? b k ≠ none := by
    intro k; rw [Ne, Dict.get?_eq_none_iff, not_not]
  have hlen : ∀ d : Dict Str Str, (Dict.keys d).length = d.length := fun d => by simp [Dict.keys]
  constructor
  · intro h k
    simp only [dictEq, Bool.and_eq_true, beq_iff_eq, List.all_eq_true, decide_eq_true_eq] at h
    obtain ⟨hl, hall⟩ := h
    have hsub : Dict.keys a ⊆ Dict.keys b := by
      intro k hk
      obtain ⟨p, hp, rfl⟩ := List.mem_map.1 hk
      rw [hkb, hall p hp]; simp
    have hperm : (Dict.keys a).Perm (Dict.keys b) :=
      (List.subperm_of_subset ha hsub).perm_of_length_le (by rw [hlen, hlen, hl]; exact Nat.le_refl _)
    cases hg : Dict.get? a k with
    | some v => exact (hall _ (Dict.mem_of_get? hg)).symm
    | none =>
      symm
      rw [Dict.get?_eq_none_iff] at hg ⊢
      exact fun hm => hg (hperm.mem_iff.2 hm)
  · intro h
    simp only [dictEq, Bool.and_eq_true, beq_iff_eq, List.all_eq_true, decide_eq_true_eq]
    refine ⟨?_, fun p hp => by rw [← h]; exact Dict.get?_of_mem_nodup hp ha⟩
    rw [← hlen a, ← hlen b]
    apply Nat.le_antisymm
    · exact (List.subperm_of_subset ha fun k hk => by rw [hkb, ← h, ← hka]; exact hk).length_le
    · exact (List.subperm_of_subset hb fun k hk => by rw [hka, h, ← hkb]; exact hk).length_le

theorem same_iff {a b : ImmutableConfig} (ha : (Dict.keys a.enablers).Nodup) (hb : (Dict.keys b.enablers).Nodup) :
    a.same b = true ↔ Alike a b := by
  rw [ImmutableConfig.same, Bool.and_eq_true, decide_eq_true_eq, dictEq_iff ha hb]; rfl

theorem toImmutable_nil_nodup {c : Config} {ic} (h : c.toImmutable [] = .ok ic) : (Dict.keys ic.enablers).Nodup := by
  unfold Config.toImmutable at h
  split at h
  · cases h
  · split at h
    · cases h
    · split at h
      · cases h
      · simp only [enablersOfSets] at h
        split at h
        · cases h
        · cases h
          exact Dict.nodup_keys_merge [] _ (by simp [Dict.keys])

/-! ### Files below a path -/

/-- A Python file: its path and its lines. -/
abbrev PyFile := Str × List Str

mutual
/-- The Python files at or below a path. -/
def treeFiles (path : Str) : FTree → List PyFile
  | .file lines => if isPython path then [(path, lines)] else []
  | .dir entries => forestFiles path entries
@[inherit_doc treeFiles]
def forestFiles (path : Str) : FForest → List PyFile
  | .nil => []
  | .cons name tree rest => treeFiles (joinPath path name) tree ++ forestFiles path rest
end

/-- The Python files a path stands for. -/
def Item.files (i : Item) : List PyFile := treeFiles i.path i.tree

/-- All Python files the paths of a group stand for. -/
def groupFiles (g : ImmutableConfig × Config × List Item) : List PyFile := g.2.2.flatMap Item.files

/-- All Python files covered by some group. -/
def covered (gs : Groups) : List PyFile := gs.flatMap groupFiles

/-- The in-file configuration of a file. -/
def OwnConfig (env : Env) (f : PyFile) (c : Config) (ic : ImmutableConfig) : Prop :=
  parseInfileConfig env f.1 f.2 = .ok c ∧ c.toImmutable [] = .ok ic

/-- A group holds only files with its own configuration, and its configuration comes from one of them. -/
structure GroupOk (env : Env) (g : ImmutableConfig × Config × List Item) : Prop where
  own : ∀ f ∈ groupFiles g, ∃ c ic, OwnConfig env f c ic ∧ Alike ic g.1
  nodup : (Dict.keys g.1.enablers).Nodup
  rep : ∃ f ∈ groupFiles g, OwnConfig env f g.2.1 g.1

/-- Groups with pairwise different configurations. -/
def Distinct (gs : Groups) : Prop := gs.Pairwise fun g h => ¬ Alike g.1 h.1

theorem addGroup_spec {env : Env} {key config items} (hk : GroupOk env (key, config, items)) (gs : Groups)
    (h : ∀ g ∈ gs, GroupOk env g) :
    (∀ g ∈ addGroup key config items gs, GroupOk env g) ∧
    (covered (addGroup key config items gs)).Perm (covered gs ++ items.flatMap Item.files) ∧
    (∀ g ∈ addGroup key config items gs, (∃ g' ∈ gs, g'.1 = g.1) ∨ g.1 = key) ∧
    (Distinct gs → Distinct (addGroup key config items gs)) := by
  induction gs with
  | nil =>
    refine ⟨?_, ?_, ?_, ?_⟩
    · intro g hg; simp only [addGroup, List.mem_singleton] at hg; subst hg; exact hk
    · simp [addGroup, covered, groupFiles]
    · intro g hg; simp only [addGroup, List.mem_singleton] at hg; subst hg; exact .inr rfl
    · intro _; simp [addGroup, Distinct]
  | cons g gs ih =>
    obtain ⟨k, c, is⟩ := g
    have hg := h (k, c, is) (by simp)
    obtain ⟨i1, i2, i3, i4⟩ := ih fun g hg => h g (List.mem_cons_of_mem _ hg)
    by_cases hs : k.same key = true
    · have ha := (same_iff hg.nodup hk.nodup).1 hs
      have hfiles : groupFiles (k, c, is ++ items) = groupFiles (k, c, is) ++ items.flatMap Item.files := by
        simp [groupFiles]
      simp only [addGroup, hs, if_true]
      refine ⟨?_, ?_, ?_, ?_⟩
      · intro g' hg'
        rcases List.mem_cons.1 hg' with rfl | hg'
        · refine ⟨?_, hg.nodup, ?_⟩
          · intro f hf
            rw [hfiles] at hf
            rcases List.mem_append.1 hf with hf | hf
            · exact hg.own f hf
            · obtain ⟨c', ic', ho, hal⟩ := hk.own f hf
              exact ⟨c', ic', ho, hal.trans ha.symm⟩
          · obtain ⟨f, hf, ho⟩ := hg.rep
            exact ⟨f, by rw [hfiles]; exact List.mem_append_left _ hf, ho⟩
        · exact h g' (List.mem_cons_of_mem _ hg')
      · simp only [covered, List.flatMap_cons, hfiles, List.append_assoc]
        exact List.Perm.append_left _ List.perm_append_comm
      · intro g' hg'
        rcases List.mem_cons.1 hg' with rfl | hg'
        · exact .inl ⟨(k, c, is), by simp, rfl⟩
        · exact .inl ⟨g', List.mem_cons_of_mem _ hg', rfl⟩
      · intro hd
        unfold Distinct at hd ⊢
        rw [List.pairwise_cons] at hd ⊢
        exact hd
    · have hna : ¬ Alike k key := fun x => hs ((same_iff hg.nodup hk.nodup).2 x)
      simp only [addGroup, hs]
      refine ⟨?_, ?_, ?_, ?_⟩
      · intro g' hg'
        rcases List.mem_cons.1 hg' with rfl | hg'
        · exact hg
        · exact i1 g' hg'
      · show (groupFiles (k, c, is) ++ covered (addGroup key config items gs)).Perm
          (groupFiles (k, c, is) ++ covered gs ++ items.flatMap Item.files)
        rw [List.append_assoc]
        exact List.Perm.append_left _ i2
      · intro g' hg'
        rcases List.mem_cons.1 hg' with rfl | hg'
        · exact .inl ⟨(k, c, is), by simp, rfl⟩
        · rcases i3 g' hg' with ⟨x, hx, he⟩ | he
          · exact .inl ⟨x, List.mem_cons_of_mem _ hx, he⟩
          · exact .inr he
      · intro hd
        unfold Distinct at hd ⊢
        rw [List.pairwise_cons] at hd
        refine List.pairwise_cons.2 ⟨?_, i4 hd.2⟩
        intro g' hg'
        rcases i3 g' hg' with ⟨x, hx, he⟩ | he
        · rw [← he]; exact hd.1 x hx
        · rw [he]; exact hna

/-- The invariant of the grouping. -/
def Grouped (env : Env) (gs : Groups) (files : List PyFile) : Prop :=
  (∀ g ∈ gs, GroupOk env g) ∧ (covered gs).Perm files ∧ Distinct gs

theorem addGroups_spec {env : Env} (sub : Groups) : ∀ (acc : Groups) (fs fs' : List PyFile),
    Grouped env acc fs → (∀ g ∈ sub, GroupOk env g) → (covered sub).Perm fs' →
    Grouped env (addGroups acc sub) (fs ++ fs') := by
  induction sub with
  | nil =>
    intro acc fs fs' h _ hp
    have : fs' = [] := List.nil_perm.1 hp
    subst this; simpa [addGroups] using h
  | cons g sub ih =>
    intro acc fs fs' h hs hp
    obtain ⟨k, c, is⟩ := g
    obtain ⟨a1, a2, _, a4⟩ := addGroup_spec (hs (k, c, is) (List.mem_cons_self ..)) acc h.1
    have hg : Grouped env (addGroup k c is acc) (fs ++ is.flatMap Item.files) :=
      ⟨a1, a2.trans (List.Perm.append_right _ h.2.1), a4 h.2.2⟩
    have := ih _ _ (covered sub) hg (fun g hg => hs g (List.mem_cons_of_mem _ hg)) (.refl _)
    refine ⟨this.1, this.2.1.trans ?_, this.2.2⟩
    rw [List.append_assoc]
    exact List.Perm.append_left _ hp

theorem collapse1_spec {env : Env} {item : Item} {gs : Groups} (h : Grouped env gs item.files) :
    Grouped env (collapse1 item gs) item.files := by
  unfold collapse1
  split
  · rename_i k c is
    obtain ⟨h1, h2, _⟩ := h
    have hg := h1 (k, c, is) (by simp)
    have hp : (groupFiles (k, c, is)).Perm item.files := by simpa [covered] using h2
    have hf : groupFiles (k, c, [item]) = item.files := by simp [groupFiles]
    refine ⟨?_, ?_, by simp [Distinct]⟩
    · intro g hm
      simp only [List.mem_singleton] at hm
      subst hm
      refine ⟨?_, hg.nodup, ?_⟩
      · intro f hfm; rw [hf] at hfm; exact hg.own f (hp.mem_iff.2 hfm)
      · obtain ⟨f, hfm, ho⟩ := hg.rep
        exact ⟨f, by rw [hf]; exact hp.mem_iff.1 hfm, ho⟩
    · simp [covered, hf]
  · exact h

mutual
theorem infileRec_spec (env : Env) (path : Str) : ∀ (t : FTree) (gs : Groups),
    infileRec env path t = .ok gs → Grouped env gs (treeFiles path t)
  | .file lines, gs, h => by
    unfold infileRec at h
    unfold treeFiles
    by_cases hp : isPython path = true
    · simp only [hp, if_true] at h ⊢
      split at h
      · cases h
      · rename_i c hc
        split at h
        · cases h
        · rename_i ic hic
          cases h
          have hf : groupFiles (ic, c, [⟨path, .file lines⟩]) = [(path, lines)] := by
            simp [groupFiles, Item.files, treeFiles, hp]
          refine ⟨?_, by simp [covered, hf], by simp [Distinct]⟩
          intro g hg
          simp only [List.mem_singleton] at hg
          subst hg
          refine ⟨?_, toImmutable_nil_nodup hic, ⟨(path, lines), by rw [hf]; simp, hc, hic⟩⟩
          intro f hfm
          rw [hf] at hfm
          simp only [List.mem_singleton] at hfm
          subst hfm
          exact ⟨c, ic, ⟨hc, hic⟩, Alike.refl _⟩
    · simp only [hp] at h ⊢
      cases h
      exact ⟨fun g hg => (by cases hg), by simp [covered], by simp [Distinct]⟩
  | .dir entries, gs, h => by
    unfold infileRec at h
    split at h
    · cases h
    · rename_i result hr
      cases h
      have hn : Grouped env [] ([] : List PyFile) :=
        ⟨fun g hg => (by cases hg), by simp [covered], by simp [Distinct]⟩
      have := infileForest_spec env path entries [] result [] hn hr
      exact collapse1_spec (item := ⟨path, .dir entries⟩) (by simpa [Item.files, treeFiles] using this)
theorem infileForest_spec (env : Env) (path : Str) : ∀ (f : FForest) (acc gs : Groups) (fs : List PyFile),
    Grouped env acc fs → infileForest env path f acc = .ok gs → Grouped env gs (fs ++ forestFiles path f)
  | .nil, acc, gs, fs, ha, h => by
    unfold infileForest at h; cases h
    simpa [forestFiles] using ha
  | .cons name tree rest, acc, gs, fs, ha, h => by
    unfold infileForest at h
    split at h
    · cases h
    · rename_i sub hs
      have h1 := infileRec_spec env (joinPath path name) tree sub hs
      have h2 := addGroups_spec sub acc fs _ ha h1.1 h1.2.1
      have := infileForest_spec env path rest _ gs _ h2 h
      simpa [forestFiles, List.append_assoc] using this
end

theorem infileItems_spec (env : Env) (items : List Item) : ∀ (acc gs : Groups) (fs : List PyFile),
    Grouped env acc fs → infileItems env items acc = .ok gs →
    Grouped env gs (fs ++ items.flatMap Item.files) := by
  induction items with
  | nil => intro acc gs fs ha h; cases h; simpa using ha
  | cons i items ih =>
    intro acc gs fs ha h
    unfold infileItems at h
    split at h
    · cases h
    · rename_i sub hs
      have h1 := infileRec_spec env i.path i.tree sub hs
      have h2 := addGroups_spec sub acc fs _ ha h1.1 h1.2.1
      have := ih _ gs _ h2 h
      simpa [List.append_assoc, Item.files] using this

theorem grouped_nil (env : Env) : Grouped env [] [] :=
  ⟨fun g hg => (by cases hg), by simp [covered], by simp [Distinct]⟩

end Verif

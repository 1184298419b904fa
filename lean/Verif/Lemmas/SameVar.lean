import Verif.Model.Uses

/-! Events and their definitions are of the same variable. -/

namespace Verif.Cfg

/-- Everything that has been collected for a variable is of that variable. -/
structure Tidy (s : Scan) : Prop where
  gens : ∀ v, ∀ e ∈ s.gens v, e.var = v
  kill : ∀ v, ∀ ks ∈ s.kill v, ∀ e ∈ ks, e.var = v
  definitions : ∀ x ∈ s.definitions, x.1.var = x.2.var

theorem addLinks_var {links : List (Event × Event)} {e : Event} : ∀ {ds : List Event}, (∀ x ∈ links, x.1.var = x.2.var) →
    (∀ d ∈ ds, d.var = e.var) → ∀ x ∈ addLinks links e ds, x.1.var = x.2.var := by
  intro ds
  unfold addLinks
  induction ds generalizing links with
  | nil => exact fun h _ => h
  | cons d ds ih =>
    intro h hd
    rw [List.foldl_cons]
    refine ih ?_ fun d' hd' => hd d' (by simp [hd'])
    split
    · exact h
    · intro x hx
      rcases List.mem_append.1 hx with hx | hx
      · exact h x hx
      · rw [List.mem_singleton.1 hx]; exact (hd d (by simp)).symm

theorem lastKills_mem {kill : List (List Event)} {d : Event} (h : d ∈ lastKills kill) : ∃ ks ∈ kill, d ∈ ks := by
  unfold lastKills at h
  cases hk : kill.getLast? with
  | none => rw [hk] at h; cases h
  | some ks => rw [hk] at h; exact ⟨ks, List.mem_of_getLast? hk, h⟩

theorem Tidy.last {s : Scan} (h : Tidy s) (v : Nat) : ∀ d ∈ lastKills (s.kill v), d.var = v := fun d hd => by
  obtain ⟨ks, h1, h2⟩ := lastKills_mem hd
  exact h.kill v ks h1 d h2

theorem Tidy.generate {s : Scan} (h : Tidy s) (e : Event) : Tidy (s.generate e) := by
  unfold Scan.generate
  split
  · split
    · refine ⟨fun v e' he => ?_, h.kill, h.definitions⟩
      simp only [setAt] at he
      split at he
      · rename_i hv
        rcases List.mem_append.1 he with he | he
        · rw [h.gens _ e' he, hv]
        · rw [List.mem_singleton.1 he, hv]
      · exact h.gens v e' he
    · exact ⟨h.gens, h.kill, addLinks_var h.definitions (h.last e.var)⟩
  · exact h

theorem Tidy.setKill {s : Scan} (h : Tidy s) {v : Nat} {kills : List (List Event)} (hk : ∀ ks ∈ kills, ∀ e ∈ ks, e.var = v)
    (redefines : List (Event × Event)) : Tidy { s with redefines := redefines, kill := setAt s.kill v kills } := by
  refine ⟨h.gens, fun v' ks hks e he => ?_, h.definitions⟩
  simp only [setAt] at hks
  split at hks
  · rename_i hv
    rw [hk ks hks e he, hv]
  · exact h.kill v' ks hks e he

theorem Tidy.item {s : Scan} (h : Tidy s) : ∀ i : Item, Tidy (s.item i)
  | .called e => by
    have hg := h.generate e
    unfold Scan.item Scan.called
    simp only
    split
    · split
      · exact hg.setKill (redefines := (s.generate e).redefines) (by simp)
      · refine hg.setKill (fun ks hks e' he => ?_) _
        rcases List.mem_append.1 hks with hks | hks
        · exact hg.kill _ ks (List.dropLast_subset _ hks) e' he
        · rw [List.mem_singleton.1 hks] at he
          rcases List.mem_append.1 he with he | he
          · exact hg.last _ e' he
          · rw [List.mem_singleton.1 he]
    · exact hg
  | .own e => by
    have hg := h.generate e
    unfold Scan.item Scan.own
    simp only
    split
    · refine hg.setKill (fun ks hks e' he => ?_) _
      rcases List.mem_append.1 hks with hks | hks
      · exact hg.kill _ ks hks e' he
      · rw [List.mem_singleton.1 hks] at he
        rw [List.mem_singleton.1 he]
    · exact hg

theorem Tidy.items : ∀ (is : List Item) (s : Scan), Tidy s → Tidy (is.foldl Scan.item s)
  | [], _, h => h
  | i :: is, s, h => Tidy.items is (s.item i) (h.item i)

theorem scanBlock_tidy (P : Prog) {ds rs : List (Event × Event)} (h : ∀ x ∈ ds, x.1.var = x.2.var) (b : Nat) : Tidy (scanBlock P ds rs b) :=
  Tidy.items _ _ ⟨fun _ _ he => absurd he (by simp), fun _ _ hk => absurd hk (by simp), h⟩

theorem scanAll_var (P : Prog) : ∀ (bs : List Nat) (ls : List (Event × Event) × List (Event × Event)), (∀ x ∈ ls.1, x.1.var = x.2.var) →
    ∀ x ∈ (scanAll P bs ls).1, x.1.var = x.2.var
  | [], _, h => h
  | b :: bs, _, h => scanAll_var P bs _ (scanBlock_tidy P h b).definitions

/-- An event and its definitions are of the same variable. -/
theorem links_var (P : Prog) (phases : List Phase) : ∀ x ∈ (links P phases).1, x.1.var = x.2.var := by
  intro x hx
  unfold links at hx
  simp only at hx
  rcases List.mem_append.1 hx with hx | hx
  · exact scanAll_var P _ _ (by simp) x hx
  · obtain ⟨ph, -, hx⟩ := List.mem_flatMap.1 hx
    obtain ⟨b, -, hx⟩ := List.mem_flatMap.1 hx
    unfold connectBlock at hx
    obtain ⟨v, -, hx⟩ := List.mem_flatMap.1 hx
    obtain ⟨d, hd, hx⟩ := List.mem_flatMap.1 hx
    obtain ⟨e, he, rfl⟩ := List.mem_map.1 hx
    have h1 : e.var = v := (scanBlock_tidy P (by simp) b).gens v e he
    have h2 : d.var = v := by
      unfold reachingKills at hd
      obtain ⟨i, -, hd⟩ := List.mem_flatMap.1 hd
      split at hd
      · exact (scanBlock_tidy P (by simp) _).last v d hd
      · cases hd
    show e.var = d.var
    rw [h1, h2]

end Verif.Cfg

namespace Verif.Uses

theorem definitions_var {F : File} {items : Nat → List Cfg.Item} {vars : Nat} {definitions : List (Cfg.Event × Cfg.Event)}
    (h : F.Definitions items vars definitions) : ∀ x ∈ definitions, x.1.var = x.2.var := by
  rcases h with ⟨-, rfl⟩ | ⟨-, phases, -, rfl⟩
  · exact fun _ h => nomatch h
  · exact Cfg.links_var _ _

end Verif.Uses

import Verif.Model.Reaching

/-! Events and their definitions are of the same variable. -/

namespace Verif.Cfg

/-- Pairs of events of the same variable. -/
def Alike (links : List (Event × Event)) : Prop := ∀ p ∈ links, p.1.var = p.2.var

theorem addLinks_alike {e : Event} : ∀ {ds : List Event} {links : List (Event × Event)}, Alike links → (∀ d ∈ ds, d.var = e.var) →
    Alike (addLinks links e ds)
  | [], _, h, _ => h
  | d :: ds, links, h, hd => by
    show Alike (addLinks (if (e, d) ∈ links then links else links ++ [(e, d)]) e ds)
    refine addLinks_alike ?_ fun x hx => hd x (by simp [hx])
    split
    · exact h
    · intro p hp
      rcases List.mem_append.1 hp with hp | hp
      · exact h p hp
      · rw [List.mem_singleton.1 hp]
        exact (hd d (by simp)).symm

/-- What is known about a block has events of the variables that they are listed for. -/
structure Sorted (s : Scan) : Prop where
  gens : ∀ v, ∀ e ∈ s.gens v, e.var = v
  kill : ∀ v, ∀ es ∈ s.kill v, ∀ e ∈ es, e.var = v
  definitions : Alike s.definitions

theorem Sorted.last {s : Scan} (h : Sorted s) {v : Nat} {e : Event} (he : e ∈ lastKills (s.kill v)) : e.var = v := by
  unfold lastKills at he
  cases hl : (s.kill v).getLast? with
  | none => rw [hl] at he; cases he
  | some es =>
    rw [hl] at he
    exact h.kill v es (List.mem_of_getLast? hl) e he

theorem Sorted.generate {s : Scan} (h : Sorted s) (e : Event) : Sorted (s.generate e) := by
  unfold Scan.generate
  split
  · split
    · refine ⟨?_, h.kill, h.definitions⟩
      intro v x hx
      have hx : x ∈ (if v = e.var then s.gens e.var ++ [e] else s.gens v) := hx
      split at hx
      · rename_i hv
        rcases List.mem_append.1 hx with hx | hx
        · rw [hv]; exact h.gens _ x hx
        · rw [List.mem_singleton.1 hx, hv]
      · exact h.gens v x hx
    · exact ⟨h.gens, h.kill, addLinks_alike h.definitions fun d hd => h.last hd⟩
  · exact h

theorem setAt_kill {kill : Nat → List (List Event)} {k : Nat} {new : List (List Event)} (h : ∀ v, ∀ es ∈ kill v, ∀ e ∈ es, e.var = v)
    (hn : ∀ es ∈ new, ∀ e ∈ es, e.var = k) : ∀ v, ∀ es ∈ setAt kill k new v, ∀ e ∈ es, e.var = v := by
  intro v es hes
  unfold setAt at hes
  split at hes
  · rename_i hv
    rw [hv]
    exact hn es hes
  · exact h v es hes

theorem Sorted.item {s : Scan} (h : Sorted s) (it : Item) : Sorted (s.item it) := by
  cases it with
  | own e =>
    show Sorted (s.own e)
    have h1 := h.generate e
    unfold Scan.own
    simp only
    split
    · refine ⟨h1.gens, setAt_kill h1.kill ?_, h1.definitions⟩
      intro es hes x hx
      rcases List.mem_append.1 hes with hes | hes
      · exact h1.kill _ es hes x hx
      · rw [List.mem_singleton.1 hes] at hx
        rw [List.mem_singleton.1 hx]
    · exact h1
  | called e =>
    show Sorted (s.called e)
    have h1 := h.generate e
    unfold Scan.called
    simp only
    split
    · split
      · refine ⟨h1.gens, setAt_kill h1.kill ?_, h1.definitions⟩
        intro es hes x hx
        rw [List.mem_singleton.1 hes] at hx
        rw [List.mem_singleton.1 hx]
      · refine ⟨h1.gens, setAt_kill h1.kill ?_, h1.definitions⟩
        intro es hes x hx
        rcases List.mem_append.1 hes with hes | hes
        · exact h1.kill _ es (List.dropLast_subset _ hes) x hx
        · rw [List.mem_singleton.1 hes] at hx
          rcases List.mem_append.1 hx with hx | hx
          · exact h1.last hx
          · rw [List.mem_singleton.1 hx]
    · exact h1

theorem sorted_items : ∀ (its : List Item) {s : Scan}, Sorted s → Sorted (its.foldl Scan.item s)
  | [], _, h => h
  | it :: its, _, h => sorted_items its (h.item it)

theorem scan_sorted (P : Prog) {definitions : List (Event × Event)} (hd : Alike definitions) (redefines : List (Event × Event)) (b : Nat) :
    Sorted (scanBlock P definitions redefines b) :=
  sorted_items _ ⟨(fun _ _ h => nomatch h), (fun _ _ h => nomatch h), hd⟩

theorem scanAll_alike (P : Prog) : ∀ (blocks : List Nat) {links : List (Event × Event) × List (Event × Event)}, Alike links.1 →
    Alike (scanAll P blocks links).1
  | [], _, h => h
  | b :: blocks, links, h => scanAll_alike P blocks (links := (_, _)) (scan_sorted P h links.2 b).definitions

/-- The definitions of an event are events of its variable. -/
theorem links_alike (P : Prog) (phases : List Phase) : Alike (links P phases).1 := by
  have h0 : Alike [] := fun _ h => nomatch h
  intro p hp
  rcases List.mem_append.1 hp with hp | hp
  · exact scanAll_alike P _ h0 p hp
  · obtain ⟨ph, -, hp⟩ := List.mem_flatMap.1 hp
    obtain ⟨b, -, hp⟩ := List.mem_flatMap.1 hp
    obtain ⟨v, -, hp⟩ := List.mem_flatMap.1 hp
    obtain ⟨d, hd, hp⟩ := List.mem_flatMap.1 hp
    obtain ⟨e, he, rfl⟩ := List.mem_map.1 hp
    obtain ⟨i, -, hd⟩ := List.mem_flatMap.1 hd
    have h1 : e.var = v := (scan_sorted P h0 [] b).gens v e he
    have h2 : d.var = v := by
      split at hd
      · exact (scan_sorted P h0 [] _).last hd
      · cases hd
    exact h1.trans h2.symm

end Verif.Cfg

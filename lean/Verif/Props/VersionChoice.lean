import Verif.Model.VersionChoice
import Mathlib.Tactic.Tauto
import Mathlib.Data.List.Nodup

/-!
C145: The versions chosen for tests are the newest patches of the newest minor versions.
-/

namespace Verif.VersionChoice

/-- One minor version is before another one. -/
def Older (a b : Nat × Nat) : Prop := a.1 < b.1 ∨ a.1 = b.1 ∧ a.2 < b.2

section
variable {α : Type} {line : α → Nat × Nat} {le : α → α → Bool}

theorem addVersion_keys (v : α) : ∀ {d : Dict (Nat × Nat) (List α)}, (d.map Prod.fst).Nodup →
    ((addVersion line v d).map Prod.fst).Nodup ∧ ∀ k, k ∈ (addVersion line v d).map Prod.fst ↔ k ∈ d.map Prod.fst ∨ k = line v
  | [], _ => by simp [addVersion]
  | (k, vs) :: d, h => by
    rw [List.map_cons, List.nodup_cons] at h
    rw [addVersion]
    split
    · rename_i hk
      refine ⟨?_, fun k' => ?_⟩
      · rw [List.map_cons, List.nodup_cons]
        exact h
      · simp only [List.map_cons, List.mem_cons, ← hk]
        tauto
    · rename_i hk
      obtain ⟨h1, h2⟩ := addVersion_keys v h.2
      refine ⟨?_, fun k' => ?_⟩
      · rw [List.map_cons, List.nodup_cons]
        refine ⟨fun hm => ?_, h1⟩
        rcases (h2 k).1 hm with hm | hm
        · exact h.1 hm
        · exact hk hm
      · simp only [List.map_cons, List.mem_cons, h2]
        tauto

theorem addVersion_mem (v : α) : ∀ {d : Dict (Nat × Nat) (List α)} {k : Nat × Nat} {vs : List α}, (k, vs) ∈ addVersion line v d →
    (k, vs) ∈ d ∨ k = line v ∧ (vs = [v] ∨ ∃ ws, (k, ws) ∈ d ∧ vs = ws ++ [v])
  | [], k, vs, h => by
    simp only [addVersion, List.mem_singleton, Prod.mk.injEq] at h
    exact .inr ⟨h.1, .inl h.2⟩
  | (k', ws) :: d, k, vs, h => by
    rw [addVersion] at h
    split at h
    · rename_i hk
      rcases List.mem_cons.1 h with h | h
      · cases h
        exact .inr ⟨hk, .inr ⟨ws, by simp, rfl⟩⟩
      · exact .inl (List.mem_cons_of_mem _ h)
    · rcases List.mem_cons.1 h with h | h
      · cases h
        exact .inl (by simp)
      · rcases addVersion_mem v h with h | ⟨h, h' | ⟨w, hw, he⟩⟩
        · exact .inl (List.mem_cons_of_mem _ h)
        · exact .inr ⟨h, .inl h'⟩
        · exact .inr ⟨h, .inr ⟨w, List.mem_cons_of_mem _ hw, he⟩⟩

theorem addVersion_new (v : α) : ∀ (d : Dict (Nat × Nat) (List α)), ∃ vs, (line v, vs) ∈ addVersion line v d ∧ v ∈ vs
  | [] => ⟨[v], by simp [addVersion]⟩
  | (k, vs) :: d => by
    rw [addVersion]
    split
    · rename_i hk
      exact ⟨vs ++ [v], by simp [← hk], by simp⟩
    · obtain ⟨ws, h, hv⟩ := addVersion_new v d
      exact ⟨ws, List.mem_cons_of_mem _ h, hv⟩

theorem addVersion_old (v : α) {u : α} : ∀ {d : Dict (Nat × Nat) (List α)}, (∃ k vs, (k, vs) ∈ d ∧ u ∈ vs) → ∃ k vs, (k, vs) ∈ addVersion line v d ∧ u ∈ vs
  | [], h => by obtain ⟨k, vs, h, -⟩ := h; simp at h
  | (k', ws) :: d, h => by
    obtain ⟨k, vs, h, hu⟩ := h
    rw [addVersion]
    split
    · rcases List.mem_cons.1 h with h | h
      · cases h
        exact ⟨k', ws ++ [v], by simp, by simp [hu]⟩
      · exact ⟨k, vs, List.mem_cons_of_mem _ h, hu⟩
    · rcases List.mem_cons.1 h with h | h
      · cases h
        exact ⟨k', ws, by simp, hu⟩
      · obtain ⟨k, vs, h, hu⟩ := addVersion_old v ⟨k, vs, h, hu⟩
        exact ⟨k, vs, List.mem_cons_of_mem _ h, hu⟩

/-- What is known of the groups. -/
structure Groups (line : α → Nat × Nat) (versions : List α) (d : Dict (Nat × Nat) (List α)) : Prop where
  nodup : (d.map Prod.fst).Nodup
  sound : ∀ k vs, (k, vs) ∈ d → vs ≠ [] ∧ ∀ v ∈ vs, v ∈ versions ∧ line v = k
  complete : ∀ v ∈ versions, ∃ k vs, (k, vs) ∈ d ∧ v ∈ vs

theorem Groups.add {versions : List α} {d : Dict (Nat × Nat) (List α)} (h : Groups line versions d) (v : α) :
    Groups line (versions ++ [v]) (addVersion line v d) where
  nodup := (addVersion_keys v h.nodup).1
  sound k vs hm := by
    rcases addVersion_mem v hm with hm | ⟨rfl, rfl | ⟨ws, hw, rfl⟩⟩
    · obtain ⟨h1, h2⟩ := h.sound k vs hm
      exact ⟨h1, fun u hu => ⟨by simp [(h2 u hu).1], (h2 u hu).2⟩⟩
    · simp
    · obtain ⟨-, h2⟩ := h.sound _ ws hw
      refine ⟨by simp, fun u hu => ?_⟩
      rcases List.mem_append.1 hu with hu | hu
      · exact ⟨by simp [(h2 u hu).1], (h2 u hu).2⟩
      · rw [List.mem_singleton.1 hu]
        simp
  complete u hu := by
    rcases List.mem_append.1 hu with hu | hu
    · exact addVersion_old v (h.complete u hu)
    · rw [List.mem_singleton.1 hu]
      obtain ⟨vs, h1, h2⟩ := addVersion_new (line := line) v d
      exact ⟨_, vs, h1, h2⟩

theorem foldl_groups : ∀ (versions done : List α) (d : Dict (Nat × Nat) (List α)), Groups line done d →
    Groups line (done ++ versions) (versions.foldl (fun d v => addVersion line v d) d)
  | [], done, d, h => by simpa using h
  | v :: versions, done, d, h => by
    have := foldl_groups versions (done ++ [v]) (addVersion line v d) (h.add v)
    rwa [List.append_assoc] at this

theorem byMinor_groups (versions : List α) : Groups line versions (byMinor line versions) :=
  foldl_groups versions [] [] ⟨by simp, by simp, by simp⟩

/-- The newest version of one group. -/
def newest (le : α → α → Bool) (vs : List α) : Option α := (vs.mergeSort fun a b => le b a).head?

theorem newest_spec (htr : ∀ a b c, le a b = true → le b c = true → le a c = true) (hto : ∀ a b, le a b = true ∨ le b a = true) {vs : List α} (h : vs ≠ []) :
    ∃ v, newest le vs = some v ∧ v ∈ vs ∧ ∀ u ∈ vs, le u v = true := by
  unfold newest
  have hp := List.mergeSort_perm vs fun a b => le b a
  have hs := List.pairwise_mergeSort (le := fun a b => le b a) (fun a b c h1 h2 => htr c b a h2 h1) (fun a b => by
    rw [Bool.or_eq_true]; exact (hto a b).symm) vs
  cases hm : vs.mergeSort fun a b => le b a with
  | nil => rw [hm] at hp; exact absurd hp.symm.eq_nil h
  | cons v rest =>
    rw [hm] at hp hs
    refine ⟨v, rfl, hp.subset (by simp), fun u hu => ?_⟩
    rcases List.mem_cons.1 (hp.symm.subset hu) with rfl | hu
    · rcases hto u u with h | h <;> exact h
    · exact (List.pairwise_cons.1 hs).1 u hu

theorem lineLe_iff {a b : α} : lineLe line a b = true ↔ Older (line a) (line b) ∨ line a = line b := by
  unfold lineLe Older
  simp only [Bool.or_eq_true, Bool.and_eq_true, decide_eq_true_eq]
  rw [Prod.ext_iff]
  omega

/-- The patches before they are sorted: one for each group. -/
theorem patches_spec (htr : ∀ a b c, le a b = true → le b c = true → le a c = true) (hto : ∀ a b, le a b = true ∨ le b a = true) :
    ∀ {d : Dict (Nat × Nat) (List α)}, (∀ k vs, (k, vs) ∈ d → vs ≠ [] ∧ ∀ v ∈ vs, line v = k) →
      (d.filterMap fun g => newest le g.2).map line = d.map Prod.fst ∧
      ∀ v ∈ d.filterMap fun g => newest le g.2, ∃ vs, (line v, vs) ∈ d ∧ v ∈ vs ∧ ∀ u ∈ vs, le u v = true
  | [], _ => by simp
  | (k, vs) :: d, h => by
    obtain ⟨h1, h2⟩ := h k vs (by simp)
    obtain ⟨v, hv, hvm, hmax⟩ := newest_spec htr hto h1
    obtain ⟨i1, i2⟩ := patches_spec htr hto (d := d) fun k vs hm => h k vs (List.mem_cons_of_mem _ hm)
    rw [List.filterMap_cons, hv]
    refine ⟨by simp [i1, h2 v hvm], fun u hu => ?_⟩
    rcases List.mem_cons.1 hu with rfl | hu
    · exact ⟨vs, by simp [h2 u hvm], hvm, hmax⟩
    · obtain ⟨ws, h3, h4⟩ := i2 u hu
      exact ⟨ws, List.mem_cons_of_mem _ h3, h4⟩

/-- C145: Of each minor version of which there is a version, the newest one is taken, in increasing order. -/
theorem C145_patches (htr : ∀ a b c, le a b = true → le b c = true → le a c = true) (hto : ∀ a b, le a b = true ∨ le b a = true) (versions : List α) :
    (onlyLastPatch line le versions).Pairwise (fun a b => Older (line a) (line b)) ∧
    (∀ v ∈ onlyLastPatch line le versions, v ∈ versions ∧ ∀ u ∈ versions, line u = line v → le u v = true) ∧
    ∀ u ∈ versions, ∃ v ∈ onlyLastPatch line le versions, line v = line u := by
  have hg := byMinor_groups (line := line) versions
  obtain ⟨p1, p2⟩ := patches_spec htr hto (d := byMinor line versions) fun k vs hm => ⟨(hg.sound k vs hm).1, fun v hv => ((hg.sound k vs hm).2 v hv).2⟩
  have hperm : (onlyLastPatch line le versions).Perm ((byMinor line versions).filterMap fun g => newest le g.2) := List.mergeSort_perm _ _
  have hsort : (onlyLastPatch line le versions).Pairwise fun a b => lineLe line a b = true :=
    List.pairwise_mergeSort (fun a b c h1 h2 => by
      rw [lineLe_iff] at h1 h2 ⊢
      unfold Older at *
      rw [Prod.ext_iff] at *
      omega) (fun a b => by
      rw [Bool.or_eq_true, lineLe_iff, lineLe_iff]
      unfold Older
      simp only [Prod.ext_iff]
      omega) _
  have hnd : ((onlyLastPatch line le versions).map line).Nodup := (hperm.map line).nodup_iff.2 (by rw [p1]; exact hg.nodup)
  refine ⟨?_, fun v hv => ?_, fun u hu => ?_⟩
  · rw [List.Nodup, List.pairwise_map] at hnd
    exact (hsort.and hnd).imp fun ⟨h1, h2⟩ => (lineLe_iff.1 h1).resolve_right h2
  · obtain ⟨vs, h1, h2, h3⟩ := p2 v (hperm.subset hv)
    refine ⟨((hg.sound _ vs h1).2 v h2).1, fun u hu he => ?_⟩
    obtain ⟨k, ws, h4, h5⟩ := hg.complete u hu
    have hk := ((hg.sound k ws h4).2 u h5).2
    rw [he] at hk
    subst hk
    have : ws = vs := by
      have := List.inj_on_of_nodup_map hg.nodup h4 h1 rfl
      exact congrArg Prod.snd this
    exact h3 u (this ▸ h5)
  · obtain ⟨k, ws, h4, h5⟩ := hg.complete u hu
    have hk := ((hg.sound k ws h4).2 u h5).2
    subst hk
    have : line u ∈ ((byMinor line versions).filterMap fun g => newest le g.2).map line := by
      rw [p1]
      exact List.mem_map_of_mem h4
    obtain ⟨v, hv, he⟩ := List.mem_map.1 this
    exact ⟨v, hperm.symm.subset hv, he⟩

/-- C145: If `n` is positive, what is printed are at most `n` versions in increasing order, each the newest of its minor version; every other minor version is older
than all of them, and there is none if there are less than `n`. -/
theorem C145_chosen_partial (htr : ∀ a b c, le a b = true → le b c = true → le a c = true) (hto : ∀ a b, le a b = true ∨ le b a = true) {n : Int} (hn : 0 < n)
    (versions : List α) :
    (chosen line le n versions).Pairwise (fun a b => Older (line a) (line b)) ∧
    (∀ v ∈ chosen line le n versions, v ∈ versions ∧ ∀ u ∈ versions, line u = line v → le u v = true) ∧
    ((chosen line le n versions).length : Int) ≤ n ∧
    ∀ u ∈ versions, (∃ v ∈ chosen line le n versions, line v = line u) ∨
      ((chosen line le n versions).length : Int) = n ∧ ∀ v ∈ chosen line le n versions, Older (line u) (line v) := by
  obtain ⟨h1, h2, h3⟩ := C145_patches (line := line) htr hto versions
  unfold chosen lastN
  rw [if_pos hn]
  generalize hl : onlyLastPatch line le versions = l at *
  refine ⟨h1.sublist (List.drop_sublist _ _), fun v hv => h2 v (List.mem_of_mem_drop hv), ?_, fun u hu => ?_⟩
  · rw [List.length_drop]; omega
  · obtain ⟨v, hv, he⟩ := h3 u hu
    rw [← List.take_append_drop (l.length - n.toNat) l] at hv
    rcases List.mem_append.1 hv with hv | hv
    · refine .inr ⟨?_, fun w hw => ?_⟩
      · have : 0 < (l.take (l.length - n.toNat)).length := List.length_pos_of_mem hv
        rw [List.length_take] at this
        rw [List.length_drop]
        omega
      · rw [← List.take_append_drop (l.length - n.toNat) l, List.pairwise_append] at h1
        rw [← he]
        exact h1.2.2 v hv w hw
    · exact .inl ⟨v, hv, he⟩

end

/-- C145: For texts of versions in a tuple, there is one version for each. -/
theorem C145_available_partial {parse : Str → Option Ver} : ∀ {l : List Str} {vs : List Ver}, availableVersions parse (.tuple l) = .ok vs ↔ vs.map some = l.map parse
  | [], vs => by
    simp only [availableVersions, parseAll, Except.ok.injEq, List.map_nil, List.map_eq_nil_iff]
    exact eq_comm
  | t :: ts, vs => by
    have ih : ∀ {vs : List Ver}, availableVersions parse (.tuple ts) = .ok vs ↔ vs.map some = ts.map parse := C145_available_partial
    simp only [availableVersions] at ih ⊢
    rw [parseAll]
    cases ht : parse t with
    | none =>
      simp only [List.map_cons, ht, reduceCtorEq, false_iff]
      cases vs <;> simp
    | some v =>
      cases hr : parseAll parse ts with
      | error e =>
        simp only [reduceCtorEq, false_iff, List.map_cons, ht]
        intro h
        cases vs with
        | nil => simp at h
        | cons w ws =>
          simp only [List.map_cons, List.cons.injEq] at h
          have := (ih (vs := ws)).2 h.2
          rw [hr] at this
          cases this
      | ok ws =>
        simp only [Except.ok.injEq, List.map_cons, ht]
        constructor
        · rintro rfl
          rw [List.map_cons, (ih (vs := ws)).1 hr]
        · intro h
          cases vs with
          | nil => simp at h
          | cons w us =>
            simp only [List.map_cons, List.cons.injEq, Option.some.injEq] at h
            have := (ih (vs := us)).2 h.2
            rw [hr] at this
            cases this
            rw [h.1]

/-! ### Examples and counterexamples -/

def exLine (v : Ver) : Nat × Nat := (v.major, v.minor)
def exLe (a b : Ver) : Bool := !b.lt a

/-- Of 3.1.0, 3.1.2 and 3.0.5, the newest patches are 3.0.5 and 3.1.2. -/
example : chosen exLine exLe 2 [⟨3, 1, 0, "3.1.0".toList⟩, ⟨3, 1, 2, "3.1.2".toList⟩, ⟨3, 0, 5, "3.0.5".toList⟩] =
    [⟨3, 0, 5, "3.0.5".toList⟩, ⟨3, 1, 2, "3.1.2".toList⟩] := by
  simp [chosen, onlyLastPatch, byMinor, addVersion, exLine, exLe, Ver.lt, lineLe, lastN, List.mergeSort, List.MergeSort.Internal.splitInTwo]

/-- The hypotheses of `C145_chosen_partial` hold for the numbers of versions. -/
example (n : Int) (hn : 0 < n) (versions : List Ver) : ((chosen exLine exLe n versions).length : Int) ≤ n :=
  (C145_chosen_partial (line := exLine) (le := exLe) (by
    intro a b c
    simp only [exLe, Ver.lt, Bool.not_eq_true', Bool.or_eq_false_iff, Bool.and_eq_false_iff, decide_eq_false_iff_not]
    omega) (by
    intro a b
    simp only [exLe, Ver.lt, Bool.not_eq_true', Bool.or_eq_false_iff, Bool.and_eq_false_iff, decide_eq_false_iff_not]
    omega) hn versions).2.2.1

/-- The property fails if no version is asked for: all are printed. -/
theorem C145_zero_counterexample : chosen exLine exLe 0 [⟨3, 1, 0, "3.1.0".toList⟩] = [⟨3, 1, 0, "3.1.0".toList⟩] := by
  simp [chosen, onlyLastPatch, byMinor, addVersion, lastN]

/-- All versions are equal. -/
theorem C145_equal_counterexample : versionEq ⟨3, 1, 0, "3.1.0".toList⟩ ⟨4, 0, 0, "4.0.0".toList⟩ = true := by decide

/-- It is just for full releases that `is_not_full_release` is true. -/
theorem C145_full_release_counterexample (pre post dev : Bool) : isNotFullRelease pre post dev = true ↔ pre = false ∧ post = false ∧ dev = false := by
  cases pre <;> cases post <;> cases dev <;> decide

/-- For a list of texts, which the annotation asks for, there is always an exception. -/
theorem C145_available_counterexample (parse : Str → Option Ver) (l : List Str) : availableVersions parse (.list l) = .error .typeError := rfl

example : availableVersions (fun t => some ⟨t.length, 0, 0, t⟩) (.tuple ["3".toList]) = .ok [⟨1, 0, 0, "3".toList⟩] := rfl

end Verif.VersionChoice

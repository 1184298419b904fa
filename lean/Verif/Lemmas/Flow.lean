import Verif.Model.FlowRun

/-! The construction of control flow graphs: what later steps keep of earlier ones. -/

namespace Verif.Flow

/-! ### Walks -/

/-- From location `i` of block `b`, in `n` steps, executing `tr`, to location `i'` of block `b'`. -/
inductive Walk (F : Graph) : Nat → Nat → Nat → List Nat → Nat → Nat → Prop
  | nil {b i} : Walk F 0 b i [] b i
  | emit {n b i l tr b' i'} : (F.locs b)[i]? = some l → Walk F n b (i + 1) tr b' i' → Walk F (n + 1) b i (l :: tr) b' i'
  | edge {n b i t tr b' i'} : i = (F.locs b).length → (b, t) ∈ F.edges → Walk F n t 0 tr b' i' →
      Walk F (n + 1) b i tr b' i'

theorem Walk.trans {F n b i tr b1 i1 m tr' b2 i2} (h : Walk F n b i tr b1 i1) (h' : Walk F m b1 i1 tr' b2 i2) :
    Walk F (n + m) b i (tr ++ tr') b2 i2 := by
  induction h with
  | nil => simpa using h'
  | emit h1 _ ih => rw [Nat.add_right_comm]; exact .emit h1 (ih h')
  | edge h1 h2 _ ih => rw [Nat.add_right_comm]; exact .edge h1 h2 (ih h')

/-- A walk of some length. -/
def Reach (F : Graph) (b i : Nat) (tr : List Nat) (b' i' : Nat) : Prop := ∃ n, Walk F n b i tr b' i'

theorem Reach.refl {F b i} : Reach F b i [] b i := ⟨0, .nil⟩

theorem Reach.trans {F b i tr b1 i1 tr' b2 i2} (h : Reach F b i tr b1 i1) (h' : Reach F b1 i1 tr' b2 i2) :
    Reach F b i (tr ++ tr') b2 i2 := by
  obtain ⟨n, h⟩ := h; obtain ⟨m, h'⟩ := h'; exact ⟨n + m, h.trans h'⟩

/-! ### What is kept -/

/-- `F` has grown from `G`; what the block `b` of `G` is about begins in `F` with the block `φ b`. -/
structure Ext (φ : Nat → Nat) (G F : Graph) : Prop where
  count : G.count ≤ F.count
  keep : ∀ b, G.locs b ≠ [] → φ b = b
  pre : ∀ b, G.locs b <+: F.locs b
  edge : ∀ s t, (s, t) ∈ G.edges → (s, φ t) ∈ F.edges
  done : ∀ s t, (s, t) ∈ G.edges → F.locs s = G.locs s
  start : F.start = φ G.start

/-- The blocks `C` of `G` are the same in `F`. -/
structure Cl (φ : Nat → Nat) (C : Nat → Prop) (G F : Graph) : Prop where
  locs : ∀ b, C b → F.locs b = G.locs b
  edge : ∀ b, C b → ∀ t', (b, t') ∈ F.edges → ∃ t, (b, t) ∈ G.edges ∧ t' = φ t

theorem Ext.refl (G : Graph) : Ext id G G :=
  ⟨Nat.le_refl _, fun _ _ => rfl, fun _ => List.prefix_refl _, fun _ _ h => h, fun _ _ _ => rfl, rfl⟩

theorem Ext.trans {φ ψ G F K} (h : Ext φ G F) (h' : Ext ψ F K) : Ext (fun b => ψ (φ b)) G K where
  count := Nat.le_trans h.count h'.count
  keep b hb := by
    have : F.locs b ≠ [] := fun e => hb (List.prefix_nil.1 (e ▸ h.pre b))
    show ψ (φ b) = b
    rw [h.keep b hb, h'.keep b this]
  pre b := (h.pre b).trans (h'.pre b)
  edge s t hst := h'.edge _ _ (h.edge _ _ hst)
  done s t hst := (h'.done _ _ (h.edge _ _ hst)).trans (h.done _ _ hst)
  start := by rw [h'.start, h.start]

theorem Cl.trans {φ ψ C D G F K} (h : Cl φ C G F) (h' : Cl ψ D F K) (hCD : ∀ b, C b → D b) :
    Cl (fun b => ψ (φ b)) C G K where
  locs b hb := (h'.locs b (hCD b hb)).trans (h.locs b hb)
  edge b hb t' ht' := by
    obtain ⟨t, h1, h2⟩ := h'.edge b (hCD b hb) t' ht'
    obtain ⟨u, h3, h4⟩ := h.edge b hb t h1
    exact ⟨u, h3, by rw [h2, h4]⟩

theorem Cl.mono {φ C D G F} (h : Cl φ C G F) (hCD : ∀ b, D b → C b) : Cl φ D G F :=
  ⟨fun b hb => h.locs b (hCD b hb), fun b hb => h.edge b (hCD b hb)⟩

/-! ### Graphs under construction -/

/-- Not the beginning of the graph, if that one is still empty. -/
def NS (G : Graph) (t : Nat) : Prop := G.locs G.start = [] → t ≠ G.start

/-- Blocks are numbered below `count`, edges go from blocks with locations, and no edge leads to an empty beginning. -/
structure Wf (G : Graph) : Prop where
  src : ∀ s t, (s, t) ∈ G.edges → G.locs s ≠ []
  tgt : ∀ s t, (s, t) ∈ G.edges → t < G.count
  ns : ∀ s t, (s, t) ∈ G.edges → NS G t
  fresh : ∀ b, G.count ≤ b → G.locs b = []
  start : G.start < G.count

theorem Wf.lt {G} (h : Wf G) {b} (hb : G.locs b ≠ []) : b < G.count := by
  by_cases hc : b < G.count
  · exact hc
  · exact absurd (h.fresh b (by omega)) hb

theorem Wf.srcLt {G} (h : Wf G) {s t} (hb : (s, t) ∈ G.edges) : s < G.count := h.lt (h.src s t hb)

/-- No edge goes out of the block. -/
def Open (G : Graph) (c : Nat) : Prop := ∀ t, (c, t) ∉ G.edges

theorem Wf.open_ {G} (h : Wf G) {c} (hc : G.locs c = []) : Open G c := fun t ht => h.src c t ht hc

/-- The beginning of `G'` is that of `G`, or has locations. -/
def St (G G' : Graph) : Prop := G'.locs G'.start = [] → G.locs G.start = [] ∧ G'.start = G.start

theorem St.refl (G : Graph) : St G G := fun h => ⟨h, rfl⟩
theorem St.trans {G F K} (h : St G F) (h' : St F K) : St G K := fun e =>
  ⟨(h (h' e).1).1, (h' e).2.trans (h (h' e).1).2⟩
theorem St.ns {G G'} (h : St G G') {t} (ht : NS G t) : NS G' t := fun e => (h e).2 ▸ ht (h e).1

/-! #### New blocks -/

theorem new_ext (G : Graph) : Ext id G G.new :=
  ⟨Nat.le_succ _, fun _ _ => rfl, fun _ => List.prefix_refl _, fun _ _ h => h, fun _ _ _ => rfl, rfl⟩
theorem new_cl (G : Graph) : Cl id (fun _ => True) G G.new := ⟨fun _ _ => rfl, fun _ _ t' h => ⟨t', h, rfl⟩⟩
theorem new_wf {G : Graph} (h : Wf G) : Wf G.new :=
  ⟨h.src, fun s t hst => Nat.lt_succ_of_lt (h.tgt s t hst), h.ns, fun b hb => h.fresh b (Nat.le_of_succ_le hb),
    Nat.lt_succ_of_lt h.start⟩
theorem new_st (G : Graph) : St G G.new := fun h => ⟨h, rfl⟩
theorem new_ns {G : Graph} (h : Wf G) : NS G.new G.count := fun _ => by
  have := h.start; show G.count ≠ G.start; omega

/-! #### Locations -/

theorem add_self (G : Graph) (c l : Nat) : (G.add c l).locs c = G.locs c ++ [l] := by simp [Graph.add]
theorem add_ne (G : Graph) {c b : Nat} (l : Nat) (h : b ≠ c) : (G.add c l).locs b = G.locs b := by simp [Graph.add, h]

theorem add_ext {G : Graph} {c : Nat} (l : Nat) (ho : Open G c) : Ext id G (G.add c l) where
  count := Nat.le_refl _
  keep _ _ := rfl
  pre b := by
    by_cases h : b = c
    · subst h; rw [add_self]; exact List.prefix_append _ _
    · rw [add_ne G l h]; exact List.prefix_refl _
  edge _ _ h := h
  done s t h := add_ne G l (fun e => ho t (e ▸ h))
  start := rfl

theorem add_cl (G : Graph) (c l : Nat) : Cl id (fun b => b ≠ c) G (G.add c l) :=
  ⟨fun _ h => add_ne G l h, fun _ _ t' h => ⟨t', h, rfl⟩⟩

theorem add_st (G : Graph) (c l : Nat) : St G (G.add c l) := fun h => by
  by_cases e : G.start = c
  · have : (G.add c l).locs (G.add c l).start = G.locs c ++ [l] := by
      show (G.add c l).locs G.start = _
      rw [e, add_self]
    simp [this] at h
  · exact ⟨by rw [← add_ne G l e]; exact h, rfl⟩

theorem add_wf {G : Graph} {c : Nat} (l : Nat) (h : Wf G) (hc : c < G.count) : Wf (G.add c l) where
  src s t hst := by
    by_cases e : s = c
    · subst e; rw [add_self]; simp
    · rw [add_ne G l e]; exact h.src s t hst
  tgt := h.tgt
  ns s t hst := (add_st G c l).ns (h.ns s t hst)
  fresh b hb := by rw [add_ne G l (by have : G.count ≤ b := hb; omega)]; exact h.fresh b hb
  start := h.start

/-! #### Links -/

theorem link_ext {G : Graph} (s t : Nat) : Ext id G (G.link s t) :=
  ⟨Nat.le_refl _, fun _ _ => rfl, fun _ => List.prefix_refl _, fun _ _ h => List.mem_append_left _ h, fun _ _ _ => rfl, rfl⟩

theorem link_cl (G : Graph) (s t : Nat) : Cl id (fun b => b ≠ s) G (G.link s t) :=
  ⟨fun _ _ => rfl, fun b hb t' h => by
    rcases List.mem_append.1 h with h | h
    · exact ⟨t', h, rfl⟩
    · simp at h; exact absurd h.1 hb⟩

theorem link_st (G : Graph) (s t : Nat) : St G (G.link s t) := fun h => ⟨h, rfl⟩

theorem link_wf {G : Graph} {s t : Nat} (h : Wf G) (hs : G.locs s ≠ []) (ht : t < G.count) (hn : NS G t) :
    Wf (G.link s t) where
  src a b hab := by
    rcases List.mem_append.1 hab with hab | hab
    · exact h.src a b hab
    · simp at hab; rw [hab.1]; exact hs
  tgt a b hab := by
    rcases List.mem_append.1 hab with hab | hab
    · exact h.tgt a b hab
    · simp at hab; rw [hab.2]; exact ht
  ns a b hab := by
    rcases List.mem_append.1 hab with hab | hab
    · exact h.ns a b hab
    · simp at hab; rw [hab.2]; exact hn
  fresh := h.fresh
  start := h.start

/-! #### Links or merges -/

/-- Where blocks go if `s` is merged into `t`. -/
def moved (G : Graph) (s t b : Nat) : Nat := if b = s ∧ G.locs s = [] then t else b

theorem moved_ne {G : Graph} {s t b : Nat} (h : b ≠ s) : moved G s t b = b := by simp [moved, h]
theorem moved_full {G : Graph} {s t : Nat} (h : G.locs s ≠ []) (b : Nat) : moved G s t b = b := by simp [moved, h]
theorem moved_self {G : Graph} {s t : Nat} (h : G.locs s = []) : moved G s t s = t := by simp [moved, h]

@[simp] theorem lm_locs (G : Graph) (s t : Nat) : (G.linkOrMerge s t).locs = G.locs := by
  unfold Graph.linkOrMerge Graph.link; split
  · split <;> rfl
  · rfl
@[simp] theorem lm_count (G : Graph) (s t : Nat) : (G.linkOrMerge s t).count = G.count := by
  unfold Graph.linkOrMerge Graph.link; split
  · split <;> rfl
  · rfl

theorem retarget_eq {G : Graph} {s t : Nat} (h : G.locs s = []) (e : Nat × Nat) :
    retarget s t e = (e.1, moved G s t e.2) := by
  unfold retarget moved
  by_cases he : e.2 = s <;> simp [he, h]

/-- The edges after linking or merging. -/
theorem lm_edges {G : Graph} (h : Wf G) (s t a u : Nat) :
    (a, u) ∈ (G.linkOrMerge s t).edges ↔
      (∃ v, (a, v) ∈ G.edges ∧ u = moved G s t v) ∨ (a = s ∧ u = t ∧ G.locs s ≠ []) := by
  unfold Graph.linkOrMerge
  by_cases hs : G.locs s = []
  · by_cases he : s = G.start
    · subst he
      simp only [hs, if_true]
      constructor
      · intro hau
        exact .inl ⟨u, hau, (moved_ne (h.ns a u hau hs)).symm⟩
      · rintro (⟨v, h1, h2⟩ | h1)
        · rw [moved_ne (h.ns a v h1 hs)] at h2; rw [h2]; exact h1
        · exact absurd rfl h1.2.2
    · simp only [hs, he, if_true, if_false]
      constructor
      · intro hau
        obtain ⟨⟨x, y⟩, h1, h2⟩ := List.mem_map.1 hau
        rw [retarget_eq hs] at h2
        simp only [Prod.mk.injEq] at h2
        exact .inl ⟨y, h2.1 ▸ h1, h2.2.symm⟩
      · rintro (⟨v, h1, h2⟩ | h1)
        · exact List.mem_map.2 ⟨(a, v), h1, by rw [retarget_eq hs, h2]⟩
        · exact absurd rfl h1.2.2
  · simp only [hs, if_false]
    constructor
    · intro hau
      rcases List.mem_append.1 hau with hau | hau
      · exact .inl ⟨u, hau, (moved_full hs u).symm⟩
      · simp at hau; exact .inr ⟨hau.1, hau.2, hs⟩
    · rintro (⟨v, h1, h2⟩ | h1)
      · rw [moved_full hs] at h2; subst h2; exact List.mem_append_left _ h1
      · rw [h1.1, h1.2.1]; exact List.mem_append_right _ (by simp)

theorem lm_start {G : Graph} (s t : Nat) : (G.linkOrMerge s t).start = moved G s t G.start := by
  unfold Graph.linkOrMerge
  by_cases hs : G.locs s = []
  · by_cases he : s = G.start
    · subst he; simp only [hs, if_true]; rw [moved_self hs]
    · simp only [hs, he, if_true, if_false]; rw [moved_ne (fun e => he e.symm)]
  · simp only [hs, if_false]; rw [moved_full hs]; rfl

theorem lm_ext {G : Graph} (h : Wf G) (s t : Nat) : Ext (moved G s t) G (G.linkOrMerge s t) where
  count := by simp
  keep b hb := by
    by_cases e : b = s
    · subst e; rw [moved_full hb]
    · rw [moved_ne e]
  pre b := by simp
  edge a u hau := (lm_edges h s t _ _).2 (.inl ⟨u, hau, rfl⟩)
  done _ _ _ := by simp
  start := lm_start s t

theorem lm_cl {G : Graph} (h : Wf G) (s t : Nat) : Cl (moved G s t) (fun b => b ≠ s) G (G.linkOrMerge s t) where
  locs b _ := by simp
  edge b hb t' ht' := by
    rcases (lm_edges h s t _ _).1 ht' with ⟨v, h1, h2⟩ | h1
    · exact ⟨v, h1, h2⟩
    · exact absurd h1.1 hb

theorem lm_st {G : Graph} (s t : Nat) (hst : s = G.start → G.locs s = [] → G.locs t ≠ []) : St G (G.linkOrMerge s t) := by
  intro e
  rw [lm_start, lm_locs] at e
  by_cases hs : s = G.start ∧ G.locs s = []
  · rw [← hs.1, moved_self hs.2] at e
    exact absurd e (hst hs.1 hs.2)
  · have : moved G s t G.start = G.start := by
      by_cases h1 : G.start = s
      · rw [moved_full (fun h2 => hs ⟨h1.symm, h2⟩)]
      · rw [moved_ne h1]
    rw [lm_start, this]
    rw [this] at e
    exact ⟨e, rfl⟩

theorem lm_wf {G : Graph} (h : Wf G) {s t : Nat} (ht : t < G.count) (hn : NS G t)
    (hst : s = G.start → G.locs s = [] → G.locs t ≠ []) : Wf (G.linkOrMerge s t) where
  src a u hau := by
    rw [lm_locs]
    rcases (lm_edges h s t _ _).1 hau with ⟨v, h1, _⟩ | h1
    · exact h.src a v h1
    · rw [h1.1]; exact h1.2.2
  tgt a u hau := by
    rw [lm_count]
    rcases (lm_edges h s t _ _).1 hau with ⟨v, h1, h2⟩ | h1
    · rw [h2]; unfold moved; split
      · exact ht
      · exact h.tgt a v h1
    · rw [h1.2.1]; exact ht
  ns a u hau := by
    apply (lm_st s t hst).ns
    rcases (lm_edges h s t _ _).1 hau with ⟨v, h1, h2⟩ | h1
    · rw [h2]; unfold moved; split
      · exact hn
      · exact h.ns a v h1
    · rw [h1.2.1]; exact hn
  fresh b hb := by rw [lm_locs]; exact h.fresh b (by simpa using hb)
  start := by
    rw [lm_start, lm_count]; unfold moved; split
    · exact ht
    · exact h.start

/-- After linking or merging, the end of `s` leads to the beginning of `t`. -/
theorem lm_reach {G F : Graph} (h : Wf G) {s t : Nat} {φ} (hF : Ext φ (G.linkOrMerge s t) F) :
    Reach F (φ (moved G s t s)) (G.locs s).length [] (φ t) 0 := by
  by_cases hs : G.locs s = []
  · rw [moved_self hs, hs]; exact .refl
  · have he : (s, t) ∈ (G.linkOrMerge s t).edges := (lm_edges h s t _ _).2 (.inr ⟨rfl, rfl, hs⟩)
    rw [moved_full hs, hF.keep s (by rwa [lm_locs])]
    exact ⟨1, .edge (by rw [hF.done s t he, lm_locs]) (hF.edge s t he) .nil⟩

end Verif.Flow

import Verif.Lemmas.FlowWalk

/-! Statements are added to a graph: what was there is kept, and the runs of the statements are walks. -/

namespace Verif.Flow

/-- `G'` has grown from `G`; blocks `K` are where they were. -/
structure Grow (ψ : Nat → Nat) (K : Nat → Prop) (G G' : Graph) : Prop where
  wf : Wf G'
  st : St G G'
  ext : Ext ψ G G'
  fix : ∀ b, b < G.count → K b → ψ b = b ∧ G'.locs b = G.locs b

theorem Grow.trans {ψ χ K L M G F H} (h : Grow ψ K G F) (h' : Grow χ L F H) (hM : ∀ b, b < G.count → M b → K b ∧ L b) :
    Grow (fun b => χ (ψ b)) M G H where
  wf := h'.wf
  st := h.st.trans h'.st
  ext := h.ext.trans h'.ext
  fix b hb hm := by
    obtain ⟨h1, h2⟩ := h.fix b hb (hM b hb hm).1
    obtain ⟨h3, h4⟩ := h'.fix b (Nat.lt_of_lt_of_le hb h.ext.count) (hM b hb hm).2
    exact ⟨by show χ (ψ b) = b; rw [h1, h3], h4.trans h2⟩

theorem new_grow {G : Graph} (h : Wf G) : Grow id (fun _ => True) G G.new :=
  ⟨new_wf h, new_st G, new_ext G, fun _ _ _ => ⟨rfl, rfl⟩⟩

theorem add_grow {G : Graph} {c : Nat} (l : Nat) (h : Wf G) (hc : c < G.count) (ho : Open G c) :
    Grow id (· ≠ c) G (G.add c l) :=
  ⟨add_wf l h hc, add_st G c l, add_ext l ho, fun _ _ hb => ⟨rfl, add_ne G l hb⟩⟩

theorem lm_grow {G : Graph} (h : Wf G) {s t : Nat} (ht : t < G.count) (hn : NS G t)
    (hst : s = G.start → G.locs s = [] → G.locs t ≠ []) : Grow (moved G s t) (· ≠ s) G (G.linkOrMerge s t) :=
  ⟨lm_wf h ht hn hst, lm_st s t hst, lm_ext h s t, fun _ _ hb => ⟨moved_ne hb, by rw [lm_locs]⟩⟩

theorem link_grow {G : Graph} {s t : Nat} (h : Wf G) (hs : G.locs s ≠ []) (ht : t < G.count) (hn : NS G t) :
    Grow id (· ≠ s) G (G.link s t) :=
  ⟨link_wf h hs ht hn, link_st G s t, link_ext s t, fun _ _ _ => ⟨rfl, rfl⟩⟩

/-- `hst` of `lm_grow` for blocks that are not an empty beginning. -/
theorem NS.hst {G : Graph} {s : Nat} (h : NS G s) (t : Nat) : s = G.start → G.locs s = [] → G.locs t ≠ [] :=
  fun h1 h2 => absurd h1 (h (h1 ▸ h2))

/-- Boundaries lead to blocks of the graph; only those for exceptions may lead to the current block. -/
def Bd (bd : List Exits) (G : Graph) (c : Nat) : Prop :=
  ∀ j t, jumpTo j bd = some t → t < G.count ∧ NS G t ∧ ((∀ n, j ≠ .raise n) → t ≠ c)

/-- Where jumps lead in the graph that is made in the end. -/
def tgt (φ : Nat → Nat) (bd : List Exits) (j : Jump) : Option Nat := (jumpTo j bd).map φ

/-- Adding statements with the runs `R` to the block `c` of `G` makes `G'` and continues in block `c'`. `sl`: the first
statement may replace the block; `ok`: the runs are walks; `tf`: the walks are runs. -/
structure Good (ψ : Nat → Nat) (bd : List Exits) (G : Graph) (c : Nat) (G' : Graph) (c' : Nat) (R : Beh) (sl : Bool)
    (ok tf : Prop) : Prop where
  grow : Grow ψ (· ≠ c) G G'
  cur : c' < G'.count
  opn : Open G' c'
  ns : NS G c ∨ G.count ≤ c' → NS G' c'
  old : c' = c ∨ G.count ≤ c'
  stay : sl = false → ψ c = c
  sound : ok → ∀ F φ, Ext φ G' F →
    RS F R (tgt φ bd) (φ (ψ c)) (G.locs c).length (φ c') (G'.locs c').length
  cl : tf → Cl ψ (fun b => b < G.count ∧ b ≠ c) G G'
  prec : tf → ∀ F φ, Ext φ G' F → Cl φ (fun b => ((G.count ≤ b ∧ b < G'.count) ∨ b = c) ∧ b ≠ c') G' F →
    RP F R (tgt φ bd) (φ (ψ c)) (G.locs c).length (φ c') (G'.locs c').length

/-- Statements are added as they should. -/
def Adds (v : List Exits → State → State) (R : Beh) (sl : Bool) (ok tf : Prop) : Prop :=
  ∀ bd G c, Wf G → c < G.count → Open G c → Bd bd G c →
    ∃ ψ, Good ψ bd G c (v bd (G, c)).1 (v bd (G, c)).2 R sl ok tf

theorem Bd.mono {bd G G' c} (h : Bd bd G c) (hc : G.count ≤ G'.count) (hs : St G G') {c'} (he : c' = c ∨ G.count ≤ c') :
    Bd bd G' c' := fun j t ht => by
  obtain ⟨h1, h2, h3⟩ := h j t ht
  refine ⟨Nat.lt_of_lt_of_le h1 hc, hs.ns h2, fun hj => ?_⟩
  rcases he with e | e
  · rw [e]; exact h3 hj
  · omega

theorem Bd.next {bd G c G' c' ψ R sl ok tf} (h : Bd bd G c) (g : Good ψ bd G c G' c' R sl ok tf) : Bd bd G' c' :=
  h.mono g.grow.ext.count g.grow.st g.old

theorem tgt_fix {bd} {ψ φ : Nat → Nat} (h : ∀ j t, jumpTo j bd = some t → ψ t = t) :
    tgt (fun b => φ (ψ b)) bd = tgt φ bd := by
  funext j
  unfold tgt
  cases hj : jumpTo j bd with
  | none => rfl
  | some t => simp [h j t hj]

theorem Good.seq {bd G c G1 c1 G2 c2 ψ χ A B sl sl' ok ok' tf tf'} (hc : c < G.count) (hb : Bd bd G c)
    (h : Good ψ bd G c G1 c1 A sl ok tf) (hf : c1 = c → G1.locs c ≠ []) (h' : Good χ bd G1 c1 G2 c2 B sl' ok' tf') :
    Good (fun b => χ (ψ b)) bd G c G2 c2 (Seq A B) sl (ok ∧ ok') (tf ∧ tf') := by
  have ht : ∀ φ : Nat → Nat, tgt (fun b => φ (χ b)) bd = tgt φ bd := fun φ =>
    tgt_fix (fun j t ht => by
      by_cases e : t = c1
      · have hg := hb j t ht
        have e' : c1 = c := h.old.resolve_right (by omega)
        rw [e, e']; exact h'.grow.ext.keep c (hf e')
      · exact (h'.grow.fix t ((hb.next h) j t ht).1 e).1)
  have hold : ∀ b, b < G.count → b ≠ c → b < G1.count ∧ b ≠ c1 := by
    intro b h1 h2
    have := h.grow.ext.count
    refine ⟨by omega, ?_⟩
    rcases h.old with e | e
    · rw [e]; exact h2
    · omega
  have hc2 : ∀ b, b < G1.count → b ≠ c1 → b ≠ c2 := by
    intro b h1 h2
    rcases h'.old with e | e
    · rw [e]; exact h2
    · omega
  exact {
    grow := h.grow.trans h'.grow (fun b hb hn => ⟨hn, (hold b hb hn).2⟩)
    cur := h'.cur
    opn := h'.opn
    ns := fun hn => by
      rcases h'.old with e | e
      · exact h'.ns (.inl (h.ns (hn.imp id (fun hn => e ▸ hn))))
      · exact h'.ns (.inr e)
    old := by
      rcases h'.old with e | e
      · rw [e]; exact h.old
      · exact .inr (Nat.le_trans h.grow.ext.count e)
    stay := fun hs => by
      show χ (ψ c) = c
      rw [h.stay hs]
      by_cases h1 : c1 = c
      · exact h'.grow.ext.keep c (hf h1)
      · exact (h'.grow.fix c (Nat.lt_of_lt_of_le hc h.grow.ext.count) (fun e => h1 e.symm)).1
    sound := fun hok F φ hF => by
      have h1 := h.sound hok.1 F _ (h'.grow.ext.trans hF)
      have h2 := h'.sound hok.2 F φ hF
      rw [ht] at h1
      exact h1.seq h2
    cl := fun htf => (h.cl htf.1).trans (h'.cl htf.2) (fun b hb => hold b hb.1 hb.2)
    prec := fun htf F φ hF hcl => by
      have g1 := h.grow.ext.count
      have g2 := h'.grow.ext.count
      have h1 := h.prec htf.1 F _ (h'.grow.ext.trans hF) (((h'.cl htf.2).mono
        (D := fun b => (G.count ≤ b ∧ b < G1.count ∨ b = c) ∧ b ≠ c1) (fun b hb => ⟨by omega, hb.2⟩)).trans hcl
        (fun b hb => ⟨by omega, hc2 b (by omega) hb.2⟩))
      have h2 := h'.prec htf.2 F φ hF (hcl.mono (fun b hb => ⟨by
        rcases h.old with e | e
        · omega
        · have := h.cur; omega, hb.2⟩))
      rw [ht] at h1
      exact h1.seq h2 }

theorem Good.weaken {ψ bd G c G' c' R R' sl ok ok' tf tf'} (h : Good ψ bd G c G' c' R sl ok tf) (hok : ok' → ok)
    (htf : tf' → tf) (hR : R = R') : Good ψ bd G c G' c' R' sl ok' tf' := by
  subst hR
  exact ⟨h.grow, h.cur, h.opn, h.ns, h.old, h.stay, fun k => h.sound (hok k), fun k => h.cl (htf k), fun k => h.prec (htf k)⟩

theorem prefix_get {α : Type} {xs ys : List α} {x : α} (h : xs ++ [x] <+: ys) : ys[xs.length]? = some x := by
  obtain ⟨zs, rfl⟩ := h
  simp

/-- A location is added. -/
theorem leaf_good {W bd G c} (l : Nat) (h : Wf G) (hc : c < G.count) (ho : Open G c) :
    Good id bd G c (G.add c l) c (Leaf W l) false True True where
  grow := add_grow l h hc ho
  cur := hc
  opn := ho
  ns hn := (add_st G c l).ns (hn.resolve_right (by omega))
  old := .inl rfl
  stay _ := rfl
  sound _ F φ hF := by
    have hk : φ c = c := hF.keep c (by rw [add_self]; simp)
    rw [add_self]
    simp only [id, hk, List.length_append, List.length_singleton]
    exact .leaf (prefix_get (add_self G c l ▸ hF.pre c))
  cl _ := (add_cl G c l).mono (fun b hb => hb.2)
  prec _ F φ hF _ := by
    have hk : φ c = c := hF.keep c (by rw [add_self]; simp)
    rw [add_self]
    simp only [id, hk, List.length_append, List.length_singleton]
    exact .leaf (prefix_get (add_self G c l ▸ hF.pre c))

/-- No location is added. -/
theorem skip_good {bd G c} (h : Wf G) (hc : c < G.count) (ho : Open G c) : Good id bd G c G c Skip false True True where
  grow := ⟨h, St.refl G, Ext.refl G, fun _ _ _ => ⟨rfl, rfl⟩⟩
  cur := hc
  opn := ho
  ns hn := hn.resolve_right (by omega)
  old := .inl rfl
  stay _ := rfl
  sound _ _ _ _ := .skip
  cl _ := ⟨fun _ _ => rfl, fun _ _ t' h => ⟨t', h, rfl⟩⟩
  prec _ _ _ _ _ := .skip

/-- Several locations are added. -/
theorem leaves_good {W bd} : ∀ (ls : List Nat) {G c}, Wf G → c < G.count → Open G c → Bd bd G c →
    ∃ ψ, Good ψ bd G c (G.adds c ls) c (Leaves W ls) false True True
  | [], _, _, h, hc, ho, _ => ⟨id, skip_good h hc ho⟩
  | l :: ls, G, c, h, hc, ho, hb => by
    have h1 := leaf_good (W := W) (bd := bd) l h hc ho
    obtain ⟨ψ, h2⟩ := leaves_good (W := W) ls h1.grow.wf h1.cur h1.opn (hb.next h1)
    exact ⟨_, (h1.seq hc hb (fun _ => by rw [add_self]; simp) h2).weaken (fun _ => ⟨trivial, trivial⟩)
      (fun _ => ⟨trivial, trivial⟩) rfl⟩

/-- A jump is added. -/
theorem jump_good {W bd G c} (j : Jump) (l : Nat) (h : Wf G) (hc : c < G.count) (ho : Open G c) (hb : Bd bd G c) :
    Good id bd G c (jumped bd j l G c).new (jumped bd j l G c).count (Seq (Leaf W l) (JumpRun j)) false True True := by
  have h1 := leaf_good (W := W) (bd := bd) l h hc ho
  have hne : (G.add c l).locs c ≠ [] := by rw [add_self]; simp
  have hcount : (jumped bd j l G c).count = G.count := by unfold jumped; split <;> rfl
  have hlocs : (jumped bd j l G c).locs = (G.add c l).locs := by unfold jumped; split <;> rfl
  have hg : Grow id (· ≠ c) (G.add c l) (jumped bd j l G c) := by
    unfold jumped
    cases hj : jumpTo j bd with
    | none => exact ⟨h1.grow.wf, St.refl _, Ext.refl _, fun _ _ _ => ⟨rfl, rfl⟩⟩
    | some t =>
      obtain ⟨g1, g3, -⟩ := hb j t hj
      exact link_grow h1.grow.wf hne g1 (h1.grow.st.ns g3)
  have hcl : Cl id (· ≠ c) (G.add c l) (jumped bd j l G c) := by
    unfold jumped
    cases hj : jumpTo j bd with
    | none => exact ⟨fun _ _ => rfl, fun _ _ t' h => ⟨t', h, rfl⟩⟩
    | some t => exact link_cl _ _ _
  have hgn := hg.trans (M := (· ≠ c)) (new_grow hg.wf) (fun _ _ h => ⟨h, trivial⟩)
  have hedge : ∀ u, (c, u) ∈ (jumped bd j l G c).edges ↔ jumpTo j bd = some u := by
    intro u
    unfold jumped
    cases hj : jumpTo j bd with
    | none => simp; exact ho u
    | some t =>
      constructor
      · intro hu
        rcases List.mem_append.1 hu with hu | hu
        · exact absurd hu (ho u)
        · simp at hu; rw [hu]
      · intro hu
        cases hu
        exact List.mem_append_right _ (by simp)
  exact {
    grow := h1.grow.trans hgn (fun _ _ h => ⟨h, h⟩)
    cur := Nat.lt_succ_self _
    opn := (new_wf hg.wf).open_ (hg.wf.fresh _ (Nat.le_refl _))
    ns := fun _ => new_ns hg.wf
    old := .inr (Nat.le_of_eq hcount.symm)
    stay := fun _ => rfl
    sound := fun _ F φ hF => by
      have hF1 : Ext φ (G.add c l) F := hgn.ext.trans hF
      have a1 := h1.sound trivial F φ hF1
      refine a1.seq (.jump ?_)
      intro t ht
      unfold tgt at ht
      cases hj : jumpTo j bd with
      | none => simp [hj] at ht
      | some u =>
        simp [hj] at ht
        have he : (c, u) ∈ (jumped bd j l G c).new.edges := (hedge u).2 hj
        rw [hF1.keep c hne, ← ht]
        exact ⟨1, .edge (by rw [hF.done c u he]; show _ = ((jumped bd j l G c).locs c).length; rw [hlocs]) (hF.edge c u he) .nil⟩
    cl := fun _ => ((h1.cl trivial).trans hcl (fun b hb => hb.2)).trans (new_cl _) (fun _ _ => trivial)
    prec := fun _ F φ hF hcl' => by
      have hF1 : Ext φ (G.add c l) F := hgn.ext.trans hF
      have hcc : (G.count ≤ c ∧ c < (jumped bd j l G c).new.count ∨ c = c) ∧ c ≠ (jumped bd j l G c).count := ⟨.inr rfl, by
        rw [hcount]; omega⟩
      have hlen : (F.locs c).length = ((G.add c l).locs c).length := by
        rw [hcl'.locs c hcc]; show ((jumped bd j l G c).locs c).length = _; rw [hlocs]
      have hk : φ c = c := hF1.keep c hne
      have a1 : RP F (Leaf W l) (tgt φ bd) (φ c) (G.locs c).length (φ c) ((G.add c l).locs c).length := by
        rw [hk, add_self, List.length_append, List.length_singleton]
        exact .leaf (prefix_get (add_self G c l ▸ hF1.pre c))
      refine a1.seq (.jump ?_)
      intro n tr q r hw
      rw [hk] at hw
      cases hw with
      | nil => exact .inl rfl
      | emit h1 h2 => rw [← hlen] at h1; simp at h1
      | edge h1 h2 h3 =>
        obtain ⟨u, hu, rfl⟩ := hcl'.edge c hcc _ h2
        exact .inr ⟨φ u, _, Nat.le_succ _, by unfold tgt; rw [(hedge u).1 hu]; rfl, h3⟩ }

/-! ### Branches -/

/-- From the end of a block, a walk is empty or follows one of the edges. -/
theorem walk_end {F c i x y} (hi : i = (F.locs c).length) (hS : ∀ t, (c, t) ∈ F.edges → t = x ∨ t = y) :
    ∀ n tr q r, Walk F n c i tr q r → tr = [] ∨ ∃ n', n' ≤ n ∧ (Walk F n' x 0 tr q r ∨ Walk F n' y 0 tr q r) := by
  intro n tr q r hw
  cases hw with
  | nil => exact .inl rfl
  | emit h1 h2 => subst hi; simp at h1
  | edge h1 h2 h3 =>
    rcases hS _ h2 with rfl | rfl
    · exact .inr ⟨_, Nat.le_succ _, .inl h3⟩
    · exact .inr ⟨_, Nat.le_succ _, .inr h3⟩

theorem newFrom_eq {G : Graph} {c : Nat} (hne : G.locs c ≠ []) : G.newFrom c = G.new.link c G.count := by
  unfold Graph.newFrom Graph.linkOrMerge
  rw [if_neg]
  exact hne

theorem newFrom_grow {G : Graph} {c : Nat} (h : Wf G) (hne : G.locs c ≠ []) : Grow id (· ≠ c) G (G.newFrom c) := by
  rw [newFrom_eq hne]
  exact (new_grow h).trans (link_grow (new_wf h) hne (Nat.lt_succ_self _) (new_ns h)) (fun _ _ h => ⟨trivial, h⟩)

theorem newFrom_cl {G : Graph} {c : Nat} (hne : G.locs c ≠ []) : Cl id (· ≠ c) G (G.newFrom c) := by
  rw [newFrom_eq hne]
  exact ((new_cl G).mono (fun _ _ => trivial)).trans (link_cl _ _ _) (fun _ h => h)

theorem newFrom_locs {G : Graph} {c : Nat} (hne : G.locs c ≠ []) : (G.newFrom c).locs = G.locs := by
  rw [newFrom_eq hne]; rfl

theorem newFrom_count {G : Graph} {c : Nat} (hne : G.locs c ≠ []) : (G.newFrom c).count = G.count + 1 := by
  rw [newFrom_eq hne]; rfl

theorem newFrom_edges {G : Graph} {c : Nat} (hne : G.locs c ≠ []) (a u : Nat) :
    (a, u) ∈ (G.newFrom c).edges ↔ (a, u) ∈ G.edges ∨ (a = c ∧ u = G.count) := by
  rw [newFrom_eq hne]
  show (a, u) ∈ G.edges ++ [(c, G.count)] ↔ _
  simp

theorem newFrom_ns {G : Graph} {c : Nat} (h : Wf G) (hne : G.locs c ≠ []) : NS (G.newFrom c) G.count := by
  rw [newFrom_eq hne]; exact new_ns h

theorem Ext.edge_reach {φ G F s t} (hF : Ext φ G F) (h : (s, t) ∈ G.edges) : Reach F s (G.locs s).length [] (φ t) 0 :=
  ⟨1, .edge (by rw [hF.done s t h]) (hF.edge s t h) .nil⟩

/-- After linking or merging, only the beginning of `t` follows the end of `s`. -/
theorem lm_to {G F : Graph} (h : Wf G) {s t : Nat} {φ : Nat → Nat} (ho : Open G s) (hF : Ext φ (G.linkOrMerge s t) F) {C}
    (hcl : Cl φ C (G.linkOrMerge s t) F) (hs : C s) :
    To F (φ (moved G s t s)) (G.locs s).length (φ t) 0 := by
  by_cases he : G.locs s = []
  · rw [moved_self he, he]; exact .refl
  · rw [moved_full he, hF.keep s (by rwa [lm_locs])]
    intro n tr q r hw
    have hi : (G.locs s).length = (F.locs s).length := by rw [hcl.locs s hs, lm_locs]
    rcases walk_end (x := φ t) (y := φ t) hi (fun t' ht' => by
      obtain ⟨u, h1, h2⟩ := hcl.edge s hs t' ht'
      rcases (lm_edges h s t _ _).1 h1 with ⟨v, h3, -⟩ | h3
      · exact absurd h3 (ho v)
      · rw [h2, h3.2.1]; exact .inl rfl) n tr q r hw with h | ⟨n', h1, h2 | h2⟩
    · exact .inl h
    · exact .inr ⟨n', h1, h2⟩
    · exact .inr ⟨n', h1, h2⟩

theorem lm_reach' {G G' F : Graph} (h : Wf G) {s t : Nat} {φ} (e : G.linkOrMerge s t = G') (hF : Ext φ G' F) :
    Reach F (φ (moved G s t s)) (G.locs s).length [] (φ t) 0 := by subst e; exact lm_reach h hF

theorem lm_to' {G G' F : Graph} (h : Wf G) {s t : Nat} {φ : Nat → Nat} (e : G.linkOrMerge s t = G') (ho : Open G s)
    (hF : Ext φ G' F) {C} (hcl : Cl φ C G' F) (hs : C s) :
    To F (φ (moved G s t s)) (G.locs s).length (φ t) 0 := by subst e; exact lm_to h ho hF hcl hs

/-- What follows an `if` without `else`. -/
theorem then_good {v A sl ok tf bd G c} (hv : Adds v A sl ok tf) (hcA : Cuts A) (hsA : Stops A) (h : Wf G) (hc : c < G.count)
    (ho : Open G c) (hb : Bd bd G c) (hne : G.locs c ≠ []) :
    ∃ ψ, Good ψ bd G c (join (v bd (G.newFrom c, G.count)).1 (v bd (G.newFrom c, G.count)).2 c).1
      (v bd (G.newFrom c, G.count)).1.count (Alt A Skip) false ok tf := by
  have gb := newFrom_grow h hne
  have nb : (G.newFrom c).locs G.count = [] := by rw [newFrom_locs hne]; exact h.fresh _ (Nat.le_refl _)
  have cb := newFrom_count hne
  have hbB : Bd bd (G.newFrom c) G.count := hb.mono (by omega) gb.st (.inr (Nat.le_refl _))
  obtain ⟨ψ, g⟩ := hv bd (G.newFrom c) G.count gb.wf (by omega) (gb.wf.open_ nb) hbB
  revert g
  generalize (v bd (G.newFrom c, G.count)).1 = Gc, (v bd (G.newFrom c, G.count)).2 = e1
  intro g
  have hcc : Gc.locs c = G.locs c := by
    rw [(g.grow.fix c (by omega) (by show c ≠ G.count; omega)).2, newFrom_locs hne]
  have cc := g.grow.ext.count
  have he1 : G.count ≤ e1 := by rcases g.old with e | e <;> omega
  have ge : Grow (moved Gc.new e1 Gc.count) (· ≠ e1) Gc.new (Gc.new.linkOrMerge e1 Gc.count) :=
    lm_grow (new_wf g.grow.wf) (Nat.lt_succ_self _) (new_ns g.grow.wf)
      (NS.hst ((new_st Gc).ns (g.ns (.inl (newFrom_ns h hne)))) _)
  have hce : (Gc.new.linkOrMerge e1 Gc.count).locs c ≠ [] := by
    rw [lm_locs]; show Gc.locs c ≠ []; rw [hcc]; exact hne
  have gf : Grow (moved (Gc.new.linkOrMerge e1 Gc.count) c Gc.count) (· ≠ c) (Gc.new.linkOrMerge e1 Gc.count)
      ((Gc.new.linkOrMerge e1 Gc.count).linkOrMerge c Gc.count) :=
    lm_grow ge.wf (by rw [lm_count]; exact Nat.lt_succ_self _) (ge.st.ns (new_ns g.grow.wf)) (fun _ e => absurd e hce)
  have hmf : ∀ b, moved (Gc.new.linkOrMerge e1 Gc.count) c Gc.count b = b := fun b => moved_full hce b
  have gnf := ((new_grow g.grow.wf).trans (M := fun b => b ≠ e1) ge (fun _ _ h => ⟨trivial, h⟩)).trans
    (M := fun b => b ≠ e1 ∧ b ≠ c) gf (fun _ _ h => ⟨h.1, h.2⟩)
  have gbf := (gb.trans (M := (· ≠ c)) g.grow (fun b h1 h2 => ⟨h2, by show b ≠ G.count; omega⟩)).trans
    (M := (· ≠ c)) gnf (fun b h1 h2 => ⟨h2, by omega, h2⟩)
  show ∃ ψ, Good ψ bd G c ((Gc.new.linkOrMerge e1 Gc.count).linkOrMerge c Gc.count) Gc.count _ _ _ _
  generalize hGe : Gc.new.linkOrMerge e1 Gc.count = Ge at *
  generalize hGf : Ge.linkOrMerge c Gc.count = Gf at *
  have hlocsF : Gf.locs Gc.count = [] := by
    rw [← hGf, lm_locs, ← hGe, lm_locs]; exact g.grow.wf.fresh _ (Nat.le_refl _)
  have hcountF : Gf.count = Gc.count + 1 := by rw [← hGf, lm_count, ← hGe, lm_count]; rfl
  have hcA1 : Gc.count ≠ c := by omega
  have hwn := new_wf g.grow.wf
  have clE : Cl (moved Gc.new e1 Gc.count) (· ≠ e1) Gc.new Ge := by have := lm_cl hwn e1 Gc.count; rwa [hGe] at this
  have clF : Cl (moved Ge c Gc.count) (· ≠ c) Ge Gf := by have := lm_cl ge.wf c Gc.count; rwa [hGf] at this
  have hT : ∀ φ : Nat → Nat, tgt (fun b => φ (moved Ge c Gc.count (moved Gc.new e1 Gc.count (id b)))) bd = tgt φ bd := by
    intro φ
    funext j
    unfold tgt
    cases hj : jumpTo j bd with
    | none => rfl
    | some t =>
      have h1 := hb j t hj
      simp only [Option.map_some, hmf, id]
      rw [moved_ne (by omega)]
  refine ⟨_, {
    grow := gbf
    cur := by omega
    opn := gbf.wf.open_ hlocsF
    ns := fun _ => (ge.st.trans gf.st).ns (new_ns g.grow.wf)
    old := .inr (by omega)
    stay := fun _ => gbf.ext.keep c hne
    sound := fun hok F φ hF => ?_
    cl := fun htf => ?_
    prec := fun htf F φ hF hcl => ?_ }⟩
  · have hFe : Ext _ Ge F := gf.ext.trans hF
    have hFc : Ext _ Gc F := gnf.ext.trans hF
    have hFb : Ext _ (G.newFrom c) F := g.grow.ext.trans hFc
    have hFg : Ext _ G F := gb.ext.trans hFb
    have s1 := g.sound hok F _ hFc
    rw [hT, nb] at s1
    have r1 := lm_reach' hwn hGe hFe
    simp only [hmf] at r1
    have r0 := hFb.edge_reach ((newFrom_edges hne c G.count).2 (.inr ⟨rfl, rfl⟩))
    have r2 := lm_reach' ge.wf hGf hF
    rw [hmf, hF.keep c (by rw [← hGf, lm_locs]; exact hce)] at r2
    rw [newFrom_locs hne] at r0
    have hlen : (Ge.locs c).length = (G.locs c).length := by rw [← hGe, lm_locs]; show (Gc.locs c).length = _; rw [hcc]
    rw [hlen] at r2
    have hk := hFg.keep c hne
    simp only [id] at hk ⊢
    rw [hk, hlocsF]
    refine .alt (.pre r0 (s1.post ?_)) (.pre r2 .skip)
    simp only [hmf]; exact r1
  · have c1 : Cl _ (fun b => b < G.count ∧ b ≠ c) G Gc := ((newFrom_cl hne).mono (fun b hb => hb.2)).trans (g.cl htf)
      (fun b hb => ⟨by omega, by omega⟩)
    have c2 := (c1.trans (new_cl Gc) (fun _ _ => trivial)).trans clE (fun b hb => (by omega : b ≠ e1))
    exact c2.trans clF (fun b hb => hb.2)
  · have hFe : Ext _ Ge F := gf.ext.trans hF
    have hFc : Ext _ Gc F := gnf.ext.trans hF
    have hFb : Ext _ (G.newFrom c) F := g.grow.ext.trans hFc
    have hFg : Ext _ G F := gb.ext.trans hFb
    have clFe : Cl _ (fun b => (G.count ≤ b ∧ b < Gf.count) ∧ b ≠ Gc.count) Ge F :=
      (clF.mono (fun b hb => by show b ≠ c; omega)).trans hcl (fun b hb => ⟨.inl hb.1, hb.2⟩)
    have clFc : Cl _ (fun b => ((G.newFrom c).count ≤ b ∧ b < Gc.count ∨ b = G.count) ∧ b ≠ e1) Gc F :=
      ((((new_cl Gc).mono (fun _ _ => trivial)).trans (clE.mono (fun _ h => h)) (fun b hb => hb.2)).trans clFe
        (fun b hb => ⟨by omega, by omega⟩))
    have s1 := g.prec htf F _ hFc clFc
    have hTT := hT φ
    rw [show tgt _ bd = _ from hTT, nb] at s1
    have r1 := lm_to' hwn hGe g.opn hFe clFe
      (by have := g.cur; exact ⟨by omega, by omega⟩)
    simp only [hmf] at r1
    have hk := hFg.keep c hne
    simp only [id] at hk ⊢
    rw [hk, hlocsF]
    have hlen : (Gf.locs c).length = (G.locs c).length := by
      rw [← hGf, lm_locs, ← hGe, lm_locs]; show (Gc.locs c).length = _; rw [hcc]
    have hcD : (G.count ≤ c ∧ c < Gf.count ∨ c = c) ∧ c ≠ Gc.count := ⟨.inr rfl, by omega⟩
    refine .alt (walk_end (by rw [hcl.locs c hcD, hlen]) ?_) hcA (s1.post hsA (by simp only [hmf]; exact r1)) .skip
    intro t' ht'
    obtain ⟨t, h1, rfl⟩ := hcl.edge c hcD t' ht'
    rw [← hGf] at h1
    rcases (lm_edges ge.wf c Gc.count _ _).1 h1 with ⟨u, h2, rfl⟩ | h2
    · left
      obtain ⟨w, h3, rfl⟩ := clE.edge c (by show c ≠ e1; omega) u h2
      obtain ⟨x, h4, rfl⟩ := (g.cl htf).edge c ⟨by omega, by omega⟩ w h3
      rcases (newFrom_edges hne _ _).1 h4 with h5 | h5
      · exact absurd h5 (ho x)
      · rw [h5.2]; rfl
    · right; rw [h2.2.1]

end Verif.Flow

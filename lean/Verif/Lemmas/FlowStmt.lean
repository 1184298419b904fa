import Verif.Lemmas.FlowBuild

/-! Compound statements are added to a graph. -/

namespace Verif.Flow

/-- What follows an `if` with `else`. -/
theorem else_good {v w A B sl sl' ok ok' tf tf' bd G c} (hv : Adds v A sl ok tf) (hw : Adds w B sl' ok' tf') (hcA : Cuts A)
    (hsA : Stops A) (hsB : Stops B) (h : Wf G) (hc : c < G.count) (ho : Open G c) (hb : Bd bd G c) (hne : G.locs c ≠ [])
    {st1 st2} (E1 : v bd (G.newFrom c, G.count) = st1) (E2 : w bd (st1.1.newFrom c, st1.1.count) = st2) :
    ∃ ψ, Good ψ bd G c (join st2.1 st1.2 st2.2).1 st2.1.count (Alt A B) false (ok ∧ ok') (tf ∧ tf') := by
  have gb := newFrom_grow h hne
  have nb : (G.newFrom c).locs G.count = [] := by rw [newFrom_locs hne]; exact h.fresh _ (Nat.le_refl _)
  have cb := newFrom_count hne
  have hbB : Bd bd (G.newFrom c) G.count := hb.mono (by omega) gb.st (.inr (Nat.le_refl _))
  obtain ⟨ψ, g⟩ := hv bd (G.newFrom c) G.count gb.wf (by omega) (gb.wf.open_ nb) hbB
  rw [E1] at g
  obtain ⟨Gc, e1⟩ := st1
  simp only at g E2 ⊢
  have hcc : Gc.locs c = G.locs c := by
    rw [(g.grow.fix c (by omega) (by show c ≠ G.count; omega)).2, newFrom_locs hne]
  have cc := g.grow.ext.count
  have he1 : G.count ≤ e1 := by rcases g.old with e | e <;> omega
  have he1' := g.cur
  have hnc : Gc.locs c ≠ [] := by rw [hcc]; exact hne
  have gd := newFrom_grow g.grow.wf hnc
  have nd : (Gc.newFrom c).locs Gc.count = [] := by rw [newFrom_locs hnc]; exact g.grow.wf.fresh _ (Nat.le_refl _)
  have cd := newFrom_count hnc
  have hbE : Bd bd (Gc.newFrom c) Gc.count := hb.mono (by omega) ((gb.st.trans g.grow.st).trans gd.st) (.inr (by omega))
  obtain ⟨χ, k⟩ := hw bd (Gc.newFrom c) Gc.count gd.wf (by omega) (gd.wf.open_ nd) hbE
  rw [E2] at k
  obtain ⟨Ge, e2⟩ := st2
  simp only at k ⊢
  have ce := k.grow.ext.count
  have he2 : Gc.count ≤ e2 := by rcases k.old with e | e <;> omega
  have he2' := k.cur
  have hwn := new_wf k.grow.wf
  have hce : Ge.locs c = G.locs c := by
    rw [(k.grow.fix c (by omega) (by show c ≠ Gc.count; omega)).2, newFrom_locs hnc, hcc]
  have hle1 : Ge.locs e1 = Gc.locs e1 := by
    rw [(k.grow.fix e1 (by omega) (by show e1 ≠ Gc.count; omega)).2, newFrom_locs hnc]
  have hχe1 : χ e1 = e1 := (k.grow.fix e1 (by omega) (by show e1 ≠ Gc.count; omega)).1
  have nse1 : NS Ge.new e1 := ((gd.st.trans k.grow.st).trans (new_st Ge)).ns (g.ns (.inl (newFrom_ns h hne)))
  have nse2 : NS Ge.new e2 := (new_st Ge).ns (k.ns (.inl (newFrom_ns g.grow.wf hnc)))
  have gg : Grow (moved Ge.new e1 Ge.count) (· ≠ e1) Ge.new (Ge.new.linkOrMerge e1 Ge.count) :=
    lm_grow hwn (Nat.lt_succ_self _) (new_ns k.grow.wf) (NS.hst nse1 _)
  have gh : Grow (moved (Ge.new.linkOrMerge e1 Ge.count) e2 Ge.count) (· ≠ e2) (Ge.new.linkOrMerge e1 Ge.count)
      ((Ge.new.linkOrMerge e1 Ge.count).linkOrMerge e2 Ge.count) :=
    lm_grow gg.wf (by rw [lm_count]; exact Nat.lt_succ_self _) (gg.st.ns (new_ns k.grow.wf)) (NS.hst (gg.st.ns nse2) _)
  show ∃ ψ, Good ψ bd G c ((Ge.new.linkOrMerge e1 Ge.count).linkOrMerge e2 Ge.count) Ge.count _ _ _ _
  have clG0 := lm_cl hwn e1 Ge.count
  have clH0 := lm_cl gg.wf e2 Ge.count
  generalize hGg : Ge.new.linkOrMerge e1 Ge.count = Gg at *
  generalize hGh : Gg.linkOrMerge e2 Ge.count = Gh at *
  have geh := ((new_grow k.grow.wf).trans (M := fun b => b ≠ e1) gg (fun _ _ h => ⟨trivial, h⟩)).trans
    (M := fun b => b ≠ e1 ∧ b ≠ e2) gh (fun _ _ h => ⟨h.1, h.2⟩)
  have gdh := k.grow.trans (M := fun b => b ≠ e1 ∧ b < Gc.count) geh (fun b h1 h2 =>
    ⟨by show b ≠ Gc.count; omega, h2.1, by omega⟩)
  have gch := gd.trans (M := fun b => b ≠ e1 ∧ b ≠ c) gdh (fun b h1 h2 => ⟨h2.2, h2.1, h1⟩)
  have gbh := g.grow.trans (M := fun b => b < G.count ∧ b ≠ c) gch (fun b h1 h2 =>
    ⟨by show b ≠ G.count; omega, by omega, h2.2⟩)
  have gah := gb.trans (M := (· ≠ c)) gbh (fun b h1 h2 => ⟨h2, h1, h2⟩)
  have hlocsH : Gh.locs Ge.count = [] := by
    rw [← hGh, lm_locs, ← hGg, lm_locs]; exact k.grow.wf.fresh _ (Nat.le_refl _)
  have hcountH : Gh.count = Ge.count + 1 := by rw [← hGh, lm_count, ← hGg, lm_count]; rfl
  have hm1 : ∀ b, b ≠ e1 → moved Ge.new e1 Ge.count b = b := fun b hb => moved_ne hb
  have hm2 : ∀ b, b ≠ e2 → moved Gg e2 Ge.count b = b := fun b hb => moved_ne hb
  have hχ : ∀ b, b < Gc.count → χ b = b := fun b hb => (k.grow.fix b (by omega) (by show b ≠ Gc.count; omega)).1
  have hTe : ∀ φ : Nat → Nat, tgt (fun b => φ (moved Gg e2 Ge.count (moved Ge.new e1 Ge.count (id b)))) bd = tgt φ bd :=
    fun φ => tgt_fix (ψ := fun b => moved Gg e2 Ge.count (moved Ge.new e1 Ge.count (id b))) (fun j t ht => by
      have := hb j t ht
      simp only [id]
      rw [hm1 t (by omega), hm2 t (by omega)])
  have hTc : ∀ φ : Nat → Nat,
      tgt (fun b => φ (moved Gg e2 Ge.count (moved Ge.new e1 Ge.count (id (χ (id b)))))) bd = tgt φ bd :=
    fun φ => tgt_fix (ψ := fun b => moved Gg e2 Ge.count (moved Ge.new e1 Ge.count (id (χ (id b))))) (fun j t ht => by
      have := hb j t ht
      simp only [id]
      rw [hχ t (by omega), hm1 t (by omega), hm2 t (by omega)])
  refine ⟨_, {
    grow := gah
    cur := by omega
    opn := gah.wf.open_ hlocsH
    ns := fun _ => (gg.st.trans gh.st).ns (new_ns k.grow.wf)
    old := .inr (by omega)
    stay := fun _ => gah.ext.keep c hne
    sound := fun hok F φ hF => ?_
    cl := fun htf => ?_
    prec := fun htf F φ hF hcl => ?_ }⟩
  · have hFg : Ext _ Gg F := gh.ext.trans hF
    have hFe : Ext _ Ge F := geh.ext.trans hF
    have hFd : Ext _ (Gc.newFrom c) F := k.grow.ext.trans hFe
    have hFc : Ext _ Gc F := gd.ext.trans hFd
    have hFb : Ext _ (G.newFrom c) F := g.grow.ext.trans hFc
    have hFa : Ext _ G F := gb.ext.trans hFb
    have s1 := g.sound hok.1 F _ hFc
    have s2 := k.sound hok.2 F _ hFe
    rw [hTc, nb] at s1
    rw [hTe, nd] at s2
    have r1 := lm_reach' hwn hGg hFg
    have r2 := lm_reach' gg.wf hGh hF
    have p1 := hFb.edge_reach ((newFrom_edges hne c G.count).2 (.inr ⟨rfl, rfl⟩))
    have p2 := hFd.edge_reach ((newFrom_edges hnc c Gc.count).2 (.inr ⟨rfl, rfl⟩))
    rw [newFrom_locs hne] at p1
    rw [newFrom_locs hnc, hcc] at p2
    have hk := hFa.keep c hne
    simp only [id] at hk ⊢
    rw [hk, hlocsH]
    refine .alt (.pre p1 (s1.post ?_)) (.pre p2 (s2.post ?_))
    · rw [hm2 Ge.count (by omega)] at r1
      simp only [id, hχe1]
      rw [← hle1]; exact r1
    · simp only [id]
      rw [hm1 e2 (by omega)]
      have : Gg.locs e2 = Ge.locs e2 := by rw [← hGg, lm_locs]; rfl
      rw [this] at r2; exact r2
  · have c1 : Cl _ (fun b => b < G.count ∧ b ≠ c) G Gc := ((newFrom_cl hne).mono (fun b hb => hb.2)).trans (g.cl htf.1)
      (fun b hb => ⟨by omega, by omega⟩)
    have c2 := (c1.trans (newFrom_cl hnc) (fun b hb => hb.2)).trans (k.cl htf.2) (fun b hb => ⟨by omega, by omega⟩)
    have c3 := (c2.trans (new_cl Ge) (fun _ _ => trivial)).trans clG0 (fun b hb => (by omega : b ≠ e1))
    exact c3.trans clH0 (fun b hb => (by omega : b ≠ e2))
  · have hFg : Ext _ Gg F := gh.ext.trans hF
    have hFe : Ext _ Ge F := geh.ext.trans hF
    have hFd : Ext _ (Gc.newFrom c) F := k.grow.ext.trans hFe
    have hFc : Ext _ Gc F := gd.ext.trans hFd
    have hFb : Ext _ (G.newFrom c) F := g.grow.ext.trans hFc
    have hFa : Ext _ G F := gb.ext.trans hFb
    have clFg : Cl _ (fun b => ((G.count ≤ b ∧ b < Gh.count ∨ b = c) ∧ b ≠ Ge.count) ∧ b ≠ e2) Gg F :=
      (clH0.mono (fun b hb => hb.2)).trans hcl (fun b hb => hb.1)
    have clFe : Cl _ (fun b => ((G.count ≤ b ∧ b < Ge.count ∨ b = c) ∧ b ≠ e1) ∧ b ≠ e2) Ge F :=
      (((new_cl Ge).mono (fun _ _ => trivial)).trans clG0 (fun b hb => hb.1.2)).trans clFg
        (fun b hb => ⟨⟨by omega, by omega⟩, hb.2⟩)
    have clFd : Cl _ (fun b => (G.count ≤ b ∧ b < Gc.count ∨ b = c) ∧ b ≠ e1) (Gc.newFrom c) F :=
      ((k.cl htf.2).mono (fun b hb => ⟨by omega, by omega⟩)).trans clFe (fun b hb => ⟨⟨by omega, hb.2⟩, by omega⟩)
    have clFc : Cl _ (fun b => ((G.newFrom c).count ≤ b ∧ b < Gc.count ∨ b = G.count) ∧ b ≠ e1) Gc F :=
      ((newFrom_cl hnc).mono (fun b hb => by show b ≠ c; omega)).trans clFd (fun b hb => ⟨by omega, hb.2⟩)
    have s1 := g.prec htf.1 F _ hFc clFc
    have s2 := k.prec htf.2 F _ hFe (clFe.mono (fun b hb => ⟨⟨by omega, by omega⟩, by omega⟩))
    have t1 := hTc φ
    have t2 := hTe φ
    rw [show tgt _ bd = _ from t1, nb] at s1
    rw [show tgt _ bd = _ from t2, nd] at s2
    have oe1 : Open Ge.new e1 := by
      intro u hu
      obtain ⟨x, h4, -⟩ := (k.cl htf.2).edge e1 ⟨by omega, by omega⟩ u hu
      rcases (newFrom_edges hnc _ _).1 h4 with h5 | h5
      · exact g.opn x h5
      · omega
    have oe2 : Open Gg e2 := by
      intro u hu
      obtain ⟨x, h4, -⟩ := clG0.edge e2 (by show e2 ≠ e1; omega) u hu
      exact k.opn x h4
    have r1 := lm_to' hwn hGg oe1 hFg clFg ⟨⟨.inl ⟨by omega, by omega⟩, by omega⟩, by omega⟩
    have r2 := lm_to' gg.wf hGh oe2 hF hcl ⟨.inl ⟨by omega, by omega⟩, by omega⟩
    have hk := hFa.keep c hne
    simp only [id] at hk ⊢
    rw [hk, hlocsH]
    have hcD : (G.count ≤ c ∧ c < Gc.count ∨ c = c) ∧ c ≠ e1 := ⟨.inr rfl, by omega⟩
    refine .alt (walk_end (by rw [clFd.locs c hcD, newFrom_locs hnc, hcc]) ?_) hcA (s1.post hsA ?_) (s2.post hsB ?_)
    · intro t' ht'
      obtain ⟨t, h1, rfl⟩ := clFd.edge c hcD t' ht'
      rcases (newFrom_edges hnc _ _).1 h1 with h2 | h2
      · left
        obtain ⟨x, h4, rfl⟩ := (g.cl htf.1).edge c ⟨by omega, by omega⟩ t h2
        rcases (newFrom_edges hne _ _).1 h4 with h5 | h5
        · exact absurd h5 (ho x)
        · rw [h5.2]; rfl
      · right; rw [h2.2]
    · rw [hm2 Ge.count (by omega)] at r1
      simp only [id, hχe1]
      rw [← hle1]; exact r1
    · simp only [id]
      rw [hm1 e2 (by omega)]
      have : Gg.locs e2 = Ge.locs e2 := by rw [← hGg, lm_locs]; rfl
      rw [this] at r2; exact r2

/-! ### Loops -/

theorem jumpTo_loop (G : Graph) (bd : List Exits) (j : Jump) : jumpTo j (loopExits G :: bd) =
    match j with
    | .brk => some (G.count + 1)
    | .cont => some G.count
    | j => jumpTo j bd := by
  cases j <;> rfl

/-- What is visited of a loop. -/
theorem loop_good {v w B E sl sl' ok ok' tf tf' bd G c} {W : World} (t : Nat) (hv : Adds v B sl ok tf) (hw : Adds w E sl' ok' tf')
    (hcB : Cuts B) (hsB : Stops B) (hsE : Stops E) (h : Wf G) (hc : c < G.count) (ho : Open G c) (hb : Bd bd G c)
    {st1 st2} (E1 : v (loopExits G :: bd) (loopHead t (G, c)) = st1) (E2 : w bd (loopBack G.count st1) = st2) :
    ∃ ψ, Good ψ bd G c (st2.1.linkOrMerge st2.2 (G.count + 1)) (G.count + 1) (LoopRun (Leaf W t) (Leaf W t) B E) true
      (ok ∧ ok') (tf ∧ tf') := by
  -- the header
  have ga := new_grow h
  have na : G.new.locs G.count = [] := h.fresh _ (Nat.le_refl _)
  have gb := add_grow t ga.wf (Nat.lt_succ_self _) (ga.wf.open_ na)
  have clB0 := add_cl G.new G.count t
  have lT : (G.new.add G.count t).locs G.count = [t] := by rw [add_self, na]; rfl
  have lc : (G.new.add G.count t).locs c = G.locs c := add_ne _ _ (by omega)
  have nsT : NS (G.new.add G.count t) G.count := gb.st.ns (new_ns h)
  have ob : Open (G.new.add G.count t) c := ho
  have hcb : (G.new.add G.count t).count = G.count + 1 := rfl
  have hbe : ∀ x u, (x, u) ∈ (G.new.add G.count t).edges → (x, u) ∈ G.edges := fun _ _ h => h
  unfold loopHead at E1
  simp only at E1
  generalize hGb : G.new.add G.count t = Gb at *
  have gc := lm_grow gb.wf (s := c) (t := G.count) (by omega) nsT (fun _ _ => by rw [lT]; simp)
  have clC0 := lm_cl gb.wf c G.count
  have hlc : (Gb.linkOrMerge c G.count).locs = Gb.locs := lm_locs _ _ _
  have hcc : (Gb.linkOrMerge c G.count).count = G.count + 1 := by rw [lm_count]; exact hcb
  generalize hGc : Gb.linkOrMerge c G.count = Gc at *
  have gd := new_grow gc.wf
  have hneT : Gc.new.locs G.count ≠ [] := by show Gc.locs G.count ≠ []; rw [hlc, lT]; simp
  have ge := newFrom_grow gd.wf hneT
  have cnd : Gc.new.count = G.count + 2 := by show Gc.count + 1 = _; omega
  have nse := newFrom_ns gd.wf hneT
  have nsA : NS Gc.new (G.count + 1) := by have := new_ns gc.wf; rwa [hcc] at this
  have cne := newFrom_count hneT
  have lle := newFrom_locs hneT
  have ede := newFrom_edges hneT
  have clE0 := newFrom_cl hneT
  rw [cnd] at nse cne
  have nB : (Gc.new.newFrom G.count).locs (G.count + 2) = [] := by
    rw [lle]; exact gd.wf.fresh _ (by omega)
  simp only [cnd] at ede
  generalize hGe : Gc.new.newFrom G.count = Ge at *
  have st0e : St G Ge := (((ga.st.trans gb.st).trans gc.st).trans gd.st).trans ge.st
  have hbB : Bd (loopExits G :: bd) Ge (G.count + 2) := by
    intro j u hu
    rw [jumpTo_loop] at hu
    have nsTe : NS Ge G.count := (((gc.st.trans gd.st).trans ge.st)).ns nsT
    have nsAe : NS Ge (G.count + 1) := ge.st.ns nsA
    have old : ∀ j, jumpTo j bd = some u → u < Ge.count ∧ NS Ge u ∧ ((∀ n, j ≠ .raise n) → u ≠ G.count + 2) := by
      intro j hj
      have := hb j u hj
      exact ⟨by omega, st0e.ns this.2.1, fun _ => by omega⟩
    cases j with
    | brk => cases hu; exact ⟨by omega, nsAe, fun _ => by omega⟩
    | cont => cases hu; exact ⟨by omega, nsTe, fun _ => by omega⟩
    | ret => exact old _ hu
    | raise n => exact old _ hu
  -- the body
  obtain ⟨ψ, g⟩ := hv (loopExits G :: bd) Ge (G.count + 2) ge.wf (by omega) (ge.wf.open_ nB) hbB
  rw [E1] at g
  obtain ⟨Gf, e⟩ := st1
  unfold loopBack at E2
  simp only at g E2
  have cf := g.grow.ext.count
  have he : G.count + 2 ≤ e := by rcases g.old with e | e <;> omega
  have he' := g.cur
  have lTf : Gf.locs G.count = [t] := by
    rw [(g.grow.fix G.count (by omega) (by show G.count ≠ G.count + 2; omega)).2, lle]
    show Gc.locs G.count = _; rw [hlc, lT]
  have nsTf : NS Gf G.count := (((gc.st.trans gd.st).trans ge.st).trans g.grow.st).ns nsT
  have gg := lm_grow g.grow.wf (s := e) (t := G.count) (by omega) nsTf (NS.hst (g.ns (.inl nse)) _)
  have clG0 := lm_cl g.grow.wf e G.count
  have edg := lm_edges g.grow.wf e G.count
  have llg : (Gf.linkOrMerge e G.count).locs = Gf.locs := lm_locs _ _ _
  have cng : (Gf.linkOrMerge e G.count).count = Gf.count := lm_count _ _ _
  generalize hGg : Gf.linkOrMerge e G.count = Gg at *
  have hneTg : Gg.locs G.count ≠ [] := by rw [llg, lTf]; simp
  have gh := newFrom_grow gg.wf hneTg
  have nsh := newFrom_ns gg.wf hneTg
  have cnh := newFrom_count hneTg
  have llh := newFrom_locs hneTg
  have edh := newFrom_edges hneTg
  have clH0 := newFrom_cl hneTg
  have nE : (Gg.newFrom G.count).locs Gg.count = [] := by rw [llh]; exact gg.wf.fresh _ (Nat.le_refl _)
  generalize hGh : Gg.newFrom G.count = Gh at *
  have st0h : St G Gh := ((st0e.trans g.grow.st).trans gg.st).trans gh.st
  have hbE : Bd bd Gh Gg.count := hb.mono (by omega) st0h (.inr (by omega))
  -- `else`
  obtain ⟨χ, k⟩ := hw bd Gh Gg.count gh.wf (by omega) (gh.wf.open_ nE) hbE
  rw [E2] at k
  obtain ⟨Gi, e2⟩ := st2
  simp only at k ⊢
  have ci := k.grow.ext.count
  have he2 : Gg.count ≤ e2 := by rcases k.old with e | e <;> omega
  have he2' := k.cur
  have nsAi : NS Gi (G.count + 1) := ((((ge.st.trans g.grow.st).trans gg.st).trans gh.st).trans k.grow.st).ns nsA
  have gj := lm_grow k.grow.wf (s := e2) (t := G.count + 1) (by omega) nsAi (NS.hst (k.ns (.inl nsh)) _)
  have clJ0 := lm_cl k.grow.wf e2 (G.count + 1)
  have llj : (Gi.linkOrMerge e2 (G.count + 1)).locs = Gi.locs := lm_locs _ _ _
  have cnj : (Gi.linkOrMerge e2 (G.count + 1)).count = Gi.count := lm_count _ _ _
  generalize hGj : Gi.linkOrMerge e2 (G.count + 1) = Gj at *
  have ghj := k.grow.trans (M := fun b => b < Gg.count) gj (fun b _ hb => ⟨by show b ≠ Gg.count; omega, by show b ≠ e2; omega⟩)
  have ggj := gh.trans (M := fun b => b ≠ G.count) ghj (fun b h1 hb => ⟨hb, h1⟩)
  have gfj := gg.trans (M := fun b => b ≠ e ∧ b ≠ G.count) ggj (fun b _ hb => hb)
  have gej := g.grow.trans (M := fun b => b ≠ G.count + 2 ∧ b ≠ G.count) gfj (fun b h1 hb => ⟨hb.1, by
    rcases g.old with e | e <;> omega, hb.2⟩)
  have gdj := ge.trans (M := fun b => b ≠ G.count) gej (fun b h1 hb => ⟨hb, by omega, hb⟩)
  have gcj := gd.trans (M := fun b => b ≠ G.count) gdj (fun b h1 hb => ⟨trivial, hb⟩)
  have gbj := gc.trans (M := fun b => b ≠ c ∧ b ≠ G.count) gcj (fun b h1 hb => hb)
  have gaj := gb.trans (M := fun b => b ≠ c ∧ b ≠ G.count) gbj (fun b h1 hb => ⟨hb.2, hb⟩)
  have g0j := ga.trans (M := fun b => b ≠ c) gaj (fun b h1 hb => ⟨trivial, hb, by omega⟩)
  have hlocsA : Gj.locs (G.count + 1) = [] := by
    rw [(gdj.fix (G.count + 1) (by omega) (by omega)).2]; exact gc.wf.fresh _ (by omega)
  have hTi : ∀ φ : Nat → Nat, tgt (fun b => φ (moved Gi e2 (G.count + 1) b)) bd = tgt φ bd := fun φ =>
    tgt_fix (fun j u hu => (gj.fix u (by have := hb j u hu; omega) (by have := hb j u hu; show u ≠ e2; omega)).1)
  have hTf : ∀ (φ : Nat → Nat) (j : Jump), (∀ u, jumpTo j bd = some u → jumpTo j (loopExits G :: bd) = some u) →
      (jumpTo j bd = none → jumpTo j (loopExits G :: bd) = none) →
      tgt (fun b => φ (moved Gi e2 (G.count + 1) (χ (id (moved Gf e G.count b))))) (loopExits G :: bd) j = tgt φ bd j := by
    intro φ j hj hn
    unfold tgt
    cases hu : jumpTo j bd with
    | none => rw [hn hu]; rfl
    | some u =>
      rw [hj u hu]
      have h1 := hb j u hu
      exact congrArg some (congrArg φ (gfj.fix u (by omega) ⟨by omega, by omega⟩).1)
  have hTb : ∀ φ : Nat → Nat, tgt (fun b => φ (moved Gi e2 (G.count + 1) (χ (id (moved Gf e G.count b))))) (loopExits G :: bd) .brk
      = some (φ (G.count + 1)) := fun φ =>
    congrArg some (congrArg φ (gfj.fix (G.count + 1) (by omega) ⟨by omega, by omega⟩).1)
  have hAne : G.count + 1 ≠ e2 := by omega
  refine ⟨_, {
    grow := g0j
    cur := by omega
    opn := g0j.wf.open_ hlocsA
    ns := fun _ => gj.st.ns nsAi
    old := .inr (by omega)
    stay := fun h => by cases h
    sound := fun hok F φ hF => ?_
    cl := fun htf => ?_
    prec := fun htf F φ hF hcl => ?_ }⟩
  · have hFi : Ext _ Gi F := gj.ext.trans hF
    have hFh : Ext _ Gh F := k.grow.ext.trans hFi
    have hFg : Ext _ Gg F := gh.ext.trans hFh
    have hFf : Ext _ Gf F := gg.ext.trans hFg
    have hFe : Ext _ Ge F := g.grow.ext.trans hFf
    have hFc : Ext _ Gc F := gd.ext.trans (ge.ext.trans hFe)
    have s1 := g.sound hok.1 F _ hFf
    have s2 := k.sound hok.2 F _ hFi
    have t2 := hTi φ
    rw [show tgt _ bd = _ from t2, nE] at s2
    rw [nB] at s1
    have toB := hFe.edge_reach ((ede G.count (G.count + 2)).2 (.inr ⟨rfl, rfl⟩))
    have toE := hFh.edge_reach ((edh G.count Gg.count).2 (.inr ⟨rfl, rfl⟩))
    rw [llh, llg, lTf] at toE
    rw [lle, show Gc.new.locs = Gc.locs from rfl, hlc, lT] at toB
    have back := lm_reach' g.grow.wf hGg hFg
    rw [hFg.keep G.count hneTg] at back
    have out := lm_reach' k.grow.wf hGj hF
    have hent := lm_reach' gb.wf hGc hFc
    rw [hFc.keep G.count (by rw [hlc, lT]; simp), lc] at hent
    have hFT : F.locs G.count = [t] := by
      rw [hFe.done _ _ ((ede G.count (G.count + 2)).2 (.inr ⟨rfl, rfl⟩)), lle]
      show Gc.locs G.count = _; rw [hlc, lT]
    have hleaf : RS F (Leaf W t) (tgt φ bd) G.count 0 G.count 1 := .leaf (by rw [hFT]; rfl)
    rw [hlocsA]
    refine .pre hent (.loop hleaf hleaf toB toE s1 back s2 out (hTb φ) ?_ (hTf φ .ret (fun _ h => h) (fun h => h)))
    show some _ = some _
    exact congrArg some (hFf.keep G.count (by rw [lTf]; simp))
  · have c1 : Cl _ (fun b => b < G.count ∧ b ≠ c) G Gb :=
      ((new_cl G).mono (fun _ _ => trivial)).trans clB0 (fun b hb => (by omega : b ≠ G.count))
    have c2 := ((c1.trans clC0 (fun b hb => hb.2)).trans (new_cl Gc) (fun _ _ => trivial)).trans clE0
      (fun b hb => (by omega : b ≠ G.count))
    have c3 := (c2.trans (g.cl htf.1) (fun b hb => ⟨by omega, by omega⟩)).trans clG0 (fun b hb => (by omega : b ≠ e))
    have c4 := (c3.trans clH0 (fun b hb => (by omega : b ≠ G.count))).trans (k.cl htf.2) (fun b hb => ⟨by omega, by omega⟩)
    exact c4.trans clJ0 (fun b hb => (by omega : b ≠ e2))
  · have hFi : Ext _ Gi F := gj.ext.trans hF
    have hFh : Ext _ Gh F := k.grow.ext.trans hFi
    have hFg : Ext _ Gg F := gh.ext.trans hFh
    have hFf : Ext _ Gf F := gg.ext.trans hFg
    have hFe : Ext _ Ge F := g.grow.ext.trans hFf
    have hFc : Ext _ Gc F := gd.ext.trans (ge.ext.trans hFe)
    have clFi : Cl _ (fun b => ((G.count ≤ b ∧ b < Gi.count ∨ b = c) ∧ b ≠ G.count + 1) ∧ b ≠ e2) Gi F :=
      (clJ0.mono (fun b hb => hb.2)).trans hcl (fun b hb => ⟨by omega, hb.1.2⟩)
    have clFh : Cl _ (fun b => (G.count ≤ b ∧ b < Gg.count ∨ b = c) ∧ b ≠ G.count + 1) Gh F :=
      ((k.cl htf.2).mono (fun b hb => ⟨by omega, by omega⟩)).trans clFi (fun b hb => ⟨⟨by omega, hb.2⟩, by omega⟩)
    have clFg : Cl _ (fun b => (G.count < b ∧ b < Gg.count ∨ b = c) ∧ b ≠ G.count + 1) Gg F :=
      (clH0.mono (fun b hb => (by omega : b ≠ G.count))).trans clFh (fun b hb => ⟨by omega, hb.2⟩)
    have clFf : Cl _ (fun b => ((G.count < b ∧ b < Gg.count ∨ b = c) ∧ b ≠ G.count + 1) ∧ b ≠ e) Gf F :=
      (clG0.mono (fun b hb => hb.2)).trans clFg (fun b hb => hb.1)
    have clFe : Cl _ (fun b => b = c) Ge F :=
      ((g.cl htf.1).mono (fun b hb => ⟨by omega, by omega⟩)).trans clFf (fun b hb => ⟨⟨.inr hb, by omega⟩, by omega⟩)
    have clFc : Cl _ (fun b => b = c) Gc F :=
      (((new_cl Gc).mono (fun _ _ => trivial)).trans clE0 (fun b hb => (by omega : b ≠ G.count))).trans clFe (fun b hb => hb)
    have s1 := g.prec htf.1 F _ hFf (clFf.mono (fun b hb => ⟨⟨by omega, by omega⟩, hb.2⟩))
    have s2 := k.prec htf.2 F _ hFi (clFi.mono (fun b hb => ⟨⟨by omega, by omega⟩, hb.2⟩))
    have t2 := hTi φ
    rw [show tgt _ bd = _ from t2, nE] at s2
    rw [nB] at s1
    have back := lm_to' g.grow.wf hGg g.opn hFg clFg ⟨.inl ⟨by omega, by omega⟩, by omega⟩
    rw [hFg.keep G.count hneTg] at back
    have out := lm_to' k.grow.wf hGj k.opn hF hcl ⟨.inl ⟨by omega, by omega⟩, by omega⟩
    have hent := lm_to' gb.wf hGc ob hFc clFc rfl
    rw [hFc.keep G.count (by rw [hlc, lT]; simp), lc] at hent
    have hTD : (G.count ≤ G.count ∧ G.count < Gg.count ∨ G.count = c) ∧ G.count ≠ G.count + 1 :=
      ⟨.inl ⟨Nat.le_refl _, by omega⟩, by omega⟩
    have hFT : F.locs G.count = [t] := by rw [clFh.locs _ hTD, llh, llg, lTf]
    rw [hlocsA]
    refine .pre hent (.head .cut (by simp)) (.loop (by rw [hFT]; rfl) (walk_end (by rw [hFT]; rfl) ?_) s1 hcB hsB back s2 hsE out
      (hTb φ) ?_ (hTf φ .ret (fun _ h => h) (fun h => h)) (fun n => hTf φ (.raise n) (fun _ h => h) (fun h => h)))
    · intro t' ht'
      obtain ⟨x, h1, rfl⟩ := clFh.edge _ hTD t' ht'
      rcases (edh _ _).1 h1 with h2 | h2
      · left
        rcases (edg _ _).1 h2 with ⟨y, h3, rfl⟩ | h3
        · obtain ⟨z, h4, rfl⟩ := (g.cl htf.1).edge _ ⟨by omega, by omega⟩ y h3
          rcases (ede _ _).1 h4 with h5 | h5
          · rcases (lm_edges gb.wf c G.count _ _).1 (hGc ▸ h5) with ⟨w, h6, -⟩ | h6
            · have := h.srcLt (hbe _ _ h6); omega
            · omega
          · rw [h5.2]; rfl
        · omega
      · right; rw [h2.2]
    · show some _ = some _
      exact congrArg some (hFf.keep G.count (by rw [lTf]; simp))

end Verif.Flow

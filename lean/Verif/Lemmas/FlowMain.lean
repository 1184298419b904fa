import Verif.Lemmas.FlowTry

/-! All statements are added to graphs as they should. -/

namespace Verif.Flow

/-- Something is added to the current block, or another one is made. -/
def Full (v : List Exits → State → State) : Prop := ∀ bd G c, Wf G → c < G.count → Open G c → Bd bd G c →
  (v bd (G, c)).2 = c → (v bd (G, c)).1.locs c ≠ []

/-! ### Exceptions -/

theorem Leaf.calm {W l t e} (hW : ∀ l x, ¬ W.raises l x) : ¬ Leaf W l t (.raise e) := by
  intro h; cases h with
  | raise h => exact hW _ _ h

theorem Seq.calm {A B : Beh} {t e} (hA : ∀ t, ¬ A t (.raise e)) (hB : ∀ t, ¬ B t (.raise e)) : ¬ Seq A B t (.raise e) := by
  intro h; cases h with
  | both _ h => exact hB _ h
  | first h _ => exact hA _ h

theorem Leaves.calm {W e} (hW : ∀ l x, ¬ W.raises l x) : ∀ ls t, ¬ Leaves W ls t (.raise e)
  | [], _ => by intro h; cases h
  | _ :: ls, _ => Seq.calm (fun _ => Leaf.calm hW) (Leaves.calm hW ls)

theorem LoopRun.calm {H D B E : Beh} {t e} (hH : ∀ t, ¬ H t (.raise e)) (hD : ∀ t, ¬ D t (.raise e))
    (hB : ∀ t, ¬ B t (.raise e)) (hE : ∀ t, ¬ E t (.raise e)) : ¬ LoopRun H D B E t (.raise e) := by
  intro h
  generalize ho : Out.raise e = o at h
  induction h with
  | done h => subst ho; exact Seq.calm hD hE h
  | head h _ => subst ho; exact hH _ h
  | next _ _ _ _ ih => exact ih ho
  | brk _ _ => cases ho
  | leave _ h _ _ _ => subst ho; exact hB _ h

mutual
theorem run_calm {W : World} (hW : ∀ l x, ¬ W.raises l x) : ∀ s, s.calm = true → ∀ e t, ¬ Run W s t (.raise e)
  | .simple _, _, _, _ => Leaf.calm hW
  | .jump j _, h, _, _ => Seq.calm (fun _ => Leaf.calm hW) (fun _ h' => by
      cases h'
      simp [Stmt.calm] at h)
  | .cond _ b o, h, _, _ => by
    simp only [Stmt.calm, Bool.and_eq_true] at h
    refine Seq.calm (fun _ => Leaf.calm hW) (fun _ h' => ?_)
    cases h' with
    | left h' => exact body_calm hW b h.1 _ _ h'
    | right h' => exact body_calm hW o h.2 _ _ h'
  | .loop _ b o, h, _, _ => by
    simp only [Stmt.calm, Bool.and_eq_true] at h
    exact LoopRun.calm (fun _ => Leaf.calm hW) (fun _ => Leaf.calm hW) (body_calm hW b h.1 _) (body_calm hW o h.2 _)
  | .each _ _ b o, h, _, _ => by
    simp only [Stmt.calm, Bool.and_eq_true] at h
    refine Seq.calm (fun _ => Leaf.calm hW) (fun _ => LoopRun.calm (fun _ => Leaf.calm hW) (fun _ => ?_) (body_calm hW b h.1 _)
      (body_calm hW o h.2 _))
    split
    · exact Leaf.calm hW
    · intro h; cases h
  | .enter _ is b, h, _, _ => Seq.calm (fun _ => Leaf.calm hW) (fun _ => Seq.calm (Leaves.calm hW is) (body_calm hW b h _))
  | .try_ f r hs o l, h, e, _ => by
    simp only [Stmt.calm, Bool.and_eq_true] at h
    have hB : ∀ e t, ¬ Seq (Run W f) (RunBody W r) t (.raise e) := fun e t =>
      Seq.calm (run_calm hW f h.1.1.1 e) (body_calm hW r h.1.1.2 e)
    have hT : ∀ t x, TryRun (Seq (Run W f) (RunBody W r)) (RunHandlers W hs) (RunBody W o) t x → x ≠ .raise e := by
      intro t x h' hx
      subst hx
      cases h' with
      | good _ h' => exact body_calm hW o h.1.2 _ _ h'
      | caught h' _ => exact hB _ _ h'
      | leave h' _ _ => exact hB _ _ h'
    intro h'
    cases h' with
    | both h1 _ _ => exact hT _ _ h1 rfl
    | leave _ _ h1 _ => exact body_calm hW l h.2 _ _ h1
theorem body_calm {W : World} (hW : ∀ l x, ¬ W.raises l x) : ∀ p, p.calm = true → ∀ e t, ¬ RunBody W p t (.raise e)
  | .nil, _, _, _ => by intro h; cases h
  | .cons s rest, h, _, _ => by
    simp only [Body.calm, Bool.and_eq_true] at h
    exact Seq.calm (run_calm hW s h.1 _) (body_calm hW rest h.2 _)
end

/-! ### Parts of `try` -/

/-- `else` -/
theorem orelse_good {w E sl ok tf bd G k} (hw : Adds w E sl ok tf) (hf : Full w) (h : Wf G)
    (hb : ∀ j t, jumpTo j bd = some t → t < G.count ∧ NS G t) (hk : k < G.count) (hkn : NS G k) {st}
    (e : w bd (G.new, G.count) = st) : ∃ χ, Grow χ (fun b => b < G.count) G (st.1.linkOrMerge st.2 k) ∧
      G.count < (st.1.linkOrMerge st.2 k).count ∧ NS (st.1.linkOrMerge st.2 k) G.count ∧
      (ok ∧ sl = false → ∀ F φ, Ext φ (st.1.linkOrMerge st.2 k) F → RS F E (tgt φ bd) (φ G.count) 0 (φ k) 0) := by
  have ga := new_grow h
  have na : G.new.locs G.count = [] := h.fresh _ (Nat.le_refl _)
  have ca : G.new.count = G.count + 1 := rfl
  have hbB : Bd bd G.new G.count := fun j t ht => by
    have := hb j t ht
    exact ⟨by omega, ga.st.ns this.2, fun _ => by omega⟩
  have hf := hf bd G.new G.count ga.wf (by omega) (ga.wf.open_ na) hbB
  obtain ⟨ψ, g⟩ := hw bd G.new G.count ga.wf (by omega) (ga.wf.open_ na) hbB
  rw [e] at g hf
  obtain ⟨G1, e1⟩ := st
  simp only at g hf ⊢
  have c1 := g.grow.ext.count
  have he1 : G.count ≤ e1 := by rcases g.old with e | e <;> omega
  have gl := lm_grow g.grow.wf (s := e1) (t := k) (by omega) ((ga.st.trans g.grow.st).ns hkn)
    (NS.hst (g.ns (.inl (new_ns h))) _)
  have hall := (ga.trans (M := fun b => b < G.count) g.grow (fun b h1 _ => ⟨trivial, (by omega : b ≠ G.count)⟩)).trans
    (M := fun b => b < G.count) gl (fun b h1 _ => ⟨h1, (by omega : b ≠ e1)⟩)
  refine ⟨_, hall, by rw [lm_count]; omega, (g.grow.st.trans gl.st).ns (new_ns h), fun hok F φ hF => ?_⟩
  have hF1 := gl.ext.trans hF
  have s := g.sound hok.1 F _ hF1
  rw [g.stay hok.2, na] at s
  have hm : moved G1 e1 k G.count = G.count := by
    by_cases e' : e1 = G.count
    · exact moved_full (by rw [e']; exact hf e') _
    · exact moved_ne (fun e => e' e.symm)
  have ht := tgt_fix (bd := bd) (ψ := moved G1 e1 k) (φ := φ) (fun j t ht => moved_ne (by have := hb j t ht; omega))
  rw [show tgt _ bd = _ from ht] at s
  simp only [hm] at s
  exact s.post (lm_reach g.grow.wf hF)

theorem Good.weaken' {ψ bd G c G' c' R R' sl ok ok' tf tf'} (h : Good ψ bd G c G' c' R sl ok tf) (hok : ok' → ok)
    (hR : ok' → R = R') (htf : ¬ tf') : Good ψ bd G c G' c' R' sl ok' tf' :=
  ⟨h.grow, h.cur, h.opn, h.ns, h.old, h.stay, fun k => hR k ▸ h.sound (hok k), fun k => absurd k htf, fun k => absurd k htf⟩

theorem newFrom_good {bd G c} (h : Wf G) (hc : c < G.count) (ho : Open G c) (hne : G.locs c ≠ []) :
    Good id bd G c (G.newFrom c) G.count Skip false True True where
  grow := newFrom_grow h hne
  cur := by rw [newFrom_count hne]; omega
  opn := (newFrom_grow h hne).wf.open_ (by rw [newFrom_locs hne]; exact h.fresh _ (Nat.le_refl _))
  ns _ := newFrom_ns h hne
  old := .inr (Nat.le_refl _)
  stay _ := rfl
  sound _ F φ hF := by
    have r := hF.edge_reach ((newFrom_edges hne c G.count).2 (.inr ⟨rfl, rfl⟩))
    rw [newFrom_locs hne] at r ⊢
    rw [h.fresh _ (Nat.le_refl _)]
    simp only [id]
    rw [hF.keep c (by rw [newFrom_locs hne]; exact hne)]
    exact .pre r .skip
  cl _ := (newFrom_cl hne).mono (fun _ h => h.2)
  prec _ F φ hF hcl := by
    have r := lm_to (s := c) (t := G.count) (new_wf h) (fun t ht => ho t ht) hF hcl ⟨.inr rfl, by omega⟩
    rw [moved_full (G := G.new) hne] at r
    rw [newFrom_locs hne, h.fresh _ (Nat.le_refl _)]
    exact .pre r .cut .skip

/-! ### All statements -/

/-- Runs are walks. -/
def Stmt.Ok (W : World) (s : Stmt) : Prop :=
  s.mild = true ∧ (W.asks = true ∨ s.noFor = true) ∧ (s.noTry = true ∨ ∀ l x, ¬ W.raises l x)
def Body.Ok (W : World) (p : Body) : Prop :=
  p.mild = true ∧ (W.asks = true ∨ p.noFor = true) ∧ (p.noTry = true ∨ ∀ l x, ¬ W.raises l x)
/-- Walks are runs. -/
def Stmt.Plain (W : World) (s : Stmt) : Prop := s.noTry = true ∧ (W.asks = true ∨ s.noFor = true)
def Body.Plain (W : World) (p : Body) : Prop := p.noTry = true ∧ (W.asks = true ∨ p.noFor = true)

theorem full_seq {v w A sl ok tf B sl' ok' tf'} (hv : Adds v A sl ok tf) (fv : Full v) (hw : Adds w B sl' ok' tf') :
    Adds (fun bd st => w bd (v bd st)) (Seq A B) sl (ok ∧ ok') (tf ∧ tf') ∧ Full (fun bd st => w bd (v bd st)) := by
  have key : ∀ bd G c, Wf G → c < G.count → Open G c → Bd bd G c → ∃ ψ χ,
      Good ψ bd G c (v bd (G, c)).1 (v bd (G, c)).2 A sl ok tf ∧
      Good χ bd (v bd (G, c)).1 (v bd (G, c)).2 (w bd (v bd (G, c))).1 (w bd (v bd (G, c))).2 B sl' ok' tf' := by
    intro bd G c h hc ho hb
    obtain ⟨ψ, g⟩ := hv bd G c h hc ho hb
    obtain ⟨χ, k⟩ := hw bd _ _ g.grow.wf g.cur g.opn (hb.next g)
    exact ⟨ψ, χ, g, k⟩
  constructor
  · intro bd G c h hc ho hb
    obtain ⟨ψ, χ, g, k⟩ := key bd G c h hc ho hb
    exact ⟨_, g.seq hc hb (fun e => fv bd G c h hc ho hb e) k⟩
  · intro bd G c h hc ho hb e
    obtain ⟨ψ, χ, g, k⟩ := key bd G c h hc ho hb
    have hg := g.grow.ext.count
    have e1 : (v bd (G, c)).2 = c := by
      rcases g.old with h1 | h1
      · exact h1
      · rcases k.old with h2 | h2
        · exact h2 ▸ e
        · simp only at e; omega
    intro hn
    exact fv bd G c h hc ho hb e1 (List.prefix_nil.1 (hn ▸ k.grow.ext.pre c))

/-- Something is added after a location. -/
theorem after_leaf {W : World} {t : Nat} {w : List Exits → State → State} {B ok tf} (hw : ∀ bd G c, Wf G → c < G.count → Open G c →
    Bd bd G c → G.locs c ≠ [] → ∃ ψ sl, Good ψ bd G c (w bd (G, c)).1 (w bd (G, c)).2 B sl ok tf) {v : List Exits → State → State}
    (hv : ∀ bd G c, v bd (G, c) = w bd (G.add c t, c)) : Adds v (Seq (Leaf W t) B) false ok tf ∧ Full v := by
  have hne : ∀ (G : Graph) (c : Nat), (G.add c t).locs c ≠ [] := fun G c => by rw [add_self]; simp
  constructor
  · intro bd G c h hc ho hb
    have g := leaf_good (W := W) (bd := bd) t h hc ho
    obtain ⟨ψ, sl, k⟩ := hw bd (G.add c t) c g.grow.wf hc g.opn (hb.next g) (hne G c)
    rw [hv]
    exact ⟨_, (g.seq hc hb (fun _ => hne G c) k).weaken (fun h => ⟨trivial, h⟩) (fun h => ⟨trivial, h⟩) rfl⟩
  · intro bd G c h hc ho hb _
    have g := leaf_good (W := W) (bd := bd) t h hc ho
    obtain ⟨ψ, sl, k⟩ := hw bd (G.add c t) c g.grow.wf hc g.opn (hb.next g) (hne G c)
    rw [hv]
    intro hn
    exact hne G c (List.prefix_nil.1 (hn ▸ k.grow.ext.pre c))

/-- Loops. -/
theorem loops_good {W : World} (t : Nat) {b e : Body} (hb : Adds (visitBody b) (RunBody W b) b.startsLoop (b.Ok W) (b.Plain W))
    (he : Adds (visitBody e) (RunBody W e) e.startsLoop (e.Ok W) (e.Plain W)) :
    Adds (visit (.loop t b e)) (LoopRun (Leaf W t) (Leaf W t) (RunBody W b) (RunBody W e)) true (b.Ok W ∧ e.Ok W)
      (b.Plain W ∧ e.Plain W) :=
  fun _ _ _ h hc ho hbd => loop_good t hb he (body_cuts W b) (body_stops W b) (body_stops W e) h hc ho hbd rfl rfl

theorem try_split {W : World} {f : Stmt} {r : Body} {hs : Handlers} {e l : Body}
    (h : (Stmt.try_ f r hs e l).Ok W) : ((f.Ok W ∧ r.Ok W) ∧ e.Ok W ∧ e.startsLoop = false) ∧ l = .nil ∧
      ∀ t x, ¬ Seq (Run W f) (RunBody W r) t (.raise x) := by
  obtain ⟨h1, h2, h3⟩ := h
  simp only [Stmt.mild, Bool.and_eq_true, Stmt.noFor, Stmt.noTry, Bool.not_eq_true', Bool.false_eq_true, false_or] at h1 h2 h3
  have hl : l = .nil := by
    cases l with
    | nil => rfl
    | cons _ _ => cases h1.2
  refine ⟨⟨⟨⟨h1.1.1.1.1.1.1, h2.imp id (fun h => h.1.1), .inr h3⟩, ⟨h1.1.1.1.1.1.2, h2.imp id (fun h => h.1.2), .inr h3⟩⟩,
    ⟨h1.1.1.1.1.2, h2.imp id (fun h => h.2), .inr h3⟩, h1.1.2⟩, hl, fun t x =>
    Seq.calm (run_calm h3 f h1.1.1.1.2 x) (body_calm h3 r h1.1.1.2 x)⟩

theorem tryBd {bd G c} (h : Wf G) (hb : Bd bd G c) : ∀ j t, jumpTo j ([(.raise none, G.count + 2)] :: bd) = some t →
    t < G.new3.count ∧ NS G.new3 t := by
  intro j t ht
  obtain ⟨g3, -, -, n2⟩ := new3_grow h
  have c3 : G.new3.count = G.count + 3 := rfl
  rw [jumpTo_try] at ht
  cases j with
  | raise n => cases ht; exact ⟨by omega, n2⟩
  | brk => have := hb _ _ ht; exact ⟨by omega, g3.st.ns this.2.1⟩
  | cont => have := hb _ _ ht; exact ⟨by omega, g3.st.ns this.2.1⟩
  | ret => have := hb _ _ ht; exact ⟨by omega, g3.st.ns this.2.1⟩

mutual
theorem visit_good (W : World) : ∀ s, Adds (visit s) (Run W s) s.startsLoop (s.Ok W) (s.Plain W) ∧ Full (visit s)
  | .simple l => ⟨fun bd G c h hc ho hb => ⟨id, (leaf_good l h hc ho).weaken (fun _ => trivial) (fun _ => trivial) rfl⟩,
      fun bd G c _ _ _ _ _ => by show (G.add c l).locs c ≠ []; rw [add_self]; simp⟩
  | .jump j l => ⟨fun bd G c h hc ho hb =>
      ⟨id, (jump_good j l h hc ho hb).weaken (fun _ => trivial) (fun _ => trivial) rfl⟩,
      fun bd G c h hc ho hb e => by
        have := (jump_good (W := W) j l h hc ho hb).old
        have e : (jumped bd j l G c).count = c := e
        have hcount : (jumped bd j l G c).count = G.count := by unfold jumped; split <;> rfl
        omega⟩
  | .cond t b .nil => by
    have ib := body_good W b
    refine after_leaf (w := fun bd st => join (visitBody b bd (st.1.newFrom st.2, st.1.count)).1
      (visitBody b bd (st.1.newFrom st.2, st.1.count)).2 st.2) (fun bd G c h hc ho hb hne => ?_) (fun bd G c => rfl)
    obtain ⟨ψ, k⟩ := then_good ib.1 (body_cuts W b) (body_stops W b) h hc ho hb hne
    refine ⟨ψ, _, k.weaken ?_ ?_ rfl⟩
    · rintro ⟨h1, h2, h3⟩
      simp only [Stmt.mild, Stmt.noFor, Stmt.noTry, Bool.and_eq_true] at h1 h2 h3
      exact ⟨h1.1, h2.imp id (·.1), h3.imp (·.1) id⟩
    · rintro ⟨h1, h2⟩
      simp only [Stmt.noFor, Stmt.noTry, Bool.and_eq_true] at h1 h2
      exact ⟨h1.1, h2.imp id (·.1)⟩
  | .cond t b (.cons s rest) => by
    have ib := body_good W b
    have is := visit_good W s
    have ir := body_good W rest
    refine after_leaf (w := fun bd st =>
      let st1 := visitBody b bd (st.1.newFrom st.2, st.1.count)
      let st2 := visitBody rest bd (visit s bd (st1.1.newFrom st.2, st1.1.count))
      join st2.1 st1.2 st2.2) (fun bd G c h hc ho hb hne => ?_) (fun bd G c => rfl)
    obtain ⟨ψ, k⟩ := else_good ib.1 (full_seq is.1 is.2 ir.1).1 (body_cuts W b) (body_stops W b)
      (body_stops W (.cons s rest)) h hc ho hb hne rfl rfl
    refine ⟨ψ, _, k.weaken ?_ ?_ rfl⟩
    · rintro ⟨h1, h2, h3⟩
      simp only [Stmt.mild, Stmt.noFor, Stmt.noTry, Body.mild, Body.noFor, Body.noTry, Bool.and_eq_true] at h1 h2 h3
      exact ⟨⟨h1.1, h2.imp id (·.1), h3.imp (·.1) id⟩, ⟨h1.2.1, h2.imp id (·.2.1), h3.imp (·.2.1) id⟩,
        ⟨h1.2.2, h2.imp id (·.2.2), h3.imp (·.2.2) id⟩⟩
    · rintro ⟨h1, h2⟩
      simp only [Stmt.noFor, Stmt.noTry, Body.noFor, Body.noTry, Bool.and_eq_true] at h1 h2
      exact ⟨⟨h1.1, h2.imp id (·.1)⟩, ⟨h1.2.1, h2.imp id (·.2.1)⟩, ⟨h1.2.2, h2.imp id (·.2.2)⟩⟩
  | .loop t b e => by
    have ib := body_good W b
    have ie := body_good W e
    refine ⟨fun bd G c h hc ho hb => ?_, fun bd G c h hc ho hb e' => ?_⟩
    · obtain ⟨ψ, k⟩ := loops_good t ib.1 ie.1 bd G c h hc ho hb
      refine ⟨ψ, k.weaken ?_ ?_ rfl⟩
      · rintro ⟨h1, h2, h3⟩
        simp only [Stmt.mild, Stmt.noFor, Stmt.noTry, Bool.and_eq_true] at h1 h2 h3
        exact ⟨⟨h1.1, h2.imp id (·.1), h3.imp (·.1) id⟩, ⟨h1.2, h2.imp id (·.2), h3.imp (·.2) id⟩⟩
      · rintro ⟨h1, h2⟩
        simp only [Stmt.noFor, Stmt.noTry, Bool.and_eq_true] at h1 h2
        exact ⟨⟨h1.1, h2.imp id (·.1)⟩, ⟨h1.2, h2.imp id (·.2)⟩⟩
    · have e' : G.count + 1 = c := e'
      omega
  | .each i t b e => by
    have ib := body_good W b
    have ie := body_good W e
    refine after_leaf (w := fun bd st => visit (.loop t b e) bd st) (fun bd G c h hc ho hb hne => ?_) (fun bd G c => rfl)
    obtain ⟨ψ, k⟩ := loops_good t ib.1 ie.1 bd G c h hc ho hb
    cases hW : W.asks with
    | false =>
      refine ⟨ψ, true, ⟨k.grow, k.cur, k.opn, k.ns, k.old, k.stay, ?_, ?_, ?_⟩⟩
      · rintro ⟨-, h2, -⟩; simp [hW, Stmt.noFor] at h2
      · rintro ⟨-, h2⟩; simp [hW, Stmt.noFor] at h2
      · rintro ⟨-, h2⟩; simp [hW, Stmt.noFor] at h2
    | true =>
      refine ⟨ψ, true, k.weaken ?_ ?_ rfl⟩
      · rintro ⟨h1, h2, h3⟩
        simp only [Stmt.mild, Stmt.noTry, Bool.and_eq_true] at h1 h3
        exact ⟨⟨h1.1, .inl hW, h3.imp (·.1) id⟩, ⟨h1.2, .inl hW, h3.imp (·.2) id⟩⟩
      · rintro ⟨h1, h2⟩
        simp only [Stmt.noTry, Bool.and_eq_true] at h1
        exact ⟨⟨h1.1, .inl hW⟩, ⟨h1.2, .inl hW⟩⟩
  | .enter i is b => by
    have ib := body_good W b
    refine after_leaf (w := fun bd st => visitBody b bd (st.1.adds st.2 is, st.2)) (fun bd G c h hc ho hb hne => ?_)
      (fun bd G c => rfl)
    obtain ⟨ψ, g⟩ := leaves_good (W := W) is h hc ho hb
    obtain ⟨χ, k⟩ := ib.1 bd _ c g.grow.wf g.cur g.opn (hb.next g)
    exact ⟨_, _, (g.seq hc hb (fun _ hn => hne (List.prefix_nil.1 (hn ▸ g.grow.ext.pre c))) k).weaken
      (fun h => ⟨trivial, h⟩) (fun h => ⟨trivial, h⟩) rfl⟩
  | .try_ f r hs e l => by
    have if_ := visit_good W f
    have ir := body_good W r
    have ih := handlers_good W hs
    have ie := body_good W e
    have hv := full_seq if_.1 if_.2 ir.1
    have hv1 : Adds (fun bd st => visitBody r bd (visit f bd st)) (Seq (Run W f) (RunBody W r)) f.startsLoop
        ((Stmt.try_ f r hs e l).Ok W) False := fun bd G c h hc ho hb => by
      obtain ⟨ψ, k⟩ := hv.1 bd G c h hc ho hb
      exact ⟨ψ, k.weaken (fun h => (try_split h).1.1) (fun h => h.elim) rfl⟩
    have key : ∀ bd G c, Wf G → c < G.count → G.locs c = [] → Bd bd G c → ∃ ψ, Good ψ bd G c
        (visit (.try_ f r hs e l) bd (G, c)).1 (G.count + 2)
        (FinallyRun (TryRun (Seq (Run W f) (RunBody W r)) (RunHandlers W hs) (RunBody W e)) Skip) f.startsLoop
        ((Stmt.try_ f r hs e l).Ok W) False ∧ (visit (.try_ f r hs e l) bd (G, c)).2 = G.count + 2 := by
      intro bd G c h hc hn hb
      obtain ⟨g3, nk, nk1, nk2⟩ := new3_grow h
      have c3 : G.new3.count = G.count + 3 := rfl
      obtain ⟨ψ, hh⟩ := ih G.count ([(.raise none, G.count + 2)] :: bd) G.new3 g3.wf (tryBd h hb) (by omega) nk1
      have c1 := hh.grow.ext.count
      have ht : tryBlock (G, c) = (G, c) := by unfold tryBlock; rw [if_pos hn]
      cases e with
      | nil =>
        have e0 : visit (.try_ f r hs .nil l) bd (G, c) =
            tryEnd G.count (visitBody r (visitHandlers hs G.count ([(.raise none, G.count + 2)] :: bd) G.new3).2.2
              (visit f (visitHandlers hs G.count ([(.raise none, G.count + 2)] :: bd) G.new3).2.2 ((visitHandlers hs G.count ([(.raise none, G.count + 2)] :: bd) G.new3).1, c)))
              ((visitHandlers hs G.count ([(.raise none, G.count + 2)] :: bd) G.new3).2.1 ++ [G.count + 1]) := by
          rw [visit]; simp only [ht]
        rw [e0]
        generalize visitHandlers hs G.count ([(.raise none, G.count + 2)] :: bd) G.new3 = st at *
        obtain ⟨G1, hs1, bd1⟩ := st
        simp only at hh c1 ⊢
        have e1 : G1.locs c = [] := by rw [(hh.grow.fix c (by omega) trivial).2]; exact hn
        obtain ⟨ρ, k⟩ := try_good (L := G.count + 1) (okE := True) (E := Skip) (H := RunHandlers W hs) (χ := id) hv1 hv.2 h hc
          (hh.grow.wf.open_ e1) hb hh
          ⟨hh.grow.wf, St.refl _, Ext.refl _, fun _ _ _ => ⟨rfl, rfl⟩⟩ ⟨by omega, by omega, hh.grow.st.ns nk1⟩
          (fun _ F φ _ => .skip) (fun h => (try_split h).2.2) rfl
        exact ⟨ρ, k.weaken' (fun h => ⟨h, trivial⟩) (fun _ => rfl) (fun h => h), rfl⟩
      | cons s os =>
        have e0 : visit (.try_ f r hs (.cons s os) l) bd (G, c) =
            tryEnd G.count (visitBody r (visitHandlers hs G.count ([(.raise none, G.count + 2)] :: bd) G.new3).2.2
              (visit f (visitHandlers hs G.count ([(.raise none, G.count + 2)] :: bd) G.new3).2.2 ((visitBody (.cons s os) (visitHandlers hs G.count ([(.raise none, G.count + 2)] :: bd) G.new3).2.2 ((visitHandlers hs G.count ([(.raise none, G.count + 2)] :: bd) G.new3).1.new, (visitHandlers hs G.count ([(.raise none, G.count + 2)] :: bd) G.new3).1.count)).1.linkOrMerge
                (visitBody (.cons s os) (visitHandlers hs G.count ([(.raise none, G.count + 2)] :: bd) G.new3).2.2 ((visitHandlers hs G.count ([(.raise none, G.count + 2)] :: bd) G.new3).1.new, (visitHandlers hs G.count ([(.raise none, G.count + 2)] :: bd) G.new3).1.count)).2 (G.count + 1), c)))
              ((visitHandlers hs G.count ([(.raise none, G.count + 2)] :: bd) G.new3).2.1 ++ [(visitHandlers hs G.count ([(.raise none, G.count + 2)] :: bd) G.new3).1.count]) := by
          rw [visit]; simp only [ht]; rfl
        rw [e0]
        generalize visitHandlers hs G.count ([(.raise none, G.count + 2)] :: bd) G.new3 = st at *
        obtain ⟨G1, hs1, bd1⟩ := st
        simp only at hh c1 ⊢
        obtain ⟨χ, k1, k2, k3, k4⟩ := orelse_good (k := G.count + 1) ie.1 (ie.2 rfl) hh.grow.wf hh.bds (by omega)
          (hh.grow.st.ns nk1) rfl
        generalize visitBody (.cons s os) bd1 (G1.new, G1.count) = st2 at *
        have e1 : (st2.1.linkOrMerge st2.2 (G.count + 1)).locs c = [] := by
          rw [(k1.fix c (by omega) (by omega)).2, (hh.grow.fix c (by omega) trivial).2]; exact hn
        obtain ⟨ρ, k⟩ := try_good (L := G1.count) (H := RunHandlers W hs) hv1 hv.2 h hc
          (k1.wf.open_ e1) hb hh k1 ⟨by omega, k2, k3⟩ k4 (fun h => (try_split h).2.2) rfl
        exact ⟨ρ, k.weaken' (fun h => ⟨h, (try_split h).1.2⟩) (fun _ => rfl) (fun h => h), rfl⟩
    have hR : (Stmt.try_ f r hs e l).Ok W → Run W (.try_ f r hs e l) =
        FinallyRun (TryRun (Seq (Run W f) (RunBody W r)) (RunHandlers W hs) (RunBody W e)) Skip := fun h => by
      rw [(try_split h).2.1]; rfl
    have hP : ¬ (Stmt.try_ f r hs e l).Plain W := fun h => by cases h.1
    have main : ∀ bd G c, Wf G → c < G.count → Open G c → Bd bd G c → ∃ ψ, Good ψ bd G c
        (visit (.try_ f r hs e l) bd (G, c)).1 (visit (.try_ f r hs e l) bd (G, c)).2
        (Run W (.try_ f r hs e l)) f.startsLoop ((Stmt.try_ f r hs e l).Ok W) ((Stmt.try_ f r hs e l).Plain W) ∧
        G.count ≤ (visit (.try_ f r hs e l) bd (G, c)).2 := by
      intro bd G c h hc ho hb
      by_cases hn : G.locs c = []
      · obtain ⟨ψ, k, k2⟩ := key bd G c h hc hn hb
        rw [k2]
        exact ⟨ψ, k.weaken' (fun h => h) (fun h => (hR h).symm) hP, by omega⟩
      · have g := newFrom_good (bd := bd) h hc ho hn
        have hf : (G.newFrom c).locs G.count = [] := by rw [newFrom_locs hn]; exact h.fresh _ (Nat.le_refl _)
        obtain ⟨ψ, k, k2⟩ := key bd (G.newFrom c) G.count g.grow.wf g.cur hf (hb.next g)
        have e1 : visit (.try_ f r hs e l) bd (G, c) = visit (.try_ f r hs e l) bd (G.newFrom c, G.count) := by
          rw [visit, visit]
          have t1 : tryBlock (G, c) = (G.newFrom c, G.count) := by unfold tryBlock; rw [if_neg hn]
          have t2 : tryBlock (G.newFrom c, G.count) = (G.newFrom c, G.count) := by unfold tryBlock; rw [if_pos hf]
          rw [t1, t2]
        rw [e1, k2]
        have hcn := newFrom_count hn
        have kk := g.seq hc hb (fun e => by omega) k
        refine ⟨_, ⟨kk.grow, kk.cur, kk.opn, kk.ns, kk.old, fun _ => kk.stay rfl, fun hok F φ hF => ?_, fun h => absurd h hP,
          fun h => absurd h hP⟩, by omega⟩
        rw [hR hok]
        exact (kk.sound ⟨trivial, hok⟩ F φ hF).mono (fun t o h => .both (t1 := []) .ok h)
    refine ⟨fun bd G c h hc ho hb => ?_, fun bd G c h hc ho hb e' => ?_⟩
    · obtain ⟨ψ, k, -⟩ := main bd G c h hc ho hb
      exact ⟨ψ, k⟩
    · obtain ⟨ψ, -, k⟩ := main bd G c h hc ho hb
      omega
theorem body_good (W : World) : ∀ p, Adds (visitBody p) (RunBody W p) p.startsLoop (p.Ok W) (p.Plain W) ∧
    (p.isNil = false → Full (visitBody p))
  | .nil => ⟨fun bd G c h hc ho _ => ⟨id, (skip_good h hc ho).weaken (fun _ => trivial) (fun _ => trivial) rfl⟩,
      fun h => by cases h⟩
  | .cons s rest => by
    have is := visit_good W s
    have hv := full_seq is.1 is.2 (body_good W rest).1
    refine ⟨fun bd G c h hc ho hb => ?_, fun _ => hv.2⟩
    obtain ⟨ψ, k⟩ := hv.1 bd G c h hc ho hb
    refine ⟨ψ, k.weaken ?_ ?_ rfl⟩
    · rintro ⟨h1, h2, h3⟩
      simp only [Body.mild, Body.noFor, Body.noTry, Bool.and_eq_true] at h1 h2 h3
      exact ⟨⟨h1.1, h2.imp id (·.1), h3.imp (·.1) id⟩, ⟨h1.2, h2.imp id (·.2), h3.imp (·.2) id⟩⟩
    · rintro ⟨h1, h2⟩
      simp only [Body.noFor, Body.noTry, Bool.and_eq_true] at h1 h2
      exact ⟨⟨h1.1, h2.imp id (·.1)⟩, ⟨h1.2, h2.imp id (·.2)⟩⟩
theorem handlers_good (W : World) : ∀ hs k bd G, Wf G → (∀ j t, jumpTo j bd = some t → t < G.count ∧ NS G t) → k + 1 < G.count →
    NS G (k + 1) → ∃ ψ, HGood ψ bd G (visitHandlers hs k bd G).1 (visitHandlers hs k bd G).2.1 (visitHandlers hs k bd G).2.2
  | .nil, _, _, _, h, hb, _, _ => ⟨id, .nil h hb⟩
  | .cons ex name body rest, k, bd, G, h, hb, hk, hn => by
    obtain ⟨ψ, g⟩ := handlers_good W rest k bd G h hb hk hn
    exact g.step (body_good W body).1 hk hn ex name rfl
end

end Verif.Flow

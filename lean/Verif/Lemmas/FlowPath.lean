import Verif.Lemmas.FlowMain

/-! Walks and paths; the graphs of modules and of functions. -/

namespace Verif.Flow

theorem linked_cons {g : Graph} {a b : Nat} {rest : List Nat} (h : (a, b) ∈ g.edges) (h' : g.Linked rest)
    (hr : rest.head? = some b) : g.Linked (a :: rest) := by
  cases rest with
  | nil => trivial
  | cons x xs => cases hr; exact ⟨h, h'⟩

theorem take_succ_get {α : Type} {xs : List α} {i : Nat} {x : α} (h : xs[i]? = some x) : xs.take (i + 1) = xs.take i ++ [x] := by
  rw [List.take_add_one, h]; rfl

/-- The blocks of a walk are a path. -/
theorem walk_path {F n b i tr b' i'} (h : Walk F n b i tr b' i') : ∃ pre, F.Linked (pre ++ [b']) ∧
    (pre ++ [b']).head? = some b ∧ (F.locs b).take i ++ tr = F.along pre ++ (F.locs b').take i' := by
  induction h with
  | nil => exact ⟨[], trivial, rfl, by simp [Graph.along]⟩
  | emit h1 _ ih =>
    obtain ⟨pre, g1, g2, g3⟩ := ih
    refine ⟨pre, g1, g2, ?_⟩
    rw [← g3, take_succ_get h1]; simp
  | edge h1 h2 _ ih =>
    obtain ⟨pre, g1, g2, g3⟩ := ih
    refine ⟨_ :: pre, linked_cons h2 g1 g2, rfl, ?_⟩
    subst h1
    simp only [List.take_zero, List.nil_append] at g3
    rw [g3, List.take_length]
    simp [Graph.along]

/-- All of a block. -/
theorem walk_block {F : Graph} {b : Nat} : ∀ k i, i + k = (F.locs b).length →
    Reach F b i ((F.locs b).drop i) b (F.locs b).length
  | 0, i, h => by
    have : i = (F.locs b).length := by omega
    subst this; rw [List.drop_length]; exact .refl
  | k + 1, i, h => by
    have hi : i < (F.locs b).length := by omega
    obtain ⟨n, hw⟩ := walk_block (F := F) (b := b) k (i + 1) (by omega)
    rw [List.drop_eq_getElem_cons hi]
    exact ⟨n + 1, .emit (List.getElem?_eq_getElem hi) hw⟩

/-- A path is a walk. -/
theorem path_walk {F : Graph} : ∀ (path : List Nat) b, F.Linked (b :: path) →
    ∃ b', (b :: path).getLast? = some b' ∧ Reach F b 0 (F.along (b :: path)) b' (F.locs b').length
  | [], b, _ => ⟨b, rfl, by
    have := walk_block (F := F) (b := b) (F.locs b).length 0 (by omega)
    simpa [Graph.along] using this⟩
  | c :: path, b, h => by
    obtain ⟨b', h1, h2⟩ := path_walk path c h.2
    refine ⟨b', by rw [List.getLast?_cons_cons]; exact h1, ?_⟩
    have := walk_block (F := F) (b := b) (F.locs b).length 0 (Nat.zero_add _)
    have e : F.along (b :: c :: path) = F.locs b ++ ([] ++ F.along (c :: path)) := by simp [Graph.along]
    rw [e]
    rw [List.drop_zero] at this
    obtain ⟨n, hw⟩ := h2
    exact this.trans ⟨n + 1, .edge rfl h.1 hw⟩

/-- From a block without locations and without edges there is nothing to walk. -/
theorem walk_stuck {F n b i tr q r} (h : F.locs b = []) (ho : Open F b) (hw : Walk F n b i tr q r) : tr = [] := by
  cases hw with
  | nil => rfl
  | emit h1 _ => rw [h] at h1; simp at h1
  | edge _ h2 _ => exact absurd h2 (ho _)

theorem init_wf : Wf Graph.init := by
  refine ⟨?_, ?_, ?_, ?_, ?_⟩
  · intro s t h; cases h
  · intro s t h; cases h
  · intro s t h; cases h
  · intro b _; rfl
  · show 0 < 2; omega

/-- What is made at the end. -/
theorem end_sound {ψ bd G c G' c' R sl ok tf} (g : Good ψ bd G c G' c' R sl ok tf) (hok : ok) (hs : G.start = c)
    (h1 : Graph.end_ < G.count) (h2 : Graph.end_ ≠ c) (h3 : G.locs Graph.end_ = []) (h4 : G.locs c = [])
    {tr o} (hr : R tr o) :
    ∃ path, (G'.linkOrMerge c' Graph.end_).IsPath path ∧ tr <+: (G'.linkOrMerge c' Graph.end_).along path ∧
      (o = .normal ∨ (o = .ret ∧ jumpTo .ret bd = some Graph.end_) → path.getLast? = some Graph.end_ ∧
        (G'.linkOrMerge c' Graph.end_).along path = tr) := by
  have hF := (lm_ext g.grow.wf c' Graph.end_)
  have s := g.sound hok _ _ hF
  have hs' : (G'.linkOrMerge c' Graph.end_).start = moved G' c' Graph.end_ (ψ c) := by
    rw [hF.start, g.grow.ext.start, hs]
  have fin : ∀ tr, Reach (G'.linkOrMerge c' Graph.end_) (moved G' c' Graph.end_ (ψ c)) 0 tr Graph.end_ 0 →
      ∃ path, (G'.linkOrMerge c' Graph.end_).IsPath path ∧ path.getLast? = some Graph.end_ ∧
        (G'.linkOrMerge c' Graph.end_).along path = tr := by
    rintro tr ⟨n, hw⟩
    obtain ⟨pre, p1, p2, p3⟩ := walk_path hw
    refine ⟨pre ++ [Graph.end_], ⟨by rw [p2, hs'], p1⟩, by simp, ?_⟩
    have le : (G'.linkOrMerge c' Graph.end_).locs Graph.end_ = [] := by
      rw [lm_locs, (g.grow.fix _ h1 h2).2, h3]
    simp only [List.take_zero, List.append_nil, List.nil_append] at p3
    unfold Graph.along at p3 ⊢
    rw [List.flatMap_append, ← p3, List.flatMap_cons, le]; simp
  rw [h4] at s
  obtain ⟨s1, s2, q, r, n, s3⟩ := s tr o hr
  by_cases ho : o = .normal ∨ (o = .ret ∧ jumpTo .ret bd = some Graph.end_)
  · have : Reach (G'.linkOrMerge c' Graph.end_) (moved G' c' Graph.end_ (ψ c)) 0 tr Graph.end_ 0 := by
      rcases ho with ho | ho
      · have r := lm_reach g.grow.wf (s := c') (t := Graph.end_) (Ext.refl _)
        simpa using (s1 ho).trans r
      · refine s2 .ret Graph.end_ (ho.1 ▸ .ret) ?_
        unfold tgt
        rw [ho.2]
        show some (moved G' c' Graph.end_ Graph.end_) = _
        by_cases e : G'.locs c' = []
        · rw [moved_ne]
          rcases g.old with e | e
          · omega
          · omega
        · rw [moved_full e]
    obtain ⟨path, p1, p2, p3⟩ := fin tr this
    exact ⟨path, p1, p3 ▸ List.prefix_refl _, fun _ => ⟨p2, p3⟩⟩
  · obtain ⟨pre, p1, p2, p3⟩ := walk_path s3
    refine ⟨pre ++ [q], ⟨by rw [p2, hs'], p1⟩, ?_, fun h => absurd h ho⟩
    simp only [List.length_nil, List.take_zero, List.nil_append] at p3
    unfold Graph.along at p3 ⊢
    rw [p3, List.flatMap_append]
    rw [List.flatMap_cons, List.flatMap_nil, List.append_nil]
    exact (List.prefix_append_right_inj _).2 (List.take_prefix _ _)

/-- Each path is a run. -/
theorem end_prec {ψ bd G c G' c' R sl ok tf} (g : Good ψ bd G c G' c' R sl ok tf) (htf : tf) (hs : G.start = c)
    (hst : Stops R) (h1 : Graph.end_ < G.count) (h2 : Graph.end_ ≠ c) (h3 : G.locs Graph.end_ = []) (h4 : G.locs c = [])
    (hb : ∀ j t, jumpTo j bd = some t → t = Graph.end_) {path : List Nat} (hp : (G'.linkOrMerge c' Graph.end_).IsPath path) :
    R ((G'.linkOrMerge c' Graph.end_).along path) .cut := by
  have hF := (lm_ext g.grow.wf c' Graph.end_)
  have hce : Graph.end_ ≠ c' := by rcases g.old with e | e <;> omega
  have p := g.prec htf _ _ hF ((lm_cl g.grow.wf c' Graph.end_).mono (fun b hb => hb.2))
  have hs' : (G'.linkOrMerge c' Graph.end_).start = moved G' c' Graph.end_ (ψ c) := by
    rw [hF.start, g.grow.ext.start, hs]
  have le : (G'.linkOrMerge c' Graph.end_).locs Graph.end_ = [] := by
    rw [lm_locs, (g.grow.fix _ h1 h2).2, h3]
  have oe : Open (G'.linkOrMerge c' Graph.end_) Graph.end_ := by
    intro t ht
    rcases (lm_edges g.grow.wf c' Graph.end_ _ _).1 ht with ⟨v, h5, -⟩ | h5
    · exact g.grow.wf.src _ _ h5 (by rw [lm_locs] at le; exact le)
    · exact hce h5.1
  cases path with
  | nil => cases hp.1
  | cons b path =>
    have hb' : b = moved G' c' Graph.end_ (ψ c) := by
      have := hp.1; rw [hs'] at this; exact Option.some.inj this
    obtain ⟨b', -, n, hw⟩ := path_walk path b hp.2
    rw [hb', ← hs'] at hw
    rw [hs', ] at hw
    rw [h4] at p
    rw [hb']
    rcases p n _ _ _ hw with h | ⟨n', t1, t2, -, e, h, hw'⟩ | ⟨j, t, o, n', t1, t2, ht, -, -, -, e, h, hw'⟩
    · exact h
    · have : t2 = [] := by
        have r := lm_to g.grow.wf (s := c') (t := Graph.end_) g.opn (Ext.refl _)
          (C := fun _ => True) ⟨fun _ _ => rfl, fun _ _ t' h => ⟨t', h, rfl⟩⟩ trivial
        rcases r _ _ _ _ hw' with h | ⟨m, -, hw2⟩
        · exact h
        · exact walk_stuck le oe hw2
      rw [e, this, List.append_nil]; exact hst _ _ h
    · have : t2 = [] := by
        unfold tgt at ht
        cases hj : jumpTo j bd with
        | none => rw [hj] at ht; cases ht
        | some u =>
          rw [hj, hb j u hj] at ht
          simp only [Option.map_some, Option.some.injEq] at ht
          rw [moved_ne hce] at ht
          subst ht
          exact walk_stuck le oe hw'
      rw [e, this, List.append_nil]; exact hst _ _ h

/-! ### Modules and functions -/

theorem module_good (W : World) (p : Body) : ∃ ψ, Good ψ [] Graph.init 0 (visitBody p [] (Graph.init, 0)).1
    (visitBody p [] (Graph.init, 0)).2 (RunBody W p) p.startsLoop (p.Ok W) (p.Plain W) :=
  (body_good W p).1 [] Graph.init 0 init_wf (by show 0 < 2; omega) (fun t h => by cases h) (fun j t h => by cases h)

/-- The boundaries of a function. -/
theorem function_bd {j t} (h : jumpTo j [[(.ret, Graph.end_), (.raise none, Graph.end_)]] = some t) : t = Graph.end_ := by
  cases j with
  | brk => cases h
  | cont => cases h
  | ret => cases h; rfl
  | raise n => cases n <;> cases h <;> rfl

theorem function_good (W : World) (args : Nat) (p : Body) : ∃ ψ, Good ψ [[(.ret, Graph.end_), (.raise none, Graph.end_)]]
    Graph.init 0
    (visitBody p [[(.ret, Graph.end_), (.raise none, Graph.end_)]] ((Graph.init.add 0 args).newFrom 0, (Graph.init.add 0 args).count)).1
    (visitBody p [[(.ret, Graph.end_), (.raise none, Graph.end_)]] ((Graph.init.add 0 args).newFrom 0, (Graph.init.add 0 args).count)).2
    (Seq (Leaf W args) (Seq Skip (RunBody W p))) false (p.Ok W) (p.Plain W) ∧ (functionGraph args p).start = 0 ∧
    (functionGraph args p).locs 0 ≠ [] := by
  have hc : 0 < Graph.init.count := by show 0 < 2; omega
  have hb : Bd [[(.ret, Graph.end_), (.raise none, Graph.end_)]] Graph.init 0 := by
    intro j t h
    rw [function_bd h]
    exact ⟨by show 1 < 2; omega, fun _ => by show 1 ≠ 0; omega, fun _ => by show 1 ≠ 0; omega⟩
  have ho : Open Graph.init 0 := fun t h => by cases h
  have g1 := leaf_good (W := W) (bd := [[(.ret, Graph.end_), (.raise none, Graph.end_)]]) args init_wf hc ho
  have hne : (Graph.init.add 0 args).locs 0 ≠ [] := by rw [add_self]; simp
  have b1 := hb.next g1
  have g2 := newFrom_good (bd := [[(.ret, Graph.end_), (.raise none, Graph.end_)]]) g1.grow.wf g1.cur g1.opn hne
  have b2 := b1.next g2
  obtain ⟨ψ, g3⟩ := (body_good W p).1 _ _ _ g2.grow.wf g2.cur g2.opn b2
  have h23 := g2.seq g1.cur b1 (fun e => by cases e) g3
  have h123 := g1.seq hc hb (fun _ => hne) h23
  have hl : ∀ c', ((visitBody p [[(.ret, Graph.end_), (.raise none, Graph.end_)]]
      ((Graph.init.add 0 args).newFrom 0, (Graph.init.add 0 args).count)).1.linkOrMerge c' Graph.end_).locs 0 ≠ [] := by
    intro c' hn
    rw [lm_locs] at hn
    exact hne (List.prefix_nil.1 (hn ▸ h23.grow.ext.pre 0))
  refine ⟨_, h123.weaken (fun h => ⟨trivial, trivial, h⟩) (fun h => ⟨trivial, trivial, h⟩) rfl, ?_, hl _⟩
  show (Graph.linkOrMerge _ _ _).start = 0
  rw [lm_start, h123.grow.ext.start]
  have := h123.stay rfl
  rw [show Graph.init.start = 0 from rfl, this]
  exact (lm_ext h123.grow.wf _ _).keep 0 (fun hn => hl 0 (by rw [lm_locs]; exact hn))

mutual
theorem stmt_mild : ∀ s : Stmt, s.noTry = true → s.mild = true
  | .simple _, _ => rfl
  | .jump _ _, _ => rfl
  | .cond _ b e, h => by
    simp only [Stmt.noTry, Bool.and_eq_true] at h
    simp only [Stmt.mild, Bool.and_eq_true]; exact ⟨body_mild b h.1, body_mild e h.2⟩
  | .loop _ b e, h => by
    simp only [Stmt.noTry, Bool.and_eq_true] at h
    simp only [Stmt.mild, Bool.and_eq_true]; exact ⟨body_mild b h.1, body_mild e h.2⟩
  | .each _ _ b e, h => by
    simp only [Stmt.noTry, Bool.and_eq_true] at h
    simp only [Stmt.mild, Bool.and_eq_true]; exact ⟨body_mild b h.1, body_mild e h.2⟩
  | .enter _ _ b, h => body_mild b h
  | .try_ _ _ _ _ _, h => by cases h
theorem body_mild : ∀ p : Body, p.noTry = true → p.mild = true
  | .nil, _ => rfl
  | .cons s rest, h => by
    simp only [Body.noTry, Bool.and_eq_true] at h
    simp only [Body.mild, Bool.and_eq_true]; exact ⟨stmt_mild s h.1, body_mild rest h.2⟩
end

end Verif.Flow

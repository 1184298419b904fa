import Verif.Model.FlowCheck
import Verif.Lemmas.FlowLocs
import Verif.Lemmas.Flow

/-! Building a graph does not raise. -/

namespace Verif.Flow

/-- The graph grows; below `count`, only blocks `X` get locations or are removed from `unreachable_blocks`. -/
structure Keeps (X : Nat → Prop) (g : Graph) (u : List Nat) (g' : Graph) (u' : List Nat) : Prop where
  cnt : g.count ≤ g'.count
  lt : ∀ b ∈ u', b < g'.count
  fresh : ∀ b, g'.count ≤ b → g'.locs b = []
  keep : ∀ b ∈ u, ¬ X b → b ∈ u'
  same : ∀ b, b < g.count → ¬ X b → g'.locs b = g.locs b
  pre : ∀ b, g.locs b <+: g'.locs b

/-- What is removed from is below `count`. -/
structure Okay (g : Graph) (u : List Nat) : Prop where
  lt : ∀ b ∈ u, b < g.count
  fresh : ∀ b, g.count ≤ b → g.locs b = []

theorem Keeps.ok {X g u g' u'} (h : Keeps X g u g' u') : Okay g' u' := ⟨h.lt, h.fresh⟩

theorem Keeps.refl {g u} (h : Okay g u) (X : Nat → Prop) : Keeps X g u g u :=
  ⟨Nat.le_refl _, h.lt, h.fresh, fun _ h _ => h, fun _ _ _ => rfl, fun _ => List.prefix_refl _⟩

theorem Keeps.trans {X Y Z g u g1 u1 g2 u2} (h : Keeps X g u g1 u1) (h' : Keeps Y g1 u1 g2 u2) (hu : ∀ b ∈ u, b < g.count)
    (hX : ∀ b, b < g.count → X b ∨ Y b → Z b) : Keeps Z g u g2 u2 where
  cnt := Nat.le_trans h.cnt h'.cnt
  lt := h'.lt
  fresh := h'.fresh
  keep b hb hz := h'.keep b (h.keep b hb (fun hx => hz (hX b (hu b hb) (.inl hx)))) (fun hy => hz (hX b (hu b hb) (.inr hy)))
  same b hb hz := (h'.same b (Nat.lt_of_lt_of_le hb h.cnt) (fun hy => hz (hX b hb (.inr hy)))).trans
    (h.same b hb (fun hx => hz (hX b hb (.inl hx))))
  pre b := (h.pre b).trans (h'.pre b)

theorem Keeps.weaken {X Y g u g' u'} (h : Keeps X g u g' u') (hu : ∀ b ∈ u, b < g.count) (hX : ∀ b, b < g.count → X b → Y b) :
    Keeps Y g u g' u' :=
  ⟨h.cnt, h.lt, h.fresh, fun b hb hy => h.keep b hb (fun hx => hy (hX b (hu b hb) hx)),
    fun b hb hy => h.same b hb (fun hx => hy (hX b hb hx)), h.pre⟩

theorem new_keeps {g u} (h : Okay g u) : Keeps (fun _ => False) g u g.new (g.count :: u) where
  cnt := Nat.le_succ _
  lt b hb := by
    show b < g.count + 1
    rcases List.mem_cons.1 hb with e | e
    · omega
    · have := h.lt b e; omega
  fresh b hb := h.fresh b (by have : g.count + 1 ≤ b := hb; omega)
  keep b hb _ := List.mem_cons_of_mem _ hb
  same _ _ _ := rfl
  pre _ := List.prefix_refl _

theorem add_keeps {g u c} (h : Okay g u) (hc : c < g.count) (l : Nat) : Keeps (· = c) g u (g.add c l) u where
  cnt := Nat.le_refl _
  lt := h.lt
  fresh := ((Tidy.mk h.fresh hc).add l).fresh
  keep _ hb _ := hb
  same b _ hb := add_ne g l hb
  pre b := by
    by_cases e : b = c
    · rw [e, add_self]; exact List.prefix_append _ _
    · rw [add_ne g l e]; exact List.prefix_refl _

theorem adds_keeps {u c} : ∀ (ls : List Nat) {g : Graph}, Okay g u → c < g.count → Keeps (· = c) g u (g.adds c ls) u
  | [], g, h, _ => Keeps.refl h _
  | l :: ls, g, h, hc => by
    have h1 := add_keeps h hc l
    exact h1.trans (adds_keeps ls h1.ok hc) h.lt (fun b _ hb => hb.elim id id)

theorem remove_keeps {g g' u s} (h : Okay g u) (hs : s ∈ u) (hg : g'.count = g.count ∧ g'.locs = g.locs) :
    ∃ u', remove u s = .ok u' ∧ Keeps (· = s) g u g' u' := by
  refine ⟨_, by simp only [remove, hs, if_true]; rfl, ?_⟩
  refine ⟨Nat.le_of_eq hg.1.symm, ?_, ?_, ?_, fun b _ _ => by rw [hg.2], fun b => by rw [hg.2]; exact List.prefix_refl _⟩
  · intro b hb; rw [hg.1]; exact h.lt b (List.mem_filter.1 hb).1
  · rw [hg.1, hg.2]; exact h.fresh
  · intro b hb hx; exact List.mem_filter.2 ⟨hb, by simpa using hx⟩

theorem same_keeps {g g' u} (h : Okay g u) (X : Nat → Prop) (hg : g'.count = g.count ∧ g'.locs = g.locs) : Keeps X g u g' u :=
  ⟨Nat.le_of_eq hg.1.symm, fun b hb => by rw [hg.1]; exact h.lt b hb, by rw [hg.1, hg.2]; exact h.fresh, fun _ h _ => h,
    fun b _ _ => by rw [hg.2], fun b => by rw [hg.2]; exact List.prefix_refl _⟩

theorem lm_same (g : Graph) (s t : Nat) : (g.linkOrMerge s t).count = g.count ∧ (g.linkOrMerge s t).locs = g.locs :=
  ⟨lm_count .., lm_locs ..⟩

theorem lmE {g u} (h : Okay g u) (c : Nat) {s : Nat} (t : Nat) (hs : (s ∈ u ∧ s ≠ t) ∨ g.locs s ≠ []) :
    ∃ u', Work.linkOrMerge ⟨g, c, u⟩ s t = .ok ⟨g.linkOrMerge s t, c, u'⟩ ∧ Keeps (· = s) g u (g.linkOrMerge s t) u' ∧
      (g.locs s ≠ [] → Keeps (fun _ => False) g u (g.linkOrMerge s t) u') := by
  unfold Work.linkOrMerge
  by_cases e : g.locs s = []
  · have hst := hs.resolve_right (fun h => h e)
    obtain ⟨u', h1, h2⟩ := remove_keeps h hst.1 (lm_same g s t)
    exact ⟨u', by simp only [e, if_true, hst.2, false_and, if_false, h1], h2, fun h => absurd e h⟩
  · exact ⟨u, by simp only [e, if_false], same_keeps h _ (lm_same g s t), fun _ => same_keeps h _ (lm_same g s t)⟩

theorem multipleE {g u} (h : Okay g u) (c : Nat) {s : Nat} (ts : List Nat) (hs : s ∈ u) (hst : s ∉ ts) :
    ∃ u', Work.multiple ⟨g, c, u⟩ s ts = .ok ⟨g.multiple s ts, c, u'⟩ ∧ Keeps (· = s) g u (g.multiple s ts) u' := by
  unfold Work.multiple
  by_cases e : g.locs s = []
  · obtain ⟨u', h1, h2⟩ := remove_keeps h hs (multiple_same g s ts)
    exact ⟨u', by simp only [e, if_true, hst, false_and, if_false, h1], h2⟩
  · exact ⟨u, by simp only [e, if_false], same_keeps h _ (multiple_same g s ts)⟩

/-- From a block with locations. -/
theorem newFromE {g u} (h : Okay g u) (c : Nat) {s : Nat} (hs : g.locs s ≠ []) :
    ∃ u', Work.newFrom ⟨g, c, u⟩ s = .ok ⟨g.newFrom s, g.count, u'⟩ ∧ Keeps (fun _ => False) g u (g.newFrom s) u' ∧
      g.count ∈ u' := by
  have h1 := new_keeps h
  obtain ⟨u', h2, -, h3⟩ := lmE h1.ok g.count (s := s) g.count (.inr hs)
  exact ⟨u', h2, h1.trans (h3 hs) h.lt (fun b _ hb => hb.elim id id), (h3 hs).keep _ List.mem_cons_self (fun h => h)⟩

theorem joinE_ok {g u} (h : Okay g u) (c : Nat) {e1 e2 : Nat} (h1 : e1 ∈ u) (h2 : (e2 ∈ u ∧ e2 ≠ e1) ∨ g.locs e2 ≠ []) :
    ∃ u', joinE ⟨g, c, u⟩ e1 e2 = .ok ⟨(join g e1 e2).1, (join g e1 e2).2, u'⟩ ∧
      Keeps (fun b => b = e1 ∨ (b = e2 ∧ g.locs e2 = [])) g u (join g e1 e2).1 u' ∧ (join g e1 e2).2 ∈ u' := by
  have hn := new_keeps h
  obtain ⟨u1, l1, l2, -⟩ := lmE hn.ok g.count (s := e1) g.count (.inl ⟨List.mem_cons_of_mem _ h1, by have := h.lt e1 h1; omega⟩)
  have hl : (g.new.linkOrMerge e1 g.count).locs = g.locs := lm_locs ..
  have hlt1 := h.lt e1 h1
  obtain ⟨u2, m1, m2, m3⟩ := lmE l2.ok g.count (s := e2) g.count (by
    rcases h2 with h2 | h2
    · exact .inl ⟨l2.keep _ (List.mem_cons_of_mem _ h2.1) h2.2, by have := h.lt e2 h2.1; omega⟩
    · exact .inr (by rw [hl]; exact h2))
  have hk := hn.trans l2 h.lt (Z := (· = e1)) (fun b _ hb => hb.elim False.elim id)
  have hc1 : g.count ∈ u1 := l2.keep _ List.mem_cons_self (by omega)
  refine ⟨u2, ?_, ?_, ?_⟩
  · unfold joinE
    simp only [Work.new, Work.at, l1]
    exact m1
  · by_cases e : g.locs e2 = []
    · exact hk.trans m2 h.lt (fun b _ hb => hb.imp id (fun hb => ⟨hb, e⟩))
    · exact hk.trans (m3 (by rw [hl]; exact e)) h.lt (fun b _ hb => hb.elim .inl False.elim)
  · by_cases e : g.locs e2 = []
    · rcases h2 with h2 | h2
      · exact m2.keep _ hc1 (by have := h.lt e2 h2.1; show g.count ≠ e2; omega)
      · exact absurd e h2
    · exact (m3 (by rw [hl]; exact e)).keep _ hc1 (fun h => h)

theorem loopHeadE_ok {g u c} (h : Okay g u) (hc : c ∈ u) (t : Nat) :
    ∃ u', loopHeadE t ⟨g, c, u⟩ = .ok ⟨(loopHead t (g, c)).1, (loopHead t (g, c)).2, u'⟩ ∧
      Keeps (· = c) g u (loopHead t (g, c)).1 u' ∧ (loopHead t (g, c)).2 ∈ u' ∧ g.count + 1 ∈ u' ∧
      (loopHead t (g, c)).1.count = g.count + 3 ∧ (loopHead t (g, c)).1.locs g.count = [t] ∧
      (loopHead t (g, c)).1.locs c = g.locs c := by
  have hlt := h.lt c hc
  have hn := new_keeps h
  have ha := add_keeps hn.ok (c := g.count) (by show g.count < g.count + 1; omega) t
  obtain ⟨u1, l1, l2, -⟩ := lmE ha.ok g.count (s := c) g.count (.inl ⟨List.mem_cons_of_mem _ hc, by omega⟩)
  have hn2 := new_keeps l2.ok
  have hcnt : ((g.new.add g.count t).linkOrMerge c g.count).count = g.count + 1 := lm_count ..
  have hself : (g.new.add g.count t).locs g.count = [t] := by
    rw [add_self]; show g.locs g.count ++ [t] = [t]; rw [h.fresh _ (Nat.le_refl _)]; rfl
  have hl : ((g.new.add g.count t).linkOrMerge c g.count).new.locs g.count = [t] := by
    show ((g.new.add g.count t).linkOrMerge c g.count).locs g.count = [t]
    rw [lm_locs, hself]
  obtain ⟨u2, m1, m2, m3⟩ := newFromE hn2.ok g.count (s := g.count) (by rw [hl]; simp)
  have hcnt2 : ((g.new.add g.count t).linkOrMerge c g.count).new.count = g.count + 2 := by
    show ((g.new.add g.count t).linkOrMerge c g.count).count + 1 = _; rw [hcnt]
  have hloc : (loopHead t (g, c)).1.locs = (g.new.add g.count t).locs := by
    show (Graph.newFrom _ _).locs = _
    unfold Graph.newFrom
    rw [lm_locs]
    show ((g.new.add g.count t).linkOrMerge c g.count).locs = _
    rw [lm_locs]
  refine ⟨u2, ?_, ?_, ?_, ?_, ?_, ?_, ?_⟩
  · unfold loopHeadE
    simp only [Work.new, Work.at, Work.add, l1]
    show Work.newFrom ⟨((g.new.add g.count t).linkOrMerge c g.count).new, g.count, _ :: u1⟩ g.count = _
    rw [m1, hcnt2]
    rfl
  · refine Keeps.trans (X := (· = c)) ?_ (hn2.trans m2 (Y := fun _ => False) (Z := fun _ => False) (fun b hb => ?_) (fun b _ hb => hb.elim id id)) h.lt
      (fun b _ hb => hb.elim id False.elim)
    · exact hn.trans (ha.trans l2 hn.ok.lt (Z := fun b => b = c ∨ b = g.count) (fun b _ hb => hb.symm)) h.lt (fun b hb hx => by
        rcases hx with hx | hx | hx
        · exact hx.elim
        · exact hx
        · omega)
    · exact l2.lt b hb
  · show g.count + 2 ∈ u2
    rw [← hcnt2]; exact m3
  · refine m2.keep _ ?_ (fun h => h)
    rw [hcnt]; exact List.mem_cons_self
  · show (Graph.newFrom _ _).count = _
    rw [newFrom_cnt, hcnt2]
  · rw [hloc, hself]
  · rw [hloc, add_ne _ _ (by omega)]; rfl

theorem loopBackE_ok {g u c} (h : Okay g u) (hc : c ∈ u) {x : Nat} (hx : g.locs x ≠ []) (hcx : c ≠ x) :
    ∃ u', loopBackE x ⟨g, c, u⟩ = .ok ⟨(loopBack x (g, c)).1, (loopBack x (g, c)).2, u'⟩ ∧
      Keeps (· = c) g u (loopBack x (g, c)).1 u' ∧ (loopBack x (g, c)).2 ∈ u' ∧ (loopBack x (g, c)).2 = g.count := by
  obtain ⟨u1, l1, l2, -⟩ := lmE h c (s := c) x (.inl ⟨hc, hcx⟩)
  obtain ⟨u2, m1, m2, m3⟩ := newFromE l2.ok c (s := x) (by rw [lm_locs]; exact hx)
  refine ⟨u2, ?_, l2.trans m2 h.lt (fun b _ hb => hb.elim id False.elim), m3, lm_count ..⟩
  unfold loopBackE
  simp only [l1, Except.bind]
  exact m1

theorem tryBlockE_ok {g u c} (h : Okay g u) (hc : c ∈ u) :
    ∃ u', tryBlockE ⟨g, c, u⟩ = .ok ⟨(tryBlock (g, c)).1, (tryBlock (g, c)).2, u'⟩ ∧
      Keeps (fun _ => False) g u (tryBlock (g, c)).1 u' ∧ (tryBlock (g, c)).2 ∈ u' ∧
      (tryBlock (g, c)).1.locs (tryBlock (g, c)).2 = [] ∧ (tryBlock (g, c)).1.locs = g.locs ∧
      ((g.locs c = [] ∧ (tryBlock (g, c)).2 = c) ∨ (g.locs c ≠ [] ∧ (tryBlock (g, c)).2 = g.count)) := by
  unfold tryBlockE tryBlock
  by_cases e : g.locs c = []
  · simp only [e, if_true]
    exact ⟨u, rfl, Keeps.refl h _, hc, by simp⟩
  · simp only [e, if_false]
    obtain ⟨u', h1, h2, h3⟩ := newFromE h c (s := c) e
    have hl : (g.newFrom c).locs = g.locs := by unfold Graph.newFrom; rw [lm_locs]; rfl
    exact ⟨u', h1, h2, h3, by show (g.newFrom c).locs g.count = []; rw [hl, h.fresh _ (Nat.le_refl _)], hl,
      .inr ⟨e, trivial⟩⟩

theorem tryEndE_ok {g u c k} (h : Okay g u) (hc : c ∈ u) (hk : k ∈ u) (hk1 : k + 1 ∈ u) (hk2 : k + 2 ∈ u) (ck : c ≠ k)
    (ck1 : c ≠ k + 1) (ck2 : c ≠ k + 2) {after : List Nat} (hca : c ∉ after) :
    ∃ u', tryEndE k ⟨g, c, u⟩ after = .ok ⟨(tryEnd k (g, c) after).1, (tryEnd k (g, c) after).2, u'⟩ ∧
      Keeps (fun b => b = c ∨ b = k ∨ b = k + 1) g u (tryEnd k (g, c) after).1 u' ∧ (tryEnd k (g, c) after).2 ∈ u' := by
  obtain ⟨u1, l1, l2, -⟩ := lmE h c (s := k) c (.inl ⟨hk, fun e => ck e.symm⟩)
  obtain ⟨u2, m1, m2⟩ := multipleE l2.ok c (s := c) after (l2.keep _ hc ck) hca
  obtain ⟨u3, n1, n2, -⟩ := lmE m2.ok (k + 2) (s := k + 1) (k + 2) (.inl ⟨m2.keep _ (l2.keep _ hk1 (by omega)) (by omega), by omega⟩)
  refine ⟨u3, ?_, ?_, ?_⟩
  · unfold tryEndE
    simp only [l1, m1, Except.bind]
    exact n1
  · exact (l2.trans m2 h.lt (Z := fun b => b = c ∨ b = k) (fun b _ hb => hb.symm)).trans n2 h.lt (fun b _ hb => by
      rcases hb with (hb | hb) | hb
      · exact .inl hb
      · exact .inr (.inl hb)
      · exact .inr (.inr hb))
  · exact n2.keep _ (m2.keep _ (l2.keep _ hk2 (by show k + 2 ≠ k; omega)) (fun e => ck2 e.symm)) (by show k + 2 ≠ k + 1; omega)

/-- What `cfg_loc` of a statement is. -/
def LocOk (g : Graph) (c : Nat) (g' : Graph) (c' : Nat) (loc : Loc) : Prop :=
  (∃ n, (g'.locs loc.1)[loc.2]? = some n) ∧
    (g.locs c = [] → loc.2 = 0 ∧ (loc.1 = c ∨ (g'.locs c = [] ∧ c' ≠ c)))

theorem prefix_get? {xs ys : List Nat} (h : xs <+: ys) {i n : Nat} (hx : xs[i]? = some n) : ys[i]? = some n := by
  obtain ⟨zs, rfl⟩ := h
  have := (List.getElem?_eq_some_iff.1 hx).1
  rw [List.getElem?_append_left this]
  exact hx

/-- The statement is visited, nothing is raised. -/
def Visits (s : Stmt) : Prop := ∀ (bd : List Exits) (g : Graph) (c : Nat) (u : List Nat), Okay g u → c ∈ u →
  ∃ u' loc, visitE s bd ⟨g, c, u⟩ = .ok (⟨(visit s bd (g, c)).1, (visit s bd (g, c)).2, u'⟩, loc) ∧
    Keeps (· = c) g u (visit s bd (g, c)).1 u' ∧ (visit s bd (g, c)).2 ∈ u' ∧
    ((visit s bd (g, c)).2 = c ∨ g.count ≤ (visit s bd (g, c)).2) ∧
    LocOk g c (visit s bd (g, c)).1 (visit s bd (g, c)).2 loc

/-- The statements are visited, nothing is raised. -/
def VisitsAll (p : Body) : Prop := ∀ (bd : List Exits) (g : Graph) (c : Nat) (u : List Nat), Okay g u → c ∈ u →
  ∃ u' loc, visitBodyE p bd ⟨g, c, u⟩ = .ok (⟨(visitBody p bd (g, c)).1, (visitBody p bd (g, c)).2, u'⟩, loc) ∧
    Keeps (· = c) g u (visitBody p bd (g, c)).1 u' ∧ (visitBody p bd (g, c)).2 ∈ u' ∧
    ((visitBody p bd (g, c)).2 = c ∨ g.count ≤ (visitBody p bd (g, c)).2) ∧
    (p.isNil = false → ∃ l, loc = some l ∧ LocOk g c (visitBody p bd (g, c)).1 (visitBody p bd (g, c)).2 l)

theorem LocOk.later {g c g1 c1 g2 c2 loc} (h : LocOk g c g1 c1 loc) (hc : c < g1.count)
    (hs : ∀ b, b < g1.count → b ≠ c1 → g2.locs b = g1.locs b) (hp : ∀ b, g1.locs b <+: g2.locs b) (ho : c2 = c1 ∨ g1.count ≤ c2) :
    LocOk g c g2 c2 loc := by
  obtain ⟨⟨n, h1⟩, h2⟩ := h
  refine ⟨⟨n, prefix_get? (hp _) h1⟩, fun e => ⟨(h2 e).1, ?_⟩⟩
  rcases (h2 e).2 with h | h
  · exact .inl h
  · exact .inr ⟨by rw [hs c hc (fun e => h.2 e.symm)]; exact h.1, by
      rcases ho with e | e
      · rw [e]; exact h.2
      · omega⟩

theorem seq_visits {s : Stmt} {rest : Body} (h1 : Visits s) (h2 : VisitsAll rest) : VisitsAll (.cons s rest) := by
  intro bd g c u ho hc
  obtain ⟨u1, loc, a1, a2, a3, a4, a5⟩ := h1 bd g c u ho hc
  obtain ⟨u2, loc2, b1, b2, b3, b4, -⟩ := h2 bd _ _ u1 a2.ok a3
  refine ⟨u2, some loc, ?_, ?_, b3, ?_, fun _ => ⟨loc, rfl, ?_⟩⟩
  · simp only [visitBodyE, visitBody, a1, Except.bind, b1]
  · refine a2.trans b2 ho.lt (fun b hb hx => ?_)
    rcases hx with hx | hx
    · exact hx
    · rcases a4 with e | e
      · exact hx.trans e
      · omega
  · simp only [visitBody]
    have := a2.cnt
    rcases b4 with e | e
    · rcases a4 with e' | e'
      · exact .inl (e.trans e')
      · exact .inr (by have : (visitBody rest bd (visit s bd (g, c))).2 = (visit s bd (g, c)).2 := e; omega)
    · exact .inr (by have : (visit s bd (g, c)).1.count ≤ (visitBody rest bd (visit s bd (g, c))).2 := e; omega)
  · exact a5.later (Nat.lt_of_lt_of_le (ho.lt c hc) a2.cnt) b2.same b2.pre b4

theorem cfLast_ok {g : Graph} {b l : Nat} : (g.add b l).cfLast b l = .ok (b, (g.locs b).length) := by
  unfold Graph.cfLast Graph.expect Graph.node
  rw [add_self]
  simp

theorem LocOk.last {g g' : Graph} {c c' l : Nat} (h : (g.add c l).locs c <+: g'.locs c) :
    LocOk g c g' c' (c, (g.locs c).length) := by
  rw [add_self] at h
  refine ⟨⟨l, prefix_get? h (by simp)⟩, fun e => ⟨by show (g.locs c).length = 0; rw [e]; rfl, .inl rfl⟩⟩

theorem simple_visits (l : Nat) : Visits (.simple l) := fun _ _ c u ho hc =>
  ⟨u, _, rfl, add_keeps ho (ho.lt c hc) l, hc, .inl rfl, .last (List.prefix_refl _)⟩

theorem jumped_same (bd : List Exits) (j : Jump) (l : Nat) (g : Graph) (c : Nat) :
    (jumped bd j l g c).count = (g.add c l).count ∧ (jumped bd j l g c).locs = (g.add c l).locs := by
  unfold jumped
  split <;> exact ⟨rfl, rfl⟩

theorem jump_visits (j : Jump) (l : Nat) : Visits (.jump j l) := by
  intro bd g c u ho hc
  have h1 := add_keeps ho (ho.lt c hc) l
  have h2 := same_keeps h1.ok (fun _ => False) (jumped_same bd j l g c)
  have h3 := new_keeps h2.ok
  have h4 := h1.trans (h2.trans h3 h1.ok.lt (Z := fun _ => False) (fun b _ hb => hb.elim id id)) ho.lt (Z := (· = c))
    (fun b _ hb => hb.elim id False.elim)
  refine ⟨_, _, rfl, h4, List.mem_cons_self, .inr ?_, .last (l := l) ?_⟩
  · show g.count ≤ (jumped bd j l g c).count
    rw [(jumped_same bd j l g c).1]; exact Nat.le_refl _
  · show (g.add c l).locs c <+: (jumped bd j l g c).locs c
    rw [(jumped_same bd j l g c).2]; exact List.prefix_refl _

theorem nil_visits : VisitsAll .nil := fun _ g c u ho hc =>
  ⟨u, none, rfl, Keeps.refl ho _, hc, .inl rfl, fun h => by cases h⟩

theorem cons_parts {s : Stmt} {rest : Body} {bd w w' l} (h : visitBodyE (.cons s rest) bd w = .ok (w', l)) :
    ∃ r4 r5, visitE s bd w = .ok r4 ∧ visitBodyE rest bd r4.1 = .ok r5 ∧ r5.1 = w' := by
  simp only [visitBodyE] at h
  cases hA : visitE s bd w with
  | error x => rw [hA] at h; cases h
  | ok r =>
    rw [hA] at h
    simp only [Except.bind] at h
    cases hB : visitBodyE rest bd r.1 with
    | error x => rw [hB] at h; cases h
    | ok r2 =>
      rw [hB] at h
      simp only [Except.ok.injEq, Prod.mk.injEq] at h
      exact ⟨r, r2, rfl, hB, h.1⟩

theorem cond_visits {t : Nat} {b : Body} (hb : VisitsAll b) : ∀ {e : Body}, VisitsAll e → (∀ s rest, e = .cons s rest → Visits s ∧ VisitsAll rest) →
    Visits (.cond t b e) := by
  intro e _ he bd g c u ho hc
  have hlt := ho.lt c hc
  have k1 := add_keeps ho hlt t
  have hne : (g.add c t).locs c ≠ [] := by rw [add_self]; simp
  obtain ⟨u1, n1, n2, n3⟩ := newFromE k1.ok c (s := c) hne
  have k2 := k1.trans n2 ho.lt (Z := (· = c)) (fun b _ hb => hb.elim id False.elim)
  obtain ⟨u2, l2, b1, b2, b3, b4, -⟩ := hb bd _ (g.add c t).count u1 n2.ok n3
  generalize hst1 : visitBody b bd ((g.add c t).newFrom c, (g.add c t).count) = st1 at b1 b2 b3 b4
  obtain ⟨g1, c1⟩ := st1
  simp only at b1 b2 b3 b4
  have hgc : (g.add c t).count = g.count := rfl
  have hcn : ((g.add c t).newFrom c).count = g.count + 1 := newFrom_cnt _ _
  have k3 : Keeps (· = c) g u g1 u2 := k2.trans b2 ho.lt (fun b hb hx => by
    rcases hx with hx | hx
    · exact hx
    · omega)
  have hc1 : g.count ≤ c1 := by omega
  have hlc : (g.add c t).locs c <+: g1.locs c := by
    have h1 := n2.pre c
    exact h1.trans (b2.pre c)
  have hne1 : g1.locs c ≠ [] := fun e => hne (List.prefix_nil.1 (e ▸ hlc))
  cases e with
  | nil =>
    obtain ⟨u3, j1, j2, j3⟩ := joinE_ok b2.ok c1 (e1 := c1) (e2 := c) b3 (.inr hne1)
    have hv : visit (.cond t b .nil) bd (g, c) = join g1 c1 c := by
      simp only [visit]
      rw [show visitBody b bd ((g.add c t).newFrom c, g.count) = (g1, c1) from hst1]
    rw [hv]
    refine ⟨u3, _, ?_, ?_, j3, .inr ?_, .last (hlc.trans (j2.pre c))⟩
    · simp only [visitE, Work.add, cfLast_ok, n1, b1, j1, Except.bind]
    · refine k3.trans j2 ho.lt (fun b hb hx => ?_)
      rcases hx with hx | hx | hx
      · exact hx
      · omega
      · exact hx.1
    · show g.count ≤ g1.count
      exact k3.cnt
  | cons s rest =>
    obtain ⟨hs, hr⟩ := he s rest rfl
    obtain ⟨u3, p1, p2, p3⟩ := newFromE b2.ok c1 (s := c) hne1
    have hsr := seq_visits hs hr
    obtain ⟨u4, l4, q1, q2, q3, q4, -⟩ := hsr bd _ g1.count u3 p2.ok p3
    generalize hst2 : visitBody (.cons s rest) bd (g1.newFrom c, g1.count) = st2 at q1 q2 q3 q4
    obtain ⟨g2, c2⟩ := st2
    simp only at q1 q2 q3 q4
    have hcn2 : (g1.newFrom c).count = g1.count + 1 := newFrom_cnt _ _
    have hc2 : g1.count ≤ c2 := by omega
    have hc1' : c1 < g1.count := b2.ok.lt c1 b3
    have k4 : Keeps (· = c) g u g2 u4 := k3.trans (p2.trans q2 b2.ok.lt (Z := (· = g1.count)) (fun b _ hx => hx.elim False.elim id)) ho.lt
      (fun b hb hx => by
        rcases hx with hx | hx
        · exact hx
        · have := k3.cnt; omega)
    have h1u : c1 ∈ u4 := q2.keep _ (p2.keep _ b3 (fun h => h)) (by omega)
    obtain ⟨u5, j1, j2, j3⟩ := joinE_ok q2.ok c2 (e1 := c1) (e2 := c2) h1u (.inl ⟨q3, by omega⟩)
    have hv : visit (.cond t b (.cons s rest)) bd (g, c) = join g2 c1 c2 := by
      simp only [visit]
      rw [show visitBody b bd ((g.add c t).newFrom c, g.count) = (g1, c1) from hst1]
      simp only
      rw [show visitBody rest bd (visit s bd (g1.newFrom c, g1.count)) = (g2, c2) from hst2]
    rw [hv]
    refine ⟨u5, (c, (g.locs c).length), ?_, ?_, j3, .inr ?_, .last ((hlc.trans ((p2.pre c).trans (q2.pre c))).trans (j2.pre c))⟩
    · simp only [visitE, Work.add, cfLast_ok, n1, b1, p1, Except.bind]
      obtain ⟨r4, r5, x1, x2, x3⟩ := cons_parts q1
      simp only [x1, x2, x3, j1]
    · refine k4.trans j2 ho.lt (fun b hb hx => ?_)
      have := k3.cnt
      rcases hx with hx | hx | hx
      · exact hx
      · omega
      · omega
    · show g.count ≤ g2.count
      exact k4.cnt

/-- What a loop ends with -/
def loopGraph (t : Nat) (b e : Body) (bd' bd : List Exits) (g : Graph) (c : Nat) : Graph :=
  let st2 := visitBody e bd (loopBack g.count (visitBody b bd' (loopHead t (g, c))))
  st2.1.linkOrMerge st2.2 (g.count + 1)

theorem loop_core {t : Nat} {b e : Body} (hb : VisitsAll b) (he : VisitsAll e) (bd' bd : List Exits) {g c u} (ho : Okay g u) (hc : c ∈ u) :
    ∃ w1 r2 w3 r4 u', loopHeadE t ⟨g, c, u⟩ = .ok w1 ∧ visitBodyE b bd' w1 = .ok r2 ∧ loopBackE g.count r2.1 = .ok w3 ∧
      visitBodyE e bd w3 = .ok r4 ∧
      (r4.1.at (g.count + 1)).linkOrMerge r4.1.c (g.count + 1) = .ok ⟨loopGraph t b e bd' bd g c, g.count + 1, u'⟩ ∧
      Keeps (· = c) g u (loopGraph t b e bd' bd g c) u' ∧ g.count + 1 ∈ u' ∧ (loopGraph t b e bd' bd g c).locs c = g.locs c ∧
      [t] <+: (loopGraph t b e bd' bd g c).locs g.count := by
  have hlt := ho.lt c hc
  obtain ⟨u1, a1, a2, a3, a4, a5, a6, a7⟩ := loopHeadE_ok ho hc t
  have ac : (loopHead t (g, c)).2 = g.count + 2 := rfl
  unfold loopGraph
  generalize loopHead t (g, c) = st0 at *
  obtain ⟨g0, c0⟩ := st0
  simp only at a1 a2 a3 a4 a5 a6 a7 ac
  obtain ⟨u2, l2, b1, b2, b3, b4, -⟩ := hb bd' g0 c0 u1 a2.ok a3
  generalize visitBody b bd' (g0, c0) = st1 at *
  obtain ⟨g1, c1⟩ := st1
  simp only at b1 b2 b3 b4
  have n1 := b2.cnt
  have hh : [t] <+: g1.locs g.count := a6 ▸ b2.pre g.count
  have hne : g1.locs g.count ≠ [] := fun e => by rw [e] at hh; exact absurd (List.prefix_nil.1 hh) (by simp)
  obtain ⟨u3, d1, d2, d3, d4⟩ := loopBackE_ok b2.ok b3 hne (by omega)
  generalize loopBack g.count (g1, c1) = st2 at *
  obtain ⟨g2, c2⟩ := st2
  simp only at d1 d2 d3 d4
  have n2 := d2.cnt
  obtain ⟨u4, l4, e1, e2, e3, e4, -⟩ := he bd g2 c2 u3 d2.ok d3
  generalize visitBody e bd (g2, c2) = st3 at *
  obtain ⟨g3, c3⟩ := st3
  simp only at e1 e2 e3 e4
  have n3 := e2.cnt
  obtain ⟨u5, f1, f2, -⟩ := lmE e2.ok (g.count + 1) (s := c3) (g.count + 1) (.inl ⟨e3, by omega⟩)
  have k1 := a2.trans b2 ho.lt (Z := (· = c)) (fun b _ hx => by
    rcases hx with hx | hx
    · exact hx
    · omega)
  have k2 := k1.trans d2 ho.lt (Z := (· = c)) (fun b _ hx => by
    rcases hx with hx | hx
    · exact hx
    · omega)
  have k3 := k2.trans e2 ho.lt (Z := (· = c)) (fun b _ hx => by
    rcases hx with hx | hx
    · exact hx
    · omega)
  have k4 := k3.trans f2 ho.lt (Z := (· = c)) (fun b _ hx => by
    rcases hx with hx | hx
    · exact hx
    · omega)
  refine ⟨_, _, _, _, u5, a1, b1, d1, e1, f1, k4, ?_, ?_, ?_⟩
  · exact f2.keep _ (e2.keep _ (d2.keep _ (b2.keep _ a4 (by show g.count + 1 ≠ c0; omega)) (by show g.count + 1 ≠ c1; omega))
      (by show g.count + 1 ≠ c2; omega)) (by show g.count + 1 ≠ c3; omega)
  · show (g3.linkOrMerge c3 (g.count + 1)).locs c = g.locs c
    rw [f2.same c (by omega) (by omega), e2.same c (by omega) (by omega), d2.same c (by omega) (by omega),
      b2.same c (by omega) (by omega), a7]
  · exact hh.trans ((d2.pre _).trans ((e2.pre _).trans (f2.pre _)))

theorem loop_visits {t : Nat} {b e : Body} (hb : VisitsAll b) (he : VisitsAll e) : Visits (.loop t b e) := by
  intro bd g c u ho hc
  obtain ⟨w1, r2, w3, r4, u', a1, a2, a3, a4, a5, a6, a7, a8, a9⟩ := loop_core (t := t) hb he (loopExits g :: bd) bd ho hc
  have hlt := ho.lt c hc
  have hv : visit (.loop t b e) bd (g, c) = (loopGraph t b e (loopExits g :: bd) bd g c, g.count + 1) := rfl
  rw [hv]
  refine ⟨u', (g.count, 0), ?_, a6, a7, .inr (by show g.count ≤ g.count + 1; omega), ?_, ?_⟩
  · have hf : (g.new.add g.count t).cfFirst g.count t = .ok (g.count, 0) := by
      unfold Graph.cfFirst Graph.expect Graph.node
      rw [add_self]
      have : g.new.locs g.count = [] := ho.fresh _ (Nat.le_refl _)
      simp [this]
    simp only [visitE, hf, Except.bind, a1, a2, a3, a4, a5]
  · exact ⟨t, prefix_get? a9 rfl⟩
  · intro e
    exact ⟨rfl, .inr ⟨a8.trans e, by show g.count + 1 ≠ c; omega⟩⟩

theorem each_visits {i t : Nat} {b e : Body} (hb : VisitsAll b) (he : VisitsAll e) : Visits (.each i t b e) := by
  intro bd g c u ho hc
  have hlt := ho.lt c hc
  have k1 := add_keeps ho hlt i
  obtain ⟨w1, r2, w3, r4, u', a1, a2, a3, a4, a5, a6, a7, a8, a9⟩ :=
    loop_core (t := t) hb he (loopExits g :: bd) bd k1.ok (c := c) hc
  have hv : visit (.each i t b e) bd (g, c) = (loopGraph t b e (loopExits g :: bd) bd (g.add c i) c, g.count + 1) := rfl
  rw [hv]
  refine ⟨u', (c, (g.locs c).length), ?_, k1.trans a6 ho.lt (fun b _ hb => hb.elim id id), a7,
    .inr (by show g.count ≤ g.count + 1; omega), .last (l := i) (a8 ▸ List.prefix_refl _)⟩
  simp only [visitE, Work.add, cfLast_ok, Except.bind, a1, a2]
  simp only [show g.count = (g.add c i).count from rfl, a3, a4, a5]

theorem enter_visits {i : Nat} {is : List Nat} {b : Body} (hb : VisitsAll b) : Visits (.enter i is b) := by
  intro bd g c u ho hc
  have hlt := ho.lt c hc
  have k1 := add_keeps ho hlt i
  have k2 := adds_keeps is k1.ok (c := c) hlt
  obtain ⟨u', l, a1, a2, a3, a4, -⟩ := hb bd ((g.add c i).adds c is) c u k2.ok hc
  refine ⟨u', (c, (g.locs c).length), ?_, ?_, a3, ?_, .last (l := i) ((k2.pre c).trans (a2.pre c))⟩
  · simp only [visitE, Except.bind, a1]
    rfl
  · exact (k1.trans k2 ho.lt (Z := (· = c)) (fun b _ hb => hb.elim id id)).trans a2 ho.lt (fun b _ hb => hb.elim id id)
  · have := k2.cnt
    have h2 : (g.add c i).count = g.count := rfl
    have h3 : visit (.enter i is b) bd (g, c) = visitBody b bd ((g.add c i).adds c is, c) := rfl
    rw [h3]
    omega

/-- The clauses are visited, nothing is raised. -/
def VisitsClauses (hs : Handlers) : Prop := ∀ (k : Nat) (bd : List Exits) (g : Graph) (c : Nat) (u : List Nat), Okay g u → k + 1 < g.count →
  ∃ u' c', visitHandlersE hs k bd ⟨g, c, u⟩ =
      .ok (⟨(visitHandlers hs k bd g).1, c', u'⟩, (visitHandlers hs k bd g).2) ∧
    Keeps (fun _ => False) g u (visitHandlers hs k bd g).1 u' ∧
    ∀ h ∈ (visitHandlers hs k bd g).2.1, g.count ≤ h ∧ h < (visitHandlers hs k bd g).1.count

theorem no_clauses : VisitsClauses .nil := fun _ _ _ c u ho _ => ⟨u, c, rfl, Keeps.refl ho _, fun h hh => by cases hh⟩

theorem addName_keeps {g u h} (ho : Okay g u) (hh : h < g.count) : ∀ name, Keeps (· = h) g u (addName name g h) u
  | none => Keeps.refl ho _
  | some l => add_keeps ho hh l

theorem node_ok {g : Graph} {l : Loc} {n : Nat} (h : (g.locs l.1)[l.2]? = some n) : g.node l = .ok n := by
  unfold Graph.node
  rw [h]

theorem cfClause_ok {g g2 : Graph} {h c2 : Nat} {name : Option Nat} {first : Loc} (hf : g.locs h = [])
    (hp : (addName name g h).locs h <+: g2.locs h) (hl : LocOk (addName name g h) h g2 c2 first) :
    g2.cfClause h name first = .ok () := by
  obtain ⟨⟨n, h1⟩, h2⟩ := hl
  unfold Graph.cfClause
  rw [node_ok h1]
  simp only
  cases name with
  | some l =>
    have hp' : [l] <+: g2.locs h := by
      have : (addName (some l) g h).locs h = [l] := by show (g.add h l).locs h = [l]; rw [add_self, hf]; rfl
      rwa [this] at hp
    have hne : g2.locs h ≠ [] := fun e => by rw [e] at hp'; exact absurd (List.prefix_nil.1 hp') (by simp)
    rw [if_neg hne, node_ok (n := l) (prefix_get? hp' rfl)]
    simp
  | none =>
    obtain ⟨e0, h3⟩ := h2 hf
    have hn : (g2.locs first.1)[0]? = some n := e0 ▸ h1
    by_cases hne : g2.locs h = []
    · rw [if_pos hne, node_ok (n := n) hn]
      simp
    · rcases h3 with h3 | h3
      · rw [if_neg hne, node_ok (n := n) (h3 ▸ hn)]
        simp
      · exact absurd h3.1 hne

theorem clause_visits {ex : List Str} {name : Option Nat} {b : Body} {rest : Handlers} (hn : b.isNil = false) (hb : VisitsAll b)
    (hr : VisitsClauses rest) : VisitsClauses (.cons ex name b rest) := by
  intro k bd g c u ho hk
  obtain ⟨u1, c1, a1, a2, a3⟩ := hr k bd g c u ho hk
  have hv : visitHandlers (.cons ex name b rest) k bd g =
      ((visitBody b (clauseExits ex (visitHandlers rest k bd g).1.count ++ (visitHandlers rest k bd g).2.2)
        (addName name (visitHandlers rest k bd g).1.new (visitHandlers rest k bd g).1.count, (visitHandlers rest k bd g).1.count)).1.linkOrMerge
        (visitBody b (clauseExits ex (visitHandlers rest k bd g).1.count ++ (visitHandlers rest k bd g).2.2)
        (addName name (visitHandlers rest k bd g).1.new (visitHandlers rest k bd g).1.count, (visitHandlers rest k bd g).1.count)).2 (k + 1),
        (visitHandlers rest k bd g).2.1 ++ [(visitHandlers rest k bd g).1.count],
        clauseExits ex (visitHandlers rest k bd g).1.count ++ (visitHandlers rest k bd g).2.2) := rfl
  rw [hv]
  generalize visitHandlers rest k bd g = r at *
  obtain ⟨g1, hs, bd1⟩ := r
  simp only at a1 a2 a3 ⊢
  have m1 := a2.cnt
  have k1 := new_keeps a2.ok
  have k2 := addName_keeps (h := g1.count) k1.ok (by show g1.count < g1.count + 1; omega) name
  obtain ⟨u2, l, b1, b2, b3, b4, b5⟩ := hb (clauseExits ex g1.count ++ bd1) _ g1.count _ k2.ok List.mem_cons_self
  obtain ⟨first, rfl, b6⟩ := b5 hn
  generalize visitBody b (clauseExits ex g1.count ++ bd1) (addName name g1.new g1.count, g1.count) = st at *
  obtain ⟨g2, c2⟩ := st
  simp only at b1 b2 b3 b4 b6 ⊢
  have hcl := cfClause_ok (c2 := c2) (name := name) (first := first) (h := g1.count) (g := g1.new) (a2.ok.fresh _ (Nat.le_refl _)) (b2.pre _) b6
  have n1 := k2.cnt
  have n2 : g1.new.count = g1.count + 1 := rfl
  obtain ⟨u3, d1, d2, -⟩ := lmE b2.ok c2 (s := c2) (k + 1) (.inl ⟨b3, by omega⟩)
  refine ⟨u3, c2, ?_, ?_, ?_⟩
  · simp only [visitHandlersE, a1, Except.bind, b1, firstLoc, hcl, d1]
  · have h1 := a2.trans k1 ho.lt (Z := fun _ => False) (fun b _ hx => hx.elim id id)
    have h2 := h1.trans k2 ho.lt (Z := fun _ => False) (fun b hb hx => by
      rcases hx with hx | hx
      · exact hx
      · omega)
    have h3 := h2.trans b2 ho.lt (Z := fun _ => False) (fun b hb hx => by
      rcases hx with hx | hx
      · exact hx
      · omega)
    exact h3.trans d2 ho.lt (Z := fun _ => False) (fun b hb hx => by
      rcases hx with hx | hx
      · exact hx
      · omega)
  · intro x hx
    have n3 := b2.cnt
    have n4 := d2.cnt
    rcases List.mem_append.1 hx with hx | hx
    · have := a3 x hx; omega
    · have := List.mem_singleton.1 hx; omega

/-- The body of a `try` and its end -/
theorem try_core {first : Stmt} {rest : Body} (hf : Visits first) (hr : VisitsAll rest) (bd1 : List Exits) {g c u k} (c' : Nat) (ho : Okay g u)
    (hc : c ∈ u) (he : g.locs c = []) (hk : k ∈ u) (hk1 : k + 1 ∈ u) (hk2 : k + 2 ∈ u) (hck : c < k) {after : List Nat}
    (haf : ∀ x ∈ after, k < x ∧ x < g.count) :
    ∃ r5 r6 loc u', visitE first bd1 ((⟨g, c', u⟩ : Work).at c) = .ok r5 ∧ visitBodyE rest bd1 r5.1 = .ok r6 ∧ r6.1.g.cfTry r5.2 = .ok loc ∧
      tryEndE k r6.1 after = .ok ⟨(tryEnd k (visitBody rest bd1 (visit first bd1 (g, c))) after).1, k + 2, u'⟩ ∧
      Keeps (fun b => b = c ∨ b = k ∨ b = k + 1) g u (tryEnd k (visitBody rest bd1 (visit first bd1 (g, c))) after).1 u' ∧ k + 2 ∈ u' ∧
      LocOk g c (tryEnd k (visitBody rest bd1 (visit first bd1 (g, c))) after).1 (k + 2) loc := by
  have hck2 := ho.lt _ hk2
  obtain ⟨u1, loc, a1, a2, a3, a4, a5⟩ := hf bd1 g c u ho hc
  have n1 := a2.cnt
  generalize visit first bd1 (g, c) = st1 at *
  obtain ⟨g1, c1⟩ := st1
  simp only at a1 a2 a3 a4 a5 n1
  obtain ⟨u2, loc2, b1, b2, b3, b4, -⟩ := hr bd1 g1 c1 u1 a2.ok a3
  generalize visitBody rest bd1 (g1, c1) = st2 at *
  obtain ⟨g2, c2⟩ := st2
  simp only at b1 b2 b3 b4
  have n2 := b2.cnt
  have hl := a5.later (g2 := g2) (c2 := c2) (by omega) b2.same b2.pre b4
  have hcc : c2 = c ∨ g.count ≤ c2 := by omega
  have m1 := b2.keep k (a2.keep k hk (by omega)) (by omega)
  have m2 := b2.keep (k + 1) (a2.keep (k + 1) hk1 (by omega)) (by omega)
  have m3 := b2.keep (k + 2) (a2.keep (k + 2) hk2 (by omega)) (by omega)
  obtain ⟨u3, d1, d2, d3⟩ := tryEndE_ok b2.ok b3 m1 m2 m3 (by omega) (by omega) (by omega) (after := after)
    (fun hx => by have := haf _ hx; omega)
  obtain ⟨⟨n, h1⟩, h2⟩ := hl
  obtain ⟨e0, h2⟩ := h2 he
  have h0 : (g2.locs loc.1)[0]? = some n := e0 ▸ h1
  refine ⟨_, _, (loc.1, 0), u3, a1, b1, ?_, d1, ?_, d3, ⟨n, prefix_get? (d2.pre _) h0⟩, fun _ => ⟨rfl, ?_⟩⟩
  · simp only [Graph.cfTry, node_ok h1, Graph.cfFirst, Graph.expect, node_ok (l := (loc.1, 0)) h0, if_true]
  · exact (a2.trans b2 ho.lt (Z := (· = c)) (fun b hb hx => by
      rcases hx with hx | hx
      · exact hx
      · omega)).trans d2 ho.lt (fun b hb hx => by
      rcases hx with hx | hx | hx | hx
      · exact .inl hx
      · exact .inl (by omega)
      · exact .inr (.inl hx)
      · exact .inr (.inr hx))
  · rcases h2 with h2 | h2
    · exact .inl h2
    · refine .inr ⟨?_, by omega⟩
      rw [d2.same c (by omega) (by omega)]
      exact h2.1

theorem try_visits {first : Stmt} {rest : Body} {hs : Handlers} {orelse fin : Body} (hf : Visits first) (hr : VisitsAll rest)
    (hh : VisitsClauses hs) (hsr : ∀ s os, orelse = .cons s os → Visits s ∧ VisitsAll os) : Visits (.try_ first rest hs orelse fin) := by
  intro bd g0 c0 u0 ho0 hc0
  have hlt0 := ho0.lt c0 hc0
  obtain ⟨u, t1, t2, t3, t4, t5, t6⟩ := tryBlockE_ok ho0 hc0
  have hlt : (tryBlock (g0, c0)).2 < (tryBlock (g0, c0)).1.count := t2.lt _ t3
  have hone : ∃ g c, tryBlock (g0, c0) = (g, c) := ⟨_, _, rfl⟩
  obtain ⟨g, c, hgc⟩ := hone
  rw [hgc] at t1 t2 t3 t4 t5 t6 hlt
  simp only at t1 t2 t3 t4 t5 t6 hlt
  have n0 := t2.cnt
  have k1 := new_keeps t2.ok
  have k2 := new_keeps k1.ok
  have k3 := new_keeps k2.ok
  have k23 := k1.trans (k2.trans k3 k1.ok.lt (Z := fun _ => False) (fun b _ hb => hb.elim id id)) t2.ok.lt (Z := fun _ => False) (fun b _ hb => hb.elim id id)
  obtain ⟨u1, c1, a1, a2, a3⟩ := hh g.count ([(.raise none, g.count + 2)] :: bd) g.new3 c _ k3.ok (by show g.count + 1 < g.count + 3; omega)
  have hrr : ∃ g1 hs' bd1, visitHandlers hs g.count ([(.raise none, g.count + 2)] :: bd) g.new3 = (g1, hs', bd1) := ⟨_, _, _, rfl⟩
  obtain ⟨g1, hs', bd1, hvh⟩ := hrr
  rw [hvh] at a1 a2 a3
  simp only at a1 a2 a3
  have n1 : g.count + 3 ≤ g1.count := a2.cnt
  have n3 : g.new3.count = g.count + 3 := rfl
  have mk : g.count ∈ u1 := a2.keep _ (by simp) (fun h => h)
  have mk1 : g.count + 1 ∈ u1 := a2.keep _ (by simp [Graph.new]) (fun h => h)
  have mk2 : g.count + 2 ∈ u1 := a2.keep _ (by simp [Graph.new]) (fun h => h)
  have mc : c ∈ u1 := a2.keep _ (by simp [t3]) (fun h => h)
  have kk : Keeps (fun _ => False) g0 u0 g1 u1 := t2.trans (k23.trans a2 t2.ok.lt (Z := fun _ => False) (fun b _ hb => hb.elim id id)) ho0.lt (fun b _ hb => hb.elim id id)
  have e1 : g1.locs c = [] := by rw [a2.same c (by show c < g.count + 3; omega) (fun h => h)]; exact t4
  -- what follows from the end of the `try`
  have final : ∀ (G : Graph) (loc : Loc) (g4 : Graph) (u4 u' : List Nat), Keeps (fun _ => False) g0 u0 g4 u4 →
      (g4.locs c = []) →
      Keeps (fun b => b = c ∨ b = g.count ∨ b = g.count + 1) g4 u4 G u' → g.count + 2 ∈ u' → LocOk g4 c G (g.count + 2) loc →
      Keeps (· = c0) g0 u0 G u' ∧ g.count + 2 ∈ u' ∧ (g.count + 2 = c0 ∨ g0.count ≤ g.count + 2) ∧ LocOk g0 c0 G (g.count + 2) loc := by
    intro G loc g4 u4 u' x1 x2 x3 x4 x5
    refine ⟨x1.trans x3 ho0.lt (fun b hb hx => ?_), x4, .inr (by omega), x5.1, fun e => ?_⟩
    · rcases hx with hx | hx | hx | hx
      · exact hx.elim
      · rcases t6 with t6 | t6 <;> omega
      · omega
      · omega
    · rcases t6 with t6 | t6
      · have := x5.2 x2
        rwa [t6.2] at this
      · exact absurd e t6.1
  cases orelse with
  | nil =>
    obtain ⟨r5, r6, loc, u', q1, q2, q3, q4, q5, q6, q7⟩ := try_core hf hr bd1 c1 a2.ok mc e1 mk mk1 mk2 hlt (after := hs' ++ [g.count + 1])
      (fun x hx => by
        rcases List.mem_append.1 hx with hx | hx
        · have := a3 x hx; omega
        · have := List.mem_singleton.1 hx; omega)
    have hv : visit (.try_ first rest hs .nil fin) bd (g0, c0) =
        tryEnd g.count (visitBody rest bd1 (visit first bd1 (g1, c))) (hs' ++ [g.count + 1]) := by
      simp only [visit, hgc, hvh]
    rw [hv]
    have hfin := final _ loc _ _ _ kk e1 q5 q6 q7
    refine ⟨u', loc, ?_, hfin⟩
    simp only [visitE, t1, Except.bind, Work.new]
    simp only [show g.new.new.new = g.new3 from rfl, a1, q1, q2, q3, q4]
    rfl
  | cons s os =>
    obtain ⟨h1, h2⟩ := hsr s os rfl
    have kn := new_keeps a2.ok
    obtain ⟨u2, l2, b1, b2, b3, b4, -⟩ := seq_visits h1 h2 bd1 g1.new g1.count _ kn.ok List.mem_cons_self
    obtain ⟨r2, r3, p1, p2, p3⟩ := cons_parts b1
    have hst2 : ∃ st, visitBody (.cons s os) bd1 (g1.new, g1.count) = st := ⟨_, rfl⟩
    obtain ⟨⟨g2, c2⟩, hst2⟩ := hst2
    rw [hst2] at b1 b2 b3 b4 p3
    simp only at b1 b2 b3 b4 p3
    have n2 : g1.count + 1 ≤ g2.count := b2.cnt
    have hc2 : g1.count ≤ c2 := by have : g1.new.count = g1.count + 1 := rfl; omega
    obtain ⟨u3, d1, d2, -⟩ := lmE b2.ok c2 (s := c2) (g.count + 1) (.inl ⟨b3, by omega⟩)
    have kd : Keeps (fun _ => False) g1 u1 (g2.linkOrMerge c2 (g.count + 1)) u3 := kn.trans (b2.trans d2 kn.ok.lt
      (Z := fun b => b = g1.count ∨ b = c2) (fun b _ hb => hb)) a2.ok.lt (fun b hb hx => by
        rcases hx with hx | hx | hx
        · exact hx
        · omega
        · omega)
    have kk2 := kk.trans kd ho0.lt (Z := fun _ => False) (fun b _ hb => hb.elim id id)
    have e2 : (g2.linkOrMerge c2 (g.count + 1)).locs c = [] := by rw [kd.same c (by omega) (fun h => h)]; exact e1
    obtain ⟨r5, r6, loc, u', q1, q2, q3, q4, q5, q6, q7⟩ := try_core hf hr bd1 c2 kd.ok (kd.keep _ mc (fun h => h)) e2
      (kd.keep _ mk (fun h => h)) (kd.keep _ mk1 (fun h => h)) (kd.keep _ mk2 (fun h => h)) hlt (after := hs' ++ [g1.count])
      (fun x hx => by
        have n4 := d2.cnt
        rcases List.mem_append.1 hx with hx | hx
        · have := a3 x hx; omega
        · have := List.mem_singleton.1 hx; omega)
    have hv : visit (.try_ first rest hs (.cons s os) fin) bd (g0, c0) =
        tryEnd g.count (visitBody rest bd1 (visit first bd1 (g2.linkOrMerge c2 (g.count + 1), c))) (hs' ++ [g1.count]) := by
      simp only [visitBody] at hst2
      simp only [visit, hgc, hvh, hst2]
    rw [hv]
    have hfin := final _ loc _ _ _ kk2 e2 q5 q6 q7
    refine ⟨u', loc, ?_, hfin⟩
    simp only [visitE, t1, Except.bind, Work.new]
    simp only [show g.new.new.new = g.new3 from rfl, a1]
    simp only [Work.at] at p1 q1 ⊢
    simp only [p1, p2, p3, d1, q1, q2, q3, q4]
    rfl

mutual
theorem visit_ok : ∀ (s : Stmt), s.full = true → Visits s
  | .simple l, _ => simple_visits l
  | .jump j l, _ => jump_visits j l
  | .cond t b e, h => by
    simp only [Stmt.full, Bool.and_eq_true] at h
    exact cond_visits (body_ok b h.1) (body_ok e h.2) (fun s rest he => cons_ok e h.2 s rest he)
  | .loop t b e, h => by
    simp only [Stmt.full, Bool.and_eq_true] at h
    exact loop_visits (body_ok b h.1) (body_ok e h.2)
  | .each i t b e, h => by
    simp only [Stmt.full, Bool.and_eq_true] at h
    exact each_visits (body_ok b h.1) (body_ok e h.2)
  | .enter i is b, h => by
    simp only [Stmt.full] at h
    exact enter_visits (body_ok b h)
  | .try_ f r hs e l, h => by
    simp only [Stmt.full, Bool.and_eq_true] at h
    exact try_visits (visit_ok f h.1.1.1.1) (body_ok r h.1.1.1.2) (handlers_ok hs h.1.1.2) (fun s rest he => cons_ok e h.1.2 s rest he)
theorem body_ok : ∀ (p : Body), p.full = true → VisitsAll p
  | .nil, _ => nil_visits
  | .cons s rest, h => by
    simp only [Body.full, Bool.and_eq_true] at h
    exact seq_visits (visit_ok s h.1) (body_ok rest h.2)
theorem cons_ok : ∀ (p : Body), p.full = true → ∀ s rest, p = .cons s rest → Visits s ∧ VisitsAll rest
  | .nil, _ => fun _ _ h => by cases h
  | .cons s rest, h => fun s' rest' e => by
    cases e
    simp only [Body.full, Bool.and_eq_true] at h
    exact ⟨visit_ok s h.1, body_ok rest h.2⟩
theorem handlers_ok : ∀ (hs : Handlers), hs.full = true → VisitsClauses hs
  | .nil, _ => no_clauses
  | .cons ex name b rest, h => by
    simp only [Handlers.full, Bool.and_eq_true, Bool.not_eq_true'] at h
    exact clause_visits h.1.1 (body_ok b h.1.2) (handlers_ok rest h.2)
end

theorem init_okay : Okay Graph.init [1, 0] where
  lt b hb := by
    show b < 2
    simp at hb; omega
  fresh _ _ := rfl

theorem finishE {st : State} {u} (h : Okay st.1 u) (hc : st.2 ∈ u) {t : Nat} (ht : st.2 ≠ t) :
    ((⟨st.1, st.2, u⟩ : Work).linkOrMerge st.2 t).bind (fun w => .ok w.g) = .ok (st.1.linkOrMerge st.2 t) := by
  obtain ⟨u', h1, -, -⟩ := lmE h st.2 (s := st.2) t (.inl ⟨hc, ht⟩)
  rw [h1]
  rfl

theorem moduleGraphE_ok (p : Body) (h : p.full = true) : moduleGraphE p = .ok (moduleGraph p) := by
  obtain ⟨u1, l, a1, a2, a3, a4, -⟩ := body_ok p h [] Graph.init 0 [1, 0] init_okay (by simp)
  unfold moduleGraphE
  rw [a1]
  have e1 : Graph.end_ = 1 := rfl
  have e2 : Graph.init.count = 2 := rfl
  exact finishE a2.ok a3 (by omega)

theorem functionGraphE_ok (args : Nat) (p : Body) (h : p.full = true) : functionGraphE args p = .ok (functionGraph args p) := by
  have k1 := add_keeps init_okay (c := 0) (by decide) args
  obtain ⟨u0, n1, n2, n3⟩ := newFromE k1.ok 0 (s := 0) (by rw [add_self]; simp)
  obtain ⟨u1, l, a1, a2, a3, a4, -⟩ := body_ok p h [[(.ret, Graph.end_), (.raise none, Graph.end_)]] _ _ u0 n2.ok n3
  unfold functionGraphE Work.add
  rw [n1]
  show (visitBodyE _ _ _).bind _ = _
  rw [a1]
  have e1 : Graph.end_ = 1 := rfl
  have e2 : (Graph.init.add 0 args).count = 2 := rfl
  have e3 := newFrom_cnt (Graph.init.add 0 args) 0
  exact finishE a2.ok a3 (by omega)

theorem classGraphE_ok (p : Body) (h : p.full = true) : classGraphE p = .ok (classGraph p) := by
  have k1 := new_keeps init_okay
  obtain ⟨u1, l, a1, a2, a3, a4, -⟩ := body_ok p h [] Graph.init.new 2 _ k1.ok List.mem_cons_self
  have a1' : visitBodyE p [] ⟨Graph.init.new, 2, [2, 1, 0]⟩ = _ := a1
  unfold classGraphE
  rw [a1']
  have e1 : Graph.end_ = 1 := rfl
  have e2 : Graph.init.new.count = 3 := rfl
  exact finishE a2.ok a3 (by omega)

end Verif.Flow

import Verif.Lemmas.FlowUse
import Verif.Model.Inside

/-! The block that the graph of a module begins with has locations. -/

namespace Verif.Flow

open Verif.Inside (first)

variable {x : Nat}

/-- The beginning has locations, and this is the first one. -/
def Begun (x : Nat) (g : Graph) : Prop := (g.locs g.start).head? = some x

theorem Begun.new {g : Graph} (h : Begun x g) : Begun x g.new := h

theorem Begun.add {g : Graph} (h : Begun x g) (c l : Nat) : Begun x (g.add c l) := by
  unfold Begun at *
  show (if g.start = c then g.locs c ++ [l] else g.locs g.start).head? = some x
  split
  · rename_i e
    rw [List.head?_append, ← e, h]
    rfl
  · exact h

theorem begun_add {g : Graph} (h : g.locs g.start = []) (l : Nat) : Begun l (g.add g.start l) := by
  unfold Begun
  show ((g.add g.start l).locs g.start).head? = some l
  rw [add_self, h]
  rfl

theorem Begun.adds : ∀ {ls : List Nat} {g : Graph} (_ : Begun x g) (c : Nat), Begun x (g.adds c ls)
  | [], _, h, _ => h
  | l :: _, _, h, c => (h.add c l).adds c

theorem Begun.lm {g : Graph} (h : Begun x g) (s t : Nat) : Begun x (g.linkOrMerge s t) := by
  unfold Begun at *
  unfold Graph.linkOrMerge
  split
  · split
    · rename_i h1 h2
      rw [← h2, h1] at h
      cases h
    · exact h
  · exact h

theorem Begun.newFrom {g : Graph} (h : Begun x g) (p : Nat) : Begun x (g.newFrom p) := h.new.lm _ _

theorem Begun.links : ∀ {ts : List Nat} {g : Graph} (_ : Begun x g) (s : Nat), Begun x (g.links s ts)
  | [], _, h, _ => h
  | t :: _, g, h, s => Begun.links (g := g.link s t) h s

theorem Begun.multiple {g : Graph} (h : Begun x g) (s : Nat) (ts : List Nat) : Begun x (g.multiple s ts) := by
  unfold Graph.multiple
  split
  · exact h
  · exact h.links s

theorem Begun.jumped {g : Graph} (h : Begun x g) (bd : List Exits) (j : Jump) (l c : Nat) : Begun x (jumped bd j l g c) := by
  unfold Flow.jumped
  split
  · exact h.add c l
  · exact h.add c l

theorem Begun.head {g : Graph} (h : Begun x g) (t c : Nat) : Begun x (loopHead t (g, c)).1 := ((h.new.add _ _).lm _ _).new.newFrom _

theorem Begun.back {st : State} (h : Begun x st.1) (t : Nat) : Begun x (loopBack t st).1 := (h.lm _ _).newFrom _

theorem Begun.join {g : Graph} (h : Begun x g) (a b : Nat) : Begun x (join g a b).1 := (h.new.lm _ _).lm _ _

theorem Begun.tryEnd {st : State} (h : Begun x st.1) (k : Nat) (after : List Nat) : Begun x (tryEnd k st after).1 :=
  ((h.lm _ _).multiple _ _).lm _ _

theorem Begun.addName {g : Graph} (h : Begun x g) (name : Option Nat) (c : Nat) : Begun x (addName name g c) := by
  cases name with
  | none => exact h
  | some l => exact h.add c l

theorem Begun.tryBlock {st : State} (h : Begun x st.1) : Begun x (tryBlock st).1 := by
  unfold Flow.tryBlock
  split
  · exact h
  · exact h.newFrom _

mutual
theorem visit_begun : ∀ (s : Stmt) (bd : List Exits) (st : State), Begun x st.1 → Begun x (visit s bd st).1
  | .simple l, _, (g, c), h => h.add c l
  | .jump j l, bd, (g, c), h => (Begun.jumped h bd j l c).new
  | .cond t b .nil, bd, (g, c), h => (visitBody_begun b bd _ (((Begun.add h c t)).newFrom c)).join _ _
  | .cond t b (.cons s rest), bd, (g, c), h =>
    (visitBody_begun rest bd _ (visit_begun s bd _ ((visitBody_begun b bd _ (((Begun.add h c t)).newFrom c)).newFrom _))).join _ _
  | .loop t b e, bd, (g, c), h => (visitBody_begun e bd _ ((visitBody_begun b _ _ (Begun.head h t c)).back _)).lm _ _
  | .each i t b e, bd, (g, c), h => (visitBody_begun e bd _ ((visitBody_begun b _ _ (Begun.head (Begun.add h c i) t c)).back _)).lm _ _
  | .enter i is b, bd, (g, c), h => visitBody_begun b bd _ ((Begun.add h c i).adds c)
  | .try_ f r hs .nil l, bd, st, h => by
    have h1 := visitHandlers_begun hs (tryBlock st).1.count ([(.raise none, (tryBlock st).1.count + 2)] :: bd) (tryBlock st).1.new3 h.tryBlock
    exact (visitBody_begun r _ _ (visit_begun f _ _ h1)).tryEnd _ _
  | .try_ f r hs (.cons s os) l, bd, st, h => by
    have h1 := visitHandlers_begun hs (tryBlock st).1.count ([(.raise none, (tryBlock st).1.count + 2)] :: bd) (tryBlock st).1.new3 h.tryBlock
    have h2 := visitBody_begun os
      (visitHandlers hs (tryBlock st).1.count ([(.raise none, (tryBlock st).1.count + 2)] :: bd) (tryBlock st).1.new3).2.2 _ (visit_begun s
      (visitHandlers hs (tryBlock st).1.count ([(.raise none, (tryBlock st).1.count + 2)] :: bd) (tryBlock st).1.new3).2.2
      (_, (visitHandlers hs (tryBlock st).1.count ([(.raise none, (tryBlock st).1.count + 2)] :: bd) (tryBlock st).1.new3).1.count) h1.new)
    exact (visitBody_begun r _ _ (visit_begun f _ _ (h2.lm _ _))).tryEnd _ _
theorem visitBody_begun : ∀ (p : Body) (bd : List Exits) (st : State), Begun x st.1 → Begun x (visitBody p bd st).1
  | .nil, _, _, h => h
  | .cons s rest, bd, _, h => visitBody_begun rest bd _ (visit_begun s bd _ h)
theorem visitHandlers_begun : ∀ (hs : Handlers) (k : Nat) (bd : List Exits) (g : Graph), Begun x g → Begun x (visitHandlers hs k bd g).1
  | .nil, _, _, _, h => h
  | .cons _ name b rest, k, bd, g, h =>
    (visitBody_begun b _ _ ((visitHandlers_begun rest k bd g h).new.addName name _)).lm _ _
end

/-- A statement added to an empty beginning. -/
theorem visit_begins : ∀ (s : Stmt) (bd : List Exits) (g : Graph) (c : Nat), Wf g → c = g.start → g.locs c = [] → Bd bd g c →
    Begun (first s) (visit s bd (g, c)).1
  | .simple l, _, g, _, _, rfl, hn, _ => begun_add hn l
  | .jump j l, bd, g, _, _, rfl, hn, _ => by
    show Begun l (jumped bd j l g g.start).new
    refine Begun.new ?_
    unfold jumped
    split
    · exact begun_add (g := g) hn l
    · exact begun_add hn l
  | .cond t b .nil, bd, g, _, _, rfl, hn, _ => (visitBody_begun b bd _ ((begun_add hn t).newFrom _)).join _ _
  | .cond t b (.cons s rest), bd, g, _, _, rfl, hn, _ =>
    (visitBody_begun rest bd _ (visit_begun s bd _ ((visitBody_begun b bd _ ((begun_add hn t).newFrom _)).newFrom _))).join _ _
  | .loop t b e, bd, g, _, hw, rfl, hn, _ => by
    have h0 : Begun t (loopHead t (g, g.start)).1 := by
      refine Begun.newFrom (g := ((g.new.add g.count t).linkOrMerge g.start g.count).new) (Begun.new ?_) _
      have h1 : (g.new.add g.count t).locs g.start = [] := by
        rw [add_ne _ _ (Nat.ne_of_lt hw.start)]
        exact hn
      unfold Begun Graph.linkOrMerge
      rw [if_pos h1, if_pos (show g.start = (g.new.add g.count t).start from rfl)]
      show ((g.new.add g.count t).locs g.count).head? = some t
      rw [add_self, show g.new.locs g.count = [] from hw.fresh _ (Nat.le_refl _)]
      rfl
    exact (visitBody_begun e bd _ ((visitBody_begun b _ _ h0).back _)).lm _ _
  | .each i t b e, bd, g, _, _, rfl, hn, _ => (visitBody_begun e bd _ ((visitBody_begun b _ _ ((begun_add hn i).head t _)).back _)).lm _ _
  | .enter i is b, bd, g, _, _, rfl, hn, _ => visitBody_begun b bd _ ((begun_add hn i).adds _)
  | .try_ f r hs e l, bd, G, c, h, hc, hn, hb => by
    obtain ⟨g3, nk, nk1, nk2⟩ := new3_grow h
    have c3 : G.new3.count = G.count + 3 := rfl
    have hcl : c < G.count := hc ▸ h.start
    obtain ⟨ψ, hh⟩ := handlers_good anyWorld hs G.count ([(.raise none, G.count + 2)] :: bd) G.new3 g3.wf (tryBd h hb) (by omega) nk1
    have c1 := hh.grow.ext.count
    have ht : tryBlock (G, c) = (G, c) := by unfold tryBlock; rw [if_pos hn]
    have hfirst : ∀ {K : Graph} {χ : Nat → Nat}, Grow χ (fun b => b < (visitHandlers hs G.count ([(.raise none, G.count + 2)] :: bd) G.new3).1.count)
        (visitHandlers hs G.count ([(.raise none, G.count + 2)] :: bd) G.new3).1 K →
        Begun (first f) (visit f (visitHandlers hs G.count ([(.raise none, G.count + 2)] :: bd) G.new3).2.2 (K, c)).1 := by
      intro K χ k
      have e1 : K.start = c := by
        rw [k.ext.start, hh.grow.ext.start]
        show χ (ψ G.start) = c
        rw [← hc, (hh.grow.fix c (by omega) trivial).1, (k.fix c (by omega) (by omega)).1]
      have e2 : K.locs c = [] := by
        rw [(k.fix c (by omega) (by omega)).2, (hh.grow.fix c (by omega) trivial).2]
        exact hn
      refine visit_begins f _ K c k.wf e1.symm e2 ?_
      intro j t ht
      obtain ⟨h1, h2⟩ := hh.bds j t ht
      refine ⟨Nat.lt_of_lt_of_le h1 k.ext.count, k.st.ns h2, fun hj => ?_⟩
      rw [hh.same j hj, jumpTo_try] at ht
      cases j with
      | raise n => exact absurd rfl (hj n)
      | brk => exact (hb _ _ ht).2.2 hj
      | cont => exact (hb _ _ ht).2.2 hj
      | ret => exact (hb _ _ ht).2.2 hj
    cases e with
    | nil =>
      rw [visit]
      simp only [ht]
      exact (visitBody_begun r _ _ (hfirst ⟨hh.grow.wf, St.refl _, Ext.refl _, fun _ _ _ => ⟨rfl, rfl⟩⟩)).tryEnd _ _
    | cons s os =>
      rw [visit]
      simp only [ht]
      obtain ⟨χ, k1, -⟩ := orelse_good (k := G.count + 1) (body_good anyWorld (.cons s os)).1 ((body_good anyWorld (.cons s os)).2 rfl) hh.grow.wf hh.bds
        (by omega) (hh.grow.st.ns nk1) rfl
      exact (visitBody_begun r _ _ (hfirst k1)).tryEnd _ _

/-- The graph of a module begins with its first statement. -/
theorem module_begun (s : Stmt) (rest : Body) : Begun (first s) (moduleGraph (.cons s rest)) :=
  (visitBody_begun rest [] _ (visit_begins s [] Graph.init 0 init_wf rfl rfl (fun j t h => by cases h))).lm _ _

/-- The graph of a function begins with the arguments. -/
theorem function_begun (args : Nat) (p : Body) : Begun args (functionGraph args p) :=
  (visitBody_begun p _ _ ((begun_add (g := Graph.init) rfl args).newFrom 0)).lm _ _

end Verif.Flow

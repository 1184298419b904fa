import Verif.Model.FlowRun
import Mathlib.Data.List.Perm.Basic

/-! Each location is added to one block. -/

namespace Verif.Flow

/-- The locations of the blocks in turn. -/
def Graph.all (g : Graph) : List Nat := (List.range g.count).flatMap g.locs

/-- Blocks that are not made yet are empty, the current block is made. -/
structure Tidy (g : Graph) (c : Nat) : Prop where
  fresh : ∀ b, g.count ≤ b → g.locs b = []
  cur : c < g.count

theorem Tidy.new {g : Graph} {c : Nat} (h : Tidy g c) : Tidy g.new c :=
  ⟨fun b hb => h.fresh b (by have : g.count + 1 ≤ b := hb; omega), by show c < g.count + 1; have := h.cur; omega⟩

theorem Tidy.at {g : Graph} {c d : Nat} (h : Tidy g c) (hd : d < g.count) : Tidy g d := ⟨h.fresh, hd⟩

theorem Tidy.newAt {g : Graph} {c : Nat} (h : Tidy g c) : Tidy g.new g.count := h.new.at (by show g.count < g.count + 1; omega)

theorem Tidy.lm {g : Graph} {c : Nat} (h : Tidy g c) (s t : Nat) : Tidy (g.linkOrMerge s t) c := by
  unfold Graph.linkOrMerge
  split
  · split <;> exact ⟨h.fresh, h.cur⟩
  · exact ⟨h.fresh, h.cur⟩

theorem lm_cnt (g : Graph) (s t : Nat) : (g.linkOrMerge s t).count = g.count := by
  unfold Graph.linkOrMerge
  split
  · split <;> rfl
  · rfl

theorem lm_all (g : Graph) (s t : Nat) : (g.linkOrMerge s t).all = g.all := by
  unfold Graph.linkOrMerge
  split
  · split <;> rfl
  · rfl

theorem new_all {g : Graph} {c : Nat} (h : Tidy g c) : g.new.all = g.all := by
  show (List.range (g.count + 1)).flatMap g.locs = _
  rw [List.range_succ, List.flatMap_append, List.flatMap_singleton, h.fresh _ (Nat.le_refl _), List.append_nil]
  rfl

theorem newFrom_all {g : Graph} {c : Nat} (h : Tidy g c) (p : Nat) : (g.newFrom p).all = g.all := by
  rw [Graph.newFrom, lm_all, new_all h]

theorem newFrom_cnt (g : Graph) (p : Nat) : (g.newFrom p).count = g.count + 1 := by rw [Graph.newFrom, lm_cnt]; rfl

theorem Tidy.newFrom {g : Graph} {c : Nat} (h : Tidy g c) (p : Nat) : Tidy (g.newFrom p) g.count := h.newAt.lm _ _

theorem flatMap_add {f f' : Nat → List Nat} {c l : Nat} (h : f' c = f c ++ [l]) (h' : ∀ b, b ≠ c → f' b = f b) :
    ∀ bs : List Nat, bs.Nodup → c ∈ bs → (bs.flatMap f').Perm (bs.flatMap f ++ [l])
  | [], _, hc => by cases hc
  | b :: bs, hn, hc => by
    rw [List.nodup_cons] at hn
    rw [List.flatMap_cons, List.flatMap_cons]
    by_cases e : b = c
    · subst e
      rw [h, List.append_assoc, List.append_assoc]
      refine .append_left _ ?_
      rw [show bs.flatMap f' = bs.flatMap f from List.flatMap_congr (fun x hx => h' x (fun e => hn.1 (e ▸ hx)))]
      exact List.perm_append_comm
    · rw [h' b e, List.append_assoc]
      exact .append_left _ (flatMap_add h h' bs hn.2 (by rcases List.mem_cons.1 hc with e' | e' <;> [exact absurd e'.symm e; exact e']))

theorem add_all {g : Graph} {c : Nat} (h : Tidy g c) (l : Nat) : (g.add c l).all.Perm (g.all ++ [l]) :=
  flatMap_add (by simp [Graph.add]) (fun b hb => by simp [Graph.add, hb]) _ List.nodup_range (List.mem_range.2 h.cur)

theorem Tidy.add {g : Graph} {c : Nat} (h : Tidy g c) (l : Nat) : Tidy (g.add c l) c := by
  refine ⟨fun b hb => ?_, h.cur⟩
  have hb' : g.count ≤ b := hb
  have := h.cur
  have hne : b ≠ c := by omega
  simp [Graph.add, hne, h.fresh b hb']

theorem adds_all {c : Nat} : ∀ (ls : List Nat) {g : Graph}, Tidy g c →
    (g.adds c ls).all.Perm (g.all ++ ls) ∧ Tidy (g.adds c ls) c ∧ (g.adds c ls).count = g.count
  | [], g, h => ⟨by simp [Graph.adds], h, rfl⟩
  | l :: ls, g, h => by
    obtain ⟨h1, h2, h3⟩ := adds_all ls (h.add l)
    exact ⟨h1.trans (by simpa using (add_all h l).append_right ls), h2, h3⟩

theorem links_same (s : Nat) : ∀ (ts : List Nat) (g : Graph), (g.links s ts).count = g.count ∧ (g.links s ts).locs = g.locs
  | [], _ => ⟨rfl, rfl⟩
  | _ :: ts, g => links_same s ts (g.link s _)

theorem multiple_same (g : Graph) (s : Nat) (ts : List Nat) :
    (g.multiple s ts).count = g.count ∧ (g.multiple s ts).locs = g.locs := by
  unfold Graph.multiple
  split
  · exact ⟨rfl, rfl⟩
  · exact links_same s ts g

theorem Tidy.same {g g' : Graph} {c : Nat} (h : Tidy g c) (e : g'.count = g.count ∧ g'.locs = g.locs) :
    Tidy g' c ∧ g'.all = g.all := by
  refine ⟨⟨?_, ?_⟩, ?_⟩
  · rw [e.1, e.2]; exact h.fresh
  · rw [e.1]; exact h.cur
  · rw [Graph.all, Graph.all, e.1, e.2]

/-- The graph grows by the locations `ls`. -/
structure Puts (g : Graph) (ls : List Nat) (st : State) : Prop where
  tidy : Tidy st.1 st.2
  count : g.count ≤ st.1.count
  all : st.1.all.Perm (g.all ++ ls)

theorem Puts.trans {g : Graph} {ls ls' : List Nat} {st st' : State} (h : Puts g ls st) (h' : Puts st.1 ls' st') :
    Puts g (ls ++ ls') st' :=
  ⟨h'.tidy, Nat.le_trans h.count h'.count, h'.all.trans (by simpa using h.all.append_right ls')⟩

theorem Puts.perm {g : Graph} {ls ls' : List Nat} {st : State} (h : Puts g ls st) (hp : ls.Perm ls') : Puts g ls' st :=
  ⟨h.tidy, h.count, h.all.trans (hp.append_left _)⟩

theorem join_puts {g g0 : Graph} {ls : List Nat} {c a b : Nat} (h : Puts g0 ls (g, c)) : Puts g0 ls (join g a b) := by
  refine ⟨(h.tidy.newAt.lm _ _).lm _ _, ?_, ?_⟩
  · show g0.count ≤ ((g.new.linkOrMerge a g.count).linkOrMerge b g.count).count
    rw [lm_cnt, lm_cnt]
    exact Nat.le_succ_of_le h.count
  · show ((g.new.linkOrMerge a g.count).linkOrMerge b g.count).all.Perm _
    rw [lm_all, lm_all, new_all h.tidy]
    exact h.all

theorem loopHead_puts {g : Graph} {c t : Nat} (h : Tidy g c) : Puts g [t] (loopHead t (g, c)) ∧
    g.count + 1 < (loopHead t (g, c)).1.count := by
  have h1 := h.newAt.add t
  have h2 := (h1.lm c g.count).new.newFrom g.count
  have e : (((g.new.add g.count t).linkOrMerge c g.count).new).count = g.count + 2 := by
    show ((g.new.add g.count t).linkOrMerge c g.count).count + 1 = _
    rw [lm_cnt]; rfl
  refine ⟨⟨?_, ?_, ?_⟩, ?_⟩
  · rw [e] at h2; exact h2
  · show g.count ≤ (Graph.newFrom _ _).count
    rw [newFrom_cnt, e]; omega
  · show (Graph.newFrom _ _).all.Perm _
    rw [newFrom_all (h1.lm c g.count).new, new_all (h1.lm c g.count), lm_all]
    have := add_all h.newAt t
    rwa [new_all h] at this
  · show g.count + 1 < (Graph.newFrom _ _).count
    rw [newFrom_cnt, e]; omega

theorem loopBack_puts {g : Graph} {ls : List Nat} {st : State} {x : Nat} (h : Puts g ls st) : Puts g ls (loopBack x st) := by
  refine ⟨(h.tidy.lm _ _).newFrom _, ?_, ?_⟩
  · show g.count ≤ (Graph.newFrom _ _).count
    rw [newFrom_cnt, lm_cnt]; exact Nat.le_succ_of_le h.count
  · show (Graph.newFrom _ _).all.Perm _
    rw [newFrom_all (h.tidy.lm _ _), lm_all]
    exact h.all

theorem then_puts {g : Graph} {ls : List Nat} {st : State} {x y : Nat} (h : Puts g ls st) (hx : x < st.1.count) :
    Puts g ls (st.1.linkOrMerge y x, x) :=
  ⟨(h.tidy.at hx).lm _ _, by show g.count ≤ (Graph.linkOrMerge _ _ _).count; rw [lm_cnt]; exact h.count,
    by show (Graph.linkOrMerge _ _ _).all.Perm _; rw [lm_all]; exact h.all⟩

theorem Puts.lmAt {g : Graph} {ls : List Nat} {st : State} {d : Nat} (h : Puts g ls st) (hd : d < st.1.count) (y x : Nat) :
    Puts g ls (st.1.linkOrMerge y x, d) :=
  ⟨(h.tidy.at hd).lm _ _, by show g.count ≤ (Graph.linkOrMerge _ _ _).count; rw [lm_cnt]; exact h.count,
    by show (Graph.linkOrMerge _ _ _).all.Perm _; rw [lm_all]; exact h.all⟩

theorem tryEnd_puts {g : Graph} {ls : List Nat} {st : State} {k : Nat} (h : Puts g ls st) (hk : k + 2 < st.1.count)
    (after : List Nat) : Puts g ls (tryEnd k st after) := by
  have h1 := h.tidy.lm k st.2
  obtain ⟨h2, h3⟩ := h1.same (multiple_same _ st.2 after)
  have h4 := h2.lm (k + 1) (k + 2)
  have e : (tryEnd k st after).1.count = st.1.count := by
    show (Graph.linkOrMerge _ _ _).count = _
    rw [lm_cnt, (multiple_same _ st.2 after).1, lm_cnt]
  refine ⟨h4.at ?_, ?_, ?_⟩
  · have := e; exact e ▸ hk
  · rw [e]; exact h.count
  · show (Graph.linkOrMerge _ _ _).all.Perm _
    rw [lm_all, h3, lm_all]
    exact h.all

theorem tryBlock_puts {g : Graph} {c : Nat} (h : Tidy g c) : Puts g [] (tryBlock (g, c)) := by
  unfold tryBlock
  split
  · exact ⟨h, Nat.le_refl _, by simp⟩
  · exact ⟨h.newFrom c, by show g.count ≤ (g.newFrom c).count; rw [newFrom_cnt]; omega,
      by show (Graph.newFrom _ _).all.Perm _; rw [newFrom_all h]; simp⟩

theorem addName_puts {g : Graph} {c : Nat} (name : Option Nat) (h : Tidy g c) : Puts g name.toList (addName name g c, c) := by
  cases name with
  | none => exact ⟨h, Nat.le_refl _, by simp [addName]⟩
  | some l => exact ⟨h.add l, Nat.le_refl _, add_all h l⟩

theorem new_puts {g : Graph} {c : Nat} (h : Tidy g c) : Puts g [] (g.new, g.count) :=
  ⟨h.newAt, Nat.le_succ _, by show g.new.all.Perm _; rw [new_all h]; simp⟩

theorem jumped_puts {g : Graph} {c : Nat} (bd : List Exits) (j : Jump) (l : Nat) (h : Tidy g c) :
    Puts g [l] (jumped bd j l g c, c) := by
  unfold jumped
  split
  · exact ⟨⟨(h.add l).fresh, h.cur⟩, Nat.le_refl _, add_all h l⟩
  · exact ⟨h.add l, Nat.le_refl _, add_all h l⟩

theorem newFrom_puts {g : Graph} {c : Nat} (h : Tidy g c) (p : Nat) : Puts g [] (g.newFrom p, g.count) :=
  ⟨h.newFrom p, by show g.count ≤ (Graph.newFrom _ _).count; rw [newFrom_cnt]; omega,
    by show (Graph.newFrom _ _).all.Perm _; rw [newFrom_all h]; simp⟩

theorem leaf_puts {g : Graph} {c : Nat} (h : Tidy g c) (l : Nat) : Puts g [l] (g.add c l, c) :=
  ⟨h.add l, Nat.le_refl _, add_all h l⟩

theorem nil_puts {g : Graph} {c : Nat} (h : Tidy g c) : Puts g [] (g, c) := ⟨h, Nat.le_refl _, by simp⟩

theorem Body.isNil_eq {b : Body} (h : b.isNil = true) : b = .nil := by
  cases b with
  | nil => rfl
  | cons _ _ => cases h

mutual
theorem visit_puts : ∀ (s : Stmt) (bd : List Exits) {g : Graph} {c : Nat}, s.noFinally = true → Tidy g c →
    Puts g s.locations (visit s bd (g, c))
  | .simple l, bd, g, c, _, h => by
    simp only [visit, Stmt.locations]
    exact leaf_puts h l
  | .jump j l, bd, g, c, _, h => by
    simp only [visit, Stmt.locations]
    have h1 := jumped_puts bd j l h
    simpa using h1.trans (new_puts h1.tidy)
  | .cond t b e, bd, g, c, hf, h => by
    simp only [Stmt.noFinally, Bool.and_eq_true] at hf
    have h1 := (leaf_puts h t).trans (newFrom_puts (h.add t) c)
    have h2 := h1.trans (body_puts b bd hf.1 h1.tidy)
    cases e with
    | nil =>
      simp only [visit, Stmt.locations, Body.locations]
      exact (join_puts h2).perm (by simp)
    | cons s rest =>
      simp only [Body.noFinally, Bool.and_eq_true] at hf
      simp only [visit, Stmt.locations, Body.locations]
      have h3 := h2.trans (newFrom_puts h2.tidy c)
      have h4 := h3.trans (visit_puts s bd hf.2.1 h3.tidy)
      have h5 := h4.trans (body_puts rest bd hf.2.2 h4.tidy)
      exact (join_puts h5).perm (by simp)
  | .loop t b e, bd, g, c, hf, h => by
    simp only [Stmt.noFinally, Bool.and_eq_true] at hf
    simp only [visit, Stmt.locations]
    obtain ⟨h1, hc⟩ := loopHead_puts (t := t) h
    have h2 := body_puts b (loopExits g :: bd) hf.1 h1.tidy
    have h3 := loopBack_puts (x := g.count) h2
    have h4 := body_puts e bd hf.2 h3.tidy
    exact (then_puts (h1.trans (h3.trans h4))
      (Nat.lt_of_lt_of_le hc (Nat.le_trans h3.count h4.count))).perm (by simp)
  | .each i t b e, bd, g, c, hf, h => by
    simp only [Stmt.noFinally, Bool.and_eq_true] at hf
    simp only [visit, Stmt.locations]
    have h0 := leaf_puts h i
    obtain ⟨h1, hc⟩ := loopHead_puts (t := t) h0.tidy
    have h2 := body_puts b (loopExits g :: bd) hf.1 h1.tidy
    have h3 := loopBack_puts (x := g.count) h2
    have h4 := body_puts e bd hf.2 h3.tidy
    exact (then_puts (h0.trans (h1.trans (h3.trans h4)))
      (Nat.lt_of_lt_of_le hc (Nat.le_trans h3.count h4.count))).perm (by simp)
  | .enter i is b, bd, g, c, hf, h => by
    simp only [Stmt.noFinally] at hf
    simp only [visit, Stmt.locations]
    have h0 := leaf_puts h i
    obtain ⟨h1, h2, h3⟩ := adds_all is h0.tidy
    have h4 : Puts (g.add c i) is ((g.add c i).adds c is, c) := ⟨h2, by rw [h3]; exact Nat.le_refl _, h1⟩
    have h5 := body_puts b bd hf h2
    exact (h0.trans (h4.trans h5)).perm (by simp)
  | .try_ f r hs e l, bd, g, c, hf, h => by
    simp only [Stmt.noFinally, Bool.and_eq_true] at hf
    obtain ⟨⟨⟨⟨hf1, hf2⟩, hf3⟩, hf4⟩, hf5⟩ := hf
    have hl := Body.isNil_eq hf5
    subst hl
    have h0 := tryBlock_puts h
    generalize ht : tryBlock (g, c) = st0 at h0
    obtain ⟨g0, c0⟩ := st0
    have hnew : Puts g0 [] (g0.new3, c0) := ⟨h0.tidy.new.new.new, by show g0.count ≤ g0.count + 1 + 1 + 1; omega, by
      show g0.new3.all.Perm _
      rw [show g0.new3.all = g0.all from (new_all h0.tidy.new.new).trans ((new_all h0.tidy.new).trans (new_all h0.tidy))]
      simp⟩
    have h1 := handlers_puts hs g0.count ([(.raise none, g0.count + 2)] :: bd) hf3 hnew.tidy
    cases e with
    | nil =>
      simp only [visit, Stmt.locations, Body.locations, ht]
      generalize visitHandlers hs g0.count ([(.raise none, g0.count + 2)] :: bd) g0.new3 = r1 at h1
      obtain ⟨g1, hs1, bd1⟩ := r1
      have h2 := visit_puts f bd1 hf1 h1.tidy
      have h3 := h2.trans (body_puts r bd1 hf2 h2.tidy)
      refine (tryEnd_puts (h0.trans (hnew.trans (h1.trans h3))) ?_ _).perm ?_
      · have e1 : g0.count + 1 + 1 + 1 ≤ g1.count := h1.count
        exact Nat.lt_of_lt_of_le (by show g0.count + 2 < g1.count; omega) h3.count
      · have : (hs.locations ++ (f.locations ++ r.locations)).Perm ((f.locations ++ r.locations) ++ hs.locations) :=
          List.perm_append_comm
        simpa using this
    | cons s rest =>
      simp only [Body.noFinally, Bool.and_eq_true] at hf4
      simp only [visit, Stmt.locations, Body.locations, ht]
      generalize visitHandlers hs g0.count ([(.raise none, g0.count + 2)] :: bd) g0.new3 = r1 at h1
      obtain ⟨g1, hs1, bd1⟩ := r1
      have h2 := new_puts h1.tidy
      have h3 := h2.trans (visit_puts s bd1 hf4.1 h2.tidy)
      have h4 := h3.trans (body_puts rest bd1 hf4.2 h3.tidy)
      have h5 := h4.lmAt (Nat.lt_of_lt_of_le h1.tidy.cur h4.count)
        (visitBody rest bd1 (visit s bd1 (g1.new, g1.count))).2 (g0.count + 1)
      have h6 := visit_puts f bd1 hf1 h5.tidy
      have h7 := h6.trans (body_puts r bd1 hf2 h6.tidy)
      refine (tryEnd_puts (h0.trans (hnew.trans (h1.trans (h5.trans h7)))) ?_ _).perm ?_
      · have e1 : g0.count + 1 + 1 + 1 ≤ g1.count := h1.count
        exact Nat.lt_of_lt_of_le (by show g0.count + 2 < g1.count; omega) (Nat.le_trans h5.count h7.count)
      · have : ((hs.locations ++ (s.locations ++ rest.locations)) ++ (f.locations ++ r.locations)).Perm
            ((f.locations ++ r.locations) ++ (hs.locations ++ (s.locations ++ rest.locations))) :=
          List.perm_append_comm
        simpa using this
theorem body_puts : ∀ (p : Body) (bd : List Exits) {g : Graph} {c : Nat}, p.noFinally = true → Tidy g c →
    Puts g p.locations (visitBody p bd (g, c))
  | .nil, bd, g, c, _, h => by
    simp only [visitBody, Body.locations]
    exact nil_puts h
  | .cons s rest, bd, g, c, hf, h => by
    simp only [Body.noFinally, Bool.and_eq_true] at hf
    simp only [visitBody, Body.locations]
    have h1 := visit_puts s bd hf.1 h
    exact h1.trans (body_puts rest bd hf.2 h1.tidy)
theorem handlers_puts : ∀ (hs : Handlers) (k : Nat) (bd : List Exits) {g : Graph} {c : Nat}, hs.noFinally = true →
    Tidy g c → Puts g hs.locations ((visitHandlers hs k bd g).1, c)
  | .nil, k, bd, g, c, _, h => by
    simp only [visitHandlers, Handlers.locations]
    exact nil_puts h
  | .cons ex name b rest, k, bd, g, c, hf, h => by
    simp only [Handlers.noFinally, Bool.and_eq_true] at hf
    simp only [visitHandlers, Handlers.locations]
    have h1 := handlers_puts rest k bd hf.2 h
    generalize visitHandlers rest k bd g = r1 at h1
    obtain ⟨g1, hs1, bd1⟩ := r1
    have h2 := new_puts h1.tidy
    have h3 := h2.trans (addName_puts name h2.tidy)
    have h4 := h3.trans (body_puts b (clauseExits ex g1.count ++ bd1) hf.1 h3.tidy)
    refine ((h1.trans h4).perm ?_).lmAt (Nat.lt_of_lt_of_le h1.tidy.cur h4.count) _ _
    have : (rest.locations ++ (name.toList ++ b.locations)).Perm ((name.toList ++ b.locations) ++ rest.locations) :=
      List.perm_append_comm
    simpa using this
end

end Verif.Flow

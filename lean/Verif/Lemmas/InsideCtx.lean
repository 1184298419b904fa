import Verif.Model.Occurs
import Verif.Lemmas.InsideCover

/-! Lemmas for C90: the graph in which statements are visited, and what becomes of it later. -/

namespace Verif.Inside

open Verif.Flow

/-- Nothing is added later to the blocks of what was visited from `(g, c)` to `st`, and none of them is the current one. -/
structure Later (g : Graph) (c : Nat) (st st' : Flow.State) : Prop where
  count : st.1.count ≤ st'.1.count
  same : ∀ x, (x = c ∨ g.count ≤ x) → x < st.1.count → st'.1.locs x = st.1.locs x ∧ x ≠ st'.2

/-- A suite is visited after some other locations, and left for good. -/
def Sub (g : Graph) (c : Nat) (inner : Body) (st : Flow.State) : Prop :=
  ∃ bd gi ci ls, Lays g c ls (gi, ci) ∧ (∀ l ∈ ls, l ∉ inner.locations) ∧ Later gi ci (visitBody inner bd (gi, ci)) st

theorem cond_sub {b e inner : Body} (hi : inner ∈ [b, e]) (hne : inner.isNil = false) (bd : List Exits) {g : Graph} {c t : Nat} (h : Tidy g c)
    (hn : (t :: (b.locations ++ e.locations)).Nodup) : Sub g c inner (condRest b e bd (g.add c t, c)) := by
  have h0 := Lays.leaf h t
  have h1 := newFrom_start h0 c
  have hc := h.cur
  have hgc : (g.add c t).count = g.count := rfl
  rw [List.nodup_cons, List.nodup_append] at hn
  have hb := body_lay b bd h1.tidy
  have h2 := h1.trans h.cur hb
  have hcnt : g.count + 1 ≤ (visitBody b bd ((g.add c t).newFrom c, g.count)).1.count := by
    have := hb.count; rw [newFrom_cnt] at this; exact this
  cases e with
  | nil =>
    simp only [List.mem_cons, List.not_mem_nil, or_false] at hi
    rcases hi with rfl | rfl
    swap
    · cases hne
    refine ⟨bd, _, _, [t], h1, fun l hl hm => hn.1 ?_, ?_⟩
    · rw [List.mem_singleton.1 hl] at hm; exact List.mem_append_left _ hm
    simp only [condRest]
    obtain ⟨k1, k2, k3⟩ := join_lay h2 (visitBody inner bd ((g.add c t).newFrom c, g.count)).2 c
    refine ⟨?_, fun x hx hlt => ?_⟩
    · show _ ≤ (join _ _ _).1.count
      exact Nat.le_of_lt (by rw [← k2]; exact k1.tidy.cur)
    · refine ⟨congrFun k3 x, ?_⟩
      exact fun e => absurd (e.trans k2) (Nat.ne_of_lt hlt)
  | cons s rest =>
    simp only [condRest]
    have h3 := newFrom_start h2 c
    have he := body_lay (.cons s rest) bd h3.tidy
    have h4 := h3.trans h.cur he
    obtain ⟨k1, k2, k3⟩ := join_lay h4 (visitBody b bd ((g.add c t).newFrom c, g.count)).2
      (visitBody (.cons s rest) bd ((visitBody b bd ((g.add c t).newFrom c, g.count)).1.newFrom c, (visitBody b bd ((g.add c t).newFrom c, g.count)).1.count)).2
    have hlt' := k1.tidy.cur
    simp only [List.mem_cons, List.not_mem_nil, or_false] at hi
    have hecnt := he.count
    rw [newFrom_cnt] at hecnt
    rcases hi with rfl | rfl
    · refine ⟨bd, _, _, [t], h1, fun l hl hm => hn.1 ?_, ⟨?_, fun x hx hlt => ⟨?_, ?_⟩⟩⟩
      · rw [List.mem_singleton.1 hl] at hm; exact List.mem_append_left _ hm
      · exact Nat.le_of_lt (Nat.lt_of_le_of_lt (Nat.le_of_succ_le hecnt) (by rw [← k2]; exact hlt'))
      · refine (congrFun k3 x).trans ?_
        have := he.frame x (by rw [newFrom_cnt]; exact Nat.lt_succ_of_lt hlt) (Nat.ne_of_lt hlt)
        rw [newFrom_lay] at this
        exact this
      · exact fun e => absurd (e.trans k2) (Nat.ne_of_lt (Nat.lt_of_lt_of_le hlt (Nat.le_of_succ_le hecnt)))
    · refine ⟨bd, _, _, _, h3, fun l hl hm => ?_, ⟨?_, fun x hx hlt => ⟨congrFun k3 x, ?_⟩⟩⟩
      · rcases List.mem_append.1 hl with hl | hl
        · rw [List.mem_singleton.1 hl] at hm; exact hn.1 (List.mem_append_right _ hm)
        · exact hn.2.2.2 l hl l hm rfl
      · exact Nat.le_of_lt (by rw [← k2]; exact hlt')
      · exact fun e => absurd (e.trans k2) (Nat.ne_of_lt hlt)

theorem loop_sub {b e inner : Body} (hi : inner ∈ [b, e]) (bd : List Exits) (k : Nat) (ex : Exits)
    {g : Graph} {c : Nat} {ls : List Nat} {st : Flow.State} (hc : c < g.count)
    (h : Lays g c ls st) (h1 : st.2 = k + 2) (h2 : st.1.count = k + 3)
    (hls : ∀ l ∈ ls, l ∉ b.locations ∧ l ∉ e.locations) (hn : (b.locations ++ e.locations).Nodup) :
    Sub g c inner (loopRest b e bd k ex st) := by
  have k1 := body_lay b (ex :: bd) h.tidy
  obtain ⟨k2, k3, k4, k5⟩ := loopBack_lay k k1
  have k6 := body_lay e bd k2.tidy
  rw [List.nodup_append] at hn
  have hcnt := k1.count
  have hcnt2 := k6.count
  simp only [loopRest]
  simp only [List.mem_cons, List.not_mem_nil, or_false] at hi
  rcases hi with rfl | rfl
  · refine ⟨ex :: bd, st.1, st.2, ls, h, fun l hl => (hls l hl).1, ⟨?_, fun x hx hlt => ⟨?_, ?_⟩⟩⟩
    · rw [lm_cnt]; exact Nat.le_trans k5 hcnt2
    · rw [lm_locs]
      have h3 := k6.frame x (Nat.lt_of_lt_of_le hlt k5) (Nat.ne_of_lt (Nat.lt_of_lt_of_le hlt k3))
      exact h3.trans (congrFun k4 x)
    · show x ≠ k + 1
      omega
  · have k3' : st.1.count ≤ (loopBack k (visitBody b (ex :: bd) st)).2 := Nat.le_trans hcnt k3
    have k5' : st.1.count ≤ (loopBack k (visitBody b (ex :: bd) st)).1.count := Nat.le_trans hcnt k5
    have k2 : Lays st.1 st.2 b.locations (loopBack k (visitBody b (ex :: bd) st)) := k2
    generalize loopBack k (visitBody b (ex :: bd) st) = stb at k2 k3' k5'
    refine ⟨bd, stb.1, stb.2, _, h.trans hc k2, fun l hl => ?_, ⟨?_, fun x hx hlt => ⟨?_, ?_⟩⟩⟩
    · rcases List.mem_append.1 hl with hl | hl
      · exact (hls l hl).2
      · exact fun hm => hn.2.2 l hl l hm rfl
    · rw [lm_cnt]; exact Nat.le_refl _
    · rw [lm_locs]
    · show x ≠ k + 1
      omega

/-- The clauses of a `try`. -/
theorem handlers_sub : ∀ (hs : Handlers) (k : Nat) (bd : List Exits) {g : Graph} {inner : Body}, inner ∈ clauses hs →
    hs.locations.Nodup → (∀ b, g.count ≤ b → g.locs b = []) →
    ∃ bd' gi ci ls, HLays g ls gi ∧ ci < gi.count ∧ g.count ≤ ci ∧ (∀ l ∈ ls, l ∈ hs.locations) ∧ (∀ l ∈ ls, l ∉ inner.locations) ∧
      (visitBody inner bd' (gi, ci)).1.count ≤ (visitHandlers hs k bd g).1.count ∧
      ∀ x, (x = ci ∨ gi.count ≤ x) → x < (visitBody inner bd' (gi, ci)).1.count →
        (visitHandlers hs k bd g).1.locs x = (visitBody inner bd' (gi, ci)).1.locs x
  | .nil, _, _, _, _, hi, _, _ => nomatch hi
  | .cons ex name b rest, k, bd, g, inner, hi, hn, h => by
    simp only [Handlers.locations] at hn
    rw [List.nodup_append, List.nodup_append] at hn
    simp only [visitHandlers]
    have h1 := handlers_lay rest k bd h
    have ih := fun hi => handlers_sub rest k bd (inner := inner) hi hn.2.1.2.1 h
    generalize visitHandlers rest k bd g = r1 at h1 ih
    obtain ⟨g1, hs1, bd1⟩ := r1
    have h1 : HLays g rest.locations g1 := h1
    have hcnt1 : g.count ≤ g1.count := h1.count
    have ht : Tidy g1.new g1.count := ⟨fun b hb => h1.fresh b (by have : g1.count + 1 ≤ b := hb; omega), Nat.lt_succ_self _⟩
    have h2 := addName_lay name ht
    have h4 := body_lay b (clauseExits ex g1.count ++ bd1) h2.tidy
    have h3 := h2.trans ht.cur h4
    have hac : g1.count + 1 ≤ (addName name g1.new g1.count).count := h2.count
    have hcnt : g1.count + 1 ≤ (visitBody b (clauseExits ex g1.count ++ bd1) (addName name g1.new g1.count, g1.count)).1.count := h3.count
    rcases List.mem_cons.1 hi with rfl | hi
    · refine ⟨clauseExits ex g1.count ++ bd1, addName name g1.new g1.count, g1.count, name.toList ++ rest.locations, ⟨?_, ?_, ?_, ?_⟩, h2.tidy.cur, hcnt1, ?_, ?_, ?_, ?_⟩
      · omega
      · exact h2.tidy.fresh
      · intro x hx
        have : (addName name g1.new g1.count).locs x = g1.new.locs x := h2.frame x (by show x < g1.count + 1; omega) (by omega)
        rw [this]
        exact h1.frame x hx
      · intro x hx l hl
        rcases h2.sub (x := x) hl with hl | hl
        · exact List.mem_append_right _ (h1.new x hx l hl)
        · exact List.mem_append_left _ hl
      · intro l hl
        simp only [Handlers.locations, List.mem_append] at hl ⊢
        rcases hl with hl | hl <;> simp [hl]
      · intro l hl hm
        rcases List.mem_append.1 hl with hl | hl
        · exact hn.2.2 l hl l (List.mem_append_left _ hm) rfl
        · exact hn.2.1.2.2 l hm l hl rfl
      · rw [lm_cnt]; exact Nat.le_refl _
      · intro x _ _
        rw [lm_locs]
    · obtain ⟨bd', gi, ci, ls, i1, i2, i3, i4, i5, i6, i7⟩ := ih hi
      have i6 : (visitBody inner bd' (gi, ci)).1.count ≤ g1.count := i6
      refine ⟨bd', gi, ci, ls, i1, i2, i3, ?_, i5, ?_, ?_⟩
      · intro l hl
        have := i4 l hl
        simp [Handlers.locations, this]
      · rw [lm_cnt]
        show _ ≤ (visitBody b (clauseExits ex g1.count ++ bd1) (addName name g1.new g1.count, g1.count)).1.count
        omega
      · intro x hx hlt
        rw [lm_locs, ← i7 x hx hlt]
        exact h3.frame x (by show x < g1.count + 1; omega) (by omega)

/-- The body of a `try`, its `else`, and its clauses. -/
theorem try_sub {f : Stmt} {r : Body} {hs : Handlers} {e l inner : Body} (hi : inner ∈ suites (.try_ f r hs e l)) (hne : inner.isNil = false)
    (bd : List Exits) {g : Graph} {c : Nat} (h : Tidy g c) (hn : (Stmt.try_ f r hs e l).locations.Nodup) :
    Sub g c inner (visit (.try_ f r hs e l) bd (g, c)) := by
  obtain ⟨h0, hl0, he0, hcur⟩ := tryBlock_lay h
  generalize ht : tryBlock (g, c) = st0 at h0 hl0 he0 hcur
  obtain ⟨g0, c0⟩ := st0
  have hc := h.cur
  have hc0 : c0 < g0.count := h0.tidy.cur
  have hcnt0 : g.count ≤ g0.count := h0.count
  have hfresh : ∀ b, g0.new3.count ≤ b → g0.new3.locs b = [] :=
    fun b hb => by rw [new3_locs]; exact h0.tidy.fresh b (by rw [new3_count] at hb; show g0.count ≤ b; omega)
  have h1 := handlers_lay hs g0.count ([(.raise none, g0.count + 2)] :: bd) (g := g0.new3) hfresh
  simp only [Stmt.locations] at hn
  have hnh : hs.locations.Nodup := by
    rw [List.nodup_append, List.nodup_append, List.nodup_append] at hn
    exact hn.2.1.2.1.1
  have hsub := fun hi => handlers_sub hs g0.count ([(.raise none, g0.count + 2)] :: bd) (g := g0.new3) (inner := inner) hi hnh hfresh
  -- from the beginning of the `try` to a graph in which only its clauses and its `else` were visited
  have start : ∀ {gi : Graph} {ci : Nat} {ls : List Nat}, HLays g0.new3 ls gi → ci < gi.count → (ci = c0 ∨ g0.count ≤ ci) →
      Lays g c ls (gi, ci) := by
    intro gi ci ls hh h2 h3
    have hcc := hh.count
    rw [new3_count] at hcc
    refine ((h0.trans hc (((Lays.nil h0.tidy []).move (g2 := g0.new3) (c2 := c0) rfl (by rw [new3_count]; show g0.count ≤ _; omega)
      (by rw [new3_count]; omega) (.inl rfl)).trans hc0 (hh.lays (c := c0) (by rw [new3_count]; omega)))).mono (by simp)).move (g2 := gi) (c2 := ci) rfl
        (Nat.le_refl _) h2 ?_
    rcases h3 with e | e
    · rw [e]; exact h0.cur
    · exact .inr (by omega)
  simp only [suites, List.mem_cons] at hi
  have frame : ∀ (bd1 : List Exits) {g1 : Graph} {ls : List Nat}, HLays g0.new3 ls g1 → ∀ x, x < g1.count → x ≠ c0 →
      (visitBody r bd1 (visit f bd1 (g1, c0))).1.locs x = g1.locs x ∧ g1.count ≤ (visitBody r bd1 (visit f bd1 (g1, c0))).1.count := by
    intro bd1 g1 ls hh x hx hxc
    have hcnt := hh.count
    rw [new3_count] at hcnt
    have hf := (visit_put f bd1 (g := g1) (c := c0) ⟨hh.fresh, by omega⟩).lays
    have hr := body_lay r bd1 hf.tidy
    have ha := hf.count
    have hb := hr.count
    refine ⟨?_, Nat.le_trans ha hb⟩
    have := hr.frame x (by omega) (by rcases hf.cur with e | e <;> omega)
    exact this.trans (hf.frame x hx hxc)
  -- the body
  have body : ∀ (bd1 : List Exits) {g1 : Graph} {ls : List Nat} (after : List Nat), HLays g0.new3 ls g1 →
      (∀ l ∈ ls, l ∉ f.locations ++ r.locations) → Sub g c (.cons f r) (tryEnd g0.count (visitBody r bd1 (visit f bd1 (g1, c0))) after) := by
    intro bd1 g1 ls after hh hls
    have hcnt := hh.count
    rw [new3_count] at hcnt
    obtain ⟨e1, e2, e3⟩ := tryEnd_lay g0.count (visitBody r bd1 (visit f bd1 (g1, c0))) after
    refine ⟨bd1, g1, c0, ls, start hh (by omega) (.inl rfl), hls, ⟨?_, fun x hx hlt => ⟨?_, ?_⟩⟩⟩
    · rw [e2]; simp only [visitBody]; exact Nat.le_refl _
    · rw [e1]; simp only [visitBody]
    · rw [e3]; omega
  -- a clause
  have clause : ∀ (bd1 : List Exits) {g1 g2 : Graph} {ls : List Nat} (after : List Nat), HLays g0.new3 ls g2 →
      g1.count ≤ g2.count → (∀ x, x < g1.count → g2.locs x = g1.locs x) → inner ∈ clauses hs →
      (visitHandlers hs g0.count ([(.raise none, g0.count + 2)] :: bd) g0.new3).1 = g1 →
      Sub g c inner (tryEnd g0.count (visitBody r bd1 (visit f bd1 (g2, c0))) after) := by
    intro bd1 g1 g2 ls after hh hle hs12 hi he
    obtain ⟨bd', gi, ci, ls', i1, i2, i3, i4, i5, i6, i7⟩ := hsub hi
    rw [he] at i6 i7
    rw [new3_count] at i3
    have icnt := i1.count
    rw [new3_count] at icnt
    obtain ⟨e1, e2, e3⟩ := tryEnd_lay g0.count (visitBody r bd1 (visit f bd1 (g2, c0))) after
    have hcg := hh.count
    rw [new3_count] at hcg
    refine ⟨bd', gi, ci, ls', start i1 i2 (.inr (by omega)), i5, ⟨?_, fun x hx hlt => ⟨?_, ?_⟩⟩⟩
    · rw [e2]
      exact Nat.le_trans i6 (Nat.le_trans hle (frame bd1 hh (g0.count) (by omega) (by omega)).2)
    · rw [e1, (frame bd1 hh x (by omega) (by omega)).1, hs12 x (by omega), i7 x hx hlt]
    · rw [e3]; omega
  rw [List.nodup_append, List.nodup_append, List.nodup_append, List.nodup_append] at hn
  have hdh : ∀ l ∈ hs.locations, l ∉ f.locations ++ r.locations := by
    intro l hl hm
    rcases List.mem_append.1 hm with hm | hm
    · exact hn.2.2 l hm l (by simp [hl]) rfl
    · exact hn.2.1.2.2 l hm l (by simp [hl]) rfl
  have hde : ∀ l ∈ e.locations, l ∉ f.locations ++ r.locations := by
    intro l hl hm
    rcases List.mem_append.1 hm with hm | hm
    · exact hn.2.2 l hm l (by simp [hl]) rfl
    · exact hn.2.1.2.2 l hm l (by simp [hl]) rfl
  have hhe : ∀ l ∈ hs.locations, l ∉ e.locations := by
    intro l hl hm
    exact hn.2.1.2.1.2.2 l hl l (by simp [hm]) rfl
  cases e with
  | nil =>
    simp only [visit, ht]
    generalize hvh : visitHandlers hs g0.count ([(.raise none, g0.count + 2)] :: bd) g0.new3 = r1 at h1
    obtain ⟨g1, hs1, bd1⟩ := r1
    have h1 : HLays g0.new3 hs.locations g1 := h1
    rcases hi with rfl | rfl | hi
    · exact body bd1 _ h1 hdh
    · cases hne
    · exact clause bd1 _ h1 (Nat.le_refl _) (fun _ _ => rfl) hi (by rw [hvh])
  | cons s os =>
    simp only [visit, ht]
    generalize hvh : visitHandlers hs g0.count ([(.raise none, g0.count + 2)] :: bd) g0.new3 = r1 at h1
    obtain ⟨g1, hs1, bd1⟩ := r1
    have h1 : HLays g0.new3 hs.locations g1 := h1
    have hcnt : g0.count + 3 ≤ g1.count := h1.count
    have hnt : Tidy g1.new g1.count := ⟨fun b hb => h1.fresh b (by have : g1.count + 1 ≤ b := hb; omega), Nat.lt_succ_self _⟩
    have ho := body_lay (.cons s os) bd1 hnt
    have hob : visitBody (.cons s os) bd1 (g1.new, g1.count) = visitBody os bd1 (visit s bd1 (g1.new, g1.count)) := by
      simp only [visitBody]
    rw [hob] at ho
    generalize visitBody os bd1 (visit s bd1 (g1.new, g1.count)) = st2 at ho hob
    have hocnt : g1.count + 1 ≤ st2.1.count := ho.count
    have hfr : ∀ x, x < g1.count → (st2.1.linkOrMerge st2.2 (g0.count + 1)).locs x = g1.locs x := by
      intro x hx
      rw [lm_locs, ho.frame x (by show x < g1.count + 1; omega) (by omega)]
      rfl
    have h2 : HLays g0.new3 (hs.locations ++ (Body.cons s os).locations) (st2.1.linkOrMerge st2.2 (g0.count + 1)) := by
      refine ⟨?_, ?_, ?_, ?_⟩
      · rw [lm_cnt, new3_count]; omega
      · rw [lm_cnt, lm_locs]; exact ho.tidy.fresh
      · intro x hx
        rw [new3_count] at hx
        rw [hfr x (by omega)]
        exact h1.frame x (by rw [new3_count]; exact hx)
      · intro x hx l hl
        rw [lm_locs] at hl
        rcases ho.sub (x := x) hl with hl | hl
        · exact List.mem_append_left _ (h1.new x hx l hl)
        · exact List.mem_append_right _ hl
    rcases hi with rfl | rfl | hi
    · refine body bd1 _ h2 fun l hl => ?_
      rcases List.mem_append.1 hl with hl | hl
      · exact hdh l hl
      · exact hde l hl
    · obtain ⟨e1, e2, e3⟩ := tryEnd_lay g0.count (visitBody r bd1 (visit f bd1 (st2.1.linkOrMerge st2.2 (g0.count + 1), c0))) (hs1 ++ [g1.count])
      have hn1 : HLays g0.new3 hs.locations g1.new := ⟨by show _ ≤ g1.count + 1; rw [new3_count]; omega, hnt.fresh, h1.frame, h1.new⟩
      refine ⟨bd1, g1.new, g1.count, hs.locations, start hn1 hnt.cur (.inr (by omega)), hhe, ⟨?_, fun x hx hlt => ⟨?_, ?_⟩⟩⟩
      · rw [e2, hob]
        have := (frame bd1 h2 g0.count (by rw [lm_cnt]; omega) (by omega)).2
        rw [lm_cnt] at this
        exact this
      · have hx' : x = g1.count ∨ g1.count + 1 ≤ x := hx
        rw [hob] at hlt ⊢
        rw [e1, (frame bd1 h2 x (by rw [lm_cnt]; exact hlt) (by omega)).1, lm_locs]
      · have hx' : x = g1.count ∨ g1.count + 1 ≤ x := hx
        rw [e3]; omega
    · refine clause bd1 _ h2 ?_ hfr hi (by rw [hvh])
      rw [lm_cnt]; omega

theorem suite_sub {s : Stmt} {inner : Body} (hi : inner ∈ suites s) (hne : inner.isNil = false) (bd : List Exits) {g : Graph} {c : Nat}
    (h : Tidy g c) (hn : s.locations.Nodup) : Sub g c inner (visit s bd (g, c)) := by
  cases s with
  | simple l => cases hi
  | jump j l => cases hi
  | cond t b e =>
    have hv : visit (.cond t b e) bd (g, c) = condRest b e bd (g.add c t, c) := by
      cases e with
      | nil => simp only [visit, condRest]; rfl
      | cons s rest => simp only [visit, condRest, visitBody]; rfl
    rw [hv]
    exact cond_sub hi hne bd h hn
  | loop t b e =>
    obtain ⟨h1, h2, h3, h4⟩ := loopHead_lay h t
    have hv : visit (.loop t b e) bd (g, c) = loopRest b e bd g.count (loopExits g) (loopHead t (g, c)) := by
      simp only [visit, loopRest]
    rw [hv]
    simp only [Stmt.locations] at hn
    rw [List.nodup_cons] at hn
    refine loop_sub hi bd g.count (loopExits g) h.cur h1 h3 h2 ?_ hn.2
    intro l hl
    rw [List.mem_singleton.1 hl]
    exact ⟨fun hm => hn.1 (List.mem_append_left _ hm), fun hm => hn.1 (List.mem_append_right _ hm)⟩
  | each i t b e =>
    obtain ⟨h1, h2, h3, h4⟩ := loopHead_lay (h.add i) t
    have hgc : (g.add c i).count = g.count := rfl
    rw [hgc] at h2 h3
    have hv : visit (.each i t b e) bd (g, c) = loopRest b e bd g.count (loopExits g) (loopHead t (g.add c i, c)) := by
      simp only [visit, loopRest]
    rw [hv]
    simp only [Stmt.locations] at hn
    rw [List.nodup_cons, List.nodup_cons] at hn
    refine loop_sub hi bd g.count (loopExits g) h.cur ((Lays.leaf h i).trans h.cur h1) h3 h2 ?_ hn.2.2
    intro l hl
    simp only [List.mem_append, List.mem_singleton] at hl
    rcases hl with rfl | rfl
    · exact ⟨fun hm => hn.1 (by simp [hm]), fun hm => hn.1 (by simp [hm])⟩
    · exact ⟨fun hm => hn.2.1 (by simp [hm]), fun hm => hn.2.1 (by simp [hm])⟩
  | enter i is b => cases hi
  | try_ f r hs e l => exact try_sub hi hne bd h hn

theorem clause_sublist : ∀ {hs : Handlers} {inner : Body}, inner ∈ clauses hs → inner.locations.Sublist hs.locations
  | .nil, _, h => nomatch h
  | .cons ex name b rest, inner, h => by
    simp only [Handlers.locations]
    rcases List.mem_cons.1 h with rfl | h
    · exact List.Sublist.trans (List.sublist_append_left _ _) (List.sublist_append_right _ _)
    · exact ((clause_sublist h).trans (List.sublist_append_right _ _)).trans (List.sublist_append_right _ _)

theorem suite_sublist {s : Stmt} {inner : Body} (hi : inner ∈ suites s) : inner.locations.Sublist s.locations := by
  cases s with
  | simple l => cases hi
  | jump j l => cases hi
  | cond t b e =>
    simp only [suites, List.mem_cons, List.not_mem_nil, or_false] at hi
    rcases hi with rfl | rfl
    · exact (List.sublist_append_left _ _).cons _
    · exact (List.sublist_append_right _ _).cons _
  | loop t b e =>
    simp only [suites, List.mem_cons, List.not_mem_nil, or_false] at hi
    rcases hi with rfl | rfl
    · exact (List.sublist_append_left _ _).cons _
    · exact (List.sublist_append_right _ _).cons _
  | each i t b e =>
    simp only [suites, List.mem_cons, List.not_mem_nil, or_false] at hi
    rcases hi with rfl | rfl
    · exact ((List.sublist_append_left _ _).cons _).cons _
    · exact ((List.sublist_append_right _ _).cons _).cons _
  | enter i is b => cases hi
  | try_ f r hs e l =>
    simp only [suites, List.mem_cons] at hi
    simp only [Stmt.locations]
    rcases hi with rfl | rfl | hi
    · simp only [Body.locations]
      exact List.Sublist.append (List.Sublist.refl _) (List.sublist_append_left _ _)
    · exact (((List.sublist_append_left _ _).trans (List.sublist_append_right _ _)).trans (List.sublist_append_right _ _)).trans
        (List.sublist_append_right _ _)
    · exact (((clause_sublist hi).trans (List.sublist_append_left _ _)).trans (List.sublist_append_right _ _)).trans
        (List.sublist_append_right _ _)

theorem clause_noFinally : ∀ {hs : Handlers} {inner : Body}, inner ∈ clauses hs → hs.noFinally = true → inner.noFinally = true
  | .nil, _, h, _ => nomatch h
  | .cons ex name b rest, inner, h, hf => by
    simp only [Handlers.noFinally, Bool.and_eq_true] at hf
    rcases List.mem_cons.1 h with rfl | h
    · exact hf.1
    · exact clause_noFinally h hf.2

theorem suite_noFinally {s : Stmt} {inner : Body} (hi : inner ∈ suites s) (hf : s.noFinally = true) : inner.noFinally = true := by
  cases s with
  | simple l => cases hi
  | jump j l => cases hi
  | cond t b e =>
    simp only [suites, List.mem_cons, List.not_mem_nil, or_false] at hi
    simp only [Stmt.noFinally, Bool.and_eq_true] at hf
    rcases hi with rfl | rfl
    · exact hf.1
    · exact hf.2
  | loop t b e =>
    simp only [suites, List.mem_cons, List.not_mem_nil, or_false] at hi
    simp only [Stmt.noFinally, Bool.and_eq_true] at hf
    rcases hi with rfl | rfl
    · exact hf.1
    · exact hf.2
  | each i t b e =>
    simp only [suites, List.mem_cons, List.not_mem_nil, or_false] at hi
    simp only [Stmt.noFinally, Bool.and_eq_true] at hf
    rcases hi with rfl | rfl
    · exact hf.1
    · exact hf.2
  | enter i is b => cases hi
  | try_ f r hs e l =>
    simp only [suites, List.mem_cons] at hi
    simp only [Stmt.noFinally, Bool.and_eq_true] at hf
    rcases hi with rfl | rfl | hi
    · simp only [Body.noFinally, Bool.and_eq_true]; exact hf.1.1.1
    · exact hf.1.2
    · exact clause_noFinally hi hf.1.1.2

theorem append_locations : ∀ (b post : Body), (append b post).locations = b.locations ++ post.locations
  | .nil, _ => rfl
  | .cons s rest, post => by
    simp only [append, Body.locations]
    rw [append_locations rest post, List.append_assoc]

theorem append_noFinally : ∀ (b post : Body), (append b post).noFinally = (b.noFinally && post.noFinally)
  | .nil, _ => rfl
  | .cons s rest, post => by
    simp only [append, Body.noFinally]
    rw [append_noFinally rest post, Bool.and_assoc]

theorem visit_append : ∀ (b post : Body) (bd : List Exits) (st : Flow.State),
    visitBody (append b post) bd st = visitBody post bd (visitBody b bd st)
  | .nil, _, _, _ => by simp only [append, visitBody]
  | .cons s rest, post, bd, st => by
    simp only [append, visitBody]
    exact visit_append rest post bd _

theorem At.sublist {b p : Body} {last f : Bool} (h : At b last p f) : b.locations.Sublist p.locations := by
  induction h with
  | here post => rw [append_locations]; exact List.sublist_append_left _ _
  | skip _ ih => exact ih.trans (List.sublist_append_right _ _)
  | within h1 _ _ ih => exact (ih.trans (suite_sublist h1)).trans (List.sublist_append_left _ _)
  | enter _ ih =>
    refine (ih.trans ?_).trans (List.sublist_append_left _ _)
    exact (List.sublist_append_right _ _).cons _

theorem At.noFinally {b p : Body} {last f : Bool} (h : At b last p f) : p.noFinally = true → b.noFinally = true := by
  induction h with
  | here post =>
    rw [append_noFinally, Bool.and_eq_true]
    exact fun h => h.1
  | skip _ ih =>
    simp only [Body.noFinally, Bool.and_eq_true]
    exact fun h => ih h.2
  | within h1 _ _ ih =>
    simp only [Body.noFinally, Bool.and_eq_true]
    exact fun h => ih (suite_noFinally h1 h.1)
  | enter _ ih =>
    simp only [Body.noFinally, Stmt.noFinally, Bool.and_eq_true]
    exact fun h => ih h.1

/-- Statements are visited in a graph, what they add is in `F`; if `free`, nothing is added later to the block that is current after
them. -/
def Ctx (F : Graph) (b : Body) (free : Bool) : Prop :=
  ∃ bd g c, Tidy g c ∧ Apart g b.locations ∧ Kept F g c (visitBody b bd (g, c)) ∧
    (free = true → F.locs (visitBody b bd (g, c)).2 = (visitBody b bd (g, c)).1.locs (visitBody b bd (g, c)).2)

theorem Apart.sub {g g' : Graph} {c : Nat} {ls ls' : List Nat} {c' : Nat} (h : Lays g c ls (g', c')) (ha : Apart g ls')
    (hd : ∀ l ∈ ls, l ∉ ls') : Apart g' ls' := by
  intro x l hl hm
  rcases h.sub (x := x) hl with hl | hl
  · exact ha x l hl hm
  · exact hd l hl hm

theorem At.ctx {b p : Body} {last f : Bool} (h : At b last p f) : ∀ (bd : List Exits) {F g : Graph} {c : Nat}, p.locations.Nodup →
    Tidy g c → Apart g p.locations → Kept F g c (visitBody p bd (g, c)) →
    (last = true → F.locs (visitBody p bd (g, c)).2 = (visitBody p bd (g, c)).1.locs (visitBody p bd (g, c)).2) → Ctx F b f := by
  induction h with
  | @here last post =>
    intro bd F g c hn ht ha hk hl
    rw [append_locations] at ha hn
    rw [visit_append] at hk hl
    refine ⟨bd, g, c, ht, fun x l hx hm => ha x l hx (List.mem_append_left _ hm), ?_, ?_⟩
    · have h1 := body_lay b bd ht
      exact hk.left h1 (body_lay post bd h1.tidy)
    · intro hf
      rw [Bool.and_eq_true] at hf
      cases post with
      | nil => simpa only [visitBody] using hl hf.1
      | cons _ _ => cases hf.2
  | @skip last f s rest _ ih =>
    intro bd F g c hn ht ha hk hl
    simp only [visitBody] at hk hl
    simp only [Body.locations] at hn ha
    rw [List.nodup_append] at hn
    have h1 := (visit_put s bd ht).lays
    generalize visit s bd (g, c) = st1 at h1 hk hl
    obtain ⟨g1, c1⟩ := st1
    refine ih bd hn.2.1 h1.tidy ?_ (hk.right h1) hl
    exact Apart.sub h1 (fun x l hx hm => ha x l hx (List.mem_append_right _ hm)) (fun l hl hm => hn.2.2 l hl l hm rfl)
  | @within last f s rest inner hi hne _ ih =>
    intro bd F g c hn ht ha hk hl
    simp only [visitBody] at hk hl
    simp only [Body.locations] at hn ha
    rw [List.nodup_append] at hn
    have h1 := (visit_put s bd ht).lays
    have hk1 := hk.left h1 (body_lay rest bd h1.tidy)
    obtain ⟨bd', gi, ci, ls, k1, k2, k3⟩ := suite_sub hi hne bd ht hn.1
    have k4 := body_lay inner bd' k1.tidy
    have hkey : ∀ x, (x = ci ∨ gi.count ≤ x) → x < (visitBody inner bd' (gi, ci)).1.count →
        F.locs x = (visitBody inner bd' (gi, ci)).1.locs x := by
      intro x hx hlt
      obtain ⟨e1, e2⟩ := k3.same x hx hlt
      rw [← e1]
      refine hk1.same x ?_ (Nat.lt_of_lt_of_le hlt k3.count) e2
      have hcnt : g.count ≤ gi.count := k1.count
      have hcur : ci = c ∨ g.count ≤ ci := k1.cur
      omega
    have hcur := hkey _ k4.cur k4.tidy.cur
    refine ih bd' ((suite_sublist hi).nodup hn.1) k1.tidy ?_ ⟨fun x hx hlt _ => hkey x hx hlt, ⟨[], by rw [hcur]; simp⟩⟩ (fun _ => hcur)
    exact Apart.sub k1 (fun x l hx hm => ha x l hx (List.mem_append_left _ ((suite_sublist hi).subset hm))) k2
  | @enter last f i is rest inner _ ih =>
    intro bd F g c hn ht ha hk hl
    simp only [visitBody, visit] at hk hl
    simp only [Body.locations, Stmt.locations] at hn ha
    have h1 := (Lays.leaf ht i).trans ht.cur (adds_lay is (ht.add i))
    have h2 := body_lay inner bd h1.tidy
    have hk1 := hk.left (h1.trans ht.cur h2) (body_lay rest bd h2.tidy)
    rw [List.nodup_append, List.nodup_cons, List.nodup_append] at hn
    refine ih bd hn.1.2.2.1 h1.tidy ?_ (hk1.right h1) ?_
    · refine Apart.sub h1 (fun x l hx hm => ha x l hx (by simp [hm])) ?_
      intro l hl hm
      simp only [List.mem_append, List.mem_singleton] at hl
      rcases hl with rfl | hl
      · exact hn.1.1 (by simp [hm])
      · exact hn.1.2.2.2 l hl l hm rfl
    · intro hf
      rw [Bool.and_eq_true] at hf
      cases rest with
      | nil => simpa only [visitBody] using hl hf.1
      | cons _ _ => cases hf.2

theorem At.module {b p : Body} {f : Bool} (h : At b true p f) (hn : p.locations.Nodup) : Ctx (moduleGraph p) b f := by
  refine h.ctx [] (g := Graph.init) (c := 0) hn init_tidy (fun x l hl => nomatch hl) ⟨fun x _ _ _ => ?_, ⟨[], ?_⟩⟩ (fun _ => ?_)
  · show (Graph.linkOrMerge _ _ _).locs x = _; rw [lm_locs]
  · show (Graph.linkOrMerge _ _ _).locs _ = _; rw [lm_locs]; simp
  · show (Graph.linkOrMerge _ _ _).locs _ = _; rw [lm_locs]

theorem At.function {b p : Body} {f : Bool} (h : At b true p f) {args : Nat} (hn : (args :: p.locations).Nodup) :
    Ctx (functionGraph args p) b f := by
  rw [List.nodup_cons] at hn
  have h1 := newFrom_start (Lays.leaf init_tidy args) 0
  refine h.ctx [[(.ret, Graph.end_), (.raise none, Graph.end_)]] (g := (Graph.init.add 0 args).newFrom 0) (c := (Graph.init.add 0 args).count) hn.2 h1.tidy
    (Apart.sub h1 (fun x l hl => nomatch hl) (fun l hl => by rw [List.mem_singleton.1 hl]; exact hn.1)) ⟨fun x _ _ _ => ?_, ⟨[], ?_⟩⟩ (fun _ => ?_)
  · show (Graph.linkOrMerge _ _ _).locs x = _; rw [lm_locs]
  · show (Graph.linkOrMerge _ _ _).locs _ = _; rw [lm_locs]; simp
  · show (Graph.linkOrMerge _ _ _).locs _ = _; rw [lm_locs]

end Verif.Inside

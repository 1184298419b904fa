import Verif.Model.MadeUp
import Verif.Props.Reaching
import Mathlib.Data.List.Induction

/-! C139: definitions of what is used in functions that nothing calls. -/

namespace Verif.Cfg

/-! ### What is to be shown -/

/-- A way through a graph: from block `s`, `bs` are run and then `b` is entered. -/
inductive Way (P : Prog) (s : Nat) : List Nat → Nat → Prop
  | start : Way P s [] s
  | next {bs : List Nat} {b c : Nat} : Way P s bs b → c ∈ P.succ b → Way P s (bs ++ [b]) c

/-- What happens to variables in a run of a graph from block `s` to its end. -/
def Whole (P : Prog) (s : Nat) (its : List Item) : Prop := ∃ bs b, Way P s bs b ∧ P.locs b = [] ∧ its = bs.flatMap P.items

/-- After `its`, the variable `v` has the value that `d` gave to it (or has been deleted by it). -/
def ValueOf (v : Nat) (its : List Item) (d : Event) : Prop :=
  ∃ pre post, its = pre ++ .own d :: post ∧ d.var = v ∧ d.type ≠ .read ∧ ∀ x, Item.own x ∈ post → x.var = v → x.type = .read

/-- What happens if functions are called one after another, any of them any number of times. -/
inductive Calls (P : Prog) (starts : List Nat) : List Item → Prop
  | nil : Calls P starts []
  | call {its run : List Item} {s : Nat} : Calls P starts its → s ∈ starts → Whole P s run → Calls P starts (its ++ run)

/-! ### Values -/

theorem lastKill_cat (v : Nat) : ∀ (b a : List Item), lastKill v (a ++ b) = (lastKill v b).or (lastKill v a) := by
  have gen : ∀ (b : List Item) (acc : Option Event), b.foldl (fun acc it => (killsVar v it).or acc) acc = (lastKill v b).or acc := by
    intro b
    induction b with
    | nil => intro acc; simp [lastKill]
    | cons it b ih =>
      intro acc
      rw [lastKill, List.foldl_cons, List.foldl_cons, ih, ih, Option.or_assoc, Option.or_none]
  intro b a
  rw [lastKill, List.foldl_append, gen]
  rfl

theorem lastKill_none {v : Nat} : ∀ {its : List Item}, lastKill v its = none ↔ ∀ x, Item.own x ∈ its → x.var = v → x.type = .read
  | [] => by simp [lastKill]
  | it :: its => by
    have h := lastKill_cat v its [it]
    rw [List.singleton_append] at h
    have h1 : lastKill v [it] = killsVar v it := by simp [lastKill]
    rw [h, h1, Option.or_eq_none_iff, lastKill_none (its := its)]
    have hk : killsVar v it = none ↔ ∀ x, it = .own x → x.var = v → x.type = .read := by
      cases it with
      | called e => simp [killsVar]
      | own e =>
        simp only [killsVar, ite_eq_right_iff, reduceCtorEq, imp_false, not_and, Bool.not_eq_true, kills_false, Item.own.injEq, forall_eq']
    rw [hk]
    constructor
    · rintro ⟨h2, h3⟩ x hx
      rcases List.mem_cons.1 hx with hx | hx
      · exact h3 x hx.symm
      · exact h2 x hx
    · intro h
      exact ⟨fun x hx => h x (List.mem_cons_of_mem _ hx), fun x hx => h x (by simp [hx])⟩

theorem valueOf_iff {v : Nat} {d : Event} : ∀ {its : List Item}, ValueOf v its d ↔ lastKill v its = some d := by
  intro its
  constructor
  · rintro ⟨pre, post, rfl, h1, h2, h3⟩
    rw [show pre ++ Item.own d :: post = (pre ++ [.own d]) ++ post by simp, lastKill_cat, lastKill_none.2 h3, lastKill_append]
    simp [killsVar, h1, kills_iff.2 h2]
  · intro h
    induction its using List.reverseRecOn with
    | nil => simp [lastKill] at h
    | append_singleton its it ih =>
      rw [lastKill_append] at h
      cases hk : killsVar v it with
      | some c =>
        rw [hk, Option.some_or, Option.some.injEq] at h
        subst h
        cases it with
        | called e => cases hk
        | own e =>
          simp only [killsVar] at hk
          split at hk
          · rename_i hc
            cases hk
            exact ⟨its, [], rfl, hc.1, kills_iff.1 hc.2, by simp⟩
          · cases hk
      | none =>
        rw [hk, Option.none_or] at h
        obtain ⟨pre, post, rfl, h1, h2, h3⟩ := ih h
        refine ⟨pre, post ++ [it], by simp, h1, h2, ?_⟩
        have := (lastKill_none (v := v) (its := [it])).1 (by simpa [lastKill] using hk)
        intro x hx
        rcases List.mem_append.1 hx with hx | hx
        · exact h3 x hx
        · exact this x hx

/-! ### Ways -/

section
variable {P : Prog} {reachable : Nat → Bool} {starts : List Nat} {phases : List Phase} {v : Nat}

theorem Way.reach {s b : Nat} {bs : List Nat} (h : Way P s bs b) : Reach P.succ s b ∧ ∀ x ∈ bs, Reach P.succ s x := by
  induction h with
  | start => exact ⟨.start, by simp⟩
  | next _ hc ih =>
    refine ⟨ih.1.next hc, ?_⟩
    intro x hx
    rcases List.mem_append.1 hx with hx | hx
    · exact ih.2 x hx
    · rw [List.mem_singleton.1 hx]
      exact ih.1

theorem way_of_reach {s b : Nat} (h : Reach P.succ s b) : ∃ bs, Way P s bs b := by
  induction h with
  | start => exact ⟨[], .start⟩
  | next _ hc ih =>
    obtain ⟨bs, hb⟩ := ih
    exact ⟨_, hb.next hc⟩

/-- The value at the end of blocks that have been run is that at the end of the last one of them that gives one. -/
theorem lastKill_blocks {d : Event} : ∀ {bs : List Nat}, lastKill v (bs.flatMap P.items) = some d → ∃ b ∈ bs, lastKill v (P.items b) = some d
  | [], h => by simp [lastKill] at h
  | b :: bs, h => by
    rw [List.flatMap_cons, lastKill_cat] at h
    cases hl : lastKill v (bs.flatMap P.items) with
    | some c =>
      rw [hl, Option.some_or] at h
      obtain ⟨x, hx, hd⟩ := lastKill_blocks (hl.trans h)
      exact ⟨x, List.mem_cons_of_mem _ hx, hd⟩
    | none =>
      rw [hl, Option.none_or] at h
      exact ⟨b, List.mem_cons_self, h⟩

theorem way_flow (hG : Graphs P reachable starts) (hno : ∀ b, NoCalled v (P.items b)) {s b : Nat} {bs : List Nat} {d : Event} (h : Way P s bs b) :
    P.locs b ≠ [] → lastKill v (bs.flatMap P.items) = some d → ∃ b0, Reach P.succ s b0 ∧ lastKill v (P.items b0) = some d ∧ Flow P v b0 b := by
  induction h with
  | start => intro _ h; simp [lastKill] at h
  | @next bs b c hw hc ih =>
    intro hl h
    have hin := mem_inner.2 ⟨hc, hl⟩
    have hb : P.locs b ≠ [] := by
      intro hn
      rw [hG.empty b hn] at hc
      cases hc
    rw [List.flatMap_append, lastKill_cat] at h
    simp only [List.flatMap_cons, List.flatMap_nil, List.append_nil] at h
    cases hk : lastKill v (P.items b) with
    | some x =>
      rw [hk, Option.some_or] at h
      refine ⟨b, hw.reach.1, hk.trans h, .edge ?_ hin⟩
      rw [ne_eq, kill_nil hno, hk]
      simp
    | none =>
      rw [hk, Option.none_or] at h
      obtain ⟨b0, h1, h2, h3⟩ := ih hb h
      exact ⟨b0, h1, h2, h3.next ((kill_nil hno b).2 hk) hin⟩

theorem flow_way (hno : ∀ b, NoCalled v (P.items b)) {s b0 b : Nat} {d : Event} (h0 : Reach P.succ s b0) (hd : lastKill v (P.items b0) = some d) (h : Flow P v b0 b) :
    ∃ bs, Way P s bs b ∧ lastKill v (bs.flatMap P.items) = some d := by
  induction h with
  | edge hk hc =>
    obtain ⟨bs, hb⟩ := way_of_reach h0
    refine ⟨_, hb.next (mem_inner.1 hc).1, ?_⟩
    rw [List.flatMap_append, lastKill_cat]
    simp [hd]
  | @next b c _ hk hc ih =>
    obtain ⟨bs, hb, hl⟩ := ih
    refine ⟨_, hb.next (mem_inner.1 hc).1, ?_⟩
    rw [List.flatMap_append, lastKill_cat]
    simp [(kill_nil hno b).1 hk, hl]

/-! ### The end of the module -/

/-- Blocks of the module and its `computed_kills`: it is the last graph, and the loop of `fixpoint` is over. -/
structure ModuleEnd (P : Prog) (reachable : Nat → Bool) (main : Nat) (phases : List Phase) (ph : Phase) (computed : Nat → Nat → Nat) : Prop where
  mem : ph ∈ phases
  yields : Yields P.inner main ph.order
  computed : ∃ n, ((Fix.init P reachable ph.base ph.order).run P n).queue = [] ∧ computed = ((Fix.init P reachable ph.base ph.order).run P n).computed

theorem testBit_computed (hG : Graphs P reachable starts) {main : Nat} (hm : main ∈ starts) {ph : Phase} {computed : Nat → Nat → Nat}
    (hM : ModuleEnd P reachable main phases ph computed) (hv : v < P.vars) {b m : Nat} (hb : b ∈ ph.order) :
    (computed b v).testBit m = true ↔
      ∃ b0 ∈ ph.order, m = number ph.base ph.order b0 ∧ ((P.kill b v ≠ [] ∧ b0 = b) ∨ (P.kill b v = [] ∧ Flow P v b0 b)) := by
  obtain ⟨n, hq, rfl⟩ := hM.computed
  have hB := blocks_of hG hm hM.yields
  have hinv := fix_run hB n (fix_init (base := ph.base) hB)
  by_cases hk : P.kill b v = []
  · rw [hinv.settled b hb (by simp [hq]) v hv hk, fix_final hB hinv hq hb hv]
    simp [hk]
  · rw [hinv.own b hb v hk, testBit_one_shiftLeft, decide_eq_true_eq]
    constructor
    · rintro rfl
      exact ⟨b, hb, rfl, .inl ⟨hk, rfl⟩⟩
    · rintro ⟨b0, _, rfl, ⟨_, rfl⟩ | ⟨h, _⟩⟩
      · rfl
      · exact absurd h hk

/-- The definitions at the end of the module are those of runs of it. -/
theorem mem_moduleKills (hG : Graphs P reachable starts) (hP : Phases P reachable 0 starts phases) (hno : ∀ b, NoCalled v (P.items b)) {main : Nat}
    (hm : main ∈ starts) {ph : Phase} {computed : Nat → Nat → Nat} (hM : ModuleEnd P reachable main phases ph computed) (hv : v < P.vars) {d : Event} :
    d ∈ moduleKills P (phases.flatMap Phase.order) ph.order computed v ↔ ∃ its, Whole P main its ∧ ValueOf v its d := by
  have hidx := phases_index hP [] rfl ph hM.mem
  simp only [List.nil_append] at hidx
  have hlast : ∀ b, d ∈ lastKills (P.kill b v) ↔ lastKill v (P.items b) = some d :=
    fun b => lastKills_of (scanBlock_spec (hno b) [] []) d
  have horder : ∀ b, b ∈ ph.order ↔ Reach P.succ main b ∧ P.locs b ≠ [] :=
    fun b => ((C29_blocks hM.yields).2 b).trans (reach_inner hG hm b)
  simp only [moduleKills, List.mem_flatMap, List.mem_filter, List.any_eq_true, decide_eq_true_eq, reachingKills, mem_onesIndices, valueOf_iff,
    List.length_eq_zero_iff]
  constructor
  · rintro ⟨b, ⟨hb, c, hc, hcl⟩, m, hbit, hd⟩
    obtain ⟨b0, hb0, rfl, h⟩ := (testBit_computed hG hm hM hv hb).1 hbit
    rw [hidx b0 hb0] at hd
    have hd := (hlast b0).1 hd
    rcases h with ⟨_, rfl⟩ | ⟨hk, hf⟩
    · obtain ⟨bs, hw⟩ := way_of_reach ((horder b0).1 hb0).1
      refine ⟨_, ⟨_, _, hw.next hc, hcl, rfl⟩, ?_⟩
      rw [List.flatMap_append, lastKill_cat]
      simp [hd]
    · obtain ⟨bs, hw, hl⟩ := flow_way hno ((horder b0).1 hb0).1 hd hf
      refine ⟨_, ⟨_, _, hw.next hc, hcl, rfl⟩, ?_⟩
      rw [List.flatMap_append, lastKill_cat]
      simp [(kill_nil hno b).1 hk, hl]
  · rintro ⟨its, ⟨bs, c, hw, hcl, rfl⟩, hl⟩
    cases hw with
    | start => simp [lastKill] at hl
    | @next bs b _ hw hc =>
      have hbl : P.locs b ≠ [] := by
        intro hn
        rw [hG.empty b hn] at hc
        cases hc
      have hb := (horder b).2 ⟨hw.reach.1, hbl⟩
      refine ⟨b, ⟨hb, c, hc, hcl⟩, ?_⟩
      rw [List.flatMap_append, lastKill_cat] at hl
      simp only [List.flatMap_cons, List.flatMap_nil, List.append_nil] at hl
      cases hk : lastKill v (P.items b) with
      | some x =>
        rw [hk, Option.some_or] at hl
        refine ⟨_, (testBit_computed hG hm hM hv hb).2 ⟨b, hb, rfl, .inl ⟨?_, rfl⟩⟩, ?_⟩
        · rw [ne_eq, kill_nil hno, hk]
          simp
        · rw [hidx b hb]
          exact (hlast b).2 (hk.trans hl)
      | none =>
        rw [hk, Option.none_or] at hl
        obtain ⟨b0, h1, h2, h3⟩ := way_flow hG hno hw hbl hl
        have hb0l : P.locs b0 ≠ [] := by
          intro hn
          rw [Prog.items, hn] at h2
          simp [lastKill] at h2
        have hb0 := (horder b0).2 ⟨h1, hb0l⟩
        refine ⟨_, (testBit_computed hG hm hM hv hb).2 ⟨b0, hb0, rfl, .inr ⟨(kill_nil hno b).2 hk, h3⟩⟩, ?_⟩
        rw [hidx b0 hb0]
        exact (hlast b0).2 h2

/-! ### Blocks of functions -/

theorem step_visited {succ : Nat → List Nat} (s : Dfs) : ∃ l, (s.step succ).visited = s.visited ++ l := by
  unfold Dfs.step
  split
  · exact ⟨[], by simp⟩
  · dsimp only
    split
    · exact ⟨[], by simp⟩
    · split
      · exact ⟨[], by simp⟩
      · exact ⟨_, rfl⟩

theorem run_visited {succ : Nat → List Nat} : ∀ (n : Nat) (s : Dfs), ∃ l, (s.run succ n).visited = s.visited ++ l
  | 0, s => ⟨[], by simp [Dfs.run]⟩
  | n + 1, s => by
    obtain ⟨l, hl⟩ := run_visited n (s.step succ)
    obtain ⟨l', hl'⟩ := step_visited (succ := succ) s
    exact ⟨l' ++ l, by rw [Dfs.run, hl, hl', List.append_assoc]⟩

theorem yields_start {succ : Nat → List Nat} {start : Nat} {order : List Nat} (h : Yields succ start order) : ∃ rest, order = start :: rest := by
  obtain ⟨n, hempty, rfl⟩ := h
  have hinv : Inv succ start ((Dfs.init start).run succ n) := inv_run n (inv_init start)
  have hout : ((Dfs.init start).run succ n).visited = ((Dfs.init start).run succ n).out := by
    have := hinv.yielded
    rw [hempty] at this
    simpa [pending] using this
  obtain ⟨l, hl⟩ := run_visited (succ := succ) n (Dfs.init start)
  exact ⟨l, by rw [← hout, hl]; rfl⟩

/-- All blocks of a function are taken for such, unless one of them begins with a definition. -/
theorem mem_blocksOf (hG : Graphs P reachable starts) (hP : Phases P reachable 0 starts phases) {S : Scopes} {u : Uncalled} (hu : u.start ∈ starts)
    (hs : ∀ b, Reach P.succ u.start b → P.locs b ≠ [] → S.block b = u.function) {b : Nat} (hb : Reach P.succ u.start b) (hl : P.locs b ≠ []) :
    b ∈ blocksOf S (phases.flatMap Phase.order) u := by
  obtain ⟨h1, h2⟩ := phases_spec hP
  obtain ⟨ph, hph, hy⟩ := h2 u.start hu
  have hmem : ∀ x, x ∈ ph.order ↔ Reach P.succ u.start x ∧ P.locs x ≠ [] := fun x => ((C29_blocks hy).2 x).trans (reach_inner hG hu x)
  suffices ∀ l : List Phase, (∀ p ∈ l, p ∈ phases) → ph ∈ l →
      b ∈ ((l.flatMap Phase.order).drop ((l.flatMap Phase.order).idxOf u.start)).takeWhile fun b => S.block b = u.function from
    this phases (fun _ h => h) hph
  intro l
  induction l with
  | nil => intro _ h; cases h
  | cons p l ih =>
    intro hall hin
    rw [List.flatMap_cons]
    by_cases hst : u.start ∈ p.order
    · obtain ⟨s', hs', n, hy', _⟩ := h1 p (hall p List.mem_cons_self)
      have hr := (reach_inner hG hs' u.start).1 (((C29_blocks hy').2 _).1 hst)
      have : s' = u.start := hG.apart s' hs' u.start hu u.start hr.1 .start
      subst this
      have heq : p.order = ph.order := Yields.unique hy' hy
      obtain ⟨rest, hrest⟩ := yields_start hy
      rw [heq]
      have h0 : (ph.order ++ l.flatMap Phase.order).idxOf u.start = 0 := by rw [hrest]; simp
      rw [h0, List.drop_zero, List.takeWhile_append_of_pos]
      · exact List.mem_append_left _ ((hmem b).2 ⟨hb, hl⟩)
      · intro x hx
        have := (hmem x).1 hx
        exact decide_eq_true (hs x this.1 this.2)
    · have hne : ph ≠ p := by
        rintro rfl
        exact hst ((hmem _).2 ⟨.start, hG.locs _ hu⟩)
      have hin' : ph ∈ l := by
        rcases List.mem_cons.1 hin with h | h
        · exact absurd h hne
        · exact h
      have := ih (fun p hp => hall p (List.mem_cons_of_mem _ hp)) hin'
      rw [List.idxOf_append, if_neg hst, List.drop_append, List.drop_eq_nil_of_le (by omega), List.nil_append,
        show List.idxOf u.start (List.flatMap Phase.order l) + p.order.length - p.order.length = List.idxOf u.start (List.flatMap Phase.order l) by omega]
      exact this

theorem blocksOf_sub {S : Scopes} {u : Uncalled} {l : List Nat} {b : Nat} (h : b ∈ blocksOf S l u) : b ∈ l ∧ S.block b = u.function := by
  unfold blocksOf at h
  have key : ∀ l : List Nat, b ∈ l.takeWhile (fun b => decide (S.block b = u.function)) → b ∈ l ∧ S.block b = u.function := by
    intro l
    induction l with
    | nil => intro h; cases h
    | cons x l ih =>
      intro h
      rw [List.takeWhile_cons] at h
      split at h
      · rename_i hx
        rcases List.mem_cons.1 h with rfl | h
        · exact ⟨List.mem_cons_self, by simpa using hx⟩
        · exact ⟨List.mem_cons_of_mem _ (ih h).1, (ih h).2⟩
      · cases h
  exact ⟨List.mem_of_mem_drop (key _ h).1, (key _ h).2⟩

/-! ### Links -/

theorem mem_foldl_new {x : Event × Event} : ∀ (ls acc : List (Event × Event)),
    x ∈ ls.foldl (fun links link => if link ∈ links then links else links ++ [link]) acc ↔ x ∈ acc ∨ x ∈ ls
  | [], acc => by simp
  | l :: ls, acc => by
    rw [List.foldl_cons, mem_foldl_new ls]
    split
    · rename_i h
      rw [List.mem_cons]
      constructor
      · rintro (h1 | h1)
        · exact .inl h1
        · exact .inr (.inr h1)
      · rintro (h1 | rfl | h1)
        · exact .inl h1
        · exact .inl h
        · exact .inr h1
    · rw [List.mem_append, List.mem_singleton, List.mem_cons, or_assoc]

theorem mem_outerGens (hno : ∀ b, NoCalled v (P.items b)) {S : Scopes} {u : Uncalled} {l : List Nat} {e : Event} :
    e ∈ outerGens P S l u v ↔ S.var v ≠ u.function ∧ ∃ b ∈ blocksOf S l u, ∃ k : Nat, EventAt (P.items b) k e ∧ e.var = v ∧
      (e.type = .read ∨ e.type = .modify) ∧ ∀ x, Item.own x ∈ (P.items b).take k → x.var = v → x.type = .read := by
  unfold outerGens
  split
  · rename_i h
    simp only [List.mem_flatMap, h, ne_eq, not_false_eq_true, true_and]
    refine exists_congr fun b => and_congr_right fun _ => ?_
    rw [show e ∈ P.gens b v ↔ _ from (scanBlock_spec (hno b) [] []).gens e]
    refine exists_congr fun k => and_congr_right fun _ => and_congr_right fun _ => ?_
    rw [generates_iff, lastKill_none]
  · rename_i h
    simp [h]

theorem mem_outerKills (hno : ∀ b, NoCalled v (P.items b)) {S : Scopes} {u : Uncalled} {l : List Nat} {d : Event} :
    d ∈ outerKills P S l u v ↔ S.var v ≠ u.function ∧ ∃ b ∈ blocksOf S l u, ∃ k : Nat, (P.items b)[k]? = some (.own d) ∧ d.var = v ∧
      d.type ≠ .read ∧ ∀ x, Item.own x ∈ (P.items b).take k → x.var = v → x.type = .read := by
  unfold outerKills
  split
  · rename_i h
    simp only [List.mem_flatMap, h, ne_eq, not_false_eq_true, true_and]
    refine exists_congr fun b => and_congr_right fun _ => ?_
    have hf := (scanBlock_spec (hno b) [] []).first
    have hk : ∀ k : Nat, ((P.items b)[k]? = some (.own d) ∧ d.var = v ∧ ¬ d.type = .read ∧
        ∀ x, Item.own x ∈ (P.items b).take k → x.var = v → x.type = .read) ↔
        ((P.items b)[k]? = some (.own d) ∧ d.var = v ∧ d.type.kills = true ∧ lastKill v ((P.items b).take k) = none) := by
      intro k
      rw [kills_iff, lastKill_none]
    rw [exists_congr hk, ← first_kill]
    change (P.kill b v).head? = _ at hf
    cases hkb : P.kill b v with
    | nil =>
      rw [hkb] at hf
      cases hfs : (P.items b).findSome? (killsVar v) with
      | none => simp
      | some y => rw [hfs] at hf; cases hf
    | cons first rest =>
      rw [hkb] at hf
      cases hfs : (P.items b).findSome? (killsVar v) with
      | none => rw [hfs] at hf; cases hf
      | some y =>
        rw [hfs] at hf
        simp only [List.head?_cons, Option.map_some, Option.some.injEq] at hf
        rw [hf]
        simp [eq_comm]
  · rename_i h
    simp [h]

theorem links_iff (hG : Graphs P reachable starts) (hP : Phases P reachable 0 starts phases) {main : Nat} (hm : main ∈ starts) {ph : Phase}
    {computed : Nat → Nat → Nat} (hM : ModuleEnd P reachable main phases ph computed) (S : Scopes) (uncalled : List Uncalled) {definitions : List (Event × Event)} {e d : Event}
    (hno : ∀ b x, Item.called x ∈ P.items b → x.var = e.var → x.type = .read) (hv : e.var < P.vars) :
    (e, d) ∈ makeUpCalls P S (phases.flatMap Phase.order) ph.order computed uncalled definitions ↔ (e, d) ∈ definitions ∨
      ((∃ u ∈ uncalled, S.var e.var ≠ u.function ∧ ∃ b ∈ blocksOf S (phases.flatMap Phase.order) u, ∃ k : Nat, EventAt (P.items b) k e ∧
        (e.type = .read ∨ e.type = .modify) ∧ ∀ x, Item.own x ∈ (P.items b).take k → x.var = e.var → x.type = .read) ∧
      ((∃ its, Whole P main its ∧ ValueOf e.var its d) ∨
       ∃ u ∈ uncalled, S.var e.var ≠ u.function ∧ ∃ b ∈ blocksOf S (phases.flatMap Phase.order) u, ∃ k : Nat, (P.items b)[k]? = some (.own d) ∧ d.var = e.var ∧
        d.type ≠ .read ∧ ∀ x, Item.own x ∈ (P.items b).take k → x.var = e.var → x.type = .read)) := by
  have hno' : ∀ b, NoCalled e.var (P.items b) := fun b x hx => hno b x hx
  rw [makeUpCalls, mem_foldl_new]
  refine or_congr_right ?_
  simp only [List.mem_flatMap, List.mem_range, List.mem_append, List.mem_map, Prod.mk.injEq]
  constructor
  · rintro ⟨w, hw, d', hd, u, hu, e', he, rfl, rfl⟩
    have hew : e'.var = w := by
      unfold outerGens at he
      split at he
      · obtain ⟨b, _, he⟩ := List.mem_flatMap.1 he
        exact gens_var he
      · cases he
    subst hew
    obtain ⟨h1, b, hb, k, h2, _, h3⟩ := (mem_outerGens hno').1 he
    refine ⟨⟨u, hu, h1, b, hb, k, h2, h3⟩, ?_⟩
    rcases hd with hd | ⟨u', hu', hd⟩
    · exact .inl ((mem_moduleKills hG hP hno' hm hM hv).1 hd)
    · exact .inr ⟨u', hu', (mem_outerKills hno').1 hd⟩
  · rintro ⟨⟨u, hu, h1, b, hb, k, h2, h3⟩, hd⟩
    refine ⟨e.var, hv, d, ?_, u, hu, e, (mem_outerGens hno').2 ⟨h1, b, hb, k, h2, rfl, h3⟩, rfl, rfl⟩
    rcases hd with hd | ⟨u', hu', hd⟩
    · exact .inl ((mem_moduleKills hG hP hno' hm hM hv).2 hd)
    · exact .inr ⟨u', hu', (mem_outerKills hno').2 hd⟩

/-- **C139** What is linked for functions that nothing calls: each use of a variable of another scope before which the block does not give it a value gets as
definitions the values of the variable at the end of the module, and the first value given to it in each block of such functions; if
blocks of such functions are recognised by the scope of their first location. -/
theorem C139_links_partial (hG : Graphs P reachable starts) (hP : Phases P reachable 0 starts phases) {main : Nat} (hm : main ∈ starts) {ph : Phase}
    {computed : Nat → Nat → Nat} (hM : ModuleEnd P reachable main phases ph computed) (S : Scopes) {uncalled : List Uncalled}
    (hus : ∀ u ∈ uncalled, u.start ∈ starts) {definitions : List (Event × Event)} {e d : Event}
    (hno : ∀ b x, Item.called x ∈ P.items b → x.var = e.var → x.type = .read) (hv : e.var < P.vars)
    (hblock : ∀ u ∈ uncalled, ∀ b, Ever P starts b → P.locs b ≠ [] → (S.block b = u.function ↔ Reach P.succ u.start b)) :
    (e, d) ∈ makeUpCalls P S (phases.flatMap Phase.order) ph.order computed uncalled definitions ↔ (e, d) ∈ definitions ∨
      ((∃ u ∈ uncalled, S.var e.var ≠ u.function ∧ ∃ b, Reach P.succ u.start b ∧ ∃ k : Nat,
        ((P.items b)[k]? = some (.own e) ∨ (P.items b)[k]? = some (.called e)) ∧ (e.type = .read ∨ e.type = .modify) ∧ ∀ x, Item.own x ∈ (P.items b).take k → x.var = e.var → x.type = .read) ∧
      ((∃ its, Whole P main its ∧ ValueOf e.var its d) ∨
       ∃ u ∈ uncalled, S.var e.var ≠ u.function ∧ ∃ b, Reach P.succ u.start b ∧ ∃ k : Nat, (P.items b)[k]? = some (.own d) ∧ d.var = e.var ∧
        d.type ≠ .read ∧ ∀ x, Item.own x ∈ (P.items b).take k → x.var = e.var → x.type = .read)) := by
  have hof : ∀ u ∈ uncalled, ∀ b, b ∈ blocksOf S (phases.flatMap Phase.order) u ↔ Reach P.succ u.start b ∧ P.locs b ≠ [] := by
    intro u hu b
    constructor
    · intro h
      obtain ⟨h1, h2⟩ := blocksOf_sub h
      obtain ⟨h3, h4⟩ := (mem_blocks hG hP b).1 h1
      exact ⟨(hblock u hu b h3 h4).1 h2, h4⟩
    · rintro ⟨h1, h2⟩
      exact mem_blocksOf hG hP (hus u hu) (fun x hx hl => (hblock u hu x ⟨_, hus u hu, hx⟩ hl).2 hx) h1 h2
  have hex : ∀ (u : Uncalled), u ∈ uncalled → ∀ (Q : Nat → Nat → Prop), (∀ b k, Q b k → ∃ it, (P.items b)[k]? = some it) →
      ((∃ b ∈ blocksOf S (phases.flatMap Phase.order) u, ∃ k, Q b k) ↔ ∃ b, Reach P.succ u.start b ∧ ∃ k, Q b k) := by
    intro u hu Q hQ
    refine exists_congr fun b => ?_
    rw [hof u hu]
    constructor
    · rintro ⟨h1, h2⟩
      exact ⟨h1.1, h2⟩
    · rintro ⟨h1, k, h2⟩
      exact ⟨⟨h1, items_locs (hQ b k h2).choose_spec⟩, k, h2⟩
  rw [links_iff hG hP hm hM S uncalled hno hv]
  refine or_congr_right (and_congr ?_ (or_congr_right ?_))
  · refine exists_congr fun u => and_congr_right fun hu => and_congr_right fun _ => hex u hu _ fun b k h => EventAt.item h.1
  · refine exists_congr fun u => and_congr_right fun hu => and_congr_right fun _ => hex u hu _ fun b k h => ⟨_, h.1⟩

theorem calls_value {us : List Nat} {its : List Item} {d : Event} (h : Calls P us its) : lastKill v its = some d →
    ∃ s ∈ us, ∃ b, Reach P.succ s b ∧ lastKill v (P.items b) = some d := by
  induction h with
  | nil => intro h; simp [lastKill] at h
  | @call its run s _ hs hw ih =>
    intro h
    rw [lastKill_cat] at h
    cases hk : lastKill v run with
    | some x =>
      rw [hk, Option.some_or] at h
      obtain ⟨bs, c, hw, _, rfl⟩ := hw
      obtain ⟨b, hb, hd⟩ := lastKill_blocks (hk.trans h)
      exact ⟨s, hs, b, hw.reach.2 b hb, hd⟩
    | none =>
      rw [hk, Option.none_or] at h
      exact ih h

/-- **C139** Whenever the module is run to its end, then functions that nothing calls are called in any order, and then one of them reads a variable of another scope
(or modifies its value), the event that gave the variable the value is among the definitions of the use; if no block of such a function begins with a definition
or gives the variable a value twice, and if functions called at most read the variable; `e` may also happen in a function called. -/
theorem C139_definitions_partial (hG : Graphs P reachable starts) (hP : Phases P reachable 0 starts phases) {main : Nat} (hm : main ∈ starts) {ph : Phase}
    {computed : Nat → Nat → Nat} (hM : ModuleEnd P reachable main phases ph computed) {S : Scopes} {uncalled : List Uncalled}
    (hus : ∀ u ∈ uncalled, u.start ∈ starts) {e d : Event}
    (hno : ∀ b x, Item.called x ∈ P.items b → x.var = e.var → x.type = .read) (hv : e.var < P.vars)
    (hblock : ∀ u ∈ uncalled, ∀ b, Reach P.succ u.start b → P.locs b ≠ [] → S.block b = u.function)
    (hvar : ∀ u ∈ uncalled, S.var e.var ≠ u.function)
    (honce : ∀ u ∈ uncalled, ∀ b, Reach P.succ u.start b → ∀ (i j : Nat) (x y : Event), (P.items b)[i]? = some (.own x) → (P.items b)[j]? = some (.own y) →
      x.var = e.var → y.var = e.var → x.type ≠ .read → y.type ≠ .read → i = j)
    {first calls : List Item} (hfirst : Whole P main first) (hcalls : Calls P (uncalled.map (·.start)) calls) {u : Uncalled} (hu : u ∈ uncalled) {bs : List Nat} {b k : Nat}
    (hway : Way P u.start bs b) (he : (P.items b)[k]? = some (.own e) ∨ (P.items b)[k]? = some (.called e)) (ht : e.type = .read ∨ e.type = .modify)
    (hd : ValueOf e.var (first ++ calls ++ bs.flatMap P.items ++ (P.items b).take k) d) :
    (e, d) ∈ makeUpCalls P S (phases.flatMap Phase.order) ph.order computed uncalled (links P phases).1 := by
  have hno' : ∀ b, NoCalled e.var (P.items b) := fun b x hx => hno b x hx
  have hbl := items_locs (EventAt.item he).choose_spec
  have hreach := hway.reach.1
  rw [links_iff hG hP hm hM S uncalled hno hv]
  rw [valueOf_iff, lastKill_cat] at hd
  cases h4 : lastKill e.var ((P.items b).take k) with
  | some x =>
    rw [h4, Option.some_or, Option.some.injEq] at hd
    subst hd
    refine .inl ((C30_definitions_partial hG hP hno hv).2 ⟨ht, b, k, he, ?_⟩)
    exact reaching_from ⟨_, hus u hu, hreach⟩ (Nat.le_of_lt (EventAt.lt he)) h4
  | none =>
    rw [h4, Option.none_or, lastKill_cat] at hd
    cases h3 : lastKill e.var (bs.flatMap P.items) with
    | some x =>
      rw [h3, Option.some_or, Option.some.injEq] at hd
      subst hd
      obtain ⟨b0, hr0, hd0, hf⟩ := way_flow hG hno' hway hbl h3
      refine .inl ((C30_definitions_partial hG hP hno hv).2 ⟨ht, b, k, he, ?_⟩)
      exact (reaching_iff hG hno' (EventAt.lt he)).2 ⟨⟨_, hus u hu, hreach⟩, .inr ⟨h4, b0, ⟨_, hus u hu, hr0⟩, hd0, hf⟩⟩
    | none =>
      rw [h3, Option.none_or, lastKill_cat] at hd
      refine .inr ⟨⟨u, hu, hvar u hu, b, mem_blocksOf hG hP (hus u hu) (hblock u hu) hreach hbl, k, he, ht, lastKill_none.1 h4⟩, ?_⟩
      cases h2 : lastKill e.var calls with
      | some x =>
        rw [h2, Option.some_or, Option.some.injEq] at hd
        subst hd
        obtain ⟨s, hs, b', hr', hd'⟩ := calls_value hcalls h2
        obtain ⟨u', hu', rfl⟩ := List.mem_map.1 hs
        obtain ⟨pre, post, hsplit, hdv, hdt, _⟩ := valueOf_iff.2 hd'
        have hget : (P.items b')[pre.length]? = some (.own x) := by rw [hsplit]; simp
        refine .inr ⟨u', hu', hvar u' hu', b', mem_blocksOf hG hP (hus u' hu') (hblock u' hu') hr' (items_locs hget), pre.length, hget, hdv, hdt, ?_⟩
        intro y hy hyv
        by_cases hyt : y.type = .read
        · exact hyt
        · exfalso
          obtain ⟨j, hj⟩ := List.mem_iff_getElem?.1 hy
          rw [List.getElem?_take] at hj
          split at hj
          · rename_i hlt
            have := honce u' hu' b' hr' j pre.length y x hj hget hyv hdv hyt hdt
            omega
          · cases hj
      | none =>
        rw [h2, Option.none_or] at hd
        exact .inl ⟨first, hfirst, valueOf_iff.2 hd⟩

end

/-! ### Examples

Names of functions and parameters are left out. -/

/-- `x = 0`, `def f(): global x; x = 1`, `def g(): print(x)`: blocks of `f` are 0, 1 and the empty 2, those of `g` 3, 4 and 5, those of the module 6 and 7; the first
block of a function has just its arguments. -/
def exUncalled : Prog where
  nodes := [0, 1, 2, 3, 4, 5, 6, 7]
  succ := fun b => if b = 0 then [1] else if b = 1 then [2] else if b = 3 then [4] else if b = 4 then [5] else if b = 6 then [7] else []
  locs := fun b =>
    if b = 0 then [[]] else if b = 1 then [[], [.own ⟨0, 1, .reassign⟩]]
    else if b = 3 then [[]] else if b = 4 then [[.own ⟨0, 2, .read⟩]]
    else if b = 6 then [[.own ⟨0, 0, .assign⟩], [], []] else []
  vars := 1

/-- `f` is 10, `g` is 11 and the module is 12. -/
def exScopes : Scopes := ⟨fun b => if b < 3 then 10 else if b < 6 then 11 else 12, fun _ => 12⟩

def exReach : Nat → Bool := fun b => decide (b < 8)

def phaseOf (P : Prog) (base : Nat) (order : List Nat) : Phase := ⟨base, order, ((Fix.init P exReach base order).run P 20).parents⟩

def computedOf (P : Prog) (base : Nat) (order : List Nat) : Nat → Nat → Nat := ((Fix.init P exReach base order).run P 20).computed

def exPhases (P : Prog) : List Phase := [phaseOf P 0 [0, 1], phaseOf P 2 [3, 4], phaseOf P 4 [6]]

theorem exUncalled_phases : Phases exUncalled exReach 0 [0, 3, 6] (exPhases exUncalled) :=
  .cons (n := 20) ⟨20, by decide +kernel, by decide +kernel⟩ (by decide +kernel)
    (.cons (n := 20) ⟨20, by decide +kernel, by decide +kernel⟩ (by decide +kernel)
      (.cons (n := 20) ⟨20, by decide +kernel, by decide +kernel⟩ (by decide +kernel) .nil))

/-- What is printed may have been given by the module or by `f`. -/
example : makeUpCalls exUncalled exScopes [0, 1, 3, 4, 6] [6] (computedOf exUncalled 4 [6]) [⟨10, 0⟩, ⟨11, 3⟩] (links exUncalled (exPhases exUncalled)).1 =
    [(⟨0, 2, .read⟩, ⟨0, 0, .assign⟩), (⟨0, 2, .read⟩, ⟨0, 1, .reassign⟩)] := by decide +kernel

theorem exUncalled_reach {s b : Nat} (h : Reach exUncalled.succ s b) : (s < 3 → b < 3) ∧ (3 ≤ s → s < 6 → 3 ≤ b ∧ b < 6) ∧ (6 ≤ s → s < 8 → 6 ≤ b ∧ b < 8) := by
  induction h with
  | start => omega
  | next _ hc ih =>
    simp only [exUncalled] at hc
    repeat' split at hc
    all_goals simp at hc
    all_goals omega

theorem exUncalled_graphs : Graphs exUncalled exReach [0, 3, 6] := by
  have h0 : Reach exUncalled.succ 0 1 := Reach.start.next (by decide)
  have h3 : Reach exUncalled.succ 3 4 := Reach.start.next (by decide)
  have h6 : Reach exUncalled.succ 6 7 := Reach.start.next (by decide)
  have hE : ∀ b, Ever exUncalled [0, 3, 6] b ↔ b < 8 := by
    intro b
    constructor
    · rintro ⟨s, hs, h⟩
      have := exUncalled_reach h
      simp only [List.mem_cons, List.not_mem_nil, or_false] at hs
      omega
    · intro h
      match b, h with
      | 0, _ => exact ⟨0, by simp, .start⟩
      | 1, _ => exact ⟨0, by simp, h0⟩
      | 2, _ => exact ⟨0, by simp, h0.next (by decide)⟩
      | 3, _ => exact ⟨3, by simp, .start⟩
      | 4, _ => exact ⟨3, by simp, h3⟩
      | 5, _ => exact ⟨3, by simp, h3.next (by decide)⟩
      | 6, _ => exact ⟨6, by simp, .start⟩
      | 7, _ => exact ⟨6, by simp, h6⟩
  refine ⟨by decide, ?_, ?_, ?_, ?_⟩
  · intro b hb
    simp only [exUncalled] at hb ⊢
    repeat' split at hb
    all_goals simp_all
  · intro b
    rw [hE]
    simp [exReach]
  · intro b hb
    rw [hE] at hb
    simp only [exUncalled, List.mem_cons, List.not_mem_nil, or_false]
    omega
  · intro s hs s' hs' b h h'
    have := exUncalled_reach h
    have := exUncalled_reach h'
    simp only [List.mem_cons, List.not_mem_nil, or_false] at hs hs'
    omega

/-- By `C139_definitions_partial`: after the module, `f` is called and then `g`, which reads what `f` wrote. -/
example : ((⟨0, 2, .read⟩, ⟨0, 1, .reassign⟩) : Event × Event) ∈
    makeUpCalls exUncalled exScopes ((exPhases exUncalled).flatMap Phase.order) [6] (computedOf exUncalled 4 [6]) [⟨10, 0⟩, ⟨11, 3⟩]
      (links exUncalled (exPhases exUncalled)).1 := by
  have hitems : ∀ b x, Item.called x ∈ exUncalled.items b → x.var = 0 → x.type = .read := by
    intro b x hx
    simp only [Prog.items, exUncalled] at hx
    repeat' split at hx
    all_goals simp at hx
  refine C139_definitions_partial (ph := phaseOf exUncalled 4 [6]) (u := ⟨11, 3⟩) (bs := [3]) (b := 4) (k := 0) (first := [.own ⟨0, 0, .assign⟩]) (calls := [.own ⟨0, 1, .reassign⟩])
    exUncalled_graphs exUncalled_phases (main := 6) (by decide)
    ⟨by simp [exPhases], ⟨20, by decide +kernel, by decide +kernel⟩, 20, by decide +kernel, rfl⟩ (by simp) hitems (by decide) ?_ (by decide) ?_
    ⟨[6], 7, Way.next .start (by decide), rfl, rfl⟩ (Calls.call (its := []) (s := 0) .nil (by decide) ⟨[0, 1], 2, (Way.start.next (by decide)).next (by decide), rfl, rfl⟩) (by simp)
    (Way.start.next (by decide)) (.inl (by decide)) (.inl rfl) ⟨[.own ⟨0, 0, .assign⟩], [], by decide, rfl, by decide, by simp⟩
  · intro u hu b hb _
    have := exUncalled_reach hb
    simp only [List.mem_cons, List.not_mem_nil, or_false] at hu
    rcases hu with rfl | rfl
    · dsimp only [exScopes] at this ⊢
      rw [if_pos (by omega)]
    · dsimp only [exScopes] at this ⊢
      rw [if_neg (by omega), if_pos (by omega)]
  · intro u _ b _ i j x y hx hy _ _ _ _
    have hlen : (exUncalled.items b).length ≤ 1 := by
      simp only [Prog.items, exUncalled]
      repeat' split
      all_goals simp
    have := (List.getElem?_eq_some_iff.1 hx).1
    have := (List.getElem?_eq_some_iff.1 hy).1
    omega

/-- As `exUncalled`, but `f` has `x = 1; x = 2`. -/
def exTwice : Prog :=
  { exUncalled with locs := fun b => if b = 1 then [[], [.own ⟨0, 1, .reassign⟩], [.own ⟨0, 3, .reassign⟩]] else exUncalled.locs b }

/-- **C139** fails if a block gives a variable two values: `g` is not linked to the second one, which it reads if it is called after `f`, but to the first one. -/
theorem C139_twice_counterexample : Phases exTwice exReach 0 [0, 3, 6] (exPhases exTwice) ∧
    Whole exTwice 6 [.own ⟨0, 0, .assign⟩] ∧ Whole exTwice 0 [.own ⟨0, 1, .reassign⟩, .own ⟨0, 3, .reassign⟩] ∧ Way exTwice 3 [3] 4 ∧
    exTwice.items 4 = [.own ⟨0, 2, .read⟩] ∧ exTwice.items 3 = [] ∧
    makeUpCalls exTwice exScopes ((exPhases exTwice).flatMap Phase.order) [6] (computedOf exTwice 4 [6]) [⟨10, 0⟩, ⟨11, 3⟩] (links exTwice (exPhases exTwice)).1 =
      [(⟨0, 2, .read⟩, ⟨0, 0, .assign⟩), (⟨0, 2, .read⟩, ⟨0, 1, .reassign⟩)] :=
  ⟨.cons (n := 20) ⟨20, by decide +kernel, by decide +kernel⟩ (by decide +kernel)
    (.cons (n := 20) ⟨20, by decide +kernel, by decide +kernel⟩ (by decide +kernel)
      (.cons (n := 20) ⟨20, by decide +kernel, by decide +kernel⟩ (by decide +kernel) .nil)),
   ⟨[6], 7, Way.next .start (by decide), rfl, rfl⟩, ⟨[0, 1], 2, (Way.start.next (by decide)).next (by decide), rfl, rfl⟩,
   Way.start.next (by decide), by decide, by decide, by decide +kernel⟩

/-- `x = 0` and
```
def f(y):
    if y:
        pass
    def h():
        pass
    print(x)
```
Blocks of `f` are 0, 1 with the test, 2 with `pass`, 3 with the definition of `h` and what follows, and the empty 4; those of the module are 5 and 6; the graph of
`h` is left out. -/
def exNested : Prog where
  nodes := [0, 1, 2, 3, 4, 5, 6]
  succ := fun b => if b = 0 then [1] else if b = 1 then [2, 3] else if b = 2 then [3] else if b = 3 then [4] else if b = 5 then [6] else []
  locs := fun b =>
    if b = 0 then [[]] else if b = 1 then [[]] else if b = 2 then [[]] else if b = 3 then [[], [.own ⟨0, 1, .read⟩]]
    else if b = 5 then [[.own ⟨0, 0, .assign⟩], []] else []
  vars := 1

/-- `f` is 10, the module is 12, and the scope of the first location of block 3 is `h`. -/
def exNestedScopes : Scopes := ⟨fun b => if b = 3 then 11 else if b < 5 then 10 else 12, fun _ => 12⟩

/-- **C139** fails for functions in which a definition of a function or a class begins a block: nothing is linked for that block and those after it. -/
theorem C139_nested_counterexample : Phases exNested exReach 0 [0, 5] [phaseOf exNested 0 [0, 1, 2, 3], phaseOf exNested 4 [5]] ∧
    Whole exNested 5 [.own ⟨0, 0, .assign⟩] ∧ Way exNested 0 [0, 1] 3 ∧
    exNested.items 3 = [.own ⟨0, 1, .read⟩] ∧ exNested.items 0 = [] ∧ exNested.items 1 = [] ∧
    makeUpCalls exNested exNestedScopes [0, 1, 2, 3, 5] [5] (computedOf exNested 4 [5]) [⟨10, 0⟩]
      (links exNested [phaseOf exNested 0 [0, 1, 2, 3], phaseOf exNested 4 [5]]).1 = [] :=
  ⟨.cons (n := 20) ⟨20, by decide +kernel, by decide +kernel⟩ (by decide +kernel)
      (.cons (n := 20) ⟨20, by decide +kernel, by decide +kernel⟩ (by decide +kernel) .nil),
   ⟨[5], 6, Way.next .start (by decide), rfl, rfl⟩, (Way.start.next (by decide)).next (by decide), by decide, by decide, by decide, by decide +kernel⟩

/-- `def f(): print(x)`, `x = 0`, `x = 1`: blocks of `f` are 0, 1 and the empty 2, those of the module are 3 and 4. -/
def exBegin : Prog where
  nodes := [0, 1, 2, 3, 4]
  succ := fun b => if b = 0 then [1] else if b = 1 then [2] else if b = 3 then [4] else []
  locs := fun b =>
    if b = 0 then [[]] else if b = 1 then [[.own ⟨0, 2, .read⟩]] else if b = 3 then [[], [.own ⟨0, 0, .assign⟩], [.own ⟨0, 1, .reassign⟩]] else []
  vars := 1

/-- The scope of the first location of block 3, the definition of `f`, is `f`. -/
def exBeginScopes : Scopes := ⟨fun _ => 10, fun _ => 12⟩

/-- If a file begins with the definition of its last function, the first block of the module is taken for one of the function: `f` is linked to `x = 0`, although
`x` has another value at the end of the module and `f` does not give it any. -/
theorem C139_begin_counterexample : Phases exBegin exReach 0 [0, 3] [phaseOf exBegin 0 [0, 1], phaseOf exBegin 2 [3]] ∧
    (∀ its, Whole exBegin 3 its → ¬ ValueOf 0 its ⟨0, 0, .assign⟩) ∧ (∀ its, Whole exBegin 0 its → ¬ ValueOf 0 its ⟨0, 0, .assign⟩) ∧
    makeUpCalls exBegin exBeginScopes [0, 1, 3] [3] (computedOf exBegin 2 [3]) [⟨10, 0⟩] (links exBegin [phaseOf exBegin 0 [0, 1], phaseOf exBegin 2 [3]]).1 =
      [(⟨0, 2, .read⟩, ⟨0, 1, .reassign⟩), (⟨0, 2, .read⟩, ⟨0, 0, .assign⟩)] := by
  have hmain : ∀ bs b, Way exBegin 3 bs b → (bs = [] ∧ b = 3) ∨ (bs = [3] ∧ b = 4) := by
    intro bs b h
    induction h with
    | start => exact .inl ⟨rfl, rfl⟩
    | next _ hc ih =>
      rcases ih with ⟨rfl, rfl⟩ | ⟨rfl, rfl⟩
      · exact .inr ⟨rfl, by simpa [exBegin] using hc⟩
      · simp [exBegin] at hc
  have hf : ∀ bs b, Way exBegin 0 bs b → (bs = [] ∧ b = 0) ∨ (bs = [0] ∧ b = 1) ∨ (bs = [0, 1] ∧ b = 2) := by
    intro bs b h
    induction h with
    | start => exact .inl ⟨rfl, rfl⟩
    | next _ hc ih =>
      rcases ih with ⟨rfl, rfl⟩ | ⟨rfl, rfl⟩ | ⟨rfl, rfl⟩
      · exact .inr (.inl ⟨rfl, by simpa [exBegin] using hc⟩)
      · exact .inr (.inr ⟨rfl, by simpa [exBegin] using hc⟩)
      · simp [exBegin] at hc
  refine ⟨.cons (n := 20) ⟨20, by decide +kernel, by decide +kernel⟩ (by decide +kernel)
      (.cons (n := 20) ⟨20, by decide +kernel, by decide +kernel⟩ (by decide +kernel) .nil), ?_, ?_, by decide +kernel⟩
  · rintro its ⟨bs, b, hw, hl, rfl⟩ hv
    rw [valueOf_iff] at hv
    rcases hmain bs b hw with ⟨rfl, rfl⟩ | ⟨rfl, rfl⟩
    · cases hl
    · revert hv
      decide
  · rintro its ⟨bs, b, hw, hl, rfl⟩ hv
    rw [valueOf_iff] at hv
    rcases hf bs b hw with ⟨rfl, rfl⟩ | ⟨rfl, rfl⟩ | ⟨rfl, rfl⟩
    · cases hl
    · cases hl
    · revert hv
      decide

end Verif.Cfg

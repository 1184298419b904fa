import Verif.Model.Inside
import Verif.Lemmas.FlowUse

/-! Lemmas for C90: which blocks the locations of statements are added to. -/

namespace Verif.Inside

open Verif.Flow

/-- From the graph `g` with the current block `c`, only locations among `ls` are added, to `c` and to new blocks. -/
structure Lays (g : Graph) (c : Nat) (ls : List Nat) (st : Flow.State) : Prop where
  tidy : Tidy st.1 st.2
  count : g.count ≤ st.1.count
  cur : st.2 = c ∨ g.count ≤ st.2
  frame : ∀ x, x < g.count → x ≠ c → st.1.locs x = g.locs x
  at_ : ∃ u, st.1.locs c = g.locs c ++ u ∧ ∀ l ∈ u, l ∈ ls
  new : ∀ x, g.count ≤ x → ∀ l ∈ st.1.locs x, l ∈ ls

theorem Lays.nil {g : Graph} {c : Nat} (h : Tidy g c) (ls : List Nat) : Lays g c ls (g, c) where
  tidy := h
  count := Nat.le_refl _
  cur := .inl rfl
  frame _ _ _ := rfl
  at_ := ⟨[], by simp, by simp⟩
  new x hx l hl := by
    have : l ∈ g.locs x := hl
    rw [h.fresh x hx] at this; cases this

theorem Lays.move {g : Graph} {c : Nat} {ls : List Nat} {st : Flow.State} (h : Lays g c ls st) {g2 : Graph} {c2 : Nat}
    (hl : g2.locs = st.1.locs) (hc : st.1.count ≤ g2.count) (h2 : c2 < g2.count) (hcur : c2 = c ∨ g.count ≤ c2) :
    Lays g c ls (g2, c2) where
  tidy := ⟨fun b hb => by show g2.locs b = []; rw [hl]; exact h.tidy.fresh b (Nat.le_trans hc hb), h2⟩
  count := Nat.le_trans h.count hc
  cur := hcur
  frame x h1 h2 := by show g2.locs x = _; rw [hl]; exact h.frame x h1 h2
  at_ := by show ∃ u, g2.locs c = _ ∧ _; rw [hl]; exact h.at_
  new x hx l hm := by
    have hm : l ∈ g2.locs x := hm
    rw [hl] at hm; exact h.new x hx l hm

theorem Lays.mono {g : Graph} {c : Nat} {ls ls' : List Nat} {st : Flow.State} (h : Lays g c ls st) (hs : ∀ l ∈ ls, l ∈ ls') :
    Lays g c ls' st where
  tidy := h.tidy
  count := h.count
  cur := h.cur
  frame := h.frame
  at_ := by
    obtain ⟨u, h1, h2⟩ := h.at_
    exact ⟨u, h1, fun l hl => hs l (h2 l hl)⟩
  new x hx l hl := hs l (h.new x hx l hl)

theorem Lays.trans {g : Graph} {c : Nat} {ls ls' : List Nat} {st st' : Flow.State} (hc : c < g.count) (h : Lays g c ls st)
    (h' : Lays st.1 st.2 ls' st') : Lays g c (ls ++ ls') st' where
  tidy := h'.tidy
  count := Nat.le_trans h.count h'.count
  cur := by
    have := h.count
    rcases h'.cur with e | e
    · rw [e]; exact h.cur
    · exact .inr (by omega)
  frame x h1 h2 := by
    have := h.count
    rw [h'.frame x (by omega) (by rcases h.cur with e | e <;> omega), h.frame x h1 h2]
  at_ := by
    obtain ⟨u, h1, h2⟩ := h.at_
    by_cases e : st.2 = c
    · obtain ⟨u', h3, h4⟩ := h'.at_
      rw [e, h1] at h3
      refine ⟨u ++ u', by rw [h3, List.append_assoc], fun l hl => ?_⟩
      rcases List.mem_append.1 hl with hl | hl
      · exact List.mem_append_left _ (h2 l hl)
      · exact List.mem_append_right _ (h4 l hl)
    · refine ⟨u, ?_, fun l hl => List.mem_append_left _ (h2 l hl)⟩
      rw [h'.frame c (Nat.lt_of_lt_of_le hc h.count) (fun e' => e e'.symm), h1]
  new x hx l hl := by
    by_cases e : x < st.1.count
    · by_cases e' : x = st.2
      · obtain ⟨u, h3, h4⟩ := h'.at_
        rw [e', h3] at hl
        rcases List.mem_append.1 hl with hl | hl
        · exact List.mem_append_left _ (h.new _ (e' ▸ hx) l hl)
        · exact List.mem_append_right _ (h4 l hl)
      · rw [h'.frame x e e'] at hl
        exact List.mem_append_left _ (h.new x hx l hl)
    · exact List.mem_append_right _ (h'.new x (by omega) l hl)

theorem add_at (g : Graph) (c l : Nat) : (g.add c l).locs c = g.locs c ++ [l] := by simp [Graph.add]

theorem add_ne (g : Graph) {c x : Nat} (l : Nat) (h : x ≠ c) : (g.add c l).locs x = g.locs x := by simp [Graph.add, h]

theorem Lays.leaf {g : Graph} {c : Nat} (h : Tidy g c) (l : Nat) : Lays g c [l] (g.add c l, c) where
  tidy := h.add l
  count := Nat.le_refl _
  cur := .inl rfl
  frame x _ h2 := add_ne g l h2
  at_ := ⟨[l], add_at g c l, by simp⟩
  new x hx m hm := by
    have := h.cur
    have hm : m ∈ (g.add c l).locs x := hm
    rw [add_ne g l (by omega), h.fresh x hx] at hm; cases hm

theorem adds_lay {c : Nat} : ∀ (ls : List Nat) {g : Graph}, Tidy g c → Lays g c ls (g.adds c ls, c)
  | [], _, h => Lays.nil h []
  | l :: ls, _, h => (Lays.leaf h l).trans h.cur (adds_lay ls (h.add l))

theorem newFrom_lay (g : Graph) (p : Nat) : (g.newFrom p).locs = g.locs := by
  show (Graph.linkOrMerge _ _ _).locs = _
  rw [lm_locs]; rfl

/-- The location that a statement begins with is the next one of the current block, or the first one of a new block, which is not
the current one after the statement. -/
def Heads (s : Stmt) (g : Graph) (c : Nat) (st : Flow.State) : Prop :=
  (∃ u, st.1.locs c = g.locs c ++ first s :: u) ∨
  (st.1.locs c = g.locs c ∧ st.2 ≠ c ∧
    ∃ x, g.count ≤ x ∧ x < st.1.count ∧ x ≠ st.2 ∧ (st.1.locs x).head? = some (first s))

/-- It is a `with`. -/
def isEnter : Stmt → Bool
  | .enter _ _ _ => true
  | _ => false

/-- It is added as a whole and goes on. -/
def isSimple : Stmt → Bool
  | .simple _ => true
  | _ => false

/-- After a statement that is neither a `with` nor added as a whole, the current block is empty and new. -/
def Closes (s : Stmt) (g : Graph) (st : Flow.State) : Prop :=
  isEnter s = false → isSimple s = false → g.count ≤ st.2 ∧ st.1.locs st.2 = []

structure Put (s : Stmt) (g : Graph) (c : Nat) (st : Flow.State) : Prop where
  lays : Lays g c s.locations st
  heads : Heads s g c st
  closes : Closes s g st

theorem jumped_locs (bd : List Exits) (j : Jump) (l : Nat) (g : Graph) (c : Nat) :
    (jumped bd j l g c).locs = (g.add c l).locs ∧ (jumped bd j l g c).count = g.count := by
  unfold jumped
  split <;> exact ⟨rfl, rfl⟩

/-- The locations that a statement begins with stay where they are. -/
theorem head_of_at {s : Stmt} {g g1 : Graph} {c : Nat} {ls : List Nat} {st : Flow.State} (h1 : g1.locs c = g.locs c ++ [first s])
    (h : Lays g1 c ls st) : Heads s g c st := by
  obtain ⟨u, h2, _⟩ := h.at_
  exact .inl ⟨u, by rw [h2, h1]; simp⟩

theorem loopHead_lay {g : Graph} {c : Nat} (h : Tidy g c) (t : Nat) : Lays g c [t] (loopHead t (g, c)) ∧
    (loopHead t (g, c)).1.count = g.count + 3 ∧ (loopHead t (g, c)).2 = g.count + 2 ∧
    (∀ x, (loopHead t (g, c)).1.locs x = if x = g.count then [t] else g.locs x) := by
  have hl : (loopHead t (g, c)).1.locs = (g.new.add g.count t).locs := by
    show (Graph.newFrom _ _).locs = _
    rw [newFrom_lay]
    show (Graph.linkOrMerge _ _ _).locs = _
    rw [lm_locs]
  have hcnt : (loopHead t (g, c)).1.count = g.count + 3 := by
    show (Graph.newFrom _ _).count = _
    rw [newFrom_cnt]
    show (Graph.linkOrMerge _ _ _).count + 1 + 1 = _
    rw [lm_cnt]; rfl
  have hx : ∀ x, (loopHead t (g, c)).1.locs x = if x = g.count then [t] else g.locs x := by
    intro x
    rw [hl]
    by_cases e : x = g.count
    · subst e
      rw [add_at, if_pos rfl]
      show g.locs g.count ++ [t] = _
      rw [h.fresh _ (Nat.le_refl _)]; rfl
    · rw [add_ne _ _ e, if_neg e]; rfl
  have hc := h.cur
  refine ⟨⟨⟨fun b hb => ?_, ?_⟩, by omega, .inr ?_, fun x h1 _ => ?_, ⟨[], ?_, by simp⟩, fun x h1 l hl => ?_⟩, hcnt, rfl, hx⟩
  · rw [hcnt] at hb
    rw [hx, if_neg (by omega), h.fresh b (by omega)]
  · rw [hcnt]; show g.count + 2 < _; omega
  · show g.count ≤ g.count + 2; omega
  · rw [hx, if_neg (by omega)]
  · rw [hx, if_neg (by omega)]; simp
  · rw [hx] at hl
    by_cases e : x = g.count
    · rw [if_pos e] at hl; exact hl
    · rw [if_neg e, h.fresh x h1] at hl; cases hl

theorem loopBack_lay {g : Graph} {c : Nat} {ls : List Nat} {st : Flow.State} (x : Nat) (h : Lays g c ls st) :
    Lays g c ls (loopBack x st) ∧ st.1.count ≤ (loopBack x st).2 ∧ (loopBack x st).1.locs = st.1.locs ∧
    st.1.count ≤ (loopBack x st).1.count := by
  have hl : (loopBack x st).1.locs = st.1.locs := by
    show (Graph.newFrom _ _).locs = _
    rw [newFrom_lay, lm_locs]
  have e2 : (loopBack x st).2 = st.1.count := by
    show (Graph.linkOrMerge _ _ _).count = _
    rw [lm_cnt]
  have e1 : (loopBack x st).1.count = st.1.count + 1 := by
    show (Graph.newFrom _ _).count = _
    rw [newFrom_cnt, lm_cnt]
  have := h.count
  have hm := h.move (g2 := (loopBack x st).1) (c2 := (loopBack x st).2) hl (by omega) (by omega) (.inr (by omega))
  exact ⟨hm, by omega, hl, by omega⟩

/-- The state after a loop, from the state in which its body begins. -/
def loopRest (b e : Body) (bd : List Exits) (k : Nat) (ex : Exits) (st : Flow.State) : Flow.State :=
  let st1 := visitBody b (ex :: bd) st
  let st2 := visitBody e bd (loopBack k st1)
  (st2.1.linkOrMerge st2.2 (k + 1), k + 1)

/-- The state after an `if`, from the state after its test. -/
def condRest (b e : Body) (bd : List Exits) (st : Flow.State) : Flow.State :=
  let st1 := visitBody b bd (st.1.newFrom st.2, st.1.count)
  match e with
  | .nil => join st1.1 st1.2 st.2
  | .cons s rest =>
    let st2 := visitBody (.cons s rest) bd (st1.1.newFrom st.2, st1.1.count)
    join st2.1 st1.2 st2.2

theorem join_lay {g : Graph} {c : Nat} {ls : List Nat} {st : Flow.State} (h : Lays g c ls st) (a b : Nat) :
    Lays g c ls (join st.1 a b) ∧ (join st.1 a b).2 = st.1.count ∧ (join st.1 a b).1.locs = st.1.locs := by
  have hl : (join st.1 a b).1.locs = st.1.locs := by
    show (Graph.linkOrMerge _ _ _).locs = _
    rw [lm_locs, lm_locs]; rfl
  have hc : (join st.1 a b).1.count = st.1.count + 1 := by
    show (Graph.linkOrMerge _ _ _).count = _
    rw [lm_cnt, lm_cnt]; rfl
  have h2 : (join st.1 a b).2 = st.1.count := rfl
  have := h.count
  exact ⟨h.move (g2 := (join st.1 a b).1) (c2 := (join st.1 a b).2) hl (by omega) (by omega) (.inr (by omega)), h2, hl⟩

/-- From the graph `g`, only locations among `ls` are added, to new blocks. -/
structure HLays (g : Graph) (ls : List Nat) (g' : Graph) : Prop where
  count : g.count ≤ g'.count
  fresh : ∀ b, g'.count ≤ b → g'.locs b = []
  frame : ∀ x, x < g.count → g'.locs x = g.locs x
  new : ∀ x, g.count ≤ x → ∀ l ∈ g'.locs x, l ∈ ls

theorem HLays.lays {g g' : Graph} {c : Nat} {ls : List Nat} (h : HLays g ls g') (hc : c < g.count) : Lays g c ls (g', c) where
  tidy := ⟨h.fresh, Nat.lt_of_lt_of_le hc h.count⟩
  count := h.count
  cur := .inl rfl
  frame x h1 _ := h.frame x h1
  at_ := ⟨[], by show g'.locs c = _; rw [h.frame c hc]; simp, by simp⟩
  new := h.new

theorem addName_lay {g : Graph} {c : Nat} (name : Option Nat) (h : Tidy g c) : Lays g c name.toList (addName name g c, c) := by
  cases name with
  | none => exact Lays.nil h []
  | some l => exact Lays.leaf h l

theorem new3_count (g : Graph) : g.new3.count = g.count + 3 := rfl
theorem new3_locs (g : Graph) : g.new3.locs = g.locs := rfl

theorem tryEnd_lay (k : Nat) (st : Flow.State) (after : List Nat) : (tryEnd k st after).1.locs = st.1.locs ∧
    (tryEnd k st after).1.count = st.1.count ∧ (tryEnd k st after).2 = k + 2 := by
  refine ⟨?_, ?_, rfl⟩
  · show (Graph.linkOrMerge _ _ _).locs = _
    rw [lm_locs, (multiple_same _ st.2 after).2, lm_locs]
  · show (Graph.linkOrMerge _ _ _).count = _
    rw [lm_cnt, (multiple_same _ st.2 after).1, lm_cnt]

/-- The block that a `try` begins with: the current one if it is empty. -/
theorem tryBlock_lay {g : Graph} {c : Nat} (h : Tidy g c) : Lays g c [] (tryBlock (g, c)) ∧ (tryBlock (g, c)).1.locs = g.locs ∧
    g.locs (tryBlock (g, c)).2 = [] ∧ ((tryBlock (g, c)).2 = c ∨ ((tryBlock (g, c)).2 = g.count ∧ g.count < (tryBlock (g, c)).1.count)) := by
  unfold tryBlock
  split
  · rename_i he
    exact ⟨Lays.nil h [], rfl, he, .inl rfl⟩
  · refine ⟨(Lays.nil h []).move (newFrom_lay _ _) ?_ ?_ (.inr (Nat.le_refl _)), newFrom_lay _ _, h.fresh _ (Nat.le_refl _), .inr ⟨rfl, ?_⟩⟩
    · rw [newFrom_cnt]; exact Nat.le_succ _
    · rw [newFrom_cnt]; exact Nat.lt_succ_self _
    · show g.count < (g.newFrom c).count; rw [newFrom_cnt]; exact Nat.lt_succ_self _

/-- What the clauses and the `else` of a `try` add, and its body: from the block that it begins with. -/
theorem try_put {f : Stmt} {ls lh le : List Nat} {g0 g1 : Graph} {c0 : Nat} (after : List Nat) {st1 st2 : Flow.State}
    (h0 : Tidy g0 c0) (he : g0.locs c0 = []) (h1 : HLays g0.new3 lh g1) (hf : Put f g1 c0 st1) (hr : Lays st1.1 st1.2 ls st2)
    (hle : ∀ l, l ∈ lh ∨ l ∈ f.locations ∨ l ∈ ls → l ∈ le) :
    Lays g0 c0 le (tryEnd g0.count st2 after) ∧ g0.count ≤ (tryEnd g0.count st2 after).2 ∧
    (tryEnd g0.count st2 after).1.locs (tryEnd g0.count st2 after).2 = [] ∧
    ∃ x, (x = c0 ∨ g0.count ≤ x) ∧ x < (tryEnd g0.count st2 after).1.count ∧ x ≠ (tryEnd g0.count st2 after).2 ∧
      ((tryEnd g0.count st2 after).1.locs x).head? = some (first f) ∧ (x ≠ c0 → (tryEnd g0.count st2 after).1.locs c0 = []) := by
  obtain ⟨e1, e2, e3⟩ := tryEnd_lay g0.count st2 after
  have hc0 := h0.cur
  have hn : Lays g0 c0 [] (g0.new3, c0) := (Lays.nil h0 []).move rfl (by show g0.count ≤ g0.count + 3; omega) (by rw [new3_count]; omega) (.inl rfl)
  have ha := hn.trans hc0 (h1.lays (c := c0) (by rw [new3_count]; omega))
  have hb := ha.trans hc0 hf.lays
  have hc := hb.trans hc0 hr
  have hcnt1 := h1.count
  rw [new3_count] at hcnt1
  have hcnt2 := hf.lays.count
  have hcnt3 := hr.count
  have hk : st2.1.locs (g0.count + 2) = [] := by
    rw [hr.frame _ (by omega) ?_, hf.lays.frame _ (by omega) (by omega), h1.frame _ (by rw [new3_count]; omega), new3_locs,
      h0.fresh _ (by omega)]
    rcases hf.lays.cur with e | e <;> omega
  have hg1 : g1.locs c0 = [] := by rw [h1.frame c0 (by rw [new3_count]; omega), new3_locs, he]
  refine ⟨?_, by omega, by rw [e1, e3, hk], ?_⟩
  · refine (hc.mono fun l hl => hle l ?_).move (g2 := (tryEnd g0.count st2 after).1) (c2 := (tryEnd g0.count st2 after).2) e1
      (by omega) (by omega) (.inr (by omega))
    simp only [List.nil_append, List.mem_append] at hl
    rcases hl with (hl | hl) | hl
    · exact .inl hl
    · exact .inr (.inl hl)
    · exact .inr (.inr hl)
  · rw [e1, e2, e3]
    rcases hf.heads with ⟨u, hu⟩ | ⟨h3, h4, x, h5, h6, h7, h8⟩
    · refine ⟨c0, .inl rfl, by omega, by omega, ?_, fun h => absurd rfl h⟩
      by_cases e : st1.2 = c0
      · obtain ⟨u', h', _⟩ := hr.at_
        rw [e, hu, hg1] at h'
        rw [h']; simp
      · rw [hr.frame c0 (by omega) (fun e' => e e'.symm), hu, hg1]; simp
    · refine ⟨x, .inr (by omega), by omega, by omega, ?_, fun _ => ?_⟩
      · rw [hr.frame x h6 h7, h8]
      · rw [hr.frame c0 (by omega) (fun e => h4 e.symm), h3, hg1]

theorem newFrom_start {g : Graph} {c : Nat} {ls : List Nat} {st : Flow.State} (h : Lays g c ls st) (p : Nat) :
    Lays g c ls (st.1.newFrom p, st.1.count) :=
  h.move (newFrom_lay _ _) (by rw [newFrom_cnt]; omega) (by rw [newFrom_cnt]; omega) (.inr h.count)

/-- What visiting statements adds. -/
def Laying (p : Body) : Prop := ∀ (bd : List Exits) {g : Graph} {c : Nat}, Tidy g c → Lays g c p.locations (visitBody p bd (g, c))

theorem cond_lay {b e : Body} (hb : Laying b) (he : Laying e) (bd : List Exits) {g : Graph} {c : Nat} (h : Tidy g c) :
    Lays g c (b.locations ++ e.locations) (condRest b e bd (g, c)) ∧ g.count ≤ (condRest b e bd (g, c)).2 ∧
      (condRest b e bd (g, c)).1.locs (condRest b e bd (g, c)).2 = [] := by
  have h1 := newFrom_start (Lays.nil h []) c
  have h2 := h1.trans h.cur (hb bd h1.tidy)
  cases e with
  | nil =>
    simp only [condRest]
    obtain ⟨k1, k2, k3⟩ := join_lay h2 (visitBody b bd (g.newFrom c, g.count)).2 c
    refine ⟨k1.mono (fun l hl => by simpa [Body.locations] using hl), by rw [k2]; exact h2.count, ?_⟩
    rw [k3, k2]; exact h2.tidy.fresh _ (Nat.le_refl _)
  | cons s rest =>
    simp only [condRest]
    have h3 := newFrom_start h2 c
    have h4 := h3.trans h.cur (he bd h3.tidy)
    obtain ⟨k1, k2, k3⟩ := join_lay h4 (visitBody b bd (g.newFrom c, g.count)).2
      (visitBody (.cons s rest) bd ((visitBody b bd (g.newFrom c, g.count)).1.newFrom c, (visitBody b bd (g.newFrom c, g.count)).1.count)).2
    refine ⟨k1.mono (by simp), by rw [k2]; exact h4.count, ?_⟩
    rw [k3, k2]; exact h4.tidy.fresh _ (Nat.le_refl _)

theorem loop_lay {b e : Body} (hb : Laying b) (he : Laying e) (bd : List Exits) (k : Nat) (ex : Exits) {st : Flow.State}
    (h : Tidy st.1 st.2) (h1 : st.2 = k + 2) (h2 : st.1.count = k + 3) (h3 : st.1.locs (k + 1) = []) :
    ∃ st', loopRest b e bd k ex st = (st', k + 1) ∧
      Lays st.1 st.2 (b.locations ++ e.locations) (st', st.2) ∧ st'.locs (k + 1) = [] := by
  have k1 := hb (ex :: bd) h
  obtain ⟨k2, k3, k4, k5⟩ := loopBack_lay k k1
  have k6 := he bd k2.tidy
  have k7 := k2.trans h.cur k6
  have hc := k7.count
  refine ⟨_, rfl, ?_, ?_⟩
  · exact k7.move (lm_locs _ _ _) (by rw [lm_cnt]; exact Nat.le_refl _) (by rw [lm_cnt]; exact Nat.lt_of_lt_of_le h.cur hc) (.inl rfl)
  · rw [lm_locs]
    have := k1.count
    have h4 : (visitBody e bd (loopBack k (visitBody b (ex :: bd) st))).1.locs (k + 1) = (loopBack k (visitBody b (ex :: bd) st)).1.locs (k + 1) :=
      k6.frame (k + 1) (by omega) (by omega)
    rw [h4, k4, k1.frame (k + 1) (by omega) (by omega), h3]

mutual
theorem visit_put : ∀ (s : Stmt) (bd : List Exits) {g : Graph} {c : Nat}, Tidy g c → Put s g c (visit s bd (g, c))
  | .simple l, bd, g, c, h => by
    simp only [visit]
    exact ⟨Lays.leaf h l, .inl ⟨[], add_at g c l⟩, fun _ h2 => nomatch h2⟩
  | .jump j l, bd, g, c, h => by
    simp only [visit]
    obtain ⟨h1, h2⟩ := jumped_locs bd j l g c
    have hn : (jumped bd j l g c).new.locs = (g.add c l).locs := h1
    have hc : (jumped bd j l g c).new.count = g.count + 1 := by show (jumped bd j l g c).count + 1 = _; rw [h2]
    have := h.cur
    refine ⟨(Lays.leaf h l).move hn (by rw [hc]; exact Nat.le_succ _) (by rw [hc, h2]; exact Nat.lt_succ_self _) (.inr (by rw [h2]; exact Nat.le_refl _)),
      .inl ⟨[], ?_⟩, fun _ _ => ⟨by rw [h2]; exact Nat.le_refl _, ?_⟩⟩
    · show (jumped bd j l g c).new.locs c = _
      rw [hn]; exact add_at g c l
    · show (jumped bd j l g c).new.locs (jumped bd j l g c).count = _
      rw [hn, h2, add_ne _ _ (by omega)]; exact h.fresh _ (Nat.le_refl _)
  | .cond t b e, bd, g, c, h => by
    have key := cond_lay (fun bd _ _ h => body_lay b bd h) (fun bd _ _ h => body_lay e bd h) bd (h.add t)
    have hv : visit (.cond t b e) bd (g, c) = condRest b e bd (g.add c t, c) := by
      cases e with
      | nil => simp only [visit, condRest]; rfl
      | cons s rest => simp only [visit, condRest, visitBody]; rfl
    rw [hv]
    have hl := (Lays.leaf h t).trans h.cur key.1
    refine ⟨hl.mono (by simp [Stmt.locations]), head_of_at (add_at g c t) key.1, fun _ _ => ⟨key.2.1, key.2.2⟩⟩
  | .loop t b e, bd, g, c, h => by
    obtain ⟨h1, h2, h3, h4⟩ := loopHead_lay h t
    have key := loop_lay (fun bd _ _ h => body_lay b bd h) (fun bd _ _ h => body_lay e bd h) bd g.count (loopExits g) h1.tidy (by omega) (by omega)
      (by rw [h4, if_neg (by omega)]; exact h.fresh _ (by omega))
    have hv : visit (.loop t b e) bd (g, c) = loopRest b e bd g.count (loopExits g) (loopHead t (g, c)) := by
      simp only [visit, loopRest]
    rw [hv]
    obtain ⟨g', hg', k1, k3⟩ := key
    rw [hg']
    have hc := h.cur
    have hcnt : (loopHead t (g, c)).1.count ≤ g'.count := k1.count
    have hl := (h1.trans h.cur k1).move (g2 := g') (c2 := g.count + 1) rfl (Nat.le_refl _) (by omega) (.inr (by omega))
    refine ⟨hl.mono (by simp [Stmt.locations]), .inr ⟨?_, ?_, g.count, Nat.le_refl _, ?_, ?_, ?_⟩, fun _ _ => ⟨by show g.count ≤ g.count + 1; omega, k3⟩⟩
    · show g'.locs c = _
      have := k1.frame c (by omega) (by omega)
      rw [h4, if_neg (by omega)] at this
      exact this
    · show g.count + 1 ≠ c; omega
    · show g.count < g'.count; omega
    · show g.count ≠ g.count + 1; omega
    · have := k1.frame g.count (by omega) (by omega)
      rw [h4, if_pos rfl] at this
      show (g'.locs g.count).head? = _
      rw [show g'.locs g.count = [t] from this]; rfl
  | .each i t b e, bd, g, c, h => by
    have h0 := h.add i
    obtain ⟨h1, h2, h3, h4⟩ := loopHead_lay h0 t
    have hgc : (g.add c i).count = g.count := rfl
    rw [hgc] at h2 h3 h4
    have hc := h.cur
    have key := loop_lay (fun bd _ _ h => body_lay b bd h) (fun bd _ _ h => body_lay e bd h) bd g.count (loopExits g) h1.tidy (by omega) (by omega)
      (by rw [h4, if_neg (by omega), add_ne _ _ (by omega)]; exact h.fresh _ (by omega))
    have hv : visit (.each i t b e) bd (g, c) = loopRest b e bd g.count (loopExits g) (loopHead t (g.add c i, c)) := by
      simp only [visit, loopRest]
    rw [hv]
    obtain ⟨g', hg', k1, k3⟩ := key
    rw [hg']
    have hcnt : (loopHead t (g.add c i, c)).1.count ≤ g'.count := k1.count
    have hl := (h1.trans h0.cur k1).move (g2 := g') (c2 := g.count + 1) rfl (Nat.le_refl _) (by omega) (.inr (by omega))
    refine ⟨((Lays.leaf h i).trans h.cur hl).mono (by simp [Stmt.locations]), head_of_at (add_at g c i) hl,
      fun _ _ => ⟨by show g.count ≤ g.count + 1; omega, k3⟩⟩
  | .enter i is b, bd, g, c, h => by
    simp only [visit]
    have h1 := adds_lay is (h.add i)
    have h2 := h1.trans (h.add i).cur (body_lay b bd h1.tidy)
    exact ⟨((Lays.leaf h i).trans h.cur h2).mono (by simp [Stmt.locations]), head_of_at (add_at g c i) h2, fun h => nomatch h⟩
  | .try_ f r hs e l, bd, g, c, h => by
    obtain ⟨h0, hl0, he0, hcur⟩ := tryBlock_lay h
    generalize ht : tryBlock (g, c) = st0 at h0 hl0 he0 hcur
    obtain ⟨g0, c0⟩ := st0
    have hc := h.cur
    have hcnt0 : g.count ≤ g0.count := h0.count
    have hl0 : g0.locs = g.locs := hl0
    have he0 : g0.locs c0 = [] := by rw [hl0]; exact he0
    have hcur : c0 = c ∨ (c0 = g.count ∧ g.count < g0.count) := hcur
    have h1 := handlers_lay hs g0.count ([(.raise none, g0.count + 2)] :: bd) (g := g0.new3)
      (fun b hb => by rw [new3_locs]; exact h0.tidy.fresh b (by rw [new3_count] at hb; show g0.count ≤ b; omega))
    have hels : ∀ (bd : List Exits) {g : Graph} {c : Nat}, Tidy g c → Lays g c e.locations (visitBody e bd (g, c)) :=
      fun bd _ _ h => body_lay e bd h
    -- what the parts add, put together
    have fin : ∀ st' : Flow.State, (∃ x, (x = c0 ∨ g0.count ≤ x) ∧ x < st'.1.count ∧ x ≠ st'.2 ∧
        (st'.1.locs x).head? = some (first f) ∧ (x ≠ c0 → st'.1.locs c0 = [])) →
        Lays g0 c0 (Stmt.try_ f r hs e l).locations st' → g0.count ≤ st'.2 → st'.1.locs st'.2 = [] →
        Put (.try_ f r hs e l) g c st' := by
      rintro st' ⟨x, x1, x2, x3, x4, x5⟩ hlay hk hkl
      refine ⟨(h0.trans hc hlay).mono (by simp), ?_, fun _ _ => ⟨by omega, hkl⟩⟩
      by_cases ec : x = c
      · subst ec
        left
        have hx0 : x = c0 := by rcases x1 with e | e <;> omega
        cases hx : st'.1.locs x with
        | nil => rw [hx] at x4; cases x4
        | cons a u =>
          rw [hx] at x4
          simp only [List.head?_cons, Option.some.injEq] at x4
          subst x4
          refine ⟨u, ?_⟩
          rw [← hl0, hx0, he0]; rfl
      · right
        refine ⟨?_, by omega, x, ?_, x2, x3, x4⟩
        · by_cases e0 : c0 = c
          · rw [← hl0, ← e0, x5 (by omega), he0]
          · rw [hlay.frame c (by omega) (by omega), hl0]
        · rcases x1 with e | e <;> omega
    cases e with
    | nil =>
      simp only [visit, ht]
      generalize visitHandlers hs g0.count ([(.raise none, g0.count + 2)] :: bd) g0.new3 = r1 at h1
      obtain ⟨g1, hs1, bd1⟩ := r1
      have h1 : HLays g0.new3 hs.locations g1 := h1
      have hcnt : g0.count + 3 ≤ g1.count := h1.count
      have hcc : c0 < g0.count := h0.tidy.cur
      have hf := visit_put f bd1 (g := g1) (c := c0) ⟨h1.fresh, by omega⟩
      have hr := body_lay r bd1 hf.lays.tidy
      obtain ⟨k1, k2, k3, k4⟩ := try_put (le := (Stmt.try_ f r hs .nil l).locations) (hs1 ++ [g0.count + 1]) h0.tidy he0 h1 hf hr (by
        intro l hl
        simp only [Stmt.locations, List.mem_append]
        rcases hl with hl | hl | hl <;> simp [hl])
      exact fin _ k4 k1 k2 k3
    | cons s os =>
      simp only [visit, ht]
      generalize visitHandlers hs g0.count ([(.raise none, g0.count + 2)] :: bd) g0.new3 = r1 at h1
      obtain ⟨g1, hs1, bd1⟩ := r1
      have h1 : HLays g0.new3 hs.locations g1 := h1
      have hcnt : g0.count + 3 ≤ g1.count := h1.count
      have hcc : c0 < g0.count := h0.tidy.cur
      have hn : Tidy g1.new g1.count := ⟨fun b hb => h1.fresh b (by have : g1.count + 1 ≤ b := hb; omega), Nat.lt_succ_self _⟩
      have ho := hels bd1 hn
      simp only [visitBody] at ho
      generalize visitBody os bd1 (visit s bd1 (g1.new, g1.count)) = st2 at ho
      have hocnt : g1.count + 1 ≤ st2.1.count := ho.count
      have h2 : HLays g0.new3 (hs.locations ++ (Body.cons s os).locations) (st2.1.linkOrMerge st2.2 (g0.count + 1)) := by
        refine ⟨?_, ?_, ?_, ?_⟩
        · rw [lm_cnt, new3_count]; omega
        · rw [lm_cnt, lm_locs]; exact ho.tidy.fresh
        · intro x hx
          rw [new3_count] at hx
          rw [lm_locs, ho.frame x (by show x < g1.count + 1; omega) (by omega)]
          exact h1.frame x (by rw [new3_count]; exact hx)
        · intro x hx l hl
          rw [lm_locs] at hl
          by_cases ex : x < g1.count
          · rw [ho.frame x (by show x < g1.count + 1; omega) (by omega)] at hl
            exact List.mem_append_left _ (h1.new x hx l hl)
          · by_cases ex' : x = g1.count
            · subst ex'
              obtain ⟨u, hu, hu'⟩ := ho.at_
              rw [hu, show g1.new.locs g1.count = [] from h1.fresh _ (Nat.le_refl _)] at hl
              exact List.mem_append_right _ (hu' l hl)
            · exact List.mem_append_right _ (ho.new x (by show g1.count + 1 ≤ x; omega) l hl)
      have hf := visit_put f bd1 (g := st2.1.linkOrMerge st2.2 (g0.count + 1)) (c := c0) ⟨h2.fresh, by rw [lm_cnt]; omega⟩
      have hr := body_lay r bd1 hf.lays.tidy
      obtain ⟨k1, k2, k3, k4⟩ := try_put (le := (Stmt.try_ f r hs (.cons s os) l).locations) (hs1 ++ [g1.count]) h0.tidy he0 h2 hf hr (by
        intro l hl
        simp only [Stmt.locations, List.mem_append] at hl ⊢
        rcases hl with (hl | hl) | hl | hl <;> simp [hl])
      exact fin _ k4 k1 k2 k3
theorem body_lay : ∀ (p : Body) (bd : List Exits) {g : Graph} {c : Nat}, Tidy g c → Lays g c p.locations (visitBody p bd (g, c))
  | .nil, bd, g, c, h => by
    simp only [visitBody]
    exact Lays.nil h _
  | .cons s rest, bd, g, c, h => by
    simp only [visitBody, Body.locations]
    have h1 := (visit_put s bd h).lays
    exact h1.trans h.cur (body_lay rest bd h1.tidy)
theorem handlers_lay : ∀ (hs : Handlers) (k : Nat) (bd : List Exits) {g : Graph}, (∀ b, g.count ≤ b → g.locs b = []) →
    HLays g hs.locations (visitHandlers hs k bd g).1
  | .nil, k, bd, g, h => by
    simp only [visitHandlers]
    refine ⟨Nat.le_refl _, h, fun _ _ => rfl, fun x hx l hl => ?_⟩
    rw [h x hx] at hl; cases hl
  | .cons ex name b rest, k, bd, g, h => by
    simp only [visitHandlers]
    have h1 := handlers_lay rest k bd h
    generalize visitHandlers rest k bd g = r1 at h1
    obtain ⟨g1, hs1, bd1⟩ := r1
    have h1 : HLays g rest.locations g1 := h1
    have hn : Tidy g1.new g1.count := ⟨fun b hb => h1.fresh b (by have : g1.count + 1 ≤ b := hb; omega), Nat.lt_succ_self _⟩
    have h2 := addName_lay name hn
    have h3 := h2.trans hn.cur (body_lay b (clauseExits ex g1.count ++ bd1) h2.tidy)
    have hcnt : g1.count + 1 ≤ (visitBody b (clauseExits ex g1.count ++ bd1) (addName name g1.new g1.count, g1.count)).1.count := h3.count
    have hcnt1 : g.count ≤ g1.count := h1.count
    refine ⟨?_, ?_, ?_, ?_⟩
    · rw [lm_cnt]; show g.count ≤ (visitBody b (clauseExits ex g1.count ++ bd1) (addName name g1.new g1.count, g1.count)).1.count; omega
    · rw [lm_cnt, lm_locs]; exact h3.tidy.fresh
    · intro x hx
      rw [lm_locs, h3.frame x (by show x < g1.count + 1; omega) (by omega)]
      exact h1.frame x hx
    · intro x hx l hl
      rw [lm_locs] at hl
      simp only [Handlers.locations]
      by_cases ex1 : x < g1.count
      · rw [h3.frame x (by show x < g1.count + 1; omega) (by omega)] at hl
        have := h1.new x hx l hl
        simp [this]
      · have : l ∈ name.toList ++ b.locations := by
          by_cases ex' : x = g1.count
          · subst ex'
            obtain ⟨u, hu, hu'⟩ := h3.at_
            rw [hu, show g1.new.locs g1.count = [] from h1.fresh _ (Nat.le_refl _)] at hl
            exact hu' l hl
          · exact h3.new x (by show g1.count + 1 ≤ x; omega) l hl
        rw [← List.append_assoc]
        exact List.mem_append_left _ this
end

end Verif.Inside

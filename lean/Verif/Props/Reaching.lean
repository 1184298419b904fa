import Verif.Lemmas.Scan
import Verif.Lemmas.Fixpoint
import Verif.Props.Cfg

/-! C30: reaching definitions. -/

namespace Verif.Cfg

/-- The block is reachable from the start of one of the graphs. -/
def Ever (P : Prog) (starts : List Nat) (b : Nat) : Prop := ∃ start ∈ starts, Reach P.succ start b

/-- There is a path of the program on which `d` gives `v` a value and after which, before the `k`-th item of block
`b`, that value has not certainly been replaced: items of the block itself that give `v` a value replace it, what
happens in a function called may or may not happen. -/
inductive Reaching (P : Prog) (starts : List Nat) (v : Nat) (d : Event) : Nat → Nat → Prop
  | gen {b k : Nat} {it : Item} : Ever P starts b → (P.items b)[k]? = some it → it = .own d ∨ it = .called d →
    d.var = v → d.type ≠ .read → Reaching P starts v d b (k + 1)
  | skip {b k : Nat} {it : Item} : Reaching P starts v d b k → (P.items b)[k]? = some it →
    (∀ e, it = .own e → e.var = v → e.type = .read) → Reaching P starts v d b (k + 1)
  | edge {b c : Nat} : Reaching P starts v d b (P.items b).length → c ∈ P.succ b → Reaching P starts v d c 0

theorem kills_iff {t : EventType} : t.kills = true ↔ t ≠ .read := by cases t <;> decide

theorem kills_false {t : EventType} : t.kills = false ↔ t = .read := by cases t <;> decide

theorem generates_iff {t : EventType} : t.generates = true ↔ t = .read ∨ t = .modify := by cases t <;> decide

/-- What the construction of graphs guarantees: a start has a location, blocks without locations have no
successors, blocks are marked reachable if they are (C29), and graphs do not share blocks. -/
structure Graphs (P : Prog) (reachable : Nat → Bool) (starts : List Nat) : Prop where
  locs : ∀ start ∈ starts, P.locs start ≠ []
  empty : ∀ b, P.locs b = [] → P.succ b = []
  reach : ∀ b, reachable b = true ↔ Ever P starts b
  nodes : ∀ b, Ever P starts b → b ∈ P.nodes
  apart : ∀ s ∈ starts, ∀ s' ∈ starts, ∀ b, Reach P.succ s b → Reach P.succ s' b → s = s'

theorem reach_inner {P : Prog} {reachable : Nat → Bool} {starts : List Nat} (hG : Graphs P reachable starts) {start : Nat}
    (hs : start ∈ starts) (b : Nat) : Reach P.inner start b ↔ Reach P.succ start b ∧ P.locs b ≠ [] := by
  constructor
  · intro h
    induction h with
    | start => exact ⟨.start, hG.locs _ hs⟩
    | next _ hc ih => exact ⟨ih.1.next (mem_inner.1 hc).1, (mem_inner.1 hc).2⟩
  · rintro ⟨h, hl⟩
    induction h with
    | start => exact .start
    | @next b c hb hc ih =>
      refine (ih ?_).next (mem_inner.2 ⟨hc, hl⟩)
      intro hn
      rw [hG.empty b hn] at hc
      cases hc

theorem blocks_of {P : Prog} {reachable : Nat → Bool} {starts : List Nat} (hG : Graphs P reachable starts) {start : Nat}
    (hs : start ∈ starts) {order : List Nat} (hy : Yields P.inner start order) : Blocks P reachable order := by
  obtain ⟨hnd, hmem⟩ := C29_blocks hy
  have hm : ∀ b, b ∈ order ↔ Reach P.succ start b ∧ P.locs b ≠ [] := fun b => (hmem b).trans (reach_inner hG hs b)
  refine ⟨hnd, fun b hb => ((hm b).1 hb).2, ?_, ?_, ?_, ?_⟩
  · intro b hb c hc
    exact (hm c).2 ⟨((hm b).1 hb).1.next (mem_inner.1 hc).1, (mem_inner.1 hc).2⟩
  · intro b hb p hp hr
    obtain ⟨s, hs', hrs⟩ := (hG.reach p).1 hr
    have : s = start := hG.apart s hs' start hs b (hrs.next hp) ((hm b).1 hb).1
    subst this
    refine (hm p).2 ⟨hrs, fun hn => ?_⟩
    rw [hG.empty p hn] at hp
    cases hp
  · exact fun b hb => (hG.reach b).2 ⟨start, hs, ((hm b).1 hb).1⟩
  · exact fun b hb => hG.nodes b ⟨start, hs, ((hm b).1 hb).1⟩

/-! ### Paths -/

section Paths
variable {P : Prog} {reachable : Nat → Bool} {starts : List Nat} {v : Nat}

theorem kill_nil (hno : ∀ b, NoCalled v (P.items b)) (b : Nat) : P.kill b v = [] ↔ lastKill v (P.items b) = none :=
  kill_nil_iff (scanBlock_spec (hno b) [] [])

theorem lastKill_take {its : List Item} {k : Nat} {it : Item} (h : its[k]? = some it) :
    lastKill v (its.take (k + 1)) = (killsVar v it).or (lastKill v (its.take k)) := by
  rw [List.take_add_one, h]
  exact lastKill_append v _ it

/-- `d` is the value of `v` at the end of a reachable block and flows from there to `b`. -/
def Enters (P : Prog) (starts : List Nat) (v : Nat) (d : Event) (b : Nat) : Prop :=
  ∃ b0, Ever P starts b0 ∧ lastKill v (P.items b0) = some d ∧ Flow P v b0 b

theorem reaching_sound (hG : Graphs P reachable starts) (hno : ∀ b, NoCalled v (P.items b)) {d : Event} {b k : Nat}
    (h : Reaching P starts v d b k) : k ≤ (P.items b).length ∧ Ever P starts b ∧ (P.locs b = [] ∨
      lastKill v ((P.items b).take k) = some d ∨ (lastKill v ((P.items b).take k) = none ∧ Enters P starts v d b)) := by
  induction h with
  | @gen b k it hb hk hit hv hd =>
    refine ⟨(List.getElem?_eq_some_iff.1 hk).1, hb, .inr (.inl ?_)⟩
    rw [lastKill_take hk]
    rcases hit with rfl | rfl
    · simp [killsVar, hv, kills_iff.2 hd]
    · exact absurd (hno b d (List.mem_of_getElem? hk) hv) hd
  | @skip b k it _ hk hit ih =>
    obtain ⟨_, hb, ih⟩ := ih
    refine ⟨(List.getElem?_eq_some_iff.1 hk).1, hb, ?_⟩
    have hkv : killsVar v it = none := by
      cases it with
      | called e => rfl
      | own e =>
        simp only [killsVar, ite_eq_right_iff, reduceCtorEq, imp_false, not_and, Bool.not_eq_true]
        exact fun h => kills_false.2 (hit e rfl h)
    rw [lastKill_take hk, hkv]
    simpa using ih
  | @edge b c _ hc ih =>
    obtain ⟨_, ⟨s, hs, hb⟩, ih⟩ := ih
    refine ⟨by simp, ⟨s, hs, hb.next hc⟩, ?_⟩
    by_cases hl : P.locs c = []
    · exact .inl hl
    · have hin : c ∈ P.inner b := mem_inner.2 ⟨hc, hl⟩
      refine .inr (.inr ⟨by simp [lastKill], ?_⟩)
      rcases ih with hn | hk | ⟨hk, b0, hb0, hd, hf⟩
      · rw [hG.empty b hn] at hc; cases hc
      · rw [List.take_length] at hk
        refine ⟨b, ⟨s, hs, hb⟩, hk, .edge ?_ hin⟩
        rw [ne_eq, kill_nil hno, hk]
        simp
      · rw [List.take_length] at hk
        exact ⟨b0, hb0, hd, hf.next ((kill_nil hno b).2 hk) hin⟩

theorem reaching_from {d : Event} {b k : Nat} (hb : Ever P starts b) :
    k ≤ (P.items b).length → lastKill v ((P.items b).take k) = some d → Reaching P starts v d b k := by
  induction k with
  | zero => intro _ h; simp [lastKill] at h
  | succ k ih =>
    intro hk h
    have hget : (P.items b)[k]? = some ((P.items b)[k]'hk) := List.getElem?_eq_getElem hk
    rw [lastKill_take hget] at h
    cases hkv : killsVar v ((P.items b)[k]'hk) with
    | some c =>
      rw [hkv] at h
      simp only [Option.some_or, Option.some.injEq] at h
      subst h
      generalize hit : (P.items b)[k]'hk = it at *
      cases it with
      | called e => cases hkv
      | own e =>
        simp only [killsVar] at hkv
        split at hkv
        · rename_i hc
          cases hkv
          exact .gen hb hget (.inl rfl) hc.1 (kills_iff.1 hc.2)
        · cases hkv
    | none =>
      rw [hkv] at h
      refine .skip (ih (by omega) (by simpa using h)) hget ?_
      intro e he hv
      rw [he] at hkv
      simp only [killsVar, ite_eq_right_iff, reduceCtorEq, imp_false, not_and, Bool.not_eq_true] at hkv
      exact kills_false.1 (hkv hv)

theorem reaching_through {d : Event} {b k : Nat} (h0 : Reaching P starts v d b 0) :
    k ≤ (P.items b).length → lastKill v ((P.items b).take k) = none → Reaching P starts v d b k := by
  induction k with
  | zero => exact fun _ _ => h0
  | succ k ih =>
    intro hk h
    have hget : (P.items b)[k]? = some ((P.items b)[k]'hk) := List.getElem?_eq_getElem hk
    rw [lastKill_take hget, Option.or_eq_none_iff] at h
    refine .skip (ih (by omega) h.2) hget ?_
    intro e he hv
    have hkv := h.1
    rw [he] at hkv
    simp only [killsVar, ite_eq_right_iff, reduceCtorEq, imp_false, not_and, Bool.not_eq_true] at hkv
    exact kills_false.1 (hkv hv)

theorem reaching_enters (hno : ∀ b, NoCalled v (P.items b)) {d : Event} {b : Nat}
    (h : Enters P starts v d b) : Reaching P starts v d b 0 := by
  obtain ⟨b0, hb0, hd, hf⟩ := h
  induction hf with
  | edge hk hc =>
    refine .edge (reaching_from hb0 (Nat.le_refl _) ?_) (mem_inner.1 hc).1
    rwa [List.take_length]
  | @next b c _ hk hc ih =>
    refine .edge (reaching_through ih (Nat.le_refl _) ?_) (mem_inner.1 hc).1
    rw [List.take_length]
    exact (kill_nil hno b).1 hk

theorem reaching_iff (hG : Graphs P reachable starts) (hno : ∀ b, NoCalled v (P.items b)) {d : Event} {b k : Nat}
    (hk : k < (P.items b).length) : Reaching P starts v d b k ↔ Ever P starts b ∧
      (lastKill v ((P.items b).take k) = some d ∨ (lastKill v ((P.items b).take k) = none ∧ Enters P starts v d b)) := by
  constructor
  · intro h
    obtain ⟨_, hb, h⟩ := reaching_sound hG hno h
    refine ⟨hb, ?_⟩
    rcases h with h | h
    · rw [Prog.items, h] at hk; simp at hk
    · exact h
  · rintro ⟨hb, h | ⟨h, he⟩⟩
    · exact reaching_from hb (by omega) h
    · exact reaching_through (reaching_enters hno he) (by omega) h

end Paths

/-! ### Links -/

theorem scanAll_spec {P : Prog} {v : Nat} (hno : ∀ b, NoCalled v (P.items b)) {e d : Event} (he : e.var = v) :
    ∀ (bs : List Nat) (l : List (Event × Event) × List (Event × Event)),
    ((e, d) ∈ (scanAll P bs l).1 ↔ (e, d) ∈ l.1 ∨ ∃ b ∈ bs, ∃ k, EventAt (P.items b) k e ∧
      (e.type.generates = true ∧ lastKill v ((P.items b).take k) = some d)) ∧
    ((e, d) ∈ (scanAll P bs l).2 ↔ (e, d) ∈ l.2 ∨ ∃ b ∈ bs, ∃ k, (P.items b)[k]? = some (.own e) ∧
      (e.type.kills = true ∧ lastKill v ((P.items b).take k) = some d))
  | [], l => by simp [scanAll]
  | b :: bs, l => by
    have hs := scanBlock_spec (P := P) (hno b) l.1 l.2
    obtain ⟨h1, h2⟩ := scanAll_spec hno he bs ((scanBlock P l.1 l.2 b).definitions, (scanBlock P l.1 l.2 b).redefines)
    have hstep : scanAll P (b :: bs) l =
      scanAll P bs ((scanBlock P l.1 l.2 b).definitions, (scanBlock P l.1 l.2 b).redefines) := rfl
    rw [hstep, h1, h2, hs.defs e d he, hs.redefs e d he, or_assoc, or_assoc]
    simp only [List.mem_cons, exists_eq_or_imp, and_self]

theorem gens_var_items (v : Nat) : ∀ (its : List Item) (s : Scan), (∀ e ∈ s.gens v, e.var = v) →
    (∀ es ∈ s.kill v, ∀ e ∈ es, e.var = v) → (∀ e ∈ (its.foldl Scan.item s).gens v, e.var = v) ∧
    (∀ es ∈ (its.foldl Scan.item s).kill v, ∀ e ∈ es, e.var = v)
  | [], _, h, h' => ⟨h, h'⟩
  | it :: its, s, h, h' => by
    have hg : ∀ e, (∀ x ∈ (s.generate e).gens v, x.var = v) ∧ (s.generate e).kill = s.kill := by
      intro e
      unfold Scan.generate
      split
      · split
        · refine ⟨?_, rfl⟩
          intro x hx
          simp only [setAt] at hx
          split at hx
          · rename_i hv
            subst hv
            rcases List.mem_append.1 hx with hx | hx
            · exact h x hx
            · simp only [List.mem_singleton] at hx; rw [hx]
          · exact h x hx
        · exact ⟨h, rfl⟩
      · exact ⟨h, rfl⟩
    refine gens_var_items v its (s.item it) ?_ ?_
    · cases it with
      | own e => simp only [Scan.item, Scan.own]; split <;> exact (hg e).1
      | called e =>
        simp only [Scan.item, Scan.called]
        split
        · split <;> exact (hg e).1
        · exact (hg e).1
    · cases it with
      | own e =>
        simp only [Scan.item, Scan.own]
        split
        · intro es hes x hx
          simp only [setAt, (hg e).2] at hes
          split at hes
          · rename_i hv
            subst hv
            rcases List.mem_append.1 hes with hes | hes
            · exact h' es hes x hx
            · simp only [List.mem_singleton] at hes; subst hes; simp only [List.mem_singleton] at hx; rw [hx]
          · exact h' es hes x hx
        · rw [(hg e).2]; exact h'
      | called e =>
        simp only [Scan.item, Scan.called]
        split
        · split
          · intro es hes x hx
            simp only [setAt, (hg e).2] at hes
            split at hes
            · rename_i hv
              subst hv
              simp only [List.mem_singleton] at hes; subst hes; simp only [List.mem_singleton] at hx; rw [hx]
            · exact h' es hes x hx
          · intro es hes x hx
            simp only [setAt, (hg e).2] at hes
            split at hes
            · rename_i hv
              subst hv
              rcases List.mem_append.1 hes with hes | hes
              · exact h' es (List.dropLast_subset _ hes) x hx
              · simp only [List.mem_singleton] at hes
                subst hes
                rcases List.mem_append.1 hx with hx | hx
                · unfold lastKills at hx
                  cases hl : (s.kill e.var).getLast? with
                  | none => simp [hl] at hx
                  | some es =>
                    rw [hl] at hx
                    exact h' es (List.mem_of_getLast? hl) x hx
                · simp only [List.mem_singleton] at hx; rw [hx]
            · exact h' es hes x hx
        · rw [(hg e).2]; exact h'

theorem gens_var {P : Prog} {b v : Nat} {e : Event} (h : e ∈ P.gens b v) : e.var = v :=
  (gens_var_items v (P.items b) ⟨fun _ => [], fun _ => [], [], []⟩ (by simp) (by simp)).1 e h

theorem head_var {P : Prog} {b v : Nat} {e : Event} (h : e ∈ (P.kill b v).head?.getD []) : e.var = v := by
  cases hk : (P.kill b v).head? with
  | none => simp [hk] at h
  | some es =>
    rw [hk] at h
    exact (gens_var_items v (P.items b) ⟨fun _ => [], fun _ => [], [], []⟩ (by simp) (by simp)).2 es
      (List.mem_of_head? hk) e h

theorem mem_onesIndices (n m : Nat) : m ∈ onesIndices n ↔ n.testBit m = true := by
  simp only [onesIndices, List.mem_filter, List.mem_range, and_iff_right_iff_imp]
  intro h
  by_contra hlt
  have h1 : n < 2 ^ (Nat.log2 n + 1) := Nat.lt_log2_self
  have h2 : n < 2 ^ m := Nat.lt_of_lt_of_le h1 (Nat.pow_le_pow_right (by omega) (by omega))
  rw [Nat.testBit_lt_two_pow h2] at h
  cases h

/-- The first event of a block that gives `v` a value. -/
theorem first_kill {v : Nat} {e : Event} : ∀ (its : List Item),
    its.findSome? (killsVar v) = some e ↔ ∃ k, its[k]? = some (.own e) ∧ e.var = v ∧ e.type.kills = true ∧
      lastKill v (its.take k) = none := by
  have hnone : ∀ (its : List Item) (acc : Option Event),
      its.foldl (fun acc it => (killsVar v it).or acc) acc = none ↔ acc = none ∧ ∀ it ∈ its, killsVar v it = none := by
    intro its
    induction its with
    | nil => simp
    | cons it its ih =>
      intro acc
      rw [List.foldl_cons, ih]
      simp only [Option.or_eq_none_iff, List.mem_cons, forall_eq_or_imp]
      constructor
      · rintro ⟨⟨h1, h2⟩, h3⟩; exact ⟨h2, h1, h3⟩
      · rintro ⟨h1, h2, h3⟩; exact ⟨⟨h2, h1⟩, h3⟩
  intro its
  rw [List.findSome?_eq_some_iff]
  constructor
  · rintro ⟨l1, it, l2, rfl, hit, hl1⟩
    refine ⟨l1.length, ?_, ?_⟩
    · cases it with
      | called _ => cases hit
      | own x =>
        simp only [killsVar] at hit
        split at hit
        · cases hit; simp
        · cases hit
    · cases it with
      | called _ => cases hit
      | own x =>
        simp only [killsVar] at hit
        split at hit
        · rename_i hc
          cases hit
          refine ⟨hc.1, hc.2, ?_⟩
          rw [List.take_left' rfl]
          exact (hnone l1 none).2 ⟨rfl, hl1⟩
        · cases hit
  · rintro ⟨k, hk, hv, ht, hl⟩
    obtain ⟨hlt, hget⟩ := List.getElem?_eq_some_iff.1 hk
    refine ⟨its.take k, .own e, its.drop (k + 1), ?_, by simp [killsVar, hv, ht], ((hnone _ none).1 hl).2⟩
    rw [← hget, List.getElem_cons_drop, List.take_append_drop]

theorem phases_index {P : Prog} {reachable : Nat → Bool} {base : Nat} {starts : List Nat} {phases : List Phase}
    (h : Phases P reachable base starts phases) : ∀ (pre : List Nat), pre.length = base →
    ∀ ph ∈ phases, ∀ b ∈ ph.order, (pre ++ phases.flatMap Phase.order)[number ph.base ph.order b]? = some b := by
  induction h with
  | nil => intro _ _ ph hph; cases hph
  | @cons base start n starts order phases hy hq h ih =>
    intro pre hpre ph hph b hb
    rcases List.mem_cons.1 hph with rfl | hph
    · simp only [List.flatMap_cons, number]
      rw [List.getElem?_append_right (by omega), hpre, Nat.add_sub_cancel_left,
        List.getElem?_append_left (List.idxOf_lt_length_of_mem hb),
        List.getElem?_eq_getElem (List.idxOf_lt_length_of_mem hb), List.getElem_idxOf]
    · have := ih (pre ++ order) (by simp [hpre]) ph hph b hb
      simpa [List.flatMap_cons] using this

theorem phases_spec {P : Prog} {reachable : Nat → Bool} {base : Nat} {starts : List Nat} {phases : List Phase}
    (h : Phases P reachable base starts phases) :
    (∀ ph ∈ phases, ∃ start ∈ starts, ∃ n, Yields P.inner start ph.order ∧
      ((Fix.init P reachable ph.base ph.order).run P n).queue = [] ∧
      ph.parents = ((Fix.init P reachable ph.base ph.order).run P n).parents) ∧
    (∀ start ∈ starts, ∃ ph ∈ phases, Yields P.inner start ph.order) := by
  induction h with
  | nil => simp
  | @cons base start n starts order phases hy hq h ih =>
    constructor
    · intro ph hph
      rcases List.mem_cons.1 hph with rfl | hph
      · exact ⟨start, by simp, n, hy, hq, rfl⟩
      · obtain ⟨s, hs, h⟩ := ih.1 ph hph
        exact ⟨s, by simp [hs], h⟩
    · intro s hs
      rcases List.mem_cons.1 hs with rfl | hs
      · exact ⟨_, List.mem_cons_self, hy⟩
      · obtain ⟨ph, hph, h⟩ := ih.2 s hs
        exact ⟨ph, by simp [hph], h⟩

section Links
variable {P : Prog} {reachable : Nat → Bool} {starts : List Nat} {phases : List Phase} {v : Nat}

theorem mem_blocks (hG : Graphs P reachable starts) (hP : Phases P reachable 0 starts phases) (b : Nat) :
    b ∈ phases.flatMap Phase.order ↔ Ever P starts b ∧ P.locs b ≠ [] := by
  obtain ⟨h1, h2⟩ := phases_spec hP
  rw [List.mem_flatMap]
  constructor
  · rintro ⟨ph, hph, hb⟩
    obtain ⟨s, hs, _, hy, _⟩ := h1 ph hph
    have := (reach_inner hG hs b).1 (((C29_blocks hy).2 b).1 hb)
    exact ⟨⟨s, hs, this.1⟩, this.2⟩
  · rintro ⟨⟨s, hs, hr⟩, hl⟩
    obtain ⟨ph, hph, hy⟩ := h2 s hs
    exact ⟨ph, hph, ((C29_blocks hy).2 b).2 ((reach_inner hG hs b).2 ⟨hr, hl⟩)⟩

theorem mem_reachingKills (hG : Graphs P reachable starts) (hP : Phases P reachable 0 starts phases)
    (hno : ∀ b, NoCalled v (P.items b)) (hv : v < P.vars) {ph : Phase} (hph : ph ∈ phases) {b : Nat} (hb : b ∈ ph.order)
    (d : Event) : d ∈ reachingKills P (phases.flatMap Phase.order) (ph.parents b v) v ↔ Enters P starts v d b := by
  obtain ⟨s, hs, n, hy, hq, hpar⟩ := (phases_spec hP).1 ph hph
  have hB := blocks_of hG hs hy
  have hfin := fun m => fix_final hB (fix_run hB n (fix_init (base := ph.base) hB)) hq (m := m) hb hv
  rw [← hpar] at hfin
  have hidx := phases_index hP [] rfl ph hph
  simp only [List.nil_append] at hidx
  have hlast : ∀ b, d ∈ lastKills (P.kill b v) ↔ lastKill v (P.items b) = some d :=
    fun b => lastKills_of (scanBlock_spec (hno b) [] []) d
  simp only [reachingKills, List.mem_flatMap, mem_onesIndices, hfin]
  constructor
  · rintro ⟨m, ⟨b0, hb0, rfl, hf⟩, hd⟩
    rw [hidx b0 hb0] at hd
    refine ⟨b0, ?_, (hlast b0).1 hd, hf⟩
    exact (hG.reach b0).1 (hB.reach b0 hb0)
  · rintro ⟨b0, ⟨s', hs', hr'⟩, hd, hf⟩
    -- the block is in the same graph
    have hflow : ∀ c, Flow P v b0 c → Reach P.succ b0 c ∧ P.succ b0 ≠ [] := by
      intro c hc
      induction hc with
      | edge _ hc => exact ⟨Reach.start.next (mem_inner.1 hc).1, List.ne_nil_of_mem (mem_inner.1 hc).1⟩
      | next _ _ hc ih => exact ⟨ih.1.next (mem_inner.1 hc).1, ih.2⟩
    obtain ⟨hr, hne⟩ := hflow b hf
    have hbr := (reach_inner hG hs b).1 (((C29_blocks hy).2 b).1 hb)
    have : s' = s := hG.apart s' hs' s hs b (hr'.trans hr) hbr.1
    subst this
    have hb0 : b0 ∈ ph.order := ((C29_blocks hy).2 b0).2 ((reach_inner hG hs' b0).2 ⟨hr', fun hn => hne (hG.empty b0 hn)⟩)
    refine ⟨_, ⟨b0, hb0, rfl, hf⟩, ?_⟩
    rw [hidx b0 hb0]
    exact (hlast b0).2 hd

theorem EventAt.item {its : List Item} {k : Nat} {e : Event} (h : EventAt its k e) : ∃ it, its[k]? = some it :=
  h.elim (fun h => ⟨_, h⟩) (fun h => ⟨_, h⟩)

theorem EventAt.lt {its : List Item} {k : Nat} {e : Event} (h : EventAt its k e) : k < its.length := by
  obtain ⟨it, h⟩ := h.item
  exact (List.getElem?_eq_some_iff.1 h).1

theorem items_locs {b k : Nat} {it : Item} (h : (P.items b)[k]? = some it) : P.locs b ≠ [] := by
  intro hn
  rw [Prog.items, hn] at h
  cases h

/-- C30 for variables that functions called at most read: the definitions of an event that uses a variable are exactly
the events that reach it, or that reach a call of a function that it happens in. -/
theorem C30_definitions_partial (hG : Graphs P reachable starts) (hP : Phases P reachable 0 starts phases) {e d : Event}
    (hno : ∀ b x, Item.called x ∈ P.items b → x.var = e.var → x.type = .read) (hv : e.var < P.vars) :
    (e, d) ∈ (links P phases).1 ↔ (e.type = .read ∨ e.type = .modify) ∧
      ∃ b k, ((P.items b)[k]? = some (.own e) ∨ (P.items b)[k]? = some (.called e)) ∧ Reaching P starts e.var d b k := by
  rw [← generates_iff]
  have hno : ∀ b, NoCalled e.var (P.items b) := fun b x hx => hno b x hx
  have hgens : ∀ b, e ∈ P.gens b e.var ↔ ∃ k, EventAt (P.items b) k e ∧ (e.var = e.var ∧ e.type.generates = true ∧
      lastKill e.var ((P.items b).take k) = none) := fun b => (scanBlock_spec (hno b) [] []).gens e
  simp only [links, List.mem_append, (scanAll_spec hno rfl _ _).1, List.not_mem_nil, false_or]
  constructor
  · rintro (⟨b, hb, k, hk, hg, hl⟩ | h)
    · have hb := (mem_blocks hG hP b).1 hb
      exact ⟨hg, b, k, hk, (reaching_iff hG hno (EventAt.lt hk)).2 ⟨hb.1, .inl hl⟩⟩
    · simp only [connectBlock, List.mem_flatMap, List.mem_range, List.mem_map, Prod.mk.injEq] at h
      obtain ⟨ph, hph, b, hb, v, hv', d', hd, e', he, rfl, rfl⟩ := h
      have := gens_var he
      subst this
      obtain ⟨k, hk, _, hg, hl⟩ := (hgens b).1 he
      have hbe := (mem_blocks hG hP b).1 (List.mem_flatMap.2 ⟨ph, hph, hb⟩)
      exact ⟨hg, b, k, hk, (reaching_iff hG hno (EventAt.lt hk)).2
        ⟨hbe.1, .inr ⟨hl, (mem_reachingKills hG hP hno hv hph hb d').1 hd⟩⟩⟩
  · rintro ⟨hg, b, k, hk, hr⟩
    obtain ⟨hbe, hr⟩ := (reaching_iff hG hno (EventAt.lt hk)).1 hr
    have hb := (mem_blocks hG hP b).2 ⟨hbe, items_locs (EventAt.item hk).choose_spec⟩
    rcases hr with hl | ⟨hl, hr⟩
    · exact .inl ⟨b, hb, k, hk, hg, hl⟩
    · right
      obtain ⟨ph, hph, hb⟩ := List.mem_flatMap.1 hb
      simp only [connectBlock, List.mem_flatMap, List.mem_range, List.mem_map, Prod.mk.injEq]
      exact ⟨ph, hph, b, hb, e.var, hv, d, (mem_reachingKills hG hP hno hv hph hb d).2 hr, e, (hgens b).2 ⟨k, hk, rfl, hg, hl⟩,
        rfl, rfl⟩

/-- C30 for variables that functions called at most read: an event that gives a variable a value redefines exactly
the events that reach it. -/
theorem C30_redefines_partial (hG : Graphs P reachable starts) (hP : Phases P reachable 0 starts phases) {e d : Event}
    (hno : ∀ b x, Item.called x ∈ P.items b → x.var = e.var → x.type = .read) (hv : e.var < P.vars) :
    (e, d) ∈ (links P phases).2 ↔ e.type ≠ .read ∧
      ∃ b k, (P.items b)[k]? = some (.own e) ∧ Reaching P starts e.var d b k := by
  rw [← kills_iff]
  have hno : ∀ b, NoCalled e.var (P.items b) := fun b x hx => hno b x hx
  have hhead : ∀ b, e ∈ (P.kill b e.var).head?.getD [] ↔ ∃ k, (P.items b)[k]? = some (.own e) ∧ e.var = e.var ∧
      e.type.kills = true ∧ lastKill e.var ((P.items b).take k) = none := by
    intro b
    have h1 : (P.kill b e.var).head? = _ := (scanBlock_spec (hno b) [] []).first
    rw [h1, ← first_kill]
    cases (P.items b).findSome? (killsVar e.var) <;> simp [eq_comm]
  simp only [links, List.mem_append, (scanAll_spec hno rfl _ _).2, List.not_mem_nil, false_or]
  constructor
  · rintro (⟨b, hb, k, hk, hg, hl⟩ | h)
    · have hb := (mem_blocks hG hP b).1 hb
      exact ⟨hg, b, k, hk, (reaching_iff hG hno (List.getElem?_eq_some_iff.1 hk).1).2 ⟨hb.1, .inl hl⟩⟩
    · simp only [connectBlock, List.mem_flatMap, List.mem_range, List.mem_map, Prod.mk.injEq] at h
      obtain ⟨ph, hph, b, hb, v, hv', d', hd, e', he, rfl, rfl⟩ := h
      have := head_var he
      subst this
      obtain ⟨k, hk, _, hg, hl⟩ := (hhead b).1 he
      have hbe := (mem_blocks hG hP b).1 (List.mem_flatMap.2 ⟨ph, hph, hb⟩)
      exact ⟨hg, b, k, hk, (reaching_iff hG hno (List.getElem?_eq_some_iff.1 hk).1).2
        ⟨hbe.1, .inr ⟨hl, (mem_reachingKills hG hP hno hv hph hb d').1 hd⟩⟩⟩
  · rintro ⟨hg, b, k, hk, hr⟩
    obtain ⟨hbe, hr⟩ := (reaching_iff hG hno (List.getElem?_eq_some_iff.1 hk).1).1 hr
    have hb := (mem_blocks hG hP b).2 ⟨hbe, items_locs hk⟩
    rcases hr with hl | ⟨hl, hr⟩
    · exact .inl ⟨b, hb, k, hk, hg, hl⟩
    · right
      obtain ⟨ph, hph, hb⟩ := List.mem_flatMap.1 hb
      simp only [connectBlock, List.mem_flatMap, List.mem_range, List.mem_map, Prod.mk.injEq]
      exact ⟨ph, hph, b, hb, e.var, hv, d, (mem_reachingKills hG hP hno hv hph hb d).2 hr, e, (hhead b).2 ⟨k, hk, rfl, hg, hl⟩,
        rfl, rfl⟩

end Links

/-- C30, termination: the analysis of the graphs of a file ends. -/
theorem C30_terminates {P : Prog} {reachable : Nat → Bool} {starts : List Nat} (hG : Graphs P reachable starts) :
    ∃ phases, Phases P reachable 0 starts phases := by
  have key : ∀ (todo : List Nat) (base : Nat), (∀ s ∈ todo, s ∈ starts) → ∃ phases, Phases P reachable base todo phases := by
    intro todo
    induction todo with
    | nil => exact fun base _ => ⟨[], .nil⟩
    | cons s todo ih =>
      intro base hs
      have hst := hs s (by simp)
      obtain ⟨order, hy⟩ := C29_terminates (succ := P.inner) (start := s) (nodes := P.nodes)
        (fun b hb => hG.nodes b ⟨s, hst, ((reach_inner hG hst b).1 hb).1⟩)
      obtain ⟨n, hn⟩ := fix_terminates (blocks_of hG hst hy) _ _ (fix_init (base := base) (blocks_of hG hst hy)) (Nat.le_refl _)
      obtain ⟨phases, hp⟩ := ih (base + order.length) (fun s hs' => hs s (by simp [hs']))
      exact ⟨_, .cons hy hn hp⟩
  exact key starts 0 (fun _ h => h)

/-! ### Examples -/

/-- `x = 0`, `while x < 3:` with the body `x = x + 1`, and `print(x)`; block 4 is the end. Nodes of `x` are numbered in
the order of the text. -/
def exLoop : Prog where
  nodes := [0, 1, 2, 3, 4]
  succ := fun b => if b = 0 then [1] else if b = 1 then [2, 3] else if b = 2 then [1] else if b = 3 then [4] else []
  locs := fun b =>
    if b = 0 then [[.own ⟨0, 0, .assign⟩]]
    else if b = 1 then [[.own ⟨0, 1, .read⟩]]
    else if b = 2 then [[.own ⟨0, 2, .read⟩, .own ⟨0, 3, .reassign⟩]]
    else if b = 3 then [[.own ⟨0, 4, .read⟩]]
    else []
  vars := 1

theorem exLoop_reach (b : Nat) : Reach exLoop.succ 0 b ↔ b < 5 := by
  constructor
  · intro h
    refine h.mem (P := fun b => b < 5) (by decide) ?_
    intro x _ y hy
    simp only [exLoop] at hy
    repeat' split at hy
    all_goals simp at hy
    all_goals omega
  · intro h
    have h1 : Reach exLoop.succ 0 1 := Reach.start.next (by decide)
    have h2 : Reach exLoop.succ 0 2 := h1.next (by decide)
    have h3 : Reach exLoop.succ 0 3 := h1.next (by decide)
    have h4 : Reach exLoop.succ 0 4 := h3.next (by decide)
    match b, h with
    | 0, _ => exact .start
    | 1, _ => exact h1
    | 2, _ => exact h2
    | 3, _ => exact h3
    | 4, _ => exact h4

theorem exLoop_graphs : Graphs exLoop (fun b => decide (b < 5)) [0] := by
  refine ⟨by decide, ?_, ?_, ?_, ?_⟩
  · intro b hb
    simp only [exLoop] at hb ⊢
    repeat' split at hb
    all_goals simp_all
  · intro b
    simp [Ever, exLoop_reach]
  · intro b hb
    simp only [Ever, List.mem_singleton, exists_eq_left, exLoop_reach] at hb
    simp only [exLoop, List.mem_cons, List.not_mem_nil, or_false]
    omega
  · intro s hs s' hs' _ _ _
    simp only [List.mem_singleton] at hs hs'
    rw [hs, hs']

/-- The order of the blocks of `exLoop` and what is computed for them. -/
def exLoopPhase : Phase :=
  ⟨0, [0, 1, 2, 3], ((Fix.init exLoop (fun b => decide (b < 5)) 0 [0, 1, 2, 3]).run exLoop 10).parents⟩

theorem exLoop_phases : Phases exLoop (fun b => decide (b < 5)) 0 [0] [exLoopPhase] :=
  .cons (n := 10) ⟨20, by decide +kernel, by decide +kernel⟩ (by decide +kernel) .nil

/-- Both values of `x` reach the test, the body and the code after the loop. -/
example : (links exLoop [exLoopPhase]).1 =
    [(⟨0, 1, .read⟩, ⟨0, 0, .assign⟩), (⟨0, 1, .read⟩, ⟨0, 3, .reassign⟩), (⟨0, 2, .read⟩, ⟨0, 0, .assign⟩),
     (⟨0, 2, .read⟩, ⟨0, 3, .reassign⟩), (⟨0, 4, .read⟩, ⟨0, 0, .assign⟩), (⟨0, 4, .read⟩, ⟨0, 3, .reassign⟩)] := by
  decide +kernel

example : (links exLoop [exLoopPhase]).2 =
    [(⟨0, 3, .reassign⟩, ⟨0, 0, .assign⟩), (⟨0, 3, .reassign⟩, ⟨0, 3, .reassign⟩)] := by decide +kernel

/-- The assignment in the body reaches the code after the loop, by `C30_definitions_partial`. -/
example : ∃ b k, ((exLoop.items b)[k]? = some (.own ⟨0, 4, .read⟩) ∨ (exLoop.items b)[k]? = some (.called ⟨0, 4, .read⟩)) ∧ Reaching exLoop [0] 0 ⟨0, 3, .reassign⟩ b k := by
  refine ((C30_definitions_partial exLoop_graphs exLoop_phases (e := ⟨0, 4, .read⟩) ?_ (by decide)).1 (by decide +kernel)).2
  intro b x hx
  simp only [Prog.items, exLoop] at hx
  repeat' split at hx
  all_goals simp at hx

/-- `x = 0`, `while y: pass`, then `f()` and `print(x)`, where `f` has `global x` and assigns `x` only if some
condition holds. -/
def exCall : Prog where
  nodes := [0, 1, 2, 3]
  succ := fun b => if b = 0 then [1] else if b = 1 then [1, 2] else if b = 2 then [3] else []
  locs := fun b =>
    if b = 0 then [[.own ⟨0, 0, .assign⟩]]
    else if b = 1 then [[.own ⟨1, 1, .read⟩], []]
    else if b = 2 then [[.called ⟨0, 2, .reassign⟩, .own ⟨2, 3, .read⟩], [.own ⟨0, 4, .read⟩]]
    else []
  vars := 3

def exCallPhase : Phase :=
  ⟨0, [0, 1, 2], ((Fix.init exCall (fun b => decide (b < 4)) 0 [0, 1, 2]).run exCall 10).parents⟩

/-- C30 fails for variables that a function called may give a value: the first such event in a block hides the
values that `x` had before the block, although the function need not reach it. -/
theorem C30_call_counterexample : Phases exCall (fun b => decide (b < 4)) 0 [0] [exCallPhase] ∧
    (exCall.items 2)[2]? = some (.own ⟨0, 4, .read⟩) ∧ Reaching exCall [0] 0 ⟨0, 0, .assign⟩ 2 2 ∧
    ((⟨0, 4, .read⟩, ⟨0, 0, .assign⟩) : Event × Event) ∉ (links exCall [exCallPhase]).1 := by
  refine ⟨.cons (n := 10) ⟨20, by decide +kernel, by decide +kernel⟩ (by decide +kernel) .nil, by decide, ?_, by decide +kernel⟩
  have h0 : Reaching exCall [0] 0 ⟨0, 0, .assign⟩ 0 1 :=
    .gen ⟨0, by simp, .start⟩ (it := .own ⟨0, 0, .assign⟩) (by decide) (.inl rfl) rfl (by decide)
  have h1 : Reaching exCall [0] 0 ⟨0, 0, .assign⟩ 1 0 := .edge h0 (by decide)
  have h2 : Reaching exCall [0] 0 ⟨0, 0, .assign⟩ 1 1 :=
    .skip h1 (it := .own ⟨1, 1, .read⟩) (by decide) (by rintro e he; cases he; decide)
  have h3 : Reaching exCall [0] 0 ⟨0, 0, .assign⟩ 2 0 := .edge h2 (by decide)
  have h4 : Reaching exCall [0] 0 ⟨0, 0, .assign⟩ 2 1 :=
    .skip h3 (it := .called ⟨0, 2, .reassign⟩) (by decide) (by rintro e he; cases he)
  exact .skip h4 (it := .own ⟨2, 3, .read⟩) (by decide) (by rintro e he; cases he; decide)

/-- The only definition that is found is the one in the function. -/
example : (links exCall [exCallPhase]).1 = [(⟨0, 4, .read⟩, ⟨0, 2, .reassign⟩)] := by decide +kernel

end Verif.Cfg

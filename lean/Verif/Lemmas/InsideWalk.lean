import Verif.Model.Inside
import Verif.Props.Traverse

/-! Lemmas for C90: a traversal that stops at blocks is one that stops at locations, if it starts from one location. -/

namespace Verif.Inside

open Verif.Traverse (Loc Args Graph State Frame Dir)

variable {G : Graph} {stop : Nat → Nat → Nat → Bool} {start : Loc}

/-- The parts of blocks that are gone through: whole blocks, and the two parts of the block of the start. -/
def Fresh (G : Graph) (start : Loc) (b lo hi : Nat) : Prop :=
  lo < hi ∧ hi ≤ G.len b ∧ ((b ≠ start.1 ∧ lo = 0 ∧ hi = G.len b) ∨ (b = start.1 ∧ lo = start.2 ∧ hi = G.len b) ∨
    (b = start.1 ∧ lo = 0 ∧ hi = start.2))

/-- The traversal stops at the last location of such a part. -/
def stopAt (G : Graph) (stop : Nat → Nat → Nat → Bool) (start : Loc) (x : Loc) : Bool :=
  (decide (x.2 + 1 = G.len x.1) || (decide (x.1 = start.1) && decide (x.2 + 1 = start.2))) && stop x.1 0 (x.2 + 1)

def argsAt (G : Graph) (stop : Nat → Nat → Nat → Bool) (start : Loc) : Args := ⟨.successors, stopAt G stop start, true, true⟩

theorem triage_fresh (hstop : ∀ b lo lo' hi, stop b lo hi = stop b lo' hi) {b lo hi : Nat}
    (h : Fresh G start b lo hi) : Traverse.triage (argsAt G stop start) b lo hi = (stop b lo hi, lo, hi) := by
  obtain ⟨h1, h2, h3⟩ := h
  have early : ∀ q, lo ≤ q → q + 1 < hi → stopAt G stop start (b, q) = false := by
    intro q hq1 hq2
    unfold stopAt
    rw [Bool.and_eq_false_iff]
    left
    simp only [Bool.or_eq_false_iff, decide_eq_false_iff_not, Bool.and_eq_false_iff]
    refine ⟨by omega, ?_⟩
    by_cases e : b = start.1
    · right
      subst e
      rcases h3 with h | h | h <;> omega
    · exact .inl e
  have last : stopAt G stop start (b, hi - 1) = stop b lo hi := by
    unfold stopAt
    have e : hi - 1 + 1 = hi := by omega
    simp only [e]
    rw [hstop b 0 lo hi]
    have : (decide (hi = G.len b) || (decide (b = start.1) && decide (hi = start.2))) = true := by
      simp only [Bool.or_eq_true, decide_eq_true_eq, Bool.and_eq_true]
      rcases h3 with h | h | h
      · exact .inl h.2.2
      · exact .inl h.2.2
      · exact .inr ⟨h.1, h.2.2⟩
    rw [this, Bool.true_and]
  cases hst : stop b lo hi with
  | false =>
    refine Traverse.triage_of_false (Traverse.triage_false.2 fun q hq1 hq2 => ?_)
    show stopAt G stop start (b, q) = false
    by_cases e : q + 1 < hi
    · exact early q hq1 e
    · have : q = hi - 1 := by omega
      rw [this, last, hst]
  | true =>
    unfold Traverse.triage
    have hf : (Traverse.positions Dir.successors lo hi).find? (fun i => stopAt G stop start (b, i)) = some (hi - 1) := by
      show (List.range' lo (hi - lo)).find? _ = _
      have hr : List.range' lo (hi - lo) = List.range' lo (hi - 1 - lo) ++ [hi - 1] := by
        have : hi - lo = (hi - 1 - lo) + 1 := by omega
        rw [this, List.range'_1_concat]
        congr 2; omega
      rw [hr, List.find?_append]
      have hnone : (List.range' lo (hi - 1 - lo)).find? (fun i => stopAt G stop start (b, i)) = none := by
        rw [List.find?_eq_none]
        intro q hq
        rw [List.mem_range'_1] at hq
        rw [early q hq.1 (by omega)]; decide
      rw [hnone]
      simp [last, hst]
    simp only [argsAt]
    rw [hf]
    show (true, lo, hi - 1 + 1) = _
    rw [show hi - 1 + 1 = hi by omega]

/-- What holds in each step. -/
structure Shape (G : Graph) (start : Loc) (s : State) : Prop where
  stack : ∀ f ∈ s.stack, f.i = 0 → Fresh G start f.block f.lo f.hi
  out : ∀ t ∈ s.out, Fresh G start t.1 t.2.1 t.2.2
  visited : ∀ b, s.visited b = none ∨ s.visited b = some (0, G.len b) ∨ (b = start.1 ∧ s.visited b = some (start.2, G.len b))
  phase : (s.todo = [start] ∧ s.stack = [] ∧ (∀ b, s.visited b = none)) ∨ (s.todo = [] ∧ s.visited start.1 ≠ none)

theorem expand_eq (c c' : Args) (h : c.dir = c'.dir) (s : State) (b lo hi i : Nat) :
    Traverse.expand G c s b lo hi i = Traverse.expand G c' s b lo hi i := by
  unfold Traverse.expand Traverse.enter
  rw [h]

theorem shape_push {s : State} (h : Shape G start s) (ht : s.todo = []) {e lo hi : Nat} (hf : Fresh G start e lo hi) :
    Shape G start (s.push G e lo hi) where
  stack f hm h0 := by
    rcases List.mem_cons.1 hm with rfl | hm
    · exact hf
    · exact h.stack f hm h0
  out := h.out
  visited b := by
    by_cases e' : b = e
    · right; left; show Traverse.setVisited _ _ _ _ _ = _; simp [Traverse.setVisited, e']
    · have : ∀ o, (s.push G e lo hi).visited b = o ↔ s.visited b = o := by
        intro o; show Traverse.setVisited _ _ _ _ _ = _ ↔ _; simp [Traverse.setVisited, e']
      simpa only [this] using h.visited b
  phase := by
    refine .inr ⟨ht, ?_⟩
    show Traverse.setVisited _ _ _ _ _ ≠ none
    unfold Traverse.setVisited
    split
    · exact fun h => nomatch h
    · rcases h.phase with hp | hp
      · rw [ht] at hp; exact absurd hp.1 (by simp)
      · exact hp.2

theorem shape_expand {s s' : State} (h : Shape G start s) (ht : s.todo = []) (hs : start.2 < G.len start.1) {b lo hi i : Nat}
    (he : Traverse.expand G args s b lo hi i = .ok s') : Shape G start s' ∧ s'.todo = [] := by
  unfold Traverse.expand at he
  split at he
  · cases he; exact ⟨h, ht⟩
  · rename_i e _
    have h1 : Shape G start { s with stack := ⟨b, lo, hi, i + 1⟩ :: s.stack } := by
      refine ⟨fun f hm h0 => ?_, h.out, h.visited, ?_⟩
      · rcases List.mem_cons.1 hm with rfl | hm
        · cases h0
        · exact h.stack f hm h0
      · rcases h.phase with hp | hp
        · rw [ht] at hp; exact absurd hp.1 (by simp)
        · exact .inr hp
    simp only at he
    split at he
    · unfold Traverse.enter at he
      split at he
      · cases he; exact ⟨h1, ht⟩
      · rename_i hlen
        simp only at he
        split at he
        · rename_i hv
          cases he
          refine ⟨shape_push h1 ht ⟨by omega, Nat.le_refl _, .inl ⟨?_, rfl, rfl⟩⟩, ht⟩
          rintro rfl
          rcases h.phase with hp | hp
          · rw [ht] at hp; exact absurd hp.1 (by simp)
          · exact hp.2 hv
        · rename_i vf vt hv
          split at he
          · cases he; exact ⟨h1, ht⟩
          · rename_i hn
            simp only [args] at he
            split at he
            · cases he
              rcases h.visited e with h2 | h2 | ⟨h2, h3⟩
              · rw [h2] at hv; cases hv
              · rw [h2] at hv; cases hv; exact absurd ⟨rfl, rfl⟩ hn
              · rw [h3] at hv; cases hv
                refine ⟨shape_push h1 ht ⟨?_, ?_, .inr (.inr ⟨h2, rfl, rfl⟩)⟩, ht⟩
                · rename_i hvt
                  by_cases e0 : start.2 = 0
                  · exact absurd ⟨e0, rfl⟩ hn
                  · omega
                · rw [h2]; omega
            · cases he
    · cases he; exact ⟨h1, ht⟩

theorem step_eq (hstop : ∀ b lo lo' hi, stop b lo hi = stop b lo' hi) (hs : start.2 < G.len start.1) {s : State} (h : Shape G start s) :
    step G stop s = Traverse.step G (argsAt G stop start) s ∧ ∀ s', step G stop s = .ok s' → Shape G start s' := by
  unfold step Traverse.step
  cases hst : s.stack with
  | nil =>
    simp only
    cases htd : s.todo with
    | nil => exact ⟨rfl, fun s' h' => by cases h'; exact h⟩
    | cons l todo =>
      refine ⟨rfl, fun s' h' => ?_⟩
      rcases h.phase with ⟨h1, h2, h3⟩ | hp
      · rw [htd] at h1
        cases h1
        simp only [Traverse.begin, h3, args] at h'
        rw [if_neg (by omega)] at h'
        cases h'
        refine ⟨fun f hm h0 => ?_, h.out, fun b => ?_, .inr ⟨rfl, ?_⟩⟩
        · rw [List.mem_singleton.1 hm]
          exact ⟨hs, Nat.le_refl _, .inr (.inl ⟨rfl, rfl, rfl⟩)⟩
        · show Traverse.setVisited _ _ _ _ _ = _ ∨ Traverse.setVisited _ _ _ _ _ = _ ∨ _ ∧ Traverse.setVisited _ _ _ _ _ = _
          unfold Traverse.setVisited
          by_cases e : b = start.1
          · rw [if_pos e]
            exact .inr (.inr ⟨e, by rw [e]; rfl⟩)
          · rw [if_neg e]; exact .inl (h3 b)
        · show Traverse.setVisited _ _ _ _ _ ≠ none
          simp [Traverse.setVisited]
      · rw [htd] at hp; exact absurd hp.1 (by simp)
  | cons f rest =>
    simp only
    have htd : s.todo = [] := by
      rcases h.phase with hp | hp
      · rw [hst] at hp; exact absurd hp.2.1 (by simp)
      · exact hp.1
    have hrest : Shape G start { s with stack := rest } := by
      refine ⟨fun f' hm => h.stack f' (by rw [hst]; exact List.mem_cons_of_mem _ hm), h.out, h.visited, ?_⟩
      rcases h.phase with hp | hp
      · rw [htd] at hp; exact absurd hp.1 (by simp)
      · exact .inr hp
    unfold advance Traverse.advance
    by_cases h0 : f.i = 0
    · simp only [h0, if_true]
      have hf := h.stack f (by rw [hst]; exact List.mem_cons_self) h0
      rw [triage_fresh hstop hf]
      have hyield : Traverse.yielding (true, f.lo, f.hi) f.block = [(f.block, f.lo, f.hi)] := by
        unfold Traverse.yielding
        rw [if_pos (Nat.ne_of_lt hf.1)]
      have hyield' : Traverse.yielding (stop f.block f.lo f.hi, f.lo, f.hi) f.block = [(f.block, f.lo, f.hi)] := by
        unfold Traverse.yielding
        rw [if_pos (Nat.ne_of_lt hf.1)]
      simp only
      rw [hyield, hyield']
      have hout : Shape G start { s with stack := rest, out := s.out ++ [(f.block, f.lo, f.hi)] } := by
        refine ⟨hrest.stack, fun t ht => ?_, hrest.visited, hrest.phase⟩
        rcases List.mem_append.1 ht with ht | ht
        · exact h.out t ht
        · rw [List.mem_singleton.1 ht]; exact hf
      split
      · exact ⟨rfl, fun s' h' => by cases h'; exact hout⟩
      · refine ⟨expand_eq args (argsAt G stop start) rfl _ _ _ _ _, fun s' h' => (shape_expand hout htd hs h').1⟩
    · simp only [h0, if_false]
      refine ⟨expand_eq args (argsAt G stop start) rfl _ _ _ _ _, fun s' h' => (shape_expand hrest htd hs h').1⟩

theorem run_eq (hstop : ∀ b lo lo' hi, stop b lo hi = stop b lo' hi) (hs : start.2 < G.len start.1) : ∀ (n : Nat) {s : State},
    Shape G start s → run G stop n s = Traverse.run G (argsAt G stop start) n s ∧ ∀ s', run G stop n s = .ok s' → Shape G start s'
  | 0, s, h => ⟨rfl, fun s' h' => by cases h'; exact h⟩
  | n + 1, s, h => by
    obtain ⟨h1, h2⟩ := step_eq hstop hs h
    simp only [run, Traverse.run]
    rw [← h1]
    cases hst : step G stop s with
    | error x => exact ⟨rfl, fun s' h' => nomatch h'⟩
    | ok s1 => exact run_eq hstop hs n (h2 s1 hst)

theorem shape_init (start : Loc) : Shape G start (Traverse.init [start]) :=
  ⟨(fun _ h => nomatch h), (fun _ h => nomatch h), fun _ => .inl rfl, .inl ⟨rfl, rfl, fun _ => rfl⟩⟩

theorem blocks_eq (hstop : ∀ b lo lo' hi, stop b lo hi = stop b lo' hi) (hs : start.2 < G.len start.1) {out : List (Nat × Nat × Nat)} :
    Blocks G stop [start] out ↔ Traverse.Blocks G (argsAt G stop start) [start] out := by
  constructor
  · rintro ⟨n, s, h1, h2⟩
    exact ⟨n, s, by rw [← (run_eq hstop hs n (shape_init start)).1]; exact h1, h2⟩
  · rintro ⟨n, s, h1, h2⟩
    exact ⟨n, s, by rw [(run_eq hstop hs n (shape_init start)).1]; exact h1, h2⟩

theorem blocks_fresh (hstop : ∀ b lo lo' hi, stop b lo hi = stop b lo' hi) (hs : start.2 < G.len start.1) {out : List (Nat × Nat × Nat)}
    (h : Blocks G stop [start] out) : ∀ t ∈ out, Fresh G start t.1 t.2.1 t.2.2 := by
  obtain ⟨n, s, h1, _, _, rfl⟩ := h
  exact ((run_eq hstop hs n (shape_init start)).2 s h1).out

end Verif.Inside

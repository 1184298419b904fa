import Verif.Model.Reaching
import Mathlib.Tactic.ByContra

/-! The fixpoint of reaching definitions between blocks. -/

namespace Verif.Cfg

/-- `b0` gives `v` a value, and there is a path from it to `b` on which no other block does. -/
inductive Flow (P : Prog) (v : Nat) (b0 : Nat) : Nat → Prop
  | edge {c : Nat} : P.kill b0 v ≠ [] → c ∈ P.inner b0 → Flow P v b0 c
  | next {b c : Nat} : Flow P v b0 b → P.kill b v = [] → c ∈ P.inner b → Flow P v b0 c

/-- What is known of the blocks of a graph. -/
structure Blocks (P : Prog) (reachable : Nat → Bool) (order : List Nat) : Prop where
  nodup : order.Nodup
  locs : ∀ b ∈ order, P.locs b ≠ []
  succ : ∀ b ∈ order, ∀ c ∈ P.inner b, c ∈ order
  pred : ∀ b ∈ order, ∀ p, b ∈ P.succ p → reachable p = true → p ∈ order
  reach : ∀ b ∈ order, reachable b = true
  nodes : ∀ b ∈ order, b ∈ P.nodes

theorem testBit_one_shiftLeft (n m : Nat) : (1 <<< n).testBit m = decide (m = n) := by
  rw [Nat.one_shiftLeft, Nat.testBit_two_pow]
  simp [eq_comm]

theorem mem_inner {P : Prog} {b c : Nat} : c ∈ P.inner b ↔ c ∈ P.succ b ∧ P.locs c ≠ [] := by
  simp [Prog.inner]

theorem mem_preds {P : Prog} {b p : Nat} : p ∈ P.preds b ↔ p ∈ P.nodes ∧ b ∈ P.succ p := by
  simp only [Prog.preds, List.mem_flatMap, List.mem_map, List.mem_filter, decide_eq_true_eq]
  constructor
  · rintro ⟨a, ha, c, ⟨hc, rfl⟩, rfl⟩; exact ⟨ha, hc⟩
  · rintro ⟨hp, hb⟩; exact ⟨p, hp, b, ⟨hb, rfl⟩, rfl⟩

theorem testBit_foldl_or (f : Nat → Nat) (m : Nat) : ∀ (l : List Nat) (x : Nat),
    (l.foldl (fun r p => r ||| f p) x).testBit m = true ↔ x.testBit m = true ∨ ∃ p ∈ l, (f p).testBit m = true
  | [], x => by simp
  | p :: l, x => by
    rw [List.foldl_cons, testBit_foldl_or f m l, Nat.testBit_or, Bool.or_eq_true]
    simp [or_assoc]

structure FixInv (P : Prog) (base : Nat) (order : List Nat) (s : Fix) : Prop where
  sound : ∀ b ∈ order, ∀ v m, (s.parents b v).testBit m = true →
    ∃ b0 ∈ order, m = number base order b0 ∧ Flow P v b0 b
  low : ∀ b ∈ order, ∀ v, P.kill b v = [] → ∀ m, (s.computed b v).testBit m = true → (s.parents b v).testBit m = true
  own : ∀ b ∈ order, ∀ v, P.kill b v ≠ [] → s.computed b v = 1 <<< number base order b
  edges : ∀ b ∈ order, ∀ c ∈ P.inner b, ∀ v m, (s.computed b v).testBit m = true → (s.parents c v).testBit m = true
  settled : ∀ b ∈ order, b ∉ s.queue → ∀ v < P.vars, P.kill b v = [] → s.computed b v = s.parents b v
  queue : ∀ b ∈ s.queue, b ∈ order

theorem testBit_initComputed {P : Prog} {base : Nat} {order : List Nat} {b v m : Nat} :
    (initComputed P base order b v).testBit m = true ↔ P.kill b v ≠ [] ∧ m = number base order b := by
  unfold initComputed
  split
  · rename_i h
    have : P.kill b v ≠ [] := by intro hn; simp [hn] at h
    rw [testBit_one_shiftLeft]; simp [this]
  · rename_i h
    have : P.kill b v = [] := by
      cases hk : P.kill b v with
      | nil => rfl
      | cons x l => simp [hk] at h
    simp [this]

theorem fix_init {P : Prog} {reachable : Nat → Bool} {base : Nat} {order : List Nat} (hB : Blocks P reachable order) :
    FixInv P base order (Fix.init P reachable base order) := by
  have hpar : ∀ b v m, (initParents P reachable base order b v).testBit m = true ↔
      ∃ p ∈ P.nodes, b ∈ P.succ p ∧ reachable p = true ∧ P.kill p v ≠ [] ∧ m = number base order p := by
    intro b v m
    unfold initParents
    rw [testBit_foldl_or (fun p => initComputed P base order p v)]
    simp only [Nat.zero_testBit, Bool.false_eq_true, false_or, List.mem_filter, mem_preds, testBit_initComputed]
    constructor
    · rintro ⟨p, ⟨⟨h1, h2⟩, h3⟩, h4, h5⟩; exact ⟨p, h1, h2, h3, h4, h5⟩
    · rintro ⟨p, h1, h2, h3, h4, h5⟩; exact ⟨p, ⟨⟨h1, h2⟩, h3⟩, h4, h5⟩
  refine ⟨?_, ?_, ?_, ?_, ?_, ?_⟩
  · intro b hb v m hm
    obtain ⟨p, h1, h2, h3, h4, h5⟩ := (hpar b v m).1 hm
    exact ⟨p, hB.pred b hb p h2 h3, h5, .edge h4 (mem_inner.2 ⟨h2, hB.locs b hb⟩)⟩
  · intro b hb v hk m hm
    exact absurd hk (testBit_initComputed.1 hm).1
  · intro b hb v hk
    have : (P.kill b v).length > 0 := List.length_pos_iff.2 hk
    simp [Fix.init, initComputed, this]
  · intro b hb c hc v m hm
    obtain ⟨h1, h2⟩ := testBit_initComputed.1 hm
    exact (hpar c v m).2 ⟨b, hB.nodes b hb, (mem_inner.1 hc).1, hB.reach b hb, h1, h2⟩
  · intro b hb hq
    exact absurd hb hq
  · exact fun b hb => hb

/-- The loop over the edges. -/
theorem pass_spec (P : Prog) (upd : Nat → Option Nat) : ∀ (cs : List Nat) (s : Fix),
    (Fix.pass P upd s cs).computed = s.computed ∧
    (∀ c v m, ((Fix.pass P upd s cs).parents c v).testBit m = true ↔ (s.parents c v).testBit m = true ∨
      (c ∈ cs ∧ P.locs c ≠ [] ∧ ∃ val, upd v = some val ∧ val.testBit m = true)) ∧
    (∀ c ∈ s.queue, c ∈ (Fix.pass P upd s cs).queue) ∧
    (∀ c ∈ (Fix.pass P upd s cs).queue, c ∈ s.queue ∨ (c ∈ cs ∧ P.locs c ≠ [])) ∧
    (∀ c, c ∉ (Fix.pass P upd s cs).queue → ∀ v < P.vars, (Fix.pass P upd s cs).parents c v = s.parents c v)
  | [], s => by simp [Fix.pass]
  | c0 :: cs, s => by
    unfold Fix.pass
    by_cases hl : (P.locs c0).isEmpty = true
    · rw [if_pos hl]
      obtain ⟨h1, h2, h3, h4, h5⟩ := pass_spec P upd cs s
      have hl' : P.locs c0 = [] := by simpa using hl
      refine ⟨h1, ?_, h3, ?_, h5⟩
      · intro c v m
        rw [h2]
        constructor
        · rintro (h | ⟨h, h'⟩)
          · exact .inl h
          · exact .inr ⟨List.mem_cons_of_mem _ h, h'⟩
        · rintro (h | ⟨h, h', h''⟩)
          · exact .inl h
          · rcases List.mem_cons.1 h with rfl | h
            · exact absurd hl' h'
            · exact .inr ⟨h, h', h''⟩
      · intro c hc
        rcases h4 c hc with h | ⟨h, h'⟩
        · exact .inl h
        · exact .inr ⟨List.mem_cons_of_mem _ h, h'⟩
    · rw [if_neg hl]
      have hl' : P.locs c0 ≠ [] := by simpa using hl
      generalize hnew : Fix.isNew P upd s.parents c0 = isNew
      obtain ⟨h1, h2, h3, h4, h5⟩ := pass_spec P upd cs
        { s with
          parents := setAt s.parents c0 (Fix.merged upd s.parents c0)
          queue := if isNew ∧ c0 ∉ s.queue then s.queue ++ [c0] else s.queue }
      have hp : ∀ c v m, ((setAt s.parents c0 (Fix.merged upd s.parents c0)) c v).testBit m = true ↔ (s.parents c v).testBit m = true ∨
            (c = c0 ∧ ∃ val, upd v = some val ∧ val.testBit m = true) := by
        intro c v m
        by_cases hc : c = c0
        · subst hc
          simp only [setAt, if_true, Fix.merged]
          cases hu : upd v with
          | none => simp
          | some val => simp [Nat.testBit_or]
        · simp [setAt, hc]
      refine ⟨h1, ?_, ?_, ?_, ?_⟩
      · intro c v m
        rw [h2, hp]
        constructor
        · rintro ((h | ⟨rfl, h⟩) | ⟨h, h'⟩)
          · exact .inl h
          · exact .inr ⟨by simp, hl', h⟩
          · exact .inr ⟨List.mem_cons_of_mem _ h, h'⟩
        · rintro (h | ⟨h, h', h''⟩)
          · exact .inl (.inl h)
          · rcases List.mem_cons.1 h with rfl | h
            · exact .inl (.inr ⟨rfl, h''⟩)
            · exact .inr ⟨h, h', h''⟩
      · intro c hc
        apply h3
        simp only
        split
        · simp [hc]
        · exact hc
      · intro c hc
        rcases h4 c hc with h | ⟨h, h'⟩
        · simp only at h
          split at h
          · rcases List.mem_append.1 h with h | h
            · exact .inl h
            · simp only [List.mem_singleton] at h
              subst h
              exact .inr ⟨by simp, hl'⟩
          · exact .inl h
        · exact .inr ⟨List.mem_cons_of_mem _ h, h'⟩
      · intro c hc v hv
        rw [h5 c hc v hv]
        by_cases hcc : c = c0
        · subst hcc
          have hq : c ∉ (if isNew = true ∧ c ∉ s.queue then s.queue ++ [c] else s.queue) := fun hm => hc (h3 c hm)
          have hnn : isNew = false := by
            by_cases hs : c ∈ s.queue
            · exfalso; apply hq; split <;> simp [hs]
            · by_contra hne
              have : isNew = true := by simpa using hne
              apply hq
              simp [this, hs]
          rw [hnn] at hnew
          rw [Fix.isNew, List.any_eq_false] at hnew
          have := hnew v (by simpa using hv)
          simp only [setAt, if_true, Fix.merged]
          cases hu : upd v with
          | none => rfl
          | some val =>
            simp only [hu, decide_eq_true_eq, ne_eq, Decidable.not_not] at this
            simp only
            apply Nat.eq_of_testBit_eq
            intro i
            rw [Nat.testBit_or]
            have hi := congrArg (·.testBit i) this
            simp only [Nat.testBit_and] at hi
            cases h1 : (s.parents c v).testBit i <;> cases h2 : val.testBit i <;> simp_all
        · simp [setAt, hcc]

theorem fix_step {P : Prog} {reachable : Nat → Bool} {base : Nat} {order : List Nat} (hB : Blocks P reachable order)
    {s : Fix} (h : FixInv P base order s) : FixInv P base order (s.step P) := by
  obtain ⟨queue, computed, parents⟩ := s
  cases queue with
  | nil => exact h
  | cons b0 queue =>
    have hb0 : b0 ∈ order := h.queue b0 (by simp)
    simp only [Fix.step]
    generalize hupd : Fix.updated P ⟨b0 :: queue, computed, parents⟩ b0 = upd
    have hu : ∀ v val, upd v = some val → v < P.vars ∧ P.kill b0 v = [] ∧ val = parents b0 v := by
      intro v val hv
      rw [← hupd] at hv
      simp only [Fix.updated] at hv
      split at hv
      · rename_i hc
        cases hv
        exact ⟨hc.1, List.length_eq_zero_iff.1 hc.2.2, rfl⟩
      · cases hv
    have hn : ∀ v, upd v = none → v < P.vars → P.kill b0 v = [] → computed b0 v = parents b0 v := by
      intro v hv hlt hk
      rw [← hupd] at hv
      simp only [Fix.updated] at hv
      split at hv
      · cases hv
      · rename_i hc
        by_contra hne
        exact hc ⟨hlt, hne, by simp [hk]⟩
    obtain ⟨g1, g2, g3, g4, g5⟩ := pass_spec P upd (P.succ b0)
      ⟨queue, setAt computed b0 fun v => (upd v).getD (computed b0 v), parents⟩
    refine ⟨?_, ?_, ?_, ?_, ?_, ?_⟩
    · intro b hb v m hm
      rcases (g2 b v m).1 hm with hm | ⟨hs, hl, val, hv, hm⟩
      · exact h.sound b hb v m hm
      · obtain ⟨_, hk, rfl⟩ := hu v val hv
        obtain ⟨b1, hb1, hm1, hf⟩ := h.sound b0 hb0 v m hm
        exact ⟨b1, hb1, hm1, hf.next hk (mem_inner.2 ⟨hs, hl⟩)⟩
    · intro b hb v hk m hm
      rw [g1] at hm
      rw [g2]
      left
      by_cases hbb : b = b0
      · subst hbb
        simp only [setAt, if_true] at hm
        cases huv : upd v with
        | none => rw [huv] at hm; exact h.low b hb v hk m hm
        | some val => rw [huv] at hm; rw [(hu v val huv).2.2] at hm; exact hm
      · simp only [setAt, hbb, if_false] at hm
        exact h.low b hb v hk m hm
    · intro b hb v hk
      rw [g1]
      by_cases hbb : b = b0
      · subst hbb
        simp only [setAt, if_true]
        cases huv : upd v with
        | none => exact h.own b hb v hk
        | some val => exact absurd (hu v val huv).2.1 hk
      · simp only [setAt, hbb, if_false]
        exact h.own b hb v hk
    · intro b hb c hc v m hm
      rw [g1] at hm
      rw [g2]
      by_cases hbb : b = b0
      · subst hbb
        simp only [setAt, if_true] at hm
        cases huv : upd v with
        | none => rw [huv] at hm; exact .inl (h.edges b hb c hc v m hm)
        | some val =>
          rw [huv] at hm
          exact .inr ⟨(mem_inner.1 hc).1, (mem_inner.1 hc).2, val, rfl, hm⟩
      · simp only [setAt, hbb, if_false] at hm
        exact .inl (h.edges b hb c hc v m hm)
    · intro b hb hq v hv hk
      rw [g5 b hq v hv, g1]
      by_cases hbb : b = b0
      · subst hbb
        simp only [setAt, if_true]
        cases huv : upd v with
        | none => exact hn v huv hv hk
        | some val => exact (hu v val huv).2.2
      · simp only [setAt, hbb, if_false]
        refine h.settled b hb ?_ v hv hk
        intro hm
        rcases List.mem_cons.1 hm with hm | hm
        · exact hbb hm
        · exact hq (g3 b hm)
    · intro b hb
      rcases g4 b hb with hm | ⟨hm, hl⟩
      · exact h.queue b (by simp only at hm; simp [hm])
      · exact hB.succ b0 hb0 b (mem_inner.2 ⟨hm, hl⟩)

theorem fix_run {P : Prog} {reachable : Nat → Bool} {base : Nat} {order : List Nat} (hB : Blocks P reachable order) :
    ∀ (n : Nat) {s : Fix}, FixInv P base order s → FixInv P base order (s.run P n)
  | 0, _, h => h
  | n + 1, _, h => fix_run hB n (fix_step hB h)

theorem number_inj {base : Nat} {order : List Nat} {b c : Nat} (hb : b ∈ order) (hc : c ∈ order)
    (h : number base order b = number base order c) : b = c := by
  unfold number at h
  have h : order.idxOf b = order.idxOf c := by omega
  have h1 := List.getElem_idxOf (List.idxOf_lt_length_of_mem hb)
  have h2 := List.getElem_idxOf (List.idxOf_lt_length_of_mem hc)
  rw [← h1, ← h2]
  simp only [h]

/-- When the loop is over, the bits tell which blocks flow into which. -/
theorem fix_final {P : Prog} {reachable : Nat → Bool} {base : Nat} {order : List Nat} (hB : Blocks P reachable order)
    {s : Fix} (h : FixInv P base order s) (hq : s.queue = []) {b v m : Nat} (hb : b ∈ order) (hv : v < P.vars) :
    (s.parents b v).testBit m = true ↔ ∃ b0 ∈ order, m = number base order b0 ∧ Flow P v b0 b := by
  constructor
  · exact h.sound b hb v m
  · rintro ⟨b0, hb0, rfl, hf⟩
    have key : ∀ c, Flow P v b0 c → c ∈ order ∧ (s.parents c v).testBit (number base order b0) = true := by
      intro c hc
      induction hc with
      | edge hk hc =>
        refine ⟨hB.succ b0 hb0 _ hc, h.edges b0 hb0 _ hc v _ ?_⟩
        rw [h.own b0 hb0 v hk, testBit_one_shiftLeft]
        simp
      | next _ hk hc ih =>
        rename_i b c _
        refine ⟨hB.succ b ih.1 _ hc, h.edges b ih.1 _ hc v _ ?_⟩
        rw [h.settled b ih.1 (by simp [hq]) v hv hk]
        exact ih.2
    exact (key b hf).2

/-! ### Termination -/

/-- The bits not set yet. -/
def unset (N : Nat) (order : List Nat) (vars : Nat) (parents : Nat → Nat → Nat) : Nat :=
  (order.map fun b => ((List.range vars).map fun v => (List.range N).countP fun m => !(parents b v).testBit m).sum).sum

theorem sum_map_le {α : Type} (f g : α → Nat) : ∀ (l : List α), (∀ x ∈ l, f x ≤ g x) → (l.map f).sum ≤ (l.map g).sum
  | [], _ => by simp
  | a :: l, h => by
    simp only [List.map_cons, List.sum_cons]
    have h1 := h a (by simp)
    have h2 := sum_map_le f g l (fun x hx => h x (by simp [hx]))
    omega

theorem sum_map_lt {α : Type} (f g : α → Nat) : ∀ (l : List α) (x : α), x ∈ l → f x < g x → (∀ x ∈ l, f x ≤ g x) →
    (l.map f).sum < (l.map g).sum
  | a :: l, x, hx, hlt, h => by
    simp only [List.map_cons, List.sum_cons]
    have h1 := h a (by simp)
    have h2 := sum_map_le f g l (fun x hx => h x (by simp [hx]))
    rcases List.mem_cons.1 hx with rfl | hx
    · omega
    · have := sum_map_lt f g l x hx hlt (fun x hx => h x (by simp [hx]))
      omega

theorem countP_le (p q : Nat → Bool) (h : ∀ m, p m = true → q m = true) : ∀ (l : List Nat), l.countP p ≤ l.countP q
  | [] => by simp
  | a :: l => by
    have ih := countP_le p q h l
    rw [List.countP_cons, List.countP_cons]
    cases hp : p a with
    | false => cases hq : q a <;> simp <;> omega
    | true => simp [h a hp]; exact ih

theorem countP_lt (p q : Nat → Bool) (h : ∀ m, p m = true → q m = true) : ∀ (l : List Nat) (x : Nat), x ∈ l → p x = false →
    q x = true → l.countP p < l.countP q
  | a :: l, x, hx, hp, hq => by
    have hle := countP_le p q h l
    rw [List.countP_cons, List.countP_cons]
    rcases List.mem_cons.1 hx with rfl | hx
    · simp [hp, hq]; omega
    · have ih := countP_lt p q h l x hx hp hq
      cases hpa : p a with
      | false => cases hqa : q a <;> simp <;> omega
      | true => simp [h a hpa]; exact ih

theorem unset_le {N : Nat} {order : List Nat} {vars : Nat} {f g : Nat → Nat → Nat}
    (h : ∀ b v m, (f b v).testBit m = true → (g b v).testBit m = true) : unset N order vars g ≤ unset N order vars f := by
  refine sum_map_le _ _ _ fun b _ => sum_map_le _ _ _ fun v _ => countP_le _ _ (fun m hm => ?_) _
  have := h b v m
  cases hf : (f b v).testBit m <;> simp_all

theorem unset_lt {N : Nat} {order : List Nat} {vars : Nat} {f g : Nat → Nat → Nat}
    (h : ∀ b v m, (f b v).testBit m = true → (g b v).testBit m = true) {b v m : Nat} (hb : b ∈ order) (hv : v < vars)
    (hm : m < N) (hf : (f b v).testBit m = false) (hg : (g b v).testBit m = true) :
    unset N order vars g < unset N order vars f := by
  have hcount : ∀ b v m, (!(g b v).testBit m) = true → (!(f b v).testBit m) = true := by
    intro b v m hm
    have := h b v m
    cases hf : (f b v).testBit m <;> simp_all
  refine sum_map_lt _ _ _ b hb ?_ (fun b _ => sum_map_le _ _ _ fun v _ => countP_le _ _ (hcount b v) _)
  refine sum_map_lt _ _ _ v (by simpa using hv) ?_ (fun v _ => countP_le _ _ (hcount b v) _)
  exact countP_lt _ _ (hcount b v) _ m (by simpa using hm) (by simp [hg]) (by simp [hf])

theorem pass_measure {P : Prog} {N : Nat} {order : List Nat} {upd : Nat → Option Nat}
    (hval : ∀ v val, upd v = some val → ∀ m, val.testBit m = true → m < N) : ∀ (cs : List Nat) (s : Fix),
    (∀ c ∈ cs, P.locs c ≠ [] → c ∈ order) →
    (Fix.pass P upd s cs).queue.length + unset N order P.vars (Fix.pass P upd s cs).parents ≤
      s.queue.length + unset N order P.vars s.parents
  | [], s, _ => by simp [Fix.pass]
  | c0 :: cs, s, hcs => by
    unfold Fix.pass
    by_cases hl : (P.locs c0).isEmpty = true
    · rw [if_pos hl]
      exact pass_measure hval cs s (fun c hc => hcs c (by simp [hc]))
    · rw [if_neg hl]
      have hl' : P.locs c0 ≠ [] := by simpa using hl
      generalize hnew : Fix.isNew P upd s.parents c0 = isNew
      refine Nat.le_trans (pass_measure hval cs _ (fun c hc => hcs c (by simp [hc]))) ?_
      simp only
      have hmono : ∀ b v m, (s.parents b v).testBit m = true → ((setAt s.parents c0 (Fix.merged upd s.parents c0)) b v).testBit m = true := by
        intro b v m hm
        by_cases hb : b = c0
        · subst hb
          simp only [setAt, if_true, Fix.merged]
          cases hu : upd v with
          | none => exact hm
          | some val => simp [Nat.testBit_or, hm]
        · simpa [setAt, hb] using hm
      by_cases hq : isNew = true ∧ c0 ∉ s.queue
      · rw [if_pos hq]
        have hn := hq.1
        rw [hn, Fix.isNew, List.any_eq_true] at hnew
        obtain ⟨v, hv, hd⟩ := hnew
        have hv : v < P.vars := by simpa using hv
        cases hu : upd v with
        | none => simp [hu] at hd
        | some val =>
          simp only [hu, decide_eq_true_eq] at hd
          have : ∃ m, val.testBit m = true ∧ (s.parents c0 v).testBit m = false := by
            by_contra hne
            apply hd
            apply Nat.eq_of_testBit_eq
            intro i
            rw [Nat.testBit_and]
            cases h1 : val.testBit i with
            | false => rfl
            | true =>
              cases h2 : (s.parents c0 v).testBit i with
              | false => exact absurd ⟨i, h1, h2⟩ hne
              | true => rfl
          obtain ⟨m, hm1, hm2⟩ := this
          have := unset_lt (N := N) (order := order) (vars := P.vars) hmono (hcs c0 (by simp) hl') hv (hval v val hu m hm1) hm2
            (by simp [setAt, Fix.merged, hu, Nat.testBit_or, hm1])
          simp only [List.length_append, List.length_cons, List.length_nil]
          omega
      · rw [if_neg hq]
        have := unset_le (N := N) (order := order) (vars := P.vars) hmono
        omega

theorem number_lt {base : Nat} {order : List Nat} {b : Nat} (hb : b ∈ order) :
    number base order b < base + order.length := by
  have := List.idxOf_lt_length_of_mem hb
  simp only [number]
  omega

theorem fix_terminates {P : Prog} {reachable : Nat → Bool} {base : Nat} {order : List Nat} (hB : Blocks P reachable order) :
    ∀ (k : Nat) (s : Fix), FixInv P base order s →
    s.queue.length + unset (base + order.length) order P.vars s.parents ≤ k → ∃ n, (s.run P n).queue = []
  | k, s, h, hk => by
    by_cases hs : s.queue = []
    · exact ⟨0, hs⟩
    · have hlt : (s.step P).queue.length + unset (base + order.length) order P.vars (s.step P).parents <
          s.queue.length + unset (base + order.length) order P.vars s.parents := by
        obtain ⟨queue, computed, parents⟩ := s
        cases queue with
        | nil => exact absurd rfl hs
        | cons b0 queue =>
          have hb0 : b0 ∈ order := h.queue b0 (by simp)
          simp only [Fix.step]
          refine Nat.lt_of_le_of_lt (pass_measure ?_ _ _ ?_) ?_
          · intro v val hv m hm
            simp only [Fix.updated] at hv
            split at hv
            · cases hv
              obtain ⟨b1, hb1, rfl, _⟩ := h.sound b0 hb0 v m hm
              exact number_lt hb1
            · cases hv
          · intro c hc hl
            exact hB.succ b0 hb0 c (mem_inner.2 ⟨hc, hl⟩)
          · simp
      match k with
      | 0 => omega
      | k + 1 =>
        obtain ⟨n, hn⟩ := fix_terminates hB k (s.step P) (fix_step hB h) (by omega)
        exact ⟨n + 1, hn⟩

end Verif.Cfg

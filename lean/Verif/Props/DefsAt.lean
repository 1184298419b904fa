import Verif.Model.DefsAt
import Verif.Props.MadeUp

/-! C140: events that may have given a name the value that it has at a node. -/

namespace Verif.Cfg

section
variable {P : Prog} {reachable : Nat → Bool} {starts : List Nat} {phases : List Phase} {computed : Nat → Nat → Nat} {v : Nat}

/-! ### Ends of blocks -/

/-- What `root.block_kills` has for a block are values that a variable has at its end. -/
theorem mem_blockKills (hG : Graphs P reachable starts) (hP : Phases P reachable 0 starts phases) (hC : Computed P reachable phases computed)
    (hno : ∀ b, NoCalled v (P.items b)) (hv : v < P.vars) {s b : Nat} (hs : s ∈ starts) (hb : Reach P.succ s b) (hbl : P.locs b ≠ []) {d : Event} :
    d ∈ reachingKills P (phases.flatMap Phase.order) (computed b v) v ↔ ∃ bs, Way P s bs b ∧ ValueOf v (bs.flatMap P.items ++ P.items b) d := by
  obtain ⟨ph, hph, hy⟩ := (phases_spec hP).2 s hs
  obtain ⟨n, hq, hcomp⟩ := hC ph hph
  have hM : ModuleEnd P reachable s phases ph ((Fix.init P reachable ph.base ph.order).run P n).computed := ⟨hph, hy, n, hq, rfl⟩
  have hidx := phases_index hP [] rfl ph hph
  simp only [List.nil_append] at hidx
  have hlast : ∀ b, d ∈ lastKills (P.kill b v) ↔ lastKill v (P.items b) = some d :=
    fun b => lastKills_of (scanBlock_spec (hno b) [] []) d
  have horder : ∀ b, b ∈ ph.order ↔ Reach P.succ s b ∧ P.locs b ≠ [] :=
    fun b => ((C29_blocks hy).2 b).trans (reach_inner hG hs b)
  have hbo := (horder b).2 ⟨hb, hbl⟩
  simp only [reachingKills, List.mem_flatMap, mem_onesIndices, valueOf_iff]
  rw [hcomp b hbo]
  constructor
  · rintro ⟨m, hbit, hd⟩
    obtain ⟨b0, hb0, rfl, h⟩ := (testBit_computed hG hs hM hv hbo).1 hbit
    rw [hidx b0 hb0] at hd
    have hd := (hlast b0).1 hd
    rcases h with ⟨_, rfl⟩ | ⟨hk, hf⟩
    · obtain ⟨bs, hw⟩ := way_of_reach hb
      refine ⟨bs, hw, ?_⟩
      rw [lastKill_cat, hd, Option.some_or]
    · obtain ⟨bs, hw, hl⟩ := flow_way hno ((horder b0).1 hb0).1 hd hf
      refine ⟨bs, hw, ?_⟩
      rw [lastKill_cat, (kill_nil hno b).1 hk, Option.none_or, hl]
  · rintro ⟨bs, hw, hl⟩
    rw [lastKill_cat] at hl
    cases hk : lastKill v (P.items b) with
    | some x =>
      rw [hk, Option.some_or] at hl
      refine ⟨_, (testBit_computed hG hs hM hv hbo).2 ⟨b, hbo, rfl, .inl ⟨?_, rfl⟩⟩, ?_⟩
      · rw [ne_eq, kill_nil hno, hk]
        simp
      · rw [hidx b hbo]
        exact (hlast b).2 (hk.trans hl)
    | none =>
      rw [hk, Option.none_or] at hl
      obtain ⟨b0, h1, h2, h3⟩ := way_flow hG hno hw hbl hl
      have hb0l : P.locs b0 ≠ [] := by
        intro hn
        rw [Prog.items, hn] at h2
        simp [lastKill] at h2
      have hb0 := (horder b0).2 ⟨h1, hb0l⟩
      refine ⟨_, (testBit_computed hG hs hM hv hbo).2 ⟨b0, hb0, rfl, .inr ⟨(kill_nil hno b).2 hk, h3⟩⟩, ?_⟩
      rw [hidx b0 hb0]
      exact (hlast b0).2 h2

variable {C : Calling}

theorem mem_killsAt {l : List Nat} {cond : Nat → Bool} {b : Nat} {d : Event} :
    d ∈ killsAt P l computed C cond b ↔ ∃ v < P.vars, C.named v = true ∧ cond v = true ∧ d ∈ reachingKills P l (computed b v) v := by
  simp [killsAt, and_assoc]

/-! ### Within a block -/

/-- A call at a location may leave the name as it is: there is no function in the file, or there is one that can end without giving a value to the name. -/
def MayKeep (P : Prog) (reachable : Nat → Bool) (l : List Nat) (computed : Nat → Nat → Nat) (C : Calling) (b i : Nat) : Prop :=
  C.hasCall b i = true → C.functions = [] ∨ ∃ f ∈ C.functions, ∃ p ∈ C.exits f, reachable p = true ∧ ∀ v < P.vars, C.named v = true → C.sees b v = true →
    reachingKills P l (computed p v) v = []

/-- The events of a location that give a value to the name. -/
theorem mem_ownDefs {its : List Item} {d : Event} :
    d ∈ ownDefs C its ↔
      .own d ∈ its ∧ C.named d.var = true ∧ d.type ≠ .read := by
  rw [ownDefs, List.mem_filterMap]
  constructor
  · rintro ⟨it, hit, h⟩
    cases it with
    | called e => cases h
    | own e =>
      simp only at h
      split at h
      · rename_i hc
        cases h
        rw [Bool.and_eq_true] at hc
        exact ⟨hit, hc.1, kills_iff.1 hc.2⟩
      · cases h
  · rintro ⟨h1, h2, h3⟩
    exact ⟨_, h1, by simp [h2, kills_iff.2 h3]⟩

theorem own_sub {l : List Nat} {b i : Nat} {its : List Item} (hi : (P.locs b)[i]? = some its) {d : Event} (hd : .own d ∈ its) (hn : C.named d.var = true) (ht : d.type ≠ .read) :
    d ∈ (locDefs P reachable l computed C b i).1 := by
  unfold locDefs
  rw [hi]
  exact List.mem_append_left _ (mem_ownDefs.2 ⟨hd, hn, ht⟩)

/-- A location without events that give a value to the name is passed, unless a call is taken to give one. -/
theorem locDefs_keeps {l : List Nat} {b i : Nat} (hk : MayKeep P reachable l computed C b i)
    (hown : ∀ its, (P.locs b)[i]? = some its → ∀ d, Item.own d ∈ its → C.named d.var = true → d.type = .read) : (locDefs P reachable l computed C b i).2 = false := by
  have h0 : ownDefs C ((P.locs b)[i]?.getD []) = [] := by
    rw [List.eq_nil_iff_forall_not_mem]
    intro d hd
    obtain ⟨h1, h2, h3⟩ := mem_ownDefs.1 hd
    cases hl : (P.locs b)[i]? with
    | none => rw [hl] at h1; cases h1
    | some its =>
      rw [hl] at h1
      exact h3 (hown its hl d h1 h2)
  unfold locDefs
  simp only [h0, List.isEmpty_nil, Bool.not_true, Bool.false_or]
  by_cases hc : C.hasCall b i = true
  · rw [if_pos hc]
    rcases hk hc with h | ⟨f, hf, p, hp, hr, hz⟩
    · simp [h]
    · rw [Bool.and_eq_false_iff]
      right
      rw [List.all_eq_false]
      refine ⟨p, List.mem_flatMap.2 ⟨f, hf, List.mem_filter.2 ⟨hp, hr⟩⟩, ?_⟩
      have : killsAt P l computed C (C.sees b) p = [] := by
        rw [List.eq_nil_iff_forall_not_mem]
        intro d hd
        obtain ⟨v, h1, h2, h3, h4⟩ := mem_killsAt.1 hd
        rw [hz v h1 h2 h3] at h4
        cases h4
      simp [this]
  · rw [if_neg hc]
    simp

theorem locDefs_kills {l : List Nat} {b i : Nat} {its : List Item} (hi : (P.locs b)[i]? = some its) {d : Event} (hd : .own d ∈ its) (hn : C.named d.var = true)
    (ht : d.type ≠ .read) : (locDefs P reachable l computed C b i).2 = true := by
  unfold locDefs
  rw [hi]
  have h0 : d ∈ ownDefs C ((some its).getD []) :=
    mem_ownDefs.2 ⟨hd, hn, ht⟩
  simp only [Bool.or_eq_true, Bool.not_eq_true', List.isEmpty_eq_false_iff]
  exact .inl (List.ne_nil_of_mem h0)

theorem before_spec {l : List Nat} {b : Nat} {d : Event} (hone : ∀ u, C.named u = true → u = v) (hn : C.named v = true) : ∀ {i : Nat}, i ≤ (P.locs b).length →
    (∀ j < i, MayKeep P reachable l computed C b j) →
    (lastKill v ((P.locs b).take i).flatten = some d → d ∈ (before P reachable l computed C b i).1) ∧
    (lastKill v ((P.locs b).take i).flatten = none → (before P reachable l computed C b i).2 = false)
  | 0, _, _ => by simp [lastKill, before]
  | i + 1, hi, hk => by
    obtain ⟨its, hits⟩ : ∃ its, (P.locs b)[i]? = some its := ⟨_, List.getElem?_eq_getElem (by omega)⟩
    obtain ⟨ih1, ih2⟩ := before_spec hone hn (i := i) (by omega) (fun j hj => hk j (by omega))
    have hsplit : ((P.locs b).take (i + 1)).flatten = ((P.locs b).take i).flatten ++ its := by
      rw [List.take_add_one, hits]
      simp
    rw [hsplit, lastKill_cat, before]
    cases hl : lastKill v its with
    | some x =>
      obtain ⟨pre, post, h1, h2, h3, -⟩ := valueOf_iff.2 hl
      have hx : Item.own x ∈ its := by rw [h1]; simp
      refine ⟨?_, by simp⟩
      intro h
      rw [Option.some_or, Option.some.injEq] at h
      subst h
      have := own_sub (reachable := reachable) (l := l) (computed := computed) hits hx (by rw [h2]; exact hn) h3
      split
      · exact this
      · exact List.mem_append_left _ this
    | none =>
      have hkeep := locDefs_keeps (hk i (by omega)) (fun its' hits' x hx hxn => by
        rw [hits] at hits'
        cases hits'
        exact lastKill_none.1 hl x hx (hone _ hxn))
      rw [hkeep, Option.none_or]
      refine ⟨fun h => ?_, ih2⟩
      exact List.mem_append_right _ (ih1 h)

/-! ### All of it -/

theorem foldl_grows {α β γ : Type} (f : List α × β → γ → List α × β) (hf : ∀ acc x, ∀ d ∈ acc.1, d ∈ (f acc x).1) : ∀ (xs : List γ) (acc : List α × β), ∀ d ∈ acc.1,
    d ∈ (xs.foldl f acc).1
  | [], _, _, h => h
  | x :: xs, acc, d, h => foldl_grows f hf xs (f acc x) d (hf acc x d h)

/-- What is found without calls stays found. -/
theorem local_sub {l : List Nat} {fuel : Nat} {s : Site} {d : Event} (h : d ∈ (local_ P reachable l computed C s true).1) : d ∈ getDefsAt P reachable l computed C fuel s := by
  unfold getDefsAt
  rw [defsAtRec.eq_def]
  dsimp only
  split
  · exact h
  · split
    · exact List.mem_append_left _ h
    · refine foldl_grows _ ?_ _ _ d (List.mem_append_left _ h)
      intro acc x d hd
      split
      · exact hd
      · exact List.mem_append_left _ hd

/-- What is found without calls has the event that gave the name its value, if there is one in the graph. -/
theorem local_found (hG : Graphs P reachable starts) (hP : Phases P reachable 0 starts phases) (hC : Computed P reachable phases computed)
    (hno : ∀ b x, Item.called x ∈ P.items b → x.var = v → x.type = .read) (hv : v < P.vars) (hn : C.named v = true) (hone : ∀ u, C.named u = true → u = v) {s : Site} {toplevel : Bool} {k : Nat}
    (hk : (if toplevel then s.pos else s.pos + 1) = k) (hpos : k ≤ (P.locs s.block).length)
    (hkeep : ∀ i < k, MayKeep P reachable (phases.flatMap Phase.order) computed C s.block i) {start : Nat}
    (hs : start ∈ starts) {bs : List Nat} (hway : Way P start bs s.block) (hbl : P.locs s.block ≠ []) {d : Event}
    (hd : ValueOf v (bs.flatMap P.items ++ ((P.locs s.block).take k).flatten) d) :
    d ∈ (local_ P reachable (phases.flatMap Phase.order) computed C s toplevel).1 := by
  have hno' : ∀ b, NoCalled v (P.items b) := fun b x hx => hno b x hx
  obtain ⟨h1, h2⟩ := before_spec (reachable := reachable) (l := phases.flatMap Phase.order) (computed := computed) (d := d) hone hn hpos hkeep
  rw [valueOf_iff, lastKill_cat] at hd
  unfold local_
  dsimp only
  rw [hk]
  cases hl : lastKill v ((P.locs s.block).take k).flatten with
  | some x =>
    rw [hl, Option.some_or] at hd
    have := h1 (hl.trans hd)
    split
    · exact this
    · exact List.mem_append_left _ this
  | none =>
    rw [hl, Option.none_or] at hd
    rw [h2 hl]
    refine List.mem_append_right _ ?_
    cases hway with
    | start => simp [lastKill] at hd
    | @next bs p _ hw hc =>
      have hpl : P.locs p ≠ [] := by
        intro hn
        rw [hG.empty p hn] at hc
        cases hc
      have hr := hw.reach.1
      refine List.mem_flatMap.2 ⟨p, List.mem_filter.2 ⟨?_, (hG.reach p).2 ⟨start, hs, hr⟩⟩, mem_killsAt.2 ⟨v, hv, hn, rfl, ?_⟩⟩
      · exact mem_preds.2 ⟨hG.nodes p ⟨start, hs, hr⟩, hc⟩
      · refine (mem_blockKills hG hP hC hno' hv hs hr hpl).2 ⟨bs, hw, ?_⟩
        rw [valueOf_iff]
        rw [List.flatMap_append] at hd
        simpa using hd

/-- **C140**, for what happens in the same graph: whichever way there is to a node, the event that gave the name the value it has there is found. Missing: values
from outside of the function that the node is in (`C140_outer_counterexample`), calls after which the name is always taken to have another value
(`C140_call_counterexample`), and variables that functions that are called may change. -/
theorem C140_inside_partial (hG : Graphs P reachable starts) (hP : Phases P reachable 0 starts phases) (hC : Computed P reachable phases computed)
    (hno : ∀ b x, Item.called x ∈ P.items b → x.var = v → x.type = .read) (hv : v < P.vars) (hn : C.named v = true) (hone : ∀ u, C.named u = true → u = v) {s : Site}
    (hpos : s.pos < (P.locs s.block).length) (hkeep : ∀ i < s.pos, MayKeep P reachable (phases.flatMap Phase.order) computed C s.block i) {start : Nat}
    (hs : start ∈ starts) {bs : List Nat} (hway : Way P start bs s.block) {d : Event}
    (hd : ValueOf v (bs.flatMap P.items ++ ((P.locs s.block).take s.pos).flatten) d) (fuel : Nat) :
    d ∈ getDefsAt P reachable (phases.flatMap Phase.order) computed C fuel s := by
  refine local_sub (local_found hG hP hC hno hv hn hone (k := s.pos) rfl (by omega) hkeep hs hway ?_ hd)
  intro h
  rw [h] at hpos
  simp at hpos

/-! ### From outside -/

/-- Nodes that have been visited, with what is found at them. -/
def Told (P : Prog) (reachable : Nat → Bool) (l : List Nat) (computed : Nat → Nat → Nat) (C : Calling) (nodes : List Site) (r : List Event × Explored) : Prop :=
  (∀ t ∈ nodes, t ∈ r.2.nodes) ∧ ∀ t ∈ r.2.nodes, t ∈ nodes ∨ ∀ d ∈ (local_ P reachable l computed C t false).1, d ∈ r.1

theorem rec_told {l : List Nat} : ∀ (fuel : Nat) (s : Site) (toplevel : Bool) (E : Explored),
    Told P reachable l computed C E.nodes (defsAtRec P reachable l computed C fuel s toplevel E) ∧
    (∀ d ∈ (local_ P reachable l computed C s toplevel).1, d ∈ (defsAtRec P reachable l computed C fuel s toplevel E).1) ∧
    (∀ f, (local_ P reachable l computed C s toplevel).2 = false → s.function = some f → fuel ≠ 0 → ∀ t ∈ endNodes C E.functions f,
      t ∈ (defsAtRec P reachable l computed C fuel s toplevel E).2.nodes) ∧
    ∀ f, (local_ P reachable l computed C s toplevel).2 = false → s.function = some f → f ∉ E.functions → ∀ d ∈ madeUp P reachable l computed C f,
      d ∈ (defsAtRec P reachable l computed C fuel s toplevel E).1
  | fuel, s, toplevel, E => by
    rw [defsAtRec.eq_def]
    dsimp only
    split
    · rename_i h
      refine ⟨⟨fun t ht => ht, fun t ht => .inl ht⟩, fun d hd => hd, ?_, ?_⟩ <;>
      · intro f h1 h2
        rw [h1, h2] at h
        simp at h
    · rename_i f hf
      have hf' : s.function = some f := by
        split at hf
        · cases hf
        · exact hf
      cases fuel with
      | zero =>
        dsimp only
        refine ⟨⟨fun t ht => ht, fun t ht => .inl ht⟩, fun d hd => List.mem_append_left _ hd, fun _ _ _ h => absurd rfl h, ?_⟩
        intro f' _ hs' hne d hd
        rw [hf'] at hs'
        cases hs'
        exact List.mem_append_right _ (by rw [if_neg hne]; exact hd)
      | succ fuel =>
        dsimp only
        have key : ∀ (ends : List Site) (acc : List Event × Explored),
            Told P reachable l computed C acc.2.nodes (ends.foldl (fun (acc : List Event × Explored) s =>
              if s ∈ acc.2.nodes then acc
              else (acc.1 ++ (defsAtRec P reachable l computed C fuel s false { acc.2 with nodes := s :: acc.2.nodes }).1,
                (defsAtRec P reachable l computed C fuel s false { acc.2 with nodes := s :: acc.2.nodes }).2)) acc) ∧
            (∀ d ∈ acc.1, d ∈ (ends.foldl (fun (acc : List Event × Explored) s =>
              if s ∈ acc.2.nodes then acc
              else (acc.1 ++ (defsAtRec P reachable l computed C fuel s false { acc.2 with nodes := s :: acc.2.nodes }).1,
                (defsAtRec P reachable l computed C fuel s false { acc.2 with nodes := s :: acc.2.nodes }).2)) acc).1) ∧
            ∀ t ∈ ends, t ∈ (ends.foldl (fun (acc : List Event × Explored) s =>
              if s ∈ acc.2.nodes then acc
              else (acc.1 ++ (defsAtRec P reachable l computed C fuel s false { acc.2 with nodes := s :: acc.2.nodes }).1,
                (defsAtRec P reachable l computed C fuel s false { acc.2 with nodes := s :: acc.2.nodes }).2)) acc).2.nodes := by
          intro ends
          induction ends with
          | nil => exact fun acc => ⟨⟨fun t ht => ht, fun t ht => .inl ht⟩, fun d hd => hd, by simp⟩
          | cons e ends ih =>
            intro acc
            rw [List.foldl_cons]
            by_cases he : e ∈ acc.2.nodes
            · rw [if_pos he]
              obtain ⟨h1, h2, h3⟩ := ih acc
              refine ⟨h1, h2, fun t ht => ?_⟩
              rcases List.mem_cons.1 ht with rfl | ht
              · exact h1.1 _ he
              · exact h3 t ht
            · rw [if_neg he]
              obtain ⟨hr1, hr2, -⟩ := rec_told (l := l) fuel e false { acc.2 with nodes := e :: acc.2.nodes }
              obtain ⟨h1, h2, h3⟩ := ih (acc.1 ++ (defsAtRec P reachable l computed C fuel e false { acc.2 with nodes := e :: acc.2.nodes }).1,
                (defsAtRec P reachable l computed C fuel e false { acc.2 with nodes := e :: acc.2.nodes }).2)
              refine ⟨⟨fun t ht => h1.1 t (hr1.1 t (List.mem_cons_of_mem _ ht)), fun t ht => ?_⟩, fun d hd => h2 d (List.mem_append_left _ hd), fun t ht => ?_⟩
              · rcases h1.2 t ht with h | h
                · rcases hr1.2 t h with h | h
                  · rcases List.mem_cons.1 h with rfl | h
                    · exact .inr fun d hd => h2 d (List.mem_append_right _ (hr2 d hd))
                    · exact .inl h
                  · exact .inr fun d hd => h2 d (List.mem_append_right _ (h d hd))
                · exact .inr h
              · rcases List.mem_cons.1 ht with rfl | ht
                · exact h1.1 _ (hr1.1 _ List.mem_cons_self)
                · exact h3 t ht
        obtain ⟨h1, h2, h3⟩ := key (endNodes C E.functions f) ((local_ P reachable l computed C s toplevel).1 ++
          if f ∈ E.functions then [] else madeUp P reachable l computed C f, { E with functions := if f ∈ E.functions then E.functions else f :: E.functions })
        refine ⟨h1, fun d hd => h2 d (List.mem_append_left _ hd), ?_, ?_⟩
        · intro f' _ hs' _ t ht
          rw [hf'] at hs'
          cases hs'
          exact h3 t ht
        · intro f' _ hs' hne d hd
          rw [hf'] at hs'
          cases hs'
          exact h2 d (List.mem_append_right _ (by rw [if_neg hne]; exact hd))
termination_by fuel => fuel

/-- Nothing is found in a graph that does not give a value to the name. -/
theorem local_none (hG : Graphs P reachable starts) (hP : Phases P reachable 0 starts phases) (hC : Computed P reachable phases computed)
    (hno : ∀ b x, Item.called x ∈ P.items b → x.var = v → x.type = .read) (hn : C.named v = true) (hone : ∀ u, C.named u = true → u = v) {s : Site}
    (hpos : s.pos < (P.locs s.block).length) (hkeep : ∀ i < s.pos, MayKeep P reachable (phases.flatMap Phase.order) computed C s.block i) {start : Nat}
    (hs : start ∈ starts) {bs : List Nat} {p : Nat} (hway : Way P start (bs ++ [p]) s.block)
    (hquiet : ∀ b, Reach P.succ start b → ∀ x, Item.own x ∈ P.items b → x.var = v → x.type = .read) :
    (local_ P reachable (phases.flatMap Phase.order) computed C s true).2 = false := by
  have hno' : ∀ b, NoCalled v (P.items b) := fun b x hx => hno b x hx
  have hr := hway.reach
  have hb := (before_spec (reachable := reachable) (l := phases.flatMap Phase.order) (computed := computed) (d := ⟨0, 0, .read⟩) hone hn (by omega) hkeep).2 (by
    rw [lastKill_none]
    intro x hx
    obtain ⟨its, h1, h2⟩ := List.mem_flatten.1 hx
    exact hquiet s.block hr.1 x (List.mem_flatten.2 ⟨its, List.mem_of_mem_take h1, h2⟩))
  unfold local_
  dsimp only
  rw [if_pos rfl, hb]
  simp only [Bool.false_eq_true, if_false]
  obtain ⟨hw, hc⟩ : Way P start bs p ∧ s.block ∈ P.succ p := by
    generalize he : bs ++ [p] = l at hway
    cases hway with
    | start => simp at he
    | next hw hc =>
      obtain ⟨rfl, h⟩ := List.append_inj' he rfl
      cases h
      exact ⟨hw, hc⟩
  have hrp := hw.reach.1
  have hpl : P.locs p ≠ [] := by
    intro hn
    rw [hG.empty p hn] at hc
    cases hc
  unfold fromPreds
  dsimp only
  rw [List.all_eq_false]
  refine ⟨p, List.mem_filter.2 ⟨mem_preds.2 ⟨hG.nodes p ⟨start, hs, hrp⟩, hc⟩, (hG.reach p).2 ⟨start, hs, hrp⟩⟩, ?_⟩
  have : killsAt P (phases.flatMap Phase.order) computed C (fun _ => true) p = [] := by
    rw [List.eq_nil_iff_forall_not_mem]
    intro d hd
    obtain ⟨u, hu1, hu2, -, hd⟩ := mem_killsAt.1 hd
    obtain rfl := hone u hu2
    obtain ⟨bs', hw', pre, post, h1, h2, h3, -⟩ := (mem_blockKills hG hP hC hno' hu1 hs hrp hpl).1 hd
    have hm : Item.own d ∈ bs'.flatMap P.items ++ P.items p := by rw [h1]; simp
    rcases List.mem_append.1 hm with hm | hm
    · obtain ⟨b, hb1, hb2⟩ := List.mem_flatMap.1 hm
      exact h3 (hquiet b (hw'.reach.2 b hb1) d hb2 h2)
    · exact h3 (hquiet p hrp d hm h2)
  simp [this]

/-- **C140**, for values from outside: if a function does not give a value to the name itself, the event that gave the name the value that it has where the function is
used is found in the function, and so is the one at the end of its scope if it is used nowhere. Missing: functions that may give a value to the name
(`C140_outer_counterexample`), locations of calls that do (`C140_own_counterexample`), functions between the call and where the value is
given, and what is missing above. -/
theorem C140_outside_partial (hG : Graphs P reachable starts) (hP : Phases P reachable 0 starts phases) (hC : Computed P reachable phases computed)
    (hno : ∀ b x, Item.called x ∈ P.items b → x.var = v → x.type = .read) (hv : v < P.vars) (hn : C.named v = true) (hone : ∀ u, C.named u = true → u = v) {s : Site}
    (hpos : s.pos < (P.locs s.block).length) (hkeep : ∀ i < s.pos, MayKeep P reachable (phases.flatMap Phase.order) computed C s.block i) {start : Nat}
    (hs : start ∈ starts) {bs : List Nat} {p : Nat} (hway : Way P start (bs ++ [p]) s.block)
    (hquiet : ∀ b, Reach P.succ start b → ∀ x, Item.own x ∈ P.items b → x.var = v → x.type = .read)
    {f : Nat} (hf : s.function = some f) {u : Site} (hu : u ∈ C.users f ∨ (C.users f = [] ∧ u ∈ C.scopeEnds f)) (hne : u ≠ s)
    (hpos' : u.pos < (P.locs u.block).length) (hkeep' : ∀ i ≤ u.pos, MayKeep P reachable (phases.flatMap Phase.order) computed C u.block i) {start' : Nat}
    (hs' : start' ∈ starts) {bs' : List Nat} (hway' : Way P start' bs' u.block) {d : Event}
    (hd : ValueOf v (bs'.flatMap P.items ++ ((P.locs u.block).take (u.pos + 1)).flatten) d) (fuel : Nat) :
    d ∈ getDefsAt P reachable (phases.flatMap Phase.order) computed C (fuel + 1) s := by
  have hloc := local_none hG hP hC hno hn hone hpos hkeep hs hway hquiet
  obtain ⟨h1, -, h3, -⟩ := rec_told (P := P) (reachable := reachable) (l := phases.flatMap Phase.order) (computed := computed) (C := C) (fuel + 1) s true ⟨[s], []⟩
  have hend : u ∈ endNodes C [] f := by
    unfold endNodes
    rw [if_neg (by simp)]
    refine List.mem_append_right _ ?_
    rcases hu with hu | ⟨he, hu⟩
    · exact List.mem_append_left _ hu
    · rw [he]
      simpa using hu
  have hmem := h3 f hloc hf (by omega) u hend
  rcases h1.2 u hmem with h | h
  · exact absurd (List.mem_singleton.1 h) hne
  · refine h d (local_found hG hP hC hno hv hn hone (k := u.pos + 1) rfl (by omega) (fun i hi => hkeep' i (by omega)) hs' hway' ?_ hd)
    intro h
    rw [h] at hpos'
    simp at hpos'

/-- **C140**, for values that other functions give: if a function that is used nowhere, or only by itself, does not give a value to the name, the event that gave the name
the value that it has at the end of some execution of a function that nothing calls is found in it. Missing: as above. -/
theorem C140_uncalled_partial (hG : Graphs P reachable starts) (hP : Phases P reachable 0 starts phases) (hC : Computed P reachable phases computed)
    (hno : ∀ b x, Item.called x ∈ P.items b → x.var = v → x.type = .read) (hv : v < P.vars) (hn : C.named v = true) (hone : ∀ u, C.named u = true → u = v) {s : Site}
    (hpos : s.pos < (P.locs s.block).length) (hkeep : ∀ i < s.pos, MayKeep P reachable (phases.flatMap Phase.order) computed C s.block i) {start : Nat}
    (hs : start ∈ starts) {bs : List Nat} {p : Nat} (hway : Way P start (bs ++ [p]) s.block)
    (hquiet : ∀ b, Reach P.succ start b → ∀ x, Item.own x ∈ P.items b → x.var = v → x.type = .read)
    {f : Nat} (hf : s.function = some f) (hu : C.users f = [] ∨ C.recursive f = true) (haround : C.around f v = true) {g : Nat} (hg : g ∈ C.uncalled)
    {start' : Nat} (hs' : start' ∈ starts) {bs' : List Nat} {p' : Nat} (hway' : Way P start' bs' p') (hexit : p' ∈ C.exits g) {d : Event}
    (hd : ValueOf v (bs'.flatMap P.items ++ P.items p') d) (hl : P.locs p' ≠ []) (fuel : Nat) :
    d ∈ getDefsAt P reachable (phases.flatMap Phase.order) computed C fuel s := by
  have hno' : ∀ b, NoCalled v (P.items b) := fun b x hx => hno b x hx
  have hloc := local_none hG hP hC hno hn hone hpos hkeep hs hway hquiet
  obtain ⟨-, -, -, h4⟩ := rec_told (P := P) (reachable := reachable) (l := phases.flatMap Phase.order) (computed := computed) (C := C) fuel s true ⟨[s], []⟩
  refine h4 f hloc hf (by simp) d ?_
  have hc : ((C.users f).isEmpty || C.recursive f) = true := by
    rcases hu with h | h <;> simp [h]
  unfold madeUp
  rw [if_pos hc]
  have hr := hway'.reach.1
  refine List.mem_flatMap.2 ⟨p', List.mem_flatMap.2 ⟨g, hg, List.mem_filter.2 ⟨hexit, (hG.reach p').2 ⟨_, hs', hr⟩⟩⟩, mem_killsAt.2 ⟨v, hv, hn, haround, ?_⟩⟩
  exact (mem_blockKills hG hP hC hno' hv hs' hr hl).2 ⟨bs', hway', hd⟩

/-! ### Just that -/

theorem locDefs_quiet {l : List Nat} {b i : Nat} (hq : C.hasCall b i = true → C.functions = []) :
    locDefs P reachable l computed C b i = (ownDefs C ((P.locs b)[i]?.getD []), !(ownDefs C ((P.locs b)[i]?.getD [])).isEmpty) := by
  have : (if C.hasCall b i = true then C.functions else []) = [] := by
    split
    · rename_i h; exact hq h
    · rfl
  unfold locDefs
  simp [this]

theorem before_quiet {l : List Nat} {b : Nat} (hone : ∀ u, C.named u = true → u = v) (hn : C.named v = true)
    (honce : ∀ its ∈ P.locs b, ∀ (i j : Nat) (x y : Event), its[i]? = some (.own x) → its[j]? = some (.own y) → x.var = v → y.var = v → x.type ≠ .read → y.type ≠ .read → i = j) :
    ∀ {i : Nat}, i ≤ (P.locs b).length → (∀ j < i, C.hasCall b j = true → C.functions = []) →
    (before P reachable l computed C b i).1 = (lastKill v ((P.locs b).take i).flatten).toList ∧
    (before P reachable l computed C b i).2 = (lastKill v ((P.locs b).take i).flatten).isSome
  | 0, _, _ => by simp [lastKill, before]
  | i + 1, hi, hk => by
    obtain ⟨its, hits⟩ : ∃ its, (P.locs b)[i]? = some its := ⟨_, List.getElem?_eq_getElem (by omega)⟩
    obtain ⟨ih1, ih2⟩ := before_quiet (l := l) hone hn honce (i := i) (by omega) (fun j hj => hk j (by omega))
    have hsplit : ((P.locs b).take (i + 1)).flatten = ((P.locs b).take i).flatten ++ its := by
      rw [List.take_add_one, hits]
      simp
    have hmem : its ∈ P.locs b := List.mem_of_getElem? hits
    rw [hsplit, lastKill_cat, before, locDefs_quiet (hk i (by omega)), hits]
    have hown : ownDefs C ((some its).getD []) = (lastKill v its).toList := by
      have key : ∀ its' : List Item, (∀ (i j : Nat) (x y : Event), its'[i]? = some (.own x) → its'[j]? = some (.own y) → x.var = v → y.var = v → x.type ≠ .read →
          y.type ≠ .read → i = j) → ownDefs C its' = (lastKill v its').toList := by
        intro its'
        induction its' with
        | nil => intro _; simp [ownDefs, lastKill]
        | cons it its' ih =>
          intro h
          have ih' := ih (fun i j x y hx hy h1 h2 h3 h4 => by
            have := h (i + 1) (j + 1) x y (by simpa using hx) (by simpa using hy) h1 h2 h3 h4
            omega)
          have hc := lastKill_cat v its' [it]
          rw [List.singleton_append] at hc
          have h1 : lastKill v [it] = killsVar v it := by simp [lastKill]
          rw [hc, h1]
          cases it with
          | called e =>
            show ownDefs C its' = _
            rw [ih']
            simp [killsVar]
          | own e =>
            by_cases he : C.named e.var = true ∧ e.type.kills = true
            · have hev := hone _ he.1
              have hlk : lastKill v its' = none := by
                rw [lastKill_none]
                intro x hx hxv
                by_cases hxt : x.type = .read
                · exact hxt
                · obtain ⟨j, hj⟩ := List.mem_iff_getElem?.1 hx
                  have := h 0 (j + 1) e x rfl (by simpa using hj) hev hxv (kills_iff.1 he.2) hxt
                  omega
              have hkv : killsVar v (.own e) = some e := by simp [killsVar, hev, he.2]
              rw [hlk, hkv]
              rw [hlk] at ih'
              unfold ownDefs at ih' ⊢
              rw [List.filterMap_cons]
              simp only [he.1, he.2, Bool.and_self, if_true]
              rw [ih']
              rfl
            · have hkv : killsVar v (.own e) = none := by
                simp only [killsVar, ite_eq_right_iff, reduceCtorEq, imp_false]
                rintro ⟨h1, h2⟩
                exact he ⟨h1 ▸ hn, h2⟩
              rw [hkv, Option.or_none, ← ih']
              unfold ownDefs
              rw [List.filterMap_cons]
              simp only
              rw [if_neg (by rw [Bool.and_eq_true]; exact he)]
      exact key its (honce its hmem)
    rw [hown]
    cases hl : lastKill v its with
    | some x => simp
    | none => simp [ih1, ih2]

/-- **C140**, for the module: just such events are found. Missing: as above, and locations that give a value to the name twice. -/
theorem C140_exact_partial (hG : Graphs P reachable starts) (hP : Phases P reachable 0 starts phases) (hC : Computed P reachable phases computed)
    (hno : ∀ b x, Item.called x ∈ P.items b → x.var = v → x.type = .read) (hv : v < P.vars) (hn : C.named v = true) (hone : ∀ u, C.named u = true → u = v) {s : Site}
    (hpos : s.pos < (P.locs s.block).length) (hcalls : ∀ i < s.pos, C.hasCall s.block i = true → C.functions = []) (hfun : s.function = none)
    (honce : ∀ its ∈ P.locs s.block, ∀ (i j : Nat) (x y : Event), its[i]? = some (.own x) → its[j]? = some (.own y) → x.var = v → y.var = v → x.type ≠ .read →
      y.type ≠ .read → i = j) {start : Nat} (hs : start ∈ starts) (hr : Reach P.succ start s.block) {d : Event} (fuel : Nat) :
    d ∈ getDefsAt P reachable (phases.flatMap Phase.order) computed C fuel s ↔
      ∃ bs, Way P start bs s.block ∧ ValueOf v (bs.flatMap P.items ++ ((P.locs s.block).take s.pos).flatten) d := by
  have hno' : ∀ b, NoCalled v (P.items b) := fun b x hx => hno b x hx
  have heq : getDefsAt P reachable (phases.flatMap Phase.order) computed C fuel s = (local_ P reachable (phases.flatMap Phase.order) computed C s true).1 := by
    unfold getDefsAt
    rw [defsAtRec.eq_def]
    simp [hfun]
  constructor
  · intro h
    rw [heq] at h
    obtain ⟨h1, h2⟩ := before_quiet (reachable := reachable) (l := phases.flatMap Phase.order) (computed := computed) hone hn honce (i := s.pos) (by omega) hcalls
    unfold local_ at h
    dsimp only at h
    rw [if_pos rfl, h1, h2] at h
    simp only [valueOf_iff, lastKill_cat]
    cases hl : lastKill v ((P.locs s.block).take s.pos).flatten with
    | some x =>
      rw [hl] at h
      simp only [Option.isSome_some, if_true, Option.toList_some, List.mem_singleton] at h
      subst h
      obtain ⟨bs, hw⟩ := way_of_reach hr
      exact ⟨bs, hw, rfl⟩
    | none =>
      rw [hl] at h
      simp only [Option.isSome_none, Bool.false_eq_true, if_false, Option.toList_none, List.nil_append] at h
      obtain ⟨p, hp, hd⟩ := List.mem_flatMap.1 h
      obtain ⟨hp, hpr⟩ := List.mem_filter.1 hp
      obtain ⟨-, hc⟩ := mem_preds.1 hp
      obtain ⟨start', hs', hr'⟩ := (hG.reach p).1 hpr
      have : start' = start := hG.apart start' hs' start hs s.block (hr'.next hc) hr
      subst this
      obtain ⟨u, -, hu, -, hd⟩ := mem_killsAt.1 hd
      have := hone u hu
      subst this
      have hpl : P.locs p ≠ [] := by
        intro hn
        rw [hG.empty p hn] at hc
        cases hc
      obtain ⟨bs, hw, hval⟩ := (mem_blockKills hG hP hC hno' hv hs hr' hpl).1 hd
      refine ⟨_, hw.next hc, ?_⟩
      rw [Option.none_or, List.flatMap_append]
      simpa using valueOf_iff.1 hval
  · rintro ⟨bs, hw, hval⟩
    exact C140_inside_partial hG hP hC hno hv hn hone hpos (fun i hi hc => .inl (hcalls i hi hc)) hs hw hval fuel

end

/-! ### Examples -/

/-- What is computed for blocks up to a number that are all reachable. -/
def phaseUpTo (P : Prog) (n base : Nat) (order : List Nat) : Phase := ⟨base, order, ((Fix.init P (fun b => decide (b < n)) base order).run P 40).parents⟩

def computedUpTo (P : Prog) (n base : Nat) (order : List Nat) : Nat → Nat → Nat := ((Fix.init P (fun b => decide (b < n)) base order).run P 40).computed

/-- `x = 1`, `def g(): global x; x = 2`, `print()` and a node: blocks of `g` are 0, 1 and the empty 2, those of the module 3 and the empty 4. -/
def exPrint : Prog where
  nodes := [0, 1, 2, 3, 4]
  succ := fun b => if b = 0 then [1] else if b = 1 then [2] else if b = 3 then [4] else []
  locs := fun b =>
    if b = 0 then [[]] else if b = 1 then [[], [.own ⟨0, 2, .reassign⟩]]
    else if b = 3 then [[.own ⟨0, 1, .assign⟩], [.own ⟨1, 3, .assign⟩], [], []] else []
  vars := 2

def exPrintPhases : List Phase := [phaseUpTo exPrint 5 0 [0, 1], phaseUpTo exPrint 5 2 [3]]

def exPrintComputed (b : Nat) : Nat → Nat := if b < 3 then computedUpTo exPrint 5 0 [0, 1] b else computedUpTo exPrint 5 2 [3] b

/-- `x` is the variable 0 and `g` is 0; nothing calls it. -/
def exPrintCalling : Calling where
  named := (· == 0)
  hasCall := fun b i => b == 3 && i == 2
  functions := [0]
  exits := fun _ => [1]
  sees := fun _ _ => true
  unresolved := []
  users := fun _ => []
  recursive := fun _ => false
  uncalled := [0]
  around := fun _ _ => true
  scopeEnds := fun _ => [⟨3, 3, 3, none⟩]

theorem exPrint_phases : Phases exPrint (fun b => decide (b < 5)) 0 [0, 3] exPrintPhases :=
  .cons (n := 40) ⟨40, by decide +kernel, by decide +kernel⟩ (by decide +kernel)
    (.cons (n := 40) ⟨40, by decide +kernel, by decide +kernel⟩ (by decide +kernel) .nil)

theorem exPrint_computed : Computed exPrint (fun b => decide (b < 5)) exPrintPhases exPrintComputed := by
  intro ph hph
  simp only [exPrintPhases, List.mem_cons, List.not_mem_nil, or_false] at hph
  rcases hph with rfl | rfl
  · refine ⟨40, by decide +kernel, fun b hb => ?_⟩
    simp only [phaseUpTo, List.mem_cons, List.not_mem_nil, or_false] at hb
    rw [exPrintComputed, if_pos (by omega)]
    rfl
  · refine ⟨40, by decide +kernel, fun b hb => ?_⟩
    simp only [phaseUpTo, List.mem_cons, List.not_mem_nil, or_false] at hb
    rw [exPrintComputed, if_neg (by omega)]
    rfl

/-- **C140** is false if there are calls: at the node after `print()`, `x` is 1, as `g` is not called; but the only event that is found is the one in `g`. -/
theorem C140_call_counterexample :
    Phases exPrint (fun b => decide (b < 5)) 0 [0, 3] exPrintPhases ∧ Computed exPrint (fun b => decide (b < 5)) exPrintPhases exPrintComputed ∧
    (∀ fuel, getDefsAt exPrint (fun b => decide (b < 5)) [0, 1, 3] exPrintComputed exPrintCalling fuel ⟨4, 3, 3, none⟩ = [⟨0, 2, .reassign⟩]) ∧
    Way exPrint 3 [] 3 ∧ ValueOf 0 ((exPrint.locs 3).take 3).flatten ⟨0, 1, .assign⟩ := by
  refine ⟨exPrint_phases, exPrint_computed, fun fuel => ?_, .start, valueOf_iff.2 (by decide)⟩
  have : (local_ exPrint (fun b => decide (b < 5)) [0, 1, 3] exPrintComputed exPrintCalling ⟨4, 3, 3, none⟩ true) = ([⟨0, 2, .reassign⟩], true) := by decide +kernel
  unfold getDefsAt
  rw [defsAtRec.eq_def]
  simp [this]

/-- `x = 1`, `def g(): global x` with `if c: x = 2`, `if d: pass` and `print(x)`, and `g()`. Blocks of `g` are 0 to 5 and the empty 6, those of the module are 7
and the empty 8; `x` is the variable 0 and `g` is 1. -/
def exMaybe : Prog where
  nodes := [0, 1, 2, 3, 4, 5, 6, 7, 8]
  succ := fun b =>
    if b = 0 then [1] else if b = 1 then [2, 3] else if b = 2 then [3] else if b = 3 then [4, 5] else if b = 4 then [5] else if b = 5 then [6]
    else if b = 7 then [8] else []
  locs := fun b =>
    if b = 0 then [[]] else if b = 1 then [[], []] else if b = 2 then [[.own ⟨0, 2, .reassign⟩]] else if b = 3 then [[]] else if b = 4 then [[]]
    else if b = 5 then [[.own ⟨0, 3, .read⟩]]
    else if b = 7 then [[.own ⟨0, 1, .assign⟩], [.own ⟨1, 4, .assign⟩], [.called ⟨0, 2, .reassign⟩, .called ⟨0, 3, .read⟩, .own ⟨1, 5, .read⟩]] else []
  vars := 2

def exMaybePhases : List Phase := [phaseUpTo exMaybe 9 0 [0, 1, 2, 3, 4, 5], phaseUpTo exMaybe 9 6 [7]]

def exMaybeComputed (b : Nat) : Nat → Nat := if b < 7 then computedUpTo exMaybe 9 0 [0, 1, 2, 3, 4, 5] b else computedUpTo exMaybe 9 6 [7] b

/-- The node 5 in the module uses `g`. -/
def exMaybeCalling : Calling where
  named := (· == 0)
  hasCall := fun b i => (b == 5 && i == 0) || (b == 7 && i == 2)
  functions := [0]
  exits := fun _ => [5]
  sees := fun _ _ => true
  unresolved := []
  users := fun _ => [⟨5, 7, 2, none⟩]
  recursive := fun _ => false
  uncalled := []
  around := fun _ _ => true
  scopeEnds := fun _ => [⟨5, 7, 2, none⟩]

theorem exMaybe_phases : Phases exMaybe (fun b => decide (b < 9)) 0 [0, 7] exMaybePhases :=
  .cons (n := 40) ⟨40, by decide +kernel, by decide +kernel⟩ (by decide +kernel)
    (.cons (n := 40) ⟨40, by decide +kernel, by decide +kernel⟩ (by decide +kernel) .nil)

theorem exMaybe_computed : Computed exMaybe (fun b => decide (b < 9)) exMaybePhases exMaybeComputed := by
  intro ph hph
  simp only [exMaybePhases, List.mem_cons, List.not_mem_nil, or_false] at hph
  rcases hph with rfl | rfl
  · refine ⟨40, by decide +kernel, fun b hb => ?_⟩
    simp only [phaseUpTo, List.mem_cons, List.not_mem_nil, or_false] at hb
    rw [exMaybeComputed, if_pos (by omega)]
    rfl
  · refine ⟨40, by decide +kernel, fun b hb => ?_⟩
    simp only [phaseUpTo, List.mem_cons, List.not_mem_nil, or_false] at hb
    rw [exMaybeComputed, if_neg (by omega)]
    rfl

/-- **C140** is false of values from outside of the function: if `c` is not true, `print(x)` in the call `g()` after `x = 1` gets that value; but as all predecessors of
the block may be run after `x = 2`, no other event is looked for. -/
theorem C140_outer_counterexample :
    Phases exMaybe (fun b => decide (b < 9)) 0 [0, 7] exMaybePhases ∧ Computed exMaybe (fun b => decide (b < 9)) exMaybePhases exMaybeComputed ∧
    (∀ fuel, getDefsAt exMaybe (fun b => decide (b < 9)) [0, 1, 2, 3, 4, 5, 7] exMaybeComputed exMaybeCalling fuel ⟨3, 5, 0, some 0⟩ =
      [⟨0, 2, .reassign⟩, ⟨0, 2, .reassign⟩]) ∧
    Way exMaybe 7 [] 7 ∧ Way exMaybe 0 [0, 1, 3] 5 ∧
    ValueOf 0 (((exMaybe.locs 7).take 2).flatten ++ [0, 1, 3].flatMap exMaybe.items ++ ((exMaybe.locs 5).take 0).flatten) ⟨0, 1, .assign⟩ := by
  refine ⟨exMaybe_phases, exMaybe_computed, fun fuel => ?_, .start,
    ((Way.start.next (b := 0) (c := 1) (by decide)).next (c := 3) (by decide)).next (by decide), valueOf_iff.2 (by decide)⟩
  have : (local_ exMaybe (fun b => decide (b < 9)) [0, 1, 2, 3, 4, 5, 7] exMaybeComputed exMaybeCalling ⟨3, 5, 0, some 0⟩ true) =
      ([⟨0, 2, .reassign⟩, ⟨0, 2, .reassign⟩], true) := by decide +kernel
  unfold getDefsAt
  rw [defsAtRec.eq_def]
  simp [this]

theorem exPrint_reach {s b : Nat} (h : Reach exPrint.succ s b) : (s < 3 → b < 3) ∧ (3 ≤ s → s < 5 → 3 ≤ b ∧ b < 5) := by
  induction h with
  | start => omega
  | next _ hc ih =>
    simp only [exPrint] at hc
    repeat' split at hc
    all_goals simp at hc
    all_goals omega

theorem exPrint_graphs : Graphs exPrint (fun b => decide (b < 5)) [0, 3] := by
  have h1 : Reach exPrint.succ 0 1 := Reach.start.next (by decide)
  have h3 : Reach exPrint.succ 3 4 := Reach.start.next (by decide)
  have hE : ∀ b, Ever exPrint [0, 3] b ↔ b < 5 := by
    intro b
    constructor
    · rintro ⟨s, hs, h⟩
      have := exPrint_reach h
      simp only [List.mem_cons, List.not_mem_nil, or_false] at hs
      omega
    · intro h
      match b, h with
      | 0, _ => exact ⟨0, by simp, .start⟩
      | 1, _ => exact ⟨0, by simp, h1⟩
      | 2, _ => exact ⟨0, by simp, h1.next (by decide)⟩
      | 3, _ => exact ⟨3, by simp, .start⟩
      | 4, _ => exact ⟨3, by simp, h3⟩
  refine ⟨by decide, ?_, ?_, ?_, ?_⟩
  · intro b hb
    simp only [exPrint] at hb ⊢
    repeat' split at hb
    all_goals simp_all
  · intro b
    rw [hE]
    simp
  · intro b hb
    rw [hE] at hb
    simp only [exPrint, List.mem_cons, List.not_mem_nil, or_false]
    omega
  · intro s hs s' hs' b h h'
    have := exPrint_reach h
    have := exPrint_reach h'
    simp only [List.mem_cons, List.not_mem_nil, or_false] at hs hs'
    omega

theorem exPrint_called (v b : Nat) (x : Event) (hx : Item.called x ∈ exPrint.items b) : x.var = v → x.type = .read := by
  simp only [Prog.items, exPrint] at hx
  repeat' split at hx
  all_goals simp at hx

/-- By `C140_inside_partial`: at the node after `print()`, the name `g` is found to be the function, as `g` may leave it as it is. -/
example (fuel : Nat) : (⟨1, 3, .assign⟩ : Event) ∈
    getDefsAt exPrint (fun b => decide (b < 5)) (exPrintPhases.flatMap Phase.order) exPrintComputed { exPrintCalling with named := (· == 1) } fuel ⟨4, 3, 3, none⟩ := by
  refine C140_inside_partial (v := 1) exPrint_graphs exPrint_phases exPrint_computed (exPrint_called 1) (by decide) rfl (by simp) (by decide) ?_ (start := 3) (bs := [])
    (by decide) .start (valueOf_iff.2 (by decide)) fuel
  intro i hi hc
  refine .inr ⟨0, by simp [exPrintCalling], 1, by simp [exPrintCalling], by decide, ?_⟩
  intro v hv hn _
  simp only [beq_iff_eq] at hn
  subst hn
  decide +kernel

/-- By `C140_exact_partial`: before `print()`, `x` is found to be 1, and nothing else. -/
example (fuel : Nat) (d : Event) :
    d ∈ getDefsAt exPrint (fun b => decide (b < 5)) (exPrintPhases.flatMap Phase.order) exPrintComputed exPrintCalling fuel ⟨4, 3, 2, none⟩ ↔ d = ⟨0, 1, .assign⟩ := by
  rw [C140_exact_partial (v := 0) exPrint_graphs exPrint_phases exPrint_computed (exPrint_called 0) (by decide) rfl (by simp [exPrintCalling]) (by decide)
    (by intro i hi hc; simp [exPrintCalling] at hc; dsimp only at hi; omega) rfl ?_ (start := 3) (by decide) .start fuel]
  · constructor
    · rintro ⟨bs, hw, hval⟩
      rw [valueOf_iff, lastKill_cat] at hval
      have : lastKill 0 ((exPrint.locs 3).take 2).flatten = some ⟨0, 1, .assign⟩ := by decide
      rw [this, Option.some_or] at hval
      exact (Option.some.inj hval).symm
    · rintro rfl
      exact ⟨[], .start, valueOf_iff.2 (by decide)⟩
  · intro its hits i j x y hx hy
    have : its.length ≤ 1 := (by decide : ∀ its ∈ exPrint.locs 3, its.length ≤ 1) its hits
    have := (List.getElem?_eq_some_iff.1 hx).1
    have := (List.getElem?_eq_some_iff.1 hy).1
    omega

/-- `x = 1`, `def g(): print(x)` and `x = g()`. Blocks of `g` are 0, 1 and the empty 2, those of the module are 3 and the empty 4. -/
def exOwn : Prog where
  nodes := [0, 1, 2, 3, 4]
  succ := fun b => if b = 0 then [1] else if b = 1 then [2] else if b = 3 then [4] else []
  locs := fun b =>
    if b = 0 then [[]] else if b = 1 then [[.own ⟨0, 3, .read⟩]]
    else if b = 3 then [[.own ⟨0, 1, .assign⟩], [.own ⟨1, 4, .assign⟩], [.called ⟨0, 3, .read⟩, .own ⟨1, 5, .read⟩, .own ⟨0, 6, .reassign⟩]] else []
  vars := 2

def exOwnPhases : List Phase := [phaseUpTo exOwn 5 0 [0, 1], phaseUpTo exOwn 5 2 [3]]

def exOwnComputed (b : Nat) : Nat → Nat := if b < 3 then computedUpTo exOwn 5 0 [0, 1] b else computedUpTo exOwn 5 2 [3] b

def exOwnCalling : Calling where
  named := (· == 0)
  hasCall := fun b i => (b == 1 && i == 0) || (b == 3 && i == 2)
  functions := [0]
  exits := fun _ => [1]
  sees := fun _ _ => true
  unresolved := []
  users := fun _ => [⟨5, 3, 2, none⟩]
  recursive := fun _ => false
  uncalled := []
  around := fun _ _ => true
  scopeEnds := fun _ => [⟨5, 3, 2, none⟩]

theorem exOwn_phases : Phases exOwn (fun b => decide (b < 5)) 0 [0, 3] exOwnPhases :=
  .cons (n := 40) ⟨40, by decide +kernel, by decide +kernel⟩ (by decide +kernel)
    (.cons (n := 40) ⟨40, by decide +kernel, by decide +kernel⟩ (by decide +kernel) .nil)

theorem exOwn_computed : Computed exOwn (fun b => decide (b < 5)) exOwnPhases exOwnComputed := by
  intro ph hph
  simp only [exOwnPhases, List.mem_cons, List.not_mem_nil, or_false] at hph
  rcases hph with rfl | rfl
  · refine ⟨40, by decide +kernel, fun b hb => ?_⟩
    simp only [phaseUpTo, List.mem_cons, List.not_mem_nil, or_false] at hb
    rw [exOwnComputed, if_pos (by omega)]
    rfl
  · refine ⟨40, by decide +kernel, fun b hb => ?_⟩
    simp only [phaseUpTo, List.mem_cons, List.not_mem_nil, or_false] at hb
    rw [exOwnComputed, if_neg (by omega)]
    rfl

/-- **C140** is false if what is assigned is the result of the call: `print(x)` in the call gets the value of `x = 1`, but just `x = g()` is found. -/
theorem C140_own_counterexample :
    Phases exOwn (fun b => decide (b < 5)) 0 [0, 3] exOwnPhases ∧ Computed exOwn (fun b => decide (b < 5)) exOwnPhases exOwnComputed ∧
    (∀ fuel, getDefsAt exOwn (fun b => decide (b < 5)) [0, 1, 3] exOwnComputed exOwnCalling (fuel + 1) ⟨3, 1, 0, some 0⟩ = [⟨0, 6, .reassign⟩]) ∧
    Way exOwn 3 [] 3 ∧ Way exOwn 0 [0] 1 ∧ ValueOf 0 (((exOwn.locs 3).take 2).flatten ++ [0].flatMap exOwn.items ++ ((exOwn.locs 1).take 0).flatten) ⟨0, 1, .assign⟩ := by
  refine ⟨exOwn_phases, exOwn_computed, fun fuel => ?_, .start, Way.start.next (b := 0) (c := 1) (by decide), valueOf_iff.2 (by decide)⟩
  have h1 : (local_ exOwn (fun b => decide (b < 5)) [0, 1, 3] exOwnComputed exOwnCalling ⟨3, 1, 0, some 0⟩ true) = ([], false) := by decide +kernel
  have h2 : (local_ exOwn (fun b => decide (b < 5)) [0, 1, 3] exOwnComputed exOwnCalling ⟨5, 3, 2, none⟩ false) = ([⟨0, 6, .reassign⟩], true) := by decide +kernel
  unfold getDefsAt
  rw [defsAtRec.eq_def]
  simp only [h1]
  simp only [Bool.false_eq_true, if_false, endNodes, madeUp]
  simp only [exOwnCalling, List.isEmpty_cons, Bool.or_false, Bool.false_eq_true, if_false, List.append_nil, List.nil_append, List.not_mem_nil, List.foldl_cons, List.foldl_nil,
    List.mem_singleton, Site.mk.injEq]
  rw [if_neg (by decide)]
  show (defsAtRec exOwn _ _ _ exOwnCalling fuel _ _ _).1 = _
  rw [defsAtRec.eq_def]
  simp [h2]

/-- `def f()`, `def g()` and `g()`. Blocks of `f` are 0, 1 and the empty 2, those of `g` are 3, 4 and the empty 5, those of the module are 6 and the empty 7. -/
def exUser : Prog where
  nodes := [0, 1, 2, 3, 4, 5, 6, 7]
  succ := fun b => if b = 0 then [1] else if b = 1 then [2] else if b = 3 then [4] else if b = 4 then [5] else if b = 6 then [7] else []
  locs := fun b =>
    if b = 0 then [[]] else if b = 1 then [[]] else if b = 3 then [[]] else if b = 4 then [[]]
    else if b = 6 then [[.own ⟨0, 1, .assign⟩], [.own ⟨1, 2, .assign⟩], [.own ⟨1, 3, .read⟩]] else []
  vars := 2

def exUserPhases : List Phase := [phaseUpTo exUser 8 0 [0, 1], phaseUpTo exUser 8 2 [3, 4], phaseUpTo exUser 8 4 [6]]

def exUserComputed (b : Nat) : Nat → Nat :=
  if b < 3 then computedUpTo exUser 8 0 [0, 1] b else if b < 6 then computedUpTo exUser 8 2 [3, 4] b else computedUpTo exUser 8 4 [6] b

/-- The name is `f`, and `f` is used nowhere. -/
def exUserCalling : Calling where
  named := (· == 0)
  hasCall := fun b i => b == 6 && i == 2
  functions := [0, 1]
  exits := fun f => if f = 0 then [1] else [4]
  sees := fun _ _ => true
  unresolved := []
  users := fun f => if f = 0 then [] else [⟨3, 6, 2, none⟩]
  recursive := fun _ => false
  uncalled := [0]
  around := fun _ _ => true
  scopeEnds := fun _ => [⟨3, 6, 2, none⟩]

theorem exUser_phases : Phases exUser (fun b => decide (b < 8)) 0 [0, 3, 6] exUserPhases :=
  .cons (n := 40) ⟨40, by decide +kernel, by decide +kernel⟩ (by decide +kernel)
    (.cons (n := 40) ⟨40, by decide +kernel, by decide +kernel⟩ (by decide +kernel)
      (.cons (n := 40) ⟨40, by decide +kernel, by decide +kernel⟩ (by decide +kernel) .nil))

theorem exUser_computed : Computed exUser (fun b => decide (b < 8)) exUserPhases exUserComputed := by
  intro ph hph
  simp only [exUserPhases, List.mem_cons, List.not_mem_nil, or_false] at hph
  rcases hph with rfl | rfl | rfl
  · refine ⟨40, by decide +kernel, fun b hb => ?_⟩
    simp only [phaseUpTo, List.mem_cons, List.not_mem_nil, or_false] at hb
    rw [exUserComputed, if_pos (by omega)]
    rfl
  · refine ⟨40, by decide +kernel, fun b hb => ?_⟩
    simp only [phaseUpTo, List.mem_cons, List.not_mem_nil, or_false] at hb
    rw [exUserComputed, if_neg (by omega), if_pos (by omega)]
    rfl
  · refine ⟨40, by decide +kernel, fun b hb => ?_⟩
    simp only [phaseUpTo, List.mem_cons, List.not_mem_nil, or_false] at hb
    rw [exUserComputed, if_neg (by omega), if_neg (by omega)]
    rfl

theorem exUser_reach {s b : Nat} (h : Reach exUser.succ s b) : (s < 3 → b < 3) ∧ (3 ≤ s → s < 6 → 3 ≤ b ∧ b < 6) ∧ (6 ≤ s → s < 8 → 6 ≤ b ∧ b < 8) := by
  induction h with
  | start => omega
  | next _ hc ih =>
    simp only [exUser] at hc
    repeat' split at hc
    all_goals simp at hc
    all_goals omega

theorem exUser_graphs : Graphs exUser (fun b => decide (b < 8)) [0, 3, 6] := by
  have h0 : Reach exUser.succ 0 1 := Reach.start.next (by decide)
  have h3 : Reach exUser.succ 3 4 := Reach.start.next (by decide)
  have h6 : Reach exUser.succ 6 7 := Reach.start.next (by decide)
  have hE : ∀ b, Ever exUser [0, 3, 6] b ↔ b < 8 := by
    intro b
    constructor
    · rintro ⟨s, hs, h⟩
      have := exUser_reach h
      simp only [List.mem_cons, List.not_mem_nil, or_false] at hs
      omega
    · intro h
      match b, h with
      | 0, _ => exact ⟨0, by simp, .start⟩
      | 1, _ => exact ⟨0, by simp, h0⟩
      | 2, _ => exact ⟨0, by simp, h0.next (by decide)⟩
      | 3, _ => exact ⟨3, by simp, .start⟩
      | 4, _ => exact ⟨3, by simp, h3⟩
      | 5, _ => exact ⟨3, by simp, h3.next (by decide)⟩
      | 6, _ => exact ⟨6, by simp, .start⟩
      | 7, _ => exact ⟨6, by simp, h6⟩
  refine ⟨by decide, ?_, ?_, ?_, ?_⟩
  · intro b hb
    simp only [exUser] at hb ⊢
    repeat' split at hb
    all_goals simp_all
  · intro b
    rw [hE]
    simp
  · intro b hb
    rw [hE] at hb
    simp only [exUser, List.mem_cons, List.not_mem_nil, or_false]
    omega
  · intro s hs s' hs' b h h'
    have := exUser_reach h
    have := exUser_reach h'
    simp only [List.mem_cons, List.not_mem_nil, or_false] at hs hs'
    omega

/-- By `C140_outside_partial`: in `g`, the name `f` is found to be the function. -/
example (fuel : Nat) : (⟨0, 1, .assign⟩ : Event) ∈
    getDefsAt exUser (fun b => decide (b < 8)) (exUserPhases.flatMap Phase.order) exUserComputed exUserCalling (fuel + 1) ⟨10, 4, 0, some 1⟩ := by
  have hcalled : ∀ b x, Item.called x ∈ exUser.items b → x.var = 0 → x.type = .read := by
    intro b x hx
    simp only [Prog.items, exUser] at hx
    repeat' split at hx
    all_goals simp at hx
  refine C140_outside_partial (v := 0) exUser_graphs exUser_phases exUser_computed hcalled (by decide) rfl (by simp [exUserCalling]) (by decide) (by simp) (start := 3)
    (bs := []) (p := 3) (by decide) (Way.start.next (by decide)) ?_ rfl (u := ⟨3, 6, 2, none⟩) (.inl (by simp [exUserCalling])) (by decide) (by decide) ?_ (start' := 6) (bs' := [])
    (by decide) .start (valueOf_iff.2 (by decide)) fuel
  · intro b hb x hx
    have := exUser_reach hb
    simp only [Prog.items, exUser] at hx
    repeat' split at hx
    all_goals simp at hx
    omega
  · intro i _ hc
    refine .inr ⟨0, by simp [exUserCalling], 1, by simp [exUserCalling], by decide, ?_⟩
    intro v hv hn _
    simp only [exUserCalling, beq_iff_eq] at hn
    subst hn
    decide +kernel

/-- What is computed for `x = 0`, `def f(): global x; x = 1` and `def g(): print(x)`. -/
def exUncalledComputed (b : Nat) : Nat → Nat :=
  if b < 3 then computedOf exUncalled 0 [0, 1] b else if b < 6 then computedOf exUncalled 2 [3, 4] b else computedOf exUncalled 4 [6] b

/-- The name is `x`; nothing uses `f`, which is 10, and `g`, which is 11. -/
def exUncalledCalling : Calling where
  named := (· == 0)
  hasCall := fun _ _ => false
  functions := [10, 11]
  exits := fun f => if f = 10 then [1] else [4]
  sees := fun _ _ => true
  unresolved := []
  users := fun _ => []
  recursive := fun _ => false
  uncalled := [10, 11]
  around := fun _ _ => true
  scopeEnds := fun _ => [⟨3, 6, 2, none⟩]

theorem exUncalled_computed : Computed exUncalled exReach (exPhases exUncalled) exUncalledComputed := by
  intro ph hph
  simp only [exPhases, List.mem_cons, List.not_mem_nil, or_false] at hph
  rcases hph with rfl | rfl | rfl
  · refine ⟨20, by decide +kernel, fun b hb => ?_⟩
    simp only [phaseOf, List.mem_cons, List.not_mem_nil, or_false] at hb
    rw [exUncalledComputed, if_pos (by omega)]
    rfl
  · refine ⟨20, by decide +kernel, fun b hb => ?_⟩
    simp only [phaseOf, List.mem_cons, List.not_mem_nil, or_false] at hb
    rw [exUncalledComputed, if_neg (by omega), if_pos (by omega)]
    rfl
  · refine ⟨20, by decide +kernel, fun b hb => ?_⟩
    simp only [phaseOf, List.mem_cons, List.not_mem_nil, or_false] at hb
    rw [exUncalledComputed, if_neg (by omega), if_neg (by omega)]
    rfl

/-- By `C140_uncalled_partial`: in `g`, `x` is found to be what `f` made of it. -/
example (fuel : Nat) : (⟨0, 1, .reassign⟩ : Event) ∈
    getDefsAt exUncalled exReach ((exPhases exUncalled).flatMap Phase.order) exUncalledComputed exUncalledCalling fuel ⟨10, 4, 0, some 11⟩ := by
  have hcalled : ∀ b x, Item.called x ∈ exUncalled.items b → x.var = 0 → x.type = .read := by
    intro b x hx
    simp only [Prog.items, exUncalled] at hx
    repeat' split at hx
    all_goals simp at hx
  refine C140_uncalled_partial (v := 0) exUncalled_graphs exUncalled_phases exUncalled_computed hcalled (by decide) rfl (by simp [exUncalledCalling]) (by decide) (by simp) (start := 3)
    (bs := []) (p := 3) (by decide) (Way.start.next (by decide)) ?_ rfl (.inl rfl) rfl (g := 10) (by decide) (start' := 0) (bs' := [0]) (p' := 1)
    (by decide) (Way.start.next (by decide)) (by decide) (valueOf_iff.2 (by decide)) (by decide) fuel
  intro b hb x hx hxv
  have := exUncalled_reach hb
  simp only [Prog.items, exUncalled] at hx
  repeat' split at hx
  all_goals simp at hx
  all_goals first | omega | (rw [hx])

end Verif.Cfg

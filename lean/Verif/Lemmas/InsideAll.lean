import Verif.Lemmas.InsideFind
import Verif.Lemmas.InsideTrace
import Verif.Props.Flow

/-! Lemmas for C90 and C91: which locations are yielded. -/

namespace Verif.Inside

open Verif.Flow
open Verif.Traverse (Loc locAt ofFlow lt_of_get locAt_unique trail_of_path Entered)

/-- What is yielded, from statements that `look` applies to. -/
theorem inside_looks {F : Graph} {b : Body} {free : Bool} (hg : Sane F) (hd : F.all.Nodup) (hf : b.noFinally = true)
    (hn : b.locations.Nodup) (hctx : Ctx F b free) {s : Stmt} {rest : Body} (hb : b = .cons s rest) :
    ∃ start ps, locAt F start = some (first s) ∧ placed F (stmts b) = some ps ∧
      (∀ s ∈ stmts b, ∃ x, locAt F x = some (first s)) ∧ (∀ B, blockLocs F ps B = cov F (stmts b) B) ∧
      ∀ B, ∃ a u m n, Look F b start free B a u m n := by
  obtain ⟨start, h1, h2, h3⟩ := look hg hd hf hn hctx hb
  obtain ⟨ps, h4, h5⟩ := blockLocs_eq hg hd h2 fun B => by
    obtain ⟨a, u, m, n, h⟩ := h3 B
    exact ⟨m, n, h.cov⟩
  exact ⟨start, ps, h1, h4, h2, h5, h3⟩

theorem inside_parts {F : Graph} {b : Body} {start : Loc} {ps : List (Stmt × Loc)} (hg : Sane F) (hd : F.all.Nodup) {s : Stmt} {rest : Body}
    (hb : b = .cons s rest) (h1 : locAt F start = some (first s)) (h2 : placed F (stmts b) = some ps) {locs : List Loc} (h : Inside F b locs) :
    ∃ out, Blocks (ofFlow F) (fun block _ hi => stopOn F b block hi) [start] out ∧
      ∀ x, x ∈ locs ↔ Yields (out.flatMap (partsOf F b ps)) x.1 x.2 := by
  obtain ⟨s', ss, x, h3, h4, parts, ⟨ps', out, h5, h6, rfl⟩, rfl⟩ := h
  rw [hb] at h3
  simp only [stmts, List.cons.injEq] at h3
  obtain ⟨rfl, -⟩ := h3
  rw [place_eq hg hd h1, Option.some.injEq] at h4
  subst h4
  rw [h2, Option.some.injEq] at h5
  subst h5
  refine ⟨out, h6, fun x => ?_⟩
  simp only [List.mem_flatMap, List.mem_filter, List.mem_map, List.mem_range', Nat.one_mul]
  unfold Yields
  simp only [List.mem_flatMap]
  constructor
  · rintro ⟨⟨t, B, lo, hi⟩, ⟨⟨q, hq, hm⟩, ht⟩, i, ⟨k, hk, rfl⟩, rfl⟩
    have ht : t = true := ht
    subst ht
    exact ⟨lo, hi, ⟨q, hq, hm⟩, Nat.le_add_right _ _, by show lo + k < hi; have : k < hi - lo := hk; omega⟩
  · rintro ⟨lo, hi, hm, h7, h8⟩
    refine ⟨(true, x.1, lo, hi), ⟨hm, rfl⟩, x.2, ⟨x.2 - lo, ?_, ?_⟩, rfl⟩
    · show _ < hi - lo
      omega
    · show x.2 = lo + _
      omega

theorem partsOf_block {F : Graph} {b : Body} {ps : List (Stmt × Loc)} {t : Nat × Nat × Nat} {p : Part} (h : p ∈ partsOf F b ps t) : p.2.1 = t.1 := by
  have hbt : ∀ (cs : List (Nat × Nat)) (B len : Nat) (p : Part), p ∈ between B len cs → p.2.1 = B := by
    intro cs
    induction cs with
    | nil => intro _ _ _ h; cases h
    | cons c cs ih =>
      intro B len p h
      cases cs with
      | nil =>
        simp only [between] at h
        rcases List.mem_cons.1 h with rfl | h
        · rfl
        · split at h
          · rw [List.mem_singleton.1 h]
          · cases h
      | cons d cs =>
        simp only [between] at h
        rcases List.mem_cons.1 h with rfl | h
        · rfl
        rcases List.mem_cons.1 h with rfl | h
        · rfl
        exact ih B len p h
  unfold partsOf at h
  simp only at h
  split at h
  · rw [List.mem_singleton.1 h]
  · split at h
    · rw [List.mem_singleton.1 h]
    · exact hbt _ _ _ _ h
  · exact hbt _ _ _ _ h

theorem stop_any (F : Graph) (b : Body) : ∀ B lo lo' hi, (fun block (_ : Nat) hi => stopOn F b block hi) B lo hi = (fun block (_ : Nat) hi => stopOn F b block hi) B lo' hi :=
  fun _ _ _ _ => rfl

theorem inside_sound {F : Graph} {b : Body} {free : Bool} (hg : Sane F) (hd : F.all.Nodup) (hf : b.noFinally = true)
    (hn : b.locations.Nodup) (hctx : Ctx F b free) {locs : List Loc} (h : Inside F b locs) :
    ∀ x ∈ locs, ∃ l, locAt F x = some l ∧ l ∈ b.locations := by
  obtain ⟨s, rest, hb⟩ : ∃ s rest, b = .cons s rest := by
    obtain ⟨s, ss, x, h1, -⟩ := h
    cases b with
    | nil => cases h1
    | cons s rest => exact ⟨s, rest, rfl⟩
  obtain ⟨start, ps, h1, h2, h3, h4, h5⟩ := inside_looks hg hd hf hn hctx hb
  obtain ⟨out, h6, h7⟩ := inside_parts hg hd hb h1 h2 h
  intro x hx
  obtain ⟨lo, hi, hm, h8, h9⟩ := (h7 x).1 hx
  obtain ⟨⟨B, lo', hi'⟩, hq, hm⟩ := List.mem_flatMap.1 hm
  have hB : x.1 = B := partsOf_block hm
  obtain ⟨a, u, m, n, hl⟩ := h5 B
  have := sound_part (i := x.2) hl hg hd h3 (h4 B) (blocks_fresh (stop_any F b) (lt_of_get h1) h6 _ hq) ⟨lo, hi, hB ▸ hm, h8, h9⟩
  rw [← hB] at this
  exact this

theorem inside_complete {F : Graph} {b : Body} {free : Bool} (hg : Sane F) (hd : F.all.Nodup) (hf : b.noFinally = true)
    (hn : b.locations.Nodup) (hctx : Ctx F b free) (hfree : free = true ∨ noEnter b = true) {s : Stmt} {rest : Body}
    (hb : b = .cons s rest) {locs : List Loc} (h : Inside F b locs) {path : List Nat} (hp : F.IsPath path) {t m t' : List Nat}
    (htr : t ++ first s :: (m ++ t') <+: F.along path) (hm : ∀ x ∈ m, x ∈ b.locations) :
    ∀ l ∈ first s :: m, ∃ x ∈ locs, locAt F x = some l := by
  obtain ⟨start, ps, h1, h2, h3, h4, h5⟩ := inside_looks hg hd hf hn hctx hb
  obtain ⟨out, h6, h7⟩ := inside_parts hg hd hb h1 h2 h
  have h6' := (blocks_eq (stop_any F b) (lt_of_get h1)).1 h6
  have hfirst : first s ∈ b.locations := by rw [hb]; exact List.mem_append_left _ (first_mem s)
  have hno : ∀ {x : Loc} {l : Nat}, locAt F x = some l → l ∈ b.locations →
      (argsAt (ofFlow F) (fun block _ hi => stopOn F b block hi) start).stop x = false := by
    intro x l hx hl
    show (_ && stopOn F b x.1 (x.2 + 1)) = false
    rw [stopOn_eq.2 ⟨l, hx, hl⟩, Bool.and_false]
  have hent : ∀ l ∈ first s :: m, ∃ x, locAt F x = some l ∧ Entered (ofFlow F) (argsAt (ofFlow F) (fun block _ hi => stopOn F b block hi) start) [start] x := by
    intro l hl
    rcases List.mem_cons.1 hl with rfl | hl
    · exact ⟨start, h1, (Traverse.entered_succ rfl).2 (.inl ⟨rfl, rfl⟩)⟩
    · obtain ⟨m1, m2, rfl⟩ := List.append_of_mem hl
      obtain ⟨mid, y, h8, h9, h10⟩ := trail_of_path hg hd hp (t2 := m1) (y := l) (t3 := m2 ++ t') (by simpa using htr) h1
      refine ⟨y, h10, (Traverse.entered_succ rfl).2 (.inr ⟨fun _ => hno h1 hfirst, mid, h8, fun z hz => ?_⟩)⟩
      have : locAt F z ∈ m1.map some := by rw [← h9]; exact List.mem_map.2 ⟨z, hz, rfl⟩
      obtain ⟨w, hw, e⟩ := List.mem_map.1 this
      exact hno e.symm (hm w (by simp [hw]))
  intro l hl
  obtain ⟨x, hx, he⟩ := hent l hl
  refine ⟨x, (h7 x).2 ?_, hx⟩
  have hmem := Traverse.complete_succ rfl (fun y hy => by rw [List.mem_singleton.1 hy]; exact lt_of_get h1) (.inl ⟨start, rfl⟩) h6' he (.inl rfl)
  obtain ⟨⟨B, lo, hi⟩, hq, hi'⟩ := List.mem_flatMap.1 hmem
  obtain ⟨i, hi1, rfl⟩ := List.mem_map.1 hi'
  have hi1 : i ∈ List.range' lo (hi - lo) := hi1
  obtain ⟨k, hk, hik⟩ := List.mem_range'.1 hi1
  obtain ⟨a, u, m', n, hl'⟩ := h5 B
  have hlb : l ∈ b.locations := by
    rcases List.mem_cons.1 hl with rfl | hl
    · exact hfirst
    · exact hm l hl
  obtain ⟨lo', hi', hy, h8, h9⟩ := complete_part hl' (h4 B) (blocks_fresh (stop_any F b) (lt_of_get h1) h6 _ hq) hfree
    (i := i) ⟨l, hx, hlb⟩ (by show lo ≤ i; omega) (by show i < hi; omega)
  exact ⟨lo', hi', List.mem_flatMap.2 ⟨_, hq, hy⟩, h8, h9⟩

theorem inside_total {F : Graph} {b : Body} {free : Bool} (hg : Sane F) (hd : F.all.Nodup) (hf : b.noFinally = true)
    (hn : b.locations.Nodup) (hctx : Ctx F b free) (hb : b.isNil = false) : ∃ locs, Inside F b locs := by
  cases hbe : b with
  | nil => rw [hbe] at hb; cases hb
  | cons s rest =>
  rw [← hbe]
  obtain ⟨start, ps, h1, h2, h3, h4, h5⟩ := inside_looks hg hd hf hn hctx hbe
  have hlt := lt_of_get h1
  have hcount : start.1 < F.count := by
    by_cases e : start.1 < F.count
    · exact e
    · have := hg.fresh start.1 (by omega)
      unfold locAt at h1
      rw [this] at h1; cases h1
  obtain ⟨_, out, h6, -⟩ := Traverse.C82_terminates (G := ofFlow F) (c := argsAt (ofFlow F) (fun block _ hi => stopOn F b block hi) start) [start]
    (fun y hy => by rw [List.mem_singleton.1 hy]; exact hlt) (List.range F.count)
    (fun B _ t ht => List.mem_range.2 (hg.tgt B t (Traverse.mem_succs.1 ht)))
    (fun y hy => by rw [List.mem_singleton.1 hy]; exact List.mem_range.2 hcount)
  refine ⟨_, s, stmts rest, start, by rw [hbe]; rfl, place_eq hg hd h1, _, ⟨ps, out, h2, (blocks_eq (stop_any F b) hlt).2 h6, rfl⟩, rfl⟩

/-! ### Nothing is yielded twice -/

theorem entered_tail {G : Traverse.Graph} {c : Traverse.Args} (hdir : c.dir = .successors) (hi : c.includeStart = true) {start : Loc}
    (hstop : c.stop (start.1, G.len start.1 - 1) = true) {x : Loc} (h : Entered G c [start] x) : x.1 = start.1 ∧ start.2 ≤ x.2 := by
  induction h with
  | @first l z hl hf =>
    rw [List.mem_singleton.1 hl] at hf
    unfold Traverse.First at hf
    rw [if_pos hi] at hf
    subst hf
    exact ⟨rfl, Nat.le_refl _⟩
  | @next x y _ hs hxy ih =>
    rw [hdir] at hxy
    cases hxy with
    | succ h => exact ⟨ih.1, by have := ih.2; show _ ≤ _ + 1; omega⟩
    | succEdge h1 h2 h3 =>
      rename_i b i t _
      have e : b = start.1 := ih.1
      have : (b, i) = (start.1, G.len start.1 - 1) := by rw [← e, ← h1]; simp
      rw [this, hstop] at hs
      cases hs

theorem inside_out {F : Graph} {b : Body} {start : Loc} {ps : List (Stmt × Loc)} (hg : Sane F) (hd : F.all.Nodup) {s : Stmt} {rest : Body}
    (hb : b = .cons s rest) (h1 : locAt F start = some (first s)) (h2 : placed F (stmts b) = some ps) {locs : List Loc} (h : Inside F b locs) :
    ∃ out, Blocks (ofFlow F) (fun block _ hi => stopOn F b block hi) [start] out ∧
      locs = out.flatMap fun t => ((partsOf F b ps t).filter (·.1)).flatMap fun p => (List.range' p.2.2.1 (p.2.2.2 - p.2.2.1)).map fun i => (p.2.1, i) := by
  obtain ⟨s', ss, x, h3, h4, parts, ⟨ps', out, h5, h6, rfl⟩, rfl⟩ := h
  rw [hb] at h3
  simp only [stmts, List.cons.injEq] at h3
  obtain ⟨rfl, -⟩ := h3
  rw [place_eq hg hd h1, Option.some.injEq] at h4
  subst h4
  rw [h2, Option.some.injEq] at h5
  subst h5
  refine ⟨out, h6, ?_⟩
  rw [List.filter_flatMap, List.flatMap_assoc]

open List in
theorem inside_nodup {F : Graph} {b : Body} {free : Bool} (hg : Sane F) (hd : F.all.Nodup) (hf : b.noFinally = true)
    (hn : b.locations.Nodup) (hctx : Ctx F b free) {locs : List Loc} (h : Inside F b locs) : locs.Nodup := by
  obtain ⟨s, rest, hb⟩ : ∃ s rest, b = .cons s rest := by
    obtain ⟨s, ss, x, h1, -⟩ := h
    cases b with
    | nil => cases h1
    | cons s rest => exact ⟨s, rest, rfl⟩
  obtain ⟨start, ps, h1, h2, h3, h4, h5⟩ := inside_looks hg hd hf hn hctx hb
  obtain ⟨out, h6, rfl⟩ := inside_out hg hd hb h1 h2 h
  have hlocs : ∀ l ∈ [start], l.2 < (ofFlow F).len l.1 := fun y hy => by rw [List.mem_singleton.1 hy]; exact lt_of_get h1
  obtain ⟨hnd, hent⟩ := Traverse.C82_sound (c := argsAt (ofFlow F) (fun block _ hi => stopOn F b block hi) start) [start] hlocs _
    ⟨out, (blocks_eq (stop_any F b) (lt_of_get h1)).1 h6, rfl⟩
  have hsub : ∀ t ∈ out, ((partsOf F b ps t).filter (·.1)).flatMap (fun p => (List.range' p.2.2.1 (p.2.2.2 - p.2.2.1)).map fun i => (p.2.1, i))
      <+ (Traverse.positions .successors t.2.1 t.2.2).map fun i => (t.1, i) := by
    rintro ⟨B, lo, hi⟩ ht
    obtain ⟨a, u, m, n, hl⟩ := h5 B
    have hps := h4 B
    rw [hl.cov] at hps
    obtain ⟨f1, f2, f3⟩ := blocks_fresh (stop_any F b) (lt_of_get h1) h6 _ ht
    have f1 : lo < hi := f1
    have f2 : hi ≤ (F.locs B).length := f2
    have f3 : (B ≠ start.1 ∧ lo = 0 ∧ hi = (F.locs B).length) ∨ (B = start.1 ∧ lo = start.2 ∧ hi = (F.locs B).length) ∨
      (B = start.1 ∧ lo = 0 ∧ hi = start.2) := f3
    rcases parts_cases (b := b) (lo := lo) (hi := hi) hps with ⟨hp, hc⟩ | ⟨hp, hn, hlt⟩
    · rw [hp]
      cases hst : stopOn F b B hi with
      | true => simp
      | false => simp [Traverse.positions]
    · rw [hp]
      simp only [List.filter, List.flatMap_cons, List.flatMap_nil, List.append_nil, Traverse.positions]
      refine List.Sublist.map _ ?_
      have hend := hl.ends.resolve_left hn
      have hin : In F b B m := by
        have hmem : m ∈ cov F (stmts b) B := by rw [hl.cov]; exact List.mem_range'.2 ⟨0, by omega, by omega⟩
        exact cov_in hg hd h3 hmem
      have ha := (hl.iff m).1 hin
      have key : lo ≤ m ∧ m + n ≤ hi := by
        rcases f3 with ⟨-, e1, e2⟩ | ⟨e0, e1, e2⟩ | ⟨e0, e1, e2⟩
        · omega
        · have := (hl.start e0.symm).1
          omega
        · exfalso
          have hs0 := (hl.start e0.symm).1
          have hstop : (argsAt (ofFlow F) (fun block _ hi => stopOn F b block hi) start).stop (start.1, (ofFlow F).len start.1 - 1) = true := by
            have hle : (ofFlow F).len start.1 = (F.locs B).length := by rw [e0]; rfl
            show ((decide (_ = _) || _) && stopOn F b start.1 (_ + 1)) = true
            rw [hle, ← e0, show (F.locs B).length - 1 + 1 = (F.locs B).length by omega]
            rw [decide_eq_true rfl, Bool.true_or, Bool.true_and]
            cases hst : stopOn F b B (F.locs B).length with
            | true => rfl
            | false =>
              have := (hl.iff _).1 (stopOn_eq.1 hst)
              omega
          have h0 : (B, 0) ∈ Traverse.locsOf .successors out :=
            List.mem_flatMap.2 ⟨_, ht, List.mem_map.2 ⟨0, List.mem_range'.2 ⟨0, by show 0 < hi - lo; omega, by show 0 = lo + _; omega⟩, rfl⟩⟩
          have := (entered_tail rfl rfl hstop (hent _ h0).1).2
          have : start.2 ≤ 0 := this
          omega
      have e : List.range' lo (hi - lo) = List.range' lo (m - lo) ++ (List.range' m (m + n - m) ++ List.range' (m + n) (hi - (m + n))) := by
        rw [show m + n - m = n by omega, List.range'_append_1, show m = lo + (m - lo) by omega, show lo + (m - lo) - lo = m - lo by omega,
          List.range'_append_1]
        congr 1
        omega
      rw [e]
      exact (List.sublist_append_left _ _).trans (List.sublist_append_right _ _)
  refine hnd.sublist ?_
  have : ∀ out' : List (Nat × Nat × Nat), (∀ t ∈ out', t ∈ out) → (out'.flatMap fun t => ((partsOf F b ps t).filter (·.1)).flatMap fun p =>
      (List.range' p.2.2.1 (p.2.2.2 - p.2.2.1)).map fun i => (p.2.1, i)) <+ Traverse.locsOf .successors out' := by
    intro out' ho
    induction out' with
    | nil => exact .slnil
    | cons t ts ih =>
      unfold Traverse.locsOf
      rw [List.flatMap_cons, List.flatMap_cons]
      exact (hsub t (ho t (by simp))).append (ih fun t ht => ho t (by simp [ht]))
  exact this out fun _ h => h

/-! ### There is one result -/

theorem run_done {G : Traverse.Graph} {stop : Nat → Nat → Nat → Bool} {s : Traverse.State} (h1 : s.stack = []) (h2 : s.todo = []) :
    ∀ k, run G stop k s = .ok s
  | 0 => rfl
  | k + 1 => by
    have : step G stop s = .ok s := by unfold step; rw [h1, h2]
    simp only [run, this]
    exact run_done h1 h2 k

theorem run_add {G : Traverse.Graph} {stop : Nat → Nat → Nat → Bool} : ∀ (n k : Nat) {s t : Traverse.State}, run G stop n s = .ok t →
    run G stop (n + k) s = run G stop k t
  | 0, k, s, t, h => by cases h; rw [Nat.zero_add]
  | n + 1, k, s, t, h => by
    rw [Nat.add_right_comm]
    simp only [run] at h ⊢
    cases hs : step G stop s with
    | error x => rw [hs] at h; cases h
    | ok s' => rw [hs] at h; exact run_add n k h

theorem blocks_unique {G : Traverse.Graph} {stop : Nat → Nat → Nat → Bool} {starts : List Loc} {out out' : List (Nat × Nat × Nat)}
    (h : Blocks G stop starts out) (h' : Blocks G stop starts out') : out = out' := by
  obtain ⟨n, s, h1, h2, h3, rfl⟩ := h
  obtain ⟨n', s', h1', h2', h3', rfl⟩ := h'
  have e1 := run_add n n' h1
  have e2 := run_add n' n h1'
  rw [run_done h2 h3] at e1
  rw [run_done h2' h3', Nat.add_comm, e1, Except.ok.injEq] at e2
  rw [e2]

theorem inside_unique {F : Graph} {b : Body} {locs locs' : List Loc} (h : Inside F b locs) (h' : Inside F b locs') : locs = locs' := by
  obtain ⟨s, ss, x, h1, h2, parts, ⟨ps, out, h3, h4, rfl⟩, rfl⟩ := h
  obtain ⟨s', ss', x', h1', h2', parts', ⟨ps', out', h3', h4', rfl⟩, rfl⟩ := h'
  rw [h1, List.cons.injEq] at h1'
  obtain ⟨rfl, rfl⟩ := h1'
  rw [h2, Option.some.injEq] at h2'
  subst h2'
  rw [h3, Option.some.injEq] at h3'
  subst h3'
  rw [blocks_unique h4 h4']

/-- The locations that are yielded, if `n` steps are enough. -/
def insideIn (g : Graph) (b : Body) (n : Nat) : Option (List Loc) :=
  match stmts b, placed g (stmts b) with
  | s :: _, some ps =>
    match place g (first s) with
    | some x =>
      match run (ofFlow g) (fun block _ hi => stopOn g b block hi) n (Traverse.init [x]) with
      | .ok st =>
        if st.stack.isEmpty && st.todo.isEmpty then
          some (((st.out.flatMap (partsOf g b ps)).filter (·.1)).flatMap fun p => (List.range' p.2.2.1 (p.2.2.2 - p.2.2.1)).map fun i => (p.2.1, i))
        else none
      | .error _ => none
    | none => none
  | _, _ => none

theorem insideIn_eq {g : Graph} {b : Body} {n : Nat} {locs : List Loc} (h : insideIn g b n = some locs) : Inside g b locs := by
  unfold insideIn at h
  split at h
  · rename_i s ss ps h1 h2
    split at h
    · rename_i x h3
      split at h
      · rename_i st h4
        split at h
        · rename_i h5
          simp only [Bool.and_eq_true, List.isEmpty_iff] at h5
          cases h
          exact ⟨s, ss, x, h1, h3, _, ⟨ps, st.out, h2, ⟨n, st, h4, h5.1, h5.2, rfl⟩, rfl⟩, rfl⟩
        · cases h
      · cases h
    · cases h
  · cases h

theorem noWith_eq : ∀ b : Body, noWith b = noEnter b
  | .nil => rfl
  | .cons s rest => by
    have ih := noWith_eq rest
    unfold noEnter at ih ⊢
    cases s <;> simp [noWith, stmts, isEnter, ih]

theorem last_mem {t a m : List Nat} {l h : Nat} (e : t ++ [l] = a ++ h :: m) : l ∈ h :: m := by
  have e2 := congrArg List.getLast? e
  rw [List.getLast?_append_cons, List.getLast?_append_cons] at e2
  exact List.mem_of_getLast? e2.symm

end Verif.Inside

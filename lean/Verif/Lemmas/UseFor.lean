import Mathlib.Data.List.Nodup
import Mathlib.Data.List.Pairwise
import Verif.Model.UseFor
import Verif.Props.Inside

/-! Lemmas for C110. -/

namespace Verif.UseFor

open Verif.Flow
open Verif.Traverse (Loc locAt ofFlow Trail Next Entered)
open Verif.Inside (At place first)

/-! ### The locations that statements have themselves -/

/-- The location that a statement has itself. -/
def head : Stmt → List Nat
  | .simple l => [l]
  | .jump _ l => [l]
  | .cond t _ _ => [t]
  | .loop t _ _ => [t]
  | .each i _ _ _ => [i]
  | .enter i _ _ => [i]
  | .try_ _ _ _ _ _ => []

mutual
theorem stmt_heads : ∀ s : Stmt, (s.parts.flatMap head).Sublist s.locations
  | .simple l => by simp [Stmt.parts, head, Stmt.locations]
  | .jump j l => by simp [Stmt.parts, head, Stmt.locations]
  | .cond t b e => by
    simp only [Stmt.parts, List.flatMap_cons, List.flatMap_append, head, Stmt.locations, List.cons_append, List.nil_append]
    exact ((body_heads b).append (body_heads e)).cons_cons _
  | .loop t b e => by
    simp only [Stmt.parts, List.flatMap_cons, List.flatMap_append, head, Stmt.locations, List.cons_append, List.nil_append]
    exact ((body_heads b).append (body_heads e)).cons_cons _
  | .each i t b e => by
    simp only [Stmt.parts, List.flatMap_cons, List.flatMap_append, head, Stmt.locations, List.cons_append, List.nil_append]
    exact (((body_heads b).append (body_heads e)).cons _).cons_cons _
  | .enter i is b => by
    simp only [Stmt.parts, List.flatMap_cons, head, Stmt.locations, List.cons_append, List.nil_append]
    exact ((body_heads b).trans (List.sublist_append_right _ _)).cons_cons _
  | .try_ f r hs e l => by
    simp only [Stmt.parts, List.flatMap_cons, List.flatMap_append, head, Stmt.locations, List.nil_append]
    exact (stmt_heads f).append ((body_heads r).append ((handlers_heads hs).append ((body_heads e).append (body_heads l))))
theorem body_heads : ∀ p : Body, (p.parts.flatMap head).Sublist p.locations
  | .nil => by simp [Body.parts, Body.locations]
  | .cons s rest => by
    simp only [Body.parts, List.flatMap_append, Body.locations]
    exact (stmt_heads s).append (body_heads rest)
theorem handlers_heads : ∀ hs : Handlers, (hs.parts.flatMap head).Sublist hs.locations
  | .nil => by simp [Handlers.parts, Handlers.locations]
  | .cons _ name b rest => by
    simp only [Handlers.parts, List.flatMap_append, Handlers.locations]
    exact ((body_heads b).append (handlers_heads rest)).trans (List.sublist_append_right _ _)
end

/-- No two statements have the same location. -/
theorem head_unique {p : Body} (hd : p.locations.Nodup) {a b : Stmt} (ha : a ∈ p.parts) (hb : b ∈ p.parts) (hne : a ≠ b) {l : Nat}
    (h1 : l ∈ head a) (h2 : l ∈ head b) : False := by
  have hn := List.nodup_flatMap.1 ((body_heads p).nodup hd)
  have hs : Std.Symm (Function.onFun List.Disjoint head) := ⟨fun x y h => List.disjoint_symm h⟩
  exact hn.2.forall ha hb hne h1 h2

mutual
theorem parts_stmt : ∀ s : Stmt, s ∈ s.parts
  | .simple l => by simp [Stmt.parts]
  | .jump j l => by simp [Stmt.parts]
  | .cond t b e => by simp [Stmt.parts]
  | .loop t b e => by simp [Stmt.parts]
  | .each i t b e => by simp [Stmt.parts]
  | .enter i is b => by simp [Stmt.parts]
  | .try_ f r hs e l => by simp [Stmt.parts]
end

theorem clause_parts : ∀ {hs : Handlers} {inner : Body}, inner ∈ Inside.clauses hs → ∀ s ∈ inner.parts, s ∈ hs.parts
  | .nil, _, h => nomatch h
  | .cons ex name b rest, inner, h => by
    intro s hs
    simp only [Handlers.parts, List.mem_append]
    rcases List.mem_cons.1 h with rfl | h
    · exact .inl hs
    · exact .inr (clause_parts h s hs)

theorem suite_parts {s : Stmt} {inner : Body} (hi : inner ∈ Inside.suites s) : ∀ x ∈ inner.parts, x ∈ s.parts := by
  intro x hx
  cases s with
  | simple l => cases hi
  | jump j l => cases hi
  | cond t b e =>
    simp only [Inside.suites, List.mem_cons, List.not_mem_nil, or_false] at hi
    simp only [Stmt.parts, List.mem_cons, List.mem_append]
    rcases hi with rfl | rfl <;> simp [hx]
  | loop t b e =>
    simp only [Inside.suites, List.mem_cons, List.not_mem_nil, or_false] at hi
    simp only [Stmt.parts, List.mem_cons, List.mem_append]
    rcases hi with rfl | rfl <;> simp [hx]
  | each i t b e =>
    simp only [Inside.suites, List.mem_cons, List.not_mem_nil, or_false] at hi
    simp only [Stmt.parts, List.mem_cons, List.mem_append]
    rcases hi with rfl | rfl <;> simp [hx]
  | enter i is b => cases hi
  | try_ f r hs e l =>
    simp only [Inside.suites, List.mem_cons] at hi
    simp only [Stmt.parts, List.mem_cons, List.mem_append]
    rcases hi with rfl | rfl | hi
    · simp only [Body.parts, List.mem_append] at hx
      rcases hx with hx | hx <;> simp [hx]
    · simp [hx]
    · simp [clause_parts hi x hx]

theorem append_parts : ∀ a b : Body, (Inside.append a b).parts = a.parts ++ b.parts
  | .nil, b => rfl
  | .cons s rest, b => by simp only [Inside.append, Body.parts, append_parts rest b, List.append_assoc]

theorem at_parts {b p : Body} {last f : Bool} (h : At b last p f) : ∀ x ∈ b.parts, x ∈ p.parts := by
  induction h with
  | here post => intro x hx; rw [append_parts]; exact List.mem_append_left _ hx
  | skip _ ih => intro x hx; exact List.mem_append_right _ (ih x hx)
  | within h1 _ _ ih => intro x hx; exact List.mem_append_left _ (suite_parts h1 x (ih x hx))
  | enter _ ih =>
    intro x hx
    refine List.mem_append_left _ ?_
    simp only [Stmt.parts]
    exact List.mem_cons_of_mem _ (ih x hx)

/-! ### The loop in the program -/

variable {L : Loop} {p : Body} {f : Bool}

theorem loop_part (h : At (.cons L.stmt .nil) true p f) : L.stmt ∈ p.parts :=
  at_parts h _ (by simp only [Body.parts, List.append_nil]; exact parts_stmt _)

/-- The test of a loop is no jump. -/
theorem test_stays (h : At (.cons L.stmt .nil) true p f) (hd : p.locations.Nodup) : leaves p L.test = false := by
  unfold leaves
  rw [← Bool.not_eq_true, List.contains_iff_mem]
  intro hm
  obtain ⟨s, h1, h2⟩ := List.mem_flatMap.1 hm
  have key : ∀ j l, s = .jump j l → l = L.test → False := by
    rintro j l rfl rfl
    exact head_unique hd h1 (loop_part h) (fun e => by cases e) (l := L.test) (by simp [head]) (by simp [head, Loop.stmt])
  cases s with
  | jump j l =>
    cases j with
    | brk => simp only [leaving, List.mem_singleton] at h2; exact key _ _ rfl h2.symm
    | ret => simp only [leaving, List.mem_singleton] at h2; exact key _ _ rfl h2.symm
    | cont => cases h2
    | raise _ => cases h2
  | _ => cases h2

theorem append_nil : ∀ a : Body, Inside.append a .nil = a
  | .nil => rfl
  | .cons s rest => by simp only [Inside.append, append_nil rest]

/-- The statements of the body are the last ones of their suite. -/
theorem body_at {b : Body} {last : Bool} (h : At b last p f) (hb : b = .cons L.stmt .nil) (hne : L.body.isNil = false) : At L.body last p true := by
  induction h with
  | here post =>
    subst hb
    have hw : At L.body true L.body true := by
      have := At.here (b := L.body) (last := true) .nil
      rw [append_nil] at this
      exact this
    exact .within (s := L.stmt) (by simp [Loop.stmt, Inside.suites]) hne hw
  | skip _ ih => exact .skip ih
  | within h1 h2 _ ih => exact .within h1 h2 ih
  | enter _ ih => exact .enter ih

/-- The block of the test has nothing else. -/
theorem test_block {g : Graph} (h : Inside.Ctx g (.cons L.stmt .nil) f) : ∃ b, g.locs b = [L.test] := by
  obtain ⟨bd, g0, c, ht, -, hk, -⟩ := h
  refine ⟨g0.count, ?_⟩
  have hc := ht.cur
  obtain ⟨h1, h2, h3, h4⟩ := Inside.loopHead_lay ht L.test
  have key := Inside.loop_lay (fun bd _ _ h => Inside.body_lay L.body bd h) (fun bd _ _ h => Inside.body_lay L.orelse bd h) bd g0.count (loopExits g0)
    h1.tidy (by omega) (by omega) (by rw [h4, if_neg (by omega)]; exact ht.fresh _ (by omega))
  have hv : visitBody (.cons L.stmt .nil) bd (g0, c) = Inside.loopRest L.body L.orelse bd g0.count (loopExits g0) (loopHead L.test (g0, c)) := by
    simp only [visitBody, Loop.stmt, visit, Inside.loopRest]
  obtain ⟨g', hg', k1, -⟩ := key
  rw [hv, hg'] at hk
  have hcnt : (loopHead L.test (g0, c)).1.count ≤ g'.count := k1.count
  have h5 := hk.same g0.count (.inr (Nat.le_refl _)) (show g0.count < g'.count by omega) (show g0.count ≠ g0.count + 1 by omega)
  have h6 := k1.frame g0.count (by omega) (by omega)
  rw [h4, if_pos rfl] at h6
  exact h5.trans h6

theorem place_at {g : Graph} {l : Nat} {x : Loc} (h : place g l = some x) : locAt g x = some l := by
  obtain ⟨b, -, h2⟩ := List.exists_of_findSome?_eq_some h
  split at h2
  · rename_i hm
    cases h2
    show (g.locs b)[(g.locs b).idxOf l]? = some l
    exact List.getElem?_idxOf hm
  · cases h2

/-! ### The traversal -/

theorem next_with {g : Graph} {b : Option Nat} {x y : Loc} (h : Next (ofFlow g) .successors x y) (hb : b ≠ some x.1) :
    Next (graphWith g b) .successors x y := by
  cases h with
  | @succ c q h =>
    refine .succ ?_
    show q + 1 < (g.locs c).length + _
    have : q + 1 < (g.locs c).length := h
    omega
  | @succEdge c q t h1 h2 h3 =>
    refine .succEdge ?_ h2 ?_
    · show q + 1 = (g.locs c).length + if b = some c then 1 else 0
      rw [if_neg hb]; exact h1
    · show 0 < (g.locs t).length + _
      have : 0 < (g.locs t).length := h3
      omega

theorem trail_with {g : Graph} {b : Option Nat} {x y : Loc} {mid : List Loc} (h : Trail (ofFlow g) x mid y) :
    b ≠ some x.1 → (∀ z ∈ mid, b ≠ some z.1) → Trail (graphWith g b) x mid y := by
  induction h with
  | one h => exact fun hx _ => .one (next_with h hx)
  | cons h _ ih => exact fun hx hm => .cons (next_with h hx) (ih (hm _ (by simp)) fun z hz => hm z (by simp [hz]))

/-- Every path is found to pass an event: then each execution from the first location of the body to the test does, unless it passes a
jump that leaves a loop. -/
theorem every_core {g : Graph} (hg : Sane g) (hd : g.all.Nodup) {at_ : List Nat} {outside : Bool} {tb : Nat} (htb : g.locs tb = [L.test])
    (hL : leaves p L.test = false) (hat : L.test ∉ at_) (h : L.EveryPath g p at_ outside true) {s : Stmt} {rest : Body}
    (hbody : L.body = .cons s rest) {path : List Nat} (hp : g.IsPath path) {t1 t2 t3 : List Nat}
    (htr : t1 ++ first s :: (t2 ++ L.test :: t3) <+: g.along path) (hleave : ∀ z ∈ first s :: t2, leaves p z = false)
    (hne : first s ≠ L.test) (hnext : followed L.test p = some true → ∃ path' u1 l u3, g.IsPath path' ∧ u1 ++ L.test :: ([] ++ l :: u3) <+: g.along path' ∧
      L.has l = false) : ∃ l ∈ first s :: t2, l ∈ at_ := by
  by_contra hno
  have hno : ∀ l ∈ first s :: t2, l ∉ at_ := fun l hl hm => hno ⟨l, hl, hm⟩
  -- up to the first time that the test is executed
  obtain ⟨m2, m3, hm, htr', hmt⟩ : ∃ m2 m3, (∀ z ∈ m2, z ∈ t2) ∧ t1 ++ first s :: (m2 ++ L.test :: m3) <+: g.along path ∧ L.test ∉ m2 := by
    by_cases ht : L.test ∈ t2
    · obtain ⟨a, b, h1, h2⟩ := List.eq_append_cons_of_mem ht
      exact ⟨a, b ++ L.test :: t3, fun z hz => by rw [h1]; simp [hz], by rw [h1] at htr; simpa using htr, h2⟩
    · exact ⟨t2, t3, fun _ h => h, htr, ht⟩
  obtain ⟨s', rest', x, y, locs, h1, h2, h3, h4, h5⟩ := h
  rw [hbody] at h1
  cases h1
  have hx := place_at h2
  have hy := place_at h3
  have htbl : locAt g (tb, 0) = some L.test := by show (g.locs tb)[0]? = _; rw [htb]; rfl
  have hyt := Traverse.locAt_unique hg hd hy htbl
  subst hyt
  obtain ⟨mid, ly, k1, k2, k3⟩ := Traverse.trail_of_path hg hd hp htr' hx
  have hly := Traverse.locAt_unique hg hd k3 htbl
  subst hly
  have apart : ∀ z : Loc, ∀ l, locAt g z = some l → l ≠ L.test → z.1 ≠ tb := by
    rintro ⟨b, i⟩ l hz hl rfl
    have hz : (g.locs b)[i]? = some l := hz
    rw [htb] at hz
    cases i with
    | zero => cases hz; exact hl rfl
    | succ i => cases hz
  have hmid : ∀ z ∈ mid, ∃ l ∈ m2, locAt g z = some l := by
    intro z hz
    have := List.mem_map_of_mem (f := locAt g) hz
    rw [k2] at this
    obtain ⟨l, hl, e⟩ := List.mem_map.1 this
    exact ⟨l, hl, e.symm⟩
  generalize hb : noneAt (followed L.test p) tb = nb at h4
  have hbs : nb = none ∨ nb = some tb := by
    rw [← hb]
    unfold noneAt
    split
    · exact .inl rfl
    · exact .inr rfl
  have hnb : ∀ {b : Nat}, b ≠ tb → nb ≠ some b := by
    intro b hne e
    rcases hbs with h | h
    · rw [h] at e; cases e
    · rw [h] at e; cases e; exact hne rfl
  have k1' : Trail (graphWith g nb) x mid (tb, 0) :=
    trail_with k1 (hnb (apart x _ hx hne)) (fun z hz => by
      obtain ⟨l, hl, hz⟩ := hmid z hz
      exact hnb (apart z l hz (fun e => hmt (e ▸ hl))))
  have hstop : ∀ z : Loc, ∀ l, locAt g z = some l → leaves p l = false → l ∉ at_ → stopOn g p at_ z = false := by
    intro z l hz h1 h2
    unfold stopOn
    rw [hz]
    simp [h1, h2]
  have hent : Entered (graphWith g nb) ⟨.successors, stopOn g p at_, true, true⟩ [x] (tb, 0) := by
    refine (Traverse.entered_succ rfl).2 (.inr ⟨fun _ => hstop x _ hx (hleave _ (by simp)) (hno _ (by simp)), mid, k1', fun z hz => ?_⟩)
    obtain ⟨l, hl, hz⟩ := hmid z hz
    exact hstop z l hz (hleave l (by simp [hm l hl])) (hno l (by simp [hm l hl]))
  have hstopt := hstop (tb, 0) _ htbl hL hat
  have hmem : ∀ z, Entered (graphWith g nb) ⟨.successors, stopOn g p at_, true, true⟩ [x] z → z ∈ locs := by
    intro z hz
    refine ((Traverse.C82_partial [x] (fun l hl => ?_) (.inl ⟨x, rfl⟩) locs h4).2 z).2 ⟨hz, .inl rfl⟩
    rw [List.mem_singleton.1 hl]
    have := Traverse.lt_of_get hx
    show _ < (g.locs _).length + _
    omega
  have hbad : ∀ z ∈ locs, L.bad g p outside z = false := by
    intro z hz
    have h6 : locs.any (L.bad g p outside) = false := by simpa using h5.symm
    simpa using List.any_eq_false.1 h6 z hz
  cases hf : followed L.test p with
  | none =>
    have hnbt : nb = some tb := by rw [← hb, hf]; rfl
    have hn : Next (graphWith g nb) .successors (tb, 0) (tb, 1) := .succ (by
      show 0 + 1 < (g.locs tb).length + if nb = some tb then 1 else 0
      rw [htb, hnbt, if_pos rfl]; simp)
    have := hbad _ (hmem _ (hent.next hstopt hn))
    unfold Loop.bad at this
    have e : locAt g (tb, 1) = none := by show (g.locs tb)[1]? = _; rw [htb]; rfl
    rw [e] at this
    cases this
  | some r =>
    cases r with
    | false =>
      have hnbt : nb = some tb := by rw [← hb, hf]; rfl
      have hn : Next (graphWith g nb) .successors (tb, 0) (tb, 1) := .succ (by
        show 0 + 1 < (g.locs tb).length + if nb = some tb then 1 else 0
        rw [htb, hnbt, if_pos rfl]; simp)
      have := hbad _ (hmem _ (hent.next hstopt hn))
      unfold Loop.bad at this
      have e : locAt g (tb, 1) = none := by show (g.locs tb)[1]? = _; rw [htb]; rfl
      rw [e] at this
      cases this
    | true =>
      have hnbt : nb = none := by rw [← hb, hf]; rfl
      obtain ⟨path', u1, l, u3, q1, q2, q3⟩ := hnext hf
      obtain ⟨mid', lz, r1, r2, r3⟩ := Traverse.trail_of_path hg hd q1 q2 htbl
      have : mid' = [] := by simpa using r2
      subst this
      cases r1 with
      | one r1 =>
        have hn : Next (graphWith g nb) .successors (tb, 0) lz := next_with r1 (by rw [hnbt]; exact fun h => nomatch h)
        have := hbad _ (hmem _ (hent.next hstopt hn))
        unfold Loop.bad at this
        rw [r3] at this
        simp [q3] at this

/-- If the value is used outside, the same of what leads to a jump that leaves the loop. -/
theorem leave_core {g : Graph} (hg : Sane g) (hd : g.all.Nodup) {at_ : List Nat} {tb : Nat} (htb : g.locs tb = [L.test])
    (h : L.EveryPath g p at_ true true) {s : Stmt} {rest : Body} (hbody : L.body = .cons s rest) {path : List Nat} (hp : g.IsPath path)
    {t1 m m' t3 : List Nat} {z : Nat} (htr : t1 ++ (m ++ z :: t3) <+: g.along path) (hm : m ++ [z] = first s :: m')
    (hleave : ∀ y ∈ m, leaves p y = false) (hz : leaves p z = true) (ht : L.test ∉ m) : ∃ l ∈ m, l ∈ at_ := by
  by_contra hno
  have hno : ∀ l ∈ m, l ∉ at_ := fun l hl hm => hno ⟨l, hl, hm⟩
  obtain ⟨s', rest', x, y, locs, h1, h2, h3, h4, h5⟩ := h
  rw [hbody] at h1
  cases h1
  have hx := place_at h2
  have hy := place_at h3
  have htbl : locAt g (tb, 0) = some L.test := by show (g.locs tb)[0]? = _; rw [htb]; rfl
  have hyt := Traverse.locAt_unique hg hd hy htbl
  subst hyt
  have apart : ∀ z : Loc, ∀ l, locAt g z = some l → l ≠ L.test → z.1 ≠ tb := by
    rintro ⟨b, i⟩ l hz hl rfl
    have hz : (g.locs b)[i]? = some l := hz
    rw [htb] at hz
    cases i with
    | zero => cases hz; exact hl rfl
    | succ i => cases hz
  generalize hb : noneAt (followed L.test p) tb = nb at h4
  have hnb : ∀ {b : Nat}, b ≠ tb → nb ≠ some b := by
    intro b hne e
    rw [← hb] at e
    unfold noneAt at e
    split at e
    · cases e
    · cases e; exact hne rfl
  have hmem : ∀ z, Entered (graphWith g nb) ⟨.successors, stopOn g p at_, true, true⟩ [x] z → z ∈ locs := by
    intro z hz
    refine ((Traverse.C82_partial [x] (fun l hl => ?_) (.inl ⟨x, rfl⟩) locs h4).2 z).2 ⟨hz, .inl rfl⟩
    rw [List.mem_singleton.1 hl]
    have := Traverse.lt_of_get hx
    show _ < (g.locs _).length + _
    omega
  have hgood : ∀ w ∈ locs, locAt g w ≠ some z := by
    intro w hw e
    have h6 : locs.any (L.bad g p true) = false := by simpa using h5.symm
    have h7 := List.any_eq_false.1 h6 w hw
    unfold Loop.bad at h7
    rw [e] at h7
    simp [hz] at h7
  cases m with
  | nil =>
    cases hm
    exact hgood x (hmem x ((Traverse.entered_succ rfl).2 (.inl ⟨rfl, rfl⟩))) hx
  | cons a m =>
    rw [List.cons_append] at hm
    injection hm with ha hm
    subst ha
    rw [List.cons_append] at htr
    obtain ⟨mid, ly, k1, k2, k3⟩ := Traverse.trail_of_path hg hd hp htr hx
    have hmid : ∀ z ∈ mid, ∃ l ∈ m, locAt g z = some l := by
      intro z hz
      have := List.mem_map_of_mem (f := locAt g) hz
      rw [k2] at this
      obtain ⟨l, hl, e⟩ := List.mem_map.1 this
      exact ⟨l, hl, e.symm⟩
    have k1' : Trail (graphWith g nb) x mid ly :=
      trail_with k1 (hnb (apart x _ hx (fun e => ht (by rw [← e]; simp)))) (fun z hz => by
        obtain ⟨l, hl, hz⟩ := hmid z hz
        exact hnb (apart z l hz (fun e => ht (by rw [← e]; simp [hl]))))
    have hstop : ∀ z : Loc, ∀ l, locAt g z = some l → leaves p l = false → l ∉ at_ → stopOn g p at_ z = false := by
      intro z l hz h1 h2
      unfold stopOn
      rw [hz]
      simp [h1, h2]
    refine hgood ly (hmem ly ((Traverse.entered_succ rfl).2 (.inr ⟨fun _ => hstop x _ hx (hleave _ (by simp)) (hno _ (by simp)), mid, k1', fun z hz => ?_⟩))) k3
    obtain ⟨l, hl, hz⟩ := hmid z hz
    exact hstop z l hz (hleave l (by simp [hl])) (hno l (by simp [hl]))

/-! ### What is not in a loop is executed at most once -/

/-- The location is executed at most this often. -/
def Few (l n : Nat) (A : Beh) : Prop := ∀ t o, A t o → t.count l ≤ n

theorem Few.mono {l n n' : Nat} {A : Beh} (h : Few l n A) (hn : n ≤ n') : Few l n' A := fun t o ha => Nat.le_trans (h t o ha) hn

theorem few_leaf (W : World) (l k : Nat) : Few l ([k].count l) (Leaf W k) := by
  rintro t o (_ | _ | _ | _)
  · exact Nat.le_refl _
  · exact Nat.le_refl _
  · exact Nat.zero_le _
  · exact Nat.le_refl _

theorem few_skip (l n : Nat) : Few l n Skip := by
  rintro t o (_ | _) <;> exact Nat.zero_le _

theorem few_seq {l a b : Nat} {A B : Beh} (hA : Few l a A) (hB : Few l b B) : Few l (a + b) (Seq A B) := by
  intro t o h
  cases h with
  | both h1 h2 => rw [List.count_append]; exact Nat.add_le_add (hA _ _ h1) (hB _ _ h2)
  | first h1 _ => exact Nat.le_trans (hA _ _ h1) (Nat.le_add_right _ _)

theorem few_alt {l a b : Nat} {A B : Beh} (hA : Few l a A) (hB : Few l b B) : Few l (a + b) (Alt A B) := by
  rintro t o (h | h)
  · exact Nat.le_trans (hA _ _ h) (Nat.le_add_right _ _)
  · exact Nat.le_trans (hB _ _ h) (Nat.le_add_left _ _)

theorem few_leaves (W : World) (l : Nat) : ∀ ls : List Nat, Few l (ls.count l) (Leaves W ls)
  | [] => few_skip _ _
  | k :: ls => by
    rw [show k :: ls = [k] ++ ls from rfl, List.count_append]
    exact few_seq (few_leaf W l k) (few_leaves W l ls)

theorem few_jump (l n : Nat) (j : Jump) : Few l n (JumpRun j) := by
  rintro t o (_ | _ | _ | _ | _) <;> exact Nat.zero_le _

theorem few_try {l a b c : Nat} {B E : Beh} {H : Str → Beh} (hB : Few l a B) (hH : ∀ x, Few l b (H x)) (hE : Few l c E) :
    Few l (a + (b + c)) (TryRun B H E) := by
  intro t o h
  cases h with
  | good h1 h2 =>
    rw [List.count_append]
    have := hB _ _ h1
    have := hE _ _ h2
    omega
  | caught h1 h2 =>
    rw [List.count_append]
    have := hB _ _ h1
    have := hH _ _ _ h2
    omega
  | leave h1 _ _ =>
    have := hB _ _ h1
    omega

theorem few_finally {l a b : Nat} {A B : Beh} (hA : Few l a A) (hB : Few l b B) : Few l (a + b) (FinallyRun A B) := by
  intro t o h
  cases h with
  | both h1 _ h2 => rw [List.count_append]; exact Nat.add_le_add (hA _ _ h1) (hB _ _ h2)
  | leave h1 _ h2 _ => rw [List.count_append]; exact Nat.add_le_add (hA _ _ h1) (hB _ _ h2)
  | cut h1 => exact Nat.le_trans (hA _ _ h1) (Nat.le_add_right _ _)

/-- What is not in a statement is not executed. -/
theorem few_none (W : World) {s : Stmt} {l : Nat} (n : Nat) (h : l ∉ s.locations) : Few l n (Run W s) := fun t o ht => by
  rw [List.count_eq_zero.2 fun hl => h (Inside.run_among W s t o ht l hl)]
  exact Nat.zero_le _

mutual
theorem stmt_once (W : World) (l : Nat) : ∀ s : Stmt, (∀ x ∈ s.parts, l ∉ loopLocs x) → Few l (s.locations.count l) (Run W s)
  | .simple k, _ => by
    simp only [Run, Stmt.locations]
    exact few_leaf W l k
  | .jump j k, _ => by
    simp only [Run, Stmt.locations]
    exact few_seq (few_leaf W l k) (few_jump l 0 j)
  | .cond t b e, h => by
    simp only [Run, Stmt.locations]
    rw [show t :: (b.locations ++ e.locations) = [t] ++ (b.locations ++ e.locations) from rfl, List.count_append, List.count_append]
    exact few_seq (few_leaf W l t) (few_alt (body_once W l b fun x hx => h x (by simp [Stmt.parts, hx]))
      (body_once W l e fun x hx => h x (by simp [Stmt.parts, hx])))
  | .loop t b e, h => few_none W _ (h _ (parts_stmt _))
  | .each i t b e, h => few_none W _ (h _ (parts_stmt _))
  | .enter i is b, h => by
    simp only [Run, Stmt.locations]
    rw [show i :: (is ++ b.locations) = [i] ++ (is ++ b.locations) from rfl, List.count_append, List.count_append]
    exact few_seq (few_leaf W l i) (few_seq (few_leaves W l is) (body_once W l b fun x hx => h x (by simp [Stmt.parts, hx])))
  | .try_ f r hs e fin, h => by
    simp only [Run, Stmt.locations]
    refine (few_finally (few_try (few_seq (stmt_once W l f fun x hx => h x (by simp [Stmt.parts, hx]))
      (body_once W l r fun x hx => h x (by simp [Stmt.parts, hx]))) (handlers_once W l hs fun x hx => h x (by simp [Stmt.parts, hx]))
      (body_once W l e fun x hx => h x (by simp [Stmt.parts, hx]))) (body_once W l fin fun x hx => h x (by simp [Stmt.parts, hx]))).mono ?_
    simp only [List.count_append]
    omega
theorem body_once (W : World) (l : Nat) : ∀ b : Body, (∀ x ∈ b.parts, l ∉ loopLocs x) → Few l (b.locations.count l) (RunBody W b)
  | .nil, _ => by
    simp only [RunBody]
    exact few_skip _ _
  | .cons s rest, h => by
    simp only [RunBody, Body.locations, List.count_append]
    exact few_seq (stmt_once W l s fun x hx => h x (by simp [Body.parts, hx])) (body_once W l rest fun x hx => h x (by simp [Body.parts, hx]))
theorem handlers_once (W : World) (l : Nat) : ∀ hs : Handlers, (∀ x ∈ hs.parts, l ∉ loopLocs x) → ∀ x, Few l (hs.locations.count l) (RunHandlers W hs x)
  | .nil, _, x => by
    simp only [RunHandlers]
    rintro t o ⟨rfl, _⟩
    exact Nat.zero_le _
  | .cons ex name b rest, h, x => by
    simp only [RunHandlers, Handlers.locations, List.count_append]
    rintro t o (⟨_, h'⟩ | ⟨_, h'⟩)
    · have := few_seq (few_leaves W l _) (body_once W l b fun x hx => h x (by simp [Handlers.parts, hx])) _ _ h'
      omega
    · have := handlers_once W l rest (fun x hx => h x (by simp [Handlers.parts, hx])) x _ _ h'
      omega
end

/-! ### Evaluation -/

/-- `event_on_every_path` with at most `n` steps. -/
def Loop.everyIn (L : Loop) (g : Graph) (p : Body) (at_ : List Nat) (outside : Bool) (n : Nat) : Bool :=
  match L.body, place g L.test with
  | .cons s _, some y =>
    match place g (first s) with
    | some x =>
      match Traverse.run (graphWith g (noneAt (followed L.test p) y.1)) ⟨.successors, stopOn g p at_, true, true⟩ n (Traverse.init [x]) with
      | .ok st => st.stack.isEmpty && st.todo.isEmpty && !(Traverse.locsOf .successors st.out).any (L.bad g p outside)
      | .error _ => false
    | none => false
  | _, _ => false

theorem everyIn_eq {g : Graph} {at_ : List Nat} {outside : Bool} {n : Nat} (h : L.everyIn g p at_ outside n = true) :
    L.EveryPath g p at_ outside true := by
  unfold Loop.everyIn at h
  split at h
  · rename_i s rest y h1 h2
    split at h
    · rename_i x h3
      split at h
      · rename_i st h4
        simp only [Bool.and_eq_true, List.isEmpty_iff] at h
        exact ⟨s, rest, x, y, _, h1, h3, h2, ⟨st.out, ⟨n, st, h4, h.1.1, h.1.2, rfl⟩, rfl⟩, h.2.symm⟩
      · cases h
    · cases h
  · cases h

/-- The loop is found to be reported with at most `n` steps of each traversal. -/
def Loop.checksIn (L : Loop) (g : Graph) (p : Body) (T : Test) (items : Nat → List Cfg.Item) (write : Nat → Write)
    (definitions : List (Cfg.Event × Cfg.Event)) (home : Nat → Nat) (n : Nat) : Bool :=
  T.ordered && !T.vars.isEmpty &&
    match Inside.insideIn g L.body n with
    | none => false
    | some locs =>
      match onlyVar (eventsIn g items T.vars locs), (eventsIn g items T.vars locs).mapM (fun e => changeValue (write e.2.node)) with
      | some v, .ok cs =>
        match reduced cs with
        | some c => (c == 1 || c == -1) && L.holds T definitions (eventsIn g items T.vars locs) v c true &&
          L.everyIn g p ((eventsIn g items T.vars locs).map (·.1)) (L.usedOutside definitions home (eventsIn g items T.vars locs)) n
        | none => false
      | _, _ => false

theorem checksIn_eq {g : Graph} {T : Test} {items : Nat → List Cfg.Item} {write : Nat → Write}
    {definitions : List (Cfg.Event × Cfg.Event)} {home : Nat → Nat} {n : Nat} (h : L.checksIn g p T items write definitions home n = true) :
    L.Checks g p T items write definitions home (.ok true) := by
  unfold Loop.checksIn at h
  rw [Bool.and_eq_true, Bool.and_eq_true] at h
  obtain ⟨⟨h1, h2⟩, h⟩ := h
  unfold Loop.Checks
  rw [if_pos ⟨h1, by intro e; rw [e] at h2; cases h2⟩]
  cases hi : Inside.insideIn g L.body n with
  | none => rw [hi] at h; cases h
  | some locs =>
    simp only [hi] at h
    refine ⟨locs, Inside.insideIn_eq hi, ?_⟩
    unfold Loop.Decides
    cases ho : onlyVar (eventsIn g items T.vars locs) with
    | none => simp only [ho] at h; cases h
    | some v =>
      cases hc : (eventsIn g items T.vars locs).mapM fun e => changeValue (write e.2.node) with
      | error x => simp only [ho, hc] at h; cases h
      | ok cs =>
        simp only [ho, hc] at h ⊢
        cases hr : reduced cs with
        | none => simp only [hr] at h; cases h
        | some c =>
          simp only [hr, Bool.and_eq_true, Bool.or_eq_true, beq_iff_eq] at h ⊢
          rw [if_pos h.1.1]
          exact ⟨true, everyIn_eq h.2, by rw [h.1.2]⟩

end Verif.UseFor

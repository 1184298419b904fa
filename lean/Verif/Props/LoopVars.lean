import Verif.Model.LoopVars
import Verif.Lemmas.UseFor
import Verif.Lemmas.SameVar
import Verif.Props.UseFor

/-!
**C111**: structures that are modified while they are iterated over.

Full statement: `modifying-iterated-structure` is reported for each call of a method that modifies the structure in an iteration that is
followed by another, and only for these.

**C112**: control variables that are changed.

Full statement: `changing-control-variable` is reported for an assignment to the control variable in the body of the loop if and only if
no execution reads the value, and it is not the target of another loop, for which `loop-shadows-control-variable` is reported.
-/

namespace Verif.LoopVars

open Verif.Flow
open Verif.Traverse (Loc locAt)
open Verif.Inside (At Inside modifying noWith)
open Verif.Cfg (Event EventType Item)
open Verif.Uses (File Gives usesOf mem_usesOf)
open Verif.UseFor (eventsIn mem_eventsIn loopLocs)
open Verif.Py (Expr rangeParams)

/-! ### Iterations that are left -/

mutual
/-- There is a `continue` of the loop that the statement is in. -/
def goesOn : Stmt → Bool
  | .simple _ => false
  | .jump j _ => j == .cont
  | .cond _ b e => goingOn b || goingOn e
  | .loop _ _ e => goingOn e
  | .each _ _ _ e => goingOn e
  | .enter _ _ b => goingOn b
  | .try_ f r hs e fin => goesOn f || goingOn r || goingOnIn hs || goingOn e || goingOn fin
/-- The same for statements in turn. -/
def goingOn : Body → Bool
  | .nil => false
  | .cons s rest => goesOn s || goingOn rest
/-- The same for clauses. -/
def goingOnIn : Handlers → Bool
  | .nil => false
  | .cons _ _ b rest => goingOn b || goingOnIn rest
end

/-- Nothing that is executed ends with `continue`. -/
def Stays (A : Beh) : Prop := ∀ t o, A t o → o ≠ .cont

theorem leaf_stays {W : World} {l : Nat} : Stays (Leaf W l) := by rintro t o (_ | _ | _ | _) <;> simp

theorem skip_stays : Stays Skip := by rintro t o (_ | _) <;> simp

theorem seq_stays {A B : Beh} (hA : Stays A) (hB : Stays B) : Stays (Seq A B) := by
  intro t o h
  cases h with
  | both _ h2 => exact hB _ _ h2
  | first h1 _ => exact hA _ _ h1

theorem alt_stays {A B : Beh} (hA : Stays A) (hB : Stays B) : Stays (Alt A B) := by
  rintro t o (h | h)
  · exact hA _ _ h
  · exact hB _ _ h

theorem leaves_stays {W : World} : ∀ {ls : List Nat}, Stays (Leaves W ls)
  | [] => skip_stays
  | _ :: _ => seq_stays leaf_stays leaves_stays

theorem loop_stays {H D B E : Beh} (hH : Stays H) (hD : Stays D) (hE : Stays E) : Stays (LoopRun H D B E) := by
  intro t o h
  induction h with
  | done h => exact seq_stays hD hE _ _ h
  | head h _ => exact hH _ _ h
  | next _ _ _ _ ih => exact ih
  | brk _ _ => exact fun h => nomatch h
  | leave _ _ _ h _ => exact h

theorem try_stays {B E : Beh} {H : Str → Beh} (hB : Stays B) (hH : ∀ x, Stays (H x)) (hE : Stays E) : Stays (TryRun B H E) := by
  intro t o h
  cases h with
  | good _ h2 => exact hE _ _ h2
  | caught _ h2 => exact hH _ _ _ h2
  | leave h1 _ _ => exact hB _ _ h1

theorem finally_stays {A B : Beh} (hA : Stays A) (hB : Stays B) : Stays (FinallyRun A B) := by
  intro t o h
  cases h with
  | both h1 _ _ => exact hA _ _ h1
  | leave _ _ h2 _ => exact hB _ _ h2
  | cut _ => exact fun h => nomatch h

mutual
theorem stmt_stays (W : World) : ∀ s : Stmt, goesOn s = false → Stays (Run W s)
  | .simple l, _ => by simp only [Run]; exact leaf_stays
  | .jump j l, h => by
    simp only [Run]
    refine seq_stays leaf_stays ?_
    rintro t o (_ | _ | _ | _ | _)
    · exact fun h => nomatch h
    · exact absurd h (by simp [goesOn])
    · exact fun h => nomatch h
    · exact fun h => nomatch h
    · exact fun h => nomatch h
  | .cond t b e, h => by
    simp only [goesOn, Bool.or_eq_false_iff] at h
    simp only [Run]
    exact seq_stays leaf_stays (alt_stays (body_stays W b h.1) (body_stays W e h.2))
  | .loop t b e, h => by
    simp only [goesOn] at h
    simp only [Run]
    exact loop_stays leaf_stays leaf_stays (body_stays W e h)
  | .each i t b e, h => by
    simp only [goesOn] at h
    simp only [Run]
    refine seq_stays leaf_stays (loop_stays leaf_stays ?_ (body_stays W e h))
    split
    · exact leaf_stays
    · exact skip_stays
  | .enter i is b, h => by
    simp only [goesOn] at h
    simp only [Run]
    exact seq_stays leaf_stays (seq_stays leaves_stays (body_stays W b h))
  | .try_ f r hs e fin, h => by
    simp only [goesOn, Bool.or_eq_false_iff] at h
    simp only [Run]
    exact finally_stays (try_stays (seq_stays (stmt_stays W f h.1.1.1.1) (body_stays W r h.1.1.1.2)) (handlers_stays W hs h.1.1.2)
      (body_stays W e h.1.2)) (body_stays W fin h.2)
theorem body_stays (W : World) : ∀ b : Body, goingOn b = false → Stays (RunBody W b)
  | .nil, _ => by simp only [RunBody]; exact skip_stays
  | .cons s rest, h => by
    simp only [goingOn, Bool.or_eq_false_iff] at h
    simp only [RunBody]
    exact seq_stays (stmt_stays W s h.1) (body_stays W rest h.2)
theorem handlers_stays (W : World) : ∀ hs : Handlers, goingOnIn hs = false → ∀ x, Stays (RunHandlers W hs x)
  | .nil, _, x => by
    simp only [RunHandlers]
    rintro t o ⟨_, rfl | rfl⟩ <;> exact fun h => nomatch h
  | .cons ex name b rest, h, x => by
    simp only [goingOnIn, Bool.or_eq_false_iff] at h
    simp only [RunHandlers]
    rintro t o (⟨_, h'⟩ | ⟨_, h'⟩)
    · exact seq_stays leaves_stays (body_stays W b h.1) _ _ h'
    · exact handlers_stays W rest h.2 x _ _ h'
end

/-- What ends with `break` or `return` does not get to its end. -/
theorem quitting_left (W : World) : ∀ {b : Body} {t : List Nat} {o : Out}, quitting b = true → RunBody W b t o → o ≠ .normal
  | .nil, _, _, h, _ => nomatch h
  | .cons s .nil, t, o, h, hr => by
    simp only [RunBody] at hr
    have hs : ∀ t, ¬ Run W s t .normal := by
      intro t hn
      unfold quitting quits at h
      split at h
      · simp only [Run] at hn
        cases hn with
        | both _ h2 => cases h2
        | first _ h2 => exact h2 rfl
      · simp only [Run] at hn
        cases hn with
        | both _ h2 => cases h2
        | first _ h2 => exact h2 rfl
      · cases h
    cases hr with
    | both h1 _ => exact absurd h1 (hs _)
    | first _ h2 => exact h2
  | .cons s (.cons s' rest), t, o, h, hr => by
    rw [RunBody] at hr
    cases hr with
    | both _ h2 => exact quitting_left W (b := .cons s' rest) h h2
    | first _ h2 => exact h2

mutual
theorem stmt_left (W : World) (l : Nat) : ∀ s : Stmt, s.noTry = true → s.locations.Nodup → (∀ x ∈ s.parts, l ∉ loopLocs x) →
    endsStmt l false s = some true → ∀ t o, Run W s t o → l ∈ t → o ≠ .normal
  | .simple k, _, _, _, h, _, _, _, _ => by
    simp only [endsStmt] at h; split at h <;> cases h
  | .jump _ k, _, _, _, h, _, _, _, _ => by
    simp only [endsStmt] at h; split at h <;> cases h
  | .cond k b e, hn, hd, hp, h, t, o, hr, hl => by
    simp only [endsStmt] at h
    split at h
    · cases h
    · rename_i hk
      simp only [Stmt.noTry, Bool.and_eq_true] at hn
      simp only [Stmt.locations] at hd
      obtain ⟨hd1, hd2⟩ := List.nodup_cons.1 hd
      obtain ⟨hd3, hd4, hd5⟩ := List.nodup_append.1 hd2
      have hpb : ∀ x ∈ b.parts, l ∉ loopLocs x := fun x hx => hp x (by simp [Stmt.parts, hx])
      have hpe : ∀ x ∈ e.parts, l ∉ loopLocs x := fun x hx => hp x (by simp [Stmt.parts, hx])
      simp only [Run] at hr
      cases hr with
      | first _ h2 => exact h2
      | @both t1 t2 _ h1 h2 =>
        have hl2 : l ∈ t2 := by
          rcases List.mem_append.1 hl with hl | hl
          · cases h1
            exact absurd (List.mem_singleton.1 hl).symm hk
          · exact hl
        cases h2 with
        | left h2 =>
          have hlb := Inside.body_among W b _ _ h2 l hl2
          have he : endsBody l (quitting e) e = none := body_none l _ e (fun hm => hd5 l hlb l hm rfl)
          rw [he, Option.or_none] at h
          exact body_left W l b hn.1 hd3 hpb h _ _ h2 hl2
        | right h2 =>
          have hlb := Inside.body_among W e _ _ h2 l hl2
          have he : endsBody l (quitting b) b = none := body_none l _ b (fun hm => hd5 l hm l hlb rfl)
          rw [he, Option.none_or] at h
          exact body_left W l e hn.2 hd4 hpe h _ _ h2 hl2
  | .loop k b e, _, _, hp, _, t, o, hr, hl => absurd (Inside.run_among W _ _ _ hr l hl) (hp _ (UseFor.parts_stmt _))
  | .each i k b e, _, _, hp, _, t, o, hr, hl => absurd (Inside.run_among W _ _ _ hr l hl) (hp _ (UseFor.parts_stmt _))
  | .enter i is b, hn, hd, hp, h, t, o, hr, hl => by
    simp only [endsStmt] at h
    split at h
    · cases h
    · rename_i hk
      simp only [Stmt.noTry] at hn
      simp only [Stmt.locations] at hd
      have hdb := (List.nodup_append.1 (List.nodup_cons.1 hd).2).2.1
      have hpb : ∀ x ∈ b.parts, l ∉ loopLocs x := fun x hx => hp x (by simp [Stmt.parts, hx])
      simp only [Run] at hr
      cases hr with
      | first _ h2 => exact h2
      | @both t1 t2 _ h1 h2 =>
        cases h2 with
        | first _ h2 => exact h2
        | @both t3 t4 _ h3 h4 =>
          refine body_left W l b hn hdb hpb h _ _ h4 ?_
          rcases List.mem_append.1 hl with hl | hl
          · cases h1
            exact absurd (.inl (List.mem_singleton.1 hl).symm) hk
          · rcases List.mem_append.1 hl with hl | hl
            · have := Inside.leaves_has (P := Inside.Among is) (Inside.among_closed _) (fun l hl => Inside.among_one hl) _ _ h3 l hl
              exact absurd (.inr this) hk
            · exact hl
  | .try_ _ _ _ _ _, hn, _, _, _, _, _, _, _ => nomatch hn
theorem block_left (W : World) (l : Nat) : ∀ b : Body, b.noTry = true → b.locations.Nodup → (∀ x ∈ b.parts, l ∉ loopLocs x) →
    endsBody l false b = some true → ∀ t o, RunBody W b t o → l ∈ t → o ≠ .normal
  | .nil, _, _, _, h, _, _, _, _ => nomatch h
  | .cons s rest, hn, hd, hp, h, t, o, hr, hl => by
    simp only [Body.noTry, Bool.and_eq_true] at hn
    simp only [Body.locations] at hd
    obtain ⟨hd1, hd2, hd3⟩ := List.nodup_append.1 hd
    have hps : ∀ x ∈ s.parts, l ∉ loopLocs x := fun x hx => hp x (by simp [Body.parts, hx])
    have hpr : ∀ x ∈ rest.parts, l ∉ loopLocs x := fun x hx => hp x (by simp [Body.parts, hx])
    simp only [endsBody] at h
    simp only [RunBody] at hr
    cases hr with
    | first _ h2 => exact h2
    | @both t1 t2 _ h1 h2 =>
      rcases List.mem_append.1 hl with hl | hl
      · have hls := Inside.run_among W s _ _ h1 l hl
        have he : endsBody l false rest = none := body_none l _ rest (fun hm => hd3 l hls l hm rfl)
        rw [he, Option.or_none] at h
        exact absurd rfl (stmt_left W l s hn.1 hd1 hps h _ _ h1 hl)
      · have hlr := Inside.body_among W rest _ _ h2 l hl
        have he : endsStmt l false s = none := stmt_none l _ s (fun hm => hd3 l hm l hlr rfl)
        rw [he, Option.none_or] at h
        exact block_left W l rest hn.2 hd2 hpr h _ _ h2 hl
theorem body_left (W : World) (l : Nat) : ∀ b : Body, b.noTry = true → b.locations.Nodup → (∀ x ∈ b.parts, l ∉ loopLocs x) →
    endsBody l (quitting b) b = some true → ∀ t o, RunBody W b t o → l ∈ t → o ≠ .normal := fun b hn hd hp h t o hr hl => by
  cases hq : quitting b with
  | true => exact quitting_left W hq hr
  | false =>
    rw [hq] at h
    exact block_left W l b hn hd hp h t o hr hl
theorem stmt_none (l : Nat) : ∀ (last : Bool) (s : Stmt), l ∉ s.locations → endsStmt l last s = none
  | last, .simple k, h => by
    simp only [Stmt.locations, List.mem_singleton] at h
    simp only [endsStmt]
    rw [if_neg (fun e => h e.symm)]
  | last, .jump _ k, h => by
    simp only [Stmt.locations, List.mem_singleton] at h
    simp only [endsStmt]
    rw [if_neg (fun e => h e.symm)]
  | last, .cond t b e, h => by
    simp only [Stmt.locations, List.mem_cons, List.mem_append, not_or] at h
    simp only [endsStmt]
    rw [if_neg (fun e => h.1 e.symm), body_none l _ b h.2.1, body_none l _ e h.2.2]; rfl
  | last, .loop t b e, h => by
    simp only [Stmt.locations, List.mem_cons, List.mem_append, not_or] at h
    simp only [endsStmt]
    rw [if_neg (fun e => h.1 e.symm), body_none l _ b h.2.1, body_none l _ e h.2.2]; rfl
  | last, .each i t b e, h => by
    simp only [Stmt.locations, List.mem_cons, List.mem_append, not_or] at h
    simp only [endsStmt]
    rw [if_neg (fun e => e.elim (fun e => h.1 e.symm) (fun e => h.2.1 e.symm)), body_none l _ b h.2.2.1, body_none l _ e h.2.2.2]; rfl
  | last, .enter i is b, h => by
    simp only [Stmt.locations, List.mem_cons, List.mem_append, not_or] at h
    simp only [endsStmt]
    rw [if_neg (fun e => e.elim (fun e => h.1 e.symm) (fun e => h.2.1 e)), body_none l _ b h.2.2]
  | last, .try_ f r hs e fin, h => by
    simp only [Stmt.locations, List.mem_append, not_or] at h
    simp only [endsStmt]
    rw [stmt_none l _ f (by simp [h]), body_none l _ r (by simp [h]), handlers_none l hs (by simp [h]), body_none l _ e (by simp [h]),
      body_none l _ fin (by simp [h])]
    rfl
theorem body_none (l : Nat) : ∀ (last : Bool) (b : Body), l ∉ b.locations → endsBody l last b = none
  | _, .nil, _ => rfl
  | last, .cons s rest, h => by
    simp only [Body.locations, List.mem_append, not_or] at h
    simp only [endsBody]
    rw [stmt_none l _ s h.1, body_none l _ rest h.2]; rfl
theorem handlers_none (l : Nat) : ∀ hs : Handlers, l ∉ hs.locations → endsIn l hs = none
  | .nil, _ => rfl
  | .cons ex name b rest, h => by
    simp only [Handlers.locations, List.mem_append, not_or] at h
    simp only [endsIn]
    rw [if_neg (fun e => h.1 (by rw [e]; simp)), body_none l _ b (by simp [h]), handlers_none l rest (by simp [h])]; rfl
end

/-! ### Structures -/

theorem modified_iff {b : Body} {direct : Nat → Bool} {l : Nat} {e : Event} : ∀ {es : List (Nat × Event)},
    (∀ x ∈ es, ¬ ((x.2.type = .assign ∨ x.2.type = .reassign) ∧ top b x.1 = true)) →
    ((l, e) ∈ modified b direct es ↔ (l, e) ∈ es ∧ e.type = .modify ∧ direct e.node = true ∧ ends b l = false)
  | [], _ => by simp [modified]
  | (l', e') :: es, h => by
    unfold modified
    rw [if_neg (h (l', e') (by simp))]
    have ih := modified_iff (direct := direct) (l := l) (e := e) (es := es) fun x hx => h x (by simp [hx])
    split
    · rename_i hc
      rw [List.mem_cons, ih, List.mem_cons]
      constructor
      · rintro (h | ⟨h, h'⟩)
        · cases h; exact ⟨.inl rfl, hc⟩
        · exact ⟨.inr h, h'⟩
      · rintro ⟨h | h, h'⟩
        · exact .inl h
        · exact .inr ⟨h, h'⟩
    · rename_i hc
      rw [ih, List.mem_cons]
      constructor
      · rintro ⟨h, h'⟩
        exact ⟨.inr h, h'⟩
      · rintro ⟨h | h, h'⟩
        · cases h; exact absurd h' hc
        · exact ⟨h, h'⟩

theorem modified_sound {b : Body} {direct : Nat → Bool} {x : Nat × Event} : ∀ {es : List (Nat × Event)}, x ∈ modified b direct es →
    x ∈ es ∧ x.2.type = .modify ∧ direct x.2.node = true ∧ ends b x.1 = false
  | [], h => nomatch h
  | (l, e) :: es, h => by
    unfold modified at h
    split at h
    · cases h
    · split at h
      · rename_i hc
        rcases List.mem_cons.1 h with rfl | h
        · exact ⟨by simp, hc⟩
        · exact ⟨by simp [(modified_sound h).1], (modified_sound h).2⟩
      · exact ⟨by simp [(modified_sound h).1], (modified_sound h).2⟩

/-- The locations of a statement itself, without what is in its blocks. -/
def heads : Stmt → List Nat
  | .simple l => [l]
  | .jump _ l => [l]
  | .cond t _ _ => [t]
  | .loop t _ _ => [t]
  | .each i t _ _ => [i, t]
  | .enter i is _ => i :: is
  | .try_ .. => []

/-- The bodies of the clauses of a `try`. -/
def clauses : Handlers → List Body
  | .nil => []
  | .cons _ _ b rest => b :: clauses rest

/-- The names of the clauses. -/
def clauseNames : Handlers → List Nat
  | .nil => []
  | .cons _ name _ rest => name.toList ++ clauseNames rest

/-- The blocks of a statement. -/
def blocksOf : Stmt → List Body
  | .simple _ => []
  | .jump _ _ => []
  | .cond _ b e => [b, e]
  | .loop _ b e => [b, e]
  | .each _ _ b e => [b, e]
  | .enter _ _ b => [b]
  | .try_ f r hs e fin => .cons f r :: e :: fin :: clauses hs

/-- `c` is the block `b` or one of the blocks in it. -/
inductive Block (c : Body) : Body → Prop
  | self : Block c c
  | inner {s : Stmt} {b d : Body} : s ∈ Inside.stmts b → d ∈ blocksOf s → Block c d → Block c b

/-- The location is one of a statement of this block, rather than of one within. -/
def Direct (c : Body) (l : Nat) : Prop := ∃ s ∈ Inside.stmts c, l ∈ heads s

/-- The location is the name of a clause of a `try` in the block. -/
def Named (b : Body) (l : Nat) : Prop := ∃ c, Block c b ∧ ∃ f r hs e fin, .try_ f r hs e fin ∈ Inside.stmts c ∧ l ∈ clauseNames hs

/-- What was found about the location in a block. -/
def Found (l : Nat) (last : Bool) (b : Body) (x : Bool) : Prop :=
  (Direct b l ∧ x = last) ∨ (∃ s ∈ Inside.stmts b, ∃ d ∈ blocksOf s, ∃ c, Block c d ∧ Direct c l ∧ x = quitting c) ∨ Named b l

theorem Found.child {l : Nat} {b d : Body} {x last : Bool} {s : Stmt} (hs : s ∈ Inside.stmts b) (hd : d ∈ blocksOf s)
    (h : Found l (quitting d) d x) : Found l last b x := by
  rcases h with ⟨h1, h2⟩ | ⟨s', h1, d', h2, c, h3, h4, h5⟩ | ⟨c, h1, h2⟩
  · exact .inr (.inl ⟨s, hs, d, hd, d, .self, h1, h2⟩)
  · exact .inr (.inl ⟨s, hs, d, hd, c, .inner h1 h2 h3, h4, h5⟩)
  · exact .inr (.inr ⟨c, .inner hs hd h1, h2⟩)

theorem orElse_some {α : Type} {a b : Option α} {x : α} (h : a.or b = some x) : a = some x ∨ b = some x := by
  cases a with
  | none => exact .inr h
  | some y => exact .inl h

mutual
theorem stmt_found {l : Nat} {last x : Bool} {b : Body} : ∀ (s : Stmt), s ∈ Inside.stmts b → endsStmt l last s = some x → Found l last b x
  | .simple k, hs, h => by
    simp only [endsStmt] at h
    split at h
    · rename_i hk; cases h; exact .inl ⟨⟨_, hs, by simp [heads, hk]⟩, rfl⟩
    · cases h
  | .jump _ k, hs, h => by
    simp only [endsStmt] at h
    split at h
    · rename_i hk; cases h; exact .inl ⟨⟨_, hs, by simp [heads, hk]⟩, rfl⟩
    · cases h
  | .cond t c e, hs, h => by
    simp only [endsStmt] at h
    split at h
    · rename_i hk; cases h; exact .inl ⟨⟨_, hs, by simp [heads, hk]⟩, rfl⟩
    · rcases orElse_some h with h | h
      · exact (rest_found (b := c) c (fun _ h => h) h).child hs (by simp [blocksOf])
      · exact (rest_found (b := e) e (fun _ h => h) h).child hs (by simp [blocksOf])
  | .loop t c e, hs, h => by
    simp only [endsStmt] at h
    split at h
    · rename_i hk; cases h; exact .inl ⟨⟨_, hs, by simp [heads, hk]⟩, rfl⟩
    · rcases orElse_some h with h | h
      · exact (rest_found (b := c) c (fun _ h => h) h).child hs (by simp [blocksOf])
      · exact (rest_found (b := e) e (fun _ h => h) h).child hs (by simp [blocksOf])
  | .each i t c e, hs, h => by
    simp only [endsStmt] at h
    split at h
    · rename_i hk; cases h; exact .inl ⟨⟨_, hs, by rcases hk with rfl | rfl <;> simp [heads]⟩, rfl⟩
    · rcases orElse_some h with h | h
      · exact (rest_found (b := c) c (fun _ h => h) h).child hs (by simp [blocksOf])
      · exact (rest_found (b := e) e (fun _ h => h) h).child hs (by simp [blocksOf])
  | .enter i is c, hs, h => by
    simp only [endsStmt] at h
    split at h
    · rename_i hk; cases h; exact .inl ⟨⟨_, hs, by rcases hk with rfl | hk <;> simp [heads, *]⟩, rfl⟩
    · exact (rest_found (b := c) c (fun _ h => h) h).child hs (by simp [blocksOf])
  | .try_ f r hs' e fin, hs, h => by
    simp only [endsStmt] at h
    rcases orElse_some h with h | h
    · exact (stmt_found (b := .cons f r) f (by simp [Inside.stmts]) h).child hs (by simp [blocksOf])
    rcases orElse_some h with h | h
    · exact (rest_found (b := .cons f r) r (fun s hs => by simp [Inside.stmts, hs]) h).child hs (by simp [blocksOf])
    rcases orElse_some h with h | h
    · exact handlers_found (hs := hs') hs (fun d hd => by simp [blocksOf, hd]) (fun k hk => .inr (.inr ⟨b, .self, f, r, hs', e, fin, hs, hk⟩)) hs' (fun _ h => h)
        (fun _ h => h) h
    rcases orElse_some h with h | h
    · exact (rest_found (b := e) e (fun _ h => h) h).child hs (by simp [blocksOf])
    · exact (rest_found (b := fin) fin (fun _ h => h) h).child hs (by simp [blocksOf])
termination_by structural s => s
theorem rest_found {l : Nat} {last x : Bool} {b : Body} : ∀ (r : Body), (∀ s ∈ Inside.stmts r, s ∈ Inside.stmts b) → endsBody l last r = some x → Found l last b x
  | .nil, _, h => by simp [endsBody] at h
  | .cons s rest, hsub, h => by
    simp only [endsBody] at h
    rcases orElse_some h with h | h
    · exact stmt_found s (hsub s (by simp [Inside.stmts])) h
    · exact rest_found rest (fun s hs => hsub s (by simp [Inside.stmts, hs])) h
termination_by structural r => r
theorem handlers_found {l : Nat} {last x : Bool} {b : Body} {s : Stmt} {hs : Handlers} (hsb : s ∈ Inside.stmts b)
    (hcl : ∀ d ∈ clauses hs, d ∈ blocksOf s) (hname : ∀ l ∈ clauseNames hs, Found l last b x) :
    ∀ (r : Handlers), (∀ d ∈ clauses r, d ∈ clauses hs) → (∀ k ∈ clauseNames r, k ∈ clauseNames hs) → endsIn l r = some x → Found l last b x
  | .nil, _, _, h => by simp [endsIn] at h
  | .cons _ name c rest, h1, h2, h => by
    simp only [endsIn] at h
    split at h
    · rename_i hn
      exact hname l (h2 l (by simp [clauseNames, hn]))
    · rcases orElse_some h with h | h
      · exact (rest_found (b := c) c (fun _ h => h) h).child hsb (hcl c (h1 c (by simp [clauses])))
      · exact handlers_found hsb hcl hname rest (fun d hd => h1 d (by simp [clauses, hd])) (fun k hk => h2 k (by simp [clauseNames, hk])) h
termination_by structural r => r
end

mutual
theorem stmt_ends {l : Nat} (last : Bool) : ∀ (s : Stmt), l ∈ s.locations → endsStmt l last s ≠ none
  | .simple k, h => by simp_all [endsStmt, Stmt.locations]
  | .jump _ k, h => by simp_all [endsStmt, Stmt.locations]
  | .cond t c e, h => by
    simp only [Stmt.locations, List.mem_cons, List.mem_append] at h
    simp only [endsStmt]
    split
    · simp
    · rcases h with h | h | h
      · rename_i hn; exact absurd h.symm hn
      · simp [body_ends (quitting c) c h]
      · simp [body_ends (quitting e) e h]
  | .loop t c e, h => by
    simp only [Stmt.locations, List.mem_cons, List.mem_append] at h
    simp only [endsStmt]
    split
    · simp
    · rcases h with h | h | h
      · rename_i hn; exact absurd h.symm hn
      · simp [body_ends (quitting c) c h]
      · simp [body_ends (quitting e) e h]
  | .each i t c e, h => by
    simp only [Stmt.locations, List.mem_cons, List.mem_append] at h
    simp only [endsStmt]
    split
    · simp
    · rename_i hn
      rcases h with h | h | h | h
      · exact absurd (.inl h.symm) hn
      · exact absurd (.inr h.symm) hn
      · simp [body_ends (quitting c) c h]
      · simp [body_ends (quitting e) e h]
  | .enter i is c, h => by
    simp only [Stmt.locations, List.mem_cons, List.mem_append] at h
    simp only [endsStmt]
    split
    · simp
    · rename_i hn
      rcases h with h | h | h
      · exact absurd (.inl h.symm) hn
      · exact absurd (.inr h) hn
      · exact body_ends (quitting c) c h
  | .try_ f r hs e fin, h => by
    simp only [Stmt.locations, List.mem_append] at h
    simp only [endsStmt]
    rcases h with h | h | h | h | h
    · simp [stmt_ends (quitting (.cons f r)) f h]
    · simp [body_ends (quitting (.cons f r)) r h]
    · simp [handlers_end hs h]
    · simp [body_ends (quitting e) e h]
    · simp [body_ends (quitting fin) fin h]
theorem body_ends {l : Nat} (last : Bool) : ∀ (b : Body), l ∈ b.locations → endsBody l last b ≠ none
  | .nil, h => by simp [Body.locations] at h
  | .cons s rest, h => by
    simp only [Body.locations, List.mem_append] at h
    simp only [endsBody]
    rcases h with h | h
    · simp [stmt_ends last s h]
    · simp [body_ends last rest h]
theorem handlers_end {l : Nat} : ∀ (hs : Handlers), l ∈ hs.locations → endsIn l hs ≠ none
  | .nil, h => by simp [Handlers.locations] at h
  | .cons _ name b rest, h => by
    simp only [Handlers.locations, List.mem_append] at h
    simp only [endsIn]
    split
    · simp
    · rename_i hn
      rcases h with h | h | h
      · exact absurd (by simpa using h) hn
      · simp [body_ends (quitting b) b h]
      · simp [handlers_end rest h]
end

/-- The block ends with `break` or `return`. -/
def EndsLeaving (c : Body) : Prop := ∃ j l, (Inside.stmts c).getLast? = some (.jump j l) ∧ (j = .brk ∨ j = .ret)

theorem not_leaving : ∀ {c : Body}, quitting c = false → ¬ EndsLeaving c
  | .nil, _, ⟨_, _, h, _⟩ => by simp [Inside.stmts] at h
  | .cons s .nil, hq, ⟨j, l, h, hj⟩ => by
    simp only [Inside.stmts, List.getLast?_singleton, Option.some.injEq] at h
    subst h
    rcases hj with rfl | rfl <;> simp [quitting, quits] at hq
  | .cons s (.cons s' r), hq, ⟨j, l, h, hj⟩ =>
    not_leaving (c := .cons s' r) (by simpa [quitting] using hq) ⟨j, l, by simpa [Inside.stmts] using h, hj⟩

theorem ends_found {b : Body} {l : Nat} (hl : l ∈ b.locations) (h : ends b l = false) :
    (∃ c, Block c b ∧ Direct c l ∧ ¬ EndsLeaving c) ∨ Named b l := by
  cases hx : endsBody l (quitting b) b with
  | none => exact absurd hx (body_ends _ b hl)
  | some x =>
    have hf : x = false := by simpa [ends, hx] using h
    rcases rest_found b (fun _ h => h) hx with ⟨h1, h2⟩ | ⟨s, h1, d, h2, c, h3, h4, h5⟩ | h
    · exact .inl ⟨b, .self, h1, not_leaving (h2 ▸ hf)⟩
    · exact .inl ⟨c, .inner h1 h2 h3, h4, not_leaving (h5 ▸ hf)⟩
    · exact .inr h

/-- **C111**, what is reported: it is in the body, modifies the variable by a method, and its block does not end with `break` or
`return`; the name of a clause of a `try` is in no block. -/
theorem C111_reported_partial (p b : Body) (f : Bool) (hat : At b true p f) (hfin : p.noFinally = true) (hd : p.locations.Nodup)
    (items : Nat → List Item) (direct : Nat → Bool) (v : Nat) (r : List (Nat × Event)) (h : Modifying (moduleGraph p) items direct (some v) b r)
    (l : Nat) (e : Event) (he : (l, e) ∈ r) :
    l ∈ b.locations ∧ .own e ∈ items l ∧ e.var = v ∧ e.type = .modify ∧ direct e.node = true ∧
      ((∃ c, Block c b ∧ Direct c l ∧ ¬ EndsLeaving c) ∨ Named b l) := by
  obtain ⟨locs, h1, rfl⟩ := h
  obtain ⟨h2, h3, h4, h5⟩ := modified_sound he
  obtain ⟨⟨x, hx, k1⟩, k2, k3, k4⟩ := mem_eventsIn.1 h2
  obtain ⟨l', k5, k6⟩ := (Inside.C90_sound_partial p b f hat hfin hd locs h1).2 x hx
  rw [k1] at k5
  cases k5
  exact ⟨k6, k2, List.mem_singleton.1 k3, h3, h4, ends_found k6 h5⟩

/-- **C111**: if, in an iteration that is followed by another, a method modifies the structure, then that is reported. Missing: bodies in
which a statement of the body itself, rather than one within another, assigns to the variable, those with `try` or a `continue`, and what is in loops within. -/
theorem C111_partial (W : World) (p b : Body) (f : Bool) (hat : At b true p f) (hwith : f = true ∨ noWith b = true) (hm : p.noTry = true)
    (hf : W.asks = true ∨ p.noFor = true) (hfin : p.noFinally = true) (hd : p.locations.Nodup) (items : Nat → List Item)
    (direct : Nat → Bool) (v : Nat) (r : List (Nat × Event)) (h : Modifying (moduleGraph p) items direct (some v) b r)
    (hassign : ∀ l, .simple l ∈ Inside.stmts b → ∀ e, .own e ∈ items l → e.var = v → e.type ≠ .assign ∧ e.type ≠ .reassign)
    (hjump : ∀ j l, .jump j l ∈ Inside.stmts b → ∀ e, .own e ∈ items l → e.var = v → e.type ≠ .assign ∧ e.type ≠ .reassign)
    (hcont : goingOn b = false) (hb : b.noTry = true) (tr : List Nat) (o : Out) (hr : RunBody W p tr o) (l : Nat) (hl : l ∈ tr) (iteration : List Nat) (o' : Out)
    (hi : RunBody W b iteration o') (ho : o' = .normal ∨ o' = .cont) (hli : l ∈ iteration) (hloop : ∀ x ∈ b.parts, l ∉ loopLocs x)
    (e : Event) (he : .own e ∈ items l) (hv : e.var = v) (ht : e.type = .modify) (hdir : direct e.node = true) : (l, e) ∈ r := by
  obtain ⟨locs, h1, rfl⟩ := h
  have hlb := Inside.body_among W b _ _ hi l hli
  have hx := Inside.C90_partial W p b f hat hwith (body_mild _ hm) hf (.inl hm) hfin hd locs h1 tr o hr l hl hlb
  have hsound := (Inside.C90_sound_partial p b f hat hfin hd locs h1).2
  refine (modified_iff fun x hx hc => ?_).2 ⟨mem_eventsIn.2 ⟨hx, he, by simp [hv], by rw [ht]; rfl⟩, ht, hdir, ?_⟩
  · obtain ⟨l', e'⟩ := x
    obtain ⟨⟨y, hy, k1⟩, k2, k3, k4⟩ := mem_eventsIn.1 hx
    obtain ⟨l'', k5, k6⟩ := hsound y hy
    rw [k1] at k5
    cases k5
    obtain ⟨n1, n2⟩ : e'.type ≠ .assign ∧ e'.type ≠ .reassign := by
      have hc2 := hc.2
      unfold top at hc2
      obtain ⟨s, hs, hw⟩ := List.mem_flatMap.1 (List.contains_iff_mem.1 hc2)
      cases s with
      | simple k =>
        rw [show l' = k from List.mem_singleton.1 hw] at k2
        exact hassign k hs e' k2 (List.mem_singleton.1 k3)
      | jump j k =>
        rw [show l' = k from List.mem_singleton.1 hw] at k2
        exact hjump j k hs e' k2 (List.mem_singleton.1 k3)
      | _ => cases hw
    rcases hc.1 with h | h
    · exact n1 h
    · exact n2 h
  · have hn : o' = .normal := by
      rcases ho with h | h
      · exact h
      · exact absurd h (body_stays W b hcont _ _ hi)
    unfold ends
    cases hq : endsBody l (quitting b) b with
    | none => rfl
    | some q =>
      cases q with
      | false => rfl
      | true => exact absurd hn (body_left W l b hb (hat.sublist.nodup hd) hloop hq _ _ hi hli)

/-! ### Control variables -/

theorem changing_iff {g : Flow.Graph} {items : Nat → List Item} {definitions : List (Event × Event)} {target : Nat → Bool} {iter : Expr}
    {v : Nat} {name : Str} {b : Body} {r : List (Event × Message)} (h : Changing g items definitions target iter (some (v, name)) b r)
    (hr : rangeParams iter ≠ none) (hn : startsWith name "_".toList = false) : ∃ locs, Inside g b locs ∧
      ∀ e m, (e, m) ∈ r ↔ (∃ l, (∃ x ∈ locs, locAt g x = some l) ∧ .own e ∈ items l ∧ e.var = v ∧ modifying e.type = true) ∧
        ((target e.node = true ∧ m = .shadows) ∨ (target e.node = false ∧ usesOf definitions e = [] ∧ m = .changing)) := by
  unfold Changing at h
  cases hp : rangeParams iter with
  | none => exact absurd hp hr
  | some ps =>
    simp only [hp, hn] at h
    obtain ⟨locs, h1, rfl⟩ := h
    refine ⟨locs, h1, fun e m => ?_⟩
    rw [List.mem_filterMap]
    constructor
    · rintro ⟨⟨l, e'⟩, h2, h3⟩
      obtain ⟨k1, k2, k3, k4⟩ := mem_eventsIn.1 h2
      obtain ⟨m', h4, h5⟩ := Option.map_eq_some_iff.1 h3
      cases h5
      refine ⟨⟨l, k1, k2, List.mem_singleton.1 k3, k4⟩, ?_⟩
      unfold messageOf at h4
      split at h4
      · rename_i ht
        cases h4
        exact .inl ⟨ht, rfl⟩
      · rename_i ht
        split at h4
        · rename_i hu
          cases h4
          exact .inr ⟨by simpa using ht, List.length_eq_zero_iff.1 hu, rfl⟩
        · cases h4
    · rintro ⟨⟨l, k1, k2, k3, k4⟩, h2⟩
      refine ⟨(l, e), mem_eventsIn.2 ⟨k1, k2, by simp [k3], k4⟩, ?_⟩
      rcases h2 with ⟨h2, rfl⟩ | ⟨h2, h3, rfl⟩
      · simp [messageOf, h2]
      · simp [messageOf, h2, h3]

/-- **C112**, loops within: the target of a loop in the body is reported if it is the variable. -/
theorem C112_shadows_partial (W : World) (p b : Body) (f : Bool) (hat : At b true p f) (hwith : f = true ∨ noWith b = true) (hm : p.mild = true)
    (hf : W.asks = true ∨ p.noFor = true) (ht : p.noTry = true ∨ ∀ l x, ¬ W.raises l x) (hfin : p.noFinally = true) (hd : p.locations.Nodup)
    (items : Nat → List Item) (definitions : List (Event × Event)) (target : Nat → Bool) (iter : Expr) (v : Nat) (name : Str)
    (r : List (Event × Message)) (h : Changing (moduleGraph p) items definitions target iter (some (v, name)) b r)
    (hrange : rangeParams iter ≠ none) (hname : startsWith name "_".toList = false) (tr : List Nat) (o : Out) (hr : RunBody W p tr o)
    (l : Nat) (hl : l ∈ tr) (hlb : l ∈ b.locations) (e : Event) (he : .own e ∈ items l) (hv : e.var = v) (hmo : modifying e.type = true)
    (htar : target e.node = true) : (e, .shadows) ∈ r := by
  obtain ⟨locs, h1, h2⟩ := changing_iff h hrange hname
  exact (h2 e .shadows).2 ⟨⟨l, Inside.C90_partial W p b f hat hwith hm hf ht hfin hd locs h1 tr o hr l hl hlb, he, hv, hmo⟩, .inl ⟨htar, rfl⟩⟩

/-- **C112**, what is reported: no execution reads the value that a change that is reported gives to the variable, itself or in a function that it calls. -/
theorem C112_partial (W : World) (F : File) (b : Body) (hm : F.body.mild = true) (hf : W.asks = true ∨ F.body.noFor = true)
    (ht : F.body.noTry = true ∨ ∀ l x, ¬ W.raises l x) (items : Nat → List Item) (vars : Nat) (definitions : List (Event × Event))
    (hdef : F.Definitions items vars definitions) (target : Nat → Bool) (iter : Expr) (v : Nat) (hv : v < vars)
    (hcalled : ∀ l x, Item.called x ∈ items l → x.var = v → x.type = .read) (name : Str) (r : List (Event × Message))
    (h : Changing (moduleGraph F.body) items definitions target iter (some (v, name)) b r) (e : Event) (he : (e, .changing) ∈ r)
    (tr : List Nat) (o : Out) (hr : RunBody W F.body tr o) (d : Event) (x y : Nat) :
    ¬ (Gives items tr v e x d y ∨ Uses.GivesCalled items tr v e x d y) := by
  intro hg
  have hdf : (d, e) ∈ definitions := by
    rcases hg with hg | hg
    · exact Uses.C92_partial F items vars definitions hdef W hm hf ht tr o hr v hv hcalled e d x y hg
    · exact Uses.C92_called_partial F items vars definitions hdef W hm hf ht tr o hr v hv hcalled e d x y hg
  have hno : usesOf definitions e = [] := by
    unfold Changing at h
    cases hp : rangeParams iter with
    | none => simp only [hp] at h; rw [h] at he; cases he
    | some ps =>
      by_cases hn : startsWith name "_".toList = true
      · simp only [hp] at h; rw [if_pos hn] at h; rw [h] at he; cases he
      · have hn' : startsWith name "_".toList = false := by simpa using hn
        obtain ⟨locs, -, h2⟩ := changing_iff (g := moduleGraph F.body) (items := items) (definitions := definitions) (target := target)
          (iter := iter) (v := v) (name := name) (b := b) (r := r) (by unfold Changing; exact h) (by rw [hp]; exact fun h => nomatch h) hn'
        rcases ((h2 e .changing).1 he).2 with ⟨-, hc⟩ | ⟨-, hu, -⟩
        · cases hc
        · exact hu
  have := mem_usesOf.2 hdf
  rw [hno] at this
  cases this

/-- **C112**, what is not reported: if a change of the variable is executed in the body, and neither it is reported nor is it the target
of a loop, then there is an execution that reads the value. -/
theorem C112_possible_partial (W : World) (F : File) (b : Body) (f : Bool) (hat : At b true F.body f) (hwith : f = true ∨ noWith b = true)
    (hm : F.body.noTry = true) (hf : W.asks = true ∨ F.body.noFor = true) (hms : ∀ f ∈ F.functions, f.2.noTry = true)
    (hfs : W.asks = true ∨ ∀ f ∈ F.functions, f.2.noFor = true) (hfin : F.body.noFinally = true) (hd : F.body.locations.Nodup)
    (items : Nat → List Item) (vars : Nat) (definitions : List (Event × Event)) (hdef : F.Definitions items vars definitions)
    (target : Nat → Bool) (iter : Expr) (v : Nat) (name : Str) (r : List (Event × Message))
    (h : Changing (moduleGraph F.body) items definitions target iter (some (v, name)) b r) (hrange : rangeParams iter ≠ none)
    (hname : startsWith name "_".toList = false) (tr : List Nat) (o : Out) (hr : RunBody W F.body tr o) (l : Nat) (hl : l ∈ tr)
    (hlb : l ∈ b.locations) (e : Event) (he : .own e ∈ items l) (hv : e.var = v) (hmo : modifying e.type = true)
    (htar : target e.node = false) (hnot : (e, .changing) ∉ r) (hvv : v < vars) (hcalled : ∀ l x, Item.called x ∈ items l → x.var = v → x.type = .read) :
    ∃ d, (∃ tr x y, RunBody W F.body tr .cut ∧ (Gives items tr v e x d y ∨ Uses.GivesCalled items tr v e x d y)) ∨
      ∃ f ∈ F.functions, ∃ tr x y, RunBody W f.2 tr .cut ∧
        (Gives items (f.1 :: tr) v e x d y ∨ Uses.GivesCalled items (f.1 :: tr) v e x d y) := by
  obtain ⟨locs, h1, h2⟩ := changing_iff h hrange hname
  have hx := Inside.C90_partial W F.body b f hat hwith (body_mild _ hm) hf (.inl hm) hfin hd locs h1 tr o hr l hl hlb
  cases hu : usesOf definitions e with
  | nil => exact absurd ((h2 e .changing).2 ⟨⟨l, hx, he, hv, hmo⟩, .inr ⟨htar, hu, rfl⟩⟩) hnot
  | cons d us =>
    have hdf : (d, e) ∈ definitions := mem_usesOf.1 (by rw [hu]; simp)
    have hdv : d.var = v := (Uses.definitions_var hdef _ hdf).trans hv
    have key := Uses.C92_possible_partial F items vars definitions hdef W hm hf hms hfs e d (hdv ▸ hvv) (hdv ▸ hcalled) hdf
    rw [hdv] at key
    exact ⟨d, key⟩

/-- What is reported has no use. -/
theorem reported_unused {g : Graph} {items : Nat → List Item} {definitions : List (Event × Event)} {target : Nat → Bool} {iter : Expr} {v : Nat}
    {name : Str} {b : Body} {r : List (Event × Message)} (h : Changing g items definitions target iter (some (v, name)) b r) {e : Event}
    (he : (e, .changing) ∈ r) : usesOf definitions e = [] := by
  by_cases hrange : rangeParams iter = none
  · unfold Changing at h
    simp only [hrange] at h
    rw [h] at he
    cases he
  · cases hn : startsWith name "_".toList with
    | true =>
      unfold Changing at h
      cases hp : rangeParams iter with
      | none => exact absurd hp hrange
      | some ps =>
        simp only [hp] at h
        rw [if_pos hn] at h
        rw [h] at he
        cases he
    | false =>
      obtain ⟨locs, -, h2⟩ := changing_iff h hrange hn
      rcases ((h2 e .changing).1 he).2 with ⟨-, hc⟩ | ⟨-, hu, -⟩
      · cases hc
      · exact hu

/-- **C112**, what is reported, for functions: a change in a loop anywhere in the file, of the module or of a function, that is reported is read in no
execution of a function. -/
theorem C112_function_partial (W : World) (F : File) (hne : F.body.isNil = false) (b : Body) (args : Nat) (p : Body) (hp : (args, p) ∈ F.functions)
    (hm : p.mild = true) (hf : W.asks = true ∨ p.noFor = true)
    (ht : p.noTry = true ∨ ∀ l x, ¬ W.raises l x) (items : Nat → List Item) (vars : Nat) (definitions : List (Event × Event))
    (hdef : F.Definitions items vars definitions) (target : Nat → Bool) (iter : Expr) (v : Nat) (hv : v < vars)
    (hcalled : ∀ l x, Item.called x ∈ items l → x.var = v → x.type = .read) (name : Str) (r : List (Event × Message)) (g : Graph)
    (h : Changing g items definitions target iter (some (v, name)) b r) (e : Event) (he : (e, .changing) ∈ r)
    (tr : List Nat) (o : Out) (hr : RunBody W p tr o) (d : Event) (x y : Nat) :
    ¬ (Gives items (args :: tr) v e x d y ∨ Uses.GivesCalled items (args :: tr) v e x d y) := by
  intro hg
  have hdf : (d, e) ∈ definitions := by
    rcases hg with hg | hg
    · exact Uses.C92_function_partial F hne items vars definitions hdef args p hp W hm hf ht tr o hr v hv hcalled e d x y hg
    · exact Uses.C92_called_function_partial F hne items vars definitions hdef args p hp W hm hf ht tr o hr v hv hcalled e d x y hg
  have := mem_usesOf.2 hdf
  rw [reported_unused h he] at this
  cases this

/-- **C112**, what is not reported, for functions. -/
theorem C112_possible_function_partial (W : World) (F : File) (args : Nat) (p b : Body) (hp : (args, p) ∈ F.functions) (f : Bool) (hat : At b true p f)
    (hwith : f = true ∨ noWith b = true) (hm : F.body.noTry = true) (hf : W.asks = true ∨ F.body.noFor = true)
    (hms : ∀ f ∈ F.functions, f.2.noTry = true) (hfs : W.asks = true ∨ ∀ f ∈ F.functions, f.2.noFor = true) (hfin : p.noFinally = true)
    (hd : (args :: p.locations).Nodup) (items : Nat → List Item) (vars : Nat) (definitions : List (Event × Event))
    (hdef : F.Definitions items vars definitions) (target : Nat → Bool) (iter : Expr) (v : Nat) (name : Str) (r : List (Event × Message))
    (h : Changing (functionGraph args p) items definitions target iter (some (v, name)) b r) (hrange : rangeParams iter ≠ none)
    (hname : startsWith name "_".toList = false) (tr : List Nat) (o : Out) (hr : RunBody W p tr o) (l : Nat) (hl : l ∈ tr)
    (hlb : l ∈ b.locations) (e : Event) (he : .own e ∈ items l) (hv : e.var = v) (hmo : modifying e.type = true)
    (htar : target e.node = false) (hnot : (e, .changing) ∉ r) (hvv : v < vars) (hcalled : ∀ l x, Item.called x ∈ items l → x.var = v → x.type = .read) :
    ∃ d, (∃ tr x y, RunBody W F.body tr .cut ∧ (Gives items tr v e x d y ∨ Uses.GivesCalled items tr v e x d y)) ∨
      ∃ f ∈ F.functions, ∃ tr x y, RunBody W f.2 tr .cut ∧
        (Gives items (f.1 :: tr) v e x d y ∨ Uses.GivesCalled items (f.1 :: tr) v e x d y) := by
  obtain ⟨locs, h1, h2⟩ := changing_iff h hrange hname
  have hmp : p.noTry = true := hms _ hp
  have hx := Inside.C90_function_partial W args p b f hat hwith (body_mild _ hmp) (hfs.imp_right fun h => h _ hp) (.inl hmp) hfin hd locs h1 tr o hr l hl hlb
  cases hu : usesOf definitions e with
  | nil => exact absurd ((h2 e .changing).2 ⟨⟨l, hx, he, hv, hmo⟩, .inr ⟨htar, hu, rfl⟩⟩) hnot
  | cons d us =>
    have hdf : (d, e) ∈ definitions := mem_usesOf.1 (by rw [hu]; simp)
    have hdv : d.var = v := (Uses.definitions_var hdef _ hdf).trans hv
    have key := Uses.C92_possible_partial F items vars definitions hdef W hm hf hms hfs e d (hdv ▸ hvv) (hdv ▸ hcalled) hdf
    rw [hdv] at key
    exact ⟨d, key⟩

/-- **C112**, loops within, for functions. -/
theorem C112_shadows_function_partial (W : World) (args : Nat) (p b : Body) (f : Bool) (hat : At b true p f) (hwith : f = true ∨ noWith b = true)
    (hm : p.mild = true) (hf : W.asks = true ∨ p.noFor = true) (ht : p.noTry = true ∨ ∀ l x, ¬ W.raises l x) (hfin : p.noFinally = true)
    (hd : (args :: p.locations).Nodup) (items : Nat → List Item) (definitions : List (Event × Event)) (target : Nat → Bool) (iter : Expr) (v : Nat)
    (name : Str) (r : List (Event × Message)) (h : Changing (functionGraph args p) items definitions target iter (some (v, name)) b r)
    (hrange : rangeParams iter ≠ none) (hname : startsWith name "_".toList = false) (tr : List Nat) (o : Out) (hr : RunBody W p tr o)
    (l : Nat) (hl : l ∈ tr) (hlb : l ∈ b.locations) (e : Event) (he : .own e ∈ items l) (hv : e.var = v) (hmo : modifying e.type = true)
    (htar : target e.node = true) : (e, .shadows) ∈ r := by
  obtain ⟨locs, h1, h2⟩ := changing_iff h hrange hname
  exact (h2 e .shadows).2 ⟨⟨l, Inside.C90_function_partial W args p b f hat hwith hm hf ht hfin hd locs h1 tr o hr l hl hlb, he, hv, hmo⟩, .inl ⟨htar, rfl⟩⟩

/-! ### Examples -/

/-- Nothing raises an exception, and a loop asks for an element when there is none. -/
def asking : World := ⟨fun _ _ => False, fun ns e => e ∈ ns, true⟩

/-- `for x in xs:` and the body. -/
def over (b : Body) : Body := seq [.each 0 1 b .nil]

theorem over_at (b : Body) (h : b.isNil = false) : At b true (over b) true :=
  .within (s := .each 0 1 b .nil) (by simp [Inside.suites]) h (by
    have := At.here (b := b) (last := true) .nil
    rw [UseFor.append_nil] at this
    exact this)

theorem some_of {g : Graph} {b : Body} {f : List Loc → List α} {r : List α} (n : Nat) (h1 : (Inside.insideIn g b n).isSome = true)
    (h2 : r = f ((Inside.insideIn g b n).getD [])) : ∃ locs, Inside g b locs ∧ r = f locs := by
  obtain ⟨ls, h⟩ := Option.isSome_iff_exists.mp h1
  rw [h] at h2
  exact ⟨ls, Inside.insideIn_eq h, h2⟩

/-- `xs.append(1)` at the location 3 -/
def appends : Nat → List Item
  | 0 => [.own ⟨0, 10, .read⟩]
  | 3 => [.own ⟨0, 13, .read⟩, .own ⟨0, 13, .modify⟩]
  | _ => []

/-- `if a: xs.append(1)` is reported. -/
example : Modifying (moduleGraph (over (seq [.cond 2 (seq [.simple 3]) .nil]))) appends (fun _ => true) (some 0) (seq [.cond 2 (seq [.simple 3]) .nil])
    [(3, ⟨0, 13, .modify⟩)] := some_of 40 (by decide +kernel) (by decide +kernel)

example (r : List (Nat × Event))
    (h : Modifying (moduleGraph (over (seq [.cond 2 (seq [.simple 3]) .nil]))) appends (fun _ => true) (some 0) (seq [.cond 2 (seq [.simple 3]) .nil]) r) :
    (3, ⟨0, 13, .modify⟩) ∈ r :=
  C111_partial asking (over (seq [.cond 2 (seq [.simple 3]) .nil])) (seq [.cond 2 (seq [.simple 3]) .nil]) true (over_at _ rfl) (.inl rfl) rfl (.inl rfl) rfl
    (by decide) appends (fun _ => true) 0 r h
    (by simp [Inside.stmts, seq]) (by simp [Inside.stmts, seq])
    rfl rfl [0, 1, 2, 3] .cut
    (.first (.both (t1 := [0]) .ok (.leave (t1 := [1]) .ok (.first (.both (t1 := [2]) .ok (.left (.first .after (by decide)))) (by decide)) (by decide) (by decide)
      (by decide))) (by decide)) 3 (by decide) [2, 3] .normal
    (.both (t1 := [2, 3]) (.both (t1 := [2]) .ok (.left (.both (t1 := [3]) .ok .ok))) .ok) (.inl rfl) (by decide) (by decide) _ (by decide) rfl rfl rfl

/-- `i += 1` in `for i in range(n)` -/
def steps : Nat → List Item
  | 1 => [.own ⟨0, 11, .assign⟩]
  | 2 => [.own ⟨0, 12, .read⟩, .own ⟨0, 12, .reassign⟩]
  | _ => []

/-- The same with `print(i)` afterwards. -/
def stepsRead : Nat → List Item
  | 3 => [.own ⟨0, 13, .read⟩]
  | l => steps l

theorem steps_definitions : (File.mk [] (over (seq [.simple 2]))).Definitions steps 1 [(⟨0, 12, .read⟩, ⟨0, 11, .assign⟩)] :=
  .inr ⟨rfl, [⟨0, [0, 2, 4], _⟩], .cons (n := 20) ⟨40, by decide +kernel, by decide +kernel⟩ (by decide +kernel) .nil, by decide +kernel⟩

theorem stepsRead_definitions : (File.mk [] (over (seq [.simple 2, .simple 3]))).Definitions stepsRead 1
    [(⟨0, 13, .read⟩, ⟨0, 12, .reassign⟩), (⟨0, 12, .read⟩, ⟨0, 11, .assign⟩)] :=
  .inr ⟨rfl, [⟨0, [0, 2, 4], _⟩], .cons (n := 20) ⟨40, by decide +kernel, by decide +kernel⟩ (by decide +kernel) .nil, by decide +kernel⟩

/-- `range(10)` -/
def toTen : Expr := .call (.name "range".toList) [.const (.int 10)]

/-- The first is reported, and no execution reads the value; the second is not. -/
theorem steps_changing : Changing (moduleGraph (over (seq [.simple 2]))) steps [(⟨0, 12, .read⟩, ⟨0, 11, .assign⟩)] (fun _ => false) toTen
    (some (0, "i".toList)) (seq [.simple 2]) [(⟨0, 12, .reassign⟩, .changing)] :=
  some_of 40 (by decide +kernel) (by decide +kernel)

example (tr : List Nat) (o : Out) (h : RunBody asking (over (seq [.simple 2])) tr o) (d : Event) (x y : Nat) :
    ¬ (Gives steps tr 0 ⟨0, 12, .reassign⟩ x d y ∨ Uses.GivesCalled steps tr 0 ⟨0, 12, .reassign⟩ x d y) :=
  C112_partial asking ⟨[], over (seq [.simple 2])⟩ (seq [.simple 2]) rfl (.inl rfl) (.inl rfl) steps 1 _ steps_definitions (fun _ => false) toTen 0
    (by decide) (by
      intro l x hx
      match l with
      | 0 => cases hx
      | 1 => simp [steps] at hx
      | 2 => simp [steps] at hx
      | (n + 3) => cases hx)
    "i".toList _ steps_changing _ (by simp) tr o h d x y

theorem stepsRead_changing : Changing (moduleGraph (over (seq [.simple 2, .simple 3]))) stepsRead
    [(⟨0, 13, .read⟩, ⟨0, 12, .reassign⟩), (⟨0, 12, .read⟩, ⟨0, 11, .assign⟩)] (fun _ => false) toTen (some (0, "i".toList))
    (seq [.simple 2, .simple 3]) [] := some_of 40 (by decide +kernel) (by decide +kernel)

/-- `for i in range(10): for i in xs` is reported as shadowing. -/
example : Changing (moduleGraph (over (seq [.each 2 3 (seq [.simple 4]) .nil])))
    (fun l => if l = 3 then [.own ⟨0, 13, .reassign⟩] else []) [] (fun n => n == 13) toTen (some (0, "i".toList)) (seq [.each 2 3 (seq [.simple 4]) .nil])
    [(⟨0, 13, .reassign⟩, .shadows)] := some_of 60 (by decide +kernel) (by decide +kernel)

/-- `for i in range(10): for i in xs`: each execution of the inner target is reported. -/
example (r : List (Event × Message)) (h : Changing (moduleGraph (over (seq [.each 2 3 (seq [.simple 4]) .nil])))
    (fun l => if l = 3 then [.own ⟨0, 13, .reassign⟩] else []) [] (fun n => n == 13) toTen (some (0, "i".toList))
    (seq [.each 2 3 (seq [.simple 4]) .nil]) r) : (⟨0, 13, .reassign⟩, .shadows) ∈ r :=
  C112_shadows_partial asking _ _ true (over_at _ rfl) (.inl rfl) rfl (.inl rfl) (.inl rfl) rfl (by decide) _ [] _ toTen 0 "i".toList r h
    (by decide) (by decide) [0, 1, 2, 3] .cut
    (.first (.both (t1 := [0]) .ok (.leave (t1 := [1]) .ok (.first (.both (t1 := [2]) .ok (.head .after (by decide))) (by decide)) (by decide) (by decide)
      (by decide))) (by decide)) 3 (by decide) (by decide) _ (by simp) rfl rfl rfl

/-- `for i in range(10): (i += 1; print(i))` is not reported, so that there is an execution in which the value is used. -/
example : ∃ d tr x y, RunBody asking (over (seq [.simple 2, .simple 3])) tr .cut ∧
    (Gives stepsRead tr 0 ⟨0, 12, .reassign⟩ x d y ∨ Uses.GivesCalled stepsRead tr 0 ⟨0, 12, .reassign⟩ x d y) := by
  obtain ⟨d, h | ⟨f, hf, -⟩⟩ := C112_possible_partial asking ⟨[], over (seq [.simple 2, .simple 3])⟩ _ true (over_at _ rfl) (.inl rfl) rfl (.inl rfl)
    (by simp) (.inl rfl) rfl (by decide) stepsRead 1 _ stepsRead_definitions (fun _ => false) toTen 0 "i".toList _ stepsRead_changing (by decide)
    (by decide) [0, 1, 2] .cut
    (.first (.both (t1 := [0]) .ok (.leave (t1 := [1]) .ok (.first .after (by decide)) (by decide) (by decide) (by decide))) (by decide)) 2 (by decide)
    (by decide) ⟨0, 12, .reassign⟩ (by decide) rfl rfl rfl (by simp) (by decide) (by
      intro l x hx
      match l with
      | 0 => cases hx
      | 1 => simp [stepsRead, steps] at hx
      | 2 => simp [stepsRead, steps] at hx
      | 3 => simp [stepsRead] at hx
      | (n + 4) => cases hx)
  · exact ⟨d, h⟩
  · cases hf

/-- Of `if a: (xs.append(1); break)`, at most `xs.append(1)` is reported. -/
example (r : List (Nat × Event))
    (h : Modifying (moduleGraph (over (seq [.cond 2 (seq [.simple 3, .jump .brk 4]) .nil]))) appends (fun _ => true) (some 0)
      (seq [.cond 2 (seq [.simple 3, .jump .brk 4]) .nil]) r) (l : Nat) (e : Event) (he : (l, e) ∈ r) : l = 3 := by
  obtain ⟨h1, h2, -, h4, -⟩ := C111_reported_partial _ _ true (over_at _ rfl) rfl (by decide) appends _ 0 r h l e he
  have h1 : l ∈ [2, 3, 4] := h1
  simp only [List.mem_cons, List.not_mem_nil, or_false] at h1
  rcases h1 with rfl | rfl | rfl
  · cases h2
  · rfl
  · cases h2

/-- `def f(): for i in range(10): i += 1` -/
def stepsFile : File := ⟨[(9, over (seq [.simple 2]))], seq [.simple 8]⟩

theorem steps_called (l : Nat) (x : Event) (hx : Item.called x ∈ steps l) : x.var = 0 → x.type = .read := by
  match l with
  | 0 => cases hx
  | 1 => simp [steps] at hx
  | 2 => simp [steps] at hx
  | (n + 3) => cases hx

/-- The same in a function. -/
example (definitions : List (Event × Event)) (hdef : stepsFile.Definitions steps 1 definitions) (r : List (Event × Message))
    (h : Changing (functionGraph 9 (over (seq [.simple 2]))) steps definitions (fun _ => false) toTen (some (0, "i".toList)) (seq [.simple 2]) r)
    (he : (⟨0, 12, .reassign⟩, .changing) ∈ r) (tr : List Nat) (o : Out) (hr : RunBody asking (over (seq [.simple 2])) tr o) (d : Event) (x y : Nat) :
    ¬ (Gives steps (9 :: tr) 0 ⟨0, 12, .reassign⟩ x d y ∨ Uses.GivesCalled steps (9 :: tr) 0 ⟨0, 12, .reassign⟩ x d y) :=
  C112_function_partial asking stepsFile rfl (seq [.simple 2]) 9 _ (by simp [stepsFile]) rfl (.inl rfl) (.inl rfl) steps 1 definitions hdef (fun _ => false)
    toTen 0 (by decide) steps_called "i".toList r _ h _ he tr o hr d x y

/-- If it were not reported, then some execution would read the value. -/
example (definitions : List (Event × Event)) (hdef : stepsFile.Definitions steps 1 definitions) (r : List (Event × Message))
    (h : Changing (functionGraph 9 (over (seq [.simple 2]))) steps definitions (fun _ => false) toTen (some (0, "i".toList)) (seq [.simple 2]) r)
    (hnot : (⟨0, 12, .reassign⟩, .changing) ∉ r) :
    ∃ d, (∃ tr x y, RunBody asking stepsFile.body tr .cut ∧ (Gives steps tr 0 ⟨0, 12, .reassign⟩ x d y ∨ Uses.GivesCalled steps tr 0 ⟨0, 12, .reassign⟩ x d y)) ∨
      ∃ f ∈ stepsFile.functions, ∃ tr x y, RunBody asking f.2 tr .cut ∧
        (Gives steps (f.1 :: tr) 0 ⟨0, 12, .reassign⟩ x d y ∨ Uses.GivesCalled steps (f.1 :: tr) 0 ⟨0, 12, .reassign⟩ x d y) :=
  C112_possible_function_partial asking stepsFile 9 _ _ (by simp [stepsFile]) true (over_at _ rfl) (.inl rfl) rfl (.inl rfl) (by simp [stepsFile]; rfl) (.inl rfl)
    rfl (by decide) steps 1 definitions hdef (fun _ => false) toTen 0 "i".toList r h (by decide) (by decide) [0, 1, 2] .cut
    (.first (.both (t1 := [0]) .ok (.leave (t1 := [1]) .ok (.first .after (by decide)) (by decide) (by decide) (by decide))) (by decide)) 2 (by decide)
    (by decide) ⟨0, 12, .reassign⟩ (by decide) rfl rfl rfl hnot (by decide) steps_called

/-- `def f(): for i in range(10): for i in xs` -/
example (r : List (Event × Message)) (h : Changing (functionGraph 9 (over (seq [.each 2 3 (seq [.simple 4]) .nil])))
    (fun l => if l = 3 then [.own ⟨0, 13, .reassign⟩] else []) [] (fun n => n == 13) toTen (some (0, "i".toList))
    (seq [.each 2 3 (seq [.simple 4]) .nil]) r) : (⟨0, 13, .reassign⟩, .shadows) ∈ r :=
  C112_shadows_function_partial asking 9 _ _ true (over_at _ rfl) (.inl rfl) rfl (.inl rfl) (.inl rfl) rfl (by decide) _ [] _ toTen 0 "i".toList r h
    (by decide) (by decide) [0, 1, 2, 3] .cut
    (.first (.both (t1 := [0]) .ok (.leave (t1 := [1]) .ok (.first (.both (t1 := [2]) .ok (.head .after (by decide))) (by decide)) (by decide) (by decide)
      (by decide))) (by decide)) 3 (by decide) (by decide) _ (by simp) rfl rfl rfl

/-! ### Disagreements -/

/-- `for i in range(10): (try: i = 0`, `finally: print(i))` -/
def finallyItems : Nat → List Item
  | 1 => [.own ⟨0, 11, .assign⟩]
  | 2 => [.own ⟨0, 12, .reassign⟩]
  | 3 => [.own ⟨0, 13, .read⟩]
  | _ => []

/-- **C112** is false of `finally`: the change is reported, although its value is printed each time. -/
theorem C112_finally_counterexample :
    let b := seq [.try_ (.simple 2) .nil .nil .nil (seq [.simple 3])]
    (File.mk [] (over b)).Definitions finallyItems 1 [] ∧
      Changing (moduleGraph (over b)) finallyItems [] (fun _ => false) toTen (some (0, "i".toList)) b [(⟨0, 12, .reassign⟩, .changing)] ∧
      RunBody asking (over b) [0, 1, 2, 3, 1] .normal ∧ Gives finallyItems [0, 1, 2, 3, 1] 0 ⟨0, 12, .reassign⟩ 2 ⟨0, 13, .read⟩ 3 := by
  refine ⟨.inr ⟨rfl, [⟨0, [0, 2, 4], _⟩], .cons (n := 20) ⟨40, by decide +kernel, by decide +kernel⟩ (by decide +kernel) .nil, by decide +kernel⟩,
    some_of 60 (by decide +kernel) (by decide +kernel), ?_, ?_⟩
  · refine .both (t1 := [0, 1, 2, 3, 1]) (t2 := []) (.both (t1 := [0]) .ok ?_) .ok
    refine .next (t1 := [1]) (t2 := [2, 3]) (o := .normal) .ok ?_ (.inl rfl) (.done (.both (t1 := [1]) (t2 := []) .ok .ok))
    refine .both (t1 := [2, 3]) (t2 := []) (.both (t1 := [2]) (t2 := [3]) ?_ (by decide) (.both (t1 := [3]) (t2 := []) .ok .ok)) .ok
    exact .good (t1 := [2]) (t2 := []) (.both (t1 := [2]) (t2 := []) .ok .ok) .ok
  · exact ⟨rfl, by decide, rfl, .inl rfl, [(1, .own ⟨0, 11, .assign⟩)], [], [(1, .own ⟨0, 11, .assign⟩)], rfl, by simp⟩

/-- `if a: xs.append(1)` before a `break` is reported, although no iteration follows. -/
theorem C111_break_counterexample :
    let b := seq [.cond 2 (seq [.simple 3]) .nil, .jump .brk 4]
    Modifying (moduleGraph (over b)) appends (fun _ => true) (some 0) b [(3, ⟨0, 13, .modify⟩)] ∧
      ∀ W t o, RunBody W b t o → o ≠ .normal ∧ o ≠ .cont :=
  ⟨some_of 40 (by decide +kernel) (by decide +kernel), fun W _ _ h => ⟨quitting_left W rfl h, body_stays W _ rfl _ _ h⟩⟩

/-- `for y in ys: (xs.append(y); break)` in the loop is not reported, although iterations follow: the `break` is one of the other loop. -/
theorem C111_inner_counterexample :
    let b := seq [.each 2 5 (seq [.simple 3, .jump .brk 4]) .nil]
    Modifying (moduleGraph (over b)) appends (fun _ => true) (some 0) b [] ∧ RunBody asking b [2, 5, 3, 4] .normal :=
  ⟨some_of 60 (by decide +kernel) (by decide +kernel),
    .both (t1 := [2, 5, 3, 4]) (.both (t1 := [2]) .ok (.brk (t1 := [5]) .ok (.both (t1 := [3]) .ok (.first (.both (t1 := [4]) .ok .brk) (by decide))))) .ok⟩

/-- `xs.append(1); if a: continue; break` is not reported, although iterations follow. -/
theorem C111_continue_counterexample :
    let b := seq [.simple 3, .cond 2 (seq [.jump .cont 4]) .nil, .jump .brk 5]
    Modifying (moduleGraph (over b)) appends (fun _ => true) (some 0) b [] ∧ RunBody asking b [3, 2, 4] .cont :=
  ⟨some_of 60 (by decide +kernel) (by decide +kernel),
    .both (t1 := [3]) .ok (.first (.both (t1 := [2]) .ok (.left (.first (.both (t1 := [4]) .ok .cont) (by decide)))) (by decide))⟩

/-- `(if a: pass else: xs.append(1)); xs = []` is not reported, although the structure is modified before it is assigned to: the `else` is
looked at after what follows. -/
theorem C111_order_counterexample :
    let b := seq [.cond 2 (seq [.simple 4]) (seq [.simple 3]), .simple 5]
    Modifying (moduleGraph (over b)) (fun l => if l = 5 then [.own ⟨0, 15, .reassign⟩] else appends l) (fun _ => true) (some 0) b [] ∧
      RunBody asking b [2, 3, 5] .normal ∧ RunBody asking (over b) [0, 1, 2, 3, 5, 1] .normal :=
  have h : RunBody asking (seq [.cond 2 (seq [.simple 4]) (seq [.simple 3]), .simple 5]) [2, 3, 5] .normal :=
    .both (t1 := [2, 3]) (.both (t1 := [2]) .ok (.right (.both (t1 := [3]) .ok .ok))) (.both (t1 := [5]) .ok .ok)
  ⟨some_of 60 (by decide +kernel) (by decide +kernel), h,
    .both (t1 := [0, 1, 2, 3, 5, 1]) (.both (t1 := [0]) .ok (.next (t1 := [1]) (t2 := [2, 3, 5]) .ok h (.inl rfl) (.done (.both (t1 := [1]) .ok .ok)))) .ok⟩

end Verif.LoopVars

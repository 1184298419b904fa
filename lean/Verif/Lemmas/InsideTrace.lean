import Verif.Model.Inside
import Verif.Lemmas.InsideCtx

/-! Lemmas for C90 and C91: statements are entered at the location they begin with. -/

namespace Verif.Inside

open Verif.Flow

/-! ### What is closed under concatenation -/

structure Closed (P : List Nat → Prop) : Prop where
  nil : P []
  append : ∀ {t t'}, P t → P t' → P (t ++ t')

/-- What is executed has a property. -/
def Has (P : List Nat → Prop) (A : Beh) : Prop := ∀ t o, A t o → P t

section
variable {P : List Nat → Prop} (hP : Closed P) {A B C D E : Beh}
include hP

theorem seq_has (hA : Has P A) (hB : Has P B) : Has P (Seq A B) := by
  intro t o h
  cases h with
  | both h1 h2 => exact hP.append (hA _ _ h1) (hB _ _ h2)
  | first h1 _ => exact hA _ _ h1

omit hP in
theorem alt_has (hA : Has P A) (hB : Has P B) : Has P (Alt A B) := by
  rintro t o (h | h)
  · exact hA _ _ h
  · exact hB _ _ h

theorem skip_has : Has P Skip := by
  rintro t o (_ | _) <;> exact hP.nil

theorem jump_has (j : Jump) : Has P (JumpRun j) := by
  rintro t o (_ | _ | _ | _ | _) <;> exact hP.nil

theorem leaf_has {W : World} {l : Nat} (h : P [l]) : Has P (Leaf W l) := by
  rintro t o (_ | _ | _ | _)
  · exact h
  · exact h
  · exact hP.nil
  · exact h

theorem leaves_has {W : World} : ∀ {ls : List Nat}, (∀ l ∈ ls, P [l]) → Has P (Leaves W ls)
  | [], _ => skip_has hP
  | l :: ls, h => seq_has hP (leaf_has hP (h l (by simp))) (leaves_has fun l hl => h l (by simp [hl]))

theorem loop_has (hH : Has P A) (hD : Has P D) (hB : Has P B) (hE : Has P E) : Has P (LoopRun A D B E) := by
  intro t o h
  induction h with
  | done h => exact seq_has hP hD hE _ _ h
  | head h _ => exact hH _ _ h
  | next h1 h2 _ _ ih => exact hP.append (hH _ _ h1) (hP.append (hB _ _ h2) ih)
  | brk h1 h2 => exact hP.append (hH _ _ h1) (hB _ _ h2)
  | leave h1 h2 _ _ _ => exact hP.append (hH _ _ h1) (hB _ _ h2)

theorem try_has {H : Str → Beh} (hB : Has P B) (hH : ∀ e, Has P (H e)) (hE : Has P E) : Has P (TryRun B H E) := by
  intro t o h
  cases h with
  | good h1 h2 => exact hP.append (hB _ _ h1) (hE _ _ h2)
  | caught h1 h2 => exact hP.append (hB _ _ h1) (hH _ _ _ h2)
  | leave h1 _ _ => exact hB _ _ h1

theorem finally_has (hA : Has P A) (hB : Has P B) : Has P (FinallyRun A B) := by
  intro t o h
  cases h with
  | both h1 _ h2 => exact hP.append (hA _ _ h1) (hB _ _ h2)
  | leave h1 _ h2 _ => exact hP.append (hA _ _ h1) (hB _ _ h2)
  | cut h1 => exact hA _ _ h1
end

/-! ### Only locations of statements are executed -/

/-- All of it is among `ls`. -/
def Among (ls : List Nat) (t : List Nat) : Prop := ∀ l ∈ t, l ∈ ls

theorem among_closed (ls : List Nat) : Closed (Among ls) where
  nil := fun _ h => nomatch h
  append h h' l hl := by
    rcases List.mem_append.1 hl with hl | hl
    · exact h l hl
    · exact h' l hl

theorem Has.mono {P Q : List Nat → Prop} {A : Beh} (h : Has P A) (hpq : ∀ t, P t → Q t) : Has Q A := fun t o ha => hpq t (h t o ha)

theorem among_one {ls : List Nat} {l : Nat} (h : l ∈ ls) : Among ls [l] := by
  intro m hm; rw [List.mem_singleton.1 hm]; exact h

theorem Among.mono {ls ls' t : List Nat} (h : ∀ l ∈ ls, l ∈ ls') (ht : Among ls t) : Among ls' t := fun l hl => h l (ht l hl)

mutual
theorem run_among (W : World) : ∀ s : Stmt, Has (Among s.locations) (Run W s)
  | .simple l => by
    simp only [Run]
    exact leaf_has (among_closed _) (among_one (by simp [Stmt.locations]))
  | .jump j l => by
    simp only [Run]
    exact seq_has (among_closed _) (leaf_has (among_closed _) (among_one (by simp [Stmt.locations]))) (jump_has (among_closed _) j)
  | .cond t b e => by
    simp only [Run]
    exact seq_has (among_closed _) (leaf_has (among_closed _) (among_one (by simp [Stmt.locations])))
      (alt_has ((body_among W b).mono fun _ => Among.mono (fun l hl => by simp [Stmt.locations, hl]))
        ((body_among W e).mono fun _ => Among.mono (fun l hl => by simp [Stmt.locations, hl])))
  | .loop t b e => by
    simp only [Run]
    exact loop_has (among_closed _) (leaf_has (among_closed _) (among_one (by simp [Stmt.locations])))
      (leaf_has (among_closed _) (among_one (by simp [Stmt.locations])))
      ((body_among W b).mono fun _ => Among.mono (fun l hl => by simp [Stmt.locations, hl]))
      ((body_among W e).mono fun _ => Among.mono (fun l hl => by simp [Stmt.locations, hl]))
  | .each i t b e => by
    simp only [Run]
    refine seq_has (among_closed _) (leaf_has (among_closed _) (among_one (by simp [Stmt.locations])))
      (loop_has (among_closed _) (leaf_has (among_closed _) (among_one (by simp [Stmt.locations]))) ?_
        ((body_among W b).mono fun _ => Among.mono (fun l hl => by simp [Stmt.locations, hl]))
        ((body_among W e).mono fun _ => Among.mono (fun l hl => by simp [Stmt.locations, hl])))
    split
    · exact leaf_has (among_closed _) (among_one (by simp [Stmt.locations]))
    · exact skip_has (among_closed _)
  | .enter i is b => by
    simp only [Run]
    exact seq_has (among_closed _) (leaf_has (among_closed _) (among_one (by simp [Stmt.locations])))
      (seq_has (among_closed _) (leaves_has (among_closed _) fun l hl => among_one (by simp [Stmt.locations, hl]))
        ((body_among W b).mono fun _ => Among.mono (fun l hl => by simp [Stmt.locations, hl])))
  | .try_ f r hs e l => by
    simp only [Run]
    exact finally_has (among_closed _) (try_has (among_closed _)
      (seq_has (among_closed _) ((run_among W f).mono fun _ => Among.mono (fun l hl => by simp [Stmt.locations, hl]))
        ((body_among W r).mono fun _ => Among.mono (fun l hl => by simp [Stmt.locations, hl])))
      (fun x => (handlers_among W hs x).mono fun _ => Among.mono (fun l hl => by simp [Stmt.locations, hl]))
      ((body_among W e).mono fun _ => Among.mono (fun l hl => by simp [Stmt.locations, hl])))
      ((body_among W l).mono fun _ => Among.mono (fun l hl => by simp [Stmt.locations, hl]))
theorem body_among (W : World) : ∀ b : Body, Has (Among b.locations) (RunBody W b)
  | .nil => by
    simp only [RunBody]
    exact skip_has (among_closed _)
  | .cons s rest => by
    simp only [RunBody]
    exact seq_has (among_closed _) ((run_among W s).mono fun _ => Among.mono (fun l hl => by simp [Body.locations, hl]))
      ((body_among W rest).mono fun _ => Among.mono (fun l hl => by simp [Body.locations, hl]))
theorem handlers_among (W : World) : ∀ (hs : Handlers) (x : Str), Has (Among hs.locations) (RunHandlers W hs x)
  | .nil, x => by
    simp only [RunHandlers]
    rintro t o ⟨rfl, _⟩
    exact (among_closed _).nil
  | .cons ex name b rest, x => by
    simp only [RunHandlers]
    rintro t o (⟨_, h⟩ | ⟨_, h⟩)
    · exact seq_has (among_closed _) (leaves_has (among_closed _) fun l hl => among_one (by simp only [Handlers.locations, List.mem_append]; exact .inl hl))
        ((body_among W b).mono fun _ => Among.mono (fun l hl => by simp [Handlers.locations, hl])) _ _ h
    · exact Among.mono (fun l hl => by simp [Handlers.locations, hl]) (handlers_among W rest x _ _ h)
end

/-! ### Statements are entered at the location they begin with -/

/-- Nothing is executed, or the location first. -/
def Begun (h : Nat) (A : Beh) : Prop := ∀ t o, A t o → (t = [] ∧ o = .cut) ∨ ∃ t', t = h :: t'

theorem leaf_begun (W : World) (l : Nat) : Begun l (Leaf W l) := by
  rintro t o (_ | _ | _ | _)
  · exact .inr ⟨_, rfl⟩
  · exact .inr ⟨_, rfl⟩
  · exact .inl ⟨rfl, rfl⟩
  · exact .inr ⟨_, rfl⟩

theorem seq_begun {h : Nat} {A B : Beh} (hA : Begun h A) : Begun h (Seq A B) := by
  intro t o ha
  cases ha with
  | both h1 h2 =>
    rcases hA _ _ h1 with ⟨_, e⟩ | ⟨t', rfl⟩
    · cases e
    · exact .inr ⟨_, rfl⟩
  | first h1 _ => exact hA _ _ h1

theorem run_begun (W : World) : ∀ s : Stmt, Begun (first s) (Run W s)
  | .simple l => by simp only [Run]; exact leaf_begun W l
  | .jump j l => by simp only [Run]; exact seq_begun (leaf_begun W l)
  | .cond t b e => by simp only [Run]; exact seq_begun (leaf_begun W t)
  | .loop t b e => by
    simp only [Run]
    intro tr o h
    have key : ∀ {t1 : List Nat}, Leaf W t t1 .normal → ∃ t', t1 = t :: t' := by
      intro t1 h1
      rcases leaf_begun W t _ _ h1 with ⟨_, e⟩ | h
      · cases e
      · exact h
    cases h with
    | done h => exact seq_begun (leaf_begun W t) _ _ h
    | head h _ => exact leaf_begun W t _ _ h
    | next h1 _ _ _ => obtain ⟨t', rfl⟩ := key h1; exact .inr ⟨_, rfl⟩
    | brk h1 _ => obtain ⟨t', rfl⟩ := key h1; exact .inr ⟨_, rfl⟩
    | leave h1 _ _ _ _ => obtain ⟨t', rfl⟩ := key h1; exact .inr ⟨_, rfl⟩
  | .each i t b e => by simp only [Run]; exact seq_begun (leaf_begun W i)
  | .enter i is b => by simp only [Run]; exact seq_begun (leaf_begun W i)
  | .try_ f r hs e l => by
    simp only [Run]
    have hseq : Begun (first f) (Seq (Run W f) (RunBody W r)) := seq_begun (run_begun W f)
    have htry : Begun (first f) (TryRun (Seq (Run W f) (RunBody W r)) (RunHandlers W hs) (RunBody W e)) := by
      intro tr o h
      cases h with
      | good h1 _ =>
        rcases hseq _ _ h1 with ⟨_, e⟩ | ⟨t', rfl⟩
        · cases e
        · exact .inr ⟨_, rfl⟩
      | caught h1 _ =>
        rcases hseq _ _ h1 with ⟨_, e⟩ | ⟨t', rfl⟩
        · cases e
        · exact .inr ⟨_, rfl⟩
      | leave h1 _ _ => exact hseq _ _ h1
    intro tr o h
    show _ ∨ ∃ t', tr = first f :: t'
    cases h with
    | both h1 h2 _ =>
      rcases htry _ _ h1 with ⟨_, e⟩ | ⟨t', rfl⟩
      · exact absurd e h2
      · exact .inr ⟨_, rfl⟩
    | leave h1 h2 _ _ =>
      rcases htry _ _ h1 with ⟨_, e⟩ | ⟨t', rfl⟩
      · exact absurd e h2
      · exact .inr ⟨_, rfl⟩
    | cut h1 => exact htry _ _ h1

/-- Whenever a location among `ls` is executed, `h` has been before, and in between nothing but locations among `ls`. -/
def Begins (h : Nat) (ls : List Nat) (t : List Nat) : Prop :=
  ∀ t0 l t1, t = t0 ++ l :: t1 → l ∈ ls → ∃ a m, t0 ++ [l] = a ++ h :: m ∧ ∀ x ∈ m, x ∈ ls

theorem begins_closed (h : Nat) (ls : List Nat) : Closed (Begins h ls) where
  nil := by
    intro t0 l t1 e
    cases t0 <;> cases e
  append := by
    intro t t' ht ht' t0 l t1 e hl
    rcases List.append_eq_append_iff.1 e with ⟨d, h1, h2⟩ | ⟨d, h1, h2⟩
    · -- in the second one
      obtain ⟨a, m, h3, h4⟩ := ht' d l t1 h2 hl
      exact ⟨t ++ a, m, by rw [h1, List.append_assoc, h3, List.append_assoc], h4⟩
    · cases d with
      | nil =>
        simp only [List.append_nil, List.nil_append] at h1 h2
        obtain ⟨a, m, h3, h4⟩ := ht' [] l t1 h2.symm hl
        exact ⟨t0 ++ a, m, by rw [List.append_assoc, ← h3]; rfl, h4⟩
      | cons x d =>
        rw [List.cons_append, List.cons.injEq] at h2
        obtain ⟨rfl, -⟩ := h2
        exact ht t0 l d h1 hl

theorem begins_apart {h : Nat} {ls t : List Nat} (ha : ∀ l ∈ t, l ∉ ls) : Begins h ls t := by
  intro t0 l t1 e hl
  exact absurd hl (ha l (by rw [e]; simp))

theorem begins_own {h : Nat} {ls t : List Nat} (ha : Among ls t) (hb : t = [] ∨ ∃ t', t = h :: t') : Begins h ls t := by
  intro t0 l t1 e hl
  rcases hb with rfl | ⟨t', rfl⟩
  · cases t0 <;> cases e
  · cases t0 with
    | nil =>
      cases e
      exact ⟨[], [], rfl, by simp⟩
    | cons x t0 =>
      rw [List.cons_append, List.cons.injEq] at e
      obtain ⟨rfl, e⟩ := e
      refine ⟨[], t0 ++ [l], rfl, fun y hy => ha y ?_⟩
      rw [e]
      rcases List.mem_append.1 hy with hy | hy
      · simp [hy]
      · simp [List.mem_singleton.1 hy]

/-! ### In a program -/

section
variable {P : List Nat → Prop} (hP : Closed P) {W : World} {inner : Body}
include hP

theorem clauses_has (hi : Has P (RunBody W inner)) (ha : ∀ t, (∀ l ∈ t, l ∉ inner.locations) → P t) : ∀ {hs : Handlers},
    inner ∈ clauses hs → hs.locations.Nodup → ∀ x, Has P (RunHandlers W hs x)
  | .nil, h, _, _ => nomatch h
  | .cons ex name b rest, h, hn, x => by
    simp only [Handlers.locations] at hn
    rw [List.nodup_append, List.nodup_append] at hn
    simp only [RunHandlers]
    rcases List.mem_cons.1 h with rfl | h
    · rintro t o (⟨_, h⟩ | ⟨_, h⟩)
      · refine seq_has hP (leaves_has hP fun l hl => ha _ fun m hm => ?_) hi _ _ h
        rw [List.mem_singleton.1 hm]
        exact fun hm => hn.2.2 l hl l (List.mem_append_left _ hm) rfl
      · refine ha t fun l hl hm => ?_
        exact hn.2.1.2.2 l hm l (handlers_among W rest x _ _ h l hl) rfl
    · have hsub := (clause_sublist h).subset
      rintro t o (⟨_, h'⟩ | ⟨_, h'⟩)
      · refine ha t fun l hl hm => ?_
        have := seq_has (among_closed (name.toList ++ b.locations)) (leaves_has (among_closed _) fun l hl => among_one (List.mem_append_left _ hl))
          ((body_among W b).mono fun _ => Among.mono (fun l hl => List.mem_append_right _ hl)) _ _ h' l hl
        rcases List.mem_append.1 this with hl | hl
        · exact hn.2.2 l hl l (List.mem_append_right _ (hsub hm)) rfl
        · exact hn.2.1.2.2 l hl l (hsub hm) rfl
      · exact clauses_has hi ha h hn.2.1.2.1 x _ _ h'

theorem suite_has (hi : Has P (RunBody W inner)) (ha : ∀ t, (∀ l ∈ t, l ∉ inner.locations) → P t) {s : Stmt} (hs : inner ∈ suites s)
    (hn : s.locations.Nodup) : Has P (Run W s) := by
  have one : ∀ {l : Nat}, l ∉ inner.locations → P [l] := fun h => ha _ fun m hm => by rw [List.mem_singleton.1 hm]; exact h
  have other : ∀ {b : Body}, (∀ l ∈ b.locations, l ∉ inner.locations) → Has P (RunBody W b) := fun {b} h t o hr =>
    ha t fun l hl => h l (body_among W b t o hr l hl)
  cases s with
  | simple l => cases hs
  | jump j l => cases hs
  | cond t b e =>
    simp only [Stmt.locations] at hn
    rw [List.nodup_cons, List.nodup_append] at hn
    simp only [suites, List.mem_cons, List.not_mem_nil, or_false] at hs
    simp only [Run]
    rcases hs with rfl | rfl
    · exact seq_has hP (leaf_has hP (one fun h => hn.1 (List.mem_append_left _ h)))
        (alt_has hi (other fun l hl hm => hn.2.2.2 l hm l hl rfl))
    · exact seq_has hP (leaf_has hP (one fun h => hn.1 (List.mem_append_right _ h)))
        (alt_has (other fun l hl hm => hn.2.2.2 l hl l hm rfl) hi)
  | loop t b e =>
    simp only [Stmt.locations] at hn
    rw [List.nodup_cons, List.nodup_append] at hn
    simp only [suites, List.mem_cons, List.not_mem_nil, or_false] at hs
    simp only [Run]
    rcases hs with rfl | rfl
    · have hl := leaf_has hP (W := W) (one fun h => hn.1 (List.mem_append_left _ h))
      exact loop_has hP hl hl hi (other fun l hl hm => hn.2.2.2 l hm l hl rfl)
    · have hl := leaf_has hP (W := W) (one fun h => hn.1 (List.mem_append_right _ h))
      exact loop_has hP hl hl (other fun l hl hm => hn.2.2.2 l hl l hm rfl) hi
  | each i t b e =>
    simp only [Stmt.locations] at hn
    rw [List.nodup_cons, List.nodup_cons, List.nodup_append] at hn
    simp only [suites, List.mem_cons, List.not_mem_nil, or_false] at hs
    simp only [Run]
    have hsk : ∀ {l : Nat}, Has P (Leaf W l) → Has P (if W.asks then Leaf W l else Skip) := by
      intro l hl
      split
      · exact hl
      · exact skip_has hP
    rcases hs with rfl | rfl
    · have hl := leaf_has hP (W := W) (one fun h => hn.2.1 (List.mem_append_left _ h))
      exact seq_has hP (leaf_has hP (one fun h => hn.1 (by simp [h])))
        (loop_has hP hl (hsk hl) hi (other fun l hl hm => hn.2.2.2.2 l hm l hl rfl))
    · have hl := leaf_has hP (W := W) (one fun h => hn.2.1 (List.mem_append_right _ h))
      exact seq_has hP (leaf_has hP (one fun h => hn.1 (by simp [h])))
        (loop_has hP hl (hsk hl) (other fun l hl hm => hn.2.2.2.2 l hl l hm rfl) hi)
  | enter i is b => cases hs
  | try_ f r hs' e fin =>
    simp only [Stmt.locations] at hn
    rw [← List.append_assoc] at hn
    obtain ⟨-, n0, n6⟩ := List.nodup_append.1 hn
    obtain ⟨n1, n2, n5⟩ := List.nodup_append.1 n0
    obtain ⟨-, -, n4⟩ := List.nodup_append.1 n2
    simp only [suites, List.mem_cons] at hs
    simp only [Run]
    have hbody : Has (Among (f.locations ++ r.locations)) (Seq (Run W f) (RunBody W r)) :=
      seq_has (among_closed _) ((run_among W f).mono fun _ => Among.mono fun l hl => List.mem_append_left _ hl)
        ((body_among W r).mono fun _ => Among.mono fun l hl => List.mem_append_right _ hl)
    rcases hs with rfl | rfl | hs
    · have hi' : Has P (Seq (Run W f) (RunBody W r)) := by simpa only [RunBody] using hi
      refine finally_has hP (try_has hP hi' (fun x t o hr => ha t fun l hl hm => ?_) (other fun l hl hm => ?_)) (other fun l hl hm => ?_)
      · exact n6 l hm l (List.mem_append_left _ (handlers_among W hs' x t o hr l hl)) rfl
      · exact n6 l hm l (by simp [hl]) rfl
      · exact n6 l hm l (by simp [hl]) rfl
    · refine finally_has hP (try_has hP (fun t o hr => ha t fun l hl hm => ?_) (fun x t o hr => ha t fun l hl hm => ?_) hi) (other fun l hl hm => ?_)
      · exact n6 l (hbody t o hr l hl) l (by simp [hm]) rfl
      · exact n5 l (handlers_among W hs' x t o hr l hl) l (by simp [hm]) rfl
      · exact n4 l hm l hl rfl
    · have hsub := (clause_sublist hs).subset
      refine finally_has hP (try_has hP (fun t o hr => ha t fun l hl hm => ?_) (clauses_has hP hi ha hs n1) (other fun l hl hm => ?_))
        (other fun l hl hm => ?_)
      · exact n6 l (hbody t o hr l hl) l (List.mem_append_left _ (hsub hm)) rfl
      · exact n5 l (hsub hm) l (by simp [hl]) rfl
      · exact n5 l (hsub hm) l (by simp [hl]) rfl
end

theorem run_append (W : World) : ∀ (b post : Body) {t o}, RunBody W (append b post) t o →
    ∃ t1 t2, t = t1 ++ t2 ∧ (∃ o1, RunBody W b t1 o1) ∧ (t2 = [] ∨ ∃ o2, RunBody W post t2 o2)
  | .nil, post, t, o, h => ⟨[], t, rfl, ⟨.normal, .ok⟩, .inr ⟨o, h⟩⟩
  | .cons s rest, post, t, o, h => by
    simp only [append, RunBody] at h
    cases h with
    | both h1 h2 =>
      rename_i t1 t2
      obtain ⟨u1, u2, rfl, ⟨o1, h3⟩, h4⟩ := run_append W rest post h2
      refine ⟨t1 ++ u1, u2, (List.append_assoc _ _ _).symm, ⟨o1, ?_⟩, h4⟩
      simp only [RunBody]
      exact .both h1 h3
    | first h1 h2 =>
      refine ⟨t, [], by simp, ⟨o, ?_⟩, .inl rfl⟩
      simp only [RunBody]
      exact .first h1 h2

/-- Statements in a program are entered at the location that the first one begins with. -/
theorem At.begins {W : World} {b p : Body} {last f : Bool} (h : At b last p f) {s : Stmt} {rest : Body} (hb : b = .cons s rest)
    (hn : p.locations.Nodup) : Has (Begins (first s) b.locations) (RunBody W p) := by
  have hc := begins_closed (first s) b.locations
  induction h with
  | here post =>
    rw [append_locations, List.nodup_append] at hn
    intro t o hr
    obtain ⟨t1, t2, rfl, ⟨o1, h1⟩, h2⟩ := run_append W b post hr
    refine hc.append (begins_own (body_among W b _ _ h1) ?_) ?_
    · subst hb
      simp only [RunBody] at h1
      rcases seq_begun (run_begun W s) _ _ h1 with h | h
      · exact .inl h.1
      · exact .inr h
    · rcases h2 with rfl | ⟨o2, h2⟩
      · exact hc.nil
      · exact begins_apart fun l hl hm => hn.2.2 l hm l (body_among W post _ _ h2 l hl) rfl
  | skip h ih =>
    simp only [Body.locations] at hn
    rw [List.nodup_append] at hn
    simp only [RunBody]
    refine seq_has hc (fun t o hr => begins_apart fun l hl hm => ?_) (ih hn.2.1)
    exact hn.2.2 l (run_among W _ t o hr l hl) l (h.sublist.subset hm) rfl
  | within hi _ h ih =>
    simp only [Body.locations] at hn
    rw [List.nodup_append] at hn
    simp only [RunBody]
    refine seq_has hc (suite_has hc (ih ((suite_sublist hi).nodup hn.1)) (fun t ha => begins_apart fun l hl hm => ?_) hi hn.1)
      (fun t o hr => begins_apart fun l hl hm => ?_)
    · exact ha l hl (h.sublist.subset hm)
    · exact hn.2.2 l ((suite_sublist hi).subset (h.sublist.subset hm)) l (body_among W _ t o hr l hl) rfl
  | enter h ih =>
    simp only [Body.locations, Stmt.locations] at hn
    rw [List.nodup_append, List.nodup_cons, List.nodup_append] at hn
    simp only [RunBody, Run]
    have hsub := h.sublist.subset
    refine seq_has hc (seq_has hc (leaf_has hc (begins_apart fun l hl hm => ?_)) (seq_has hc (leaves_has hc fun l hl => begins_apart fun l' hl' hm => ?_)
      (ih hn.1.2.2.1))) (fun t o hr => begins_apart fun l hl hm => ?_)
    · rw [List.mem_singleton.1 hl] at hm
      exact hn.1.1 (List.mem_append_right _ (hsub hm))
    · rw [List.mem_singleton.1 hl'] at hm
      exact hn.1.2.2.2 l hl l (hsub hm) rfl
    · exact hn.2.2 l (by simp [hsub hm]) l (body_among W _ t o hr l hl) rfl

end Verif.Inside

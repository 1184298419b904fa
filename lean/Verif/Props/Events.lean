import Verif.Model.Events
import Mathlib.Tactic.Cases

/-!
C116: what is recorded about the variables of a location is what executing it does with them.

What executing does is defined here independently of the visitor, from Python's order of evaluation; calls are taken to do nothing
with variables but what a method does with the object it is called on. A variable is said to be modified if an attribute or an
item of its object, or of one that is got at from it with attributes and subscripts, is set or deleted, or a method that modifies is
called on such an object. An exception ends an execution early, so that just a part of what is said here is done.
-/

namespace Verif.Events

open ForEach (nonPure)

/-- Evaluating an expression does this, if `M` are the methods that modify their object. -/
inductive Does (M : Str → Prop) : E → List Op → Prop where
  | const : Does M .const []
  | name x : Does M (.name x) [(.read, x)]
  | attr {e a t} : Does M e t → Does M (.attr e a) t
  | sub {e i t u} : Does M e t → Does M i u → Does M (.sub e i) (t ++ u)
  | call {f args t u} : Does M f t → Does M args u → Does M (.call f args) (t ++ u)
  | method {e a args t u x} : Does M e t → Does M args u → M a → root e = some x →
      Does M (.call (.attr e a) args) (t ++ u ++ [(.modify, x)])
  | arg {a b t u} : Does M a t → Does M b u → Does M (.arg a b) (t ++ u)
  | pair {a b t u} : Does M a t → Does M b u → Does M (.pair a b) (t ++ u)
  | shortOne {a b t} : Does M a t → Does M (.short a b) t
  | shortBoth {a b t u} : Does M a t → Does M b u → Does M (.short a b) (t ++ u)
  | condTrue {c a b t u} : Does M c t → Does M a u → Does M (.cond c a b) (t ++ u)
  | condFalse {c a b t u} : Does M c t → Does M b u → Does M (.cond c a b) (t ++ u)
  | walrus {x e t} : Does M e t → Does M (.walrus x e) (t ++ [(.store, x)])

/-- The variable whose object, or one that is got at from it, is modified if an attribute or an item of the value is set or deleted -/
def touches (e : E) : List Op := match root e with | some x => [(.modify, x)] | none => []

/-- Storing to a target does this. -/
inductive Stores (M : Str → Prop) : T → List Op → Prop where
  | nil : Stores M .nil []
  | name x : Stores M (.name x) [(.store, x)]
  | attr {e a t} : Does M e t → Stores M (.attr e a) (t ++ touches e)
  | sub {e i t u} : Does M e t → Does M i u → Stores M (.sub e i) (t ++ u ++ touches e)
  | tup {a b t u} : Stores M a t → Stores M b u → Stores M (.tup a b) (t ++ u)
  | lst {a b t u} : Stores M a t → Stores M b u → Stores M (.lst a b) (t ++ u)
  | star {a t} : Stores M a t → Stores M (.star a) t

/-- Deleting does this. -/
inductive Deletes (M : Str → Prop) : T → List Op → Prop where
  | nil : Deletes M .nil []
  | name x : Deletes M (.name x) [(.delete, x)]
  | attr {e a t} : Does M e t → Deletes M (.attr e a) (t ++ touches e)
  | sub {e i t u} : Does M e t → Does M i u → Deletes M (.sub e i) (t ++ u ++ touches e)
  | tup {a b t u} : Deletes M a t → Deletes M b u → Deletes M (.tup a b) (t ++ u)
  | lst {a b t u} : Deletes M a t → Deletes M b u → Deletes M (.lst a b) (t ++ u)

/-- The target is one that `x += …` and `x: …` may have. -/
def T.single : T → Prop
  | .name _ | .attr _ _ | .sub _ _ => True
  | _ => False

/-- Executing a statement does this. An annotation may be evaluated after the assignment, or not at all. -/
inductive Runs (M : Str → Prop) : S → List Op → Prop where
  | expr {e t} : Does M e t → Runs M (.expr e) t
  | assign {a e t u} : Does M e t → Stores M a u → Runs M (.assign a e) (t ++ u)
  | augName {x e t} : Does M e t → Runs M (.aug (.name x) e) ((.read, x) :: t ++ [(.store, x)])
  | augAttr {c a e t u} : Does M c t → Does M e u → Runs M (.aug (.attr c a) e) (t ++ u ++ touches c)
  | augSub {c i e t u v} : Does M c t → Does M i u → Does M e v → Runs M (.aug (.sub c i) e) (t ++ u ++ v ++ touches c)
  | ann {a b e t u v} : a.single → Does M e t → Stores M a u → Does M b v → Runs M (.ann a b (some e)) (t ++ u ++ v)
  | annQuiet {a b e t u} : a.single → Does M e t → Stores M a u → Runs M (.ann a b (some e)) (t ++ u)
  | annName {x b v} : Does M b v → Runs M (.ann (.name x) b none) v
  | annNameQuiet {x b} : Runs M (.ann (.name x) b none) []
  | annAttr {c a b t v} : Does M c t → Does M b v → Runs M (.ann (.attr c a) b none) (t ++ v)
  | annAttrQuiet {c a b t} : Does M c t → Runs M (.ann (.attr c a) b none) t
  | annSub {c i b t u v} : Does M c t → Does M i u → Does M b v → Runs M (.ann (.sub c i) b none) (t ++ u ++ v)
  | annSubQuiet {c i b t u} : Does M c t → Does M i u → Runs M (.ann (.sub c i) b none) (t ++ u)
  | del {a t} : Deletes M a t → Runs M (.del a) t
  | bind {a t} : Stores M a t → Runs M (.bind a) t

/-! ### What is recorded of what is done -/

/-- No item is set in the target where `visit` is used for it: `flat` says that it is, which is so in lists and below `*`. -/
def T.noItems (flat : Bool) : T → Prop
  | .nil | .name _ => True
  | .attr _ _ => True
  | .sub _ _ => flat = false
  | .tup t u => t.noItems flat ∧ u.noItems flat
  | .lst t u => t.noItems true ∧ u.noItems true
  | .star t => t.noItems true

/-- The expression is a name with attributes. -/
def E.path : E → Prop
  | .name _ => True
  | .attr e _ => e.path
  | _ => False

/-- Attributes in the target are just those of names, or of their attributes, and so on. -/
def T.paths : T → Prop
  | .nil | .name _ | .sub _ _ => True
  | .attr e _ => e.path
  | .tup t u | .lst t u => t.paths ∧ u.paths
  | .star t => t.paths

/-- No item of anything is in the target. -/
def T.noSubs : T → Prop
  | .nil | .name _ | .attr _ _ => True
  | .sub _ _ => False
  | .tup t u | .lst t u => t.noSubs ∧ u.noSubs
  | .star t => t.noSubs

/-- No attribute of anything is in the target. -/
def T.noAttrs : T → Prop
  | .nil | .name _ | .sub _ _ => True
  | .attr _ _ => False
  | .tup t u | .lst t u => t.noAttrs ∧ u.noAttrs
  | .star t => t.noAttrs

/-- Items are set just in assignments, not in lists or below `*`, and are not deleted; attributes are deleted just of names and
their attributes. -/
def S.Usual : S → Prop
  | .assign t _ => t.noItems false
  | .bind t => t.noItems true
  | .del t => t.noSubs ∧ t.paths
  | _ => True

/-- Attributes are deleted just of names and their attributes. -/
def S.DeletesPaths : S → Prop
  | .del t => t.paths
  | _ => True

/-- No attributes are deleted. -/
def S.KeepsAttrs : S → Prop
  | .del t => t.noAttrs
  | _ => True

theorem rooted_modify (e : E) : rooted .modify e = touches e := by
  unfold rooted touches
  cases root e <;> rfl

theorem root_mem_visE {e : E} {x : Str} (h : root e = some x) : ∀ b, (Kind.read, x) ∈ visE b e := by
  induction e with
  | name y => intro b; cases h; exact List.mem_singleton.2 rfl
  | attr e a ih => intro b; exact List.mem_append_right _ (ih h false)
  | sub e i ih _ => intro b; exact List.mem_append_left _ (ih h false)
  | _ => cases h

theorem does_recorded {M : Str → Prop} {e : E} {t : List Op} (h : Does M e t) : ∀ {o : Op},
    (o.1 = .modify → ∀ a, M a → nonPure a = true) → o ∈ t → ∀ b, o ∈ visE b e := by
  induction h with
  | const => intro o _ ho; cases ho
  | name x => intro o _ ho b; exact ho
  | attr _ ih => intro o hm ho b; exact List.mem_append_right _ (ih hm ho false)
  | sub _ _ ih ih' | pair _ _ ih ih' | shortBoth _ _ ih ih' =>
    intro o hm ho b
    rcases List.mem_append.1 ho with ho | ho
    · exact List.mem_append_left _ (ih hm ho false)
    · exact List.mem_append_right _ (ih' hm ho false)
  | call _ _ ih ih' | arg _ _ ih ih' =>
    intro o hm ho b
    rcases List.mem_append.1 ho with ho | ho
    · exact List.mem_append_left _ (ih hm ho true)
    · exact List.mem_append_right _ (ih' hm ho false)
  | @method e a args t u x _ _ hM hr ih ih' =>
    intro o hm ho b
    rcases List.mem_append.1 ho with ho | ho
    · rcases List.mem_append.1 ho with ho | ho
      · exact List.mem_append_left _ (List.mem_append_right _ (ih hm ho false))
      · exact List.mem_append_right _ (ih' hm ho false)
    · cases List.mem_singleton.1 ho
      have : nonPure a = true := hm rfl a hM
      refine List.mem_append_left _ (List.mem_append_left _ ?_)
      simp [this, rooted, hr]
  | shortOne _ ih => intro o hm ho b; exact List.mem_append_left _ (ih hm ho false)
  | condTrue _ _ ih ih' =>
    intro o hm ho b
    rcases List.mem_append.1 ho with ho | ho
    · exact List.mem_append_left _ (List.mem_append_left _ (ih hm ho false))
    · exact List.mem_append_left _ (List.mem_append_right _ (ih' hm ho false))
  | condFalse _ _ ih ih' =>
    intro o hm ho b
    rcases List.mem_append.1 ho with ho | ho
    · exact List.mem_append_left _ (List.mem_append_left _ (ih hm ho false))
    · exact List.mem_append_right _ (ih' hm ho false)
  | walrus _ ih =>
    intro o hm ho b
    rcases List.mem_append.1 ho with ho | ho
    · exact List.mem_cons_of_mem _ (ih hm ho false)
    · cases List.mem_singleton.1 ho
      exact List.mem_cons_self

theorem touches_kind {e : E} {o : Op} (h : o ∈ touches e) : o.1 = .modify := by
  unfold touches at h
  cases hr : root e with
  | none => simp [hr] at h
  | some x => simp [hr] at h; rw [h]

theorem stores_visT {M : Str → Prop} {a : T} {t : List Op} (h : Stores M a t) : ∀ {o : Op},
    (o.1 = .modify → (∀ a, M a → nonPure a = true) ∧ a.noItems true) → o ∈ t → o ∈ visT a := by
  induction h with
  | nil => intro o _ ho; cases ho
  | name x => intro o _ ho; exact ho
  | attr hd =>
    intro o hm ho
    rcases List.mem_append.1 ho with ho | ho
    · exact List.mem_append_right _ (does_recorded hd (fun h => (hm h).1) ho false)
    · exact List.mem_append_left _ (by rw [rooted_modify]; exact ho)
  | sub hd hd' =>
    intro o hm ho
    rcases List.mem_append.1 ho with ho | ho
    · rcases List.mem_append.1 ho with ho | ho
      · exact List.mem_append_left _ (does_recorded hd (fun h => (hm h).1) ho false)
      · exact List.mem_append_right _ (does_recorded hd' (fun h => (hm h).1) ho false)
    · have := (hm (touches_kind ho)).2
      cases this
  | tup _ _ ih ih' | lst _ _ ih ih' =>
    intro o hm ho
    rcases List.mem_append.1 ho with ho | ho
    · exact List.mem_append_left _ (ih (fun h => ⟨(hm h).1, (hm h).2.1⟩) ho)
    · exact List.mem_append_right _ (ih' (fun h => ⟨(hm h).1, (hm h).2.2⟩) ho)
  | star _ ih => intro o hm ho; exact ih (fun h => ⟨(hm h).1, (hm h).2⟩) ho

theorem stores_single {M : Str → Prop} {a : T} {t : List Op} (h : Stores M a t) (hs : a.single) {o : Op}
    (hm : o.1 = .modify → ∀ a, M a → nonPure a = true) (ho : o ∈ t) : o ∈ assigned a := by
  cases h with
  | name x => exact ho
  | attr hd =>
    rcases List.mem_append.1 ho with ho | ho
    · exact List.mem_append_left _ (does_recorded hd hm ho false)
    · exact List.mem_append_right _ (by rw [rooted_modify]; exact ho)
  | sub hd hd' =>
    rcases List.mem_append.1 ho with ho | ho
    · rcases List.mem_append.1 ho with ho | ho
      · exact List.mem_append_left _ (List.mem_append_left _ (does_recorded hd hm ho false))
      · exact List.mem_append_left _ (List.mem_append_right _ (does_recorded hd' hm ho false))
    · exact List.mem_append_right _ (by rw [rooted_modify]; exact ho)
  | _ => exact hs.elim

theorem stores_unpacked {M : Str → Prop} {a : T} {t : List Op} (h : Stores M a t) : ∀ {o : Op},
    (o.1 = .modify → (∀ a, M a → nonPure a = true) ∧ a.noItems false) → o ∈ t → o ∈ unpacked a := by
  induction h with
  | nil => intro o _ ho; cases ho
  | name x => intro o _ ho; exact ho
  | attr hd => intro o hm ho; exact stores_single (.attr hd) trivial (fun h => (hm h).1) ho
  | sub hd hd' => intro o hm ho; exact stores_single (.sub hd hd') trivial (fun h => (hm h).1) ho
  | tup _ _ ih ih' =>
    intro o hm ho
    rcases List.mem_append.1 ho with ho | ho
    · exact List.mem_append_left _ (ih (fun h => ⟨(hm h).1, (hm h).2.1⟩) ho)
    · exact List.mem_append_right _ (ih' (fun h => ⟨(hm h).1, (hm h).2.2⟩) ho)
  | lst h h' => intro o hm ho; exact stores_visT (.lst h h') hm ho
  | star h => intro o hm ho; exact stores_visT (.star h) hm ho

theorem does_path {M : Str → Prop} {e : E} {t : List Op} (h : Does M e t) (hp : e.path) {o : Op} (ho : o ∈ t) : o.1 = .read := by
  induction h with
  | name x => cases List.mem_singleton.1 ho; rfl
  | attr _ ih => exact ih hp ho
  | _ => exact hp.elim

theorem does_no_delete {M : Str → Prop} {e : E} {t : List Op} (h : Does M e t) {x : Str} : (Kind.delete, x) ∉ t := by
  induction h with
  | const => exact List.not_mem_nil
  | name y => simp
  | attr _ ih | shortOne _ ih => exact ih
  | _ => simp_all

/-- What has to be known of what is deleted for something to be recorded -/
def T.keeps (o : Op) (a : T) : Prop :=
  match o.1 with
  | .read => a.noAttrs
  | .store => a.paths
  | .modify => a.noSubs ∧ a.paths
  | .delete => True

theorem keeps_tup {o : Op} {a b : T} (h : (T.tup a b).keeps o) : a.keeps o ∧ b.keeps o := by
  rcases o with ⟨k, x⟩
  cases k <;> simp_all [T.keeps, T.noAttrs, T.paths, T.noSubs]

theorem keeps_lst {o : Op} {a b : T} (h : (T.lst a b).keeps o) : a.keeps o ∧ b.keeps o := by
  rcases o with ⟨k, x⟩
  cases k <;> simp_all [T.keeps, T.noAttrs, T.paths, T.noSubs]

theorem deletes_recorded {M : Str → Prop} {a : T} {t : List Op} (h : Deletes M a t) : ∀ {o : Op},
    (o.1 = .modify → ∀ a, M a → nonPure a = true) → a.keeps o → o ∈ t → o ∈ deleted a := by
  induction h with
  | nil => intro o _ _ ho; cases ho
  | name x => intro o _ _ ho; exact ho
  | @attr e a t hd =>
    intro o hm hn ho
    rcases List.mem_append.1 ho with ho | ho
    · rcases o with ⟨k, x⟩
      cases k with
      | read => exact hn.elim
      | store => exact nomatch does_path hd hn ho
      | modify => exact nomatch does_path hd hn.2 ho
      | delete => exact (does_no_delete hd ho).elim
    · exact (by rw [deleted, rooted_modify]; exact ho)
  | sub hd hd' =>
    intro o hm hn ho
    rcases List.mem_append.1 ho with ho | ho
    · rcases List.mem_append.1 ho with ho | ho
      · exact List.mem_append_left _ (does_recorded hd hm ho false)
      · exact List.mem_append_right _ (does_recorded hd' hm ho false)
    · rcases o with ⟨k, x⟩
      cases touches_kind ho
      exact hn.1.elim
  | tup _ _ ih ih' =>
    intro o hm hn ho
    rcases List.mem_append.1 ho with ho | ho
    · exact List.mem_append_left _ (ih hm (keeps_tup hn).1 ho)
    · exact List.mem_append_right _ (ih' hm (keeps_tup hn).2 ho)
  | lst _ _ ih ih' =>
    intro o hm hn ho
    rcases List.mem_append.1 ho with ho | ho
    · exact List.mem_append_left _ (ih hm (keeps_lst hn).1 ho)
    · exact List.mem_append_right _ (ih' hm (keeps_lst hn).2 ho)

/-- What has to be known of a statement for something to be recorded -/
def S.keeps (o : Op) (s : S) : Prop :=
  match o.1 with
  | .read => s.KeepsAttrs
  | .store => s.DeletesPaths
  | .modify => s.Usual
  | .delete => True

theorem runs_recorded {M : Str → Prop} {s : S} {t : List Op} (h : Runs M s t) {o : Op}
    (hm : o.1 = .modify → ∀ a, M a → nonPure a = true) (hs : s.keeps o) (ho : o ∈ t) : o ∈ ops s := by
  cases h with
  | expr h => exact does_recorded h hm ho false
  | assign h h' =>
    rcases List.mem_append.1 ho with ho | ho
    · exact List.mem_append_left _ (does_recorded h hm ho false)
    · refine List.mem_append_right _ (stores_unpacked h' (fun hk => ⟨hm hk, ?_⟩) ho)
      rcases o with ⟨k, x⟩
      cases hk
      exact hs
  | augName h =>
    rcases List.mem_append.1 ho with ho | ho
    · rcases List.mem_cons.1 ho with ho | ho
      · exact List.mem_append_left _ (List.mem_append_left _ (List.mem_singleton.2 ho))
      · exact List.mem_append_left _ (List.mem_append_right _ (does_recorded h hm ho false))
    · exact List.mem_append_right _ ho
  | augAttr h h' =>
    rcases List.mem_append.1 ho with ho | ho
    · rcases List.mem_append.1 ho with ho | ho
      · exact List.mem_append_right _ (List.mem_append_left _ (does_recorded h hm ho false))
      · exact List.mem_append_left _ (List.mem_append_right _ (does_recorded h' hm ho false))
    · exact List.mem_append_right _ (List.mem_append_right _ (by rw [rooted_modify]; exact ho))
  | augSub h h' h'' =>
    rcases List.mem_append.1 ho with ho | ho
    · rcases List.mem_append.1 ho with ho | ho
      · rcases List.mem_append.1 ho with ho | ho
        · exact List.mem_append_right _ (List.mem_append_left _ (List.mem_append_left _ (does_recorded h hm ho false)))
        · exact List.mem_append_right _ (List.mem_append_left _ (List.mem_append_right _ (does_recorded h' hm ho false)))
      · exact List.mem_append_left _ (List.mem_append_right _ (does_recorded h'' hm ho false))
    · exact List.mem_append_right _ (List.mem_append_right _ (by rw [rooted_modify]; exact ho))
  | ann ha h h' h'' =>
    rcases List.mem_append.1 ho with ho | ho
    · rcases List.mem_append.1 ho with ho | ho
      · exact List.mem_append_left _ (List.mem_append_right _ (does_recorded h hm ho false))
      · exact List.mem_append_right _ (stores_single h' ha hm ho)
    · exact List.mem_append_left _ (List.mem_append_left _ (does_recorded h'' hm ho false))
  | annQuiet ha h h' =>
    rcases List.mem_append.1 ho with ho | ho
    · exact List.mem_append_left _ (List.mem_append_right _ (does_recorded h hm ho false))
    · exact List.mem_append_right _ (stores_single h' ha hm ho)
  | annName h => exact List.mem_append_left _ (List.mem_append_left _ (does_recorded h hm ho false))
  | annNameQuiet => cases ho
  | annAttr h h' =>
    rcases List.mem_append.1 ho with ho | ho
    · exact List.mem_append_right _ (List.mem_append_left _ (does_recorded h hm ho false))
    · exact List.mem_append_left _ (List.mem_append_left _ (does_recorded h' hm ho false))
  | annAttrQuiet h => exact List.mem_append_right _ (List.mem_append_left _ (does_recorded h hm ho false))
  | annSub h h' h'' =>
    rcases List.mem_append.1 ho with ho | ho
    · rcases List.mem_append.1 ho with ho | ho
      · exact List.mem_append_right _ (List.mem_append_left _ (List.mem_append_left _ (does_recorded h hm ho false)))
      · exact List.mem_append_right _ (List.mem_append_left _ (List.mem_append_right _ (does_recorded h' hm ho false)))
    · exact List.mem_append_left _ (List.mem_append_left _ (does_recorded h'' hm ho false))
  | annSubQuiet h h' =>
    rcases List.mem_append.1 ho with ho | ho
    · exact List.mem_append_right _ (List.mem_append_left _ (List.mem_append_left _ (does_recorded h hm ho false)))
    · exact List.mem_append_right _ (List.mem_append_left _ (List.mem_append_right _ (does_recorded h' hm ho false)))
  | del h =>
    refine deletes_recorded h hm ?_ ho
    rcases o with ⟨k, x⟩
    cases k <;> exact hs
  | bind h =>
    refine stores_visT h (fun hk => ⟨hm hk, ?_⟩) ho
    rcases o with ⟨k, x⟩
    cases hk
    exact hs

/-! ### Recording -/

/-- What is done with a variable according to an event -/
def EvType.kind : EvType → Kind
  | .assign | .reassign => .store
  | .modify => .modify
  | .read => .read
  | .delete => .delete

theorem known_enter {σ : Stack} {x y : Str} (h : known σ x = true) : known (enter y σ) x = true := by
  cases σ with
  | nil => exact h
  | cons d σ =>
    simp only [known, enter, List.any_cons, Bool.or_eq_true] at h ⊢
    rcases h with h | h
    · left; split
      · exact h
      · simp at h ⊢; exact .inr h
    · exact .inr h

theorem known_leave {x y : Str} (hxy : x ≠ y) : ∀ {σ : Stack}, known σ x = true → known (leave y σ) x = true
  | [], h => h
  | d :: σ, h => by
    simp only [known, leave, List.any_cons, Bool.or_eq_true] at h ⊢
    split
    · simp only [List.any_cons, Bool.or_eq_true]
      rcases h with h | h
      · left; simp at h ⊢; exact ⟨h, hxy⟩
      · exact .inr h
    · simp only [List.any_cons, Bool.or_eq_true]
      rcases h with h | h
      · exact .inl h
      · exact .inr (known_leave hxy h)

/-- What is recorded of a variable that is known and not deleted -/
theorem record_known {x : Str} : ∀ (l : List Op) (σ : Stack), known σ x = true → (Kind.delete, x) ∉ l →
    ((record σ l).1.filter (fun e => decide (e.2 = x))).map (fun e => (e.1.kind, e.2)) = l.filter (fun o => decide (o.2 = x))
  | [], σ, _, _ => rfl
  | (k, y) :: l, σ, h, hd => by
    have hd' : (Kind.delete, x) ∉ l := fun hm => hd (List.mem_cons_of_mem _ hm)
    by_cases hxy : y = x
    · subst hxy
      cases k with
      | read => simp only [record, h, if_true, List.filter_cons_of_pos, decide_true, List.map_cons, record_known l σ h hd']; rfl
      | store =>
        simp only [record, List.filter_cons_of_pos, decide_true, List.map_cons]
        rw [record_known l _ (known_enter h) hd']
        split <;> rfl
      | modify => simp only [record, h, if_true, List.filter_cons_of_pos, decide_true, List.map_cons, record_known l σ h hd']; rfl
      | delete => exact (hd List.mem_cons_self).elim
    · have hxy' : x ≠ y := fun h => hxy h.symm
      cases k with
      | read => simp only [record]; split <;> simp [hxy, record_known l σ h hd']
      | store => simp [record, hxy, record_known l _ (known_enter h) hd']
      | modify => simp only [record]; split <;> simp [hxy, record_known l σ h hd']
      | delete => simp only [record]; split <;> simp [hxy, record_known l _ (known_leave hxy' h) hd']

theorem record_mem {σ : Stack} {l : List Op} {k : EvType} {x : Str} (h : (k, x) ∈ (record σ l).1) : (k.kind, x) ∈ l := by
  induction l generalizing σ with
  | nil => cases h
  | cons o l ih =>
    rcases o with ⟨k', y⟩
    cases k' with
    | store =>
      rcases List.mem_cons.1 h with h | h
      · split at h <;> cases h <;> exact List.mem_cons_self
      · exact List.mem_cons_of_mem _ (ih h)
    | _ =>
      simp only [record] at h
      split at h
      · rcases List.mem_cons.1 h with h | h
        · cases h; exact List.mem_cons_self
        · exact List.mem_cons_of_mem _ (ih h)
      · exact List.mem_cons_of_mem _ (ih h)

theorem record_store {x : Str} : ∀ {l : List Op} {σ : Stack}, (Kind.store, x) ∈ l →
    (EvType.assign, x) ∈ (record σ l).1 ∨ (EvType.reassign, x) ∈ (record σ l).1
  | (k, y) :: l, σ, h => by
    rcases List.mem_cons.1 h with h1 | h1
    · cases h1
      simp only [record]
      split
      · exact .inr List.mem_cons_self
      · exact .inl List.mem_cons_self
    · cases k with
      | store => exact (record_store (σ := enter y σ) h1).imp (List.mem_cons_of_mem _) (List.mem_cons_of_mem _)
      | _ =>
        simp only [record]
        split
        · exact (record_store h1).imp (List.mem_cons_of_mem _) (List.mem_cons_of_mem _)
        · exact record_store h1

theorem visE_no_delete {x : Str} : ∀ (e : E) (b : Bool), (Kind.delete, x) ∉ visE b e := by
  intro e
  induction e with
  | attr e a ih =>
    intro b h
    rcases List.mem_append.1 h with h | h
    · split at h
      · rw [rooted_modify] at h; exact nomatch touches_kind h
      · cases h
    · exact ih _ h
  | _ => simp_all [visE]

theorem touches_no_delete {x : Str} {e : E} : (Kind.delete, x) ∉ touches e := fun h => nomatch touches_kind h

theorem visT_no_delete {x : Str} : ∀ t : T, (Kind.delete, x) ∉ visT t := by
  intro t
  induction t with
  | _ => simp_all [visT, visE_no_delete, rooted_modify, touches_no_delete]

theorem assigned_no_delete {x : Str} (t : T) : (Kind.delete, x) ∉ assigned t := by
  cases t with
  | _ => simp [assigned, visT_no_delete, visE_no_delete, rooted_modify, touches_no_delete]

theorem unpacked_no_delete {x : Str} : ∀ t : T, (Kind.delete, x) ∉ unpacked t := by
  intro t
  induction t with
  | tup t u ih ih' => simp_all [unpacked]
  | _ => simp only [unpacked]; exact assigned_no_delete _

theorem readTarget_no_delete {x : Str} (t : T) : (Kind.delete, x) ∉ readTarget t := by
  cases t with
  | _ => simp [readTarget, rooted]

theorem deleted_delete {M : Str → Prop} {x : Str} {a : T} {t : List Op} (h : Deletes M a t) (hd : (Kind.delete, x) ∈ deleted a) :
    (Kind.delete, x) ∈ t := by
  induction h with
  | nil => exact hd
  | name y => exact hd
  | attr _ => rw [deleted, rooted_modify] at hd; exact (touches_no_delete hd).elim
  | sub _ _ => simp [deleted, visE_no_delete] at hd
  | tup _ _ ih ih' | lst _ _ ih ih' =>
    rcases List.mem_append.1 hd with hd | hd
    · exact List.mem_append_left _ (ih hd)
    · exact List.mem_append_right _ (ih' hd)

theorem ops_delete {M : Str → Prop} {s : S} {t : List Op} (h : Runs M s t) {x : Str} (hd : (Kind.delete, x) ∈ ops s) :
    (Kind.delete, x) ∈ t := by
  cases h with
  | del h => exact deleted_delete h hd
  | _ => simp [ops, visE_no_delete, unpacked_no_delete, assigned_no_delete, readTarget_no_delete, visT_no_delete] at hd

theorem record_kept {σ : Stack} {x : Str} {l : List Op} (hσ : known σ x = true) (hd : (Kind.delete, x) ∉ l) {k : Kind}
    (h : (k, x) ∈ l) : ∃ e, e.kind = k ∧ (e, x) ∈ (record σ l).1 := by
  have : (k, x) ∈ l.filter (fun o => decide (o.2 = x)) := List.mem_filter.2 ⟨h, by simp⟩
  rw [← record_known l σ hσ hd] at this
  obtain ⟨e, he, heq⟩ := List.mem_map.1 this
  obtain ⟨he1, hx⟩ := List.mem_filter.1 he
  rcases e with ⟨e, y⟩
  cases heq
  exact ⟨e, rfl, he1⟩

/-! ### What is done is recorded -/

/-- C116: if a statement assigns to a variable then that is recorded. -/
theorem C116_stores_partial {M : Str → Prop} {s : S} {t : List Op} {x : Str} (σ : Stack) (h : Runs M s t) (hs : s.DeletesPaths)
    (ht : (.store, x) ∈ t) : (.assign, x) ∈ events σ s ∨ (.reassign, x) ∈ events σ s :=
  record_store (runs_recorded h (fun h => nomatch h) hs ht)

/-- C116: if a statement reads a variable that is known, and does not delete it, then that is recorded. -/
theorem C116_reads_partial {M : Str → Prop} {s : S} {t : List Op} {x : Str} {σ : Stack} (h : Runs M s t) (hs : s.KeepsAttrs)
    (hσ : known σ x = true) (hd : (.delete, x) ∉ t) (ht : (.read, x) ∈ t) : (.read, x) ∈ events σ s := by
  obtain ⟨e, he, hm⟩ := record_kept hσ (fun h' => hd (ops_delete h h')) (runs_recorded (o := (.read, x)) h (fun h => nomatch h) hs ht)
  cases e <;> cases he
  exact hm

/-- C116: if a statement modifies a variable that is known, and does not delete it, then that is recorded. -/
theorem C116_modifies_partial {M : Str → Prop} {s : S} {t : List Op} {x : Str} {σ : Stack} (h : Runs M s t) (hs : s.Usual)
    (hM : ∀ a, M a → nonPure a = true) (hσ : known σ x = true) (hd : (.delete, x) ∉ t) (ht : (.modify, x) ∈ t) :
    (.modify, x) ∈ events σ s := by
  obtain ⟨e, he, hm⟩ := record_kept hσ (fun h' => hd (ops_delete h h')) (runs_recorded (o := (.modify, x)) h (fun _ => hM) hs ht)
  cases e <;> cases he
  exact hm

theorem record_delete {x : Str} : ∀ {l : List Op} {σ : Stack}, known σ x = true → (Kind.delete, x) ∈ l →
    (EvType.delete, x) ∈ (record σ l).1
  | (k, y) :: l, σ, hσ, h => by
    cases k with
    | store =>
      rcases List.mem_cons.1 h with h1 | h1
      · cases h1
      · exact List.mem_cons_of_mem _ (record_delete (known_enter hσ) h1)
    | delete =>
      by_cases hy : x = y
      · subst hy; simp [record, hσ]
      · rcases List.mem_cons.1 h with h1 | h1
        · cases h1; exact (hy rfl).elim
        · have := record_delete (known_leave hy hσ) h1
          simp only [record]
          split
          · exact List.mem_cons_of_mem _ this
          · exact this
    | _ =>
      rcases List.mem_cons.1 h with h1 | h1
      · cases h1
      · have := record_delete hσ h1
        simp only [record]
        split
        · exact List.mem_cons_of_mem _ this
        · exact this

/-- C116: if a statement deletes a variable that is known then that is recorded. -/
theorem C116_deletes {M : Str → Prop} {s : S} {t : List Op} {x : Str} {σ : Stack} (h : Runs M s t) (hσ : known σ x = true)
    (ht : (.delete, x) ∈ t) : (.delete, x) ∈ events σ s :=
  record_delete hσ (runs_recorded h (fun h => nomatch h) trivial ht)

/-! ### What is recorded may be done -/

/-- The expression is a method that is taken to modify its object. -/
def E.isMethod : E → Prop
  | .attr _ a => nonPure a = true
  | _ => False

/-- Methods that are taken to modify their objects are not given to functions. -/
def E.calls : E → Prop
  | .const | .name _ => True
  | .attr e _ | .walrus _ e => e.calls
  | .arg a rest => ¬ a.isMethod ∧ a.calls ∧ rest.calls
  | .sub a b | .call a b | .pair a b | .short a b => a.calls ∧ b.calls
  | .cond c a b => c.calls ∧ a.calls ∧ b.calls

/-- The same of the expressions in a target -/
def T.calls : T → Prop
  | .nil | .name _ => True
  | .attr e _ => e.calls
  | .sub e i => e.calls ∧ i.calls
  | .tup t u | .lst t u => t.calls ∧ u.calls
  | .star t => t.calls

/-- The same of a statement -/
def S.calls : S → Prop
  | .expr e => e.calls
  | .assign t e | .aug t e => t.calls ∧ e.calls
  | .ann t a none => t.calls ∧ a.calls
  | .ann t a (some v) => t.calls ∧ a.calls ∧ v.calls
  | .del t | .bind t => t.calls

/-- Nothing is starred. -/
def T.noStars : T → Prop
  | .nil | .name _ | .attr _ _ | .sub _ _ => True
  | .tup t u | .lst t u => t.noStars ∧ u.noStars
  | .star _ => False

/-- Python's grammar: `+=` and annotations have one target, and nothing is starred in `del`. -/
def S.Grammatical : S → Prop
  | .aug t _ | .ann t _ _ => t.single
  | .del t => t.noStars
  | _ => True

/-- The statement is not an annotation without a value. -/
def S.HasValue : S → Prop
  | .ann _ _ none => False
  | _ => True

theorem does_some (M : Str → Prop) : ∀ e, ∃ t, Does M e t := by
  intro e
  induction e with
  | const => exact ⟨_, .const⟩
  | name x => exact ⟨_, .name x⟩
  | attr e a ih => exact ih.imp fun t h => .attr h
  | sub e i ih ih' => obtain ⟨t, h⟩ := ih; obtain ⟨u, h'⟩ := ih'; exact ⟨_, .sub h h'⟩
  | call e i ih ih' => obtain ⟨t, h⟩ := ih; obtain ⟨u, h'⟩ := ih'; exact ⟨_, .call h h'⟩
  | arg e i ih ih' => obtain ⟨t, h⟩ := ih; obtain ⟨u, h'⟩ := ih'; exact ⟨_, .arg h h'⟩
  | pair e i ih ih' => obtain ⟨t, h⟩ := ih; obtain ⟨u, h'⟩ := ih'; exact ⟨_, .pair h h'⟩
  | short e i ih ih' => obtain ⟨t, h⟩ := ih; exact ⟨_, .shortOne h⟩
  | cond c a b ih ih' _ => obtain ⟨t, h⟩ := ih; obtain ⟨u, h'⟩ := ih'; exact ⟨_, .condTrue h h'⟩
  | walrus x e ih => obtain ⟨t, h⟩ := ih; exact ⟨_, .walrus h⟩

theorem stores_some (M : Str → Prop) : ∀ a, ∃ t, Stores M a t := by
  intro a
  induction a with
  | nil => exact ⟨_, .nil⟩
  | name x => exact ⟨_, .name x⟩
  | attr e a => exact (does_some M e).elim fun t h => ⟨_, .attr h⟩
  | sub e i => exact (does_some M e).elim fun t h => (does_some M i).elim fun u h' => ⟨_, .sub h h'⟩
  | tup a b ih ih' => exact ih.elim fun t h => ih'.elim fun u h' => ⟨_, .tup h h'⟩
  | lst a b ih ih' => exact ih.elim fun t h => ih'.elim fun u h' => ⟨_, .lst h h'⟩
  | star a ih => exact ih.elim fun t h => ⟨_, .star h⟩

theorem deletes_some (M : Str → Prop) : ∀ a : T, a.noStars → ∃ t, Deletes M a t := by
  intro a
  induction a with
  | nil => exact fun _ => ⟨_, .nil⟩
  | name x => exact fun _ => ⟨_, .name x⟩
  | attr e a => exact fun _ => (does_some M e).elim fun t h => ⟨_, .attr h⟩
  | sub e i => exact fun _ => (does_some M e).elim fun t h => (does_some M i).elim fun u h' => ⟨_, .sub h h'⟩
  | tup a b ih ih' => exact fun hs => (ih hs.1).elim fun t h => (ih' hs.2).elim fun u h' => ⟨_, .tup h h'⟩
  | lst a b ih ih' => exact fun hs => (ih hs.1).elim fun t h => (ih' hs.2).elim fun u h' => ⟨_, .lst h h'⟩
  | star a ih => exact fun hs => hs.elim

theorem visE_call {e : E} {o : Op} (h : o ∈ visE true e) :
    o ∈ visE false e ∨ ∃ c a, e = .attr c a ∧ nonPure a = true ∧ o ∈ touches c := by
  cases e with
  | attr c a =>
    rcases List.mem_append.1 h with h | h
    · split at h
      · rename_i hp
        rw [rooted_modify] at h
        exact .inr ⟨c, a, rfl, by simpa using hp, h⟩
      · cases h
    · exact .inl (List.mem_append_right _ h)
  | _ => exact .inl h

theorem mem_touches {e : E} {o : Op} (h : o ∈ touches e) : ∃ x, root e = some x ∧ o = (.modify, x) := by
  unfold touches at h
  cases hr : root e with
  | none => simp [hr] at h
  | some x => simp [hr] at h; exact ⟨x, rfl, h⟩

theorem visE_done {M : Str → Prop} {o : Op} : ∀ {e : E}, (o.1 = .modify → (∀ a, nonPure a = true → M a) ∧ e.calls) →
    o ∈ visE false e → ∃ t, Does M e t ∧ o ∈ t := by
  intro e
  induction e with
  | const => intro _ h; cases h
  | name x => intro _ h; exact ⟨_, .name x, h⟩
  | attr e a ih =>
    intro hq h
    obtain ⟨t, ht, ho⟩ := ih hq (by simpa [visE] using h)
    exact ⟨t, .attr ht, ho⟩
  | sub a b ih ih' =>
    intro hq h
    rcases List.mem_append.1 h with h | h
    · obtain ⟨t, ht, ho⟩ := ih (fun k => ⟨(hq k).1, (hq k).2.1⟩) h
      obtain ⟨u, hu⟩ := does_some M b
      exact ⟨_, .sub ht hu, List.mem_append_left _ ho⟩
    · obtain ⟨t, ht, ho⟩ := ih' (fun k => ⟨(hq k).1, (hq k).2.2⟩) h
      obtain ⟨u, hu⟩ := does_some M a
      exact ⟨_, .sub hu ht, List.mem_append_right _ ho⟩
  | pair a b ih ih' =>
    intro hq h
    rcases List.mem_append.1 h with h | h
    · obtain ⟨t, ht, ho⟩ := ih (fun k => ⟨(hq k).1, (hq k).2.1⟩) h
      obtain ⟨u, hu⟩ := does_some M b
      exact ⟨_, .pair ht hu, List.mem_append_left _ ho⟩
    · obtain ⟨t, ht, ho⟩ := ih' (fun k => ⟨(hq k).1, (hq k).2.2⟩) h
      obtain ⟨u, hu⟩ := does_some M a
      exact ⟨_, .pair hu ht, List.mem_append_right _ ho⟩
  | short a b ih ih' =>
    intro hq h
    rcases List.mem_append.1 h with h | h
    · obtain ⟨t, ht, ho⟩ := ih (fun k => ⟨(hq k).1, (hq k).2.1⟩) h
      exact ⟨_, .shortOne ht, ho⟩
    · obtain ⟨t, ht, ho⟩ := ih' (fun k => ⟨(hq k).1, (hq k).2.2⟩) h
      obtain ⟨u, hu⟩ := does_some M a
      exact ⟨_, .shortBoth hu ht, List.mem_append_right _ ho⟩
  | cond c a b ihc ih ih' =>
    intro hq h
    rcases List.mem_append.1 h with h | h
    · rcases List.mem_append.1 h with h | h
      · obtain ⟨t, ht, ho⟩ := ihc (fun k => ⟨(hq k).1, (hq k).2.1⟩) h
        obtain ⟨u, hu⟩ := does_some M a
        exact ⟨_, .condTrue ht hu, List.mem_append_left _ ho⟩
      · obtain ⟨t, ht, ho⟩ := ih (fun k => ⟨(hq k).1, (hq k).2.2.1⟩) h
        obtain ⟨u, hu⟩ := does_some M c
        exact ⟨_, .condTrue hu ht, List.mem_append_right _ ho⟩
    · obtain ⟨t, ht, ho⟩ := ih' (fun k => ⟨(hq k).1, (hq k).2.2.2⟩) h
      obtain ⟨u, hu⟩ := does_some M c
      exact ⟨_, .condFalse hu ht, List.mem_append_right _ ho⟩
  | walrus x e ih =>
    intro hq h
    rcases List.mem_cons.1 h with h | h
    · obtain ⟨u, hu⟩ := does_some M e
      exact ⟨_, .walrus hu, List.mem_append_right _ (List.mem_singleton.2 h)⟩
    · obtain ⟨t, ht, ho⟩ := ih hq h
      exact ⟨_, .walrus ht, List.mem_append_left _ ho⟩
  | arg a b ih ih' =>
    intro hq h
    rcases List.mem_append.1 h with h | h
    · rcases visE_call h with h | ⟨c, m, hc, hm, ho⟩
      · obtain ⟨t, ht, ho⟩ := ih (fun k => ⟨(hq k).1, (hq k).2.2.1⟩) h
        obtain ⟨u, hu⟩ := does_some M b
        exact ⟨_, .arg ht hu, List.mem_append_left _ ho⟩
      · exact ((hq (touches_kind ho)).2.1 (by rw [hc]; exact hm)).elim
    · obtain ⟨t, ht, ho⟩ := ih' (fun k => ⟨(hq k).1, (hq k).2.2.2⟩) h
      obtain ⟨u, hu⟩ := does_some M a
      exact ⟨_, .arg hu ht, List.mem_append_right _ ho⟩
  | call f b ih ih' =>
    intro hq h
    rcases List.mem_append.1 h with h | h
    · rcases visE_call h with h | ⟨c, m, hc, hm, ho⟩
      · obtain ⟨t, ht, ho⟩ := ih (fun k => ⟨(hq k).1, (hq k).2.1⟩) h
        obtain ⟨u, hu⟩ := does_some M b
        exact ⟨_, .call ht hu, List.mem_append_left _ ho⟩
      · subst hc
        obtain ⟨x, hr, ho'⟩ := mem_touches ho
        obtain ⟨t, ht⟩ := does_some M c
        obtain ⟨u, hu⟩ := does_some M b
        exact ⟨_, .method ht hu ((hq (touches_kind ho)).1 m hm) hr, List.mem_append_right _ (List.mem_singleton.2 ho')⟩
    · obtain ⟨t, ht, ho⟩ := ih' (fun k => ⟨(hq k).1, (hq k).2.2⟩) h
      obtain ⟨u, hu⟩ := does_some M f
      exact ⟨_, .call hu ht, List.mem_append_right _ ho⟩

theorem visT_done {M : Str → Prop} {o : Op} : ∀ {a : T}, (o.1 = .modify → (∀ a, nonPure a = true → M a) ∧ a.calls) →
    o ∈ visT a → ∃ t, Stores M a t ∧ o ∈ t := by
  intro a
  induction a with
  | nil => intro _ h; cases h
  | name x => intro _ h; exact ⟨_, .name x, h⟩
  | attr e a =>
    intro hq h
    rcases List.mem_append.1 h with h | h
    · rw [rooted_modify] at h
      obtain ⟨t, ht⟩ := does_some M e
      exact ⟨_, .attr ht, List.mem_append_right _ h⟩
    · obtain ⟨t, ht, ho⟩ := visE_done hq h
      exact ⟨_, .attr ht, List.mem_append_left _ ho⟩
  | sub e i =>
    intro hq h
    rcases List.mem_append.1 h with h | h
    · obtain ⟨t, ht, ho⟩ := visE_done (fun k => ⟨(hq k).1, (hq k).2.1⟩) h
      obtain ⟨u, hu⟩ := does_some M i
      exact ⟨_, .sub ht hu, List.mem_append_left _ (List.mem_append_left _ ho)⟩
    · obtain ⟨t, ht, ho⟩ := visE_done (fun k => ⟨(hq k).1, (hq k).2.2⟩) h
      obtain ⟨u, hu⟩ := does_some M e
      exact ⟨_, .sub hu ht, List.mem_append_left _ (List.mem_append_right _ ho)⟩
  | tup a b ih ih' =>
    intro hq h
    rcases List.mem_append.1 h with h | h
    · obtain ⟨t, ht, ho⟩ := ih (fun k => ⟨(hq k).1, (hq k).2.1⟩) h
      obtain ⟨u, hu⟩ := stores_some M b
      exact ⟨_, .tup ht hu, List.mem_append_left _ ho⟩
    · obtain ⟨t, ht, ho⟩ := ih' (fun k => ⟨(hq k).1, (hq k).2.2⟩) h
      obtain ⟨u, hu⟩ := stores_some M a
      exact ⟨_, .tup hu ht, List.mem_append_right _ ho⟩
  | lst a b ih ih' =>
    intro hq h
    rcases List.mem_append.1 h with h | h
    · obtain ⟨t, ht, ho⟩ := ih (fun k => ⟨(hq k).1, (hq k).2.1⟩) h
      obtain ⟨u, hu⟩ := stores_some M b
      exact ⟨_, .lst ht hu, List.mem_append_left _ ho⟩
    · obtain ⟨t, ht, ho⟩ := ih' (fun k => ⟨(hq k).1, (hq k).2.2⟩) h
      obtain ⟨u, hu⟩ := stores_some M a
      exact ⟨_, .lst hu ht, List.mem_append_right _ ho⟩
  | star a ih =>
    intro hq h
    obtain ⟨t, ht, ho⟩ := ih hq h
    exact ⟨_, .star ht, ho⟩

theorem assigned_done {M : Str → Prop} {o : Op} {a : T} (hq : o.1 = .modify → (∀ a, nonPure a = true → M a) ∧ a.calls)
    (h : o ∈ assigned a) : ∃ t, Stores M a t ∧ o ∈ t := by
  cases a with
  | attr e a =>
    rcases List.mem_append.1 h with h | h
    · exact visT_done hq (List.mem_append_right _ h)
    · exact visT_done hq (List.mem_append_left _ h)
  | sub e i =>
    rcases List.mem_append.1 h with h | h
    · exact visT_done hq h
    · rw [rooted_modify] at h
      obtain ⟨t, ht⟩ := does_some M e
      obtain ⟨u, hu⟩ := does_some M i
      exact ⟨_, .sub ht hu, List.mem_append_right _ h⟩
  | _ => exact visT_done hq h

theorem unpacked_done {M : Str → Prop} {o : Op} : ∀ {a : T}, (o.1 = .modify → (∀ a, nonPure a = true → M a) ∧ a.calls) →
    o ∈ unpacked a → ∃ t, Stores M a t ∧ o ∈ t := by
  intro a
  induction a with
  | tup a b ih ih' =>
    intro hq h
    rcases List.mem_append.1 h with h | h
    · obtain ⟨t, ht, ho⟩ := ih (fun k => ⟨(hq k).1, (hq k).2.1⟩) h
      obtain ⟨u, hu⟩ := stores_some M b
      exact ⟨_, .tup ht hu, List.mem_append_left _ ho⟩
    · obtain ⟨t, ht, ho⟩ := ih' (fun k => ⟨(hq k).1, (hq k).2.2⟩) h
      obtain ⟨u, hu⟩ := stores_some M a
      exact ⟨_, .tup hu ht, List.mem_append_right _ ho⟩
  | _ => intro hq h; exact assigned_done hq h

theorem deleted_done {M : Str → Prop} {o : Op} : ∀ {a : T}, a.noStars → (o.1 = .modify → (∀ a, nonPure a = true → M a) ∧ a.calls) →
    o ∈ deleted a → ∃ t, Deletes M a t ∧ o ∈ t := by
  intro a
  induction a with
  | nil => intro _ _ h; cases h
  | name x => intro _ _ h; exact ⟨_, .name x, h⟩
  | attr e a =>
    intro _ hq h
    rw [deleted, rooted_modify] at h
    obtain ⟨t, ht⟩ := does_some M e
    exact ⟨_, .attr ht, List.mem_append_right _ h⟩
  | sub e i =>
    intro _ hq h
    rcases List.mem_append.1 h with h | h
    · obtain ⟨t, ht, ho⟩ := visE_done (fun k => ⟨(hq k).1, (hq k).2.1⟩) h
      obtain ⟨u, hu⟩ := does_some M i
      exact ⟨_, .sub ht hu, List.mem_append_left _ (List.mem_append_left _ ho)⟩
    · obtain ⟨t, ht, ho⟩ := visE_done (fun k => ⟨(hq k).1, (hq k).2.2⟩) h
      obtain ⟨u, hu⟩ := does_some M e
      exact ⟨_, .sub hu ht, List.mem_append_left _ (List.mem_append_right _ ho)⟩
  | tup a b ih ih' =>
    intro hs hq h
    rcases List.mem_append.1 h with h | h
    · obtain ⟨t, ht, ho⟩ := ih hs.1 (fun k => ⟨(hq k).1, (hq k).2.1⟩) h
      obtain ⟨u, hu⟩ := deletes_some M b hs.2
      exact ⟨_, .tup ht hu, List.mem_append_left _ ho⟩
    · obtain ⟨t, ht, ho⟩ := ih' hs.2 (fun k => ⟨(hq k).1, (hq k).2.2⟩) h
      obtain ⟨u, hu⟩ := deletes_some M a hs.1
      exact ⟨_, .tup hu ht, List.mem_append_right _ ho⟩
  | lst a b ih ih' =>
    intro hs hq h
    rcases List.mem_append.1 h with h | h
    · obtain ⟨t, ht, ho⟩ := ih hs.1 (fun k => ⟨(hq k).1, (hq k).2.1⟩) h
      obtain ⟨u, hu⟩ := deletes_some M b hs.2
      exact ⟨_, .lst ht hu, List.mem_append_left _ ho⟩
    · obtain ⟨t, ht, ho⟩ := ih' hs.2 (fun k => ⟨(hq k).1, (hq k).2.2⟩) h
      obtain ⟨u, hu⟩ := deletes_some M a hs.1
      exact ⟨_, .lst hu ht, List.mem_append_right _ ho⟩
  | star a ih => intro hs; exact hs.elim

theorem ops_done {M : Str → Prop} {o : Op} {s : S} (hg : s.Grammatical) (hv : o.1 ≠ .read → s.HasValue)
    (hq : o.1 = .modify → (∀ a, nonPure a = true → M a) ∧ s.calls) (h : o ∈ ops s) : ∃ t, Runs M s t ∧ o ∈ t := by
  cases s with
  | expr e =>
    obtain ⟨t, ht, ho⟩ := visE_done hq h
    exact ⟨t, .expr ht, ho⟩
  | assign a e =>
    rcases List.mem_append.1 h with h | h
    · obtain ⟨t, ht, ho⟩ := visE_done (fun k => ⟨(hq k).1, (hq k).2.2⟩) h
      obtain ⟨u, hu⟩ := stores_some M a
      exact ⟨_, .assign ht hu, List.mem_append_left _ ho⟩
    · obtain ⟨t, ht, ho⟩ := unpacked_done (fun k => ⟨(hq k).1, (hq k).2.1⟩) h
      obtain ⟨u, hu⟩ := does_some M e
      exact ⟨_, .assign hu ht, List.mem_append_right _ ho⟩
  | del a =>
    obtain ⟨t, ht, ho⟩ := deleted_done hg hq h
    exact ⟨t, .del ht, ho⟩
  | bind a =>
    obtain ⟨t, ht, ho⟩ := visT_done hq h
    exact ⟨t, .bind ht, ho⟩
  | aug a e =>
    obtain ⟨u, hu⟩ := does_some M e
    cases a with
    | name x =>
      rcases List.mem_append.1 h with h | h
      · rcases List.mem_append.1 h with h | h
        · exact ⟨_, .augName hu, List.mem_append_left _ (List.mem_cons.2 (.inl (List.mem_singleton.1 h)))⟩
        · obtain ⟨t, ht, ho⟩ := visE_done (fun k => ⟨(hq k).1, (hq k).2.2⟩) h
          exact ⟨_, .augName ht, List.mem_append_left _ (List.mem_cons_of_mem _ ho)⟩
      · exact ⟨_, .augName hu, List.mem_append_right _ h⟩
    | attr c a =>
      obtain ⟨v, hw⟩ := does_some M c
      rcases List.mem_append.1 h with h | h
      · rcases List.mem_append.1 h with h | h
        · obtain ⟨x, hx, rfl⟩ : ∃ x, root c = some x ∧ o = (.read, x) := by
            simp only [readTarget, rooted, List.mem_map, Option.mem_toList] at h
            obtain ⟨x, hx, rfl⟩ := h
            exact ⟨x, hx, rfl⟩
          obtain ⟨t, ht, ho⟩ := visE_done (M := M) (o := (.read, x)) (fun k => nomatch k) (root_mem_visE hx false)
          exact ⟨_, .augAttr ht hu, List.mem_append_left _ (List.mem_append_left _ ho)⟩
        · obtain ⟨t, ht, ho⟩ := visE_done (fun k => ⟨(hq k).1, (hq k).2.2⟩) h
          exact ⟨_, .augAttr hw ht, List.mem_append_left _ (List.mem_append_right _ ho)⟩
      · rcases List.mem_append.1 h with h | h
        · obtain ⟨t, ht, ho⟩ := visE_done (fun k => ⟨(hq k).1, (hq k).2.1⟩) h
          exact ⟨_, .augAttr ht hu, List.mem_append_left _ (List.mem_append_left _ ho)⟩
        · rw [rooted_modify] at h
          exact ⟨_, .augAttr hw hu, List.mem_append_right _ h⟩
    | sub c i =>
      obtain ⟨v, hw⟩ := does_some M c
      obtain ⟨w, hi⟩ := does_some M i
      rcases List.mem_append.1 h with h | h
      · rcases List.mem_append.1 h with h | h
        · obtain ⟨x, hx, rfl⟩ : ∃ x, root c = some x ∧ o = (.read, x) := by
            simp only [readTarget, rooted, List.mem_map, Option.mem_toList] at h
            obtain ⟨x, hx, rfl⟩ := h
            exact ⟨x, hx, rfl⟩
          obtain ⟨t, ht, ho⟩ := visE_done (M := M) (o := (.read, x)) (fun k => nomatch k) (root_mem_visE hx false)
          exact ⟨_, .augSub ht hi hu, List.mem_append_left _ (List.mem_append_left _ (List.mem_append_left _ ho))⟩
        · obtain ⟨t, ht, ho⟩ := visE_done (fun k => ⟨(hq k).1, (hq k).2.2⟩) h
          exact ⟨_, .augSub hw hi ht, List.mem_append_left _ (List.mem_append_right _ ho)⟩
      · rcases List.mem_append.1 h with h | h
        · rcases List.mem_append.1 h with h | h
          · obtain ⟨t, ht, ho⟩ := visE_done (fun k => ⟨(hq k).1, (hq k).2.1.1⟩) h
            exact ⟨_, .augSub ht hi hu, List.mem_append_left _ (List.mem_append_left _ (List.mem_append_left _ ho))⟩
          · obtain ⟨t, ht, ho⟩ := visE_done (fun k => ⟨(hq k).1, (hq k).2.1.2⟩) h
            exact ⟨_, .augSub hw ht hu, List.mem_append_left _ (List.mem_append_left _ (List.mem_append_right _ ho))⟩
        · rw [rooted_modify] at h
          exact ⟨_, .augSub hw hi hu, List.mem_append_right _ h⟩
    | _ => exact hg.elim
  | ann a b v =>
    cases v with
    | some v =>
      obtain ⟨u, hu⟩ := does_some M v
      obtain ⟨w, hw⟩ := stores_some M a
      obtain ⟨r, hr⟩ := does_some M b
      rcases List.mem_append.1 h with h | h
      · rcases List.mem_append.1 h with h | h
        · obtain ⟨t, ht, ho⟩ := visE_done (fun k => ⟨(hq k).1, (hq k).2.2.1⟩) h
          exact ⟨_, .ann hg hu hw ht, List.mem_append_right _ ho⟩
        · obtain ⟨t, ht, ho⟩ := visE_done (fun k => ⟨(hq k).1, (hq k).2.2.2⟩) h
          exact ⟨_, .ann hg ht hw hr, List.mem_append_left _ (List.mem_append_left _ ho)⟩
      · obtain ⟨t, ht, ho⟩ := assigned_done (fun k => ⟨(hq k).1, (hq k).2.1⟩) h
        exact ⟨_, .ann hg hu ht hr, List.mem_append_left _ (List.mem_append_right _ ho)⟩
    | none =>
      have hk : o.1 = .read := Classical.byContradiction hv
      have hm : ∀ {e : E}, o.1 = .modify → (∀ a, nonPure a = true → M a) ∧ e.calls := fun k => by rw [hk] at k; cases k
      obtain ⟨r, hr⟩ := does_some M b
      simp only [ops, List.append_nil] at h
      cases a with
      | name x =>
        rcases List.mem_append.1 h with h | h
        · obtain ⟨t, ht, ho⟩ := visE_done hm h
          exact ⟨_, .annName ht, ho⟩
        · cases List.mem_singleton.1 h; cases hk
      | attr c a =>
        obtain ⟨w, hw⟩ := does_some M c
        rcases List.mem_append.1 h with h | h
        · obtain ⟨t, ht, ho⟩ := visE_done hm h
          exact ⟨_, .annAttr hw ht, List.mem_append_right _ ho⟩
        · rcases List.mem_append.1 h with h | h
          · obtain ⟨t, ht, ho⟩ := visE_done hm h
            exact ⟨_, .annAttr ht hr, List.mem_append_left _ ho⟩
          · rw [rooted_modify] at h
            have := touches_kind h
            rw [hk] at this; cases this
      | sub c i =>
        obtain ⟨w, hw⟩ := does_some M c
        obtain ⟨z, hz⟩ := does_some M i
        rcases List.mem_append.1 h with h | h
        · obtain ⟨t, ht, ho⟩ := visE_done hm h
          exact ⟨_, .annSub hw hz ht, List.mem_append_right _ ho⟩
        · rcases List.mem_append.1 h with h | h
          · rcases List.mem_append.1 h with h | h
            · obtain ⟨t, ht, ho⟩ := visE_done hm h
              exact ⟨_, .annSub ht hz hr, List.mem_append_left _ (List.mem_append_left _ ho)⟩
            · obtain ⟨t, ht, ho⟩ := visE_done hm h
              exact ⟨_, .annSub hw ht hr, List.mem_append_left _ (List.mem_append_right _ ho)⟩
          · rw [rooted_modify] at h
            have := touches_kind h
            rw [hk] at this; cases this
      | _ => exact hg.elim

/-- C116: what is recorded is done in some execution of the statement, if it is not an annotation without a value, and if all
methods that are taken to modify their objects do so and are just called. -/
theorem C116_only_partial {M : Str → Prop} {σ : Stack} {s : S} {k : EvType} {x : Str} (hg : s.Grammatical)
    (hv : k ≠ .read → s.HasValue) (hq : k = .modify → (∀ a, nonPure a = true → M a) ∧ s.calls) (h : (k, x) ∈ events σ s) :
    ∃ t, Runs M s t ∧ (k.kind, x) ∈ t := by
  refine ops_done hg (fun hk => hv ?_) (fun hk => hq ?_) (record_mem h)
  · rintro rfl; exact hk rfl
  · cases k <;> first | rfl | cases hk

/-! ### The order -/

/-- The first list is what is left of the second if some `READ`s are left out. -/
inductive Thin : List Op → List Op → Prop where
  | nil : Thin [] []
  | keep {l m} (o : Op) : Thin l m → Thin (o :: l) (o :: m)
  | skip {l m} (x : Str) : Thin l m → Thin l ((.read, x) :: m)

/-- What is done with a variable -/
def on (x : Str) (l : List Op) : List Op := l.filter fun o => decide (o.2 = x)

/-- Is the variable named in the expression? -/
def E.mentions (x : Str) : E → Prop
  | .const => False
  | .name y => y = x
  | .attr e _ => e.mentions x
  | .sub a b | .call a b | .arg a b | .pair a b | .short a b => a.mentions x ∨ b.mentions x
  | .cond c a b => c.mentions x ∨ a.mentions x ∨ b.mentions x
  | .walrus y e => y = x ∨ e.mentions x

/-- Evaluating the expression does not assign to the variable, and calls no method on it that is taken to modify objects; neither is
such a method given to a function. `call` tells whether the parent of the expression is a call. -/
def E.quiet (x : Str) (call : Bool) : E → Prop
  | .const | .name _ => True
  | .attr e a => (call = true → nonPure a = true → root e ≠ some x) ∧ e.quiet x false
  | .sub a b | .pair a b | .short a b => a.quiet x false ∧ b.quiet x false
  | .call a b | .arg a b => a.quiet x true ∧ b.quiet x false
  | .cond c a b => c.quiet x false ∧ a.quiet x false ∧ b.quiet x false
  | .walrus y e => y ≠ x ∧ e.quiet x false

/-- The same, but `x := e` is allowed if it is always evaluated and `x` is not in `e`. -/
def E.plain (x : Str) (call : Bool) : E → Prop
  | .const | .name _ => True
  | .attr e a => (call = true → nonPure a = true → root e ≠ some x) ∧ e.plain x false
  | .sub a b | .pair a b => a.plain x false ∧ b.plain x false
  | .short a b => a.plain x false ∧ b.quiet x false
  | .call a b | .arg a b => a.plain x true ∧ b.plain x false
  | .cond c a b => c.plain x false ∧ a.quiet x false ∧ b.quiet x false
  | .walrus y e => (y = x → ¬ e.mentions x) ∧ e.plain x false

/-- The same of a target, of which the elements of lists, and what is starred, are just names; so is all of it if `flat`. -/
def T.plain (x : Str) (flat : Bool) : T → Prop
  | .nil | .name _ => True
  | .attr e _ => flat = false ∧ e.plain x false
  | .sub e i => flat = false ∧ e.plain x false ∧ i.plain x false
  | .tup t u => t.plain x flat ∧ u.plain x flat
  | .lst t u => t.plain x true ∧ u.plain x true
  | .star t => t.plain x true

/-- The same of a statement -/
def S.plain (x : Str) : S → Prop
  | .expr e => e.plain x false
  | .assign t e => e.plain x false ∧ t.plain x false
  | .aug (.name _) e => e.plain x false
  | .aug (.attr c _) e => c.quiet x false ∧ e.quiet x false
  | .aug (.sub c i) e => c.quiet x false ∧ i.quiet x false ∧ e.quiet x false
  | .aug _ _ => False
  | .ann t a (some v) => ¬ a.mentions x ∧ v.plain x false ∧ t.plain x false
  | .ann _ _ none | .del _ => False
  | .bind t => t.plain x true

theorem on_append (x : Str) (l m : List Op) : on x (l ++ m) = on x l ++ on x m := List.filter_append ..

theorem Thin.append {l m l' m' : List Op} (h : Thin l m) (h' : Thin l' m') : Thin (l ++ l') (m ++ m') := by
  induction h with
  | nil => exact h'
  | keep o _ ih => exact .keep o ih
  | skip x _ ih => exact .skip x ih

theorem Thin.refl : ∀ l : List Op, Thin l l
  | [] => .nil
  | o :: l => .keep o (Thin.refl l)

theorem Thin.of_reads {x : Str} : ∀ {l m : List Op}, (∀ o ∈ l, o = (.read, x)) → (∀ o ∈ m, o = (.read, x)) → l.length ≤ m.length →
    Thin l m
  | [], [], _, _, _ => .nil
  | [], o :: m, hl, hm, _ => by
    rw [hm o List.mem_cons_self]
    exact .skip x (Thin.of_reads hl (fun o ho => hm o (List.mem_cons_of_mem _ ho)) (Nat.zero_le _))
  | o :: l, [], _, _, h => nomatch h
  | o :: l, o' :: m, hl, hm, h => by
    rw [hm o' List.mem_cons_self, hl o List.mem_cons_self]
    exact .keep _ (Thin.of_reads (fun o ho => hl o (List.mem_cons_of_mem _ ho)) (fun o ho => hm o (List.mem_cons_of_mem _ ho))
      (Nat.le_of_succ_le_succ h))

theorem Thin.length {l m : List Op} (h : Thin l m) : l.length ≤ m.length := by
  induction h with
  | nil => exact Nat.le_refl _
  | keep _ _ ih => exact Nat.succ_le_succ ih
  | skip _ _ ih => exact Nat.le_succ_of_le ih

theorem Thin.subset {l m : List Op} (h : Thin l m) : ∀ o ∈ l, o ∈ m := by
  induction h with
  | nil => exact fun o h => h
  | keep o _ ih =>
    intro p hp
    rcases List.mem_cons.1 hp with hp | hp
    · exact List.mem_cons.2 (.inl hp)
    · exact List.mem_cons_of_mem _ (ih p hp)
  | skip _ _ ih => exact fun p hp => List.mem_cons_of_mem _ (ih p hp)

theorem on_touches {e : E} {x : Str} (h : root e ≠ some x) : on x (touches e) = [] := by
  unfold touches on
  cases hr : root e with
  | none => rfl
  | some y =>
    have : y ≠ x := fun hy => h (by rw [hr, hy])
    simp [this]

theorem on_method {b : Bool} {e : E} {a x : Str} (h : b = true → nonPure a = true → root e ≠ some x) :
    on x (if b && nonPure a then rooted .modify e else []) = [] := by
  split
  · rename_i hc
    rw [Bool.and_eq_true] at hc
    rw [rooted_modify]
    exact on_touches (h hc.1 hc.2)
  · rfl

theorem root_mentions {e : E} {x : Str} (h : root e = some x) : e.mentions x := by
  induction e with
  | name y => cases h; rfl
  | attr e a ih => exact ih h
  | sub e i ih _ => exact .inl (ih h)
  | _ => cases h

theorem on_unmentioned {x : Str} {e : E} (h : ¬ e.mentions x) : ∀ b, on x (visE b e) = [] := by
  induction e with
  | const => exact fun _ => rfl
  | name y => intro b; simp only [visE, on]; simp [show y ≠ x from h]
  | attr e a ih =>
    intro b
    rw [visE, on_append, ih h, on_method (fun _ _ hr => h (root_mentions (e := e) hr)), List.append_nil]
  | sub a b ih ih' | pair a b ih ih' | short a b ih ih' | call a b ih ih' | arg a b ih ih' =>
    intro _
    rw [visE, on_append, ih (fun hm => h (.inl hm)), ih' (fun hm => h (.inr hm))]; rfl
  | cond c a b ihc ih ih' =>
    intro _
    rw [visE, on_append, on_append, ihc (fun hm => h (.inl hm)), ih (fun hm => h (.inr (.inl hm))), ih' (fun hm => h (.inr (.inr hm)))]
    rfl
  | walrus y e ih =>
    intro _
    have : y ≠ x := fun hy => h (.inl hy)
    have h2 := ih (fun hm => h (.inr hm)) false
    rw [visE]
    unfold on at h2 ⊢
    rw [List.filter_cons_of_neg (by simpa using this)]
    exact h2

theorem on_nil_of_subset {x : Str} {l m : List Op} (h : ∀ o ∈ l, o ∈ m) (hm : on x m = []) : on x l = [] := by
  unfold on at *
  rw [List.filter_eq_nil_iff] at *
  exact fun o ho => hm o (h o ho)

theorem does_unmentioned {M : Str → Prop} (hM : ∀ a, M a → nonPure a = true) {x : Str} {e : E} {t : List Op} (h : ¬ e.mentions x)
    (hd : Does M e t) : on x t = [] :=
  on_nil_of_subset (fun _ ho => does_recorded hd (fun _ => hM) ho false) (on_unmentioned h false)

theorem quiet_reads {x : Str} {e : E} : ∀ {b : Bool}, e.quiet x b → ∀ o ∈ on x (visE b e), o = (.read, x) := by
  induction e with
  | const => intro b _ o ho; cases ho
  | name y =>
    intro b _ o ho
    obtain ⟨ho, hx⟩ := List.mem_filter.1 ho
    cases List.mem_singleton.1 ho
    cases of_decide_eq_true hx
    rfl
  | attr e a ih =>
    intro b hq o ho
    rw [visE, on_append, on_method hq.1] at ho
    exact ih hq.2 o ho
  | sub a b ih ih' | pair a b ih ih' | short a b ih ih' | call a b ih ih' | arg a b ih ih' =>
    intro _ hq o ho
    rw [visE, on_append] at ho
    rcases List.mem_append.1 ho with ho | ho
    · exact ih hq.1 o ho
    · exact ih' hq.2 o ho
  | cond c a b ihc ih ih' =>
    intro _ hq o ho
    rw [visE, on_append, on_append] at ho
    rcases List.mem_append.1 ho with ho | ho
    · rcases List.mem_append.1 ho with ho | ho
      · exact ihc hq.1 o ho
      · exact ih hq.2.1 o ho
    · exact ih' hq.2.2 o ho
  | walrus y e ih =>
    intro _ hq o ho
    have : on x (visE false (.walrus y e)) = on x (visE false e) := by simp [visE, on, hq.1]
    exact ih hq.2 o (by rw [← this]; exact ho)

theorem quiet_plain {x : Str} {e : E} : ∀ {b : Bool}, e.quiet x b → e.plain x b := by
  induction e with
  | const => exact fun _ => trivial
  | name y => exact fun _ => trivial
  | attr e a ih => exact fun h => ⟨h.1, ih h.2⟩
  | sub a b ih ih' | pair a b ih ih' | call a b ih ih' | arg a b ih ih' => exact fun h => ⟨ih h.1, ih' h.2⟩
  | short a b ih _ => exact fun h => ⟨ih h.1, h.2⟩
  | cond c a b ih _ _ => exact fun h => ⟨ih h.1, h.2⟩
  | walrus y e ih => exact fun h => ⟨fun hy => (h.1 hy).elim, ih h.2⟩

theorem thin_nil_quiet {x : Str} {e : E} {b : Bool} (h : e.quiet x b) : Thin [] (on x (visE b e)) :=
  Thin.of_reads (fun _ h => nomatch h) (quiet_reads h) (Nat.zero_le _)

theorem does_thin {M : Str → Prop} (hM : ∀ a, M a → nonPure a = true) {x : Str} {e : E} {t : List Op} (h : Does M e t) :
    ∀ {b : Bool}, e.plain x b → Thin (on x t) (on x (visE b e)) := by
  induction h with
  | const => exact fun _ => .nil
  | name y => exact fun _ => Thin.refl _
  | attr _ ih =>
    intro b hp
    rw [visE, on_append, on_method hp.1]
    exact ih hp.2
  | sub _ _ ih ih' | pair _ _ ih ih' | call _ _ ih ih' | arg _ _ ih ih' =>
    intro b hp
    rw [visE, on_append, on_append]
    exact (ih hp.1).append (ih' hp.2)
  | @method e a args t u y _ _ hMa hr ih ih' =>
    intro b hp
    have hy : y ≠ x := fun hy => hp.1.1 rfl (hM a hMa) (by rw [hr, hy])
    have : on x [(Kind.modify, y)] = [] := by simp [on, hy]
    rw [visE, visE, on_append, on_append, on_append, on_append, on_method hp.1.1, this, List.append_nil]
    exact (ih hp.1.2).append (ih' hp.2)
  | shortOne _ ih =>
    intro b hp
    rw [visE, on_append]
    have := (ih hp.1).append (thin_nil_quiet hp.2)
    rwa [List.append_nil] at this
  | shortBoth _ _ ih ih' =>
    intro b hp
    rw [visE, on_append, on_append]
    exact (ih hp.1).append (ih' (quiet_plain hp.2))
  | condTrue _ _ ih ih' =>
    intro b hp
    rw [visE, on_append, on_append, on_append]
    have := ((ih hp.1).append (ih' (quiet_plain hp.2.1))).append (thin_nil_quiet hp.2.2)
    rwa [List.append_nil] at this
  | condFalse _ _ ih ih' =>
    intro b hp
    rw [visE, on_append, on_append, on_append]
    have := ((ih hp.1).append (thin_nil_quiet hp.2.1)).append (ih' (quiet_plain hp.2.2))
    rwa [List.append_nil] at this
  | @walrus y e t hd ih =>
    intro b hp
    by_cases hy : y = x
    · have h1 := does_unmentioned hM (hp.1 hy) hd
      have h2 := on_unmentioned (hp.1 hy) false
      subst hy
      have h3 : on y (visE b (.walrus y e)) = [(.store, y)] := by
        rw [visE]; unfold on at h2 ⊢; simp [h2]
      rw [h3, on_append, h1]
      simp only [on, List.filter_cons, decide_true]
      exact Thin.refl _
    · have h3 : on x (visE b (.walrus y e)) = on x (visE false e) := by
        rw [visE]; unfold on; simp [hy]
      have h4 : on x [(Kind.store, y)] = [] := by simp [on, hy]
      rw [h3, on_append, h4, List.append_nil]
      exact ih hp.2

theorem stores_thin_flat {M : Str → Prop} {x : Str} {a : T} {t : List Op} (h : Stores M a t) (hp : a.plain x true) :
    Thin (on x t) (on x (visT a)) := by
  induction h with
  | nil => exact .nil
  | name y => exact Thin.refl _
  | attr _ => exact nomatch hp.1
  | sub _ _ => exact nomatch hp.1
  | tup _ _ ih ih' | lst _ _ ih ih' =>
    rw [visT, on_append, on_append]
    exact (ih hp.1).append (ih' hp.2)
  | star _ ih => exact ih hp

theorem stores_thin {M : Str → Prop} (hM : ∀ a, M a → nonPure a = true) {x : Str} {a : T} {t : List Op} (h : Stores M a t)
    (hp : a.plain x false) : Thin (on x t) (on x (unpacked a)) := by
  induction h with
  | nil => exact .nil
  | name y => exact Thin.refl _
  | attr hd =>
    rw [unpacked, assigned, rooted_modify, on_append, on_append]
    · exact (does_thin hM hd hp.2).append (Thin.refl _)
    · intro t u; exact fun h => nomatch h
  | sub hd hd' =>
    rw [unpacked, assigned, rooted_modify, on_append, on_append, on_append, on_append]
    · exact ((does_thin hM hd hp.2.1).append (does_thin hM hd' hp.2.2)).append (Thin.refl _)
    · intro t u; exact fun h => nomatch h
  | tup _ _ ih ih' =>
    rw [unpacked, on_append, on_append]
    exact (ih hp.1).append (ih' hp.2)
  | lst h h' => exact stores_thin_flat (.lst h h') hp
  | star h => exact stores_thin_flat (.star h) hp

theorem on_rooted_read {x : Str} {e : E} : ∀ o ∈ on x (rooted .read e), o = (.read, x) := by
  intro o ho
  obtain ⟨ho, hx⟩ := List.mem_filter.1 ho
  obtain ⟨y, _, rfl⟩ := List.mem_map.1 ho
  cases of_decide_eq_true hx
  rfl

theorem runs_thin {M : Str → Prop} (hM : ∀ a, M a → nonPure a = true) {x : Str} {s : S} {t : List Op} (h : Runs M s t)
    (hp : s.plain x) : Thin (on x t) (on x (ops s)) := by
  cases h with
  | expr h => exact does_thin hM h hp
  | assign h h' =>
    rw [ops, on_append, on_append]
    exact (does_thin hM h hp.1).append (stores_thin hM h' hp.2)
  | @augName y e t h =>
    rw [ops, on_append, on_append, on_append]
    have : on x ((Kind.read, y) :: t) = on x [(.read, y)] ++ on x t := on_append x [(.read, y)] t
    rw [this]
    exact ((Thin.refl _).append (does_thin hM h hp)).append (Thin.refl _)
  | @augAttr c a e t u h h' =>
    have h1 := does_thin hM h (quiet_plain hp.1)
    have h2 := does_thin hM h' (quiet_plain hp.2)
    have r1 := quiet_reads hp.1
    have r2 := quiet_reads hp.2
    rw [ops, assigned, readTarget, rooted_modify, on_append, on_append, on_append, on_append, on_append, ← List.append_assoc]
    refine Thin.append (Thin.of_reads (x := x) ?_ ?_ ?_) (Thin.refl _)
    · intro o ho
      rcases List.mem_append.1 ho with ho | ho
      · exact r1 o (h1.subset o ho)
      · exact r2 o (h2.subset o ho)
    · intro o ho
      rcases List.mem_append.1 ho with ho | ho
      · rcases List.mem_append.1 ho with ho | ho
        · exact on_rooted_read o ho
        · exact r2 o ho
      · exact r1 o ho
    · have := h1.length
      have := h2.length
      simp only [List.length_append]
      omega
  | @augSub c i e t u v h h' h'' =>
    have h1 := does_thin hM h (quiet_plain hp.1)
    have h2 := does_thin hM h' (quiet_plain hp.2.1)
    have h3 := does_thin hM h'' (quiet_plain hp.2.2)
    have r1 := quiet_reads hp.1
    have r2 := quiet_reads hp.2.1
    have r3 := quiet_reads hp.2.2
    rw [ops, assigned, readTarget, rooted_modify, on_append, on_append, on_append, on_append, on_append, on_append, on_append,
      ← List.append_assoc]
    refine Thin.append (Thin.of_reads (x := x) ?_ ?_ ?_) (Thin.refl _)
    · intro o ho
      rcases List.mem_append.1 ho with ho | ho
      · rcases List.mem_append.1 ho with ho | ho
        · exact r1 o (h1.subset o ho)
        · exact r2 o (h2.subset o ho)
      · exact r3 o (h3.subset o ho)
    · intro o ho
      rcases List.mem_append.1 ho with ho | ho
      · rcases List.mem_append.1 ho with ho | ho
        · exact on_rooted_read o ho
        · exact r3 o ho
      · rcases List.mem_append.1 ho with ho | ho
        · exact r1 o ho
        · exact r2 o ho
    · have := h1.length
      have := h2.length
      have := h3.length
      simp only [List.length_append]
      omega
  | @ann a b e t u v ha h h' h'' =>
    have : unpacked a = assigned a := by cases a <;> first | rfl | exact ha.elim
    rw [ops, on_append, on_append, on_append, on_append, on_unmentioned hp.1, does_unmentioned hM hp.1 h'', List.append_nil,
      List.nil_append, ← this]
    exact (does_thin hM h hp.2.1).append (stores_thin hM h' hp.2.2)
  | @annQuiet a b e t u ha h h' =>
    have : unpacked a = assigned a := by cases a <;> first | rfl | exact ha.elim
    rw [ops, on_append, on_append, on_append, on_unmentioned hp.1, List.nil_append, ← this]
    exact (does_thin hM h hp.2.1).append (stores_thin hM h' hp.2.2)
  | bind h => exact stores_thin_flat h hp
  | _ => exact hp.elim

theorem plain_no_delete {x y : Str} {s : S} (hp : s.plain x) : (Kind.delete, y) ∉ ops s := by
  cases s with
  | del t => exact hp.elim
  | ann t a v =>
    cases v <;> simp [ops, visE_no_delete, assigned_no_delete]
  | _ => simp [ops, visE_no_delete, unpacked_no_delete, assigned_no_delete, readTarget_no_delete, visT_no_delete]

/-- C116: the events of a variable that is known are in the order in which the statement does this, but that there may be more
`READ`s. -/
theorem C116_order_partial {M : Str → Prop} {σ : Stack} {s : S} {t : List Op} {x : Str} (hM : ∀ a, M a → nonPure a = true)
    (h : Runs M s t) (hp : s.plain x) (hσ : known σ x = true) :
    Thin (t.filter fun o => decide (o.2 = x)) (((events σ s).filter fun e => decide (e.2 = x)).map fun e => (e.1.kind, e.2)) := by
  rw [events, record_known _ σ hσ (plain_no_delete hp)]
  exact runs_thin hM h hp

theorem exposed_read {x : Str} : ∀ {evs : List (EvType × Str)} {l : List Op},
    (evs.filter fun e => decide (e.2 = x)).map (fun e => (e.1.kind, e.2)) = (.read, x) :: l → .read ∈ exposed x evs
  | (k, y) :: evs, l, h => by
    by_cases hy : y = x
    · subst hy
      simp only [List.filter_cons, decide_true, if_true, List.map_cons] at h
      cases k with
      | read => simp [exposed]
      | _ => cases h
    · simp only [exposed, hy, if_false]
      exact exposed_read (by simpa [hy] using h)

theorem exposed_modify {x : Str} : ∀ {evs : List (EvType × Str)} {l r : List Op}, (∀ o ∈ r, o = (.read, x)) →
    (evs.filter fun e => decide (e.2 = x)).map (fun e => (e.1.kind, e.2)) = r ++ (.modify, x) :: l → .modify ∈ exposed x evs
  | [], l, r, hr, h => by cases r <;> cases h
  | (k, y) :: evs, l, r, hr, h => by
    by_cases hy : y = x
    · subst hy
      simp only [List.filter_cons, decide_true, if_true, List.map_cons] at h
      cases r with
      | nil =>
        cases k with
        | modify => simp [exposed]
        | _ => cases h
      | cons o r =>
        have ho := hr o List.mem_cons_self
        subst ho
        cases k with
        | read =>
          simp only [exposed, if_true]
          exact List.mem_cons_of_mem _ (exposed_modify (l := l) (fun o ho => hr o (List.mem_cons_of_mem _ ho)) (List.cons.inj h).2)
        | _ => cases (List.cons.inj h).1
    · simp only [exposed, hy, if_false]
      exact exposed_modify hr (by simpa [hy] using h)

theorem Thin.first {l m : List Op} {o : Op} {x : Str} (h : Thin (o :: l) m) (hm : ∀ p ∈ m, p.2 = x) :
    ∃ r m', (∀ p ∈ r, p = (.read, x)) ∧ m = r ++ o :: m' := by
  generalize hl : o :: l = l' at h
  induction h with
  | nil => cases hl
  | keep o' _ _ => cases hl; exact ⟨[], _, (fun _ h => nomatch h), rfl⟩
  | @skip l m y _ ih =>
    obtain ⟨r, m', hr, heq⟩ := ih (fun p hp => hm p (List.mem_cons_of_mem _ hp)) hl
    refine ⟨(.read, y) :: r, m', ?_, by rw [heq]; rfl⟩
    intro p hp
    rcases List.mem_cons.1 hp with hp | hp
    · have := hm (.read, y) List.mem_cons_self
      subst this
      exact hp
    · exact hr p hp

/-- C116: if the first thing that a statement does with a variable is to read or to modify it, then the event for this gets the
definitions from before the statement. -/
theorem C116_before_partial {M : Str → Prop} {σ : Stack} {s : S} {t rest : List Op} {x : Str} {k : EvType}
    (hM : ∀ a, M a → nonPure a = true) (h : Runs M s t) (hp : s.plain x) (hσ : known σ x = true) (hk : k = .read ∨ k = .modify)
    (ht : (t.filter fun o => decide (o.2 = x)) = (k.kind, x) :: rest) : k ∈ exposed x (events σ s) := by
  have hthin := C116_order_partial hM h hp hσ
  rw [ht] at hthin
  obtain ⟨r, m', hr, heq⟩ := hthin.first (x := x) (by
    intro p hp
    obtain ⟨e, he, rfl⟩ := List.mem_map.1 hp
    exact of_decide_eq_true (List.mem_filter.1 he).2)
  rcases hk with rfl | rfl
  · cases r with
    | nil => exact exposed_read heq
    | cons o r => rw [hr o List.mem_cons_self] at heq; exact exposed_read heq
  · exact exposed_modify hr heq

/-! ### The first assignment -/

theorem onTop_enter {x y : Str} {σ : Stack} (h : σ ≠ []) : onTop x (enter y σ) = (onTop x σ || decide (x = y)) := by
  cases σ with
  | nil => exact (h rfl).elim
  | cons d σ =>
    simp only [enter, onTop]
    split
    · by_cases hx : x = y
      · subst hx; simp_all
      · simp [hx]
    · by_cases hx : x = y
      · subst hx; simp
      · simp [hx]

theorem leave_unknown {x : Str} : ∀ {σ : Stack}, known σ x = false → leave x σ = σ
  | [], _ => rfl
  | d :: σ, h => by
    simp only [known, List.any_cons, Bool.or_eq_false_iff] at h
    rw [leave, if_neg (by rw [h.1]; simp), leave_unknown (σ := σ) h.2]

theorem onTop_leave {x y : Str} (hxy : x ≠ y) {σ : Stack} : onTop x (leave y σ) = onTop x σ := by
  cases σ with
  | nil => rfl
  | cons d σ =>
    simp only [leave]
    split
    · simp [onTop, hxy]
    · rfl

theorem record_assign {x : Str} : ∀ (l : List Op) (σ : Stack), σ ≠ [] → (EvType.delete, x) ∉ (record σ l).1 → ∀ i e,
    ((record σ l).1.filter fun e => decide (e.2 = x ∧ e.1.kind = .store))[i]? = some e →
    e.1 = if i = 0 ∧ onTop x σ = false then .assign else .reassign
  | [], _, _, _, i, e, h => by simp [record] at h
  | (.store, y) :: l, σ, hσ, hd, i, e, h => by
    have hσ' : enter y σ ≠ [] := by cases σ <;> simp_all [enter]
    have ih := record_assign l (enter y σ) hσ' (fun hm => hd (List.mem_cons_of_mem _ hm))
    by_cases hy : y = x
    · subst hy
      have hk : (if onTop y σ = true then EvType.reassign else EvType.assign).kind = .store := by split <;> rfl
      simp only [record, List.filter_cons, hk, and_self, decide_true, if_true] at h
      cases i with
      | zero =>
        cases h
        cases onTop y σ <;> rfl
      | succ i =>
        have := ih i e h
        rw [this, onTop_enter hσ]
        simp
    · have hxy : x ≠ y := fun h => hy h.symm
      simp only [record, List.filter_cons, hy, false_and, decide_false, Bool.false_eq_true, if_false] at h
      have := ih i e h
      rw [this, onTop_enter hσ]
      simp [hxy]
  | (.read, y) :: l, σ, hσ, hd, i, e, h => by
    simp only [record] at h hd
    split at h
    · rename_i hk
      rw [if_pos hk] at hd
      exact record_assign l σ hσ (fun hm => hd (List.mem_cons_of_mem _ hm)) i e (by simpa [List.filter_cons, EvType.kind] using h)
    · rename_i hk
      rw [if_neg hk] at hd
      exact record_assign l σ hσ hd i e h
  | (.modify, y) :: l, σ, hσ, hd, i, e, h => by
    simp only [record] at h hd
    split at h
    · rename_i hk
      rw [if_pos hk] at hd
      exact record_assign l σ hσ (fun hm => hd (List.mem_cons_of_mem _ hm)) i e (by simpa [List.filter_cons, EvType.kind] using h)
    · rename_i hk
      rw [if_neg hk] at hd
      exact record_assign l σ hσ hd i e h
  | (.delete, y) :: l, σ, hσ, hd, i, e, h => by
    have hσ' : leave y σ ≠ [] := by
      cases σ with
      | nil => exact (hσ rfl).elim
      | cons d σ => simp only [leave]; split <;> simp
    simp only [record] at h hd
    split at h
    · rename_i hk
      rw [if_pos hk] at hd
      have hy : x ≠ y := by rintro rfl; exact hd List.mem_cons_self
      have := record_assign l _ hσ' (fun hm => hd (List.mem_cons_of_mem _ hm)) i e (by simpa [List.filter_cons, EvType.kind] using h)
      rwa [onTop_leave hy] at this
    · rename_i hk
      rw [if_neg hk] at hd
      rw [leave_unknown (Bool.eq_false_iff.2 hk)] at h hd
      exact record_assign l σ hσ hd i e h

/-- C116: an assignment is recorded as `ASSIGN` if it is the first one in the scope, and as `REASSIGN` otherwise. -/
theorem C116_first {σ : Stack} {s : S} {x : Str} (hσ : σ ≠ []) (hd : (.delete, x) ∉ events σ s) (i : Nat) (e : EvType × Str)
    (h : ((events σ s).filter fun e => decide (e.2 = x ∧ e.1.kind = .store))[i]? = some e) :
    e.1 = if i = 0 ∧ onTop x σ = false then .assign else .reassign :=
  record_assign _ σ hσ hd i e h

/-! ### Methods -/

/-- The methods of lists that modify them -/
def listMethods : List Str := ["append", "clear", "extend", "insert", "pop", "remove", "reverse", "sort"].map String.toList

/-- The methods of dictionaries that modify them -/
def dictMethods : List Str := ["clear", "pop", "popitem", "setdefault", "update"].map String.toList

/-- The methods of sets that modify them -/
def setMethods : List Str :=
  ["add", "clear", "difference_update", "discard", "intersection_update", "pop", "remove", "symmetric_difference_update",
    "update"].map String.toList

/-- C116: all methods of lists that modify them are taken to do so, and all of dictionaries and sets but two. -/
theorem C116_methods_partial :
    (∀ m ∈ listMethods, nonPure m = true) ∧ (∀ m ∈ dictMethods, m = "setdefault".toList ∨ nonPure m = true) ∧
      ∀ m ∈ setMethods, m = "discard".toList ∨ nonPure m = true := by decide +kernel

/-- C116 is false: `d.setdefault(k)` and `s.discard(k)` are not taken to modify `d` and `s`. -/
theorem C116_methods_counterexample :
    "setdefault".toList ∈ dictMethods ∧ "discard".toList ∈ setMethods ∧
    ∀ m ∈ ["setdefault".toList, "discard".toList],
      Runs (fun a => a ∈ dictMethods ∨ a ∈ setMethods) (.expr (.call (.attr (.name "x".toList) m) .const))
        [(.read, "x".toList), (.modify, "x".toList)] ∧
      events [["x".toList]] (.expr (.call (.attr (.name "x".toList) m) .const)) = [(.read, "x".toList)] := by
  refine ⟨by decide +kernel, by decide +kernel, ?_⟩
  intro m hm
  refine ⟨.expr (.method (.name _) .const ?_ rfl), ?_⟩
  · rcases List.mem_cons.1 hm with rfl | hm
    · left; decide +kernel
    · cases List.mem_singleton.1 hm; right; decide +kernel
  · revert m; decide +kernel

/-! ### Counterexamples -/

private abbrev xv : Str := "x".toList
private abbrev iv : Str := "i".toList
private abbrev yv : Str := "y".toList
private abbrev noM : Str → Prop := fun _ => False

/-- C116 is false: `del x[i]` modifies `x`; that is not recorded. -/
theorem C116_del_counterexample :
    Runs noM (.del (.sub (.name xv) (.name iv))) [(.read, xv), (.read, iv), (.modify, xv)] ∧
    events [[xv, iv]] (.del (.sub (.name xv) (.name iv))) = [(.read, xv), (.read, iv)] :=
  ⟨.del (.sub (.name _) (.name _)), by decide +kernel⟩

/-- C116 is false: `[x[i], y] = y`, `*x[i], y = y` and `for x[i] in …` modify `x`; that is not recorded. -/
theorem C116_target_counterexample :
    (∃ t, Runs noM (.assign (.lst (.sub (.name xv) (.name iv)) (.lst (.name yv) .nil)) (.name yv)) t ∧ (.modify, xv) ∈ t) ∧
    (∃ t, Runs noM (.assign (.tup (.star (.sub (.name xv) (.name iv))) (.tup (.name yv) .nil)) (.name yv)) t ∧ (.modify, xv) ∈ t) ∧
    (∃ t, Runs noM (.bind (.sub (.name xv) (.name iv))) t ∧ (.modify, xv) ∈ t) ∧
    ∀ s ∈ [S.assign (.lst (.sub (.name xv) (.name iv)) (.lst (.name yv) .nil)) (.name yv),
        .assign (.tup (.star (.sub (.name xv) (.name iv))) (.tup (.name yv) .nil)) (.name yv), .bind (.sub (.name xv) (.name iv))],
      (.modify, xv) ∉ events [[xv, iv, yv]] s :=
  ⟨⟨_, .assign (.name _) (.lst (.sub (.name _) (.name _)) (.lst (.name _) .nil)), by decide +kernel⟩,
    ⟨_, .assign (.name _) (.tup (.star (.sub (.name _) (.name _))) (.tup (.name _) .nil)), by decide +kernel⟩,
    ⟨_, .bind (.sub (.name _) (.name _)), by decide +kernel⟩, by decide +kernel⟩

/-- C116 is false: `del x[i].a` reads `i`; that is not recorded. -/
theorem C116_del_attr_counterexample :
    Runs noM (.del (.attr (.sub (.name xv) (.name iv)) "a".toList)) [(.read, xv), (.read, iv), (.modify, xv)] ∧
    events [[xv, iv]] (.del (.attr (.sub (.name xv) (.name iv)) "a".toList)) = [(.modify, xv)] :=
  ⟨.del (.attr (.sub (.name _) (.name _))), by decide +kernel⟩

/-- C116 is false: `x: i` does not assign to `x`; an assignment is recorded. -/
theorem C116_annotation_counterexample :
    events [[iv]] (.ann (.name xv) (.name iv) none) = [(.read, iv), (.assign, xv)] ∧
    ∀ t, Runs noM (.ann (.name xv) (.name iv) none) t → (.store, xv) ∉ t := by
  refine ⟨by decide +kernel, ?_⟩
  intro t h ht
  cases h with
  | annName h => cases h; exact absurd ht (by decide +kernel)
  | annNameQuiet => cases ht

/-- C116 is false: `y(x.append)` does not modify `x` by itself; a modification is recorded. -/
theorem C116_argument_counterexample :
    events [[xv, yv]] (.expr (.call (.name yv) (.arg (.attr (.name xv) "append".toList) .const))) =
      [(.read, yv), (.modify, xv), (.read, xv)] ∧
    ∀ M t, Runs M (.expr (.call (.name yv) (.arg (.attr (.name xv) "append".toList) .const))) t → (.modify, xv) ∉ t := by
  refine ⟨by decide +kernel, ?_⟩
  intro M t h ht
  cases h with
  | expr h =>
    cases h with
    | call h h' =>
      cases h; cases h' with
      | arg h h' =>
        cases h with
        | attr h => cases h; cases h'; exact absurd ht (by decide +kernel)

/-- C116 is false: `x := x` reads `x` first; the event for this gets no definitions from before the statement. So it is with
`x.append(i)`: that reads `x` first. -/
theorem C116_order_counterexample :
    Runs noM (.expr (.walrus xv (.name xv))) [(.read, xv), (.store, xv)] ∧
    exposed xv (events [[xv]] (.expr (.walrus xv (.name xv)))) = [] ∧
    Runs (· = "append".toList) (.expr (.call (.attr (.name xv) "append".toList) (.arg (.name iv) .const)))
      [(.read, xv), (.read, iv), (.modify, xv)] ∧
    exposed xv (events [[xv, iv]] (.expr (.call (.attr (.name xv) "append".toList) (.arg (.name iv) .const)))) = [.modify] :=
  ⟨.expr (.walrus (.name _)), by decide +kernel, .expr (.method (t := [_]) (u := [_]) (.name _) (.arg (u := []) (.name _) .const) rfl rfl),
    by decide +kernel⟩

/-- C116 is false: `i and (x := i) or x` may read `x` without assigning to it before; the event for this gets no definitions from
before the statement. -/
theorem C116_short_counterexample :
    Runs noM (.expr (.short (.short (.name iv) (.walrus xv (.name iv))) (.name xv))) [(.read, iv), (.read, xv)] ∧
    exposed xv (events [[xv, iv]] (.expr (.short (.short (.name iv) (.walrus xv (.name iv))) (.name xv)))) = [] :=
  ⟨.expr (.shortBoth (t := [_]) (.shortOne (.name _)) (.name _)), by decide +kernel⟩

/-! ### Examples -/

/-- `x[i] = y` is recorded as it is done. -/
example : events [[xv, iv, yv]] (.assign (.sub (.name xv) (.name iv)) (.name yv)) =
    [(.read, yv), (.read, xv), (.read, iv), (.modify, xv)] := by decide +kernel

/-- `y, x[y] = i` assigns to `y`, which is known from another scope, for the first time in this one, and then modifies `x`. -/
example : events [[xv, iv], [yv]] (.assign (.tup (.name yv) (.tup (.sub (.name xv) (.name yv)) .nil)) (.name iv)) =
    [(.read, iv), (.assign, yv), (.read, xv), (.read, yv), (.modify, xv)] := by decide +kernel

/-- The theorems apply to it. -/
example : .modify ∈ exposed xv (events [[xv, iv], [yv]] (.assign (.tup (.name yv) (.tup (.sub (.name xv) (.name yv)) .nil)) (.name iv))) ∨
    .read ∈ exposed xv (events [[xv, iv], [yv]] (.assign (.tup (.name yv) (.tup (.sub (.name xv) (.name yv)) .nil)) (.name iv))) :=
  .inr (C116_before_partial (M := noM) (t := [(.read, iv), (.store, yv), (.read, xv), (.read, yv), (.modify, xv)])
    (rest := [(.modify, xv)]) (fun _ h => h.elim)
    (.assign (t := [_]) (u := [_, _, _, _]) (.name _) (.tup (t := [_]) (.name _) (.tup (t := [_, _, _]) (u := [])
      (.sub (t := [_]) (u := [_]) (.name _) (.name _)) .nil)))
    ⟨trivial, trivial, ⟨rfl, trivial, trivial⟩, trivial⟩ (by decide +kernel) (.inl rfl) (by decide +kernel))

/-- `x[i].y.append(i)` modifies `x`; so does `x += i`, or rather it assigns to it again. -/
example :
    events [[xv, iv]] (.expr (.call (.attr (.attr (.sub (.name xv) (.name iv)) yv) "append".toList) (.arg (.name iv) .const))) =
      [(.modify, xv), (.read, xv), (.read, iv), (.read, iv)] ∧
    events [[xv, iv]] (.aug (.name xv) (.name iv)) = [(.read, xv), (.read, iv), (.reassign, xv)] := by decide +kernel

/-- `del x, x` deletes `x` once; then it is not known. A name that is not known at all is not recorded. -/
example :
    events [[xv]] (.del (.tup (.name xv) (.tup (.name xv) .nil))) = [(.delete, xv)] ∧
    events [[xv]] (.expr (.pair (.name xv) (.name iv))) = [(.read, xv)] := by decide +kernel

/-- `x.append(i)` is a modification that is recorded, by `C116_modifies_partial`. -/
example : (.modify, xv) ∈ events [[xv, iv]] (.expr (.call (.attr (.name xv) "append".toList) (.arg (.name iv) .const))) :=
  C116_modifies_partial (M := (· = "append".toList)) (t := [(.read, xv), (.read, iv), (.modify, xv)])
    (.expr (.method (t := [_]) (u := [_]) (.name _) (.arg (u := []) (.name _) .const) rfl rfl)) trivial
    (by rintro a rfl; decide +kernel) (by decide +kernel) (by decide +kernel) (by decide +kernel)

end Verif.Events

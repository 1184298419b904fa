import Verif.Model.MergeVars
import Verif.Props.Antiunify

/-!
C143: variables with different names that are taken to be the same make no difference.

A fragment is a program in which each place of a variable is a placeholder; its own names are got by taking the values of the placeholders for it.
-/

namespace Verif.Aunify

/-! ### Programs -/

/-- Expressions with variables of any kind; functions may raise exceptions. -/
inductive Exp (ν : Type) where
  | var (x : ν)
  | int (n : Int)
  | app (f : Str) (a b : Exp ν)

/-- Statements; `leave` is `break`, `return` and the like. -/
inductive Cmd (ν : Type) where
  | skip
  | assign (x : ν) (e : Exp ν)
  | print (e : Exp ν)
  | seq (c d : Cmd ν)
  | ite (e : Exp ν) (c d : Cmd ν)
  | loop (e : Exp ν) (c : Cmd ν)
  | leave

def Exp.map {ν μ : Type} (f : ν → μ) : Exp ν → Exp μ
  | .var x => .var (f x)
  | .int n => .int n
  | .app g a b => .app g (a.map f) (b.map f)

def Cmd.map {ν μ : Type} (f : ν → μ) : Cmd ν → Cmd μ
  | .skip => .skip
  | .assign x e => .assign (f x) (e.map f)
  | .print e => .print (e.map f)
  | .seq c d => .seq (c.map f) (d.map f)
  | .ite e c d => .ite (e.map f) (c.map f) (d.map f)
  | .loop e c => .loop (e.map f) (c.map f)
  | .leave => .leave

def Exp.vars {ν : Type} : Exp ν → List ν
  | .var x => [x]
  | .int _ => []
  | .app _ a b => a.vars ++ b.vars

def Cmd.vars {ν : Type} : Cmd ν → List ν
  | .skip => []
  | .assign x e => x :: e.vars
  | .print e => e.vars
  | .seq c d => c.vars ++ d.vars
  | .ite e c d => e.vars ++ c.vars ++ d.vars
  | .loop e c => e.vars ++ c.vars
  | .leave => []

/-- The value; nothing if a variable has none, or a function raises an exception. -/
def Exp.eval {ν : Type} (I : Str → Int → Int → Option Int) (σ : ν → Option Int) : Exp ν → Option Int
  | .var x => σ x
  | .int n => some n
  | .app f a b => match a.eval I σ, b.eval I σ with
    | some x, some y => I f x y
    | _, _ => none

/-- Runs with at most `fuel` steps down: whether the program is left, what is printed and the values afterwards; nothing if there is an exception. -/
def Cmd.run {ν : Type} [DecidableEq ν] (I : Str → Int → Int → Option Int) : Nat → Cmd ν → (ν → Option Int) → Option (Bool × List Int × (ν → Option Int))
  | 0, _, _ => none
  | _ + 1, .skip, σ => some (false, [], σ)
  | _ + 1, .leave, σ => some (true, [], σ)
  | _ + 1, .assign x e, σ => match e.eval I σ with
    | none => none
    | some v => some (false, [], fun y => if y = x then some v else σ y)
  | _ + 1, .print e, σ => match e.eval I σ with
    | none => none
    | some v => some (false, [v], σ)
  | n + 1, .seq c d, σ => match c.run I n σ with
    | none => none
    | some (true, o, σ') => some (true, o, σ')
    | some (false, o, σ') => match d.run I n σ' with
      | none => none
      | some (l, o', σ'') => some (l, o ++ o', σ'')
  | n + 1, .ite e c d, σ => match e.eval I σ with
    | none => none
    | some v => if v ≠ 0 then c.run I n σ else d.run I n σ
  | n + 1, .loop e c, σ => match e.eval I σ with
    | none => none
    | some v =>
      if v = 0 then some (false, [], σ)
      else match c.run I n σ with
        | none => none
        | some (true, o, σ') => some (true, o, σ')
        | some (false, o, σ') => match (Cmd.loop e c).run I n σ' with
          | none => none
          | some (l, o', σ'') => some (l, o ++ o', σ'')

/-! ### Renaming -/

section
variable {κ ν μ : Type} [DecidableEq ν] [DecidableEq μ] {I : Str → Int → Int → Option Int} {f : κ → ν} {g : κ → μ}

/-- The values at the places are the same; for places with `P`, there may be none in the first state. -/
def Agree (H : κ → Prop) (P : κ → Prop) (f : κ → ν) (g : κ → μ) (σ : ν → Option Int) (τ : μ → Option Int) : Prop :=
  ∀ h, H h → σ (f h) = τ (g h) ∨ (P h ∧ σ (f h) = none)

theorem eval_agree {H P : κ → Prop} {σ : ν → Option Int} {τ : μ → Option Int} (ha : Agree H P f g σ τ) :
    ∀ (e : Exp κ) (v : Int), (∀ h ∈ e.vars, H h) → (e.map f).eval I σ = some v → (e.map g).eval I τ = some v
  | .var x, v, hv, h => by
    simp only [Exp.map, Exp.eval] at h ⊢
    rcases ha x (hv x (by simp [Exp.vars])) with he | ⟨_, he⟩
    · rw [← he, h]
    · rw [he] at h; cases h
  | .int n, v, _, h => h
  | .app k a b, v, hv, h => by
    simp only [Exp.map, Exp.eval] at h ⊢
    split at h
    · rename_i x y hx hy
      rw [eval_agree ha a x (fun h hh => hv h (by simp [Exp.vars, hh])) hx, eval_agree ha b y (fun h hh => hv h (by simp [Exp.vars, hh])) hy]
      exact h
    · cases h

theorem run_agree {H P : κ → Prop} (hfg : ∀ h h', H h → H h' → (f h = f h' ↔ g h = g h')) :
    ∀ (n : Nat) (c : Cmd κ) (σ : ν → Option Int) (τ : μ → Option Int) (l : Bool) (o : List Int) (σ' : ν → Option Int), (∀ h ∈ c.vars, H h) → Agree H P f g σ τ →
      (c.map f).run I n σ = some (l, o, σ') → ∃ τ', (c.map g).run I n τ = some (l, o, τ') ∧ Agree H P f g σ' τ'
  | 0, c, σ, τ, l, o, σ', _, _, h => by simp [Cmd.run] at h
  | n + 1, .skip, σ, τ, l, o, σ', _, ha, h => by
    simp only [Cmd.map, Cmd.run, Option.some.injEq, Prod.mk.injEq] at h ⊢
    obtain ⟨rfl, rfl, rfl⟩ := h
    exact ⟨τ, ⟨rfl, rfl, rfl⟩, ha⟩
  | n + 1, .leave, σ, τ, l, o, σ', _, ha, h => by
    simp only [Cmd.map, Cmd.run, Option.some.injEq, Prod.mk.injEq] at h ⊢
    obtain ⟨rfl, rfl, rfl⟩ := h
    exact ⟨τ, ⟨rfl, rfl, rfl⟩, ha⟩
  | n + 1, .assign x e, σ, τ, l, o, σ', hv, ha, h => by
    simp only [Cmd.map, Cmd.run] at h ⊢
    split at h
    · cases h
    · rename_i v he
      rw [eval_agree ha e v (fun h hh => hv h (by simp [Cmd.vars, hh])) he]
      simp only [Option.some.injEq, Prod.mk.injEq] at h ⊢
      obtain ⟨rfl, rfl, rfl⟩ := h
      refine ⟨_, ⟨rfl, rfl, rfl⟩, fun k hk => ?_⟩
      have hx := hfg k x hk (hv x (by simp [Cmd.vars]))
      by_cases he : f k = f x
      · simp [he, hx.1 he]
      · have : g k ≠ g x := fun e => he (hx.2 e)
        simp only [he, this, if_false]
        exact ha k hk
  | n + 1, .print e, σ, τ, l, o, σ', hv, ha, h => by
    simp only [Cmd.map, Cmd.run] at h ⊢
    split at h
    · cases h
    · rename_i v he
      rw [eval_agree ha e v (fun h hh => hv h (by simp [Cmd.vars, hh])) he]
      simp only [Option.some.injEq, Prod.mk.injEq] at h ⊢
      obtain ⟨rfl, rfl, rfl⟩ := h
      exact ⟨τ, ⟨rfl, rfl, rfl⟩, ha⟩
  | n + 1, .seq c d, σ, τ, l, o, σ', hv, ha, h => by
    have hc : ∀ h ∈ c.vars, H h := fun h hh => hv h (by simp [Cmd.vars, hh])
    have hd : ∀ h ∈ d.vars, H h := fun h hh => hv h (by simp [Cmd.vars, hh])
    simp only [Cmd.map, Cmd.run] at h ⊢
    split at h
    · cases h
    · rename_i o₁ σ₁ h₁
      simp only [Option.some.injEq, Prod.mk.injEq] at h
      obtain ⟨rfl, rfl, rfl⟩ := h
      obtain ⟨τ₁, e₁, a₁⟩ := run_agree hfg n c σ τ _ _ _ hc ha h₁
      exact ⟨τ₁, by rw [e₁], a₁⟩
    · rename_i o₁ σ₁ h₁
      obtain ⟨τ₁, e₁, a₁⟩ := run_agree hfg n c σ τ _ _ _ hc ha h₁
      split at h
      · cases h
      · rename_i l₂ o₂ σ₂ h₂
        simp only [Option.some.injEq, Prod.mk.injEq] at h
        obtain ⟨rfl, rfl, rfl⟩ := h
        obtain ⟨τ₂, e₂, a₂⟩ := run_agree hfg n d σ₁ τ₁ _ _ _ hd a₁ h₂
        exact ⟨τ₂, by simp only [e₁, e₂], a₂⟩
  | n + 1, .ite e c d, σ, τ, l, o, σ', hv, ha, h => by
    have hc : ∀ h ∈ c.vars, H h := fun h hh => hv h (by simp [Cmd.vars, hh])
    have hd : ∀ h ∈ d.vars, H h := fun h hh => hv h (by simp [Cmd.vars, hh])
    simp only [Cmd.map, Cmd.run] at h ⊢
    split at h
    · cases h
    · rename_i v he
      rw [eval_agree ha e v (fun h hh => hv h (by simp [Cmd.vars, hh])) he]
      simp only
      split at h
      · rename_i hv0
        rw [if_pos hv0]
        exact run_agree hfg n c σ τ _ _ _ hc ha h
      · rename_i hv0
        rw [if_neg hv0]
        exact run_agree hfg n d σ τ _ _ _ hd ha h
  | n + 1, .loop e c, σ, τ, l, o, σ', hv, ha, h => by
    have hc : ∀ h ∈ c.vars, H h := fun h hh => hv h (by simp [Cmd.vars, hh])
    simp only [Cmd.map, Cmd.run] at h ⊢
    split at h
    · cases h
    · rename_i v he
      rw [eval_agree ha e v (fun h hh => hv h (by simp [Cmd.vars, hh])) he]
      simp only
      split at h
      · rename_i hv0
        rw [if_pos hv0]
        simp only [Option.some.injEq, Prod.mk.injEq] at h
        obtain ⟨rfl, rfl, rfl⟩ := h
        exact ⟨τ, rfl, ha⟩
      · rename_i hv0
        rw [if_neg hv0]
        split at h
        · cases h
        · rename_i o₁ σ₁ h₁
          simp only [Option.some.injEq, Prod.mk.injEq] at h
          obtain ⟨rfl, rfl, rfl⟩ := h
          obtain ⟨τ₁, e₁, a₁⟩ := run_agree hfg n c σ τ _ _ _ hc ha h₁
          exact ⟨τ₁, by rw [e₁], a₁⟩
        · rename_i o₁ σ₁ h₁
          obtain ⟨τ₁, e₁, a₁⟩ := run_agree hfg n c σ τ _ _ _ hc ha h₁
          split at h
          · cases h
          · rename_i l₂ o₂ σ₂ h₂
            simp only [Option.some.injEq, Prod.mk.injEq] at h
            obtain ⟨rfl, rfl, rfl⟩ := h
            obtain ⟨τ₂, e₂, a₂⟩ := run_agree hfg n (.loop e c) σ₁ τ₁ _ _ _ hv a₁ h₂
            simp only [Cmd.map] at e₂
            exact ⟨τ₂, by simp only [e₁, e₂], a₂⟩

end

/-! ### Groups -/

/-- The placeholder is in the group for its values. -/
def InGroup (d : List (List Ast × List Hole)) (p : Hole) : Prop := ∃ vs, (p.subs, vs) ∈ d ∧ p ∈ vs

theorem inGroup_extend {key : List Ast} {values : List Hole} {p : Hole} : ∀ {d : List (List Ast × List Hole)}, InGroup d p → InGroup (extendAt key values d) p
  | [], h => by obtain ⟨vs, h, -⟩ := h; simp at h
  | (k, vs) :: d, ⟨ws, hm, hp⟩ => by
    rw [extendAt]
    split
    · rename_i hk
      rcases List.mem_cons.1 hm with he | hm
      · cases he
        exact ⟨vs ++ values, List.mem_cons_self, List.mem_append_left _ hp⟩
      · exact ⟨ws, List.mem_cons_of_mem _ hm, hp⟩
    · rcases List.mem_cons.1 hm with he | hm
      · cases he
        exact ⟨vs, List.mem_cons_self, hp⟩
      · obtain ⟨us, h1, h2⟩ := inGroup_extend (key := key) (values := values) (d := d) ⟨ws, hm, hp⟩
        exact ⟨us, List.mem_cons_of_mem _ h1, h2⟩

theorem inGroup_new {values : List Hole} {p : Hole} (hp : p ∈ values) : ∀ {d : List (List Ast × List Hole)}, InGroup (extendAt p.subs values d) p
  | [] => ⟨values, by simp [extendAt], hp⟩
  | (k, vs) :: d => by
    rw [extendAt]
    split
    · rename_i hk
      subst hk
      exact ⟨vs ++ values, List.mem_cons_self, List.mem_append_right _ hp⟩
    · obtain ⟨us, h1, h2⟩ := inGroup_new hp (d := d)
      exact ⟨us, List.mem_cons_of_mem _ h1, h2⟩

theorem extendAt_nodup {key : List Ast} {values : List Hole} : ∀ {d : List (List Ast × List Hole)}, (d.map Prod.fst).Nodup → ((extendAt key values d).map Prod.fst).Nodup
  | [], _ => by simp [extendAt]
  | (k, vs) :: d, h => by
    rw [extendAt]
    rw [List.map_cons, List.nodup_cons] at h
    split
    · rw [List.map_cons, List.nodup_cons]
      exact h
    · rename_i hk
      rw [List.map_cons, List.nodup_cons]
      refine ⟨fun hm => ?_, extendAt_nodup h.2⟩
      rcases extendAt_keys hm with he | hm
      · exact hk he
      · exact h.1 hm

theorem step_inGroup {s s' : Merge} {h : Hole} (hs : s.step true h = some s') (hh : h.isName = true → ∃ n, h.subs.head? = some (.const (.str n)))
    (hd : (s.groups.map Prod.fst).Nodup) :
    s'.forced = s.forced ∧ (s'.groups.map Prod.fst).Nodup ∧ (∀ p, InGroup s.groups p → InGroup s'.groups p) ∧ (h.isName = true → InGroup s'.groups h) := by
  unfold Merge.step at hs
  split at hs
  · rename_i hsub
    cases hs
    refine ⟨rfl, hd, fun _ h => h, fun hn => ?_⟩
    obtain ⟨n, hn⟩ := hh hn
    simp [hsub] at hn
  · simp only [Bool.not_true, Bool.false_and, Bool.false_eq_true, if_false, if_true] at hs
    split at hs
    · cases hs
      refine ⟨rfl, ?_, fun p hp => ?_, fun hn => ?_⟩
      · dsimp only
        split
        · exact extendAt_nodup hd
        · exact hd
      · dsimp only
        split
        · exact inGroup_extend hp
        · exact hp
      · dsimp only
        rw [if_pos hn]
        exact inGroup_new (by simp)
    · split at hs
      · rename_i hc
        cases hs
        refine ⟨rfl, extendAt_nodup hd, fun p hp => inGroup_extend hp, fun _ => ?_⟩
        rw [hc.2.1]
        exact inGroup_new (by simp)
      · cases hs
    · cases hs

theorem steps_inGroup : ∀ {hs : List Hole} {s s' : Merge}, Merge.steps true s hs = some s' → (∀ h ∈ hs, h.isName = true → ∃ n, h.subs.head? = some (.const (.str n))) →
    (s.groups.map Prod.fst).Nodup →
    s'.forced = s.forced ∧ (s'.groups.map Prod.fst).Nodup ∧ (∀ p, InGroup s.groups p → InGroup s'.groups p) ∧ ∀ h ∈ hs, h.isName = true → InGroup s'.groups h
  | [], s, s', h, _, hd => by cases h; exact ⟨rfl, hd, fun _ h => h, by simp⟩
  | x :: hs, s, s', h, hh, hd => by
    simp only [Merge.steps] at h
    cases hx : s.step true x with
    | none => simp [hx] at h
    | some t =>
      simp only [hx] at h
      obtain ⟨h1, h2, h3, h4⟩ := step_inGroup hx (hh x (by simp)) hd
      obtain ⟨i1, i2, i3, i4⟩ := steps_inGroup h (fun y hy => hh y (List.mem_cons_of_mem _ hy)) h2
      refine ⟨i1.trans h1, i2, fun p hp => i3 p (h3 p hp), fun y hy hn => ?_⟩
      rcases List.mem_cons.1 hy with rfl | hy
      · exact i3 _ (h4 hn)
      · exact i4 y hy hn

/-- Of placeholders with the same names, all are merged or none is. -/
theorem merged_same {mergeable : List Hole → Bool} {hs : List Hole} {groups : List (List Ast × List Hole)} (h : mergeCandidates true hs = some groups)
    (hh : ∀ h ∈ hs, h.isName = true → ∃ n, h.subs.head? = some (.const (.str n))) (hid : (hs.map Hole.id).Nodup) {p q : Hole} (hp : p ∈ hs) (hq : q ∈ hs)
    (hqn : q.isName = true) (he : p.subs = q.subs) (hm : p.id ∈ mergedIds mergeable groups) : q.id ∈ mergedIds mergeable groups := by
  have hg := candidates_grouped h
  unfold mergeCandidates at h
  rw [Option.map_eq_some_iff] at h
  obtain ⟨s, hs', hgr⟩ := h
  obtain ⟨h1, h2, -, h4⟩ := steps_inGroup hs' hh (by simp)
  simp only at h1
  rw [h1, List.foldl_nil] at hgr
  subst hgr
  unfold mergedIds at hm ⊢
  obtain ⟨g, hgm, hi⟩ := List.mem_flatMap.1 hm
  obtain ⟨p', hp', hpi⟩ := List.mem_map.1 hi
  obtain ⟨hgs, hgc⟩ := List.mem_filter.1 hgm
  obtain ⟨e1, e2⟩ := hg g hgs p' hp'
  have := inj_of_nodup_map hid e2 hp hpi
  subst this
  obtain ⟨vs, hvs, hqv⟩ := h4 q hq hqn
  have : (q.subs, vs) = g := inj_of_nodup_map h2 hvs hgs (by rw [← e1, he])
  subst this
  exact List.mem_flatMap.2 ⟨_, hgm, List.mem_map_of_mem hqv⟩

/-! ### Merging -/

/-- The name of the variable in fragment `i`. -/
def nameAt (i : Nat) (h : Hole) : Str := match h.subs[i]? with
  | some (.const (.str n)) => n
  | _ => []

/-- The placeholder is for a variable, in `k` fragments. -/
def Names (k : Nat) (h : Hole) : Prop := h.isName = true ∧ ∃ ns : List Str, ns.length = k ∧ h.subs = ns.map fun n => .const (.str n)

theorem Names.at {k i : Nat} {h : Hole} (hn : Names k h) (hi : i < k) : h.subs[i]? = some (.const (.str (nameAt i h))) := by
  obtain ⟨-, ns, hl, he⟩ := hn
  have : h.subs[i]? = some (.const (.str (ns[i]'(by omega)))) := by rw [he, List.getElem?_map, List.getElem?_eq_getElem (by omega)]; rfl
  rw [nameAt, this]

/-- What stands at the place when variables are merged: the name in the first fragment for those that are, and the placeholder for others, which is the variable of
fragment `i` in it. -/
def slot (ids : List Nat) (i : Nat) (h : Hole) : Str ⊕ Str := if h.id ∈ ids then .inl (nameAt 0 h) else .inr (nameAt i h)

/-- The variable of fragment `i` is merged with ones of other names, and has no value before. -/
def FreshName (hs : List Hole) (ids : List Nat) (var : Hole → Nat → Option Variable) (before : List Variable) (i : Nat) (x : Str) : Prop :=
  ∃ h ∈ hs, h.id ∈ ids ∧ allSame h.subs = false ∧ nameAt i h = x ∧ ∃ v, var h i = some v ∧ v ∉ before

open Classical in
/-- The values without those of the given names. -/
noncomputable def without (X : Str → Prop) (σ : Str → Option Int) : Str → Option Int := fun x => if X x then none else σ x

theorem same_names {k i j : Nat} {hs : List Hole} {groups : List (List Ast × List Hole)} (h : mergeCandidates true hs = some groups)
    (hh : ∀ h ∈ hs, h.isName = true → Names k h) (hi : i < k) (hj : j < k) {p q : Hole} (hp : p ∈ hs) (hq : q ∈ hs) (hpn : p.isName = true) (hqn : q.isName = true)
    (he : nameAt i p = nameAt i q) : p.subs = q.subs ∧ nameAt j p = nameAt j q := by
  have hhead : ∀ h ∈ hs, h.isName = true → ∃ n, h.subs.head? = some (.const (.str n)) := by
    intro h hm hn
    have := (hh h hm hn).at (i := 0) (by omega)
    exact ⟨_, by rw [List.head?_eq_getElem?]; exact this⟩
  have h1 := (hh p hp hpn).at hi
  have h2 := (hh q hq hqn).at hi
  rw [← he] at h2
  have := candidates_consistent h hhead p hp q hq hpn hqn i _ h1 h2
  exact ⟨this, by rw [nameAt, nameAt, this]⟩

/-- C143: If names have to be consistent, the program with the names of the first fragment for merged variables does what fragment `i` does: it prints the same, and
all variables have the same values afterwards, but for those merged under other names that have no value before; these may have any value before. That a variable has
no value before means that fragment `i` runs without one. -/
theorem C143_same_partial {k i n : Nat} {hs : List Hole} {ids : List Nat} {var : Hole → Nat → Option Variable} {before after : List Variable}
    (hm : mergedVars true var before after hs = some ids) (hid : (hs.map Hole.id).Nodup) (hh : ∀ h ∈ hs, h.isName = true → Names k h) (hi : i < k)
    {c : Cmd Hole} (hc : ∀ h ∈ c.vars, h ∈ hs ∧ h.isName = true) {I : Str → Int → Int → Option Int} {σ : Str → Option Int} {τ : Str ⊕ Str → Option Int}
    (hτ : ∀ h ∈ hs, h.isName = true → ¬ FreshName hs ids var before i (nameAt i h) → τ (slot ids i h) = σ (nameAt i h))
    {l : Bool} {o : List Int} {σ₀ : Str → Option Int}
    (hrun : (c.map (nameAt i)).run I n (without (FreshName hs ids var before i) σ) = some (l, o, σ₀)) :
    ∃ σ' τ', (c.map (nameAt i)).run I n σ = some (l, o, σ') ∧ (c.map (slot ids i)).run I n τ = some (l, o, τ') ∧
      ∀ h ∈ hs, h.isName = true → ¬ FreshName hs ids var before i (nameAt i h) → τ' (slot ids i h) = σ' (nameAt i h) := by
  unfold mergedVars at hm
  rw [Option.map_eq_some_iff] at hm
  obtain ⟨groups, hg, rfl⟩ := hm
  generalize hids : mergedIds (canMerge var before after) groups = ids at *
  have hhead : ∀ h ∈ hs, h.isName = true → ∃ n, h.subs.head? = some (.const (.str n)) := by
    intro h hm hn
    have := (hh h hm hn).at (i := 0) (by omega)
    exact ⟨_, by rw [List.head?_eq_getElem?]; exact this⟩
  obtain ⟨σ', h1, a1⟩ := run_agree (H := fun h : Hole => h ∈ hs ∧ h.isName = true) (P := fun h => FreshName hs ids var before i (nameAt i h)) (f := nameAt i) (g := nameAt i)
    (fun _ _ _ _ => Iff.rfl) n c (without (FreshName hs ids var before i) σ) σ l o σ₀ hc (fun h _ => by
      by_cases hf : FreshName hs ids var before i (nameAt i h)
      · exact .inr ⟨hf, by simp [without, hf]⟩
      · exact .inl (by simp [without, hf])) hrun
  obtain ⟨τ', h2, a2⟩ := run_agree (H := fun h : Hole => h ∈ hs ∧ h.isName = true) (P := fun h => FreshName hs ids var before i (nameAt i h)) (f := nameAt i)
    (g := slot ids i) (fun h h' hh1 hh2 => by
      constructor
      · intro he
        obtain ⟨e1, e2⟩ := same_names (j := 0) hg hh hi (by omega) hh1.1 hh2.1 hh1.2 hh2.2 he
        by_cases hm : h.id ∈ ids
        · have : h'.id ∈ ids := hids ▸ merged_same hg hhead hid hh1.1 hh2.1 hh2.2 e1 (hids ▸ hm)
          simp [slot, hm, this, e2]
        · have : h'.id ∉ ids := fun hm' => hm (hids ▸ merged_same hg hhead hid hh2.1 hh1.1 hh1.2 e1.symm (hids ▸ hm'))
          simp [slot, hm, this, he]
      · intro he
        by_cases hm : h.id ∈ ids <;> by_cases hm' : h'.id ∈ ids <;> simp only [slot, hm, hm', if_true, if_false, Sum.inl.injEq, Sum.inr.injEq, reduceCtorEq] at he
        · exact (same_names hg hh (by omega) hi hh1.1 hh2.1 hh1.2 hh2.2 he).2
        · exact he)
    n c (without (FreshName hs ids var before i) σ) τ l o σ₀ hc (fun h hH => by
      by_cases hf : FreshName hs ids var before i (nameAt i h)
      · exact .inr ⟨hf, by simp [without, hf]⟩
      · exact .inl (by simp only [without, hf, if_false]; exact (hτ h hH.1 hH.2 hf).symm)) hrun
  refine ⟨σ', τ', h1, h2, fun h hm hn hf => ?_⟩
  rcases a1 h ⟨hm, hn⟩ with e1 | ⟨e1, -⟩
  · rcases a2 h ⟨hm, hn⟩ with e2 | ⟨e2, -⟩
    · rw [← e1, ← e2]
    · exact absurd e2 hf
  · exact absurd e1 hf

/-! ### Which variables are merged -/

theorem mapM_some {α β : Type} {f : α → Option β} : ∀ {l : List α} {r : List β}, l.mapM f = some r →
    (∀ a ∈ l, ∃ b ∈ r, f a = some b) ∧ ∀ b ∈ r, ∃ a ∈ l, f a = some b
  | [], r, h => by
    simp only [List.mapM_nil, Option.pure_def, Option.some.injEq] at h
    subst h
    simp
  | a :: l, r, h => by
    rw [List.mapM_cons] at h
    cases ha : f a with
    | none => simp [ha] at h
    | some b =>
      cases hl : l.mapM f with
      | none => simp [ha, hl] at h
      | some bs =>
        simp only [ha, hl, Option.bind_eq_bind, Option.bind_some, Option.pure_def, Option.some.injEq] at h
        subst h
        obtain ⟨h1, h2⟩ := mapM_some hl
        constructor
        · intro x hx
          rcases List.mem_cons.1 hx with rfl | hx
          · exact ⟨b, by simp, ha⟩
          · obtain ⟨y, hy, he⟩ := h1 x hx
            exact ⟨y, List.mem_cons_of_mem _ hy, he⟩
        · intro y hy
          rcases List.mem_cons.1 hy with rfl | hy
          · exact ⟨a, by simp, ha⟩
          · obtain ⟨x, hx, he⟩ := h2 y hy
            exact ⟨x, List.mem_cons_of_mem _ hx, he⟩

theorem scopeIsNested_iff : ∀ (s t : Scope), scopeIsNested s t = true ↔ t <:+ s
  | [], t => by simp [scopeIsNested, List.suffix_nil]
  | i :: s, t => by
    rw [scopeIsNested, List.suffix_cons_iff]
    split
    · rename_i h
      simp [h]
    · rename_i h
      rw [scopeIsNested_iff s t]
      exact ⟨.inr, fun h' => h'.resolve_left fun e => h e.symm⟩

/-- C143: Variables that are merged under different names are not used afterwards in any fragment; if one has a value before, none is in the scope of another one, or
around it. -/
theorem C143_condition {consistent : Bool} {hs : List Hole} {ids : List Nat} {var : Hole → Nat → Option Variable} {before after : List Variable}
    (hm : mergedVars consistent var before after hs = some ids) (hid : (hs.map Hole.id).Nodup) {p : Hole} (hp : p ∈ hs) (hpi : p.id ∈ ids)
    (hns : allSame p.subs = false) :
    (∀ j < p.subs.length, ∃ v, var p j = some v ∧ v ∉ after) ∧
      ((∃ j < p.subs.length, ∃ v ∈ before, var p j = some v) → ∀ j < p.subs.length, ∀ j' < p.subs.length, ∀ v w, var p j = some v → var p j' = some w → v ≠ w →
        ¬ v.scope <:+ w.scope) := by
  unfold mergedVars at hm
  rw [Option.map_eq_some_iff] at hm
  obtain ⟨groups, hg, rfl⟩ := hm
  rcases mergedIds_mem (candidates_grouped hg) hid hp hpi with h | ⟨g, hpg, hcm⟩
  · rw [h] at hns; cases hns
  · have h1 := List.all_eq_true.1 hcm p hpg
    unfold canMergeOne at h1
    split at h1
    · cases h1
    · rename_i vs hvs
      obtain ⟨m1, m2⟩ := mapM_some hvs
      simp only [Bool.not_eq_true', Bool.or_eq_false_iff, List.any_eq_false, decide_eq_true_eq, Bool.and_eq_false_iff] at h1
      refine ⟨fun j hj => ?_, fun hb j hj j' hj' v w hv hw hne hn => ?_⟩
      · obtain ⟨v, hv, he⟩ := m1 j (List.mem_range.2 hj)
        exact ⟨v, he, h1.1 v hv⟩
      · obtain ⟨jb, hjb, vb, hvb, hbe⟩ := hb
        rcases h1.2 with h2 | h2
        · obtain ⟨u, hu, hue⟩ := m1 jb (List.mem_range.2 hjb)
          rw [hbe] at hue
          cases hue
          exact h2 vb hu hvb
        · obtain ⟨v', hv', hve⟩ := m1 j (List.mem_range.2 hj)
          obtain ⟨w', hw', hwe⟩ := m1 j' (List.mem_range.2 hj')
          rw [hv] at hve
          rw [hw] at hwe
          cases hve
          cases hwe
          have := h2 v hv'
          simp only [List.any_eq_true, decide_eq_true_eq, Bool.and_eq_true, not_exists, not_and] at this
          refine this w hw' hne ?_
          simp [scopesAreNested, (scopeIsNested_iff w.scope v.scope).2 hn]

/-- C143: If the fragments are in one function, variables that are merged under different names have no value before. -/
theorem C143_one_scope {k : Nat} {hs : List Hole} {ids : List Nat} {var : Hole → Nat → Option Variable} {before after : List Variable} {consistent : Bool}
    (hm : mergedVars consistent var before after hs = some ids) (hid : (hs.map Hole.id).Nodup) {p : Hole} (hp : p ∈ hs) (hn : Names k p) (hpi : p.id ∈ ids)
    (hns : allSame p.subs = false) {s : Scope} (hv : ∀ j < k, ∀ v, var p j = some v → v = ⟨nameAt j p, s⟩) {j : Nat} (hj : j < k) :
    FreshName hs ids var before j (nameAt j p) := by
  have hl : p.subs.length = k := by
    obtain ⟨-, ns, hl, he⟩ := hn
    rw [he, List.length_map, hl]
  obtain ⟨h1, h2⟩ := C143_condition hm hid hp hpi hns
  rw [hl] at h1 h2
  obtain ⟨v, hvj, -⟩ := h1 j hj
  refine ⟨p, hp, hpi, hns, rfl, v, hvj, fun hb => ?_⟩
  have h3 := h2 ⟨j, hj, v, hb, hvj⟩
  have hk : 0 < k := by omega
  obtain ⟨v0, hv0, -⟩ := h1 0 hk
  simp only [allSame, List.all_eq_false, decide_eq_true_eq] at hns
  obtain ⟨x, hx, hne⟩ := hns
  obtain ⟨j', hj', hxe⟩ := List.mem_iff_getElem.1 hx
  rw [hl] at hj'
  obtain ⟨w, hw, -⟩ := h1 j' hj'
  refine h3 0 hk j' hj' v0 w hv0 hw (fun he => hne ?_) ?_
  · rw [hv 0 hk v0 hv0, hv j' hj' w hw] at he
    have hname : nameAt 0 p = nameAt j' p := congrArg Variable.name he
    have e1 := hn.at hk
    have e2 := hn.at hj'
    rw [List.head?_eq_getElem?, e1, hname, ← e2, List.getElem?_eq_getElem (by omega), hxe]
  · rw [hv 0 hk v0 hv0, hv j' hj' w hw]
    exact List.suffix_refl _

/-! ### Examples -/

def exStr (s : String) : Ast := .const (.str s.toList)

def exHole (id : Nat) (a b : String) : Hole := ⟨id, true, [exStr a, exStr b]⟩

/-- All variables are in one function. -/
def exVar (h : Hole) (i : Nat) : Option Variable := some ⟨nameAt i h, [0]⟩

def exI (f : Str) (a b : Int) : Option Int := if f = ['+'] then some (a + b) else some (a - b)

/-- `x = 1`, `print(x)` and `y = 1`, `print(y)`. -/
def exHoles : List Hole := [exHole 1 "x" "y", exHole 2 "x" "y"]
@[inherit_doc exHoles]
def exCmd : Cmd Hole := .seq (.assign (exHole 1 "x" "y") (.int 1)) (.print (.var (exHole 2 "x" "y")))

/-- Both are merged, unless one is used afterwards or has a value before. -/
example : mergedVars true exVar [] [] exHoles = some [1, 2] ∧ mergedVars true exVar [] [⟨"y".toList, [0]⟩] exHoles = some [] ∧
    mergedVars true exVar [⟨"x".toList, [0]⟩] [] exHoles = some [] := by decide +kernel

/-- Variables of different functions may have values before. -/
example : mergedVars true (fun h i => some ⟨nameAt i h, [i]⟩) [⟨"x".toList, [0]⟩, ⟨"y".toList, [1]⟩] [] exHoles = some [1, 2] := by decide +kernel

/-- The second fragment and the program with the names of the first one print the same. -/
example : ∃ τ', (exCmd.map (slot [1, 2] 1)).run exI 3 (fun _ => none) = some (false, [1], τ') := by
  obtain ⟨σ', τ', -, h, -⟩ := C143_same_partial (k := 2) (i := 1) (n := 3) (hs := exHoles) (ids := [1, 2]) (var := exVar) (before := []) (after := []) (c := exCmd) (I := exI)
    (σ := fun _ => none) (τ := fun _ => none) (by decide +kernel) (by decide)
    (by simp only [exHoles, List.forall_mem_cons]; exact ⟨fun _ => ⟨rfl, ["x".toList, "y".toList], rfl, rfl⟩, fun _ => ⟨rfl, ["x".toList, "y".toList], rfl, rfl⟩, by simp⟩)
    (by decide) (by simp [exCmd, Cmd.vars, Exp.vars, exHoles, exHole]) (fun _ _ _ _ => rfl) (l := false) (o := [1]) (σ₀ := fun x => if x = "y".toList then some 1 else none)
    (by
      have : without (FreshName exHoles [1, 2] exVar [] 1) (fun _ => none) = fun _ => none := by funext x; simp [without]
      rw [this]
      rfl)
  exact ⟨τ', h⟩

/-- `x = 1`, `y = x + x`, `print(x - y)` and `x = 1`, `x = x + x`, `print(x - x)`. -/
def badHoles : List Hole := [exHole 1 "x" "x", exHole 2 "y" "x", exHole 3 "x" "x", exHole 4 "x" "x", exHole 5 "x" "x", exHole 6 "y" "x"]
@[inherit_doc badHoles]
def badCmd : Cmd Hole := .seq (.assign (exHole 1 "x" "x") (.int 1)) (.seq (.assign (exHole 2 "y" "x") (.app ['+'] (.var (exHole 3 "x" "x")) (.var (exHole 4 "x" "x"))))
  (.print (.app ['-'] (.var (exHole 5 "x" "x")) (.var (exHole 6 "y" "x")))))

/-- The property fails where names need not be consistent: all variables are merged, and the second fragment prints something else. -/
theorem C143_inconsistent_counterexample :
    mergedVars false exVar [] [] badHoles = some [2, 6, 1, 3, 4, 5] ∧
    ((badCmd.map (nameAt 1)).run exI 4 fun _ => none).map (fun r => r.2.1) = some [0] ∧
    ((badCmd.map (slot [2, 6, 1, 3, 4, 5] 1)).run exI 4 fun _ => none).map (fun r => r.2.1) = some [-1] := by
  decide +kernel

/-- Where they have to be, there is no result. -/
example : mergedVars true exVar [] [] badHoles = none := by decide +kernel

end Verif.Aunify

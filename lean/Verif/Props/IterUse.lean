import Verif.Model.IterUse
import Verif.Props.Repetition
import Mathlib.Data.List.Forall2

/-!
C137: the range suggested for repetitions that differ in expressions of different types (`x`, `x + 1`, `x + 2`, …).

What an expression evaluates to is given by an arbitrary interpretation of constants, names, subscripts and operators. `At S core n e` says that the core with the
variable of the loop in place of what differs evaluates to what `e` does if the variable is `n`.
-/

namespace Verif.IterUse

/-- Meanings of expressions. Exceptions are values too. -/
structure Sem (V : Type) where
  const : Int → V
  name : Str → V
  item : V → V → V
  op : Op → V → V → V

def eval {V : Type} (S : Sem V) : Expr → V
  | .const n => S.const n
  | .name x => S.name x
  | .subscript e i => S.item (eval S e) (eval S i)
  | .bin op l r => S.op op (eval S l) (eval S r)

/-- The meaning of a core with the variable of the loop in place of the value that differs. -/
def evalCore {V : Type} (S : Sem V) (v : V) : Core → V
  | .const n => S.const n
  | .name x => S.name x
  | .subscript e i => S.item (evalCore S v e) (evalCore S v i)
  | .bin op l r => S.op op (evalCore S v l) (evalCore S v r)
  | .value => v
  | .hole => v
  | .label => v

def At {V : Type} (S : Sem V) (core : Core) (n : Int) (e : Expr) : Prop := evalCore S (S.const n) core = eval S e

/-! ### Antiunification -/

theorem eq_map_of_length {α β : Type} (f : α → Option β) (g : β → α) (hf : ∀ a b, f a = some b → a = g b) : ∀ (l : List α),
    (l.filterMap f).length = l.length → l = (l.filterMap f).map g
  | [], _ => rfl
  | a :: l, h => by
    rw [List.filterMap_cons] at h ⊢
    cases hfa : f a with
    | none =>
      rw [hfa] at h
      have := List.length_filterMap_le f l
      simp only [List.length_cons] at h
      omega
    | some b =>
      rw [hfa] at h
      simp only [List.length_cons, Nat.add_right_cancel_iff] at h
      simp only [List.map_cons]
      rw [← eq_map_of_length f g hf l h, ← hf a b hfa]

theorem const?_eq : ∀ (e : Expr) (n : Int), e.const? = some n → e = .const n := by
  intro e n h
  cases e <;> simp_all [Expr.const?]

theorem name?_eq : ∀ (e : Expr) (n : Str), e.name? = some n → e = .name n := by
  intro e n h
  cases e <;> simp_all [Expr.name?]

theorem subscript?_eq : ∀ (e : Expr) (p : Expr × Expr), e.subscript? = some p → e = .subscript p.1 p.2 := by
  intro e n h
  cases e <;> simp_all [Expr.subscript?]
  simp [← h]

theorem bin?_eq : ∀ (e : Expr) (p : Op × Expr × Expr), e.bin? = some p → e = .bin p.1 p.2.1 p.2.2 := by
  intro e n h
  cases e <;> simp_all [Expr.bin?]
  simp [← h]

/-- If nothing differs, all the expressions are the core. -/
theorem aunify_nil : ∀ (e : Expr) (es : List Expr) (core : Core), aunify e es = (core, []) → ∀ e' ∈ e :: es, e'.core = core
  | .const n, es, core, h => by
    rw [aunify] at h
    split at h
    · simp at h
    · rename_i hl
      split at h
      · rename_i ha
        injection h with h1 _
        rw [← h1]
        have := eq_map_of_length _ _ const?_eq es (Decidable.not_not.1 hl)
        intro e' he'
        rcases List.mem_cons.1 he' with rfl | he'
        · rfl
        · rw [this] at he'
          obtain ⟨m, hm, rfl⟩ := List.mem_map.1 he'
          have := List.all_eq_true.1 ha m hm
          simp only [decide_eq_true_eq] at this
          rw [this]; rfl
      · simp at h
  | .name x, es, core, h => by
    rw [aunify] at h
    split at h
    · simp at h
    · rename_i hl
      split at h
      · rename_i ha
        injection h with h1 _
        rw [← h1]
        have := eq_map_of_length _ _ name?_eq es (Decidable.not_not.1 hl)
        intro e' he'
        rcases List.mem_cons.1 he' with rfl | he'
        · rfl
        · rw [this] at he'
          obtain ⟨m, hm, rfl⟩ := List.mem_map.1 he'
          have := List.all_eq_true.1 ha m hm
          simp only [decide_eq_true_eq] at this
          rw [this]; rfl
      · simp at h
  | .subscript e i, es, core, h => by
    rw [aunify] at h
    split at h
    · simp at h
    · rename_i hl
      injection h with h1 h2
      rw [List.append_eq_nil_iff] at h2
      have he := aunify_nil e _ _ (Prod.ext rfl h2.1)
      have hi := aunify_nil i _ _ (Prod.ext rfl h2.2)
      have := eq_map_of_length _ _ subscript?_eq es (Decidable.not_not.1 hl)
      intro e' he'
      rw [← h1]
      rcases List.mem_cons.1 he' with rfl | he'
      · rw [Expr.core, he e (by simp), hi i (by simp)]
      · rw [this] at he'
        obtain ⟨p, hp, rfl⟩ := List.mem_map.1 he'
        rw [Expr.core, he p.1 (List.mem_cons_of_mem _ (List.mem_map_of_mem hp)), hi p.2 (List.mem_cons_of_mem _ (List.mem_map_of_mem hp))]
  | .bin op l r, es, core, h => by
    rw [aunify] at h
    split at h
    · simp at h
    · rename_i hl
      injection h with h1 h2
      rw [List.append_eq_nil_iff, List.append_eq_nil_iff] at h2
      have he := aunify_nil l _ _ (Prod.ext rfl h2.1.1)
      have hi := aunify_nil r _ _ (Prod.ext rfl h2.1.2)
      have ho : (es.filterMap Expr.bin?).all (·.1 = op) := by
        by_contra hc
        rw [if_neg hc] at h2
        simp at h2
      have := eq_map_of_length _ _ bin?_eq es (Decidable.not_not.1 hl)
      intro e' he'
      rw [← h1]
      rcases List.mem_cons.1 he' with rfl | he'
      · rw [Expr.core, he l (by simp), hi r (by simp)]
      · rw [this] at he'
        obtain ⟨p, hp, rfl⟩ := List.mem_map.1 he'
        have h3 := List.all_eq_true.1 ho p hp
        simp only [decide_eq_true_eq] at h3
        rw [Expr.core, he p.2.1 (List.mem_cons_of_mem _ (List.mem_map.2 ⟨p, hp, rfl⟩)), hi p.2.2 (List.mem_cons_of_mem _ (List.mem_map.2 ⟨p, hp, rfl⟩)), h3]

theorem evalCore_core {V : Type} (S : Sem V) (v : V) : ∀ e : Expr, evalCore S v e.core = eval S e
  | .const _ => rfl
  | .name _ => rfl
  | .subscript e i => by rw [Expr.core, evalCore, eval, evalCore_core S v e, evalCore_core S v i]
  | .bin op l r => by rw [Expr.core, evalCore, eval, evalCore_core S v l, evalCore_core S v r]

theorem evalCore_of_nil {V : Type} (S : Sem V) (v : V) {e : Expr} {es : List Expr} {core : Core} (h : aunify e es = (core, [])) {e' : Expr} (he : e' ∈ e :: es) :
    evalCore S v core = eval S e' := by
  rw [← aunify_nil e es core h e' he, evalCore_core]

theorem forall₂_map_right' {α β γ : Type} {R : α → γ → Prop} {f : β → γ} {l : List α} {m : List β} (h : List.Forall₂ R l (m.map f)) :
    List.Forall₂ (fun a b => R a (f b)) l m := by
  rwa [List.forall₂_map_right_iff] at h

theorem forall₂_mem_right {α β : Type} {R Q : α → β → Prop} : ∀ {l : List α} {m : List β}, List.Forall₂ R l m → (∀ a b, b ∈ m → R a b → Q a b) → List.Forall₂ Q l m
  | _, _, .nil, _ => .nil
  | _, _, .cons h t, hq => .cons (hq _ _ (by simp) h) (forall₂_mem_right t fun a b hb => hq a b (List.mem_cons_of_mem _ hb))

theorem forall₂_self {α β : Type} {R : α → β → Prop} {f : α → β} : ∀ (l : List α), (∀ a, R a (f a)) → List.Forall₂ R l (l.map f)
  | [], _ => .nil
  | a :: l, h => .cons (h a) (forall₂_self l h)

/-- If just the value of one constant differs, the core with the values evaluates to what the expressions do. -/
theorem aunify_values {V : Type} (S : Sem V) : ∀ (e : Expr) (es : List Expr) (core : Core) (ns : List Int), aunify e es = (core, [.values ns]) →
    List.Forall₂ (At S core) ns (e :: es) ∧ ∃ n ∈ ns, ∃ m ∈ ns, n ≠ m
  | .const n, es, core, ns, h => by
    rw [aunify] at h
    split at h
    · simp at h
    · rename_i hl
      split at h
      · simp at h
      · rename_i ha
        injection h with h1 h2
        simp only [List.cons.injEq, Avar.values.injEq, and_true] at h2
        rw [← h1, ← h2]
        refine ⟨.cons rfl ?_, ?_⟩
        · have := eq_map_of_length _ _ const?_eq es (Decidable.not_not.1 hl)
          conv => rhs; rw [this]
          exact forall₂_self _ fun _ => rfl
        · simp only [Bool.not_eq_true, List.all_eq_false, decide_eq_true_eq] at ha
          obtain ⟨m, hm, hne⟩ := ha
          exact ⟨m, List.mem_cons_of_mem _ hm, n, by simp, hne⟩
  | .name x, es, core, ns, h => by
    rw [aunify] at h
    split at h
    · simp at h
    · split at h <;> simp at h
  | .subscript e i, es, core, ns, h => by
    rw [aunify] at h
    split at h
    · simp at h
    · rename_i hl
      injection h with h1 h2
      have hes := eq_map_of_length _ _ subscript?_eq es (Decidable.not_not.1 hl)
      rw [List.append_eq_singleton_iff] at h2
      rcases h2 with ⟨h2, h3⟩ | ⟨h2, h3⟩
      · obtain ⟨hf, hne⟩ := aunify_values S i _ _ ns (Prod.ext rfl h3)
        refine ⟨?_, hne⟩
        rw [hes, ← h1]
        have hf' := forall₂_map_right' (f := Prod.snd) (m := (e, i) :: es.filterMap Expr.subscript?) hf
        refine List.forall₂_map_right_iff (f := fun p : Expr × Expr => Expr.subscript p.1 p.2) (u := (e, i) :: es.filterMap Expr.subscript?) |>.2 ?_
        refine forall₂_mem_right hf' ?_
        intro n p hp hn
        simp only [At, evalCore, eval] at hn ⊢
        rw [hn, evalCore_of_nil S _ (Prod.ext rfl h2) (List.mem_map_of_mem (f := Prod.fst) hp)]
      · obtain ⟨hf, hne⟩ := aunify_values S e _ _ ns (Prod.ext rfl h2)
        refine ⟨?_, hne⟩
        rw [hes, ← h1]
        have hf' := forall₂_map_right' (f := Prod.fst) (m := (e, i) :: es.filterMap Expr.subscript?) hf
        refine List.forall₂_map_right_iff (f := fun p : Expr × Expr => Expr.subscript p.1 p.2) (u := (e, i) :: es.filterMap Expr.subscript?) |>.2 ?_
        refine forall₂_mem_right hf' ?_
        intro n p hp hn
        simp only [At, evalCore, eval] at hn ⊢
        rw [hn, evalCore_of_nil S _ (Prod.ext rfl h3) (List.mem_map_of_mem (f := Prod.snd) hp)]
  | .bin op l r, es, core, ns, h => by
    rw [aunify] at h
    split at h
    · simp at h
    · rename_i hl
      injection h with h1 h2
      have hes := eq_map_of_length _ _ bin?_eq es (Decidable.not_not.1 hl)
      have ho : ∀ p ∈ (op, l, r) :: es.filterMap Expr.bin?, p.1 = op := by
        by_cases hc : (es.filterMap Expr.bin?).all (·.1 = op)
        · intro p hp
          rcases List.mem_cons.1 hp with rfl | hp
          · rfl
          · simpa using List.all_eq_true.1 hc p hp
        · rw [if_neg hc, List.append_eq_singleton_iff] at h2
          rcases h2 with ⟨_, h2⟩ | ⟨_, h2⟩ <;> simp at h2
      rw [if_pos (by
        rw [List.all_eq_true]
        intro p hp
        simpa using ho p (List.mem_cons_of_mem _ hp)), List.append_nil, List.append_eq_singleton_iff] at h2
      rcases h2 with ⟨h2, h3⟩ | ⟨h2, h3⟩
      · obtain ⟨hf, hne⟩ := aunify_values S r _ _ ns (Prod.ext rfl h3)
        refine ⟨?_, hne⟩
        rw [hes, ← h1]
        have hf' := forall₂_map_right' (f := fun p : Op × Expr × Expr => p.2.2) (m := (op, l, r) :: es.filterMap Expr.bin?) hf
        refine List.forall₂_map_right_iff (f := fun p : Op × Expr × Expr => Expr.bin p.1 p.2.1 p.2.2) (u := (op, l, r) :: es.filterMap Expr.bin?) |>.2 ?_
        refine forall₂_mem_right hf' ?_
        intro n p hp hn
        simp only [At, evalCore, eval] at hn ⊢
        rw [hn, ho p hp, evalCore_of_nil S _ (Prod.ext rfl h2) (List.mem_map_of_mem (f := fun p : Op × Expr × Expr => p.2.1) hp)]
      · obtain ⟨hf, hne⟩ := aunify_values S l _ _ ns (Prod.ext rfl h2)
        refine ⟨?_, hne⟩
        rw [hes, ← h1]
        have hf' := forall₂_map_right' (f := fun p : Op × Expr × Expr => p.2.1) (m := (op, l, r) :: es.filterMap Expr.bin?) hf
        refine List.forall₂_map_right_iff (f := fun p : Op × Expr × Expr => Expr.bin p.1 p.2.1 p.2.2) (u := (op, l, r) :: es.filterMap Expr.bin?) |>.2 ?_
        refine forall₂_mem_right hf' ?_
        intro n p hp hn
        simp only [At, evalCore, eval] at hn ⊢
        rw [hn, ho p hp, evalCore_of_nil S _ (Prod.ext rfl h3) (List.mem_map_of_mem (f := fun p : Op × Expr × Expr => p.2.2) hp)]

/-- Expressions that do not differ are their core. -/
theorem aunify_replicate : ∀ (e : Expr) (k : Nat), aunify e (List.replicate k e) = (e.core, [])
  | .const n, k => by
    have : (List.replicate k (Expr.const n)).filterMap Expr.const? = List.replicate k n := by
      rw [List.filterMap_replicate_of_some (by rfl)]
    rw [aunify, this, if_neg (by simp), if_pos (by simp)]
    rfl
  | .name x, k => by
    have : (List.replicate k (Expr.name x)).filterMap Expr.name? = List.replicate k x := by
      rw [List.filterMap_replicate_of_some (by rfl)]
    rw [aunify, this, if_neg (by simp), if_pos (by simp)]
    rfl
  | .subscript e i, k => by
    have : (List.replicate k (Expr.subscript e i)).filterMap Expr.subscript? = List.replicate k (e, i) := by
      rw [List.filterMap_replicate_of_some (by rfl)]
    rw [aunify, this, if_neg (by simp)]
    simp only [List.map_replicate, aunify_replicate e k, aunify_replicate i k, Expr.core, List.append_nil]
  | .bin op l r, k => by
    have : (List.replicate k (Expr.bin op l r)).filterMap Expr.bin? = List.replicate k (op, l, r) := by
      rw [List.filterMap_replicate_of_some (by rfl)]
    rw [aunify, this, if_neg (by simp)]
    simp only [List.map_replicate, aunify_replicate l k, aunify_replicate r k, Expr.core, List.append_nil, List.nil_append]
    rw [if_pos (by simp)]

/-! ### Groups -/

theorem groups_spec {es : List Expr} {c : Option Int} {x : Option Expr} {bs : List Expr} (h : groups es = some (c, x, bs)) :
    es = c.toList.map Expr.const ++ x.toList ++ bs ∧ (∀ e ∈ bs, e.bin?.isSome) ∧ (∀ e ∈ x, e.isExclusive) := by
  rw [groups.eq_def] at h
  split at h
  · split at h
    · rename_i hc
      simp only [Option.some.injEq, Prod.mk.injEq] at h
      obtain ⟨rfl, rfl, rfl⟩ := h
      simp only [Bool.and_eq_true, List.all_eq_true] at hc
      exact ⟨rfl, hc.2, by simpa using hc.1⟩
    · split at h
      · rename_i hc
        simp only [Option.some.injEq, Prod.mk.injEq] at h
        obtain ⟨rfl, rfl, rfl⟩ := h
        exact ⟨rfl, List.all_eq_true.1 hc, by simp⟩
      · cases h
  · split at h
    · rename_i hc
      simp only [Option.some.injEq, Prod.mk.injEq] at h
      obtain ⟨rfl, rfl, rfl⟩ := h
      simp only [Bool.and_eq_true, List.all_eq_true] at hc
      exact ⟨rfl, hc.2, by simpa using hc.1⟩
    · split at h
      · rename_i y b bs _ _ hc
        simp only [Option.some.injEq, Prod.mk.injEq] at h
        obtain ⟨rfl, rfl, rfl⟩ := h
        simp only [Bool.and_eq_true, List.all_eq_true] at hc
        obtain ⟨n, hn⟩ := Option.isSome_iff_exists.1 hc.1
        refine ⟨?_, hc.2, by simp⟩
        rw [hn, const?_eq _ _ hn]
        rfl
      · cases h
  · cases h

theorem useOf_leaf {V : Type} (S : Sem V) {rec : List Expr → Option (List Int × Use)} {c : Option Int} {x : Option Expr} {bs : List Expr}
    {cn xn bn : List Int} {core : Core} (h : useOf rec c x bs = some (cn, xn, bn, .leaf core)) :
    cn = constNums c ∧ (∃ op l r, core = .bin op l r ∧ xn = exclusiveNums x op l) ∧ List.Forall₂ (At S core) bn bs ∧ ∃ n ∈ bn, ∃ m ∈ bn, n ≠ m := by
  rw [useOf.eq_def] at h
  split at h
  · cases h
  · rename_i b bs
    split at h
    · rename_i op l r ns ha
      split at h
      · simp only [Option.some.injEq, Prod.mk.injEq, Use.leaf.injEq] at h
        obtain ⟨rfl, rfl, rfl, rfl⟩ := h
        exact ⟨rfl, ⟨op, l, r, rfl, rfl⟩, aunify_values S _ _ _ _ ha⟩
      · cases h
    · split at h
      · rename_i es _ _
        cases hr : rec es with
        | none => simp [hr] at h
        | some p => simp [hr] at h
      · cases h
    · cases h

/-! ### C137 -/

/-- The expression that is no operation is what the operation is for a neutral value of the variable, which is `0` for `+` and `-` and `1` for `*`, `/` and `//`; a constant
is what it is for `0`. -/
def Neutral {V : Type} (S : Sem V) (op : Op) (l r : Core) (e : Expr) : Prop :=
  (l = e.core ∧ r = .value ∧ (op = .add ∨ op = .sub) ∧ S.op op (eval S e) (S.const 0) = eval S e) ∨
  (l = e.core ∧ r = .value ∧ (op = .mul ∨ op = .div ∨ op = .floordiv) ∧ S.op op (eval S e) (S.const 1) = eval S e) ∨
  (l = .value ∧ r = e.core ∧ op = .add ∧ S.op op (S.const 0) (eval S e) = eval S e) ∨
  (l = .value ∧ r = e.core ∧ op = .mul ∧ S.op op (S.const 1) (eval S e) = eval S e)

theorem exclusive_at {V : Type} (S : Sem V) {op : Op} {l r : Core} {x : Expr} (h : Neutral S op l r x) :
    List.Forall₂ (At S (.bin op l r)) (exclusiveNums (some x) op l) [x] := by
  rcases h with ⟨rfl, rfl, ho, h⟩ | ⟨rfl, rfl, ho, h⟩ | ⟨rfl, rfl, rfl, h⟩ | ⟨rfl, rfl, rfl, h⟩
  · rcases ho with rfl | rfl <;> simpa [exclusiveNums, At, evalCore, evalCore_core] using h
  · rcases ho with rfl | rfl | rfl <;> simpa [exclusiveNums, At, evalCore, evalCore_core] using h
  · simpa [exclusiveNums, At, evalCore, evalCore_core] using h
  · simpa [exclusiveNums, At, evalCore, evalCore_core] using h

/-- **C137** Each operation is what the loop evaluates for one of the numbers of the range. -/
theorem C137_operations {V : Type} (S : Sem V) {fuel : Nat} {es : List Expr} {ns : List Int} {core : Core} (h : iterUse fuel es = some (ns, .leaf core)) :
    ∀ e ∈ es, e.bin?.isSome → ∃ n ∈ ns, At S core n e := by
  have key : ∀ {n : List Int} {m : List Expr}, List.Forall₂ (At S core) n m → ∀ e ∈ m, ∃ k ∈ n, At S core k e := by
    intro n m hf
    induction hf with
    | nil => intro e he; simp at he
    | cons hd _ ih =>
      intro e he
      rcases List.mem_cons.1 he with rfl | he
      · exact ⟨_, by simp, hd⟩
      · obtain ⟨k, hk, ha⟩ := ih e he
        exact ⟨k, List.mem_cons_of_mem _ hk, ha⟩
  have hnot : ∀ {c : Option Int} {x : Option Expr} {bs : List Expr}, (∀ e ∈ x, e.isExclusive) → ∀ e ∈ c.toList.map Expr.const ++ x.toList ++ bs, e.bin?.isSome → e ∈ bs := by
    intro c x bs hx e he hb
    simp only [List.mem_append, List.mem_map, Option.mem_toList] at he
    rcases he with (⟨n, _, rfl⟩ | he) | he
    · simp [Expr.bin?] at hb
    · have := hx e he
      cases e <;> simp_all [Expr.bin?, Expr.isExclusive]
    · exact he
  cases fuel with
  | zero => cases h
  | succ fuel =>
    rw [iterUse.eq_def] at h
    simp only at h
    split at h
    · rename_i c x bs hg
      obtain ⟨he, _, hx⟩ := groups_spec hg
      cases hu : useOf (iterUse fuel) c x bs with
      | none => simp [hu] at h
      | some p =>
        obtain ⟨cn, xn, bn, use⟩ := p
        simp only [hu, Option.map_some, Option.some.injEq, Prod.mk.injEq] at h
        obtain ⟨rfl, rfl⟩ := h
        intro e hm hb
        rw [he] at hm
        obtain ⟨k, hk, ha⟩ := key (useOf_leaf S hu).2.2.1 e (hnot hx e hm hb)
        exact ⟨k, by simp [hk], ha⟩
    · split at h
      · rename_i c x bs hg
        obtain ⟨he, _, hx⟩ := groups_spec hg
        cases hu : useOf (iterUse fuel) c x bs.reverse with
        | none => simp [hu] at h
        | some p =>
          obtain ⟨cn, xn, bn, use⟩ := p
          simp only [hu, Option.map_some, Option.some.injEq, Prod.mk.injEq] at h
          obtain ⟨rfl, rfl⟩ := h
          intro e hm hb
          rw [← List.mem_reverse, he] at hm
          obtain ⟨k, hk, ha⟩ := key (useOf_leaf S hu).2.2.1 e (List.mem_reverse.2 (hnot hx e hm hb))
          exact ⟨k, by simp [hk], ha⟩
      · cases h

def Use.core : Use → Core
  | .leaf core => core
  | .nested core _ => core

theorem useOf_related {rec : List Expr → Option (List Int × Use)} {c : Option Int} {x : Option Expr} {bs : List Expr}
    {p : List Int × List Int × List Int × Use} (h : useOf rec c x bs = some p) :
    ∃ op l r, p.2.2.2.core = .bin op l r ∧ (∀ e ∈ x, l = e.core ∨ r = e.core) ∧ (x = none → ∀ n ∈ c, l = .const n ∨ r = .const n) := by
  have key : ∀ {l r : Core}, related c x l r = true →
      (∀ e ∈ x, l = e.core ∨ r = e.core) ∧ (x = none → ∀ n ∈ c, l = .const n ∨ r = .const n) := by
    intro l r h
    cases x with
    | some x =>
      simp only [related, Bool.or_eq_true, decide_eq_true_eq] at h
      refine ⟨?_, fun h => nomatch h⟩
      intro e he
      cases he
      exact h.symm
    | none =>
      refine ⟨(fun _ h => nomatch h), ?_⟩
      intro _ n hn
      cases hn
      simp only [related, Bool.or_eq_true, decide_eq_true_eq] at h
      exact h.symm
  rw [useOf.eq_def] at h
  split at h
  · cases h
  · split at h
    · split at h
      · rename_i hr
        simp only [Option.some.injEq] at h
        rw [← h]
        exact ⟨_, _, _, rfl, key hr⟩
      · cases h
    · split at h
      · rename_i es _ hr
        cases hrec : rec es with
        | none => simp [hrec] at h
        | some q =>
          simp only [hrec, Option.map_some, Option.some.injEq] at h
          rw [← h]
          exact ⟨_, _, _, rfl, key hr⟩
      · cases h
    · cases h

/-- **C137** A range is suggested just if all that is no operation is a name or subscript that is an operand of all the operations, and a constant, which is an operand if
there is no such name or subscript. -/
theorem C137_related {fuel : Nat} {es : List Expr} {ns : List Int} {use : Use} (h : iterUse fuel es = some (ns, use)) :
    ∃ op l r, use.core = .bin op l r ∧ (∀ e ∈ es, e.isExclusive → l = e.core ∨ r = e.core) ∧
      ((∀ e ∈ es, ¬ e.isExclusive) → ∀ n, .const n ∈ es → l = .const n ∨ r = .const n) ∧
      ∀ e ∈ es, e.isExclusive ∨ (∃ n, e = .const n) ∨ e.bin?.isSome := by
  have key : ∀ {c : Option Int} {x : Option Expr} {bs : List Expr} {op : Op} {l r : Core}, (∀ e ∈ bs, e.bin?.isSome) → (∀ e ∈ x, e.isExclusive) →
      (∀ e ∈ x, l = e.core ∨ r = e.core) → (x = none → ∀ n ∈ c, l = .const n ∨ r = .const n) →
      (∀ e, e ∈ es ↔ e ∈ c.toList.map Expr.const ++ x.toList ++ bs) → use.core = .bin op l r →
      ∃ op l r, use.core = .bin op l r ∧ (∀ e ∈ es, e.isExclusive → l = e.core ∨ r = e.core) ∧
        ((∀ e ∈ es, ¬ e.isExclusive) → ∀ n, .const n ∈ es → l = .const n ∨ r = .const n) ∧
        ∀ e ∈ es, e.isExclusive ∨ (∃ n, e = .const n) ∨ e.bin?.isSome := by
    intro c x bs op l r hb hx h1 h2 hm hu
    refine ⟨op, l, r, hu, ?_, ?_, ?_⟩
    · intro e he hex
      rw [hm] at he
      simp only [List.mem_append, List.mem_map, Option.mem_toList] at he
      rcases he with (⟨n, _, rfl⟩ | he) | he
      · simp [Expr.isExclusive] at hex
      · exact h1 e he
      · have := hb e he
        cases e <;> simp_all [Expr.bin?, Expr.isExclusive]
    · intro hno n hn
      rw [hm] at hn
      simp only [List.mem_append, List.mem_map, Option.mem_toList] at hn
      rcases hn with (⟨m, hm', hmn⟩ | he) | he
      · cases hmn
        refine h2 ?_ n hm'
        cases x with
        | none => rfl
        | some x => exact absurd (hx x rfl) (hno x ((hm x).2 (by simp)))
      · have := hx _ he
        simp [Expr.isExclusive] at this
      · have := hb _ he
        simp [Expr.bin?] at this
    · intro e he
      rw [hm] at he
      simp only [List.mem_append, List.mem_map, Option.mem_toList] at he
      rcases he with (⟨n, _, rfl⟩ | he) | he
      · exact .inr (.inl ⟨n, rfl⟩)
      · exact .inl (hx e he)
      · exact .inr (.inr (hb e he))
  cases fuel with
  | zero => cases h
  | succ fuel =>
    rw [iterUse.eq_def] at h
    simp only at h
    split at h
    · rename_i c x bs hg
      obtain ⟨he, hb, hx⟩ := groups_spec hg
      cases hu : useOf (iterUse fuel) c x bs with
      | none => simp [hu] at h
      | some p =>
        simp only [hu, Option.map_some, Option.some.injEq, Prod.mk.injEq] at h
        obtain ⟨op, l, r, hcore, h1, h2⟩ := useOf_related hu
        exact key hb hx h1 h2 (fun e => by rw [he]) (by rw [← h.2, hcore])
    · split at h
      · rename_i c x bs hg
        obtain ⟨he, hb, hx⟩ := groups_spec hg
        cases hu : useOf (iterUse fuel) c x bs.reverse with
        | none => simp [hu] at h
        | some p =>
          simp only [hu, Option.map_some, Option.some.injEq, Prod.mk.injEq] at h
          obtain ⟨op, l, r, hcore, h1, h2⟩ := useOf_related hu
          exact key hb hx h1 h2 (fun e => by rw [← he, List.mem_reverse]) (by rw [← h.2, hcore])
      · cases h

theorem iterUse_leaf {V : Type} (S : Sem V) {fuel : Nat} {es : List Expr} {ns : List Int} {op : Op} {l r : Core}
    (h : iterUse fuel es = some (ns, .leaf (.bin op l r)))
    (hc : ∀ c, .const c ∈ es → At S (.bin op l r) 0 (.const c)) (hx : ∀ e ∈ es, e.isExclusive → Neutral S op l r e) :
    List.Forall₂ (At S (.bin op l r)) ns es ∧ ∃ n ∈ ns, ∃ m ∈ ns, n ≠ m := by
  have hcn : ∀ {c : Option Int}, (∀ n ∈ c, .const n ∈ es) → List.Forall₂ (At S (.bin op l r)) (constNums c) (c.toList.map Expr.const) := by
    intro c hm
    cases c with
    | none => exact .nil
    | some c => exact .cons (hc c (hm c rfl)) .nil
  have hxn : ∀ {x : Option Expr}, (∀ e ∈ x, e ∈ es ∧ e.isExclusive) → List.Forall₂ (At S (.bin op l r)) (exclusiveNums x op l) x.toList := by
    intro x hm
    cases x with
    | none => exact .nil
    | some x => exact exclusive_at S (hx x (hm x rfl).1 (hm x rfl).2)
  cases fuel with
  | zero => cases h
  | succ fuel =>
    rw [iterUse.eq_def] at h
    simp only at h
    split at h
    · rename_i c x bs hg
      obtain ⟨he, _, hx⟩ := groups_spec hg
      cases hu : useOf (iterUse fuel) c x bs with
      | none => simp [hu] at h
      | some p =>
        obtain ⟨cn, xn, bn, use⟩ := p
        simp only [hu, Option.map_some, Option.some.injEq, Prod.mk.injEq] at h
        obtain ⟨rfl, rfl⟩ := h
        obtain ⟨rfl, ⟨op', l', r', hcore, rfl⟩, hf, n, hn, m, hm, hne⟩ := useOf_leaf S hu
        simp only [Core.bin.injEq] at hcore
        obtain ⟨rfl, rfl, rfl⟩ := hcore
        refine ⟨?_, n, by simp [hn], m, by simp [hm], hne⟩
        have h1 := hcn (c := c) fun n hn => by rw [he]; simp [Option.mem_def.1 hn]
        have h2 := hxn (x := x) fun e hm => ⟨by rw [he]; simp [Option.mem_def.1 hm], hx e hm⟩
        conv => rhs; rw [he]
        exact List.rel_append (List.rel_append h1 h2) hf
    · split at h
      · rename_i c x bs hg
        obtain ⟨he, _, hx⟩ := groups_spec hg
        cases hu : useOf (iterUse fuel) c x bs.reverse with
        | none => simp [hu] at h
        | some p =>
          obtain ⟨cn, xn, bn, use⟩ := p
          simp only [hu, Option.map_some, Option.some.injEq, Prod.mk.injEq] at h
          obtain ⟨rfl, rfl⟩ := h
          obtain ⟨rfl, ⟨op', l', r', hcore, rfl⟩, hf, n, hn, m, hm, hne⟩ := useOf_leaf S hu
          simp only [Core.bin.injEq] at hcore
          obtain ⟨rfl, rfl, rfl⟩ := hcore
          refine ⟨?_, n, by simp [hn], m, by simp [hm], hne⟩
          have h1 := hcn (c := c) fun n hn => by rw [← List.mem_reverse, he]; simp [Option.mem_def.1 hn]
          have h2 := hxn (x := x) fun e hm => ⟨by rw [← List.mem_reverse, he]; simp [Option.mem_def.1 hm], hx e hm⟩
          have he' : es = bs.reverse ++ x.toList ++ c.toList.map Expr.const := by
            have hr := congrArg List.reverse he
            rw [List.reverse_reverse] at hr
            rw [hr]
            cases c <;> cases x <;> simp
          conv => rhs; rw [he']
          exact List.rel_append (List.rel_append hf h2) h1
      · cases h

/-- **C137** If the operations differ just in a constant that is an operand of `+`, `*`, of `-`, `/` or `//` from the right, and the other operand is the expression that
is no operation, the range has as many numbers as there are repetitions, and for each of them the loop evaluates what the repetition does; a constant at the end has to be
what the operation is for `0`. Constants elsewhere in the operations and expressions that differ in operations in them are left out, and so are the other operators. -/
theorem C137_range_partial {V : Type} (S : Sem V) {fuel : Nat} {es : List Expr} {a b s : Int} {op : Op} {l r : Core}
    (h : toIterUse fuel es = some ((a, b, s), .leaf (.bin op l r)))
    (hc : ∀ c, .const c ∈ es → At S (.bin op l r) 0 (.const c)) (hx : ∀ e ∈ es, e.isExclusive → Neutral S op l r e) :
    List.Forall₂ (At S (.bin op l r)) (Py.pyRange a b s) es := by
  rw [toIterUse] at h
  split at h
  · cases h
  · rename_i ns use hi
    split at h
    · rename_i args ha
      simp only [Option.some.injEq, Prod.mk.injEq] at h
      obtain ⟨rfl, rfl⟩ := h
      obtain ⟨hf, n, hn, m, hm, hne⟩ := iterUse_leaf S hi hc hx
      obtain ⟨h2, hl, hb⟩ := Py.toRangeArgs_spec ha
      rw [List.length_map] at h2 hl hb
      have hns : ns = (List.range ns.length).map (fun k : Nat => a + s * k) := by
        have : ns.map some = ((List.range ns.length).map (fun k : Nat => a + s * k)).map some := by
          rw [List.map_map]; exact hl
        exact List.map_injective_iff.2 (fun _ _ h => Option.some.inj h) this
      have hs : s ≠ 0 := by
        rintro rfl
        have hall : ∀ k ∈ ns, k = a := by
          intro k hk
          rw [hns] at hk
          obtain ⟨_, _, rfl⟩ := List.mem_map.1 hk
          simp
        exact hne ((hall n hn).trans (hall m hm).symm)
      have : Py.pyRange a b s = ns := by
        rw [Py.pyRange, hb, Py.rangeLen_args a s ns.length hs (by omega), ← hns]
      rw [this]
      exact hf
    · cases h

/-- **C137** A name or subscript followed by operations of it and of constants, which are not all the same, gives the range of the constants after the neutral value. -/
theorem C137_found (fuel : Nat) {x : Expr} (hx : x.isExclusive) {op : Op} {k : Int}
    (hop : ((op = .add ∨ op = .sub) ∧ k = 0) ∨ ((op = .mul ∨ op = .div ∨ op = .floordiv ∨ op = .mod) ∧ k = 1))
    (n : Int) (ns : List Int) (hne : ∃ m ∈ ns, m ≠ n) :
    iterUse (fuel + 1) (x :: (n :: ns).map fun m => .bin op x (.const m)) = some (k :: n :: ns, .leaf (.bin op x.core .value)) := by
  have hg : groups (x :: (n :: ns).map fun m => .bin op x (.const m)) = some (none, some x, (n :: ns).map fun m => .bin op x (.const m)) := by
    cases x with
    | name y => simp [groups, Expr.isExclusive, Expr.bin?]
    | subscript e i => simp [groups, Expr.isExclusive, Expr.bin?]
    | const _ => simp [Expr.isExclusive] at hx
    | bin _ _ _ => simp [Expr.isExclusive] at hx
  have hb : (ns.map fun m => Expr.bin op x (.const m)).filterMap Expr.bin? = ns.map fun m => (op, x, Expr.const m) := by
    rw [List.filterMap_map]
    exact congrFun List.filterMap_eq_map' ns
  have hcs : (ns.map Expr.const).filterMap Expr.const? = ns := by
    rw [List.filterMap_map]
    exact List.filterMap_some ..
  have ha : aunify (.bin op x (.const n)) (ns.map fun m => .bin op x (.const m)) = (.bin op x.core .value, [.values (n :: ns)]) := by
    rw [aunify, hb, if_neg (by simp)]
    simp only [List.map_map, Function.comp_def]
    have h1 : ns.map (fun _ => x) = List.replicate ns.length x := by simp
    have h2 : aunify (.const n) (ns.map Expr.const) = (.value, [.values (n :: ns)]) := by
      rw [aunify, hcs, if_neg (by simp), if_neg]
      obtain ⟨m, hm, hmn⟩ := hne
      intro hall
      exact hmn (by simpa using List.all_eq_true.1 hall m hm)
    rw [h1, aunify_replicate, h2, if_pos (by simp)]
    rfl
  have hn : exclusiveNums (some x) op x.core = [k] := by
    rcases hop with ⟨rfl | rfl, rfl⟩ | ⟨rfl | rfl | rfl | rfl, rfl⟩ <;> simp [exclusiveNums]
  rw [iterUse.eq_def]
  simp only [hg]
  rw [List.map_cons, useOf, ha]
  simp [related, constNums, hn]

/-- The least character and the offsets from it. -/
theorem foldl_min : ∀ (cs : List Char) (c : Char),
    (cs.foldl (fun m d => if d.toNat < m.toNat then d else m) c = c ∨ cs.foldl (fun m d => if d.toNat < m.toNat then d else m) c ∈ cs) ∧
      (cs.foldl (fun m d => if d.toNat < m.toNat then d else m) c).toNat ≤ c.toNat ∧
      ∀ d ∈ cs, (cs.foldl (fun m d => if d.toNat < m.toNat then d else m) c).toNat ≤ d.toNat
  | [], c => by simp
  | d :: cs, c => by
    obtain ⟨h1, h2, h3⟩ := foldl_min cs (if d.toNat < c.toNat then d else c)
    simp only [List.foldl_cons]
    refine ⟨?_, ?_, ?_⟩
    · rcases h1 with h1 | h1
      · rw [h1]
        split
        · exact .inr (by simp)
        · exact .inl rfl
      · exact .inr (List.mem_cons_of_mem _ h1)
    · split at h2 <;> rename_i hlt
      · rw [if_pos hlt]; omega
      · rw [if_neg hlt]; omega
    · intro e he
      rcases List.mem_cons.1 he with rfl | he
      · split at h2 <;> rename_i hlt
        · rw [if_pos hlt]; omega
        · rw [if_neg hlt]; omega
      · exact h3 e he

/-- **C137** For characters, the numbers are such that `chr(ord(m) + i)` is the character, where `m` is one of the characters, and for it the number is `0`. -/
theorem C137_chars {cs : List Char} {m : Char} {ns : List Nat} (h : fromChars cs = some (m, ns)) :
    m ∈ cs ∧ ns.length = cs.length ∧ ∀ (i n : Nat) (c : Char), ns[i]? = some n → cs[i]? = some c → Char.ofNat (m.toNat + n) = c := by
  cases cs with
  | nil => cases h
  | cons c cs =>
    rw [fromChars] at h
    obtain ⟨h1, h2, h3⟩ := foldl_min cs c
    simp only [Option.some.injEq, Prod.mk.injEq] at h
    obtain ⟨hm, hn⟩ := h
    rw [hm] at h1 h2 h3 hn
    refine ⟨?_, by rw [← hn]; simp, ?_⟩
    · rcases h1 with rfl | h1
      · simp
      · exact List.mem_cons_of_mem _ h1
    · intro i n d hi hd
      rw [← hn, List.getElem?_map, hd] at hi
      simp only [Option.map_some, Option.some.injEq] at hi
      have hle : m.toNat ≤ d.toNat := by
        rcases List.mem_cons.1 (List.mem_of_getElem? hd) with rfl | hd'
        · exact h2
        · exact h3 d hd'
      rw [← hi, Nat.add_sub_cancel' hle, Char.ofNat_toNat]

example : fromChars ['b', 'a', 'd'] = some ('a', [1, 0, 3]) := by decide

/-! ### Where the range is wrong -/

/-- Integers, with exceptions as `none`; just operators of integers with integers as results. -/
def ints (env : Str → Int) : Sem (Option Int) where
  const n := some n
  name x := some (env x)
  item _ _ := none
  op o a b :=
    match o, a, b with
    | .add, some a, some b => some (a + b)
    | .sub, some a, some b => some (a - b)
    | .mul, some a, some b => some (a * b)
    | .floordiv, some a, some b => if b = 0 then none else some (a.fdiv b)
    | .mod, some a, some b => if b = 0 then none else some (a.fmod b)
    | _, _, _ => none

/-- The expression that is no operation, for which the operations with integers are right. -/
theorem ints_neutral (env : Str → Int) (y : Str) (op : Op) (h : op = .add ∨ op = .sub ∨ op = .mul ∨ op = .floordiv) :
    Neutral (ints env) op (.name y) .value (.name y) := by
  rcases h with rfl | rfl | rfl | rfl
  · exact .inl ⟨rfl, rfl, .inl rfl, by simp [eval, ints]⟩
  · exact .inl ⟨rfl, rfl, .inr rfl, by simp [eval, ints]⟩
  · exact .inr (.inl ⟨rfl, rfl, .inl rfl, by simp [eval, ints]⟩)
  · exact .inr (.inl ⟨rfl, rfl, .inr (.inr rfl), by simp [eval, ints]⟩)

/-- `x`, `x + 1`, `x + 2`, `x + 3`: `range(4)`, and the loop with `x + i` evaluates the same. -/
example (env : Str → Int) :
    toIterUse 1 (.name ['x'] :: [1, 2, 3].map fun n => .bin .add (.name ['x']) (.const n)) = some ((0, 4, 1), .leaf (.bin .add (.name ['x']) .value)) ∧
    List.Forall₂ (At (ints env) (.bin .add (.name ['x']) .value)) (Py.pyRange 0 4 1) (.name ['x'] :: [1, 2, 3].map fun n => .bin .add (.name ['x']) (.const n)) := by
  have h : toIterUse 1 (.name ['x'] :: [1, 2, 3].map fun n => .bin .add (.name ['x']) (.const n)) = some ((0, 4, 1), .leaf (.bin .add (.name ['x']) .value)) := by
    decide +kernel
  refine ⟨h, C137_range_partial (ints env) h ?_ ?_⟩
  · intro c hc
    simp at hc
  · intro e he hx
    simp only [List.map_cons, List.map_nil, List.mem_cons, List.not_mem_nil, or_false] at he
    rcases he with rfl | rfl | rfl | rfl
    · exact ints_neutral env _ _ (.inl rfl)
    all_goals simp [Expr.isExclusive] at hx

/-- `0`, `x`, `x * 2`, `x * 3`, with a constant that is right; and in reversed order. -/
example : toIterUse 1 [.const 0, .name ['x'], .bin .mul (.name ['x']) (.const 2), .bin .mul (.name ['x']) (.const 3)] =
      some ((0, 4, 1), .leaf (.bin .mul (.name ['x']) .value)) ∧
    toIterUse 1 [.bin .mul (.name ['x']) (.const 3), .bin .mul (.name ['x']) (.const 2), .name ['x'], .const 0] =
      some ((3, -1, -1), .leaf (.bin .mul (.name ['x']) .value)) := by decide +kernel

/-- Operations in operations: for `x`, `x + y`, `x + y * 2`, `x + y * 3` the numbers of `y`, `y * 2`, `y * 3` are used; for `x`, `x + y`, `x + y * 2` nothing is found, as
there is just one operation in `y`, `y * 2`. -/
example : toIterUse 2 (.name ['x'] :: .bin .add (.name ['x']) (.name ['y']) :: [2, 3].map fun n => .bin .add (.name ['x']) (.bin .mul (.name ['y']) (.const n))) =
      some ((0, 4, 1), .nested (.bin .add (.name ['x']) .hole) (.leaf (.bin .mul (.name ['y']) .value))) ∧
    toIterUse 2 [.name ['x'], .bin .add (.name ['x']) (.name ['y']), .bin .add (.name ['x']) (.bin .mul (.name ['y']) (.const 2))] = none := by decide +kernel

/-- **C137** For `x`, `1 - x`, `2 - x`, `3 - x` the range is `range(1, 4)`: it has three numbers for four repetitions. -/
theorem C137_count_counterexample :
    toIterUse 1 (.name ['x'] :: [1, 2, 3].map fun n => .bin .sub (.const n) (.name ['x'])) = some ((1, 4, 1), .leaf (.bin .sub .value (.name ['x']))) ∧
    (Py.pyRange 1 4 1).length = 3 := by decide +kernel

/-- **C137** For `x`, `x % 2`, `x % 3` the range is `range(1, 4)`, where `x % 1` is not `x` unless it is zero. -/
theorem C137_mod_counterexample :
    toIterUse 1 (.name ['x'] :: [2, 3].map fun n => .bin .mod (.name ['x']) (.const n)) = some ((1, 4, 1), .leaf (.bin .mod (.name ['x']) .value)) ∧
    ¬ At (ints fun _ => 5) (.bin .mod (.name ['x']) .value) 1 (.name ['x']) := by
  refine ⟨by decide +kernel, ?_⟩
  show ¬ (_ = _)
  decide +kernel

/-- **C137** A constant before is taken as the operation for zero, whatever it is: for `7`, `x`, `x * 2`, `x * 3` the range is `range(4)`, but `x * 0` is not `7`. -/
theorem C137_constant_counterexample :
    toIterUse 1 [.const 7, .name ['x'], .bin .mul (.name ['x']) (.const 2), .bin .mul (.name ['x']) (.const 3)] =
      some ((0, 4, 1), .leaf (.bin .mul (.name ['x']) .value)) ∧
    ¬ At (ints fun _ => 5) (.bin .mul (.name ['x']) .value) 0 (.const 7) := by
  refine ⟨by decide +kernel, ?_⟩
  show ¬ (_ = _)
  decide +kernel

/-- **C137** The constant that differs need not be an operand of the operation: for `x`, `x + y ** 1`, `x + y ** 2` the range is `range(3)`, but `x + y ** 0` is not `x`; with
`-` in place of `**`, too. -/
theorem C137_inner_counterexample :
    toIterUse 1 (.name ['x'] :: [1, 2].map fun n => .bin .add (.name ['x']) (.bin .sub (.name ['y']) (.const n))) =
      some ((0, 3, 1), .leaf (.bin .add (.name ['x']) (.bin .sub (.name ['y']) .value))) ∧
    ¬ At (ints fun _ => 5) (.bin .add (.name ['x']) (.bin .sub (.name ['y']) .value)) 0 (.name ['x']) := by
  refine ⟨by decide +kernel, ?_⟩
  show ¬ (_ = _)
  decide +kernel

end Verif.IterUse

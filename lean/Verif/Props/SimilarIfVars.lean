import Verif.Props.SimilarIfBlock

/-!
C123: the branches of an `if` are similar, and helper variables are suggested.
-/

namespace Verif.SimilarIf

variable {V W : Type} {I : Interp V W}

/-! ### Variables that are not used -/

/-- States differ in these variables at most. -/
def Same (ns : List Str) (s t : State V W) : Prop := s.world = t.world ∧ ∀ x, x ∉ ns → s.env x = t.env x

/-- Functions and iterators do not use these variables. -/
def Ignores (I : Interp V W) (ns : List Str) : Prop :=
  (∀ f v w s t, Same ns s t → (I.call f v w s).1 = (I.call f v w t).1 ∧ Same ns (I.call f v w s).2 (I.call f v w t).2) ∧
    ∀ v s t, Same ns s t → (I.iter v s).1 = (I.iter v t).1 ∧ Same ns (I.iter v s).2 (I.iter v t).2

mutual
/-- The variables of a statement. -/
def Stmt.vars : Stmt → List Str
  | .assign x e => x :: e.vars
  | .expr e => e.vars
  | .ret e => e.vars
  | .brk => []
  | .cont => []
  | .if_ c b o => c.vars ++ varsB b ++ varsB o
  | .while_ c b o => c.vars ++ varsB b ++ varsB o
  | .for_ x e b o => x :: (e.vars ++ varsB b ++ varsB o)
  | .try_ b h o f => varsB b ++ varsB h ++ varsB o ++ varsB f

/-- The variables of statements. -/
def varsB : List Stmt → List Str
  | [] => []
  | s :: ss => s.vars ++ varsB ss
end

/-- None of the variables is among the others. -/
def Apart (ns xs : List Str) : Prop := ∀ x ∈ xs, x ∉ ns

theorem Apart.left {ns xs ys : List Str} (h : Apart ns (xs ++ ys)) : Apart ns xs := fun x hx => h x (List.mem_append_left _ hx)

theorem Apart.right {ns xs ys : List Str} (h : Apart ns (xs ++ ys)) : Apart ns ys := fun x hx => h x (List.mem_append_right _ hx)

/-- It ends in the same way, and states differ in these variables at most. -/
def SameRes (ns : List Str) : Res V W → Res V W → Prop
  | none, none => True
  | some (o, s), some (p, t) => o = p ∧ Same ns s t
  | _, _ => False

theorem eval_ignores {ns : List Str} (hI : Ignores I ns) : ∀ (e : Expr) (s t : State V W), Apart ns e.vars → Same ns s t →
    (eval I e s).1 = (eval I e t).1 ∧ Same ns (eval I e s).2 (eval I e t).2
  | .const _, s, t, _, h => ⟨rfl, h⟩
  | .bool _, s, t, _, h => ⟨rfl, h⟩
  | .name x, s, t, ha, h => by
    rw [eval, eval, h.2 x (ha x (by simp [Expr.vars]))]
    exact ⟨rfl, h⟩
  | .hole _, s, t, _, h => ⟨rfl, h⟩
  | .call f a b, s, t, ha, h => by
    have h1 := eval_ignores hI a s t ha.left h
    rw [eval, eval]
    rcases hs : eval I a s with ⟨_ | v, s'⟩ <;> rcases ht : eval I a t with ⟨_ | w, t'⟩ <;> rw [hs, ht] at h1 <;> obtain ⟨h1, h2⟩ := h1 <;> cases h1
    · exact ⟨rfl, h2⟩
    · have h3 := eval_ignores hI b s' t' ha.right h2
      simp only
      rcases hs : eval I b s' with ⟨_ | v', s''⟩ <;> rcases ht : eval I b t' with ⟨_ | w', t''⟩ <;> rw [hs, ht] at h3 <;> obtain ⟨h3, h4⟩ := h3 <;> cases h3
      · exact ⟨rfl, h4⟩
      · exact hI.1 f _ _ s'' t'' h4
  | .op f a b, s, t, ha, h => by
    have h1 := eval_ignores hI a s t ha.left h
    rw [eval, eval]
    rcases hs : eval I a s with ⟨_ | v, s'⟩ <;> rcases ht : eval I a t with ⟨_ | w, t'⟩ <;> rw [hs, ht] at h1 <;> obtain ⟨h1, h2⟩ := h1 <;> cases h1
    · exact ⟨rfl, h2⟩
    · have h3 := eval_ignores hI b s' t' ha.right h2
      simp only
      rcases hs : eval I b s' with ⟨_ | v', s''⟩ <;> rcases ht : eval I b t' with ⟨_ | w', t''⟩ <;> rw [hs, ht] at h3 <;> obtain ⟨h3, h4⟩ := h3 <;> cases h3
      · exact ⟨rfl, h4⟩
      · exact ⟨rfl, h4⟩
  | .not_ a, s, t, ha, h => by
    have h1 := eval_ignores hI a s t ha h
    rw [eval, eval]
    rcases hs : eval I a s with ⟨_ | v, s'⟩ <;> rcases ht : eval I a t with ⟨_ | w, t'⟩ <;> rw [hs, ht] at h1 <;> obtain ⟨h1, h2⟩ := h1 <;> cases h1 <;>
      exact ⟨rfl, h2⟩
  | .bool_ c a b, s, t, ha, h => by
    have h1 := eval_ignores hI a s t ha.left h
    rw [eval, eval]
    rcases hs : eval I a s with ⟨_ | v, s'⟩ <;> rcases ht : eval I a t with ⟨_ | w, t'⟩ <;> rw [hs, ht] at h1 <;> obtain ⟨h1, h2⟩ := h1 <;> cases h1
    · exact ⟨rfl, h2⟩
    · simp only
      split
      · exact eval_ignores hI b s' t' ha.right h2
      · exact ⟨rfl, h2⟩
  | .tern c a b, s, t, ha, h => by
    have h1 := eval_ignores hI c s t ha.left.left h
    rw [eval, eval]
    rcases hs : eval I c s with ⟨_ | v, s'⟩ <;> rcases ht : eval I c t with ⟨_ | w, t'⟩ <;> rw [hs, ht] at h1 <;> obtain ⟨h1, h2⟩ := h1 <;> cases h1
    · exact ⟨rfl, h2⟩
    · simp only
      split
      · exact eval_ignores hI a s' t' ha.left.right h2
      · exact eval_ignores hI b s' t' ha.right h2

theorem Same.set {ns : List Str} {s t : State V W} (h : Same ns s t) (x : Str) (v : V) : Same ns (s.set x v) (t.set x v) := by
  refine ⟨h.1, fun y hy => ?_⟩
  simp only [State.set]
  split
  · rfl
  · exact h.2 y hy

theorem andThen_ignores {ns : List Str} {r r' : Except PyErr V × State V W} {k k' : V → State V W → Res V W} (h : r.1 = r'.1 ∧ Same ns r.2 r'.2)
    (hk : ∀ v s t, Same ns s t → SameRes ns (k v s) (k' v t)) : SameRes ns (andThen r k) (andThen r' k') := by
  rcases r with ⟨_ | v, s⟩ <;> rcases r' with ⟨_ | w, t⟩ <;> obtain ⟨h1, h2⟩ := h <;> cases h1
  · exact ⟨rfl, h2⟩
  · exact hk _ _ _ h2

theorem loop_ignores {ns : List Str} {c : State V W → Except PyErr V × State V W} {body orelse : State V W → Res V W}
    (hc : ∀ s t, Same ns s t → (c s).1 = (c t).1 ∧ Same ns (c s).2 (c t).2) (hb : ∀ s t, Same ns s t → SameRes ns (body s) (body t))
    (ho : ∀ s t, Same ns s t → SameRes ns (orelse s) (orelse t)) :
    ∀ (n : Nat) (s t : State V W), Same ns s t → SameRes ns (loop I c body orelse n s) (loop I c body orelse n t)
  | 0, _, _, _ => trivial
  | n + 1, s, t, h => by
    rw [loop, loop]
    refine andThen_ignores (hc s t h) fun v s' t' h' => ?_
    split
    · have := hb s' t' h'
      revert this
      rcases body s' with _ | ⟨o, s''⟩ <;> rcases body t' with _ | ⟨p, t''⟩ <;> intro this
      · trivial
      · exact this.elim
      · exact this.elim
      · obtain ⟨rfl, h''⟩ := this
        cases o
        · exact loop_ignores hc hb ho n s'' t'' h''
        · exact ⟨rfl, h''⟩
        · exact loop_ignores hc hb ho n s'' t'' h''
        · exact ⟨rfl, h''⟩
        · exact ⟨rfl, h''⟩
    · exact ho s' t' h'

theorem forLoop_ignores {ns : List Str} {x : Str} {body orelse : State V W → Res V W} (hb : ∀ s t, Same ns s t → SameRes ns (body s) (body t))
    (ho : ∀ s t, Same ns s t → SameRes ns (orelse s) (orelse t)) :
    ∀ (vs : List V) (s t : State V W), Same ns s t → SameRes ns (forLoop x body orelse vs s) (forLoop x body orelse vs t)
  | [], s, t, h => ho s t h
  | v :: vs, s, t, h => by
    rw [forLoop, forLoop]
    have := hb _ _ (h.set x v)
    revert this
    rcases body (s.set x v) with _ | ⟨o, s''⟩ <;> rcases body (t.set x v) with _ | ⟨p, t''⟩ <;> intro this
    · trivial
    · exact this.elim
    · exact this.elim
    · obtain ⟨rfl, h''⟩ := this
      cases o
      · exact forLoop_ignores hb ho vs s'' t'' h''
      · exact ⟨rfl, h''⟩
      · exact forLoop_ignores hb ho vs s'' t'' h''
      · exact ⟨rfl, h''⟩
      · exact ⟨rfl, h''⟩

theorem tryExcept_ignores {ns : List Str} {body handler orelse : State V W → Res V W} (hb : ∀ s t, Same ns s t → SameRes ns (body s) (body t))
    (hh : ∀ s t, Same ns s t → SameRes ns (handler s) (handler t)) (ho : ∀ s t, Same ns s t → SameRes ns (orelse s) (orelse t)) (s t : State V W)
    (h : Same ns s t) : SameRes ns (tryExcept body handler orelse s) (tryExcept body handler orelse t) := by
  rw [tryExcept, tryExcept]
  have := hb _ _ h
  revert this
  rcases body s with _ | ⟨o, s''⟩ <;> rcases body t with _ | ⟨p, t''⟩ <;> intro this
  · trivial
  · exact this.elim
  · exact this.elim
  · obtain ⟨rfl, h''⟩ := this
    cases o
    · exact ho _ _ h''
    · exact ⟨rfl, h''⟩
    · exact ⟨rfl, h''⟩
    · exact ⟨rfl, h''⟩
    · exact hh _ _ h''

theorem finally_ignores {ns : List Str} {r r' : Res V W} {final : State V W → Res V W} (hr : SameRes ns r r')
    (hf : ∀ s t, Same ns s t → SameRes ns (final s) (final t)) : SameRes ns (finally_ r final) (finally_ r' final) := by
  rcases r with _ | ⟨o, s⟩ <;> rcases r' with _ | ⟨p, t⟩
  · trivial
  · exact hr.elim
  · exact hr.elim
  · obtain ⟨rfl, h⟩ := hr
    simp only [finally_]
    have := hf s t h
    revert this
    rcases final s with _ | ⟨o', s''⟩ <;> rcases final t with _ | ⟨p', t''⟩ <;> intro this
    · trivial
    · exact this.elim
    · exact this.elim
    · obtain ⟨rfl, h''⟩ := this
      cases o' <;> exact ⟨rfl, h''⟩

theorem next_ignores {ns : List Str} {r r' : Res V W} {k : State V W → Res V W} (hr : SameRes ns r r') (hk : ∀ s t, Same ns s t → SameRes ns (k s) (k t)) :
    SameRes ns (next r k) (next r' k) := by
  rcases r with _ | ⟨o, s⟩ <;> rcases r' with _ | ⟨p, t⟩
  · trivial
  · exact hr.elim
  · exact hr.elim
  · obtain ⟨rfl, h⟩ := hr
    cases o
    · exact hk _ _ h
    all_goals exact ⟨rfl, h⟩

mutual
theorem run_ignores {ns : List Str} (hI : Ignores I ns) (n : Nat) : ∀ (c : Stmt) (s t : State V W), Apart ns c.vars → Same ns s t →
    SameRes ns (run I n c s) (run I n c t)
  | .assign x e, s, t, ha, h => by
    rw [run, run]
    rw [Stmt.vars] at ha
    exact andThen_ignores (eval_ignores hI e s t (fun y hy => ha y (List.mem_cons_of_mem _ hy)) h) fun v s t h => ⟨rfl, h.set x v⟩
  | .expr e, s, t, ha, h => by
    rw [run, run]
    rw [Stmt.vars] at ha
    exact andThen_ignores (eval_ignores hI e s t ha h) fun v s t h => ⟨rfl, h⟩
  | .ret e, s, t, ha, h => by
    rw [run, run]
    rw [Stmt.vars] at ha
    exact andThen_ignores (eval_ignores hI e s t ha h) fun v s t h => ⟨rfl, h⟩
  | .brk, s, t, ha, h => ⟨rfl, h⟩
  | .cont, s, t, ha, h => ⟨rfl, h⟩
  | .if_ c b o, s, t, ha, h => by
    rw [run, run]
    rw [Stmt.vars] at ha
    refine andThen_ignores (eval_ignores hI c s t ha.left.left h) fun v s t h => ?_
    split
    · exact runB_ignores hI n b s t ha.left.right h
    · exact runB_ignores hI n o s t ha.right h
  | .while_ c b o, s, t, ha, h => by
    rw [run, run]
    rw [Stmt.vars] at ha
    exact loop_ignores (fun s t h => eval_ignores hI c s t ha.left.left h) (fun s t h => runB_ignores hI n b s t ha.left.right h)
      (fun s t h => runB_ignores hI n o s t ha.right h) n s t h
  | .for_ x e b o, s, t, ha, h => by
    rw [run, run]
    rw [Stmt.vars] at ha
    have ha : Apart ns (e.vars ++ varsB b ++ varsB o) := fun y hy => ha y (List.mem_cons_of_mem _ hy)
    refine andThen_ignores (eval_ignores hI e s t ha.left.left h) fun v s t h => ?_
    have := hI.2 v s t h
    rcases hs : I.iter v s with ⟨_ | vs, s'⟩ <;> rcases ht : I.iter v t with ⟨_ | ws, t'⟩ <;> rw [hs, ht] at this <;> obtain ⟨h1, h2⟩ := this <;> cases h1
    · exact ⟨rfl, h2⟩
    · exact forLoop_ignores (fun s t h => runB_ignores hI n b s t ha.left.right h) (fun s t h => runB_ignores hI n o s t ha.right h) _ s' t' h2
  | .try_ b x o f, s, t, ha, h => by
    rw [run, run]
    rw [Stmt.vars] at ha
    exact finally_ignores (tryExcept_ignores (fun s t h => runB_ignores hI n b s t ha.left.left.left h)
      (fun s t h => runB_ignores hI n x s t ha.left.left.right h) (fun s t h => runB_ignores hI n o s t ha.left.right h) s t h)
      fun s t h => runB_ignores hI n f s t ha.right h

/-- What variables are that are not used does not matter. -/
theorem runB_ignores {ns : List Str} (hI : Ignores I ns) (n : Nat) : ∀ (b : List Stmt) (s t : State V W), Apart ns (varsB b) → Same ns s t →
    SameRes ns (runB I n b s) (runB I n b t)
  | [], s, t, _, h => by
    rw [runB, runB]
    exact ⟨rfl, h⟩
  | c :: cs, s, t, ha, h => by
    rw [runB, runB]
    rw [varsB] at ha
    exact next_ignores (run_ignores hI n c s t ha.left h) fun s t h => runB_ignores hI n cs s t ha.right h
end

/-! ### Helper variables -/

mutual
theorem safe_apart {ns xs : List Str} : ∀ (t : Stmt) (l : Live), Apart ns t.vars → safe xs t l = true → safe (ns ++ xs) t l = true
  | .assign x e, l, ha, h => by
    have : x ∉ ns := ha x (by simp [Stmt.vars])
    simp only [safe, List.contains_eq_mem, List.mem_append, this, false_or] at h ⊢
    exact h
  | .expr _, l, _, _ => rfl
  | .ret _, l, _, _ => rfl
  | .brk, l, _, _ => rfl
  | .cont, l, _, _ => rfl
  | .if_ c b o, l, ha, h => by
    rw [Stmt.vars] at ha
    simp only [safe, Bool.and_eq_true] at h ⊢
    exact ⟨safeB_apart b _ ha.left.right h.1, safeB_apart o _ ha.right h.2⟩
  | .while_ c b o, l, ha, h => by
    rw [Stmt.vars] at ha
    simp only [safe, Bool.and_eq_true] at h ⊢
    exact ⟨safeB_apart b _ ha.left.right h.1, safeB_apart o _ ha.right h.2⟩
  | .for_ x e b o, l, ha, h => by
    rw [Stmt.vars] at ha
    have hx : x ∉ ns := ha x (by simp)
    have ha : Apart ns (e.vars ++ varsB b ++ varsB o) := fun y hy => ha y (List.mem_cons_of_mem _ hy)
    simp only [safe, Bool.and_eq_true] at h ⊢
    refine ⟨⟨?_, safeB_apart b _ ha.left.right h.1.2⟩, safeB_apart o _ ha.right h.2⟩
    have h := h.1.1
    simp only [List.contains_eq_mem, List.mem_append, hx, false_or] at h ⊢
    exact h
  | .try_ b x o f, l, ha, h => by
    rw [Stmt.vars] at ha
    simp only [safe, Bool.and_eq_true] at h ⊢
    obtain ⟨⟨⟨⟨⟨⟨⟨hb, hh⟩, ho⟩, h1⟩, h2⟩, h3⟩, h4⟩, h5⟩ := h
    exact ⟨⟨⟨⟨⟨⟨⟨safeB_apart b _ ha.left.left.left hb, safeB_apart x _ ha.left.left.right hh⟩, safeB_apart o _ ha.left.right ho⟩,
      safeB_apart f _ ha.right h1⟩, safeB_apart f _ ha.right h2⟩, safeB_apart f _ ha.right h3⟩, safeB_apart f _ ha.right h4⟩, safeB_apart f _ ha.right h5⟩

/-- Variables that are not used are not assigned to. -/
theorem safeB_apart {ns xs : List Str} : ∀ (ts : List Stmt) (l : Live), Apart ns (varsB ts) → safeB xs ts l = true → safeB (ns ++ xs) ts l = true
  | [], _, _, _ => rfl
  | t :: ts, l, ha, h => by
    rw [varsB] at ha
    simp only [safeB, Bool.and_eq_true] at h ⊢
    exact ⟨safe_apart t _ ha.left h.1, safeB_apart ts l ha.right h.2⟩
end

theorem Same.refl {ns : List Str} (s : State V W) : Same ns s s := ⟨rfl, fun _ _ => rfl⟩

theorem assigns_run {ns : List Str} (n : Nat) (names : Nat → Str) (τ : Nat → Expr) : ∀ (is : List Nat) (s : State V W), is.Nodup →
    (∀ i ∈ is, ∀ j ∈ is, names i = names j → i = j) → (∀ i ∈ is, names i ∈ ns) → (∀ i ∈ is, (τ i).NoCalls ∧ Apart ns (τ i).vars) →
    (∀ i ∈ is, ∃ v, (eval I (τ i) s).1 = .ok v) →
    ∃ s', runB I n (is.map fun i => .assign (names i) (τ i)) s = some (.normal, s') ∧ Same ns s s' ∧
      (∀ i ∈ is, (eval I (τ i) s).1 = .ok (s'.env (names i))) ∧ ∀ x, (∀ i ∈ is, names i ≠ x) → s'.env x = s.env x
  | [], s, _, _, _, _, _ => ⟨s, by rw [List.map_nil, runB], Same.refl s, (fun i hi => by simp at hi), fun _ _ => rfl⟩
  | i :: is, s, hd, hinj, hns, hτ, hv => by
    obtain ⟨v, hvi⟩ := hv i (by simp)
    have hp := eval_pure (I := I) (τ i) s (hτ i (by simp)).1
    have he : eval I (τ i) s = (.ok v, s) := Prod.ext hvi hp
    have hag : ∀ j ∈ is, (eval I (τ j) (s.set (names i) v)).1 = (eval I (τ j) s).1 := by
      intro j hj
      have hj' := hτ j (List.mem_cons_of_mem _ hj)
      refine eval_agree _ s _ hj'.1 fun x hx => ?_
      have : x ≠ names i := fun e => hj'.2 x hx (e ▸ hns i (by simp))
      simp only [State.set, if_neg this]
    obtain ⟨s', h1, h2, h3, h4⟩ := assigns_run (ns := ns) n names τ is (s.set (names i) v) (List.nodup_cons.mp hd).2
      (fun a ha b hb => hinj a (List.mem_cons_of_mem _ ha) b (List.mem_cons_of_mem _ hb)) (fun a ha => hns a (List.mem_cons_of_mem _ ha))
      (fun a ha => hτ a (List.mem_cons_of_mem _ ha))
      (fun j hj => by rw [hag j hj]; exact hv j (List.mem_cons_of_mem _ hj))
    refine ⟨s', ?_, ?_, ?_, ?_⟩
    · rw [List.map_cons, runB, run, he]
      exact h1
    · refine ⟨h2.1, fun x hx => ?_⟩
      have : x ≠ names i := fun e => hx (e ▸ hns i (by simp))
      rw [← h2.2 x hx]
      simp only [State.set, if_neg this]
    · intro j hj
      rcases List.mem_cons.mp hj with rfl | hj'
      · rw [hvi, h4 (names j) ?_]
        · simp [State.set]
        · intro a ha e
          have := hinj a (List.mem_cons_of_mem _ ha) j (by simp) e
          exact (List.nodup_cons.mp hd).1 (this ▸ ha)
      · rw [← hag j hj']
        exact h3 j hj'
    · intro x hx
      rw [h4 x fun a ha => hx a (List.mem_cons_of_mem _ ha)]
      have : x ≠ names i := fun e => hx i (by simp) e.symm
      simp only [State.set, if_neg this]

theorem apart_append {ns xs ys : List Str} (h : Apart ns xs) (h' : Apart ns ys) : Apart ns (xs ++ ys) :=
  fun x hx => (List.mem_append.mp hx).elim (h x) (h' x)

theorem vars_fillE {ns : List Str} (σ : Nat → Expr) (hσ : ∀ i, Apart ns (σ i).vars) : ∀ e : Expr, Apart ns e.vars → Apart ns (e.fill σ).vars
  | .const _, h => h
  | .bool _, h => h
  | .name _, h => h
  | .hole i, _ => hσ i
  | .call _ a b, h => apart_append (vars_fillE σ hσ a h.left) (vars_fillE σ hσ b h.right)
  | .op _ a b, h => apart_append (vars_fillE σ hσ a h.left) (vars_fillE σ hσ b h.right)
  | .not_ a, h => vars_fillE σ hσ a h
  | .bool_ _ a b, h => apart_append (vars_fillE σ hσ a h.left) (vars_fillE σ hσ b h.right)
  | .tern c a b, h => apart_append (apart_append (vars_fillE σ hσ c h.left.left) (vars_fillE σ hσ a h.left.right)) (vars_fillE σ hσ b h.right)

mutual
theorem vars_fill {ns : List Str} (σ : Nat → Expr) (hσ : ∀ i, Apart ns (σ i).vars) : ∀ t : Stmt, Apart ns t.vars → Apart ns (t.fill σ).vars
  | .assign x e, h => by
    rw [Stmt.vars] at h
    rw [Stmt.fill, Stmt.vars]
    intro y hy
    rcases List.mem_cons.mp hy with rfl | hy
    · exact h y (by simp)
    · exact vars_fillE σ hσ e (fun z hz => h z (List.mem_cons_of_mem _ hz)) y hy
  | .expr e, h => vars_fillE σ hσ e h
  | .ret e, h => vars_fillE σ hσ e h
  | .brk, h => h
  | .cont, h => h
  | .if_ c b o, h => by
    rw [Stmt.vars] at h
    rw [Stmt.fill, Stmt.vars]
    exact apart_append (apart_append (vars_fillE σ hσ c h.left.left) (vars_fillB σ hσ b h.left.right)) (vars_fillB σ hσ o h.right)
  | .while_ c b o, h => by
    rw [Stmt.vars] at h
    rw [Stmt.fill, Stmt.vars]
    exact apart_append (apart_append (vars_fillE σ hσ c h.left.left) (vars_fillB σ hσ b h.left.right)) (vars_fillB σ hσ o h.right)
  | .for_ x e b o, h => by
    rw [Stmt.vars] at h
    rw [Stmt.fill, Stmt.vars]
    have ha : Apart ns (e.vars ++ varsB b ++ varsB o) := fun y hy => h y (List.mem_cons_of_mem _ hy)
    intro y hy
    rcases List.mem_cons.mp hy with rfl | hy
    · exact h y (by simp)
    · exact apart_append (apart_append (vars_fillE σ hσ e ha.left.left) (vars_fillB σ hσ b ha.left.right)) (vars_fillB σ hσ o ha.right) y hy
  | .try_ b x o f, h => by
    rw [Stmt.vars] at h
    rw [Stmt.fill, Stmt.vars]
    exact apart_append (apart_append (apart_append (vars_fillB σ hσ b h.left.left.left) (vars_fillB σ hσ x h.left.left.right)) (vars_fillB σ hσ o h.left.right))
      (vars_fillB σ hσ f h.right)

theorem vars_fillB {ns : List Str} (σ : Nat → Expr) (hσ : ∀ i, Apart ns (σ i).vars) : ∀ ts : List Stmt, Apart ns (varsB ts) → Apart ns (varsB (fillB σ ts))
  | [], h => h
  | t :: ts, h => by
    rw [varsB] at h
    rw [fillB, varsB]
    exact apart_append (vars_fill σ hσ t h.left) (vars_fillB σ hσ ts h.right)
end

/-- The names of the helper variables. -/
def helpers (names : Nat → Str) (avars : List Avar) : List Str := (List.range avars.length).map names

/-- The variables of what differs. -/
def differing (avars : List Avar) : List Str := avars.flatMap fun a => a.subs.flatMap Expr.vars

theorem fillOf_mem {avars : List Avar} {k i : Nat} : (∃ a ∈ avars, fillOf avars k i ∈ a.subs) ∨ fillOf avars k i = .hole i := by
  rw [fillOf]
  rcases hi : avars[i]? with _ | a
  · exact Or.inr rfl
  · simp only [Option.map_some, Option.getD_some]
    rcases hk : a.subs[k]? with _ | e
    · exact Or.inr rfl
    · exact Or.inl ⟨a, List.mem_of_getElem? hi, List.mem_of_getElem? hk⟩

theorem fillOf_get {avars : List Avar} {tests : List Expr} (hlen : ∀ a ∈ avars, a.subs.length = tests.length + 1) {k i : Nat} (hk : k ≤ tests.length)
    (hi : i < avars.length) : ∃ a ∈ avars, fillOf avars k i ∈ a.subs := by
  rw [fillOf, List.getElem?_eq_getElem hi]
  have hm := List.getElem_mem hi
  have hl := hlen _ hm
  simp only [Option.map_some, Option.getD_some]
  rw [List.getElem?_eq_getElem (by omega)]
  exact ⟨_, hm, List.getElem_mem _⟩

/-- C123: Helper variables are suggested if it is shorter with them, and nothing else is asked. -/
theorem C123_reported (n : Count) (names : Nat → Str) (tests : List Expr) (avars : List Avar) (core : Block) :
    reportVars n names tests avars core = some () ↔
      Shorter true (n.tokens (original tests avars core)) (n.stmts (original tests avars core))
        ((n.tokens (assignIfs names tests avars) : Int) + n.tokens core) (n.stmts (assignIfs names tests avars) + n.stmts core) := by
  rw [reportVars, ifSaves, ← saves_iff, toExtracted]
  simp

/-- C123: If helper variables are used, as is suggested, then the program does the same, up to the values of the helper variables, which there have not been.
What is missing is that this needs that no variable of what differs is changed before, which is not looked at; and that what differs has no calls and raises no
exceptions, and functions do not use these variables. -/
theorem C123_same_partial (names : Nat → Str) (tests : List Expr) (avars : List Avar) (core : Block) (hlen : ∀ a ∈ avars, a.subs.length = tests.length + 1)
    (hn : ∀ t ∈ tests, t.NoCalls) (hsub : ∀ a ∈ avars, ∀ e ∈ a.subs, e.NoCalls ∧ Apart (helpers names avars) e.vars)
    (hcore : Apart (helpers names avars) (varsB core)) (hinj : ∀ i < avars.length, ∀ j < avars.length, names i = names j → i = j)
    (hsafe : safeB (differing avars) core .none = true) (hK : Keeps I (helpers names avars ++ differing avars)) (hI : Ignores I (helpers names avars))
    (s : State V W) (hd : Decides I tests s) (hv : ∀ a ∈ avars, ∀ e ∈ a.subs, ∃ v, (eval I e s).1 = .ok v) (k : Nat) :
    SameRes (helpers names avars) (runB I k (withVars names tests avars core) s) (runB I k (original tests avars core) s) := by
  have hlt : choose I tests s < tests.length + 1 := Nat.lt_succ_of_le (choose_le s tests)
  rw [original_run k s tests avars core hn hd, withVars, runB_append, assignIfs, createIfs_run k s tests _ hn hd, List.getElem?_map, List.getElem?_range hlt]
  simp only [Option.map_some, Option.getD_some, assigns]
  generalize hc : choose I tests s = c at hlt
  have hget : ∀ i < avars.length, ∃ a ∈ avars, fillOf avars c i ∈ a.subs := fun i hi => fillOf_get hlen (by omega) hi
  obtain ⟨s', h1, h2, h3, -⟩ := assigns_run (I := I) (ns := helpers names avars) k names (fillOf avars c) (List.range avars.length) s List.nodup_range
    (fun i hi j hj => hinj i (List.mem_range.mp hi) j (List.mem_range.mp hj)) (fun i hi => List.mem_map_of_mem hi)
    (fun i hi => by
      obtain ⟨a, ha, he⟩ := hget i (List.mem_range.mp hi)
      exact hsub a ha _ he)
    (fun i hi => by
      obtain ⟨a, ha, he⟩ := hget i (List.mem_range.mp hi)
      exact hv a ha _ he)
  rw [h1]
  simp only [next]
  have hsame := runB_same (xs := helpers names avars ++ differing avars) hK (s₀ := s')
    (σ := fun i => if i < avars.length then .name (names i) else .hole i) (τ := fillOf avars c) ?_ k core .none s'
    (safeB_apart core _ hcore hsafe) fun _ => Agree.refl s'
  · rw [hsame]
    refine runB_ignores hI k _ s' s ?_ ⟨h2.1.symm, fun x hx => (h2.2 x hx).symm⟩
    refine vars_fillB _ ?_ core hcore
    intro i
    rcases fillOf_mem (avars := avars) (k := c) (i := i) with ⟨a, ha, he⟩ | he
    · exact (hsub a ha _ he).2
    · rw [he]
      intro x hx
      cases hx
  · intro i u hu
    simp only
    split
    · rename_i hi
      obtain ⟨a, ha, he⟩ := hget i hi
      have hs := hsub a ha _ he
      have e1 := eval_agree (I := I) (fillOf avars c i) s' u hs.1
        fun x hx => hu x (List.mem_append_right _ (List.mem_flatMap.mpr ⟨a, ha, List.mem_flatMap.mpr ⟨_, he, hx⟩⟩))
      have e2 := eval_agree (I := I) (fillOf avars c i) s s' hs.1 fun x hx => (h2.2 x (hs.2 x hx)).symm
      have e3 := h3 i (List.mem_range.mpr hi)
      have e4 := hu (names i) (List.mem_append_left _ (List.mem_map_of_mem (List.mem_range.mpr hi)))
      refine Prod.ext ?_ ?_
      · rw [e1, e2, e3, eval, e4]
      · rw [eval_pure _ u hs.1, eval]
    · rename_i hi
      have : avars[i]? = none := List.getElem?_eq_none (by omega)
      rw [fillOf, this]
      rfl

/-! ### Examples -/

/-- `if x: print(3); …; print(y)`, in the other branch `print(4); …; print(z)` -/
def exVarsCore : Block := [print (.hole 0), print (.const 5), print (.const 5), print (.const 5), print (.const 5), print (.hole 1)]

def exVarsAvars : List Avar := [⟨[.const 3, .const 4], true, [.call 1, .other]⟩, ⟨[.name "y".toList, .name "z".toList], false, [.call 1, .other]⟩]

def exNames (i : Nat) : Str := if i = 0 then "v".toList else "w".toList

example : reportVars exCount exNames [.name "x".toList] exVarsAvars exVarsCore = some () := by decide +kernel

/-- Functions that print only. -/
def exPrint : Interp Nat (List Nat) := { exInterp with call := fun _ a _ s => (.ok 0, { s with world := s.world ++ [a] }) }

example (k : Nat) (s : State Nat (List Nat)) : SameRes ["v".toList, "w".toList] (runB exPrint k (withVars exNames [.name "x".toList] exVarsAvars exVarsCore) s)
    (runB exPrint k (original [.name "x".toList] exVarsAvars exVarsCore) s) := by
  refine C123_same_partial (I := exPrint) exNames [.name "x".toList] exVarsAvars exVarsCore (by decide) ?_ ?_ (by unfold Apart; decide) (by decide) (by decide +kernel) ?_ ?_ s
    ⟨_, rfl, fun _ => trivial⟩ ?_ k
  · intro t ht
    rw [List.mem_singleton] at ht
    subst ht
    trivial
  · intro a ha e he
    simp only [exVarsAvars, List.mem_cons, List.not_mem_nil, or_false] at ha
    rcases ha with rfl | rfl <;> simp only [List.mem_cons, List.not_mem_nil, or_false] at he <;> rcases he with rfl | rfl <;>
      exact ⟨trivial, by unfold Apart; decide⟩
  · exact ⟨fun _ _ _ _ _ _ => rfl, fun _ _ _ _ => rfl⟩
  · refine ⟨fun f v w s t h => ⟨rfl, ?_, h.2⟩, fun v s t h => ⟨rfl, h⟩⟩
    simp only [exPrint, h.1]
  · intro a ha e he
    simp only [exVarsAvars, List.mem_cons, List.not_mem_nil, or_false] at ha
    rcases ha with rfl | rfl <;> simp only [List.mem_cons, List.not_mem_nil, or_false] at he <;> rcases he with rfl | rfl <;> exact ⟨_, rfl⟩

/-- C123 is false if a variable of what differs is changed before: `if x: y = 3; …; print(y)`, in the other branch `y = 4; …; print(z)`. -/
theorem C123_same_counterexample :
    ∃ (names : Nat → Str) (tests : List Expr) (avars : List Avar) (core : Block), reportVars exCount names tests avars core = some () ∧
      (∀ a ∈ avars, a.subs.length = tests.length + 1) ∧ (∀ t ∈ tests, t.NoCalls) ∧ Decides exInterp tests (start 1) ∧
      (∀ x ∈ helpers names avars, x ∉ varsB core ++ differing avars) ∧
      shown "b" (runB exInterp 1 (withVars names tests avars core) (start 1)) = some ([5, 5, 5, 5, 0], 0) ∧
      shown "b" (runB exInterp 1 (original tests avars core) (start 1)) = some ([5, 5, 5, 5, 3], 0) :=
  ⟨exNames, [.name "c".toList], [⟨[.const 3, .const 4], true, [.store]⟩, ⟨[.name "y".toList, .name "z".toList], false, [.call 1, .other]⟩],
    [.assign "y".toList (.hole 0), print (.const 5), print (.const 5), print (.const 5), print (.const 5), print (.hole 1)], by decide +kernel, by decide,
    (by intro t ht; rw [List.mem_singleton] at ht; subst ht; trivial), ⟨_, rfl, fun _ => trivial⟩, by decide, by decide +kernel, by decide +kernel⟩

end Verif.SimilarIf

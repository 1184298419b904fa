import Verif.Model.SimilarIf

/-!
What programs with holes have in common: where the variables of conditions are not changed before a hole, it does not matter whether a hole is filled with what
the branch has there or with something that has the same value.
-/

namespace Verif.SimilarIf

variable {V W : Type} {I : Interp V W}

/-- Functions and iterators do not change these variables. -/
def Keeps (I : Interp V W) (xs : List Str) : Prop :=
  (∀ f v w s, ∀ x ∈ xs, (I.call f v w s).2.env x = s.env x) ∧ ∀ v s, ∀ x ∈ xs, (I.iter v s).2.env x = s.env x

/-- The variables have the same values. -/
def Agree (xs : List Str) (s t : State V W) : Prop := ∀ x ∈ xs, t.env x = s.env x

theorem Agree.refl {xs : List Str} (s : State V W) : Agree xs s s := fun _ _ => rfl

theorem Agree.trans {xs : List Str} {s t u : State V W} (h : Agree xs s t) (h' : Agree xs t u) : Agree xs s u :=
  fun x hx => (h' x hx).trans (h x hx)

theorem eval_keeps {xs : List Str} (hI : Keeps I xs) : ∀ (e : Expr) (s : State V W), Agree xs s (eval I e s).2
  | .const _, s => Agree.refl s
  | .bool _, s => Agree.refl s
  | .name _, s => Agree.refl s
  | .hole _, s => Agree.refl s
  | .call f a b, s => by
    have ha := eval_keeps hI a s
    rw [eval]
    rcases h : eval I a s with ⟨_ | v, s'⟩ <;> rw [h] at ha
    · exact ha
    · have hb := eval_keeps hI b s'
      simp only
      rcases h : eval I b s' with ⟨_ | w, s''⟩ <;> rw [h] at hb
      · exact ha.trans hb
      · exact (ha.trans hb).trans (hI.1 f v w s'')
  | .op f a b, s => by
    have ha := eval_keeps hI a s
    rw [eval]
    rcases h : eval I a s with ⟨_ | v, s'⟩ <;> rw [h] at ha
    · exact ha
    · have hb := eval_keeps hI b s'
      simp only
      rcases h : eval I b s' with ⟨_ | w, s''⟩ <;> rw [h] at hb
      · exact ha.trans hb
      · exact ha.trans hb
  | .not_ a, s => by
    have ha := eval_keeps hI a s
    rw [eval]
    rcases h : eval I a s with ⟨_ | v, s'⟩ <;> rw [h] at ha <;> exact ha
  | .bool_ c a b, s => by
    have ha := eval_keeps hI a s
    rw [eval]
    rcases h : eval I a s with ⟨_ | v, s'⟩ <;> rw [h] at ha
    · exact ha
    · simp only
      split
      · exact ha.trans (eval_keeps hI b s')
      · exact ha
  | .tern c a b, s => by
    have ha := eval_keeps hI c s
    rw [eval]
    rcases h : eval I c s with ⟨_ | v, s'⟩ <;> rw [h] at ha
    · exact ha
    · simp only
      split
      · exact ha.trans (eval_keeps hI a s')
      · exact ha.trans (eval_keeps hI b s')

/-! ### What holds afterwards -/

/-- However it ends, this holds. -/
def Post (r : Res V W) (Q : Out V → State V W → Prop) : Prop := ∀ o s, r = some (o, s) → Q o s

theorem Post.andThen {r : Except PyErr V × State V W} {k : V → State V W → Res V W} {Q : Out V → State V W → Prop} (he : ∀ e, Q (.raise e) r.2)
    (hk : ∀ v, Post (k v r.2) Q) : Post (andThen r k) Q := by
  rcases r with ⟨e | v, s⟩
  · intro o s' h
    cases h
    exact he e
  · exact hk v

theorem Post.next {r : Res V W} {k : State V W → Res V W} {Q : Out V → State V W → Prop}
    (h : Post r fun o s => match o with | .normal => Post (k s) Q | o => Q o s) : Post (next r k) Q := by
  rcases r with _ | ⟨o, s⟩
  · intro _ _ h; cases h
  · have := h o s rfl
    cases o
    · exact this
    all_goals
      intro o' s' h
      cases h
      exact this

/-- A hole may be reached after something has ended in this way. -/
def Live.at (l : Live) : Out V → Bool
  | .normal => l.normal
  | .brk => l.brk
  | .cont => l.cont
  | .ret _ => l.ret
  | .raise _ => l.raise

/-- The variables are those of the start if a hole may still be reached. -/
def Ok (xs : List Str) (s₀ : State V W) (l : Live) (o : Out V) (s : State V W) : Prop := l.at o = true → Agree xs s₀ s

theorem loop_post {xs : List Str} {s₀ : State V W} {l : Live} {c : State V W → Except PyErr V × State V W} {body orelse : State V W → Res V W} {h : Bool}
    (hr : l.raise = true → h = true) (hc : ∀ s, Agree xs s (c s).2)
    (hb : ∀ s, (h = true → Agree xs s₀ s) → Post (body s) (Ok xs s₀ { l with normal := h, cont := h, brk := l.normal }))
    (ho : ∀ s, (h = true → Agree xs s₀ s) → Post (orelse s) (Ok xs s₀ l)) :
    ∀ (n : Nat) (s : State V W), (h = true → Agree xs s₀ s) → Post (loop I c body orelse n s) (Ok xs s₀ l)
  | 0, s, _ => fun _ _ h => nomatch h
  | n + 1, s, hs => by
    rw [loop]
    have hs' : h = true → Agree xs s₀ (c s).2 := fun hh => (hs hh).trans (hc s)
    refine Post.andThen (fun e he => hs' (hr he)) fun v => ?_
    split
    · have := hb _ hs'
      split
      case h_1 s' heq => exact loop_post hr hc hb ho n s' (this _ _ heq)
      case h_2 s' heq => exact loop_post hr hc hb ho n s' (this _ _ heq)
      case h_3 s' heq =>
        intro o s'' h
        cases h
        exact this _ _ heq
      case h_4 h1 h2 h3 =>
        intro o s'' heq hl
        cases o
        · exact absurd heq (h1 s'')
        · exact absurd heq (h3 s'')
        · exact absurd heq (h2 s'')
        · exact this _ _ heq hl
        · exact this _ _ heq hl
    · exact ho _ hs'

theorem forLoop_post {xs : List Str} {s₀ : State V W} {l : Live} {x : Str} {body orelse : State V W → Res V W} {h : Bool}
    (hx : x ∈ xs → h = false) (hb : ∀ s, (h = true → Agree xs s₀ s) → Post (body s) (Ok xs s₀ { l with normal := h, cont := h, brk := l.normal }))
    (ho : ∀ s, (h = true → Agree xs s₀ s) → Post (orelse s) (Ok xs s₀ l)) :
    ∀ (vs : List V) (s : State V W), (h = true → Agree xs s₀ s) → Post (forLoop x body orelse vs s) (Ok xs s₀ l)
  | [], s, hs => ho s hs
  | v :: vs, s, hs => by
    rw [forLoop]
    have hs' : h = true → Agree xs s₀ (s.set x v) := by
      intro hh y hy
      have : y ≠ x := by
        rintro rfl
        rw [hx hy] at hh
        cases hh
      simp only [State.set, if_neg this]
      exact hs hh y hy
    have := hb _ hs'
    split
    case h_1 s' heq => exact forLoop_post hx hb ho vs s' (this _ _ heq)
    case h_2 s' heq => exact forLoop_post hx hb ho vs s' (this _ _ heq)
    case h_3 s' heq =>
      intro o s'' h
      cases h
      exact this _ _ heq
    case h_4 h1 h2 h3 =>
      intro o s'' heq hl
      cases o
      · exact absurd heq (h1 s'')
      · exact absurd heq (h3 s'')
      · exact absurd heq (h2 s'')
      · exact this _ _ heq hl
      · exact this _ _ heq hl

/-- What `finally` needs is what is needed at its start. -/
theorem through_at {f : Block} {l : Live} (o : Out V) : (l.through (liveB f)).at o = liveB f { l with normal := l.at o } := by
  cases o <;> rfl

theorem finally_post {xs : List Str} {s₀ : State V W} {l : Live} {f : Block} {r : Res V W} {final : State V W → Res V W}
    (hr : Post r (Ok xs s₀ (l.through (liveB f))))
    (hf : ∀ (o : Out V) (s : State V W), (liveB f { l with normal := l.at o } = true → Agree xs s₀ s) → Post (final s) (Ok xs s₀ { l with normal := l.at o })) :
    Post (finally_ r final) (Ok xs s₀ l) := by
  rcases r with _ | ⟨o, s⟩
  · intro _ _ h; cases h
  · have h1 := hr o s rfl
    have h2 := hf o s (by rw [← through_at]; exact h1)
    intro o' s' h
    simp only [finally_] at h
    split at h
    case h_1 s'' heq =>
      cases h
      exact h2 _ _ heq
    case h_2 hne =>
      have := h2 _ _ h
      cases o'
      · exact absurd h (hne s')
      all_goals exact this

theorem tryExcept_post {xs : List Str} {s₀ : State V W} {l : Live} {h o : Block} {body handler orelse : State V W → Res V W} {s : State V W}
    (hb : Post (body s) (Ok xs s₀ { l with normal := liveB o l, raise := liveB h l }))
    (hh : ∀ s, (liveB h l = true → Agree xs s₀ s) → Post (handler s) (Ok xs s₀ l))
    (ho : ∀ s, (liveB o l = true → Agree xs s₀ s) → Post (orelse s) (Ok xs s₀ l)) : Post (tryExcept body handler orelse s) (Ok xs s₀ l) := by
  rw [tryExcept]
  split
  case h_1 s' heq => exact ho s' (hb _ _ heq)
  case h_2 e s' heq => exact hh s' (hb _ _ heq)
  case h_3 h1 h2 =>
    intro o' s' heq hl
    cases o'
    · exact absurd heq (h1 s')
    · exact hb _ _ heq hl
    · exact hb _ _ heq hl
    · exact hb _ _ heq hl
    · exact absurd heq (h2 _ s')

theorem agree_set {xs : List Str} {s₀ s : State V W} {x : Str} {v : V} (hx : x ∉ xs) (h : Agree xs s₀ s) : Agree xs s₀ (s.set x v) := by
  intro y hy
  have : y ≠ x := fun e => hx (e ▸ hy)
  simp only [State.set, if_neg this]
  exact h y hy

theorem liveWhile_body {c : Expr} {b o : Block} {l : Live}
    (h : liveB b { l with normal := liveWhile c b o l, cont := liveWhile c b o l, brk := l.normal } = true) : liveWhile c b o l = true := by
  by_cases hw : liveWhile c b o l = true
  · exact hw
  · have hw' : liveWhile c b o l = false := by simpa using hw
    rw [hw'] at h
    simp [liveWhile, h]

theorem liveFor_body {b o : Block} {l : Live}
    (h : liveB b { l with normal := liveFor b o l, cont := liveFor b o l, brk := l.normal } = true) : liveFor b o l = true := by
  by_cases hw : liveFor b o l = true
  · exact hw
  · have hw' : liveFor b o l = false := by simpa using hw
    rw [hw'] at h
    simp [liveFor, h]

theorem safe_final {xs : List Str} {f : Block} {l : Live}
    (h : safeB xs f l = true ∧ safeB xs f { l with normal := l.brk } = true ∧ safeB xs f { l with normal := l.cont } = true ∧
      safeB xs f { l with normal := l.ret } = true ∧ safeB xs f { l with normal := l.raise } = true) (o : Out V) :
    safeB xs f { l with normal := l.at o } = true := by
  cases o
  · exact h.1
  · exact h.2.1
  · exact h.2.2.1
  · exact h.2.2.2.1
  · exact h.2.2.2.2

mutual
theorem run_keeps {xs : List Str} (hI : Keeps I xs) (σ : Nat → Expr) (n : Nat) (s₀ : State V W) :
    ∀ (t : Stmt) (l : Live) (s : State V W), safe xs t l = true → (live t l = true → Agree xs s₀ s) → Post (run I n (t.fill σ) s) (Ok xs s₀ l)
  | .assign x e, l, s, hs, hl => by
    rw [Stmt.fill, run]
    have hk := eval_keeps hI (e.fill σ) s
    refine Post.andThen (fun _ hr => (hl (by simp only [live]; simp [show l.raise = true from hr])).trans hk) fun v => ?_
    intro o s' h
    cases h
    intro hn
    have hn : l.normal = true := hn
    refine agree_set ?_ ((hl (by simp [live, hn])).trans hk)
    intro hx
    simp [safe, hn, hx] at hs
  | .expr e, l, s, hs, hl => by
    rw [Stmt.fill, run]
    have hk := eval_keeps hI (e.fill σ) s
    refine Post.andThen (fun _ hr => (hl (by simp only [live]; simp [show l.raise = true from hr])).trans hk) fun v => ?_
    intro o s' h
    cases h
    intro hn
    exact (hl (by simp [live, show l.normal = true from hn])).trans hk
  | .ret e, l, s, hs, hl => by
    rw [Stmt.fill, run]
    have hk := eval_keeps hI (e.fill σ) s
    refine Post.andThen (fun _ hr => (hl (by simp only [live]; simp [show l.raise = true from hr])).trans hk) fun v => ?_
    intro o s' h
    cases h
    intro hn
    exact (hl (by simp [live, show l.ret = true from hn])).trans hk
  | .brk, l, s, hs, hl => by
    rw [Stmt.fill, run]
    intro o s' h
    cases h
    exact hl
  | .cont, l, s, hs, hl => by
    rw [Stmt.fill, run]
    intro o s' h
    cases h
    exact hl
  | .if_ c b o, l, s, hs, hl => by
    rw [Stmt.fill, run]
    have hk := eval_keeps hI (c.fill σ) s
    simp only [safe, Bool.and_eq_true] at hs
    refine Post.andThen (fun _ hr => (hl (by simp only [live]; simp [show l.raise = true from hr])).trans hk) fun v => ?_
    split
    · exact runB_keeps hI σ n s₀ b l _ hs.1 fun hb => (hl (by simp [live, hb])).trans hk
    · exact runB_keeps hI σ n s₀ o l _ hs.2 fun hb => (hl (by simp [live, hb])).trans hk
  | .while_ c b o, l, s, hs, hl => by
    rw [Stmt.fill, run]
    simp only [safe, Bool.and_eq_true] at hs
    refine loop_post (h := liveWhile c b o l) (fun hr => by simp [liveWhile, hr]) (fun s => eval_keeps hI (c.fill σ) s) ?_ ?_ n s ?_
    · intro s hs'
      exact runB_keeps hI σ n s₀ b _ s hs.1 fun hb => hs' (liveWhile_body hb)
    · intro s hs'
      exact runB_keeps hI σ n s₀ o _ s hs.2 fun hb => hs' (by simp [liveWhile, hb])
    · exact hl
  | .for_ x e b o, l, s, hs, hl => by
    rw [Stmt.fill, run]
    have hk := eval_keeps hI (e.fill σ) s
    simp only [safe, Bool.and_eq_true] at hs
    refine Post.andThen (fun _ hr => (hl (by simp only [live]; simp [show l.raise = true from hr])).trans hk) fun v => ?_
    have hi := hI.2 v (eval I (e.fill σ) s).2
    split
    case h_1 e' s' heq =>
      rw [heq] at hi
      intro o' s'' h
      cases h
      intro hr
      exact ((hl (by simp only [live]; simp [show l.raise = true from hr])).trans hk).trans hi
    case h_2 vs s' heq =>
      rw [heq] at hi
      refine forLoop_post (h := liveFor b o l) ?_ ?_ ?_ vs s' ?_
      · intro hx
        have := hs.1.1
        rw [Bool.not_eq_true', Bool.and_eq_false_iff] at this
        rcases this with this | this
        · simp [hx] at this
        · rw [Bool.or_eq_false_iff] at this
          exact this.2
      · intro s hs'
        exact runB_keeps hI σ n s₀ b _ s hs.1.2 fun hb => hs' (liveFor_body hb)
      · intro s hs'
        exact runB_keeps hI σ n s₀ o _ s hs.2 fun hb => hs' (by simp [liveFor, hb])
      · intro hh
        refine ((hl ?_).trans hk).trans hi
        rw [liveFor] at hh
        simp only [live, hh, Bool.or_true]
  | .try_ b h o f, l, s, hs, hl => by
    rw [Stmt.fill, run]
    simp only [safe, Bool.and_eq_true] at hs
    obtain ⟨⟨⟨⟨⟨⟨⟨hb, hh⟩, ho⟩, h1⟩, h2⟩, h3⟩, h4⟩, h5⟩ := hs
    refine finally_post (f := f) (tryExcept_post (h := h) (o := o) ?_ ?_ ?_) ?_
    · exact runB_keeps hI σ n s₀ b _ s hb (by rw [live] at hl; exact hl)
    · exact fun s hs' => runB_keeps hI σ n s₀ h _ s hh hs'
    · exact fun s hs' => runB_keeps hI σ n s₀ o _ s ho hs'
    · exact fun o' s hs' => runB_keeps hI σ n s₀ f _ s (safe_final ⟨h1, h2, h3, h4, h5⟩ o') hs'

/-- Where a hole may still be reached, the variables are as at the start. -/
theorem runB_keeps {xs : List Str} (hI : Keeps I xs) (σ : Nat → Expr) (n : Nat) (s₀ : State V W) :
    ∀ (ts : List Stmt) (l : Live) (s : State V W), safeB xs ts l = true → (liveB ts l = true → Agree xs s₀ s) → Post (runB I n (fillB σ ts) s) (Ok xs s₀ l)
  | [], l, s, _, hl => by
    rw [fillB, runB]
    intro o s' h
    cases h
    exact hl
  | t :: ts, l, s, hs, hl => by
    rw [fillB, runB]
    simp only [safeB, Bool.and_eq_true] at hs
    have h := run_keeps hI σ n s₀ t _ s hs.1 (by rw [liveB] at hl; exact hl)
    refine Post.next fun o s' heq => ?_
    have := h o s' heq
    cases o
    · exact runB_keeps hI σ n s₀ ts l s' hs.2 this
    all_goals exact this
end

/-! ### Holes that are filled with something of the same value -/

/-- Where the variables are as at the start, the holes have the same values and do the same. -/
def SameHoles (I : Interp V W) (xs : List Str) (s₀ : State V W) (σ τ : Nat → Expr) : Prop :=
  ∀ i s, Agree xs s₀ s → eval I (σ i) s = eval I (τ i) s

theorem eval_fill {e : Expr} (σ τ : Nat → Expr) (h : e.holey = false) : e.fill σ = e.fill τ := by
  induction e with
  | const k => rfl
  | bool b => rfl
  | name x => rfl
  | hole i => cases h
  | call f a b iha ihb =>
    rw [Expr.holey, Bool.or_eq_false_iff] at h
    rw [Expr.fill, Expr.fill, iha h.1, ihb h.2]
  | op f a b iha ihb =>
    rw [Expr.holey, Bool.or_eq_false_iff] at h
    rw [Expr.fill, Expr.fill, iha h.1, ihb h.2]
  | not_ a iha =>
    rw [Expr.holey] at h
    rw [Expr.fill, Expr.fill, iha h]
  | bool_ c a b iha ihb =>
    rw [Expr.holey, Bool.or_eq_false_iff] at h
    rw [Expr.fill, Expr.fill, iha h.1, ihb h.2]
  | tern c a b ihc iha ihb =>
    rw [Expr.holey, Bool.or_eq_false_iff, Bool.or_eq_false_iff] at h
    rw [Expr.fill, Expr.fill, ihc h.1.1, iha h.1.2, ihb h.2]

theorem eval_same {xs : List Str} (hI : Keeps I xs) {s₀ : State V W} {σ τ : Nat → Expr} (h : SameHoles I xs s₀ σ τ) (e : Expr) (s : State V W)
    (hs : Agree xs s₀ s) : eval I (e.fill σ) s = eval I (e.fill τ) s := by
  induction e generalizing s with
  | const k => rfl
  | bool b => rfl
  | name x => rfl
  | hole i => exact h i s hs
  | call f a b iha ihb =>
    have hk := hs.trans (eval_keeps hI (a.fill τ) s)
    rw [Expr.fill, Expr.fill, eval, eval, iha s hs]
    rcases h : eval I (a.fill τ) s with ⟨_ | v, s'⟩
    · rfl
    · rw [h] at hk
      simp only [ihb s' hk]
  | op f a b iha ihb =>
    have hk := hs.trans (eval_keeps hI (a.fill τ) s)
    rw [Expr.fill, Expr.fill, eval, eval, iha s hs]
    rcases h : eval I (a.fill τ) s with ⟨_ | v, s'⟩
    · rfl
    · rw [h] at hk
      simp only [ihb s' hk]
  | not_ a iha => rw [Expr.fill, Expr.fill, eval, eval, iha s hs]
  | bool_ c a b iha ihb =>
    have hk := hs.trans (eval_keeps hI (a.fill τ) s)
    rw [Expr.fill, Expr.fill, eval, eval, iha s hs]
    rcases h : eval I (a.fill τ) s with ⟨_ | v, s'⟩
    · rfl
    · rw [h] at hk
      simp only [ihb s' hk]
  | tern c a b ihc iha ihb =>
    have hk := hs.trans (eval_keeps hI (c.fill τ) s)
    rw [Expr.fill, Expr.fill, eval, eval, ihc s hs]
    rcases h : eval I (c.fill τ) s with ⟨_ | v, s'⟩
    · rfl
    · rw [h] at hk
      simp only [iha s' hk, ihb s' hk]

/-- The same, if the expression need not have holes. -/
theorem eval_same' {xs : List Str} (hI : Keeps I xs) {s₀ : State V W} {σ τ : Nat → Expr} (h : SameHoles I xs s₀ σ τ) (e : Expr) (s : State V W)
    (hs : e.holey = true → Agree xs s₀ s) : eval I (e.fill σ) s = eval I (e.fill τ) s := by
  by_cases he : e.holey = true
  · exact eval_same hI h e s (hs he)
  · rw [eval_fill σ τ (by simpa using he)]

theorem loop_same {xs : List Str} {s₀ : State V W} {l : Live} {c c' : State V W → Except PyErr V × State V W} {body body' orelse orelse' : State V W → Res V W}
    {h : Bool} (hcc : ∀ s, (h = true → Agree xs s₀ s) → c s = c' s) (hc : ∀ s, Agree xs s (c s).2)
    (hb : ∀ s, (h = true → Agree xs s₀ s) → Post (body s) (Ok xs s₀ { l with normal := h, cont := h, brk := l.normal }))
    (hbb : ∀ s, (h = true → Agree xs s₀ s) → body s = body' s) (hoo : ∀ s, (h = true → Agree xs s₀ s) → orelse s = orelse' s) :
    ∀ (n : Nat) (s : State V W), (h = true → Agree xs s₀ s) → loop I c body orelse n s = loop I c' body' orelse' n s
  | 0, s, _ => rfl
  | n + 1, s, hs => by
    rw [loop, loop, ← hcc s hs]
    have hs' : h = true → Agree xs s₀ (c s).2 := fun hh => (hs hh).trans (hc s)
    rcases hcs : c s with ⟨e | v, s'⟩
    · rfl
    · rw [hcs] at hs'
      simp only [andThen, ← hbb s' hs', ← hoo s' hs']
      split
      · have := hb s' hs'
        split
        case h_1 t heq => exact loop_same hcc hc hb hbb hoo n t (this _ _ heq)
        case h_2 t heq => exact loop_same hcc hc hb hbb hoo n t (this _ _ heq)
        all_goals rfl
      · rfl

theorem forLoop_same {xs : List Str} {s₀ : State V W} {l : Live} {x : Str} {body body' orelse orelse' : State V W → Res V W} {h : Bool}
    (hx : x ∈ xs → h = false) (hb : ∀ s, (h = true → Agree xs s₀ s) → Post (body s) (Ok xs s₀ { l with normal := h, cont := h, brk := l.normal }))
    (hbb : ∀ s, (h = true → Agree xs s₀ s) → body s = body' s) (hoo : ∀ s, (h = true → Agree xs s₀ s) → orelse s = orelse' s) :
    ∀ (vs : List V) (s : State V W), (h = true → Agree xs s₀ s) → forLoop x body orelse vs s = forLoop x body' orelse' vs s
  | [], s, hs => hoo s hs
  | v :: vs, s, hs => by
    have hs' : h = true → Agree xs s₀ (s.set x v) := by
      intro hh
      refine agree_set (fun hm => ?_) (hs hh)
      rw [hx hm] at hh
      cases hh
    rw [forLoop, forLoop, ← hbb _ hs']
    have := hb _ hs'
    split
    case h_1 t heq => exact forLoop_same hx hb hbb hoo vs t (this _ _ heq)
    case h_2 t heq => exact forLoop_same hx hb hbb hoo vs t (this _ _ heq)
    all_goals rfl

theorem finally_same {xs : List Str} {s₀ : State V W} {l : Live} {f : Block} {r : Res V W} {final final' : State V W → Res V W}
    (hr : Post r (Ok xs s₀ (l.through (liveB f))))
    (hf : ∀ (o : Out V) (s : State V W), (liveB f { l with normal := l.at o } = true → Agree xs s₀ s) → final s = final' s) :
    finally_ r final = finally_ r final' := by
  rcases r with _ | ⟨o, s⟩
  · rfl
  · have h1 := hr o s rfl
    have h2 := hf o s (by rw [← through_at]; exact h1)
    simp only [finally_, h2]

theorem tryExcept_same {xs : List Str} {s₀ : State V W} {l : Live} {h o : Block} {body body' handler handler' orelse orelse' : State V W → Res V W}
    {s : State V W} (hb : Post (body s) (Ok xs s₀ { l with normal := liveB o l, raise := liveB h l })) (hbb : body s = body' s)
    (hh : ∀ s, (liveB h l = true → Agree xs s₀ s) → handler s = handler' s)
    (ho : ∀ s, (liveB o l = true → Agree xs s₀ s) → orelse s = orelse' s) : tryExcept body handler orelse s = tryExcept body' handler' orelse' s := by
  rw [tryExcept, tryExcept, ← hbb]
  split
  case h_1 s' heq => exact ho s' (hb _ _ heq)
  case h_2 e s' heq => exact hh s' (hb _ _ heq)
  case h_3 h1 h2 => rfl

theorem next_same {xs : List Str} {s₀ : State V W} {l : Live} {ts : Block} {r : Res V W} {k k' : State V W → Res V W}
    (hr : Post r (Ok xs s₀ { l with normal := liveB ts l })) (hk : ∀ s, (liveB ts l = true → Agree xs s₀ s) → k s = k' s) : next r k = next r k' := by
  rcases r with _ | ⟨o, s⟩
  · rfl
  · have := hr o s rfl
    cases o
    · exact hk s this
    all_goals rfl

/-- A statement, what is done instead, and in which states it is the same: what is put together from such. -/
theorem if_same {xs : List Str} (hI : Keeps I xs) {n : Nat} {s₀ : State V W} {σ τ : Nat → Expr} (h : SameHoles I xs s₀ σ τ) {c : Expr} {b b' o o' : Block}
    {l : Live} {s : State V W} (hl : (c.holey || l.raise || liveB b l || liveB o l) = true → Agree xs s₀ s)
    (hb : ∀ s, (liveB b l = true → Agree xs s₀ s) → runB I n (fillB σ b) s = runB I n b' s)
    (ho : ∀ s, (liveB o l = true → Agree xs s₀ s) → runB I n (fillB σ o) s = runB I n o' s) :
    run I n (.if_ (c.fill σ) (fillB σ b) (fillB σ o)) s = run I n (.if_ (c.fill τ) b' o') s := by
  rw [run, run, ← eval_same' hI h c s fun hc => hl (by simp [hc])]
  have hk := eval_keeps hI (c.fill σ) s
  rcases hc : eval I (c.fill σ) s with ⟨_ | v, s'⟩
  · rfl
  · rw [hc] at hk
    simp only [andThen, hb s' fun hh => (hl (by simp [hh])).trans hk, ho s' fun hh => (hl (by simp [hh])).trans hk]

theorem while_same {xs : List Str} (hI : Keeps I xs) {n : Nat} {s₀ : State V W} {σ τ : Nat → Expr} (h : SameHoles I xs s₀ σ τ) {c : Expr} {b b' o o' : Block}
    {l : Live} {s : State V W} (hs : safe xs (.while_ c b o) l = true) (hl : live (.while_ c b o) l = true → Agree xs s₀ s)
    (hb : ∀ s, (liveB b { l with normal := liveWhile c b o l, cont := liveWhile c b o l, brk := l.normal } = true → Agree xs s₀ s) →
      runB I n (fillB σ b) s = runB I n b' s)
    (ho : ∀ s, (liveB o l = true → Agree xs s₀ s) → runB I n (fillB σ o) s = runB I n o' s) :
    run I n (.while_ (c.fill σ) (fillB σ b) (fillB σ o)) s = run I n (.while_ (c.fill τ) b' o') s := by
  rw [run, run]
  simp only [safe, Bool.and_eq_true] at hs
  refine loop_same (l := l) (h := liveWhile c b o l) ?_ (fun s => eval_keeps hI (c.fill σ) s) ?_ ?_ ?_ n s hl
  · intro s hs'
    exact eval_same' hI h c s fun hc => hs' (by simp [liveWhile, hc])
  · intro s hs'
    exact runB_keeps hI σ n s₀ b _ s hs.1 fun hb => hs' (liveWhile_body hb)
  · intro s hs'
    exact hb s fun hh => hs' (liveWhile_body hh)
  · intro s hs'
    exact ho s fun hh => hs' (by simp [liveWhile, hh])

theorem for_same {xs : List Str} (hI : Keeps I xs) {n : Nat} {s₀ : State V W} {σ τ : Nat → Expr} (h : SameHoles I xs s₀ σ τ) {x : Str} {e : Expr}
    {b b' o o' : Block} {l : Live} {s : State V W} (hs : safe xs (.for_ x e b o) l = true) (hl : live (.for_ x e b o) l = true → Agree xs s₀ s)
    (hb : ∀ s, (liveB b { l with normal := liveFor b o l, cont := liveFor b o l, brk := l.normal } = true → Agree xs s₀ s) →
      runB I n (fillB σ b) s = runB I n b' s)
    (ho : ∀ s, (liveB o l = true → Agree xs s₀ s) → runB I n (fillB σ o) s = runB I n o' s) :
    run I n (.for_ x (e.fill σ) (fillB σ b) (fillB σ o)) s = run I n (.for_ x (e.fill τ) b' o') s := by
  rw [run, run, ← eval_same' hI h e s fun hc => hl (by simp [live, hc])]
  have hk := eval_keeps hI (e.fill σ) s
  simp only [safe, Bool.and_eq_true] at hs
  rcases hc : eval I (e.fill σ) s with ⟨_ | v, s'⟩
  · rfl
  · rw [hc] at hk
    have hi := hI.2 v s'
    simp only [andThen]
    rcases hv : I.iter v s' with ⟨_ | vs, s''⟩
    · rfl
    · rw [hv] at hi
      simp only
      refine forLoop_same (xs := xs) (s₀ := s₀) (l := l) (h := liveFor b o l) ?_ ?_ ?_ ?_ vs s'' ?_
      · intro hx
        have := hs.1.1
        rw [Bool.not_eq_true', Bool.and_eq_false_iff] at this
        rcases this with this | this
        · simp [hx] at this
        · rw [Bool.or_eq_false_iff] at this
          exact this.2
      · intro s hs'
        exact runB_keeps hI σ n s₀ b _ s hs.1.2 fun hb => hs' (liveFor_body hb)
      · intro s hs'
        exact hb s fun hh => hs' (liveFor_body hh)
      · intro s hs'
        exact ho s fun hh => hs' (by simp [liveFor, hh])
      · intro hh
        refine ((hl ?_).trans hk).trans hi
        rw [liveFor] at hh
        simp only [live, hh, Bool.or_true]

theorem try_same {xs : List Str} (hI : Keeps I xs) {n : Nat} {s₀ : State V W} {σ : Nat → Expr} {b b' h h' o o' f f' : Block} {l : Live} {s : State V W}
    (hs : safe xs (.try_ b h o f) l = true) (hl : live (.try_ b h o f) l = true → Agree xs s₀ s)
    (hbb : runB I n (fillB σ b) s = runB I n b' s)
    (hhh : ∀ s, (liveB h (l.through (liveB f)) = true → Agree xs s₀ s) → runB I n (fillB σ h) s = runB I n h' s)
    (hoo : ∀ s, (liveB o (l.through (liveB f)) = true → Agree xs s₀ s) → runB I n (fillB σ o) s = runB I n o' s)
    (hff : ∀ (o' : Out V) (s : State V W), (liveB f { l with normal := l.at o' } = true → Agree xs s₀ s) → runB I n (fillB σ f) s = runB I n f' s) :
    run I n (.try_ (fillB σ b) (fillB σ h) (fillB σ o) (fillB σ f)) s = run I n (.try_ b' h' o' f') s := by
  rw [run, run]
  simp only [safe, Bool.and_eq_true] at hs
  obtain ⟨⟨⟨⟨⟨⟨⟨hb, hh⟩, ho⟩, h1⟩, h2⟩, h3⟩, h4⟩, h5⟩ := hs
  have kb := runB_keeps hI σ n s₀ b _ s hb (by rw [live] at hl; exact hl)
  have he := tryExcept_same (l := l.through (liveB f)) kb hbb hhh hoo
  rw [← he]
  refine finally_same (l := l) (f := f) ?_ hff
  exact tryExcept_post (h := h) (o := o) kb (fun s hs' => runB_keeps hI σ n s₀ h _ s hh hs') fun s hs' => runB_keeps hI σ n s₀ o _ s ho hs'

mutual
theorem run_same {xs : List Str} (hI : Keeps I xs) {s₀ : State V W} {σ τ : Nat → Expr} (hσ : SameHoles I xs s₀ σ τ) (n : Nat) :
    ∀ (t : Stmt) (l : Live) (s : State V W), safe xs t l = true → (live t l = true → Agree xs s₀ s) → run I n (t.fill σ) s = run I n (t.fill τ) s
  | .assign x e, l, s, hs, hl => by
    rw [Stmt.fill, Stmt.fill, run, run, eval_same' hI hσ e s fun he => hl (by simp [live, he])]
  | .expr e, l, s, hs, hl => by
    rw [Stmt.fill, Stmt.fill, run, run, eval_same' hI hσ e s fun he => hl (by simp [live, he])]
  | .ret e, l, s, hs, hl => by
    rw [Stmt.fill, Stmt.fill, run, run, eval_same' hI hσ e s fun he => hl (by simp [live, he])]
  | .brk, l, s, hs, hl => rfl
  | .cont, l, s, hs, hl => rfl
  | .if_ c b o, l, s, hs, hl => by
    rw [Stmt.fill, Stmt.fill]
    simp only [safe, Bool.and_eq_true] at hs
    rw [live] at hl
    exact if_same hI hσ hl (fun s h => runB_same hI hσ n b l s hs.1 h) fun s h => runB_same hI hσ n o l s hs.2 h
  | .while_ c b o, l, s, hs, hl => by
    rw [Stmt.fill, Stmt.fill]
    have hs' := hs
    simp only [safe, Bool.and_eq_true] at hs'
    exact while_same hI hσ hs hl (fun s h => runB_same hI hσ n b _ s hs'.1 h) fun s h => runB_same hI hσ n o l s hs'.2 h
  | .for_ x e b o, l, s, hs, hl => by
    rw [Stmt.fill, Stmt.fill]
    have hs' := hs
    simp only [safe, Bool.and_eq_true] at hs'
    exact for_same hI hσ hs hl (fun s h => runB_same hI hσ n b _ s hs'.1.2 h) fun s h => runB_same hI hσ n o l s hs'.2 h
  | .try_ b h o f, l, s, hs, hl => by
    rw [Stmt.fill, Stmt.fill]
    have hs' := hs
    simp only [safe, Bool.and_eq_true] at hs'
    obtain ⟨⟨⟨⟨⟨⟨⟨hb, hh⟩, ho⟩, h1⟩, h2⟩, h3⟩, h4⟩, h5⟩ := hs'
    exact try_same hI hs hl (runB_same hI hσ n b _ s hb (by rw [live] at hl; exact hl)) (fun s hs => runB_same hI hσ n h _ s hh hs)
      (fun s hs => runB_same hI hσ n o _ s ho hs) fun o' s hs => runB_same hI hσ n f _ s (safe_final ⟨h1, h2, h3, h4, h5⟩ o') hs

/-- It does not matter which of two things of the same value a hole is filled with. -/
theorem runB_same {xs : List Str} (hI : Keeps I xs) {s₀ : State V W} {σ τ : Nat → Expr} (hσ : SameHoles I xs s₀ σ τ) (n : Nat) :
    ∀ (ts : List Stmt) (l : Live) (s : State V W), safeB xs ts l = true → (liveB ts l = true → Agree xs s₀ s) →
      runB I n (fillB σ ts) s = runB I n (fillB τ ts) s
  | [], l, s, _, _ => rfl
  | t :: ts, l, s, hs, hl => by
    rw [fillB, fillB, runB, runB]
    simp only [safeB, Bool.and_eq_true] at hs
    rw [liveB] at hl
    rw [← run_same hI hσ n t _ s hs.1 hl]
    exact next_same (run_keeps hI σ n s₀ t _ s hs.1 hl) fun s h => runB_same hI hσ n ts l s hs.2 h
end

end Verif.SimilarIf

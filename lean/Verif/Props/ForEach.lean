import Verif.Props.ForEachRun
import Mathlib.Tactic.ByContra

/-!
**C109** Loops over indices that are reported can be loops over elements.
-/

namespace Verif.ForEach

variable {V H : Type}

/-! ### What is needed of the body -/

/-- What is needed of an expression; `keep` if the rewritten loop assigns to the index as well. -/
def E.fine (i xs v : Str) (keep : Bool) (e : E) : Prop :=
  v ∉ e.names ∧ (keep = true ∨ i ∉ (e.rew i xs v).names) ∧ e.single xs ∧ e.calm xs

def S.fine (i xs v : Str) (keep : Bool) : S → Prop
  | .skip | .brk | .cont => True
  | .expr e | .ret e => e.fine i xs v keep
  | .assign x e => x ≠ i ∧ x ≠ xs ∧ x ≠ v ∧ e ≠ .name xs ∧ e.fine i xs v keep
  | .augName _ x e => x ≠ i ∧ x ≠ xs ∧ x ≠ v ∧ e.fine i xs v keep
  | .assignItem a b e | .augItem _ a b e => a ≠ .name xs ∧ a.fine i xs v keep ∧ b.fine i xs v keep ∧ e.fine i xs v keep
  | .assignAttr _ a e => a ≠ .name xs ∧ a.fine i xs v keep ∧ e.fine i xs v keep
  | .del a b => a ≠ .name xs ∧ a.fine i xs v keep ∧ b.fine i xs v keep
  | .seq s t => s.fine i xs v keep ∧ t.fine i xs v keep
  | .if_ c s t => c.fine i xs v keep ∧ s.fine i xs v keep ∧ t.fine i xs v keep
  | .while_ c s => c.fine i xs v keep ∧ s.fine i xs v keep
  | .for_ x e s => x ≠ i ∧ x ≠ xs ∧ x ≠ v ∧ e.fine i xs v keep ∧ s.fine i xs v keep

/-! ### Simulation -/

/-- The variables during an iteration of both loops. -/
structure Rel (P : Sem V H) (i xs v : Str) (keep : Bool) (l : V) (k : Nat) (a : V) (env env' : Env V) : Prop where
  other : ∀ y, y ≠ i → y ≠ v → env' y = env y
  kept : keep = true → env' i = env i
  list : env xs = some l
  index : env i = some (P.num k)
  element : env' v = some a
  only : ∀ y, y ≠ xs → env y ≠ some l

/-- What holds of an operation: both loops do the same, and the list does not change. -/
def Stays (P : Sem V H) (l : V) (vs : List V) {α : Type} (r r' : Ans V H α) : Prop := r' = r ∧ P.items l r.2 = some vs

theorem Stays.bind {P : Sem V H} {l : V} {vs : List V} {α β : Type} {r r' : Ans V H α} {k k' : α → H → Ans V H β}
    (h : Stays P l vs r r') (hk : ∀ x h1, r = (.ok x, h1) → P.items l h1 = some vs → Stays P l vs (k x h1) (k' x h1)) :
    Stays P l vs (r.bind k) (r'.bind k') := by
  obtain ⟨rfl, hi⟩ := h
  obtain ⟨r, h1⟩ := r'
  cases r with
  | error e => exact ⟨rfl, hi⟩
  | ok x => exact hk x h1 rfl hi

theorem Keeps.stays {P : Sem V H} {l : V} {vs : List V} {h : H} {r : Ans V H V} (hk : Keeps P l h r) (hi : P.items l h = some vs) :
    Stays P l vs r r := ⟨rfl, hk.1.trans hi⟩

theorem Ans.bind_ok {α β : Type} {r : Ans V H α} {k : α → H → Ans V H β} {x : β} {h2 : H} (h : r.bind k = (.ok x, h2)) :
    ∃ y h1, r = (.ok y, h1) ∧ k y h1 = (.ok x, h2) := by
  obtain ⟨r, h1⟩ := r
  cases r with
  | error e => simp [Ans.bind] at h
  | ok y => exact ⟨y, h1, rfl, h⟩

variable {P : Sem V H} {i xs v : Str} {keep : Bool} {l : V} {vs : List V} {k : Nat} {a : V}

/-- Only `xs` itself has the list as its value. -/
theorem eval_ne (hA : Alone P l) {env : Env V} (ho : ∀ y, y ≠ xs → env y ≠ some l) :
    ∀ (e : E) (h : H), e.single xs → e ≠ .name xs → ∀ x h1, eval P env e h = (.ok x, h1) → x ≠ l := by
  intro e
  induction e with
  | name y =>
    intro h _ hn x h1 he
    simp only [eval] at he
    have hy : y ≠ xs := fun hy => hn (by rw [hy])
    cases hv : env y with
    | none => rw [hv] at he; simp [found] at he
    | some b =>
      rw [hv] at he
      simp only [found, Prod.mk.injEq, Except.ok.injEq] at he
      rintro rfl
      exact ho y hy (by rw [hv, he.1])
  | const n =>
    intro h _ _ x h1 he
    simp only [eval, Prod.mk.injEq, Except.ok.injEq] at he
    rw [← he.1]
    exact hA.const n
  | sub a b iha ihb =>
    intro h _ _ x h1 he
    obtain ⟨y, h2, -, he⟩ := Ans.bind_ok he
    obtain ⟨z, h3, -, he⟩ := Ans.bind_ok he
    exact (hA.sub y z h3).2 x (by rw [he])
  | attr m a iha =>
    intro h _ _ x h1 he
    obtain ⟨y, h2, -, he⟩ := Ans.bind_ok he
    exact (hA.attr m y h2).2 x (by rw [he])
  | call f b ihf ihb =>
    intro h _ _ x h1 he
    obtain ⟨y, h2, -, he⟩ := Ans.bind_ok he
    obtain ⟨z, h3, -, he⟩ := Ans.bind_ok he
    exact (hA.call y z h3).2 x (by rw [he])
  | method m a b iha ihb =>
    intro h _ _ x h1 he
    obtain ⟨y, h2, -, he⟩ := Ans.bind_ok he
    obtain ⟨f, h3, -, he⟩ := Ans.bind_ok he
    obtain ⟨z, h4, -, he⟩ := Ans.bind_ok he
    exact (hA.method m y f z h4).2 x (by rw [he])
  | op n a b iha ihb =>
    intro h _ _ x h1 he
    obtain ⟨y, h2, -, he⟩ := Ans.bind_ok he
    obtain ⟨z, h3, -, he⟩ := Ans.bind_ok he
    exact (hA.op n y z h3).2 x (by rw [he])
  | both o a b iha ihb =>
    intro h hs _ x h1 he
    obtain ⟨y, h2, hy, he⟩ := Ans.bind_ok he
    obtain ⟨t, h3, -, he⟩ := Ans.bind_ok he
    split at he
    · simp only [Prod.mk.injEq, Except.ok.injEq] at he
      rw [← he.1]
      exact iha h hs.2.2.1 hs.1 y h2 hy
    · exact ihb h3 hs.2.2.2 hs.2.1 x h1 he
  | ite c a b ihc iha ihb =>
    intro h hs _ x h1 he
    obtain ⟨y, h2, hy, he⟩ := Ans.bind_ok he
    obtain ⟨t, h3, -, he⟩ := Ans.bind_ok he
    split at he
    · exact iha h3 hs.2.2.2.1 hs.1 x h1 he
    · exact ihb h3 hs.2.2.2.2 hs.2.1 x h1 he

theorem fine_two {a b : E} {e e' : E} (hn : e.names = a.names ++ b.names) (hr : e.rew i xs v = e')
    (hn' : e'.names = (a.rew i xs v).names ++ (b.rew i xs v).names) (hs : e.single xs → a.single xs ∧ b.single xs)
    (hc : e.calm xs → a.calm xs ∧ b.calm xs) (h : e.fine i xs v keep) : a.fine i xs v keep ∧ b.fine i xs v keep := by
  obtain ⟨h1, h2, h3, h4⟩ := h
  rw [hn, List.mem_append, not_or] at h1
  rw [hr, hn', List.mem_append, not_or] at h2
  exact ⟨⟨h1.1, h2.imp_right (·.1), (hs h3).1, (hc h4).1⟩, ⟨h1.2, h2.imp_right (·.2), (hs h3).2, (hc h4).2⟩⟩

/-- The value of an expression in both loops. -/
theorem eval_rew (hA : Alone P l) (hI : Indexes P l) (ha : vs[k]? = some a) {env env' : Env V}
    (hR : Rel P i xs v keep l k a env env') :
    ∀ (e : E) (h : H), e.fine i xs v keep → P.items l h = some vs → Stays P l vs (eval P env e h) (eval P env' (e.rew i xs v) h) := by
  intro e
  induction e with
  | name y =>
    intro h hf hi
    obtain ⟨h1, h2, -, -⟩ := hf
    have : env' y = env y := by
      have hyv : y ≠ v := fun hy => h1 (by simp [E.names, hy])
      by_cases hy : y = i
      · rcases h2 with h2 | h2
        · rw [hy]; exact hR.kept h2
        · simp [E.rew, E.names, hy] at h2
      · exact hR.other y hy hyv
    simp only [E.rew, eval, this]
    refine ⟨rfl, ?_⟩
    cases env y <;> exact hi
  | const n => exact fun h _ hi => ⟨rfl, hi⟩
  | sub a b iha ihb =>
    intro h hf hi
    by_cases hp : a = .name xs ∧ b = .name i
    · obtain ⟨rfl, rfl⟩ := hp
      simp only [E.rew, and_self, if_true, eval, found, hR.element, hR.list, hR.index, Ans.bind]
      rw [hI h vs k _ hi ha]
      exact ⟨rfl, hi⟩
    · have hr : (E.sub a b).rew i xs v = .sub (a.rew i xs v) (b.rew i xs v) := by simp only [E.rew, if_neg hp]
      obtain ⟨hfa, hfb⟩ := fine_two (a := a) (b := b) rfl hr rfl id id hf
      rw [hr]
      exact (iha h hfa hi).bind fun x h1 _ h1i => (ihb h1 hfb h1i).bind fun y h2 _ h2i => (hA.sub x y h2).stays h2i
  | attr m a iha =>
    intro h hf hi
    exact (iha h hf hi).bind fun x h1 _ h1i => (hA.attr m x h1).stays h1i
  | call f b ihf ihb =>
    intro h hf hi
    obtain ⟨hfa, hfb⟩ := fine_two (a := f) (b := b) rfl rfl rfl id id hf
    exact (ihf h hfa hi).bind fun x h1 _ h1i => (ihb h1 hfb h1i).bind fun y h2 _ h2i => (hA.call x y h2).stays h2i
  | method m a b iha ihb =>
    intro h hf hi
    obtain ⟨hfa, hfb⟩ := fine_two (e := .method m a b) (a := a) (b := b) rfl rfl rfl id (fun h => h.2) hf
    refine (iha h hfa hi).bind fun x h1 hx h1i => ((hA.attr m x h1).stays h1i).bind fun f h2 _ h2i => (ihb h2 hfb h2i).bind fun y h3 _ h3i => ?_
    refine ⟨rfl, ((hA.method m x f y h3).1 ?_).trans h3i⟩
    by_cases hax : a = .name xs
    · exact .inr (hf.2.2.2.1 hax)
    · exact .inl (eval_ne hA hR.only a h hfa.2.2.1 hax x h1 hx)
  | op n a b iha ihb =>
    intro h hf hi
    obtain ⟨hfa, hfb⟩ := fine_two (a := a) (b := b) rfl rfl rfl id id hf
    exact (iha h hfa hi).bind fun x h1 _ h1i => (ihb h1 hfb h1i).bind fun y h2 _ h2i => (hA.op n x y h2).stays h2i
  | both o a b iha ihb =>
    intro h hf hi
    obtain ⟨hfa, hfb⟩ := fine_two (e := .both o a b) (a := a) (b := b) rfl rfl rfl (fun h => h.2.2) id hf
    refine (iha h hfa hi).bind fun x h1 _ h1i => Stays.bind ⟨rfl, (hA.truth x h1).trans h1i⟩ fun t h2 _ h2i => ?_
    split
    · exact ⟨rfl, h2i⟩
    · exact ihb h2 hfb h2i
  | ite c a b ihc iha ihb =>
    intro h hf hi
    obtain ⟨⟨g1, g2, -, g3⟩, ⟨g4, g5, -, g6⟩⟩ := fine_two (a := c) (b := .op 0 a b) (e := .op 0 c (.op 0 a b)) (xs := xs) (i := i) (v := v) (keep := keep) rfl rfl rfl id id
      ⟨by simpa [E.names] using hf.1, by simpa [E.names, E.rew] using hf.2.1, hf.2.2.1.2.2, hf.2.2.2⟩
    have hs := hf.2.2.1.2.2
    obtain ⟨hfa, hfb⟩ := fine_two (a := a) (b := b) (e := .op 0 a b) (xs := xs) (i := i) (v := v) (keep := keep) rfl rfl rfl id id
      ⟨g4, g5, hs.2, g6⟩
    refine (ihc h ⟨g1, g2, hs.1, g3⟩ hi).bind fun x h1 _ h1i => Stays.bind ⟨rfl, (hA.truth x h1).trans h1i⟩ fun t h2 _ h2i => ?_
    split
    · exact iha h2 hfa h2i
    · exact ihb h2 hfb h2i

/-- What holds of an execution in both loops. -/
def Sim (P : Sem V H) (i xs v : Str) (keep : Bool) (l : V) (vs : List V) (k : Nat) (a : V) : Res V H → Res V H → Prop
  | none, none => True
  | some (o, env, h), some (o', env', h') => o' = o ∧ h' = h ∧ Rel P i xs v keep l k a env env' ∧ P.items l h = some vs
  | _, _ => False

theorem thenDo_sim {env env' : Env V} (hR : Rel P i xs v keep l k a env env') {α : Type} {r r' : Ans V H α} {f f' : α → H → Res V H}
    (h : Stays P l vs r r') (hk : ∀ x h1, r = (.ok x, h1) → P.items l h1 = some vs → Sim P i xs v keep l vs k a (f x h1) (f' x h1)) :
    Sim P i xs v keep l vs k a (thenDo env r f) (thenDo env' r' f') := by
  obtain ⟨rfl, hi⟩ := h
  obtain ⟨r, h1⟩ := r'
  cases r with
  | error e => exact ⟨rfl, rfl, hR, hi⟩
  | ok x => exact hk x h1 rfl hi

theorem Rel.set {env env' : Env V} (hR : Rel P i xs v keep l k a env env') {x : Str} {b : V} (hi : x ≠ i) (hx : x ≠ xs) (hv : x ≠ v) (hb : b ≠ l) :
    Rel P i xs v keep l k a (env.set x b) (env'.set x b) where
  other y h1 h2 := by
    unfold Env.set
    split
    · rfl
    · exact hR.other y h1 h2
  kept h := by simp only [Env.set, if_neg hi.symm]; exact hR.kept h
  list := by simp only [Env.set, if_neg hx.symm]; exact hR.list
  index := by simp only [Env.set, if_neg hi.symm]; exact hR.index
  element := by simp only [Env.set, if_neg hv.symm]; exact hR.element
  only y hy := by
    unfold Env.set
    split
    · exact fun h => hb (Option.some.inj h)
    · exact hR.only y hy

theorem after_sim {r r' : Res V H} {f f' : Env V → H → Res V H} (h : Sim P i xs v keep l vs k a r r')
    (hk : ∀ env env' h, Rel P i xs v keep l k a env env' → P.items l h = some vs → Sim P i xs v keep l vs k a (f env h) (f' env' h)) :
    Sim P i xs v keep l vs k a (after r f) (after r' f') := by
  match r, r', h with
  | none, none, _ => trivial
  | some (o, env, h), some (o', env', h'), hs =>
    obtain ⟨rfl, rfl, hR, hi⟩ := hs
    cases o' with
    | normal => exact hk _ _ _ hR hi
    | cont => exact hk _ _ _ hR hi
    | brk => exact ⟨rfl, rfl, hR, hi⟩
    | ret x => exact ⟨rfl, rfl, hR, hi⟩
    | exc x => exact ⟨rfl, rfl, hR, hi⟩

/-- Statements in both loops. -/
theorem exec_rew (hA : Alone P l) (hI : Indexes P l) (ha : vs[k]? = some a) (fuel : Nat) :
    ∀ (s : S) (env env' : Env V) (h : H), s.fine i xs v keep → Rel P i xs v keep l k a env env' → P.items l h = some vs →
      Sim P i xs v keep l vs k a (exec P fuel s env h) (exec P fuel (s.rew i xs v) env' h) := by
  intro s
  have E1 := fun {env env' : Env V} (hR : Rel P i xs v keep l k a env env') => eval_rew hA hI ha hR
  have N1 := fun {env env' : Env V} (hR : Rel P i xs v keep l k a env env') => eval_ne (env := env) hA hR.only
  induction s with
  | skip => exact fun env env' h _ hR hi => ⟨rfl, rfl, hR, hi⟩
  | brk => exact fun env env' h _ hR hi => ⟨rfl, rfl, hR, hi⟩
  | cont => exact fun env env' h _ hR hi => ⟨rfl, rfl, hR, hi⟩
  | expr e =>
    intro env env' h hf hR hi
    exact thenDo_sim hR (E1 hR e h hf hi) fun x h1 _ h1i => ⟨rfl, rfl, hR, h1i⟩
  | ret e =>
    intro env env' h hf hR hi
    exact thenDo_sim hR (E1 hR e h hf hi) fun x h1 _ h1i => ⟨rfl, rfl, hR, h1i⟩
  | assign x e =>
    intro env env' h hf hR hi
    obtain ⟨hxi, hxx, hxv, he, hf⟩ := hf
    exact thenDo_sim hR (E1 hR e h hf hi) fun b h1 hb h1i => ⟨rfl, rfl, hR.set hxi hxx hxv (N1 hR e h hf.2.2.1 he b h1 hb), h1i⟩
  | assignItem c b e =>
    intro env env' h hf hR hi
    obtain ⟨hc, hfc, hfb, hfe⟩ := hf
    exact thenDo_sim hR (E1 hR e h hfe hi) fun y h1 _ h1i => thenDo_sim hR (E1 hR c h1 hfc h1i) fun x h2 hx h2i =>
      thenDo_sim hR (E1 hR b h2 hfb h2i) fun j h3 _ h3i =>
        thenDo_sim hR ⟨rfl, (hA.setItem x j y h3 (N1 hR c h1 hfc.2.2.1 hc x h2 hx)).trans h3i⟩ fun _ h4 _ h4i => ⟨rfl, rfl, hR, h4i⟩
  | assignAttr m c e =>
    intro env env' h hf hR hi
    obtain ⟨hc, hfc, hfe⟩ := hf
    exact thenDo_sim hR (E1 hR e h hfe hi) fun y h1 _ h1i => thenDo_sim hR (E1 hR c h1 hfc h1i) fun x h2 hx h2i =>
      thenDo_sim hR ⟨rfl, (hA.setAttr m x y h2 (N1 hR c h1 hfc.2.2.1 hc x h2 hx)).trans h2i⟩ fun _ h4 _ h4i => ⟨rfl, rfl, hR, h4i⟩
  | augName n x e =>
    intro env env' h hf hR hi
    obtain ⟨hxi, hxx, hxv, hf⟩ := hf
    have hx : env' x = env x := hR.other x hxi hxv
    refine thenDo_sim hR ⟨by rw [hx], ?_⟩ fun b h1 hb h1i => thenDo_sim hR (E1 hR e h1 hf h1i) fun y h2 _ h2i => ?_
    · cases env x <;> exact hi
    · have hbl : b ≠ l := by
        rintro rfl
        cases hv : env x with
        | none => rw [hv] at hb; simp [found] at hb
        | some d =>
          rw [hv] at hb
          simp only [found, Prod.mk.injEq, Except.ok.injEq] at hb
          exact hR.only x hxx (by rw [hv, hb.1])
      have hk := hA.aug n b y h2 hbl
      exact thenDo_sim hR (hk.stays h2i) fun r h3 hr h3i => ⟨rfl, rfl, hR.set hxi hxx hxv (hk.2 r (by rw [hr])), h3i⟩
  | augItem n c b e =>
    intro env env' h hf hR hi
    obtain ⟨hc, hfc, hfb, hfe⟩ := hf
    refine thenDo_sim hR (E1 hR c h hfc hi) fun x h1 hx h1i => thenDo_sim hR (E1 hR b h1 hfb h1i) fun j h2 _ h2i =>
      thenDo_sim hR ((hA.sub x j h2).stays h2i) fun o h3 ho h3i => thenDo_sim hR (E1 hR e h3 hfe h3i) fun y h4 _ h4i =>
        thenDo_sim hR ((hA.aug n o y h4 ((hA.sub x j h2).2 o (by rw [ho]))).stays h4i) fun r h5 _ h5i =>
          thenDo_sim hR ⟨rfl, (hA.setItem x j r h5 (N1 hR c h hfc.2.2.1 hc x h1 hx)).trans h5i⟩ fun _ h6 _ h6i => ⟨rfl, rfl, hR, h6i⟩
  | del c b =>
    intro env env' h hf hR hi
    obtain ⟨hc, hfc, hfb⟩ := hf
    exact thenDo_sim hR (E1 hR c h hfc hi) fun x h1 hx h1i => thenDo_sim hR (E1 hR b h1 hfb h1i) fun j h2 _ h2i =>
      thenDo_sim hR ⟨rfl, (hA.delItem x j h2 (N1 hR c h hfc.2.2.1 hc x h1 hx)).trans h2i⟩ fun _ h4 _ h4i => ⟨rfl, rfl, hR, h4i⟩
  | seq s t ihs iht =>
    intro env env' h hf hR hi
    have h1 := ihs env env' h hf.1 hR hi
    simp only [S.rew, exec]
    generalize exec P fuel s env h = r at h1
    generalize exec P fuel (s.rew i xs v) env' h = r' at h1
    match r, r', h1 with
    | none, none, _ => trivial
    | some (o, env1, h1), some (o', env1', h1'), hs =>
      obtain ⟨rfl, rfl, hR1, hi1⟩ := hs
      cases o' with
      | normal => exact iht _ _ _ hf.2 hR1 hi1
      | cont => exact ⟨rfl, rfl, hR1, hi1⟩
      | brk => exact ⟨rfl, rfl, hR1, hi1⟩
      | ret x => exact ⟨rfl, rfl, hR1, hi1⟩
      | exc x => exact ⟨rfl, rfl, hR1, hi1⟩
  | if_ c s t ihs iht =>
    intro env env' h hf hR hi
    refine thenDo_sim hR ((E1 hR c h hf.1 hi).bind fun x h1 _ h1i => ⟨rfl, (hA.truth x h1).trans h1i⟩) fun b h1 _ h1i => ?_
    cases b
    · exact iht _ _ _ hf.2.2 hR h1i
    · exact ihs _ _ _ hf.2.1 hR h1i
  | while_ c s ihs =>
    intro env env' h hf hR hi
    suffices H : ∀ n env env' h, Rel P i xs v keep l k a env env' → P.items l h = some vs →
        Sim P i xs v keep l vs k a (whileLoop (fun env h => (eval P env c h).bind P.truth) (exec P fuel s) n env h)
          (whileLoop (fun env h => (eval P env (c.rew i xs v) h).bind P.truth) (exec P fuel (s.rew i xs v)) n env' h) from H fuel env env' h hR hi
    intro n
    induction n with
    | zero => exact fun _ _ _ _ _ => trivial
    | succ n ih =>
      intro env env' h hR hi
      refine thenDo_sim hR ((E1 hR c h hf.1 hi).bind fun x h1 _ h1i => ⟨rfl, (hA.truth x h1).trans h1i⟩) fun b h1 _ h1i => ?_
      cases b
      · exact ⟨rfl, rfl, hR, h1i⟩
      · exact after_sim (ihs _ _ _ hf.2 hR h1i) ih
  | for_ x e s ihs =>
    intro env env' h hf hR hi
    obtain ⟨hxi, hxx, hxv, hfe, hfs⟩ := hf
    refine thenDo_sim hR ((E1 hR e h hfe hi).bind fun x h1 _ h1i => (hA.iter x h1).stays h1i) fun it h1 _ h1i => ?_
    suffices H : ∀ n env env' h, Rel P i xs v keep l k a env env' → P.items l h = some vs →
        Sim P i xs v keep l vs k a (forLoop P it x (exec P fuel s) n env h) (forLoop P it x (exec P fuel (s.rew i xs v)) n env' h) from
      H fuel env env' h1 hR h1i
    intro n
    induction n with
    | zero => exact fun _ _ _ _ _ => trivial
    | succ n ih =>
      intro env env' h hR hi
      refine thenDo_sim hR ⟨rfl, (hA.next it h).1.trans hi⟩ fun b h1 hb h1i => ?_
      cases b with
      | none => exact ⟨rfl, rfl, hR, h1i⟩
      | some d => exact after_sim (ihs _ _ _ hfs (hR.set hxi hxx hxv ((hA.next it h).2 d (by rw [hb]))) h1i) ih

/-- The variables before an iteration of both loops. -/
structure Head (i xs v : Str) (keep : Bool) (l : V) (env env' : Env V) : Prop where
  other : ∀ y, y ≠ i → y ≠ v → env' y = env y
  kept : keep = true → env' i = env i
  list : env xs = some l
  only : ∀ y, y ≠ xs → env y ≠ some l

theorem Rel.head {env env' : Env V} (h : Rel P i xs v keep l k a env env') : Head i xs v keep l env env' := ⟨h.other, h.kept, h.list, h.only⟩

theorem Head.same {env env' : Env V} (hh : Head i xs v keep l env env') (o : Out V) (h : H) :
    SameBut (if keep then [v] else [i, v]) (some (o, env, h)) (some (o, env', h)) := by
  refine ⟨rfl, rfl, fun y hy => ?_⟩
  by_cases hi : y = i
  · cases keep with
    | true => rw [hi]; exact (hh.kept rfl).symm
    | false => simp [hi] at hy
  · refine (hh.other y hi ?_).symm
    rintro rfl
    cases keep <;> simp at hy

/-- What the rewritten loop assigns to. -/
def assigns (P : Sem V H) (i v : Str) (keep : Bool) (k : Nat) (a : V) (env : Env V) : Env V :=
  if keep then (env.set i (P.num k)).set v a else env.set v a

theorem loops_sim (hA : Alone P l) (hI : Indexes P l) (hiv : v ≠ i) (hix : i ≠ xs) (fuel : Nat) {s : S} (hf : s.fine i xs v keep) :
    ∀ (m k : Nat) (steps : Nat) (env env' : Env V) (h : H), k + m = vs.length → m < steps → P.items l h = some vs →
      Head i xs v keep l env env' →
      SameBut (if keep then [v] else [i, v]) (rangeLoop P i (exec P fuel s) (List.range' k m) env h)
        (eachLoop P l (assigns P i v keep) (exec P fuel (s.rew i xs v)) steps k env' h) := by
  intro m
  induction m with
  | zero =>
    intro k steps env env' h hk hs hi hh
    obtain ⟨steps, rfl⟩ : ∃ n, steps = n + 1 := ⟨steps - 1, by omega⟩
    have : vs[k]? = none := List.getElem?_eq_none (by omega)
    simp only [List.range', rangeLoop, eachLoop, hi, Option.getD_some, this, eachNext]
    exact hh.same _ _
  | succ m ih =>
    intro k steps env env' h hk hs hi hh
    obtain ⟨steps, rfl⟩ : ∃ n, steps = n + 1 := ⟨steps - 1, by omega⟩
    obtain ⟨a, ha⟩ : ∃ a, vs[k]? = some a := ⟨vs[k]'(by omega), List.getElem?_eq_getElem (by omega)⟩
    simp only [List.range', rangeLoop, eachLoop, hi, Option.getD_some, ha, eachNext]
    have hR : Rel P i xs v keep l k a (env.set i (P.num k)) (assigns P i v keep k a env') := by
      refine ⟨?_, ?_, ?_, ?_, ?_, ?_⟩
      · intro y h1 h2
        cases keep <;> simp [assigns, Env.set, h1, h2, hh.other]
      · rintro rfl
        simp [assigns, Env.set, hiv.symm]
      · simp [Env.set, hix.symm, hh.list]
      · simp [Env.set]
      · cases keep <;> simp [assigns, Env.set]
      · intro y hy
        unfold Env.set
        split
        · exact fun h => hA.num k (Option.some.inj h)
        · exact hh.only y hy
    have hb := exec_rew hA hI ha fuel s _ _ h hf hR hi
    generalize exec P fuel s (env.set i (P.num k)) h = r at hb
    generalize exec P fuel (s.rew i xs v) (assigns P i v keep k a env') h = r' at hb
    match r, r', hb with
    | none, none, _ => trivial
    | some (o, env1, h1), some (o', env1', h1'), hs1 =>
      obtain ⟨rfl, rfl, hR1, hi1⟩ := hs1
      cases o' with
      | normal => exact ih (k + 1) steps env1 env1' h1' (by omega) (by omega) hi1 hR1.head
      | cont => exact ih (k + 1) steps env1 env1' h1' (by omega) (by omega) hi1 hR1.head
      | brk => exact hR1.head.same _ _
      | ret x => exact hR1.head.same _ _
      | exc x => exact hR1.head.same _ _

/-! ### What the events tell -/

theorem startsWith_nonPure {m : Str} (h : m ∈ listMethods) : nonPure m = true := by
  have : ∀ m ∈ listMethods, nonPure m = true := by decide +kernel
  exact this m h

theorem calm_of_events {ends : Bool} : ∀ (e : E) (p g : Par),
    (∀ ev ∈ evE xs ends p g e, ¬ (ev.kind = .modify ∧ ev.parent = .attr ∧ ev.grand = .call)) → e.calm xs := by
  intro e
  induction e with
  | name x => exact fun _ _ _ => trivial
  | const n => exact fun _ _ _ => trivial
  | sub a b iha ihb =>
    intro p g h
    exact ⟨iha _ _ fun ev hev => h ev (List.mem_append_left _ hev), ihb _ _ fun ev hev => h ev (List.mem_append_right _ hev)⟩
  | attr m a iha => exact fun p g h => iha _ _ fun ev hev => h ev (List.mem_append_right _ hev)
  | call f b ihf ihb =>
    intro p g h
    exact ⟨ihf _ _ fun ev hev => h ev (List.mem_append_left _ hev), ihb _ _ fun ev hev => h ev (List.mem_append_right _ hev)⟩
  | method m a b iha ihb =>
    intro p g h
    refine ⟨?_, iha _ _ fun ev hev => h ev (List.mem_append_left _ (List.mem_append_right _ hev)),
      ihb _ _ fun ev hev => h ev (List.mem_append_right _ hev)⟩
    · rintro rfl hm
      refine h ⟨.modify, .attr, .call, ends⟩ (List.mem_append_left _ (List.mem_append_left _ ?_)) ⟨rfl, rfl, rfl⟩
      simp [startsWith_nonPure hm, strip, stripped]
  | op n a b iha ihb =>
    intro p g h
    exact ⟨iha _ _ fun ev hev => h ev (List.mem_append_left _ hev), ihb _ _ fun ev hev => h ev (List.mem_append_right _ hev)⟩
  | both o a b iha ihb =>
    intro p g h
    exact ⟨iha _ _ fun ev hev => h ev (List.mem_append_left _ hev), ihb _ _ fun ev hev => h ev (List.mem_append_right _ hev)⟩
  | ite c a b ihc iha ihb =>
    intro p g h
    exact ⟨ihc _ _ fun ev hev => h ev (List.mem_append_left _ (List.mem_append_left _ hev)),
      iha _ _ fun ev hev => h ev (List.mem_append_left _ (List.mem_append_right _ hev)), ihb _ _ fun ev hev => h ev (List.mem_append_right _ hev)⟩

/-- If the index is only used in `xs[i]`, it is not in the rewritten expression. -/
theorem gone_of_events {ends : Bool} (hiv : v ≠ i) : ∀ (e : E) (p g : Par), p ≠ .index (.name xs) ∨ e ≠ .name i →
    (∀ ev ∈ evE i ends p g e, ev.parent = .index (.name xs)) → i ∉ (e.rew i xs v).names := by
  intro e
  have two : ∀ {a b : E} {p1 g1 p2 g2 : Par} {l1 l2 l3 : List Ev}, (∀ ev ∈ l1 ++ l2 ++ l3, ev.parent = .index (.name xs)) →
      ((∀ ev ∈ l2, ev.parent = .index (.name xs)) ∧ (∀ ev ∈ l3, ev.parent = .index (.name xs))) :=
    fun h => ⟨fun ev hev => h ev (by simp [hev]), fun ev hev => h ev (by simp [hev])⟩
  induction e with
  | name x =>
    intro p g hp h hm
    simp only [E.rew, E.names, List.mem_singleton] at hm
    subst hm
    exact hp.elim (fun hp => hp (h ⟨.read, p, g, ends⟩ (by simp [evE]))) (fun hp => hp rfl)
  | const n => intro _ _ _ _ hm; cases hm
  | sub a b iha ihb =>
    intro p g _ h
    unfold E.rew
    split
    · simp [E.names, hiv.symm]
    · rename_i hab
      simp only [E.names, List.mem_append, not_or]
      refine ⟨iha _ p (.inl (by simp)) fun ev hev => h ev (List.mem_append_left _ hev),
        ihb (.index a) p ?_ fun ev hev => h ev (List.mem_append_right _ hev)⟩
      by_cases ha : a = .name xs
      · exact .inr fun hb => hab ⟨ha, hb⟩
      · exact .inl (by simpa using ha)
  | attr m a iha => exact fun p g _ h => iha _ p (.inl (by simp)) fun ev hev => h ev (List.mem_append_right _ hev)
  | call a b iha ihb =>
    intro p g _ h
    simp only [E.rew, E.names, List.mem_append, not_or]
    exact ⟨iha _ p (.inl (by simp)) fun ev hev => h ev (List.mem_append_left _ hev),
      ihb _ p (.inl (by simp)) fun ev hev => h ev (List.mem_append_right _ hev)⟩
  | method m a b iha ihb =>
    intro p g _ h
    simp only [E.rew, E.names, List.mem_append, not_or]
    exact ⟨iha _ .call (.inl (by simp)) fun ev hev => h ev (List.mem_append_left _ (List.mem_append_right _ hev)),
      ihb _ p (.inl (by simp)) fun ev hev => h ev (List.mem_append_right _ hev)⟩
  | op n a b iha ihb =>
    intro p g _ h
    simp only [E.rew, E.names, List.mem_append, not_or]
    exact ⟨iha _ p (.inl (by simp)) fun ev hev => h ev (List.mem_append_left _ hev),
      ihb _ p (.inl (by simp)) fun ev hev => h ev (List.mem_append_right _ hev)⟩
  | both o a b iha ihb =>
    intro p g _ h
    simp only [E.rew, E.names, List.mem_append, not_or]
    exact ⟨iha _ p (.inl (by simp)) fun ev hev => h ev (List.mem_append_left _ hev),
      ihb _ p (.inl (by simp)) fun ev hev => h ev (List.mem_append_right _ hev)⟩
  | ite c a b ihc iha ihb =>
    intro p g _ h
    simp only [E.rew, E.names, List.mem_append, not_or]
    exact ⟨⟨ihc _ p (.inl (by simp)) fun ev hev => h ev (List.mem_append_left _ (List.mem_append_left _ hev)),
      iha _ p (.inl (by simp)) fun ev hev => h ev (List.mem_append_left _ (List.mem_append_right _ hev))⟩,
      ihb _ p (.inl (by simp)) fun ev hev => h ev (List.mem_append_right _ hev)⟩

theorem stripped_ends {x : Str} {kd : Kind} {ends : Bool} {o : Option (Str × Par × Par)} {ev : Ev} (h : ev ∈ stripped x kd ends o) :
    ev.ends = ends := by
  match o, h with
  | some (y, p, g), h =>
    simp only [stripped] at h
    split at h
    · rw [List.mem_singleton.mp h]
    · cases h
  | none, h => cases h

theorem evE_ends {x : Str} {ends : Bool} : ∀ (e : E) (p g : Par), ∀ ev ∈ evE x ends p g e, ev.ends = ends := by
  intro e
  induction e with
  | name y =>
    intro p g ev h
    simp only [evE] at h
    split at h
    · rw [List.mem_singleton.mp h]
    · cases h
  | const n => intro p g ev h; cases h
  | attr m a iha =>
    intro p g ev h
    rcases List.mem_append.mp h with h | h
    · split at h
      · exact stripped_ends h
      · cases h
    · exact iha _ _ ev h
  | method m a b iha ihb =>
    intro p g ev h
    rcases List.mem_append.mp h with h | h
    · rcases List.mem_append.mp h with h | h
      · split at h
        · exact stripped_ends h
        · cases h
      · exact iha _ _ ev h
    · exact ihb _ _ ev h
  | sub a b iha ihb => exact fun p g ev h => (List.mem_append.mp h).elim (iha _ _ ev) (ihb _ _ ev)
  | call a b iha ihb => exact fun p g ev h => (List.mem_append.mp h).elim (iha _ _ ev) (ihb _ _ ev)
  | op n a b iha ihb => exact fun p g ev h => (List.mem_append.mp h).elim (iha _ _ ev) (ihb _ _ ev)
  | both o a b iha ihb => exact fun p g ev h => (List.mem_append.mp h).elim (iha _ _ ev) (ihb _ _ ev)
  | ite c a b ihc iha ihb =>
    exact fun p g ev h => (List.mem_append.mp h).elim (fun h => (List.mem_append.mp h).elim (ihc _ _ ev) (iha _ _ ev)) (ihb _ _ ev)

theorem leaves_eq (s : S) : s.leaves = exits s := by
  induction s with
  | seq s t _ iht => exact iht
  | _ => rfl

/-- What the check makes sure of about events of the list. -/
def ListEv (ev : Ev) : Prop :=
  (ev.kind = .read ∨ ev.grand.deep = true) ∧ (ev.ends = false → ¬ (ev.kind = .modify ∧ ev.parent = .attr ∧ ev.grand = .call))

/-- What it makes sure of about events of the index. -/
def IndexEv (xs : Str) (keep : Bool) (ev : Ev) : Prop := ev.kind = .read ∧ (keep = true ∨ ev.parent = .index (.name xs))

theorem expr_fine {ends : Bool} (hiv : v ≠ i) {e : E} {p g : Par} (hX : ∀ ev ∈ evE xs ends p g e, ListEv ev)
    (hJ : ∀ ev ∈ evE i ends p g e, IndexEv xs keep ev) (hp : p ≠ .index (.name xs) ∨ e ≠ .name i ∨ keep = true) (hv : v ∉ e.names)
    (hs : e.single xs) (hl : ends = true → e.calm xs) : e.fine i xs v keep := by
  refine ⟨hv, ?_, hs, ?_⟩
  · cases hk : keep with
    | true => exact .inl rfl
    | false =>
      refine .inr (gone_of_events (ends := ends) hiv e p g ?_ fun ev hev => ?_)
      · rw [hk] at hp
        exact hp.imp_right fun h => h.resolve_right (by simp)
      · have := (hJ ev hev).2
        rw [hk] at this
        exact this.resolve_left (by simp)
  · cases he : ends with
    | true => exact hl he
    | false =>
      subst he
      exact calm_of_events (ends := false) e p g fun ev hev => (hX ev hev).2 (evE_ends e p g ev hev)

theorem item_fine {ends : Bool} (hiv : v ≠ i) {a b : E} (hX : ∀ ev ∈ evItem xs ends a b, ListEv ev)
    (hJ : ∀ ev ∈ evItem i ends a b, IndexEv xs keep ev) (hva : v ∉ a.names) (hvb : v ∉ b.names)
    (hsa : a.single xs) (hsb : b.single xs) (hla : ends = true → a.calm xs) (hlb : ends = true → b.calm xs) :
    a ≠ .name xs ∧ a.fine i xs v keep ∧ b.fine i xs v keep := by
  have hne : a ≠ .name xs := by
    rintro rfl
    have := (hX ⟨.modify, .container b false, .other, ends⟩ (by simp [evItem, strip, stripped])).1
    simp [Par.deep] at this
  refine ⟨hne, ?_, ?_⟩
  · exact expr_fine hiv (fun ev hev => hX ev (List.mem_append_left _ (List.mem_append_left _ hev)))
      (fun ev hev => hJ ev (List.mem_append_left _ (List.mem_append_left _ hev))) (.inl (by simp)) hva hsa hla
  · exact expr_fine hiv (fun ev hev => hX ev (List.mem_append_left _ (List.mem_append_right _ hev)))
      (fun ev hev => hJ ev (List.mem_append_left _ (List.mem_append_right _ hev))) (.inl (by simpa using hne)) hvb hsb hlb

theorem not_assigned {x y : Str} {ends : Bool} {l1 : List Ev} {Q : Ev → Prop} (hQ : ¬ Q ⟨.assign, .other, .other, ends⟩)
    (h : ∀ ev ∈ l1 ++ (if x = y then [⟨.assign, .other, .other, ends⟩] else []), Q ev) : x ≠ y := by
  intro hxy
  exact hQ (h _ (by simp [hxy]))

theorem stmt_fine (hiv : v ≠ i) : ∀ (s : S) (ends : Bool), (∀ ev ∈ evS xs ends s, ListEv ev) → (∀ ev ∈ evS i ends s, IndexEv xs keep ev) →
    v ∉ s.names → s.single xs → s.undeleted xs → s.settled xs ends → s.fine i xs v keep := by
  have hLa : ∀ {ends : Bool}, ¬ ListEv ⟨.assign, .other, .other, ends⟩ := fun h => by simpa [Par.deep] using h.1
  have hIa : ∀ {ends : Bool}, ¬ IndexEv xs keep ⟨.assign, .other, .other, ends⟩ := fun h => by simpa using h.1
  intro s
  induction s with
  | skip => exact fun _ _ _ _ _ _ _ => trivial
  | brk => exact fun _ _ _ _ _ _ _ => trivial
  | cont => exact fun _ _ _ _ _ _ _ => trivial
  | expr e => exact fun ends hX hJ hv hs _ hl => expr_fine hiv hX hJ (.inl (by simp)) hv hs hl
  | ret e => exact fun ends hX hJ hv hs _ hl => expr_fine hiv hX hJ (.inl (by simp)) hv hs hl
  | assign x e =>
    intro ends hX hJ hv hs _ hl
    simp only [S.names, List.mem_cons, not_or] at hv
    exact ⟨not_assigned hIa hJ, not_assigned hLa hX, Ne.symm hv.1, hs.1,
      expr_fine hiv (fun ev hev => hX ev (List.mem_append_left _ hev)) (fun ev hev => hJ ev (List.mem_append_left _ hev)) (.inl (by simp)) hv.2 hs.2 hl⟩
  | assignItem a b e =>
    intro ends hX hJ hv hs _ hl
    simp only [S.names, List.mem_append, not_or] at hv
    obtain ⟨h1, h2, h3⟩ := item_fine hiv (fun ev hev => hX ev (List.mem_append_right _ hev)) (fun ev hev => hJ ev (List.mem_append_right _ hev))
      hv.1.1 hv.1.2 hs.1 hs.2.1 (fun h => (hl h).1) (fun h => (hl h).2.1)
    exact ⟨h1, h2, h3, expr_fine hiv (fun ev hev => hX ev (List.mem_append_left _ hev)) (fun ev hev => hJ ev (List.mem_append_left _ hev))
      (.inl (by simp)) hv.2 hs.2.2 (fun h => (hl h).2.2)⟩
  | assignAttr m a e =>
    intro ends hX hJ hv hs _ hl
    simp only [S.names, List.mem_append, not_or] at hv
    refine ⟨?_, ?_, ?_⟩
    · rintro rfl
      have := (hX ⟨.modify, .other, .other, ends⟩ (by simp [evS, strip, stripped])).1
      simp [Par.deep] at this
    · exact expr_fine hiv (fun ev hev => hX ev (List.mem_append_left _ (List.mem_append_right _ hev)))
        (fun ev hev => hJ ev (List.mem_append_left _ (List.mem_append_right _ hev))) (.inl (by simp)) hv.1 hs.1 (fun h => (hl h).1)
    · exact expr_fine hiv (fun ev hev => hX ev (List.mem_append_left _ (List.mem_append_left _ hev)))
        (fun ev hev => hJ ev (List.mem_append_left _ (List.mem_append_left _ hev))) (.inl (by simp)) hv.2 hs.2 (fun h => (hl h).2)
  | augName n x e =>
    intro ends hX hJ hv hs _ hl
    simp only [S.names, List.mem_cons, not_or] at hv
    exact ⟨not_assigned hIa hJ, not_assigned hLa hX, Ne.symm hv.1,
      expr_fine hiv (fun ev hev => hX ev (List.mem_append_left _ (List.mem_append_right _ hev)))
        (fun ev hev => hJ ev (List.mem_append_left _ (List.mem_append_right _ hev))) (.inl (by simp)) hv.2 hs hl⟩
  | augItem n a b e =>
    intro ends hX hJ hv hs _ hl
    simp only [S.names, List.mem_append, not_or] at hv
    obtain ⟨h1, h2, h3⟩ := item_fine hiv (fun ev hev => hX ev (List.mem_append_right _ hev)) (fun ev hev => hJ ev (List.mem_append_right _ hev))
      hv.1.1 hv.1.2 hs.1 hs.2.1 (fun h => (hl h).1) (fun h => (hl h).2.1)
    exact ⟨h1, h2, h3, expr_fine hiv (fun ev hev => hX ev (List.mem_append_left _ (List.mem_append_right _ hev)))
      (fun ev hev => hJ ev (List.mem_append_left _ (List.mem_append_right _ hev))) (.inl (by simp)) hv.2 hs.2.2 (fun h => (hl h).2.2)⟩
  | del a b =>
    intro ends hX hJ hv hs hd hl
    simp only [S.names, List.mem_append, not_or] at hv
    exact ⟨hd, expr_fine hiv (fun ev hev => hX ev (List.mem_append_left _ hev)) (fun ev hev => hJ ev (List.mem_append_left _ hev))
      (.inl (by simp)) hv.1 hs.1 (fun h => (hl h).1),
      expr_fine hiv (fun ev hev => hX ev (List.mem_append_right _ hev)) (fun ev hev => hJ ev (List.mem_append_right _ hev))
      (.inl fun h => hd (Par.index.inj h)) hv.2 hs.2 (fun h => (hl h).2)⟩
  | seq s t ihs iht =>
    intro ends hX hJ hv hs hd hl
    simp only [S.names, List.mem_append, not_or] at hv
    exact ⟨ihs ends (fun ev hev => hX ev (List.mem_append_left _ hev)) (fun ev hev => hJ ev (List.mem_append_left _ hev)) hv.1 hs.1 hd.1 hl.1,
      iht ends (fun ev hev => hX ev (List.mem_append_right _ hev)) (fun ev hev => hJ ev (List.mem_append_right _ hev)) hv.2 hs.2 hd.2 hl.2⟩
  | if_ c s t ihs iht =>
    intro ends hX hJ hv hs hd hl
    simp only [S.names, List.mem_append, not_or] at hv
    refine ⟨?_, ?_, ?_⟩
    · exact expr_fine hiv (fun ev hev => hX ev (List.mem_append_left _ (List.mem_append_left _ hev)))
        (fun ev hev => hJ ev (List.mem_append_left _ (List.mem_append_left _ hev))) (.inl (by simp)) hv.1.1 hs.1 hl.1
    · exact ihs (exits s) (fun ev hev => hX ev (List.mem_append_left _ (List.mem_append_right _ hev)))
        (fun ev hev => hJ ev (List.mem_append_left _ (List.mem_append_right _ hev))) hv.1.2 hs.2.1 hd.1 (leaves_eq s ▸ hl.2.1)
    · exact iht (exits t) (fun ev hev => hX ev (List.mem_append_right _ hev))
        (fun ev hev => hJ ev (List.mem_append_right _ hev)) hv.2 hs.2.2 hd.2 (leaves_eq t ▸ hl.2.2)
  | while_ c s ihs =>
    intro ends hX hJ hv hs hd hl
    simp only [S.names, List.mem_append, not_or] at hv
    refine ⟨?_, ?_⟩
    · exact expr_fine hiv (fun ev hev => hX ev (List.mem_append_left _ hev))
        (fun ev hev => hJ ev (List.mem_append_left _ hev)) (.inl (by simp)) hv.1 hs.1 hl.1
    · exact ihs (exits s) (fun ev hev => hX ev (List.mem_append_right _ hev))
        (fun ev hev => hJ ev (List.mem_append_right _ hev)) hv.2 hs.2 hd (leaves_eq s ▸ hl.2)
  | for_ x e s ihs =>
    intro ends hX hJ hv hs hd hl
    simp only [S.names, List.cons_append, List.mem_cons, List.mem_append, not_or] at hv
    refine ⟨?_, ?_, Ne.symm hv.1, ?_, ?_⟩
    · rintro rfl
      exact hIa (ends := ends) (hJ _ (List.mem_append_left _ (List.mem_append_left _ (by simp))))
    · rintro rfl
      exact hLa (ends := ends) (hX _ (List.mem_append_left _ (List.mem_append_left _ (by simp))))
    · exact expr_fine hiv (fun ev hev => hX ev (List.mem_append_left _ (List.mem_append_right _ hev)))
        (fun ev hev => hJ ev (List.mem_append_left _ (List.mem_append_right _ hev))) (.inl (by simp)) hv.2.1 hs.1 hl.1
    · exact ihs (exits s) (fun ev hev => hX ev (List.mem_append_right _ hev))
        (fun ev hev => hJ ev (List.mem_append_right _ hev)) hv.2.2 hs.2 hd (leaves_eq s ▸ hl.2)

theorem improve_events {body : S} {r : Report} (h : improve i xs body = some r) :
    (∀ ev ∈ evS xs (exits body) body, ListEv ev) ∧ (∀ ev ∈ evS i (exits body) body, IndexEv xs (decide (r = .enumerate)) ev) := by
  unfold improve at h
  split at h
  · cases h
  · rename_i hn
    simp only [Bool.not_eq_true, Bool.or_eq_false_iff, Bool.not_eq_false'] at hn
    obtain ⟨⟨⟨⟨⟨-, -⟩, -⟩, hm⟩, hd⟩, ha⟩ := hn
    have hX : ∀ ev ∈ evS xs (exits body) body, ListEv ev := by
      intro ev hev
      have h1 := List.any_eq_false.mp ha ev hev
      have h2 := List.any_eq_false.mp hd ev hev
      simp only [Bool.and_eq_true, decide_eq_true_eq, Bool.not_eq_true', not_and, Bool.not_eq_false] at h1
      simp only [Bool.and_eq_true, Bool.or_eq_true, decide_eq_true_eq, Bool.not_eq_true', not_and, Bool.not_eq_false] at h2
      refine ⟨?_, fun he hk => ?_⟩
      · by_cases hk : ev.kind = .read
        · exact .inl hk
        · exact .inr (h1 hk)
      · have := h2 (.inl ⟨⟨hk.1, hk.2.1⟩, hk.2.2⟩)
        rw [he] at this
        cases this
    refine ⟨hX, fun ev hev => ⟨?_, ?_⟩⟩
    · have h1 := List.any_eq_false.mp hm ev hev
      simpa using h1
    · split at h
      · cases h; exact .inl rfl
      · rename_i ho
        refine .inr ?_
        rw [Bool.not_eq_true] at ho
        have h1 := List.any_eq_false.mp ho ev hev
        split at h1
        · rename_i b hb
          simp only [ne_eq, decide_not, Bool.not_eq_true', decide_eq_false_iff_not, Classical.not_not] at h1
          rw [hb, h1]
        · simp at h1

theorem improve_runs {body : S} {r : Report} (h : improve i xs body = some r) (hix : i ≠ xs) (hiv : v ≠ i) (hv : v ∉ body.names)
    (hs : body.single xs) (hd : body.undeleted xs) (hl : body.settled xs body.leaves) (hA : Alone P l) (hI : Indexes P l) (fuel : Nat)
    {env : Env V} {st : H} (hx : env xs = some l) (ho : ∀ y, y ≠ xs → env y ≠ some l) (hi : P.items l st = some vs) {steps : Nat}
    (hst : vs.length < steps) :
    SameBut (if decide (r = .enumerate) then [v] else [i, v]) (runRange P fuel i body vs.length env st)
      (eachLoop P l (assigns P i v (decide (r = .enumerate))) (exec P fuel (body.rew i xs v)) steps 0 env st) := by
  obtain ⟨hX, hJ⟩ := improve_events h
  have hf := stmt_fine (keep := decide (r = .enumerate)) hiv body (exits body) hX hJ hv hs hd (leaves_eq body ▸ hl)
  have := loops_sim (vs := vs) hA hI hiv hix fuel hf vs.length 0 steps env env st (by omega) hst hi ⟨fun _ _ _ => rfl, fun _ => rfl, hx, ho⟩
  rw [runRange, List.range_eq_range']
  exact this

/-- C109 for use-foreach: the loop over the elements in which `xs[i]` is replaced does the same, for all objects, operations and states in which the
list is reached by its name only; only the variables of the loops differ. What is missing are bodies in which the list gets another name, in
which items of it are deleted, or in which it is changed in a block that ends with `break` or `return`: for these, it is false. -/
theorem C109_foreach_partial {body : S} (h : improve i xs body = some .foreach) (hix : i ≠ xs) (hiv : v ≠ i) (hv : v ∉ body.names)
    (hs : body.single xs) (hd : body.undeleted xs) (hl : body.settled xs body.leaves) (hA : Alone P l) (hI : Indexes P l) (fuel : Nat)
    {env : Env V} {st : H} (hx : env xs = some l) (ho : ∀ y, y ≠ xs → env y ≠ some l) (hi : P.items l st = some vs) {steps : Nat}
    (hst : vs.length < steps) :
    SameBut [i, v] (runRange P fuel i body vs.length env st) (runForeach P fuel v l (body.rew i xs v) steps env st) :=
  improve_runs h hix hiv hv hs hd hl hA hI fuel hx ho hi hst

/-- C109 for use-enumerate: likewise, and the index has the same value as well. -/
theorem C109_enumerate_partial {body : S} (h : improve i xs body = some .enumerate) (hix : i ≠ xs) (hiv : v ≠ i) (hv : v ∉ body.names)
    (hs : body.single xs) (hd : body.undeleted xs) (hl : body.settled xs body.leaves) (hA : Alone P l) (hI : Indexes P l) (fuel : Nat)
    {env : Env V} {st : H} (hx : env xs = some l) (ho : ∀ y, y ≠ xs → env y ≠ some l) (hi : P.items l st = some vs) {steps : Nat}
    (hst : vs.length < steps) :
    SameBut [v] (runRange P fuel i body vs.length env st) (runEnumerate P fuel i v l (body.rew i xs v) steps env st) :=
  improve_runs h hix hiv hv hs hd hl hA hI fuel hx ho hi hst

/-! ### What is reported -/

/-- `v` becomes `xs[i]`. -/
def E.put (i xs v : Str) : E → E
  | .name x => if x = v then .sub (.name xs) (.name i) else .name x
  | .const n => .const n
  | .sub a b => .sub (a.put i xs v) (b.put i xs v)
  | .attr m a => .attr m (a.put i xs v)
  | .call f b => .call (f.put i xs v) (b.put i xs v)
  | .method m a b => .method m (a.put i xs v) (b.put i xs v)
  | .op n a b => .op n (a.put i xs v) (b.put i xs v)
  | .both o a b => .both o (a.put i xs v) (b.put i xs v)
  | .ite c a b => .ite (c.put i xs v) (a.put i xs v) (b.put i xs v)

/-- `v` becomes `xs[i]` wherever it is evaluated. -/
def S.put (i xs v : Str) : S → S
  | .skip => .skip
  | .expr e => .expr (e.put i xs v)
  | .assign x e => .assign x (e.put i xs v)
  | .assignItem a b e => .assignItem (a.put i xs v) (b.put i xs v) (e.put i xs v)
  | .assignAttr m a e => .assignAttr m (a.put i xs v) (e.put i xs v)
  | .augName n x e => .augName n x (e.put i xs v)
  | .augItem n a b e => .augItem n (a.put i xs v) (b.put i xs v) (e.put i xs v)
  | .del a b => .del (a.put i xs v) (b.put i xs v)
  | .brk => .brk
  | .cont => .cont
  | .ret e => .ret (e.put i xs v)
  | .seq s t => .seq (s.put i xs v) (t.put i xs v)
  | .if_ c s t => .if_ (c.put i xs v) (s.put i xs v) (t.put i xs v)
  | .while_ c s => .while_ (c.put i xs v) (s.put i xs v)
  | .for_ x e s => .for_ x (e.put i xs v) (s.put i xs v)

/-- The variables assigned to. -/
def S.assigned : S → List Str
  | .assign x _ | .augName _ x _ => [x]
  | .seq s t | .if_ _ s t => s.assigned ++ t.assigned
  | .while_ _ s => s.assigned
  | .for_ x _ s => x :: s.assigned
  | _ => []

/-- No attribute of `v` itself is assigned to. -/
def S.unset (v : Str) : S → Prop
  | .assignAttr _ a _ => a ≠ .name v
  | .seq s t | .if_ _ s t => s.unset v ∧ t.unset v
  | .while_ _ s | .for_ _ _ s => s.unset v
  | _ => True

theorem strip_put (hi : i ≠ xs) : ∀ (e : E) (p g p' g' : Par) (x : Str), xs ∉ e.names → i ∉ e.names → strip p g (e.put i xs v) = some (x, p', g') →
    x ≠ i ∧ (x = xs → p' = .container (.name i) true ∧ (g'.deep = true ∨ (e = .name v ∧ g' = p))) := by
  intro e
  induction e with
  | name y =>
    intro p g p' g' x h1 h2 h
    simp only [E.put] at h
    split at h
    · simp only [strip, Option.some.injEq, Prod.mk.injEq] at h
      obtain ⟨rfl, rfl, rfl⟩ := h
      rename_i hy
      exact ⟨hi.symm, fun _ => ⟨rfl, .inr ⟨by rw [hy], rfl⟩⟩⟩
    · simp only [strip, Option.some.injEq, Prod.mk.injEq] at h
      obtain ⟨rfl, rfl, rfl⟩ := h
      simp only [E.names, List.mem_singleton] at h1 h2
      exact ⟨fun h => h2 h.symm, fun h => (h1 h.symm).elim⟩
  | sub a b iha _ =>
    intro p g p' g' x h1 h2 h
    simp only [E.names, List.mem_append, not_or] at h1 h2
    obtain ⟨h3, h4⟩ := iha _ _ _ _ _ h1.1 h2.1 h
    exact ⟨h3, fun hx => ⟨(h4 hx).1, .inl ((h4 hx).2.elim id fun h => by rw [h.2]; rfl)⟩⟩
  | attr m a iha =>
    intro p g p' g' x h1 h2 h
    obtain ⟨h3, h4⟩ := iha _ _ _ _ _ h1 h2 h
    exact ⟨h3, fun hx => ⟨(h4 hx).1, .inl ((h4 hx).2.elim id fun h => by rw [h.2]; rfl)⟩⟩
  | _ => intro p g p' g' x _ _ h; simp [E.put, strip] at h

/-- The events of the list and of the index, if `xs[i]` was put in. -/
def PutEv (i : Str) (ev : Ev) : Prop := ev.parent = .container (.name i) true ∧ (ev.kind = .read ∨ (ev.kind = .modify ∧ ev.grand.deep = true))

def PutIndex (xs : Str) (ev : Ev) : Prop := ev.parent = .index (.name xs) ∧ ev.kind = .read

theorem stripped_put (hi : i ≠ xs) {e : E} {p g : Par} {ends : Bool} (hx : xs ∉ e.names) (hI : i ∉ e.names) (hp : p.deep = true ∨ e ≠ .name v)
    {kd : Kind} (hk : kd ≠ .assign) :
    (∀ ev ∈ stripped xs kd ends (strip p g (e.put i xs v)), PutEv i ev) ∧ stripped i kd ends (strip p g (e.put i xs v)) = [] := by
  cases hs : strip p g (e.put i xs v) with
  | none => exact ⟨fun ev h => (by cases h), rfl⟩
  | some t =>
    obtain ⟨x, p', g'⟩ := t
    obtain ⟨h1, h2⟩ := strip_put hi e p g p' g' x hx hI hs
    refine ⟨fun ev hev => ?_, by simp [stripped, h1]⟩
    simp only [stripped] at hev
    split at hev
    · rename_i hxx
      rw [List.mem_singleton.mp hev]
      obtain ⟨h3, h4⟩ := h2 hxx
      refine ⟨h3, ?_⟩
      cases kd with
      | read => exact .inl rfl
      | assign => exact (hk rfl).elim
      | modify =>
        refine .inr ⟨rfl, ?_⟩
        rcases h4 with h4 | ⟨h4, h5⟩
        · exact h4
        · rcases hp with hp | hp
          · exact h5 ▸ hp
          · exact (hp h4).elim
    · cases hev

/-- Events of the list and of the index in code with `v`. -/
def Put (i xs : Str) (lx li : List Ev) (occurs : Prop) : Prop :=
  (∀ ev ∈ lx, PutEv i ev) ∧ (∀ ev ∈ li, PutIndex xs ev) ∧ (occurs → ∃ ev ∈ lx, ev.parent = .container (.name i) true)

theorem Put.append {l1 l2 m1 m2 : List Ev} {o1 o2 : Prop} (h1 : Put i xs l1 m1 o1) (h2 : Put i xs l2 m2 o2) :
    Put i xs (l1 ++ l2) (m1 ++ m2) (o1 ∨ o2) := by
  refine ⟨fun ev h => (List.mem_append.mp h).elim (h1.1 ev) (h2.1 ev), fun ev h => (List.mem_append.mp h).elim (h1.2.1 ev) (h2.2.1 ev), ?_⟩
  rintro (h | h)
  · obtain ⟨ev, hev, hp⟩ := h1.2.2 h
    exact ⟨ev, List.mem_append_left _ hev, hp⟩
  · obtain ⟨ev, hev, hp⟩ := h2.2.2 h
    exact ⟨ev, List.mem_append_right _ hev, hp⟩

theorem Put.nil : Put i xs [] [] False := ⟨fun ev h => (by cases h), fun ev h => (by cases h), False.elim⟩

theorem Put.imp {lx li : List Ev} {o o' : Prop} (h : Put i xs lx li o) (ho : o' → o) : Put i xs lx li o' := ⟨h.1, h.2.1, fun h' => h.2.2 (ho h')⟩

theorem put_stripped (hi : i ≠ xs) {e : E} {p g : Par} {ends : Bool} (hx : xs ∉ e.names) (hI : i ∉ e.names) (hp : p.deep = true ∨ e ≠ .name v)
    {kd : Kind} (hk : kd ≠ .assign) :
    Put i xs (stripped xs kd ends (strip p g (e.put i xs v))) (stripped i kd ends (strip p g (e.put i xs v))) False := by
  obtain ⟨h1, h2⟩ := stripped_put (ends := ends) (g := g) hi hx hI hp hk
  rw [h2]
  exact ⟨h1, fun ev h => (by cases h), False.elim⟩

theorem evE_put (hi : i ≠ xs) {ends : Bool} : ∀ (e : E) (p g : Par), xs ∉ e.names → i ∉ e.names →
    Put i xs (evE xs ends p g (e.put i xs v)) (evE i ends p g (e.put i xs v)) (v ∈ e.names) := by
  intro e
  induction e with
  | name x =>
    intro p g hx hI
    simp only [E.names, List.mem_singleton] at hx hI
    simp only [E.put]
    split
    · rename_i hv
      refine ⟨?_, ?_, fun _ => ⟨⟨.read, .container (.name i) true, p, ends⟩, by simp [evE], rfl⟩⟩
      · intro ev hev
        simp [evE, hi] at hev
        rw [hev]
        exact ⟨rfl, .inl rfl⟩
      · intro ev hev
        simp [evE, hi.symm] at hev
        rw [hev]
        exact ⟨rfl, rfl⟩
    · rename_i hv
      refine ⟨?_, ?_, fun h => (hv (by simpa [E.names] using (List.mem_singleton.mp h).symm)).elim⟩
      · intro ev hev; simp [evE, Ne.symm hx] at hev
      · intro ev hev; simp [evE, Ne.symm hI] at hev
  | const n => exact fun p g _ _ => ⟨fun ev h => (by cases h), fun ev h => (by cases h), fun h => (by cases h)⟩
  | attr m a iha =>
    intro p g hx hI
    refine (Put.append (o1 := False) ?_ (iha .attr p hx hI)).imp .inr
    split
    · exact put_stripped (e := a) (p := .attr) (g := p) (kd := .modify) hi hx hI (.inl rfl) (by simp)
    · exact Put.nil
  | method m a b iha ihb =>
    intro p g hx hI
    simp only [E.names, List.mem_append, not_or] at hx hI
    refine (Put.append (Put.append (o1 := False) ?_ (iha .attr .call hx.1 hI.1)) (ihb .call p hx.2 hI.2)).imp ?_
    · split
      · exact put_stripped hi hx.1 hI.1 (.inl rfl) (by simp)
      · exact Put.nil
    · intro h
      exact (List.mem_append.mp h).imp_left .inr
  | sub a b iha ihb =>
    intro p g hx hI
    simp only [E.names, List.mem_append, not_or] at hx hI
    exact ((iha _ _ hx.1 hI.1).append (ihb _ _ hx.2 hI.2)).imp List.mem_append.mp
  | call a b iha ihb =>
    intro p g hx hI
    simp only [E.names, List.mem_append, not_or] at hx hI
    exact ((iha _ _ hx.1 hI.1).append (ihb _ _ hx.2 hI.2)).imp List.mem_append.mp
  | op n a b iha ihb =>
    intro p g hx hI
    simp only [E.names, List.mem_append, not_or] at hx hI
    exact ((iha _ _ hx.1 hI.1).append (ihb _ _ hx.2 hI.2)).imp List.mem_append.mp
  | both o a b iha ihb =>
    intro p g hx hI
    simp only [E.names, List.mem_append, not_or] at hx hI
    exact ((iha _ _ hx.1 hI.1).append (ihb _ _ hx.2 hI.2)).imp List.mem_append.mp
  | ite c a b ihc iha ihb =>
    intro p g hx hI
    simp only [E.names, List.mem_append, not_or] at hx hI
    exact (((ihc _ _ hx.1.1 hI.1.1).append (iha _ _ hx.1.2 hI.1.2)).append (ihb _ _ hx.2 hI.2)).imp
      fun h => (List.mem_append.mp h).imp_left List.mem_append.mp

theorem evItem_put (hi : i ≠ xs) {ends : Bool} {a b : E} (hxa : xs ∉ a.names) (hIa : i ∉ a.names) (hxb : xs ∉ b.names) (hIb : i ∉ b.names) :
    Put i xs (evItem xs ends (a.put i xs v) (b.put i xs v)) (evItem i ends (a.put i xs v) (b.put i xs v)) (v ∈ a.names ∨ v ∈ b.names) :=
  (((evE_put hi a _ _ hxa hIa).append (evE_put hi b _ _ hxb hIb)).append (put_stripped hi hxa hIa (.inl rfl) (by simp))).imp .inl

theorem put_assign {x : Str} {ends : Bool} (hx : x ≠ xs) (hI : x ≠ i) :
    Put i xs (if x = xs then [⟨.assign, .other, .other, ends⟩] else []) (if x = i then [⟨.assign, .other, .other, ends⟩] else []) False := by
  rw [if_neg hx, if_neg hI]
  exact Put.nil

theorem exits_put (s : S) : exits (s.put i xs v) = exits s := by
  induction s with
  | seq s t _ iht => exact iht
  | _ => rfl

theorem evS_put (hi : i ≠ xs) : ∀ (s : S) (ends : Bool), xs ∉ s.names → i ∉ s.names → v ∉ s.assigned → s.unset v →
    Put i xs (evS xs ends (s.put i xs v)) (evS i ends (s.put i xs v)) (v ∈ s.names) := by
  intro s
  induction s with
  | skip => exact fun _ _ _ _ _ => Put.nil.imp fun h => (by cases h)
  | brk => exact fun _ _ _ _ _ => Put.nil.imp fun h => (by cases h)
  | cont => exact fun _ _ _ _ _ => Put.nil.imp fun h => (by cases h)
  | expr e => exact fun ends hx hI _ _ => evE_put hi e _ _ hx hI
  | ret e => exact fun ends hx hI _ _ => evE_put hi e _ _ hx hI
  | assign x e =>
    intro ends hx hI ha _
    simp only [S.names, List.mem_cons, not_or, S.assigned, List.not_mem_nil, or_false] at hx hI ha
    refine ((evE_put hi e _ _ hx.2 hI.2).append (put_assign (Ne.symm hx.1) (Ne.symm hI.1))).imp fun h => ?_
    exact .inl ((List.mem_cons.mp h).resolve_left ha)
  | assignItem a b e =>
    intro ends hx hI ha _
    simp only [S.names, List.mem_append, not_or] at hx hI
    refine ((evE_put hi e _ _ hx.2 hI.2).append (evItem_put hi hx.1.1 hI.1.1 hx.1.2 hI.1.2)).imp fun h => ?_
    simpa [S.names, or_comm, or_assoc] using h
  | assignAttr m a e =>
    intro ends hx hI ha hu
    simp only [S.names, List.mem_append, not_or] at hx hI
    refine (((evE_put hi e _ _ hx.2 hI.2).append (evE_put hi a _ _ hx.1 hI.1)).append (put_stripped hi hx.1 hI.1 (.inr hu) (by simp))).imp fun h => ?_
    simpa [S.names, or_comm, or_assoc] using h
  | augName n x e =>
    intro ends hx hI ha _
    simp only [S.names, List.mem_cons, not_or, S.assigned, List.not_mem_nil, or_false] at hx hI ha
    refine ((Put.append (o1 := False) ?_ (evE_put hi e _ _ hx.2 hI.2)).append (put_assign (Ne.symm hx.1) (Ne.symm hI.1))).imp fun h => ?_
    · rw [if_neg (Ne.symm hx.1), if_neg (Ne.symm hI.1)]
      exact Put.nil
    · exact .inl (.inr ((List.mem_cons.mp h).resolve_left ha))
  | augItem n a b e =>
    intro ends hx hI ha _
    simp only [S.names, List.mem_append, not_or] at hx hI
    refine (((put_stripped hi hx.1.1 hI.1.1 (.inl rfl) (by simp)).append (evE_put hi e _ _ hx.2 hI.2)).append
      (evItem_put hi hx.1.1 hI.1.1 hx.1.2 hI.1.2)).imp fun h => ?_
    simpa [S.names, or_comm, or_assoc] using h
  | del a b =>
    intro ends hx hI ha _
    simp only [S.names, List.mem_append, not_or] at hx hI
    exact ((evE_put hi a _ _ hx.1 hI.1).append (evE_put hi b _ _ hx.2 hI.2)).imp List.mem_append.mp
  | seq s t ihs iht =>
    intro ends hx hI ha hu
    simp only [S.names, S.assigned, List.mem_append, not_or] at hx hI ha
    exact ((ihs _ hx.1 hI.1 ha.1 hu.1).append (iht _ hx.2 hI.2 ha.2 hu.2)).imp List.mem_append.mp
  | if_ c s t ihs iht =>
    intro ends hx hI ha hu
    simp only [S.names, S.assigned, List.mem_append, not_or] at hx hI ha
    simp only [S.put, evS, exits_put]
    exact (((evE_put hi c _ _ hx.1.1 hI.1.1).append (ihs _ hx.1.2 hI.1.2 ha.1 hu.1)).append (iht _ hx.2 hI.2 ha.2 hu.2)).imp
      fun h => (List.mem_append.mp h).imp_left List.mem_append.mp
  | while_ c s ihs =>
    intro ends hx hI ha hu
    simp only [S.names, List.mem_append, not_or] at hx hI
    simp only [S.put, evS, exits_put]
    exact ((evE_put hi c _ _ hx.1 hI.1).append (ihs _ hx.2 hI.2 ha hu)).imp List.mem_append.mp
  | for_ x e s ihs =>
    intro ends hx hI ha hu
    simp only [S.names, S.assigned, List.cons_append, List.mem_cons, List.mem_append, not_or] at hx hI ha
    simp only [S.put, evS, exits_put]
    refine (((put_assign (Ne.symm hx.1) (Ne.symm hI.1)).append (evE_put hi e _ _ hx.2.1 hI.2.1)).append (ihs _ hx.2.2 hI.2.2 ha.2 hu)).imp fun h => ?_
    simp only [S.names, List.cons_append, List.mem_cons, List.mem_append] at h
    exact (h.resolve_left ha.1).imp_left .inr

/-- C109: every loop over elements whose body uses the element, which assigns neither to it nor to its attributes, is reported if it is written
with indices. -/
theorem C109_reported {body : S} (hix : i ≠ xs) (hx : xs ∉ body.names) (hI : i ∉ body.names) (hv : v ∈ body.names) (ha : v ∉ body.assigned)
    (hu : body.unset v) : improve i xs (body.put i xs v) = some .foreach := by
  obtain ⟨h1, h2, h3⟩ := evS_put hix body (exits (body.put i xs v)) hx hI ha hu
  have hr : structureRead (evBody xs (body.put i xs v)) = true := by
    obtain ⟨ev, hev, hp⟩ := h3 hv
    exact List.any_eq_true.mpr ⟨ev, hev, by rw [hp]⟩
  have hj : indexedJustBy i (evBody xs (body.put i xs v)) = true :=
    List.all_eq_true.mpr fun ev hev => by rw [(h1 ev hev).1]; simp
  have hf : indexJustFor xs (evBody i (body.put i xs v)) = true :=
    List.all_eq_true.mpr fun ev hev => by rw [(h2 ev hev).1]; simp
  have hm : indexModified (evBody i (body.put i xs v)) = false :=
    List.any_eq_false.mpr fun ev hev => by simp [(h2 ev hev).2]
  have hd : directlyModified (evBody xs (body.put i xs v)) = false :=
    List.any_eq_false.mpr fun ev hev => by
      obtain ⟨hp, hk⟩ := h1 ev hev
      rcases hk with hk | hk <;> simp [hp, hk]
  have hs : assignedInto (evBody xs (body.put i xs v)) = false :=
    List.any_eq_false.mpr fun ev hev => by
      obtain ⟨hp, hk⟩ := h1 ev hev
      rcases hk with hk | hk <;> simp [hk]
  have ho : indexOutside xs (evBody i (body.put i xs v)) = false :=
    List.any_eq_false.mpr fun ev hev => by rw [(h2 ev hev).1]; simp
  simp [improve, hr, hj, hf, hm, hd, hs, ho]

/-- The subscripts `a[b]` that are evaluated. -/
def E.subs : E → List (E × E)
  | .name _ | .const _ => []
  | .attr _ a => a.subs
  | .sub a b => (a, b) :: (a.subs ++ b.subs)
  | .call a b | .method _ a b | .op _ a b | .both _ a b => a.subs ++ b.subs
  | .ite c a b => c.subs ++ a.subs ++ b.subs

def S.subs : S → List (E × E)
  | .skip | .brk | .cont => []
  | .expr e | .ret e | .assign _ e | .augName _ _ e => e.subs
  | .assignItem a b e | .augItem _ a b e => e.subs ++ a.subs ++ b.subs
  | .assignAttr _ a e => e.subs ++ a.subs
  | .del a b => a.subs ++ b.subs
  | .seq s t => s.subs ++ t.subs
  | .if_ c s t => c.subs ++ s.subs ++ t.subs
  | .while_ c s => c.subs ++ s.subs
  | .for_ _ e s => e.subs ++ s.subs

/-- The subscripts `a[b]` that are assigned to or deleted. -/
def S.targets : S → List (E × E)
  | .assignItem a b _ | .augItem _ a b _ | .del a b => [(a, b)]
  | .seq s t | .if_ _ s t => s.targets ++ t.targets
  | .while_ _ s | .for_ _ _ s => s.targets
  | _ => []

/-- Each subscript of the variable and by the variable is seen by an event. -/
theorem evE_subs {x : Str} {ends : Bool} : ∀ (e : E) (p g : Par) (a b : E), (a, b) ∈ e.subs →
    (a = .name x → ∃ ev ∈ evE x ends p g e, ev.parent = .container b true) ∧ (b = .name x → ∃ ev ∈ evE x ends p g e, ev.parent = .index a) := by
  have L : ∀ {l l1 l2 : List Ev} {q r : Prop} {p1 p2 : Par}, (∀ ev ∈ l, ev ∈ l1) →
      ((q → ∃ ev ∈ l, ev.parent = p1) ∧ (r → ∃ ev ∈ l, ev.parent = p2)) →
      (q → ∃ ev ∈ l1, ev.parent = p1) ∧ (r → ∃ ev ∈ l1, ev.parent = p2) := by
    intro l l1 _ q r p1 p2 hs h
    exact ⟨fun hq => let ⟨ev, h1, h2⟩ := h.1 hq; ⟨ev, hs ev h1, h2⟩, fun hq => let ⟨ev, h1, h2⟩ := h.2 hq; ⟨ev, hs ev h1, h2⟩⟩
  intro e
  induction e with
  | name y => intro p g a b h; cases h
  | const n => intro p g a b h; cases h
  | attr m c ih => exact fun p g a b h => L (l2 := []) (fun ev h => List.mem_append_right _ h) (ih .attr p a b h)
  | sub c d ihc ihd =>
    intro p g a b h
    rcases List.mem_cons.mp h with h | h
    · cases h
      refine ⟨?_, ?_⟩
      · rintro rfl
        exact ⟨⟨.read, .container d true, p, ends⟩, by simp [evE], rfl⟩
      · rintro rfl
        exact ⟨⟨.read, .index c, p, ends⟩, by simp [evE], rfl⟩
    · rcases List.mem_append.mp h with h | h
      · exact L (l2 := []) (fun ev h => List.mem_append_left _ h) (ihc _ p a b h)
      · exact L (l2 := []) (fun ev h => List.mem_append_right _ h) (ihd _ p a b h)
  | call c d ihc ihd =>
    intro p g a b h
    rcases List.mem_append.mp h with h | h
    · exact L (l2 := []) (fun ev h => List.mem_append_left _ h) (ihc _ p a b h)
    · exact L (l2 := []) (fun ev h => List.mem_append_right _ h) (ihd _ p a b h)
  | method m c d ihc ihd =>
    intro p g a b h
    rcases List.mem_append.mp h with h | h
    · exact L (l2 := []) (fun ev h => List.mem_append_left _ (List.mem_append_right _ h)) (ihc _ .call a b h)
    · exact L (l2 := []) (fun ev h => List.mem_append_right _ h) (ihd _ p a b h)
  | op n c d ihc ihd =>
    intro p g a b h
    rcases List.mem_append.mp h with h | h
    · exact L (l2 := []) (fun ev h => List.mem_append_left _ h) (ihc _ p a b h)
    · exact L (l2 := []) (fun ev h => List.mem_append_right _ h) (ihd _ p a b h)
  | both o c d ihc ihd =>
    intro p g a b h
    rcases List.mem_append.mp h with h | h
    · exact L (l2 := []) (fun ev h => List.mem_append_left _ h) (ihc _ p a b h)
    · exact L (l2 := []) (fun ev h => List.mem_append_right _ h) (ihd _ p a b h)
  | ite t c d iht ihc ihd =>
    intro p g a b h
    rcases List.mem_append.mp h with h | h
    · rcases List.mem_append.mp h with h | h
      · exact L (l2 := []) (fun ev h => List.mem_append_left _ (List.mem_append_left _ h)) (iht _ p a b h)
      · exact L (l2 := []) (fun ev h => List.mem_append_left _ (List.mem_append_right _ h)) (ihc _ p a b h)
    · exact L (l2 := []) (fun ev h => List.mem_append_right _ h) (ihd _ p a b h)

/-- An event that is in a list: what is needed of it. -/
def Seen (x : Str) (a b : E) (l : List Ev) : Prop :=
  (a = .name x → ∃ ev ∈ l, ∃ load, ev.parent = .container b load) ∧ (b = .name x → ∃ ev ∈ l, ev.parent = .index a)

theorem Seen.left {x : Str} {a b : E} {l m : List Ev} (h : Seen x a b l) : Seen x a b (l ++ m) :=
  ⟨fun hq => let ⟨ev, h1, h2⟩ := h.1 hq; ⟨ev, List.mem_append_left _ h1, h2⟩, fun hq => let ⟨ev, h1, h2⟩ := h.2 hq; ⟨ev, List.mem_append_left _ h1, h2⟩⟩

theorem Seen.right {x : Str} {a b : E} {l m : List Ev} (h : Seen x a b m) : Seen x a b (l ++ m) :=
  ⟨fun hq => let ⟨ev, h1, h2⟩ := h.1 hq; ⟨ev, List.mem_append_right _ h1, h2⟩, fun hq => let ⟨ev, h1, h2⟩ := h.2 hq; ⟨ev, List.mem_append_right _ h1, h2⟩⟩

theorem seen_expr {x : Str} {ends : Bool} {e : E} {p g : Par} {a b : E} (h : (a, b) ∈ e.subs) : Seen x a b (evE x ends p g e) := by
  obtain ⟨h1, h2⟩ := evE_subs (x := x) (ends := ends) e p g a b h
  exact ⟨fun hq => let ⟨ev, h3, h4⟩ := h1 hq; ⟨ev, h3, true, h4⟩, h2⟩

theorem seen_target {x : Str} {ends : Bool} {a b : E} :
    Seen x a b (evE x ends (.container b false) .other a ++ evE x ends (.index a) .other b) := by
  refine ⟨?_, ?_⟩
  · rintro rfl
    exact ⟨⟨.read, .container b false, .other, ends⟩, by simp [evE], false, rfl⟩
  · rintro rfl
    exact ⟨⟨.read, .index a, .other, ends⟩, by simp [evE], rfl⟩

theorem seen_item {x : Str} {ends : Bool} {a b c d : E} (h : (a, b) = (c, d) ∨ (a, b) ∈ c.subs ∨ (a, b) ∈ d.subs) :
    Seen x a b (evItem x ends c d) := by
  refine Seen.left ?_
  rcases h with h | h | h
  · cases h; exact seen_target
  · exact (seen_expr h).left
  · exact (seen_expr h).right

theorem seen_stmt {x : Str} {a b : E} : ∀ (s : S) (ends : Bool), (a, b) ∈ s.subs ∨ (a, b) ∈ s.targets → Seen x a b (evS x ends s) := by
  intro s
  induction s with
  | skip => intro ends h; simp [S.subs, S.targets] at h
  | brk => intro ends h; simp [S.subs, S.targets] at h
  | cont => intro ends h; simp [S.subs, S.targets] at h
  | expr e => intro ends h; simp only [S.subs, S.targets, List.not_mem_nil, or_false] at h; exact seen_expr h
  | ret e => intro ends h; simp only [S.subs, S.targets, List.not_mem_nil, or_false] at h; exact seen_expr h
  | assign y e => intro ends h; simp only [S.subs, S.targets, List.not_mem_nil, or_false] at h; exact (seen_expr h).left
  | augName n y e => intro ends h; simp only [S.subs, S.targets, List.not_mem_nil, or_false] at h; exact (seen_expr h).right.left
  | assignItem c d e =>
    intro ends h
    simp only [S.subs, S.targets, List.mem_append, List.mem_singleton] at h
    rcases h with ((h | h) | h) | h
    · exact (seen_expr h).left
    · exact (seen_item (.inr (.inl h))).right
    · exact (seen_item (.inr (.inr h))).right
    · exact (seen_item (.inl h)).right
  | augItem n c d e =>
    intro ends h
    simp only [S.subs, S.targets, List.mem_append, List.mem_singleton] at h
    rcases h with ((h | h) | h) | h
    · exact (seen_expr h).right.left
    · exact (seen_item (.inr (.inl h))).right
    · exact (seen_item (.inr (.inr h))).right
    · exact (seen_item (.inl h)).right
  | assignAttr m c e =>
    intro ends h
    simp only [S.subs, S.targets, List.not_mem_nil, or_false, List.mem_append] at h
    rcases h with h | h
    · exact (seen_expr h).left.left
    · exact (seen_expr h).right.left
  | del c d =>
    intro ends h
    simp only [S.subs, S.targets, List.mem_append, List.mem_singleton] at h
    rcases h with (h | h) | h
    · exact (seen_expr h).left
    · exact (seen_expr h).right
    · cases h; exact seen_target
  | seq s t ihs iht =>
    intro ends h
    simp only [S.subs, S.targets, List.mem_append] at h
    rcases h with (h | h) | (h | h)
    · exact (ihs _ (.inl h)).left
    · exact (iht _ (.inl h)).right
    · exact (ihs _ (.inr h)).left
    · exact (iht _ (.inr h)).right
  | if_ c s t ihs iht =>
    intro ends h
    simp only [S.subs, S.targets, List.mem_append] at h
    rcases h with ((h | h) | h) | (h | h)
    · exact (seen_expr h).left.left
    · exact (ihs _ (.inl h)).right.left
    · exact (iht _ (.inl h)).right
    · exact (ihs _ (.inr h)).right.left
    · exact (iht _ (.inr h)).right
  | while_ c s ihs =>
    intro ends h
    simp only [S.subs, S.targets, List.mem_append] at h
    rcases h with (h | h) | h
    · exact (seen_expr h).left
    · exact (ihs _ (.inl h)).right
    · exact (ihs _ (.inr h)).right
  | for_ y e s ihs =>
    intro ends h
    simp only [S.subs, S.targets, List.mem_append] at h
    rcases h with (h | h) | h
    · exact (seen_expr h).right.left
    · exact (ihs _ (.inl h)).right
    · exact (ihs _ (.inr h)).right

/-- Where a loaded container comes from. -/
theorem strip_subs {x : Str} {b : E} : ∀ (e : E) (p g g' : Par), strip p g e = some (x, .container b true, g') →
    (p = .container b true ∧ e = .name x) ∨ (.name x, b) ∈ e.subs := by
  intro e
  induction e with
  | name y =>
    intro p g g' h
    simp only [strip, Option.some.injEq, Prod.mk.injEq] at h
    exact .inl ⟨h.2.1, by rw [h.1]⟩
  | sub c d ihc _ =>
    intro p g g' h
    rcases ihc _ _ _ h with ⟨h1, h2⟩ | h1
    · simp only [Par.container.injEq, and_true] at h1
      exact .inr (by simp [E.subs, h1, h2])
    · exact .inr (by simp [E.subs, h1])
  | attr m c ih =>
    intro p g g' h
    rcases ih _ _ _ h with ⟨h1, -⟩ | h1
    · cases h1
    · exact .inr h1
  | _ => intro p g g' h; simp [strip] at h

theorem stripped_subs {x : Str} {b : E} {kd : Kind} {ends : Bool} {e : E} {p g : Par} (hp : p ≠ .container b true) {ev : Ev}
    (h : ev ∈ stripped x kd ends (strip p g e)) (hc : ev.parent = .container b true) : (.name x, b) ∈ e.subs := by
  cases hs : strip p g e with
  | none => rw [hs] at h; cases h
  | some t =>
    obtain ⟨y, p', g'⟩ := t
    rw [hs] at h
    simp only [stripped] at h
    split at h
    · rename_i hy
      rw [List.mem_singleton.mp h] at hc
      simp only at hc
      subst hy hc
      exact (strip_subs e p g g' hs).resolve_left fun h => hp h.1
    · cases h

theorem loads_expr {x : Str} {b : E} {ends : Bool} : ∀ (e : E) (p g : Par), ∀ ev ∈ evE x ends p g e, ev.parent = .container b true →
    (p = .container b true ∧ e = .name x) ∨ (.name x, b) ∈ e.subs := by
  intro e
  induction e with
  | name y =>
    intro p g ev h hc
    simp only [evE] at h
    split at h
    · rename_i hy
      rw [List.mem_singleton.mp h] at hc
      exact .inl ⟨hc, by rw [hy]⟩
    · cases h
  | const n => intro p g ev h; cases h
  | attr m c ih =>
    intro p g ev h hc
    rcases List.mem_append.mp h with h | h
    · split at h
      · exact .inr (stripped_subs (e := c) (by simp) h hc)
      · cases h
    · exact .inr ((ih _ _ ev h hc).resolve_left fun h => by cases h.1)
  | sub c d ihc ihd =>
    intro p g ev h hc
    rcases List.mem_append.mp h with h | h
    · rcases ihc _ _ ev h hc with ⟨h1, h2⟩ | h1
      · simp only [Par.container.injEq, and_true] at h1
        exact .inr (by simp [E.subs, h1, h2])
      · exact .inr (by simp [E.subs, h1])
    · have := (ihd _ _ ev h hc).resolve_left fun h => by cases h.1
      exact .inr (by simp [E.subs, this])
  | method m c d ihc ihd =>
    intro p g ev h hc
    rcases List.mem_append.mp h with h | h
    · rcases List.mem_append.mp h with h | h
      · split at h
        · exact .inr (List.mem_append_left _ (stripped_subs (e := c) (by simp) h hc))
        · cases h
      · exact .inr (List.mem_append_left _ ((ihc _ _ ev h hc).resolve_left fun h => by cases h.1))
    · exact .inr (List.mem_append_right _ ((ihd _ _ ev h hc).resolve_left fun h => by cases h.1))
  | call c d ihc ihd =>
    intro p g ev h hc
    rcases List.mem_append.mp h with h | h
    · exact .inr (List.mem_append_left _ ((ihc _ _ ev h hc).resolve_left fun h => by cases h.1))
    · exact .inr (List.mem_append_right _ ((ihd _ _ ev h hc).resolve_left fun h => by cases h.1))
  | op n c d ihc ihd =>
    intro p g ev h hc
    rcases List.mem_append.mp h with h | h
    · exact .inr (List.mem_append_left _ ((ihc _ _ ev h hc).resolve_left fun h => by cases h.1))
    · exact .inr (List.mem_append_right _ ((ihd _ _ ev h hc).resolve_left fun h => by cases h.1))
  | both n c d ihc ihd =>
    intro p g ev h hc
    rcases List.mem_append.mp h with h | h
    · exact .inr (List.mem_append_left _ ((ihc _ _ ev h hc).resolve_left fun h => by cases h.1))
    · exact .inr (List.mem_append_right _ ((ihd _ _ ev h hc).resolve_left fun h => by cases h.1))
  | ite t c d iht ihc ihd =>
    intro p g ev h hc
    rcases List.mem_append.mp h with h | h
    · rcases List.mem_append.mp h with h | h
      · exact .inr (List.mem_append_left _ (List.mem_append_left _ ((iht _ _ ev h hc).resolve_left fun h => by cases h.1)))
      · exact .inr (List.mem_append_left _ (List.mem_append_right _ ((ihc _ _ ev h hc).resolve_left fun h => by cases h.1)))
    · exact .inr (List.mem_append_right _ ((ihd _ _ ev h hc).resolve_left fun h => by cases h.1))

theorem loads_item {x : Str} {b : E} {ends : Bool} {c d : E} {ev : Ev} (h : ev ∈ evItem x ends c d) (hc : ev.parent = .container b true) :
    (.name x, b) ∈ c.subs ∨ (.name x, b) ∈ d.subs := by
  rcases List.mem_append.mp h with h | h
  · rcases List.mem_append.mp h with h | h
    · exact .inl ((loads_expr _ _ _ ev h hc).resolve_left fun h => by simp at h)
    · exact .inr ((loads_expr _ _ _ ev h hc).resolve_left fun h => by simp at h)
  · exact .inl (stripped_subs (e := c) (by simp) h hc)

theorem loads_stmt {x : Str} {b : E} : ∀ (s : S) (ends : Bool), ∀ ev ∈ evS x ends s, ev.parent = .container b true → (.name x, b) ∈ s.subs := by
  have X : ∀ {e : E} {ends : Bool} {g : Par} {ev : Ev}, ev ∈ evE x ends .other g e → ev.parent = .container b true → (.name x, b) ∈ e.subs :=
    fun h hc => (loads_expr _ _ _ _ h hc).resolve_left fun h => by simp at h
  have A : ∀ {q : Prop} [Decidable q] {k : Kind} {ends : Bool} {ev : Ev}, ev ∈ (if q then [(⟨k, .other, .other, ends⟩ : Ev)] else []) →
      ev.parent = .container b true → False := by
    intro q _ k ends ev h hc
    split at h
    · rw [List.mem_singleton.mp h] at hc; cases hc
    · cases h
  intro s
  induction s with
  | skip => intro ends ev h; cases h
  | brk => intro ends ev h; cases h
  | cont => intro ends ev h; cases h
  | expr e => exact fun ends ev h hc => X h hc
  | ret e => exact fun ends ev h hc => X h hc
  | assign y e => exact fun ends ev h hc => (List.mem_append.mp h).elim (fun h => X h hc) (fun h => (A h hc).elim)
  | augName n y e =>
    exact fun ends ev h hc => (List.mem_append.mp h).elim (fun h => (List.mem_append.mp h).elim (fun h => (A h hc).elim) (fun h => X h hc))
      (fun h => (A h hc).elim)
  | assignItem c d e =>
    intro ends ev h hc
    rcases List.mem_append.mp h with h | h
    · simp [S.subs, X h hc]
    · rcases loads_item h hc with h | h <;> simp [S.subs, h]
  | augItem n c d e =>
    intro ends ev h hc
    rcases List.mem_append.mp h with h | h
    · rcases List.mem_append.mp h with h | h
      · simp [S.subs, stripped_subs (e := c) (by simp) h hc]
      · simp [S.subs, X h hc]
    · rcases loads_item h hc with h | h <;> simp [S.subs, h]
  | assignAttr m c e =>
    intro ends ev h hc
    rcases List.mem_append.mp h with h | h
    · rcases List.mem_append.mp h with h | h <;> simp [S.subs, X h hc]
    · simp [S.subs, stripped_subs (e := c) (by simp) h hc]
  | del c d =>
    intro ends ev h hc
    rcases List.mem_append.mp h with h | h
    · simp [S.subs, (loads_expr _ _ _ ev h hc).resolve_left fun h => by simp at h]
    · simp [S.subs, (loads_expr _ _ _ ev h hc).resolve_left fun h => by simp at h]
  | seq s t ihs iht =>
    intro ends ev h hc
    exact List.mem_append.mpr ((List.mem_append.mp h).imp (fun h => ihs _ ev h hc) (fun h => iht _ ev h hc))
  | if_ c s t ihs iht =>
    intro ends ev h hc
    exact List.mem_append.mpr ((List.mem_append.mp h).imp
      (fun h => List.mem_append.mpr ((List.mem_append.mp h).imp (fun h => X h hc) (fun h => ihs _ ev h hc))) (fun h => iht _ ev h hc))
  | while_ c s ihs =>
    intro ends ev h hc
    exact List.mem_append.mpr ((List.mem_append.mp h).imp (fun h => X h hc) (fun h => ihs _ ev h hc))
  | for_ y e s ihs =>
    intro ends ev h hc
    exact List.mem_append.mpr ((List.mem_append.mp h).imp
      (fun h => (List.mem_append.mp h).elim (fun h => (A h hc).elim) (fun h => X h hc)) (fun h => ihs _ ev h hc))

/-- C109: what is reported has `xs[i]` evaluated somewhere; `xs` has no other index, and nothing else has the index `i`. -/
theorem C109_only {body : S} {r : Report} (h : improve i xs body = some r) :
    (.name xs, .name i) ∈ body.subs ∧ ∀ a b, (a, b) ∈ body.subs ∨ (a, b) ∈ body.targets → (a = .name xs ↔ b = .name i) := by
  unfold improve at h
  split at h
  · cases h
  · rename_i hn
    simp only [Bool.not_eq_true, Bool.or_eq_false_iff, Bool.not_eq_false'] at hn
    obtain ⟨⟨⟨⟨⟨hr, hj⟩, hf⟩, -⟩, -⟩, -⟩ := hn
    have hj' : ∀ ev ∈ evS xs (exits body) body, ∀ b load, ev.parent = .container b load → b = .name i := by
      intro ev hev b load hp
      have := List.all_eq_true.mp hj ev hev
      rw [hp] at this
      simpa using this
    refine ⟨?_, fun a b hab => ⟨?_, ?_⟩⟩
    · obtain ⟨ev, hev, hp⟩ := List.any_eq_true.mp hr
      split at hp
      · rename_i b load hb
        subst hp
        have := hj' ev hev b true hb
        subst this
        exact loads_stmt body _ ev hev hb
      · cases hp
    · intro ha
      obtain ⟨ev, hev, load, hp⟩ := (seen_stmt body (exits body) hab).1 ha
      exact hj' ev hev b load hp
    · intro hb
      obtain ⟨ev, hev, hp⟩ := (seen_stmt body (exits body) hab).2 hb
      have := List.all_eq_true.mp hf ev hev
      rw [hp] at this
      simpa using this

/-! ### Numbers, one list and `print` -/

inductive Val where
  | num (n : Nat)
  | list | none | print | method | iterator | indexError | typeError | nameError
  deriving DecidableEq

/-- The list and what was printed. -/
structure St where
  items : List Nat
  printed : List Nat
  deriving DecidableEq

def orIndexError {α : Type} (h : St) : Option α → Ans Val St α
  | some a => (.ok a, h)
  | none => (.error .indexError, h)

def smallSub (h : St) : Val → Val → Ans Val St Val
  | .list, .num k => orIndexError h (h.items[k]?.map .num)
  | _, _ => (.error .typeError, h)

def smallCall (h : St) : Val → Val → Ans Val St Val
  | .print, .num n => (.ok .none, { h with printed := h.printed ++ [n] })
  | _, _ => (.error .typeError, h)

def smallAppend (h : St) : Val → Ans Val St Val
  | .num n => (.ok .none, { h with items := h.items ++ [n] })
  | _ => (.error .typeError, h)

def smallMethod (m : Str) (a b : Val) (h : St) : Ans Val St Val :=
  if a = .list ∧ m = "append".toList then smallAppend h b
  else if a = .list ∧ m = "clear".toList then (.ok .none, { h with items := [] })
  else (.error .typeError, h)

def smallSet (h : St) : Val → Val → Val → Ans Val St Unit
  | .list, .num k, .num n => if k < h.items.length then (.ok (), { h with items := h.items.set k n }) else (.error .indexError, h)
  | _, _, _ => (.error .typeError, h)

def smallDel (h : St) : Val → Val → Ans Val St Unit
  | .list, .num k => if k < h.items.length then (.ok (), { h with items := h.items.eraseIdx k }) else (.error .indexError, h)
  | _, _ => (.error .typeError, h)

def small : Sem Val St where
  const n := .num n
  num n := .num n
  items l h := if l = .list then some (h.items.map .num) else none
  unbound _ := .nameError
  truth v h := (.ok (v != .num 0), h)
  sub a b h := smallSub h a b
  attr _ a h := if a = .list then (.ok .method, h) else (.error .typeError, h)
  call f a h := smallCall h f a
  method m a _ b h := smallMethod m a b h
  op _ _ _ h := (.error .typeError, h)
  aug _ _ _ h := (.error .typeError, h)
  setItem a b c h := smallSet h a b c
  delItem a b h := smallDel h a b
  setAttr _ _ _ h := (.error .typeError, h)
  iter _ h := (.error .typeError, h)
  next _ h := (.ok none, h)

theorem small_keeps {h : St} {r : Ans Val St Val} (h1 : r.2.items = h.items) (h2 : r.1 ≠ .ok .list) : Keeps small .list h r :=
  ⟨by simp [small, h1], fun x hx hl => h2 (by rw [hx, hl])⟩

theorem small_alone : Alone small .list where
  const := by simp [small]
  num := by simp [small]
  truth := by simp [small]
  sub a b h := by
    have hs : (smallSub h a b).2.items = h.items ∧ (smallSub h a b).1 ≠ .ok .list := by
      unfold smallSub
      split
      · rename_i k
        cases h.items[k]? <;> simp [orIndexError]
      · simp
    exact small_keeps hs.1 hs.2
  attr m a h := by
    have hs : (small.attr m a h).2.items = h.items ∧ (small.attr m a h).1 ≠ .ok .list := by
      simp only [small]
      split <;> simp
    exact small_keeps hs.1 hs.2
  call f a h := by
    have hs : (smallCall h f a).2.items = h.items ∧ (smallCall h f a).1 ≠ .ok .list := by
      unfold smallCall
      split <;> simp
    exact small_keeps hs.1 hs.2
  method m a f b h := by
    have hs : (a ≠ .list ∨ m ∉ listMethods → (smallMethod m a b h).2.items = h.items) ∧ (smallMethod m a b h).1 ≠ .ok .list := by
      unfold smallMethod
      split
      · rename_i hc
        refine ⟨fun hm => (hm.elim (fun h => h hc.1) fun h => h (by rw [hc.2]; decide)).elim, ?_⟩
        cases b <;> simp [smallAppend]
      · split
        · rename_i hc
          exact ⟨fun hm => (hm.elim (fun h => h hc.1) fun h => h (by rw [hc.2]; decide)).elim, by simp⟩
        · simp
    exact ⟨fun hm => (by simpa [small] using congrArg (List.map Val.num) (hs.1 hm)), fun x hx hl => hs.2 (by rw [← hl, ← hx]; rfl)⟩
  op n a b h := small_keeps rfl (by simp [small])
  aug n a b h _ := small_keeps rfl (by simp [small])
  setItem a b c h hl := by
    have hs : (smallSet h a b c).2.items = h.items := by
      unfold smallSet
      split
      · exact (hl rfl).elim
      · rfl
    simp [small, hs]
  delItem a b h hl := by
    have hs : (smallDel h a b).2.items = h.items := by
      unfold smallDel
      split
      · exact (hl rfl).elim
      · rfl
    simp [small, hs]
  setAttr m a b h _ := rfl
  iter a h := small_keeps rfl (by simp [small])
  next a h := ⟨rfl, fun x h => by simp [small] at h⟩

theorem small_indexes : Indexes small .list := by
  intro h vs k a hi ha
  simp only [small, if_true, Option.some.injEq] at hi
  subst hi
  simp only [List.getElem?_map, Option.map_eq_some_iff] at ha
  obtain ⟨n, hn, rfl⟩ := ha
  simp [small, smallSub, orIndexError, hn]

def xsName : Str := "xs".toList
def iName : Str := "i".toList
def vName : Str := "v".toList
def printName : Str := "print".toList

/-- `xs` and `print` -/
def env0 : Env Val := fun y => if y = xsName then some .list else if y = printName then some .print else none

def xsi : E := .sub (.name xsName) (.name iName)
def printOf (e : E) : S := .expr (.call (.name printName) e)

/-- What can be seen of a result: how it ends, and the state. -/
def seen : Res Val St → Option (Option Val × St)
  | some (.normal, _, h) => some (none, h)
  | some (.exc e, _, h) => some (some e, h)
  | _ => none

/-- `if xs[i]: print(xs[i])` -/
example : improve iName xsName (.if_ xsi (printOf xsi) .skip) = some .foreach ∧
    seen (runRange small 5 iName (.if_ xsi (printOf xsi) .skip) 3 env0 ⟨[5, 0, 7], []⟩) = some (none, ⟨[5, 0, 7], [5, 7]⟩) ∧
    seen (runForeach small 5 vName .list ((S.if_ xsi (printOf xsi) .skip).rew iName xsName vName) 4 env0 ⟨[5, 0, 7], []⟩) =
      some (none, ⟨[5, 0, 7], [5, 7]⟩) := by decide +kernel

/-- The premises of `C109_foreach_partial` hold for it. -/
example (fuel : Nat) : SameBut [iName, vName] (runRange small fuel iName (.if_ xsi (printOf xsi) .skip) 3 env0 ⟨[5, 0, 7], []⟩)
    (runForeach small fuel vName .list ((S.if_ xsi (printOf xsi) .skip).rew iName xsName vName) 4 env0 ⟨[5, 0, 7], []⟩) :=
  C109_foreach_partial (vs := [.num 5, .num 0, .num 7]) (by decide +kernel) (by decide) (by decide) (by decide)
    (by simp [S.single, xsi, printOf, E.single]) (by simp [S.undeleted, printOf])
    (by simp [S.settled, S.leaves, xsi, printOf, E.calm]) small_alone small_indexes fuel rfl
    (fun y hy => by simp only [env0, if_neg hy]; split <;> simp) rfl (by decide)

/-- `print(i); print(xs[i])` -/
example : improve iName xsName (.seq (printOf (.name iName)) (printOf xsi)) = some .enumerate ∧
    seen (runEnumerate small 5 iName vName .list ((S.seq (printOf (.name iName)) (printOf xsi)).rew iName xsName vName) 3 env0 ⟨[5, 6], []⟩) =
      some (none, ⟨[5, 6], [0, 5, 1, 6]⟩) := by decide +kernel

/-- The premises of `C109_enumerate_partial` hold for it. -/
example (fuel : Nat) : SameBut [vName] (runRange small fuel iName (.seq (printOf (.name iName)) (printOf xsi)) 2 env0 ⟨[5, 6], []⟩)
    (runEnumerate small fuel iName vName .list ((S.seq (printOf (.name iName)) (printOf xsi)).rew iName xsName vName) 3 env0 ⟨[5, 6], []⟩) :=
  C109_enumerate_partial (vs := [.num 5, .num 6]) (by decide +kernel) (by decide) (by decide) (by decide)
    (by simp [S.single, xsi, printOf, E.single]) (by simp [S.undeleted, printOf])
    (by simp [S.settled, S.leaves, xsi, printOf, E.calm]) small_alone small_indexes fuel rfl
    (fun y hy => by simp only [env0, if_neg hy]; split <;> simp) rfl (by decide)

/-- `xs.append(xs[i])` and `xs[i] = 3` are not reported, and neither is `print(xs[i]); i = 0`. -/
example : improve iName xsName (.expr (.method "append".toList (.name xsName) xsi)) = none ∧
    improve iName xsName (.seq (printOf xsi) (.assignItem (.name xsName) (.name iName) (.const 3))) = none ∧
    improve iName xsName (.seq (printOf xsi) (.assign iName (.const 0))) = none := by decide +kernel

/-- `print(v)`, with `v` replaced by `xs[i]` -/
example : improve iName xsName (printOf xsi) = some .foreach :=
  C109_reported (body := printOf (.name vName)) (v := vName) (by decide) (by decide) (by decide) (by decide) (by decide) trivial

/-- `xs.clear(); print(xs[i]); break` -/
def clears : S := .seq (.expr (.method "clear".toList (.name xsName) (.const 0))) (.seq (printOf xsi) .brk)

/-- C109 is false if the list is changed in a block that ends with `break` or `return`: there is no element to print any more, but the loop over
elements prints it. -/
theorem C109_leaving_counterexample :
    improve iName xsName clears = some .foreach ∧
      seen (runRange small 5 iName clears 1 env0 ⟨[5], []⟩) = some (some .indexError, ⟨[], []⟩) ∧
      seen (runForeach small 5 vName .list (clears.rew iName xsName vName) 2 env0 ⟨[5], []⟩) = some (none, ⟨[], [5]⟩) := by decide +kernel

/-- `if xs[i]: del xs[i]; break` -/
def deletes : S := .if_ xsi (.seq (.del (.name xsName) (.name iName)) .brk) .skip

/-- C109 is false if an item is deleted: this needs the index, but use-foreach is reported. -/
theorem C109_del_counterexample :
    improve iName xsName deletes = some .foreach ∧
      seen (runRange small 5 iName deletes 2 env0 ⟨[0, 5], []⟩) = some (none, ⟨[0], []⟩) ∧
      seen (runForeach small 5 vName .list (deletes.rew iName xsName vName) 3 env0 ⟨[0, 5], []⟩) = some (some .nameError, ⟨[0, 5], []⟩) := by
  decide +kernel

/-- `ys = xs; ys.append(0); print(xs[i])` -/
def aliased : S :=
  .seq (.assign "ys".toList (.name xsName)) (.seq (.expr (.method "append".toList (.name "ys".toList) (.const 0))) (printOf xsi))

/-- C109 is false if the list gets another name: it is changed, and the loop over elements does not end within 100 iterations. -/
theorem C109_alias_counterexample :
    improve iName xsName aliased = some .foreach ∧
      seen (runRange small 5 iName aliased 1 env0 ⟨[5], []⟩) = some (none, ⟨[5, 0], [5]⟩) ∧
      seen (runForeach small 5 vName .list (aliased.rew iName xsName vName) 100 env0 ⟨[5], []⟩) = none := by decide +kernel

end Verif.ForEach

import Verif.Lemmas.Flow

/-! Runs and walks: how runs that are walks combine, for a fixed graph. -/

namespace Verif.Flow

/-- The ends of runs that boundaries are looked up for. -/
inductive Leaves' : Jump → Out → Prop
  | brk : Leaves' .brk .brk
  | cont : Leaves' .cont .cont
  | ret : Leaves' .ret .ret

/-- Each run of `R` is a walk from `b`, `i`: to `b'`, `i'` if it ends normally, to the beginning of `T j` if it is left by the
jump `j`. -/
def RS (F : Graph) (R : Beh) (T : Jump → Option Nat) (b i b' i' : Nat) : Prop :=
  ∀ tr o, R tr o → (o = .normal → Reach F b i tr b' i') ∧
    (∀ j t, Leaves' j o → T j = some t → Reach F b i tr t 0) ∧ ∃ q r, Reach F b i tr q r

theorem Leaves'.ne {j o} (h : Leaves' j o) : o ≠ .normal := by cases h <;> simp

theorem RS.mono {F R R' T b i b' i'} (h : RS F R T b i b' i') (hR : ∀ t o, R' t o → R t o) : RS F R' T b i b' i' :=
  fun tr o hr => h tr o (hR tr o hr)

theorem RS.seq {F A B T b i b1 i1 b2 i2} (hA : RS F A T b i b1 i1) (hB : RS F B T b1 i1 b2 i2) :
    RS F (Seq A B) T b i b2 i2 := by
  intro tr o h
  cases h with
  | both ha hb =>
    obtain ⟨a1, -, -⟩ := hA _ _ ha
    obtain ⟨b1, b2, q, r, b3⟩ := hB _ _ hb
    exact ⟨fun ho => (a1 rfl).trans (b1 ho), fun j t hj ht => (a1 rfl).trans (b2 j t hj ht), q, r, (a1 rfl).trans b3⟩
  | first ha hn =>
    obtain ⟨-, a2, a3⟩ := hA _ _ ha
    exact ⟨fun ho => absurd ho hn, a2, a3⟩

theorem RS.alt {F A B T b i b1 i1} (hA : RS F A T b i b1 i1) (hB : RS F B T b i b1 i1) : RS F (Alt A B) T b i b1 i1 := by
  intro tr o h
  cases h with
  | left h => exact hA _ _ h
  | right h => exact hB _ _ h

theorem RS.pre {F R T b i b0 i0 b' i'} (h0 : Reach F b0 i0 [] b i) (h : RS F R T b i b' i') : RS F R T b0 i0 b' i' := by
  intro tr o hr
  obtain ⟨h1, h2, q, r, h3⟩ := h tr o hr
  exact ⟨fun ho => h0.trans (h1 ho), fun j t hj ht => h0.trans (h2 j t hj ht), q, r, h0.trans h3⟩

theorem RS.post {F R T b i b0 i0 b' i'} (h : RS F R T b i b' i') (h0 : Reach F b' i' [] b0 i0) : RS F R T b i b0 i0 := by
  intro tr o hr
  obtain ⟨h1, h2, h3⟩ := h tr o hr
  exact ⟨fun ho => by simpa using (h1 ho).trans h0, h2, h3⟩

theorem RS.skip {F T b i} : RS F Skip T b i b i := by
  intro tr o h
  cases h with
  | ok => exact ⟨fun _ => .refl, fun j t hj => by (cases hj), b, i, .refl⟩
  | cut => exact ⟨fun h => (by cases h), fun j t hj => by (cases hj), b, i, .refl⟩

theorem RS.leaf {F W l T b i} (h : (F.locs b)[i]? = some l) : RS F (Leaf W l) T b i b (i + 1) := by
  have hw : Reach F b i [l] b (i + 1) := ⟨1, .emit h .nil⟩
  intro tr o hr
  cases hr with
  | ok => exact ⟨fun _ => hw, fun j t hj => (by cases hj), _, _, hw⟩
  | raise _ => exact ⟨fun h => (by cases h), fun j t hj => (by cases hj), _, _, hw⟩
  | cut => exact ⟨fun h => (by cases h), fun j t hj => (by cases hj), _, _, .refl⟩
  | after => exact ⟨fun h => (by cases h), fun j t hj => (by cases hj), _, _, hw⟩

theorem RS.jump {F j T b i b' i'} (h : ∀ t, T j = some t → Reach F b i [] t 0) : RS F (JumpRun j) T b i b' i' := by
  intro tr o hr
  cases hr <;> refine ⟨fun h => (by cases h), fun j' t hj ht => ?_, _, _, .refl⟩ <;> cases hj <;> exact h t ht

theorem RS.loop {F H D B E T T' h0 hi e ei a bB iB bE iE}
    (hH : RS F H T h0 0 h0 hi) (hD : RS F D T h0 0 h0 hi)
    (toB : Reach F h0 hi [] bB 0) (toE : Reach F h0 hi [] bE 0)
    (hB : RS F B T' bB 0 e ei) (back : Reach F e ei [] h0 0)
    (hE : RS F E T bE 0 iB iE) (out : Reach F iB iE [] a 0)
    (tb : T' .brk = some a) (tc : T' .cont = some h0) (tr : T' .ret = T .ret) :
    RS F (LoopRun H D B E) T h0 0 a 0 := by
  intro tr' o h
  induction h with
  | done h => exact ((hD.post toE).seq (hE.post out)) _ _ h
  | head h hn =>
    obtain ⟨-, h2, h3⟩ := hH _ _ h
    exact ⟨fun ho => absurd ho hn, h2, h3⟩
  | @next t1 t2 t3 o o' h1 h2 ho _ ih =>
    obtain ⟨g1, g2, q, r, g3⟩ := ih
    have a1 := ((hH _ _ h1).1 rfl).trans toB
    have a2 : Reach F bB 0 t2 h0 0 := by
      rcases ho with rfl | rfl
      · simpa using ((hB _ _ h2).1 rfl).trans back
      · exact (hB _ _ h2).2.1 .cont h0 .cont tc
    have a3 : Reach F h0 0 (t1 ++ t2) h0 0 := by simpa using a1.trans a2
    rw [← List.append_assoc]
    exact ⟨fun ho => a3.trans (g1 ho), fun j t hj ht => a3.trans (g2 j t hj ht), q, r, a3.trans g3⟩
  | brk h1 h2 =>
    have a1 := ((hH _ _ h1).1 rfl).trans toB
    have a2 := (hB _ _ h2).2.1 .brk a .brk tb
    have a3 := a1.trans a2
    simp only [List.append_nil] at a3
    exact ⟨fun _ => a3, fun j t hj => (by cases hj), _, _, a3⟩
  | leave h1 h2 n1 n2 n3 =>
    have a1 := ((hH _ _ h1).1 rfl).trans toB
    obtain ⟨-, b2, q, r, b3⟩ := hB _ _ h2
    simp only [List.append_nil] at a1
    refine ⟨fun ho => absurd ho n1, fun j t hj ht => ?_, q, r, a1.trans b3⟩
    cases hj with
    | brk => exact absurd rfl n3
    | cont => exact absurd rfl n2
    | ret => exact a1.trans (b2 .ret t .ret (by rw [tr]; exact ht))

/-! ### The other direction -/

/-- Each walk from `b`, `i` is a run of `R`, or continues a run of `R` from where that leads. -/
def RP (F : Graph) (R : Beh) (T : Jump → Option Nat) (b i b' i' : Nat) : Prop :=
  ∀ n tr q r, Walk F n b i tr q r → R tr .cut ∨
    (∃ n' t1 t2, n' ≤ n ∧ tr = t1 ++ t2 ∧ R t1 .normal ∧ Walk F n' b' i' t2 q r) ∨
    (∃ j t o n' t1 t2, T j = some t ∧ JumpRun j [] o ∧ o ≠ .cut ∧ n' ≤ n ∧ tr = t1 ++ t2 ∧ R t1 o ∧ Walk F n' t 0 t2 q r)

/-- A walk from `b`, `i` is empty, or continues from `b'`, `i'`. -/
def To (F : Graph) (b i b' i' : Nat) : Prop :=
  ∀ n tr q r, Walk F n b i tr q r → tr = [] ∨ ∃ n', n' ≤ n ∧ Walk F n' b' i' tr q r

theorem To.refl {F b i} : To F b i b i := fun n _ _ _ h => .inr ⟨n, Nat.le_refl _, h⟩

theorem JumpRun.ne {j o} (h : JumpRun j [] o) : o ≠ .normal := by cases h <;> simp

theorem RP.mono {F R R' T b i b' i'} (h : RP F R T b i b' i') (hR : ∀ t o, R t o → R' t o) : RP F R' T b i b' i' := by
  intro n tr q r hw
  rcases h n tr q r hw with h | ⟨n', t1, t2, h1, h2, h3, h4⟩ | ⟨j, t, o, n', t1, t2, h0, hj, hc, h1, h2, h3, h4⟩
  · exact .inl (hR _ _ h)
  · exact .inr (.inl ⟨n', t1, t2, h1, h2, hR _ _ h3, h4⟩)
  · exact .inr (.inr ⟨j, t, o, n', t1, t2, h0, hj, hc, h1, h2, hR _ _ h3, h4⟩)

theorem RP.seq {F A B T b i b1 i1 b2 i2} (hA : RP F A T b i b1 i1) (hB : RP F B T b1 i1 b2 i2) :
    RP F (Seq A B) T b i b2 i2 := by
  intro n tr q r hw
  rcases hA n tr q r hw with h | ⟨n', t1, t2, h1, h2, h3, h4⟩ | ⟨j, t, o, n', t1, t2, h0, hj, hc, h1, h2, h3, h4⟩
  · exact .inl (.first h (by simp))
  · rcases hB _ _ _ _ h4 with g | ⟨m, u1, u2, g1, g2, g3, g4⟩ | ⟨j, t, o, m, u1, u2, g0, hj, hc, g1, g2, g3, g4⟩
    · subst h2; exact .inl (.both h3 g)
    · exact .inr (.inl ⟨m, t1 ++ u1, u2, Nat.le_trans g1 h1, by rw [h2, g2, List.append_assoc], .both h3 g3, g4⟩)
    · exact .inr (.inr ⟨j, t, o, m, t1 ++ u1, u2, g0, hj, hc, Nat.le_trans g1 h1, by rw [h2, g2, List.append_assoc],
        .both h3 g3, g4⟩)
  · exact .inr (.inr ⟨j, t, o, n', t1, t2, h0, hj, hc, h1, h2, .first h3 hj.ne, h4⟩)

/-- Every run may be observed no further from the beginning on. -/
def Cuts (R : Beh) : Prop := R [] .cut

theorem RP.pre {F R T b i b0 i0 b' i'} (h0 : To F b0 i0 b i) (hc : Cuts R) (h : RP F R T b i b' i') :
    RP F R T b0 i0 b' i' := by
  intro n tr q r hw
  rcases h0 n tr q r hw with rfl | ⟨m, hm, hw'⟩
  · exact .inl hc
  · rcases h m tr q r hw' with h | ⟨n', t1, t2, h1, h2, h3, h4⟩ | ⟨j, t, o, n', t1, t2, h0, hj, hc, h1, h2, h3, h4⟩
    · exact .inl h
    · exact .inr (.inl ⟨n', t1, t2, Nat.le_trans h1 hm, h2, h3, h4⟩)
    · exact .inr (.inr ⟨j, t, o, n', t1, t2, h0, hj, hc, Nat.le_trans h1 hm, h2, h3, h4⟩)

/-- A run may also be observed no further when it ends. -/
def Stops (R : Beh) : Prop := ∀ t o, R t o → R t .cut

theorem RP.post {F R T b i b0 i0 b' i'} (h : RP F R T b i b' i') (hs : Stops R) (h0 : To F b' i' b0 i0) :
    RP F R T b i b0 i0 := by
  intro n tr q r hw
  rcases h n tr q r hw with h | ⟨n', t1, t2, h1, h2, h3, h4⟩ | h
  · exact .inl h
  · rcases h0 _ _ _ _ h4 with rfl | ⟨m, hm, hw'⟩
    · rw [List.append_nil] at h2; subst h2; exact .inl (hs _ _ h3)
    · exact .inr (.inl ⟨m, t1, t2, Nat.le_trans hm h1, h2, h3, hw'⟩)
  · exact .inr (.inr h)

theorem RP.skip {F T b i} : RP F Skip T b i b i := fun n tr _ _ hw => .inr (.inl ⟨n, [], tr, Nat.le_refl _, rfl, .ok, hw⟩)

/-- A location is followed in at least one step. -/
theorem walk_leaf {F n b i l tr q r} (h : (F.locs b)[i]? = some l) (hw : Walk F n b i tr q r) :
    tr = [] ∨ ∃ m tr', n = m + 1 ∧ tr = l :: tr' ∧ Walk F m b (i + 1) tr' q r := by
  cases hw with
  | nil => exact .inl rfl
  | emit h1 h2 => rw [h] at h1; cases h1; exact .inr ⟨_, _, rfl, rfl, h2⟩
  | edge h1 _ _ => subst h1; simp at h

theorem RP.leaf {F W l T b i} (h : (F.locs b)[i]? = some l) : RP F (Leaf W l) T b i b (i + 1) := by
  intro n tr q r hw
  rcases walk_leaf h hw with rfl | ⟨m, tr', rfl, rfl, hw'⟩
  · exact .inl .cut
  · exact .inr (.inl ⟨m, [l], tr', Nat.le_succ _, rfl, .ok, hw'⟩)

theorem RP.jump {F j T b i b' i'}
    (h : ∀ n tr q r, Walk F n b i tr q r → tr = [] ∨ ∃ t n', n' ≤ n ∧ T j = some t ∧ Walk F n' t 0 tr q r) :
    RP F (JumpRun j) T b i b' i' := by
  intro n tr q r hw
  rcases h n tr q r hw with rfl | ⟨t, n', h1, h2, h3⟩
  · exact .inl .cut
  · have : ∃ o, JumpRun j [] o ∧ o ≠ .cut := by
      cases j with
      | brk => exact ⟨_, .brk, by simp⟩
      | cont => exact ⟨_, .cont, by simp⟩
      | ret => exact ⟨_, .ret, by simp⟩
      | raise name => exact ⟨_, .raise (e := []), by simp⟩
    obtain ⟨o, ho, hc⟩ := this
    exact .inr (.inr ⟨j, t, o, n', [], tr, h2, ho, hc, h1, rfl, ho, h3⟩)

/-- Two ways to go on. -/
theorem RP.alt {F A B T b i bA iA bB iB b' i'}
    (h : ∀ n tr q r, Walk F n b i tr q r → tr = [] ∨ ∃ n', n' ≤ n ∧ (Walk F n' bA iA tr q r ∨ Walk F n' bB iB tr q r))
    (hc : Cuts A) (hA : RP F A T bA iA b' i') (hB : RP F B T bB iB b' i') : RP F (Alt A B) T b i b' i' := by
  intro n tr q r hw
  rcases h n tr q r hw with rfl | ⟨m, hm, hw' | hw'⟩
  · exact .inl (.left hc)
  · rcases (hA.mono (R' := Alt A B) fun _ _ h => .left h) m tr q r hw' with
      h | ⟨n', t1, t2, h1, h2, h3, h4⟩ | ⟨j, t, o, n', t1, t2, h0, hj, hc, h1, h2, h3, h4⟩
    · exact .inl h
    · exact .inr (.inl ⟨n', t1, t2, Nat.le_trans h1 hm, h2, h3, h4⟩)
    · exact .inr (.inr ⟨j, t, o, n', t1, t2, h0, hj, hc, Nat.le_trans h1 hm, h2, h3, h4⟩)
  · rcases (hB.mono (R' := Alt A B) fun _ _ h => .right h) m tr q r hw' with
      h | ⟨n', t1, t2, h1, h2, h3, h4⟩ | ⟨j, t, o, n', t1, t2, h0, hj, hc, h1, h2, h3, h4⟩
    · exact .inl h
    · exact .inr (.inl ⟨n', t1, t2, Nat.le_trans h1 hm, h2, h3, h4⟩)
    · exact .inr (.inr ⟨j, t, o, n', t1, t2, h0, hj, hc, Nat.le_trans h1 hm, h2, h3, h4⟩)

theorem RP.loop {F W l B E T T' h0 e ei a bB bE iB iE}
    (hl : (F.locs h0)[0]? = some l)
    (next : ∀ n tr q r, Walk F n h0 1 tr q r → tr = [] ∨ ∃ n', n' ≤ n ∧ (Walk F n' bB 0 tr q r ∨ Walk F n' bE 0 tr q r))
    (hB : RP F B T' bB 0 e ei) (hcB : Cuts B) (hsB : Stops B) (back : To F e ei h0 0)
    (hE : RP F E T bE 0 iB iE) (hsE : Stops E) (out : To F iB iE a 0)
    (tb : T' .brk = some a) (tc : T' .cont = some h0) (tr : T' .ret = T .ret) (te : ∀ n, T' (.raise n) = T (.raise n)) :
    RP F (LoopRun (Leaf W l) (Leaf W l) B E) T h0 0 a 0 := by
  intro n
  induction n using Nat.strongRecOn with
  | _ n ih =>
  intro tr q r hw
  rcases walk_leaf hl hw with rfl | ⟨m, tr', rfl, rfl, hw'⟩
  · exact .inl (.head .cut (by simp))
  rcases next _ _ _ _ hw' with rfl | ⟨m', hm', hw2 | hw2⟩
  · have := LoopRun.leave (D := Leaf W l) (E := E) (Leaf.ok (W := W) (l := l)) hcB (by simp) (by simp) (by simp)
    exact .inl this
  · -- an iteration
    have again : ∀ t1 t2 k o, k ≤ m' → tr' = t1 ++ t2 → B t1 o → o = .normal ∨ o = .cont → Walk F k h0 0 t2 q r →
        LoopRun (Leaf W l) (Leaf W l) B E (l :: tr') .cut ∨
        (∃ n' u1 u2, n' ≤ m + 1 ∧ l :: tr' = u1 ++ u2 ∧ LoopRun (Leaf W l) (Leaf W l) B E u1 .normal ∧ Walk F n' a 0 u2 q r) ∨
        (∃ j t o n' u1 u2, T j = some t ∧ JumpRun j [] o ∧ o ≠ .cut ∧ n' ≤ m + 1 ∧ l :: tr' = u1 ++ u2 ∧
          LoopRun (Leaf W l) (Leaf W l) B E u1 o ∧ Walk F n' t 0 u2 q r) := by
      intro t1 t2 k o hk he hb ho hk2
      have app : ∀ x, l :: (t1 ++ x) = [l] ++ (t1 ++ x) := fun _ => rfl
      rcases ih k (by omega) t2 q r hk2 with g | ⟨n', u1, u2, g1, g2, g3, g4⟩ | ⟨j, t, o', n', u1, u2, g0, hj, hc, g1, g2, g3, g4⟩
      · left; rw [he, app]; exact .next .ok hb ho g
      · right; left
        exact ⟨n', [l] ++ (t1 ++ u1), u2, by omega, by rw [he, g2]; simp, .next .ok hb ho g3, g4⟩
      · right; right
        exact ⟨j, t, o', n', [l] ++ (t1 ++ u1), u2, g0, hj, hc, by omega, by rw [he, g2]; simp, .next .ok hb ho g3, g4⟩
    rcases (hB.post hsB back) m' tr' q r hw2 with g | ⟨n', t1, t2, g1, g2, g3, g4⟩ | ⟨j, t, o, n', t1, t2, g0, hj, hc, g1, g2, g3, g4⟩
    · have := LoopRun.leave (D := Leaf W l) (E := E) (Leaf.ok (W := W) (l := l)) g (by simp) (by simp) (by simp)
      exact .inl this
    · exact again t1 t2 n' .normal g1 g2 g3 (.inl rfl) g4
    · cases hj with
      | brk =>
        rw [tb] at g0; cases g0
        have := LoopRun.brk (D := Leaf W l) (E := E) (Leaf.ok (W := W) (l := l)) g3
        exact .inr (.inl ⟨n', [l] ++ t1, t2, by omega, by rw [g2]; rfl, this, g4⟩)
      | cont =>
        rw [tc] at g0; cases g0
        exact again t1 t2 n' .cont g1 g2 g3 (.inr rfl) g4
      | ret =>
        have := LoopRun.leave (D := Leaf W l) (E := E) (Leaf.ok (W := W) (l := l)) g3 (by simp) (by simp) (by simp)
        exact .inr (.inr ⟨.ret, t, _, n', [l] ++ t1, t2, by rw [← tr]; exact g0, .ret, hc, by omega, by rw [g2]; rfl, this, g4⟩)
      | @raise name x =>
        have := LoopRun.leave (D := Leaf W l) (E := E) (Leaf.ok (W := W) (l := l)) g3 (by simp) (by simp) (by simp)
        exact .inr (.inr ⟨.raise name, t, _, n', [l] ++ t1, t2, by rw [← te]; exact g0, .raise, hc, by omega, by rw [g2]; rfl,
          this, g4⟩)
      | cut => exact absurd rfl hc
  · -- no further iteration
    rcases (hE.post hsE out) m' tr' q r hw2 with g | ⟨n', t1, t2, g1, g2, g3, g4⟩ | ⟨j, t, o, n', t1, t2, g0, hj, hc, g1, g2, g3, g4⟩
    · exact .inl (.done (Seq.both (t1 := [l]) .ok g))
    · exact .inr (.inl ⟨n', [l] ++ t1, t2, by omega, by rw [g2]; rfl, .done (.both .ok g3), g4⟩)
    · exact .inr (.inr ⟨j, t, o, n', [l] ++ t1, t2, g0, hj, hc, by omega, by rw [g2]; rfl, .done (.both .ok g3), g4⟩)

/-! ### Observing no further -/

theorem Seq.cuts {A B : Beh} (h : Cuts A) : Cuts (Seq A B) := .first h (by simp)
theorem Seq.stops {A B : Beh} (hA : Stops A) (hB : Stops B) : Stops (Seq A B) := by
  intro t o h
  cases h with
  | both h1 h2 => exact .both h1 (hB _ _ h2)
  | first h1 _ => exact .first (hA _ _ h1) (by simp)
theorem Leaf.cuts {W l} : Cuts (Leaf W l) := .cut
theorem Leaf.stops {W l} : Stops (Leaf W l) := by intro t o h; cases h <;> first | exact .after | exact .cut
theorem Skip.stops : Stops Skip := by intro t o h; cases h <;> exact .cut
theorem Leaves.cuts {W} : ∀ ls, Cuts (Leaves W ls)
  | [] => .cut
  | _ :: _ => Seq.cuts Leaf.cuts
theorem Leaves.stops {W} : ∀ ls, Stops (Leaves W ls)
  | [] => Skip.stops
  | _ :: ls => Seq.stops Leaf.stops (Leaves.stops ls)
theorem JumpRun.stops {j} : Stops (JumpRun j) := by intro t o h; cases h <;> exact .cut
theorem Alt.stops {A B : Beh} (hA : Stops A) (hB : Stops B) : Stops (Alt A B) := by
  intro t o h
  cases h with
  | left h => exact .left (hA _ _ h)
  | right h => exact .right (hB _ _ h)
theorem LoopRun.stops {H D B E : Beh} (hH : Stops H) (hD : Stops D) (hB : Stops B) (hE : Stops E) :
    Stops (LoopRun H D B E) := by
  intro t o h
  induction h with
  | done h => exact .done (Seq.stops hD hE _ _ h)
  | head h _ => exact .head (hH _ _ h) (by simp)
  | next h1 h2 ho _ ih => exact .next h1 h2 ho ih
  | brk h1 h2 => exact .leave h1 (hB _ _ h2) (by simp) (by simp) (by simp)
  | leave h1 h2 _ _ _ => exact .leave h1 (hB _ _ h2) (by simp) (by simp) (by simp)
theorem TryRun.stops {B E : Beh} {H : Str → Beh} (hB : Stops B) (hE : Stops E)
    (hH : ∀ e t o, H e t o → H e t .cut ∨ t = []) : Stops (TryRun B H E) := by
  intro t o h
  cases h with
  | good h1 h2 => exact .good h1 (hE _ _ h2)
  | caught h1 h2 =>
    rcases hH _ _ _ h2 with h | rfl
    · exact .caught h1 h
    · rw [List.append_nil]; exact .leave (hB _ _ h1) (by simp) (by simp)
  | leave h1 _ _ => exact .leave (hB _ _ h1) (by simp) (by simp)
theorem FinallyRun.stops {A B : Beh} (hA : Stops A) (hB : Stops B) : Stops (FinallyRun A B) := by
  intro t o h
  cases h with
  | both h1 h2 h3 => exact .leave h1 h2 (hB _ _ h3) (by simp)
  | leave h1 h2 h3 _ => exact .leave h1 h2 (hB _ _ h3) (by simp)
  | cut h1 => exact .cut (hA _ _ h1)

mutual
theorem run_cuts (W : World) : ∀ s, Cuts (Run W s)
  | .simple _ => Leaf.cuts
  | .jump _ _ => Seq.cuts Leaf.cuts
  | .cond _ _ _ => Seq.cuts Leaf.cuts
  | .loop _ _ _ => .head .cut (by simp)
  | .each _ _ _ _ => Seq.cuts Leaf.cuts
  | .enter _ _ _ => Seq.cuts Leaf.cuts
  | .try_ first _ _ _ _ => .cut (.leave (Seq.cuts (run_cuts W first)) (by simp) (by simp))
end
theorem body_cuts (W : World) : ∀ p, Cuts (RunBody W p)
  | .nil => .cut
  | .cons s _ => Seq.cuts (run_cuts W s)

mutual
theorem run_stops (W : World) : ∀ s, Stops (Run W s)
  | .simple _ => Leaf.stops
  | .jump _ _ => Seq.stops Leaf.stops JumpRun.stops
  | .cond _ b e => Seq.stops Leaf.stops (Alt.stops (body_stops W b) (body_stops W e))
  | .loop _ b e => LoopRun.stops Leaf.stops Leaf.stops (body_stops W b) (body_stops W e)
  | .each _ _ b e => Seq.stops Leaf.stops (LoopRun.stops Leaf.stops (by
      split
      · exact Leaf.stops
      · exact Skip.stops) (body_stops W b) (body_stops W e))
  | .enter _ is b => Seq.stops Leaf.stops (Seq.stops (Leaves.stops is) (body_stops W b))
  | .try_ first rest hs e f => FinallyRun.stops (TryRun.stops (Seq.stops (run_stops W first) (body_stops W rest))
      (body_stops W e) (handlers_stops W hs)) (body_stops W f)
theorem body_stops (W : World) : ∀ p, Stops (RunBody W p)
  | .nil => Skip.stops
  | .cons s rest => Seq.stops (run_stops W s) (body_stops W rest)
theorem handlers_stops (W : World) : ∀ hs e t o, RunHandlers W hs e t o → RunHandlers W hs e t .cut ∨ t = []
  | .nil, _, _, _, h => .inr h.1
  | .cons _ _ b rest, e, t, o, h => by
    rcases h with ⟨h1, h2⟩ | ⟨h1, h2⟩
    · exact .inl (.inl ⟨h1, Seq.stops (Leaves.stops _) (body_stops W b) _ _ h2⟩)
    · exact (handlers_stops W rest e t o h2).imp (fun h => .inr ⟨h1, h⟩) id
end

end Verif.Flow

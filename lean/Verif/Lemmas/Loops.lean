import Verif.Model.Loops
import Verif.Lemmas.Range
import Verif.Lemmas.Z3Block
import Verif.Props.LocalDefects

/-! Loops over ranges with another bound. -/

namespace Verif.Py

/-! ### Ranges -/

theorem rangeLen_tail {a b c : Int} (hc : c ≠ 0) : rangeLen (a + c) b c = rangeLen a b c - 1 := by
  have h : ∀ i, i < rangeLen (a + c) b c ↔ i < rangeLen a b c - 1 := by
    intro i
    have h1 : i < rangeLen a b c - 1 ↔ i + 1 < rangeLen a b c := by omega
    rw [h1, lt_rangeLen hc, lt_rangeLen hc]
    have : a + c * ((i + 1 : Nat) : Int) = a + c + c * (i : Int) := by
      rw [Int.natCast_add, Int.mul_add]; simp; omega
    rw [this]
  have h1 := h (rangeLen a b c - 1)
  have h2 := h (rangeLen (a + c) b c)
  omega

theorem rangeLen_init {a b c : Int} (hc : c ≠ 0) : rangeLen a (b - c) c = rangeLen a b c - 1 := by
  have h : ∀ i, i < rangeLen a (b - c) c ↔ i < rangeLen a b c - 1 := by
    intro i
    have h1 : i < rangeLen a b c - 1 ↔ i + 1 < rangeLen a b c := by omega
    rw [h1, lt_rangeLen hc, lt_rangeLen hc]
    have : a + c * ((i + 1 : Nat) : Int) = a + c + c * (i : Int) := by
      rw [Int.natCast_add, Int.mul_add]; simp; omega
    rw [this]
    omega
  have h1 := h (rangeLen a b c - 1)
  have h2 := h (rangeLen a (b - c) c)
  omega

/-- A range without its first element. -/
theorem pyRange_tail {a b c : Int} (hc : c ≠ 0) : pyRange (a + c) b c = (pyRange a b c).tail := by
  unfold pyRange
  rw [rangeLen_tail hc]
  cases h : rangeLen a b c with
  | zero => simp
  | succ n =>
    rw [List.range_succ_eq_map]
    simp only [Nat.add_sub_cancel, List.map_cons, List.tail_cons, List.map_map]
    apply List.map_congr_left
    intro i _
    simp only [Function.comp]
    rw [Nat.succ_eq_add_one, Int.natCast_add, Int.mul_add]
    simp; omega

/-- A range without its last element. -/
theorem pyRange_init {a b c : Int} (hc : c ≠ 0) : pyRange a (b - c) c = (pyRange a b c).dropLast := by
  unfold pyRange
  rw [rangeLen_init hc]
  cases h : rangeLen a b c with
  | zero => simp
  | succ n => rw [List.range_succ]; simp

theorem pyRange_head {a b c v : Int} {vs : List Int} (h : pyRange a b c = v :: vs) : v = a := by
  unfold pyRange at h
  cases hl : rangeLen a b c with
  | zero => simp [hl] at h
  | succ n =>
    rw [hl, List.range_succ_eq_map] at h
    simp only [List.map_cons, List.cons.injEq] at h
    have := h.1
    simp at this
    omega

/-- If the step divides the distance, the last element is one step before the end. -/
theorem pyRange_last {a b c v : Int} {vs : List Int} (hc : c ≠ 0) (hd : c ∣ b - a) (h : pyRange a b c = vs ++ [v]) :
    v = b - c := by
  unfold pyRange at h
  cases hl : rangeLen a b c with
  | zero => simp [hl] at h
  | succ n =>
    rw [hl, List.range_succ] at h
    simp only [List.map_append, List.map_cons, List.map_nil] at h
    have hv : a + c * (n : Int) = v := by
      have := (List.append_inj' h rfl).2
      simpa using this
    have h1 : n < rangeLen a b c := by omega
    have h2 : ¬ n + 1 < rangeLen a b c := by omega
    rw [lt_rangeLen hc] at h1 h2
    obtain ⟨k, hk⟩ := hd
    have hb : b = a + c * k := by omega
    have e1 : c * ((n + 1 : Nat) : Int) = c * n + c := by rw [Int.natCast_add, Int.mul_add]; simp
    rw [e1] at h2
    have hkn : k = n + 1 := by
      rcases Int.lt_or_gt_of_ne hc with hneg | hpos
      · have h3 : c * k < c * n := by omega
        have h4 : c * n + c ≤ c * k := by omega
        have h5 : (n : Int) < k := by
          by_contra hcon
          have := Int.mul_le_mul_of_nonpos_left (a := c) (b := (n : Int)) (c := k) (by omega) (by omega)
          omega
        have h6 : k ≤ n + 1 := by
          by_contra hcon
          have h7 : c * k < c * (n + 1) := Int.mul_lt_mul_of_neg_left (by omega) hneg
          rw [Int.mul_add] at h7
          omega
        omega
      · have h3 : c * n < c * k := by omega
        have h4 : c * k ≤ c * n + c := by omega
        have h5 : (n : Int) < k := Int.lt_of_mul_lt_mul_left h3 (by omega)
        have h6 : k ≤ n + 1 := by
          have : c * k ≤ c * (n + 1) := by rw [Int.mul_add]; omega
          exact Int.le_of_mul_le_mul_left this hpos
        omega
    subst hkn
    rw [Int.mul_add] at hb
    omega

end Verif.Py

namespace Verif.Py.Loops

section
variable {W : Type} {L : Lang W}

/-- The value of an expression is an integer (or a truth value, which counts as one). -/
def Lang.Int (L : Lang W) (s : St W) (e : Expr) (i : Int) : Prop := ∃ v, L.value s e = .ok v ∧ v.asInt = some i

theorem value_congr {s s' : St W} {e : Expr} (h : ∀ y ∈ Blocks.names e, s.env y = s'.env y) : L.value s e = L.value s' e :=
  Blocks.eval_congr _ (env' := s'.env) e h

theorem int_congr {s s' : St W} {e : Expr} {i : Int} (h : ∀ y ∈ Blocks.names e, s.env y = s'.env y) (hi : L.Int s e i) :
    L.Int s' e i := by
  obtain ⟨v, h1, h2⟩ := hi
  exact ⟨v, by rw [← value_congr h]; exact h1, h2⟩

theorem set_env_self (s : St W) (x : Str) (v : Val) : (s.set x v).env x = .ok v := by simp [St.set]

theorem set_env_other (s : St W) {x y : Str} (v : Val) (h : y ≠ x) : (s.set x v).env y = s.env y := by simp [St.set, h]

theorem set_set (s : St W) (x : Str) (v w : Val) : (s.set x v).set x w = s.set x w := by
  unfold St.set
  simp only [St.mk.injEq, and_true]
  funext y
  by_cases h : y = x <;> simp [h]

theorem set_same (s : St W) (x : Str) (v : Val) : SameBut x (s.set x v) s :=
  ⟨rfl, fun _ hy => set_env_other s v hy⟩

theorem sameBut_refl (x : Str) (s : St W) : SameBut x s s := ⟨rfl, fun _ _ => rfl⟩

theorem int_name {s : St W} {x : Str} {i : Int} : L.Int (s.set x (.int i)) (.name x) i :=
  ⟨.int i, by simp [Lang.value, eval, set_env_self], rfl⟩

/-- A comparison of equal numbers. -/
theorem truth_eq {s : St W} {l r : Expr} {i : Int} (hl : L.Int s l i) (hr : L.Int s r i) :
    L.truth s (.compare l [(.eq, r)]) = .ok true := by
  obtain ⟨v, h1, h2⟩ := hl
  obtain ⟨w, h3, h4⟩ := hr
  unfold Lang.value at h1 h3
  unfold Lang.truth truthOf
  simp only [eval, evalCmp, h1, h3]
  have : (intSem L.R).cmp .eq v w = .ok (.bool true) := by
    simp [intSem, h2, h4, intCmp]
  simp only [this]
  rfl

theorem int_sub {s : St W} {l r : Expr} {i j : Int} (hl : L.Int s l i) (hr : L.Int s r j) :
    L.Int s (.bin .sub l r) (i - j) := by
  obtain ⟨v, h1, h2⟩ := hl
  obtain ⟨w, h3, h4⟩ := hr
  unfold Lang.value at h1 h3
  refine ⟨.int (i - j), ?_, rfl⟩
  unfold Lang.value
  simp only [eval, h1, h3]
  simp [intSem, h2, h4, intBin]

theorem int_add {s : St W} {l r : Expr} {i j : Int} (hl : L.Int s l i) (hr : L.Int s r j) :
    L.Int s (.bin .add l r) (i + j) := by
  obtain ⟨v, h1, h2⟩ := hl
  obtain ⟨w, h3, h4⟩ := hr
  unfold Lang.value at h1 h3
  refine ⟨.int (i + j), ?_, rfl⟩
  unfold Lang.value
  simp only [eval, h1, h3]
  simp [intSem, h2, h4, intBin]

theorem int_const {e : Expr} {i : Int} (h : constInt L.R e = .ok (some i)) (s : St W) : L.Int s e i :=
  constInt_eval L.R h s.env

theorem int_det {s : St W} {e : Expr} {i j : Int} (h : L.Int s e i) (h' : L.Int s e j) : i = j := by
  obtain ⟨v, h1, h2⟩ := h
  obtain ⟨w, h3, h4⟩ := h'
  rw [h1] at h3
  cases h3
  rw [h2] at h4
  exact Option.some.inj h4

/-- What a range evaluates to. -/
theorem value_range {s : St W} (hb : Builtins s.env) {iter start stop step : Expr} {a b c : Int}
    (hr : rangeParams iter = some (start, stop, step)) (ha : L.Int s start a) (hb' : L.Int s stop b) (hc : L.Int s step c)
    (h0 : c ≠ 0) : L.value s iter = .ok (.range a b c) := by
  obtain ⟨va, ea, ia⟩ := ha
  obtain ⟨vb, eb, ib⟩ := hb'
  obtain ⟨vc, ec, ic⟩ := hc
  have := eval_range L.R hb hr ea ia eb ib ec ic
  rw [if_neg h0] at this
  exact this

/-- The statement that leaves, and how it does so. -/
def leaveOut : Stmt → Out
  | .brk => .brk
  | _ => .cont

/-- If the guard at the beginning of the body is true, nothing else is executed. -/
theorem guard_run {t : Expr} {st : Stmt} {e rest : Block} {s : St W} (hl : leaves st = true) (ht : L.truth s t = .ok true)
    (o : Out) (s' : St W) :
    RunB L (.cons (.if_ t (.cons st .nil) e) rest) s o s' ↔ o = leaveOut st ∧ s' = s := by
  have hst : ∀ o s', Run L st s o s' ↔ o = leaveOut st ∧ s' = s := by
    intro o s'
    cases st with
    | brk =>
      constructor
      · rintro ⟨⟩; exact ⟨rfl, rfl⟩
      · rintro ⟨rfl, rfl⟩; exact .brk
    | cont =>
      constructor
      · rintro ⟨⟩; exact ⟨rfl, rfl⟩
      · rintro ⟨rfl, rfl⟩; exact .cont
    | if_ _ _ _ => simp [leaves] at hl
    | other _ => simp [leaves] at hl
  have hne : leaveOut st ≠ .normal := by cases st <;> simp [leaveOut]
  have hblock : ∀ o s', RunB L (.cons st .nil) s o s' ↔ o = leaveOut st ∧ s' = s := by
    intro o s'
    constructor
    · intro h
      cases h with
      | next h _ => exact absurd ((hst _ _).1 h).1.symm hne
      | leave h _ => exact (hst _ _).1 h
    · rintro ⟨rfl, rfl⟩
      exact .leave ((hst _ _).2 ⟨rfl, rfl⟩) hne
  have hif : ∀ o s', Run L (.if_ t (.cons st .nil) e) s o s' ↔ o = leaveOut st ∧ s' = s := by
    intro o s'
    constructor
    · intro h
      cases h with
      | then_ _ h => exact (hblock _ _).1 h
      | else_ h _ => rw [ht] at h; cases h
      | raise h => rw [ht] at h; cases h
    · intro h
      exact .then_ ht ((hblock _ _).2 h)
  constructor
  · intro h
    cases h with
    | next h _ => exact absurd ((hif _ _).1 h).1.symm hne
    | leave h _ => exact (hif _ _).1 h
  · rintro ⟨rfl, rfl⟩
    exact .leave ((hif _ _).2 ⟨rfl, rfl⟩) hne

/-- The value that the control variable has before the next iteration does not matter. -/
theorem each_set {x : Str} {body orelse : Block} {v : Int} {vs : List Int} {s : St W} {u : Val} {o : Out} {s' : St W} :
    Each L x body orelse (v :: vs) (s.set x u) o s' ↔ Each L x body orelse (v :: vs) s o s' := by
  constructor
  · intro h
    cases h with
    | next h1 h2 h3 => rw [set_set] at h1; exact .next h1 h2 h3
    | brk h1 => rw [set_set] at h1; exact .brk h1
    | leave h1 h2 h3 h4 => rw [set_set] at h1; exact .leave h1 h2 h3 h4
  · intro h
    cases h with
    | next h1 h2 h3 => rw [← set_set s x u] at h1; exact .next h1 h2 h3
    | brk h1 => rw [← set_set s x u] at h1; exact .brk h1
    | leave h1 h2 h3 h4 => rw [← set_set s x u] at h1; exact .leave h1 h2 h3 h4

/-- The same results, apart from the value of `x`. -/
def Same (x : Str) (A B : Out → St W → Prop) : Prop :=
  (∀ o s1, A o s1 → ∃ s2, B o s2 ∧ SameBut x s1 s2) ∧ (∀ o s2, B o s2 → ∃ s1, A o s1 ∧ SameBut x s1 s2)

theorem Same.refl (x : Str) (A : Out → St W → Prop) : Same x A A :=
  ⟨fun _ s1 h => ⟨s1, h, sameBut_refl x s1⟩, fun _ s1 h => ⟨s1, h, sameBut_refl x s1⟩⟩

theorem run_iff {f : For} {x : Str} {s : St W} {a b c : Int} (hx : f.target = .name x)
    (hv : L.value s f.iter = .ok (.range a b c)) (o : Out) (s' : St W) :
    f.Run L s o s' ↔ Each L x f.body f.orelse (pyRange a b c) s o s' := by
  constructor
  · intro h
    cases h with
    | run h1 h2 h3 =>
      rw [hx] at h1
      cases h1
      rw [hv] at h2
      cases h2
      exact h3
    | raise h => rw [hv] at h; cases h
  · intro h
    exact .run hx hv h

/-- The first iteration is left out. -/
theorem each_first {x : Str} {body : Block} {v : Int} {vs : List Int} {s : St W}
    (h : ∀ o s', RunB L body (s.set x (.int v)) o s' ↔ o = .cont ∧ s' = s.set x (.int v)) :
    Same x (Each L x body .nil (v :: vs) s) (Each L x body .nil vs s) ∧
      ∀ orelse, vs ≠ [] → ∀ o s', Each L x body orelse (v :: vs) s o s' ↔ Each L x body orelse vs s o s' := by
  have hone : ∀ orelse o s', Each L x body orelse (v :: vs) s o s' ↔ Each L x body orelse vs (s.set x (.int v)) o s' := by
    intro orelse o s'
    constructor
    · intro hr
      cases hr with
      | next h1 h2 h3 => obtain ⟨_, rfl⟩ := (h _ _).1 h1; exact h3
      | brk h1 => cases ((h _ _).1 h1).1
      | leave h1 _ h3 _ => exact absurd ((h _ _).1 h1).1 h3
    · intro hr
      exact .next ((h _ _).2 ⟨rfl, rfl⟩) (.inr rfl) hr
  cases vs with
  | nil =>
    refine ⟨⟨?_, ?_⟩, fun _ h => absurd rfl h⟩
    · intro o s1 hr
      cases (hone _ _ _).1 hr with
      | done h1 =>
        cases h1
        exact ⟨s, .done .nil, set_same s x _⟩
    · intro o s2 hr
      cases hr with
      | done h1 =>
        cases h1
        exact ⟨_, (hone _ _ _).2 (.done .nil), set_same s x _⟩
  | cons w ws =>
    have heq : ∀ orelse o s', Each L x body orelse (v :: w :: ws) s o s' ↔ Each L x body orelse (w :: ws) s o s' :=
      fun orelse o s' => (hone orelse o s').trans each_set
    refine ⟨⟨fun o s1 hr => ⟨s1, (heq _ _ _).1 hr, sameBut_refl x s1⟩,
      fun o s2 hr => ⟨s2, (heq _ _ _).2 hr, sameBut_refl x s2⟩⟩, fun orelse _ => heq orelse⟩

/-- The last iteration is left out; `P` is what is true whenever an iteration starts. -/
theorem each_last {x : Str} {body : Block} {v : Int} {st : Stmt} (P : St W → Prop)
    (hP : ∀ s u o s', P s → RunB L body (s.set x (.int u)) o s' → P s')
    (h : ∀ s, P s → ∀ o s', RunB L body (s.set x (.int v)) o s' ↔ o = leaveOut st ∧ s' = s.set x (.int v)) :
    ∀ (vs : List Int) (s : St W), P s → Same x (Each L x body .nil (vs ++ [v]) s) (Each L x body .nil vs s)
  | [], s, hs => by
    have hout : ∀ o s', Each L x body .nil [v] s o s' ↔ o = .normal ∧ s' = s.set x (.int v) := by
      intro o s'
      constructor
      · intro hr
        cases hr with
        | next h1 _ h3 =>
          obtain ⟨_, rfl⟩ := (h s hs _ _).1 h1
          cases h3 with
          | done h4 => cases h4; exact ⟨rfl, rfl⟩
        | brk h1 => exact ⟨rfl, ((h s hs _ _).1 h1).2⟩
        | leave h1 _ h3 h4 =>
          obtain ⟨h5, _⟩ := (h s hs _ _).1 h1
          exfalso
          cases st <;> simp_all [leaveOut]
      · rintro ⟨rfl, rfl⟩
        have h1 := (h s hs _ _).2 ⟨rfl, rfl⟩
        cases st with
        | brk => exact .brk h1
        | _ => exact .next h1 (.inr rfl) (.done .nil)
    refine ⟨fun o s1 hr => ?_, fun o s2 hr => ?_⟩
    · obtain ⟨rfl, rfl⟩ := (hout _ _).1 hr
      exact ⟨s, .done .nil, set_same s x _⟩
    · cases hr with
      | done h1 =>
        cases h1
        exact ⟨_, (hout _ _).2 ⟨rfl, rfl⟩, set_same s x _⟩
  | u :: vs, s, hs => by
    refine ⟨fun o s1 hr => ?_, fun o s2 hr => ?_⟩
    · cases hr with
      | next h1 h2 h3 =>
        obtain ⟨s2, h4, h5⟩ := (each_last P hP h vs _ (hP _ _ _ _ hs h1)).1 _ _ h3
        exact ⟨s2, .next h1 h2 h4, h5⟩
      | brk h1 => exact ⟨s1, .brk h1, sameBut_refl x s1⟩
      | leave h1 h2 h3 h4 => exact ⟨s1, .leave h1 h2 h3 h4, sameBut_refl x s1⟩
    · cases hr with
      | next h1 h2 h3 =>
        obtain ⟨s1, h4, h5⟩ := (each_last P hP h vs _ (hP _ _ _ _ hs h1)).2 _ _ h3
        exact ⟨s1, .next h1 h2 h4, h5⟩
      | brk h1 => exact ⟨s2, .brk h1, sameBut_refl x s2⟩
      | leave h1 h2 h3 h4 => exact ⟨s2, .leave h1 h2 h3 h4, sameBut_refl x s2⟩

end

end Verif.Py.Loops

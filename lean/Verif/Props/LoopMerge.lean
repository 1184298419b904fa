import Verif.Model.LoopMerge
import Verif.Props.ForEach
import Verif.Props.Repetition
import Verif.Props.ConstValue

/-!
C113: a loop whose body is a repetition of a block does the same as the suggested one, which has the block once and is repeated more often.
-/

namespace Verif.ForEach

variable {V H : Type} {P : Sem V H} {x : Str}

/-- `continue` only occurs in loops within. -/
def S.noCont : S → Bool
  | .cont => false
  | .seq s t => s.noCont && t.noCont
  | .if_ _ s t => s.noCont && t.noCont
  | _ => true

/-- The same values, but for a variable. -/
def Agree (x : Str) (env env' : Env V) : Prop := ∀ y, y ≠ x → env y = env' y

theorem eval_agree {env env' : Env V} (ha : Agree x env env') : ∀ (e : E) (h : H), x ∉ e.names → eval P env e h = eval P env' e h
  | .name y, h, hn => by
    unfold eval
    rw [ha y (fun hy => hn (by simp [E.names, hy]))]
  | .const n, h, _ => rfl
  | .sub a b, h, hn => by
    have hn' : x ∉ a.names ∧ x ∉ b.names := by simpa [E.names] using hn
    simp only [eval, eval_agree ha a _ hn'.1, eval_agree ha b _ hn'.2]
  | .attr m a, h, hn => by
    have hn' : x ∉ a.names := by simpa [E.names] using hn
    simp only [eval, eval_agree ha a _ hn']
  | .call a b, h, hn => by
    have hn' : x ∉ a.names ∧ x ∉ b.names := by simpa [E.names] using hn
    simp only [eval, eval_agree ha a _ hn'.1, eval_agree ha b _ hn'.2]
  | .method m a b, h, hn => by
    have hn' : x ∉ a.names ∧ x ∉ b.names := by simpa [E.names] using hn
    simp only [eval, eval_agree ha a _ hn'.1, eval_agree ha b _ hn'.2]
  | .op n a b, h, hn => by
    have hn' : x ∉ a.names ∧ x ∉ b.names := by simpa [E.names] using hn
    simp only [eval, eval_agree ha a _ hn'.1, eval_agree ha b _ hn'.2]
  | .both o a b, h, hn => by
    have hn' : x ∉ a.names ∧ x ∉ b.names := by simpa [E.names] using hn
    simp only [eval, eval_agree ha a _ hn'.1, eval_agree ha b _ hn'.2]
  | .ite c a b, h, hn => by
    have hn' : x ∉ c.names ∧ x ∉ a.names ∧ x ∉ b.names := by simpa [E.names] using hn
    simp only [eval, eval_agree ha c _ hn'.1, eval_agree ha a _ hn'.2.1, eval_agree ha b _ hn'.2.2]

theorem Agree.set {env env' : Env V} (ha : Agree x env env') (y : Str) (a : V) : Agree x (env.set y a) (env'.set y a) := fun z hz => by
  unfold Env.set
  split
  · rfl
  · exact ha z hz

theorem same_some {env env' : Env V} (ha : Agree x env env') (o : Out V) (h : H) : SameBut [x] (some (o, env, h)) (some (o, env', h)) :=
  ⟨rfl, rfl, fun y hy => ha y (by simpa using hy)⟩

theorem SameBut.cases {r r' : Res V H} (h : SameBut [x] r r') :
    (r = none ∧ r' = none) ∨ ∃ o env env' st, r = some (o, env, st) ∧ r' = some (o, env', st) ∧ Agree x env env' := by
  match r, r' with
  | none, none => exact .inl ⟨rfl, rfl⟩
  | some (o, env, st), some (o', env', st') =>
    obtain ⟨rfl, rfl, h3⟩ := h
    exact .inr ⟨o, env, env', st, rfl, rfl, fun y hy => h3 y (by simpa using hy)⟩
  | none, some _ => exact h.elim
  | some _, none => exact h.elim

theorem thenDo_agree {α : Type} {env env' : Env V} (ha : Agree x env env') (r : Ans V H α) {k k' : α → H → Res V H}
    (hk : ∀ a h, SameBut [x] (k a h) (k' a h)) : SameBut [x] (thenDo env r k) (thenDo env' r k') := by
  match r with
  | (.ok a, h) => exact hk a h
  | (.error e, h) => exact same_some ha _ _

theorem andThen_agree {r r' : Res V H} (hr : SameBut [x] r r') {k k' : Env V → H → Res V H}
    (hk : ∀ env env' h, Agree x env env' → SameBut [x] (k env h) (k' env' h)) : SameBut [x] (andThen r k) (andThen r' k') := by
  rcases hr.cases with ⟨rfl, rfl⟩ | ⟨o, env, env', st, rfl, rfl, ha⟩
  · exact hr
  · cases o <;> first | exact hk env env' st ha | exact same_some ha _ _

theorem after_agree {r r' : Res V H} (hr : SameBut [x] r r') {k k' : Env V → H → Res V H}
    (hk : ∀ env env' h, Agree x env env' → SameBut [x] (k env h) (k' env' h)) : SameBut [x] (after r k) (after r' k') := by
  rcases hr.cases with ⟨rfl, rfl⟩ | ⟨o, env, env', st, rfl, rfl, ha⟩
  · exact hr
  · cases o <;> first | exact hk env env' st ha | exact same_some ha _ _

theorem while_agree {test : Env V → H → Ans V H Bool} {body : Env V → H → Res V H}
    (ht : ∀ env env' h, Agree x env env' → test env h = test env' h)
    (hb : ∀ env env' h, Agree x env env' → SameBut [x] (body env h) (body env' h)) :
    ∀ (fuel : Nat) (env env' : Env V) (h : H), Agree x env env' → SameBut [x] (whileLoop test body fuel env h) (whileLoop test body fuel env' h)
  | 0, _, _, _, _ => trivial
  | fuel + 1, env, env', h, ha => by
    unfold whileLoop
    rw [ht env env' h ha]
    refine thenDo_agree ha _ fun t h => ?_
    cases t
    · exact same_some ha _ _
    · exact after_agree (hb _ _ _ ha) fun _ _ _ ha => while_agree ht hb fuel _ _ _ ha

theorem for_agree {it : V} {y : Str} {body : Env V → H → Res V H}
    (hb : ∀ env env' h, Agree x env env' → SameBut [x] (body env h) (body env' h)) :
    ∀ (fuel : Nat) (env env' : Env V) (h : H), Agree x env env' → SameBut [x] (forLoop P it y body fuel env h) (forLoop P it y body fuel env' h)
  | 0, _, _, _, _ => trivial
  | fuel + 1, env, env', h, ha => by
    unfold forLoop
    refine thenDo_agree ha _ fun a h => ?_
    cases a
    · exact same_some ha _ _
    · exact after_agree (hb _ _ _ (ha.set _ _)) fun _ _ _ ha => for_agree hb fuel _ _ _ ha

/-- Statements that do not mention a variable do the same whatever its value is. -/
theorem exec_agree (fuel : Nat) : ∀ (s : S) (env env' : Env V) (h : H), x ∉ s.names → Agree x env env' →
    SameBut [x] (exec P fuel s env h) (exec P fuel s env' h) := by
  intro s
  induction s with
  | skip => intro env env' h _ ha; exact same_some ha _ _
  | brk => intro env env' h _ ha; exact same_some ha _ _
  | cont => intro env env' h _ ha; exact same_some ha _ _
  | expr e =>
    intro env env' h hn ha
    simp only [exec, eval_agree ha e _ (by simpa [S.names] using hn)]
    exact thenDo_agree ha _ fun _ _ => same_some ha _ _
  | ret e =>
    intro env env' h hn ha
    simp only [exec, eval_agree ha e _ (by simpa [S.names] using hn)]
    exact thenDo_agree ha _ fun _ _ => same_some ha _ _
  | assign y e =>
    intro env env' h hn ha
    have hn' : ¬ x = y ∧ x ∉ e.names := by simpa [S.names] using hn
    simp only [exec, eval_agree ha e _ hn'.2]
    exact thenDo_agree ha _ fun _ _ => same_some (ha.set _ _) _ _
  | assignItem a b e =>
    intro env env' h hn ha
    have hn' : x ∉ a.names ∧ x ∉ b.names ∧ x ∉ e.names := by simpa [S.names] using hn
    simp only [exec, eval_agree ha a _ hn'.1, eval_agree ha b _ hn'.2.1, eval_agree ha e _ hn'.2.2]
    exact thenDo_agree ha _ fun _ _ => thenDo_agree ha _ fun _ _ => thenDo_agree ha _ fun _ _ => thenDo_agree ha _ fun _ _ => same_some ha _ _
  | assignAttr m a e =>
    intro env env' h hn ha
    have hn' : x ∉ a.names ∧ x ∉ e.names := by simpa [S.names] using hn
    simp only [exec, eval_agree ha a _ hn'.1, eval_agree ha e _ hn'.2]
    exact thenDo_agree ha _ fun _ _ => thenDo_agree ha _ fun _ _ => thenDo_agree ha _ fun _ _ => same_some ha _ _
  | augName n y e =>
    intro env env' h hn ha
    have hn' : ¬ x = y ∧ x ∉ e.names := by simpa [S.names] using hn
    simp only [exec, eval_agree ha e _ hn'.2, ha y (fun hy => hn'.1 hy.symm)]
    exact thenDo_agree ha _ fun _ _ => thenDo_agree ha _ fun _ _ => thenDo_agree ha _ fun _ _ => same_some (ha.set _ _) _ _
  | augItem n a b e =>
    intro env env' h hn ha
    have hn' : x ∉ a.names ∧ x ∉ b.names ∧ x ∉ e.names := by simpa [S.names] using hn
    simp only [exec, eval_agree ha a _ hn'.1, eval_agree ha b _ hn'.2.1, eval_agree ha e _ hn'.2.2]
    exact thenDo_agree ha _ fun _ _ => thenDo_agree ha _ fun _ _ => thenDo_agree ha _ fun _ _ => thenDo_agree ha _ fun _ _ =>
      thenDo_agree ha _ fun _ _ => thenDo_agree ha _ fun _ _ => same_some ha _ _
  | del a b =>
    intro env env' h hn ha
    have hn' : x ∉ a.names ∧ x ∉ b.names := by simpa [S.names] using hn
    simp only [exec, eval_agree ha a _ hn'.1, eval_agree ha b _ hn'.2]
    exact thenDo_agree ha _ fun _ _ => thenDo_agree ha _ fun _ _ => thenDo_agree ha _ fun _ _ => same_some ha _ _
  | seq s t ihs iht =>
    intro env env' h hn ha
    have hn' : x ∉ s.names ∧ x ∉ t.names := by simpa [S.names] using hn
    exact andThen_agree (ihs _ _ _ hn'.1 ha) fun _ _ _ ha => iht _ _ _ hn'.2 ha
  | if_ c s t ihs iht =>
    intro env env' h hn ha
    have hn' : x ∉ c.names ∧ x ∉ s.names ∧ x ∉ t.names := by simpa [S.names] using hn
    simp only [exec, eval_agree ha c _ hn'.1]
    refine thenDo_agree ha _ fun v h => ?_
    cases v
    · exact iht _ _ _ hn'.2.2 ha
    · exact ihs _ _ _ hn'.2.1 ha
  | while_ c s ih =>
    intro env env' h hn ha
    have hn' : x ∉ c.names ∧ x ∉ s.names := by simpa [S.names] using hn
    exact while_agree (test := fun env h => (eval P env c h).bind P.truth) (body := exec P fuel s)
      (fun env env' h ha => by rw [eval_agree ha c _ hn'.1]) (fun _ _ h ha => ih _ _ h hn'.2 ha) fuel _ _ h ha
  | for_ y e s ih =>
    intro env env' h hn ha
    have hn' : ¬ x = y ∧ x ∉ e.names ∧ x ∉ s.names := by simpa [S.names] using hn
    simp only [exec, eval_agree ha e _ hn'.2.1]
    exact thenDo_agree ha _ fun _ h => for_agree (body := exec P fuel s) (fun _ _ h ha => ih _ _ h hn'.2.2 ha) fuel _ _ h ha

/-! ### `continue` -/

def NotCont (r : Res V H) : Prop := ∀ env h, r ≠ some (.cont, env, h)

theorem thenDo_notCont {α : Type} {env : Env V} {r : Ans V H α} {k : α → H → Res V H} (hk : ∀ a h, NotCont (k a h)) : NotCont (thenDo env r k) := by
  match r with
  | (.ok a, h) => exact hk a h
  | (.error e, h) => intro env h' hc; cases hc

theorem after_notCont {r : Res V H} {k : Env V → H → Res V H} (hk : ∀ env h, NotCont (k env h)) : NotCont (after r k) := by
  match r with
  | none => intro env h hc; cases hc
  | some (.normal, env, h) => exact hk env h
  | some (.cont, env, h) => exact hk env h
  | some (.brk, env, h) => intro env h hc; cases hc
  | some (.ret a, env, h) => intro env h hc; cases hc
  | some (.exc a, env, h) => intro env h hc; cases hc

theorem while_notCont {test : Env V → H → Ans V H Bool} {body : Env V → H → Res V H} :
    ∀ (fuel : Nat) (env : Env V) (h : H), NotCont (whileLoop test body fuel env h)
  | 0, _, _ => fun _ _ hc => by cases hc
  | fuel + 1, env, h => by
    unfold whileLoop
    refine thenDo_notCont fun t h => ?_
    cases t
    · intro env h hc; cases hc
    · exact after_notCont fun _ _ => while_notCont fuel _ _

theorem for_notCont {it : V} {y : Str} {body : Env V → H → Res V H} :
    ∀ (fuel : Nat) (env : Env V) (h : H), NotCont (forLoop P it y body fuel env h)
  | 0, _, _ => fun _ _ hc => by cases hc
  | fuel + 1, env, h => by
    unfold forLoop
    refine thenDo_notCont fun a h => ?_
    cases a
    · intro env h hc; cases hc
    · exact after_notCont fun _ _ => for_notCont fuel _ _

theorem exec_notCont (fuel : Nat) : ∀ (s : S) (env : Env V) (h : H), s.noCont = true → NotCont (exec P fuel s env h) := by
  intro s
  induction s with
  | cont => intro _ _ hn; cases hn
  | skip => intro env h _; intro _ _ hc; cases hc
  | brk => intro env h _; intro _ _ hc; cases hc
  | seq s t ihs iht =>
    intro env h hn
    have hn' : s.noCont = true ∧ t.noCont = true := by simpa [S.noCont] using hn
    have hs := ihs env h hn'.1
    unfold exec
    match hr : exec P fuel s env h with
    | none => intro env h hc; cases hc
    | some (.normal, env, h) => exact iht env h hn'.2
    | some (.cont, env, h) => exact absurd hr (hs env h)
    | some (.brk, env, h) => intro _ _ hc; cases hc
    | some (.ret a, env, h) => intro _ _ hc; cases hc
    | some (.exc a, env, h) => intro _ _ hc; cases hc
  | if_ c s t ihs iht =>
    intro env h hn
    have hn' : s.noCont = true ∧ t.noCont = true := by simpa [S.noCont] using hn
    unfold exec
    refine thenDo_notCont fun v h => ?_
    cases v
    · exact iht _ _ hn'.2
    · exact ihs _ _ hn'.1
  | while_ c s _ => intro env h _; exact while_notCont _ _ _
  | for_ y e s _ =>
    intro env h _
    unfold exec
    exact thenDo_notCont fun _ _ => for_notCont _ _ _
  | _ =>
    intro env h _
    unfold exec
    repeat' first | (intro _ _ hc; cases hc; done) | (apply thenDo_notCont; intro _ _)

/-! ### Repeated blocks -/

/-- The statements of a block. -/
def block : List S → S
  | [] => .skip
  | s :: ss => .seq s (block ss)

theorem block_names : ∀ ss : List S, x ∈ (block ss).names ↔ ∃ s ∈ ss, x ∈ s.names
  | [] => by simp [block, S.names]
  | s :: ss => by simp [block, S.names, block_names ss]

theorem block_noCont : ∀ ss : List S, (block ss).noCont = true ↔ ∀ s ∈ ss, s.noCont = true
  | [] => by simp [block, S.noCont]
  | s :: ss => by simp [block, S.noCont, block_noCont ss]

theorem andThen_assoc (r : Res V H) (f g : Env V → H → Res V H) : andThen (andThen r f) g = andThen r fun env h => andThen (f env h) g := by
  match r with
  | none => rfl
  | some (.normal, env, h) => rfl
  | some (.cont, env, h) => rfl
  | some (.brk, env, h) => rfl
  | some (.ret a, env, h) => rfl
  | some (.exc a, env, h) => rfl

theorem exec_block (fuel : Nat) : ∀ (a b : List S) (env : Env V) (h : H),
    exec P fuel (block (a ++ b)) env h = andThen (exec P fuel (block a) env h) (exec P fuel (block b))
  | [], b, env, h => rfl
  | s :: a, b, env, h => by
    simp only [List.cons_append, block, exec, andThen_assoc]
    congr 1
    funext env h
    exact exec_block fuel a b env h

theorem after_andThen {r : Res V H} (hr : NotCont r) (f k : Env V → H → Res V H) :
    after (andThen r f) k = after r fun env h => after (f env h) k := by
  match r, hr with
  | none, _ => rfl
  | some (.normal, env, h), _ => rfl
  | some (.cont, env, h), hr => exact absurd rfl (hr env h)
  | some (.brk, env, h), _ => rfl
  | some (.ret a, env, h), _ => rfl
  | some (.exc a, env, h), _ => rfl

theorem agree_set (env : Env V) (a : V) : Agree x (env.set x a) env := fun y hy => by simp [Env.set, hy]

theorem Agree.symm {env env' : Env V} (h : Agree x env env') : Agree x env' env := fun y hy => (h y hy).symm

theorem Agree.trans {e1 e2 e3 : Env V} (h : Agree x e1 e2) (h' : Agree x e2 e3) : Agree x e1 e3 := fun y hy => (h y hy).trans (h' y hy)

/-- Some iterations, and then something else. -/
def loopThen (P : Sem V H) (x : Str) (body : Env V → H → Res V H) (k : Env V → H → Res V H) : List Nat → Env V → H → Res V H
  | [], env, h => k env h
  | n :: ns, env, h => after (body (env.set x (P.num n)) h) (loopThen P x body k ns)

theorem rangeLoop_append (body : Env V → H → Res V H) : ∀ (a b : List Nat) (env : Env V) (h : H),
    rangeLoop P x body (a ++ b) env h = loopThen P x body (rangeLoop P x body b) a env h
  | [], b, env, h => rfl
  | n :: a, b, env, h => by
    simp only [List.cons_append, rangeLoop, loopThen]
    congr 1
    funext env h
    exact rangeLoop_append body a b env h

/-- One iteration of the repeated block. -/
theorem repeated_once (fuel : Nat) (b : List S) (hx : x ∉ (block b).names) (hc : (block b).noCont = true) {f g : Env V → H → Res V H}
    (hfg : ∀ env env' h, Agree x env env' → SameBut [x] (f env h) (g env' h)) :
    ∀ (ns : List Nat) (env env' : Env V) (h : H), Agree x env env' →
      SameBut [x] (after (exec P fuel (block (List.replicate ns.length b).flatten) env h) f) (loopThen P x (exec P fuel (block b)) g ns env' h)
  | [], env, env', h, ha => hfg env env' h ha
  | n :: ns, env, env', h, ha => by
    simp only [List.length_cons, List.replicate_succ, List.flatten_cons, loopThen]
    rw [exec_block, after_andThen (exec_notCont fuel _ _ _ hc)]
    refine after_agree (exec_agree fuel _ _ _ _ hx (ha.trans (agree_set _ _).symm)) fun env env' h ha => ?_
    exact repeated_once fuel b hx hc hfg ns env env' h ha

theorem repeated_loop (fuel : Nat) (b : List S) (hx : x ∉ (block b).names) (hc : (block b).noCont = true) (k : Nat) :
    ∀ (ns ms : List Nat) (env env' : Env V) (h : H), ms.length = ns.length * k → Agree x env env' →
      SameBut [x] (rangeLoop P x (exec P fuel (block (List.replicate k b).flatten)) ns env h) (rangeLoop P x (exec P fuel (block b)) ms env' h)
  | [], ms, env, env', h, hl, ha => by
    have : ms = [] := List.length_eq_zero_iff.1 (by simpa using hl)
    subst this
    exact same_some ha _ _
  | n :: ns, ms, env, env', h, hl, ha => by
    have hk : k ≤ ms.length := by rw [hl, List.length_cons, Nat.succ_mul]; omega
    rw [← List.take_append_drop k ms, rangeLoop_append]
    unfold rangeLoop
    have hlk : (ms.take k).length = k := by simp [hk]
    have := repeated_once (P := P) fuel b hx hc (f := rangeLoop P x (exec P fuel (block (List.replicate k b).flatten)) ns)
      (g := rangeLoop P x (exec P fuel (block b)) (ms.drop k))
      (fun env env' h ha => repeated_loop fuel b hx hc k ns (ms.drop k) env env' h (by
        rw [List.length_drop, hl, List.length_cons, Nat.succ_mul]; omega) ha) (ms.take k) (env.set x (P.num n)) env' h ((agree_set _ _).trans ha)
    rw [hlk] at this
    exact this

end Verif.ForEach

namespace Verif.LoopMerge

open Verif.ForEach
open Verif.Py (Expr Lit FoldSem Tok constValue intSem rangeParams Builtins Reads)

/-- The suggested number of iterations has this value. -/
def Times.Means (R : FoldSem Py.Val) (env : Py.Env Py.Val) (m : Int) : Times → Prop
  | .value w => w.asInt = some m
  | .text toks => (∃ e, Reads 0 toks e) ∧ ∀ e, Reads 0 toks e → ∃ w, Py.eval (intSem R).toSem env e = .ok w ∧ w.asInt = some m

variable {R : FoldSem Py.Val} {env : Py.Env Py.Val}

/-- **C113**, the number: if the last argument of `range` has an integer as its value and needs no parentheses in a product, then the
suggested number is this times the number of parts. -/
theorem C113_times_partial {stop : Expr} {k : Nat} {t : Times} (h : newIter R stop k = .ok t) (hok : stop.Ok) (hp : 10 ≤ stop.prec) {v : Py.Val} {n : Int}
    (he : Py.eval (intSem R).toSem env stop = .ok v) (hv : v.asInt = some n) : t.Means R env (n * k) := by
  have hex : (intSem R).binary .mul v (.int k) = .ok (.int (n * k)) := by
    have hk : (Py.Val.int k).asInt = some (k : Int) := rfl
    simp only [intSem, hv, hk, Py.intBin]
  have htext : (Times.text (stop.text ++ [.sym "*", .lit (.int k)])).Means R env (n * k) := by
    have hr : Reads 0 (stop.text ++ [.sym "*", .lit (.int k)]) (.bin .mul stop (.const (.int k))) :=
      (Reads.bin (op := .mul) (by decide) (Py.reads_text_at hok hp) (.weaken (.weaken (.lit _)))).mono (by decide)
    refine ⟨⟨_, hr⟩, fun e he' => ?_⟩
    rw [he'.unique hr]
    refine ⟨.int (n * k), ?_, rfl⟩
    simp only [Py.eval, he]
    exact hex
  unfold newIter at h
  split at h
  · rename_i l
    simp only [Py.eval, Except.ok.injEq] at he
    rw [he, hex] at h
    cases h
    rfl
  · split at h
    · cases h
    · cases h
      exact htext

theorem constIs_value {e : Expr} {n : Int} (h : constIs R e n = .ok true) : ∃ v, Py.eval (intSem R).toSem env e = .ok v ∧ v.asInt = some n := by
  unfold constIs at h
  cases hc : constValue (intSem R) e with
  | error x => simp [hc] at h
  | ok o =>
    cases o with
    | none => simp [hc] at h
    | some v => exact ⟨v, Py.C33_value (intSem R) env e v hc, by simpa [hc] using h⟩

theorem iter_value (hB : Builtins env) {iter start stop step : Expr} (hr : rangeParams iter = some (start, stop, step)) (hpl : plain R start step = .ok true)
    {v : Py.Val} {n : Int} (he : Py.eval (intSem R).toSem env stop = .ok v) (hv : v.asInt = some n) :
    Py.eval (intSem R).toSem env iter = .ok (.range 0 n 1) := by
  unfold plain at hpl
  have hs : constIs R start 0 = .ok true := by
    cases h : constIs R start 0 with
    | error x => simp [h] at hpl
    | ok b => cases b <;> simp [h] at hpl ⊢
  rw [hs] at hpl
  simp only at hpl
  obtain ⟨v0, e0, i0⟩ := constIs_value (env := env) hs
  obtain ⟨v1, e1, i1⟩ := constIs_value (env := env) hpl
  have hrange : env "range".toList = .ok (.builtin "range".toList) := hB _ (by simp)
  unfold rangeParams at hr
  split at hr
  · rename_i f args
    split at hr
    · rename_i hf
      subst hf
      split at hr
      · cases hr
        simp only [Py.eval, hrange, Py.evalAll, he]
        exact Py.intSem_call R (by simp [Py.builtinCall, hv])
      · cases hr
        simp only [Py.eval, hrange, Py.evalAll, he, e0]
        exact Py.intSem_call R (by simp [Py.builtinCall, hv, i0])
      · cases hr
        simp only [Py.eval, hrange, Py.evalAll, he, e0, e1]
        exact Py.intSem_call R (by simp [Py.builtinCall, hv, i0, i1])
      · cases hr
    · cases hr
  · cases hr

/-- What holds if something is reported. -/
theorem reportsMerge_some {parent : Option For} {parts : List (List Node)} {used : List (Str × Nat)} {avars : Nat} {tokens stmts : List Node → Nat}
    {lines : List Nat} {t : Times} (h : reportsMerge R parent parts used avars tokens stmts = .ok (some (lines, t))) :
    ∃ f, parent = some f ∧ fills f.body parts = true ∧ avars = 0 ∧ lines = parts.filterMap (fun p => p.head?.map (·.line)) ∧ ∃ start stop step x, rangeParams f.iter = some (start, stop, step) ∧
      plain R start step = .ok true ∧ f.target = some x ∧ newIter R stop parts.length = .ok t := by
  unfold reportsMerge at h
  cases parts with
  | nil => cases h
  | cons p ps =>
    simp only at h
    split at h
    · cases h
    · cases hm : mergeFix R parent (p :: ps) used avars with
      | error e => simp [hm] at h
      | ok o =>
        cases o with
        | none => simp [hm] at h
        | some m =>
          simp only [hm] at h
          split at h
          · cases h
            unfold mergeFix at hm
            cases parent with
            | none => cases hm
            | some f =>
            simp only at hm
            split at hm
            · cases hm
            · rename_i ha
              split at hm
              · cases hm
              · rename_i hfl
                cases hr : rangeParams f.iter with
                | none => simp [hr] at hm
                | some ps' =>
                  obtain ⟨start, stop, step⟩ := ps'
                  simp only [hr] at hm
                  cases hp : plain R start step with
                  | error e => simp [hp] at hm
                  | ok b =>
                    cases b with
                    | false => simp [hp] at hm
                    | true =>
                      simp only [hp] at hm
                      cases hx : f.target with
                      | none => simp [hx] at hm
                      | some x =>
                        simp only [hx] at hm
                        split at hm
                        · cases hm
                        · cases hn : newIter R stop (p :: ps).length with
                          | error e =>
                            rw [hn] at hm
                            cases hm
                          | ok t' =>
                            rw [hn] at hm
                            cases hm
                            exact ⟨f, rfl, by simpa using hfl, by omega, rfl, start, stop, step, x, hr, hp, hx, hn⟩
          · cases h

theorem fills_all {body : List Node} {parts : List (List Node)} (h : fills body parts = true) (hid : (body.map (·.id)).Nodup) {pre post : List Node}
    (hin : body = pre ++ parts.flatten ++ post) : body = parts.flatten := by
  unfold fills at h
  split at h
  · rename_i a b c d ha hb hc hd
    simp only [Bool.and_eq_true, beq_iff_eq] at h
    obtain ⟨p, hp, hpa⟩ := Option.bind_eq_some_iff.1 ha
    obtain ⟨q, hq, hqb⟩ := Option.bind_eq_some_iff.1 hb
    obtain ⟨ps, rfl⟩ := List.head?_eq_some_iff.1 hp
    obtain ⟨p', rfl⟩ := List.head?_eq_some_iff.1 hpa
    obtain ⟨qs, hqs⟩ := List.getLast?_eq_some_iff.1 hq
    obtain ⟨q', rfl⟩ := List.getLast?_eq_some_iff.1 hqb
    have hpre : pre = [] := by
      cases pre with
      | nil => rfl
      | cons e pre =>
        rw [hin] at hc hid
        cases hc
        simp only [List.flatten_cons, List.cons_append, List.map_cons, List.nodup_cons, List.map_append, List.mem_append, List.mem_cons] at hid
        exact absurd (.inl (.inr (.inl h.1.symm))) hid.1
    have hpost : post = [] := by
      rcases List.eq_nil_or_concat post with h0 | ⟨post', e, rfl⟩
      · exact h0
      · rw [hin, hqs] at hd hid
        simp only [List.concat_eq_append, ← List.append_assoc, List.getLast?_append, List.getLast?_singleton, Option.some_or, Option.some.injEq] at hd
        subst hd
        simp only [List.concat_eq_append, List.map_append, List.map_cons, List.map_nil, List.flatten_append, List.flatten_cons, List.flatten_nil, List.append_nil,
          ← List.append_assoc] at hid
        exact absurd (by simp [h.2]) (fun hm => (List.nodup_append.1 hid).2.2 _ hm _ (List.mem_singleton.2 rfl) rfl)
    rw [hin, hpre, hpost]
    simp
  · cases h

/-- **C113**: if similar-block-to-loop-merge is reported, the parts follow one another, they do not differ, the variable of
the loop does not occur in them, and neither does `continue` outside of loops within, then they are in a loop over a range from 0 by 1, and the loop
over the suggested range with only the first of the parts as its body does the same, but for the value of the variable. The last argument of `range`
needs no parentheses in a product. -/
theorem C113_partial (hB : Builtins env) {parent : Option For} {parts : List (List Node)} {used : List (Str × Nat)} {avars : Nat}
    {tokens stmts : List Node → Nat} {lines : List Nat} {t : Times}
    (h : reportsMerge R parent parts used avars tokens stmts = .ok (some (lines, t))) {b : List S}
    (hsame : avars = 0 → ∀ p ∈ parts, p.map (·.code) = b) (hid : ∀ f, parent = some f → (f.body.map (·.id)).Nodup)
    (hin : ∀ f, parent = some f → ∃ pre post, f.body = pre ++ parts.flatten ++ post) :
    lines = parts.filterMap (fun p => p.head?.map (·.line)) ∧
    ∃ f start stop step x, parent = some f ∧ rangeParams f.iter = some (start, stop, step) ∧ f.target = some x ∧ ∀ v n, stop.Ok → 10 ≤ stop.prec →
      Py.eval (intSem R).toSem env stop = .ok v → v.asInt = some n → x ∉ (block b).names → (block b).noCont = true →
        Py.eval (intSem R).toSem env f.iter = .ok (.range 0 n 1) ∧ ∃ m : Int, t.Means R env m ∧
          ∀ {V H : Type} (P : Sem V H) (fuel : Nat) (e : Env V) (st : H),
            SameBut [x] (runRange P fuel x (block (f.body.map (·.code))) n.toNat e st) (runRange P fuel x (block b) m.toNat e st) := by
  obtain ⟨f, rfl, hfl, h0, hl, start, stop, step, x, h1, h2, h3, h4⟩ := reportsMerge_some h
  refine ⟨hl, f, start, stop, step, x, rfl, h1, h3, fun v n hok hp he hv hx hc => ⟨iter_value hB h1 h2 he hv, n * parts.length, C113_times_partial h4 hok hp he hv, ?_⟩⟩
  intro V H P fuel e st
  obtain ⟨pre, post, hin⟩ := hin f rfl
  have hrep : f.body.map (·.code) = (List.replicate parts.length b).flatten := by
    rw [fills_all hfl (hid f rfl) hin, List.map_flatten]
    congr 1
    exact List.eq_replicate_iff.2 ⟨by simp, fun l hl => by
      obtain ⟨p, hp, rfl⟩ := List.mem_map.1 hl
      exact hsame h0 p hp⟩
  rw [hrep]
  refine repeated_loop fuel b hx hc parts.length _ _ e e st ?_ fun _ _ => rfl
  simp only [List.length_range]
  rcases Int.le_total 0 n with h | h
  · obtain ⟨m, rfl⟩ := Int.eq_ofNat_of_zero_le h
    norm_cast
  · rw [Int.toNat_eq_zero.2 h, Nat.zero_mul, Int.toNat_eq_zero.2 (Int.mul_nonpos_of_nonpos_of_nonneg h (by omega))]

theorem sum_replicate (n c : Nat) : (List.replicate n c).sum = n * c := by simp

/-- **C113**, what is reported: each loop over a range from 0 by 1 whose body consists of parts that do not differ, at least three parts or at least
two with three statements. -/
theorem C113_reported {f : For} {parts : List (List Node)} (used : List (Str × Nat)) (tokens stmts : List Node → Nat) {p : List Node}
    {ps : List (List Node)} (hparts : parts = p :: ps) (hne : ∀ p ∈ parts, p ≠ []) (hall : f.body = parts.flatten) {x : Str} (hx : f.target = some x)
    {start stop step : Expr} (hr : rangeParams f.iter = some (start, stop, step)) (hpl : plain R start step = .ok true) {t : Times}
    (ht : newIter R stop parts.length = .ok t) (hsize : 3 ≤ parts.length ∨ 2 ≤ parts.length ∧ 3 ≤ p.length)
    (htok : ∀ q ∈ parts, tokens q = tokens p) (hpos : 0 < tokens p) (hst : ∀ q ∈ parts, stmts q = stmts p) :
    reportsMerge R (some f) parts used 0 tokens stmts = .ok (some (parts.filterMap (fun p => p.head?.map (·.line)), t)) := by
  have hfills : fills f.body parts = true := by
    obtain ⟨a, ha⟩ : ∃ a, p.head? = some a := by
      cases p with
      | nil => exact absurd rfl (hne [] (by simp [hparts]))
      | cons a p => exact ⟨a, rfl⟩
    obtain ⟨q, hq⟩ : ∃ q, parts.getLast? = some q := by
      rw [hparts]
      exact ⟨(p :: ps).getLast (by simp), List.getLast?_eq_some_getLast (by simp)⟩
    obtain ⟨ini, hini⟩ : ∃ ini, parts = ini ++ [q] := by
      obtain ⟨ini, h⟩ := List.getLast?_eq_some_iff.1 hq
      exact ⟨ini, h⟩
    obtain ⟨d, hd⟩ : ∃ d, q.getLast? = some d := by
      have hqne := hne q (by simp [hini])
      exact ⟨q.getLast hqne, List.getLast?_eq_some_getLast hqne⟩
    have h1 : parts.head?.bind List.head? = some a := by simp [hparts, ha]
    have h2 : parts.getLast?.bind List.getLast? = some d := by simp [hq, hd]
    have h3 : f.body.head? = some a := by
      rw [hall, hparts]
      cases p with
      | nil => cases ha
      | cons a' p => cases ha; rfl
    have h4 : f.body.getLast? = some d := by
      rw [hall, hini, List.flatten_append]
      simp [hd]
    unfold fills
    rw [h1, h2, h3, h4]
    simp
  have hm : mergeFix R (some f) parts used 0 = .ok (some (parts.filterMap (fun p => p.head?.map (·.line)), t)) := by
    have hu : usesTarget used x f.scope = false := by
      unfold usesTarget
      simp
    simp [mergeFix, hfills, hr, hpl, hx, hu, ht]
  have hsum : ∀ g : List Node → Nat, (∀ q ∈ parts, g q = g p) → (parts.map g).sum = parts.length * g p := by
    intro g hg
    rw [List.map_eq_replicate_iff.2 hg, sum_replicate]
  subst hparts
  unfold reportsMerge
  simp only
  rw [if_neg (by omega), hm]
  simp only
  rw [hsum tokens htok, hsum stmts hst]
  have hk : 2 ≤ (p :: ps).length := by omega
  have hsv : saves ((p :: ps).length * tokens p) ((p :: ps).length * stmts p) (tokens p) (stmts p) = true := by
    unfold saves
    have h1 : 2 * tokens p ≤ (p :: ps).length * tokens p := Nat.mul_le_mul_right _ hk
    have h2 : 2 * stmts p ≤ (p :: ps).length * stmts p := Nat.mul_le_mul_right _ hk
    simp only [Bool.and_eq_true, decide_eq_true_eq]
    omega
  rw [if_pos hsv]

/-! ### Examples -/

/-- `for i in range(2):` with the given statements, each on a line of its own -/
def twice (ss : List S) : For := ⟨ss.mapIdx fun i s => ⟨i, i + 2, s⟩, .call (.name "range".toList) [.const (.int 2)], some iName, 0⟩

/-- Each of the statements is a part. -/
def single (f : For) : List (List Node) := f.body.map fun n => [n]

def prints (n : Nat) : S := printOf (.const n)

/-- `print(7); print(7); print(7)` -/
example : reportsMerge R (some (twice [prints 7, prints 7, prints 7])) (single (twice [prints 7, prints 7, prints 7])) [(printName, 0)] 0 (fun _ => 3) (fun _ => 1) =
    .ok (some ([2, 3, 4], .value (.int 6))) := rfl

example : reportsMerge R (some (twice [prints 7, prints 7, prints 7])) (single (twice [prints 7, prints 7, prints 7])) [(printName, 0)] 0 (fun _ => 3) (fun _ => 1) =
    .ok (some ([2, 3, 4], .value (.int 6))) :=
  C113_reported (p := [⟨0, 2, prints 7⟩]) _ _ _ rfl (by simp [single, twice]) rfl rfl rfl rfl rfl (.inl (by decide)) (fun _ _ => rfl) (by decide) fun _ _ => rfl

example : seen (runRange small 5 iName (block [prints 7, prints 7, prints 7]) 2 env0 ⟨[], []⟩) = some (none, ⟨[], [7, 7, 7, 7, 7, 7]⟩) ∧
    seen (runRange small 5 iName (block [prints 7]) 6 env0 ⟨[], []⟩) = some (none, ⟨[], [7, 7, 7, 7, 7, 7]⟩) := by decide +kernel

/-- The premises of `C113_partial` hold for it. -/
example (hB : Builtins env) := C113_partial (R := R) (env := env) hB (parent := some (twice [prints 7, prints 7, prints 7]))
  (parts := single (twice [prints 7, prints 7, prints 7])) (used := [(printName, 0)]) (avars := 0) (tokens := fun _ => 3) (stmts := fun _ => 1) (b := [prints 7])
  rfl (by simp [single, twice]) (by intro f hf; cases hf; decide) (by intro f hf; cases hf; exact ⟨[], [], rfl⟩)

/-- Two statements, parts that are not in a loop or in one over something else, and parts that are not all of the loop are not reported. -/
example : reportsMerge R none (single (twice [prints 7, prints 7, prints 7])) [] 0 (fun _ => 3) (fun _ => 1) = .ok none ∧
    reportsMerge R (some (twice [prints 7, prints 7, prints 7, prints 7])) (single (twice [prints 7, prints 7, prints 7])) [] 0 (fun _ => 3) (fun _ => 1) =
      .ok none ∧ reportsMerge R (some (twice [prints 7, prints 7])) (single (twice [prints 7, prints 7])) [] 0 (fun _ => 3) (fun _ => 1) = .ok none ∧
    reportsMerge R (some { twice [prints 7, prints 7, prints 7] with iter := .name xsName }) (single (twice [prints 7, prints 7, prints 7])) [] 0
      (fun _ => 3) (fun _ => 1) = .ok none ∧
    reportsMerge R (some { twice [prints 7, prints 7, prints 7] with iter := .call (.name "range".toList) [.const (.int 1), .const (.int 5)] })
      (single (twice [prints 7, prints 7, prints 7])) [] 0 (fun _ => 3) (fun _ => 1) = .ok none ∧
    reportsMerge R (some (twice [prints 8, prints 7, prints 7, prints 7])) (single (twice [prints 8, prints 7, prints 7, prints 7])).tail [] 0 (fun _ => 3) (fun _ => 1) = .ok none ∧
    reportsMerge R (some (twice [prints 7, prints 7, prints 8])) (single (twice [prints 7, prints 7, prints 8])) [] 1 (fun _ => 3) (fun _ => 1) = .ok none :=
  ⟨rfl, rfl, rfl, rfl, rfl, rfl, rfl⟩

/-! ### Disagreements -/

/-- `print(i); print(i); print(i)` is reported: the variable is looked for as a tuple. -/
theorem C113_variable_counterexample :
    reportsMerge R (some (twice [printOf (.name iName), printOf (.name iName), printOf (.name iName)]))
        (single (twice [printOf (.name iName), printOf (.name iName), printOf (.name iName)])) [(iName, 0), (printName, 0)] 0 (fun _ => 3) (fun _ => 1) =
      .ok (some ([2, 3, 4], .value (.int 6))) ∧
      seen (runRange small 5 iName (block [printOf (.name iName), printOf (.name iName), printOf (.name iName)]) 2 env0 ⟨[], []⟩) =
        some (none, ⟨[], [0, 0, 0, 1, 1, 1]⟩) ∧
      seen (runRange small 5 iName (block [printOf (.name iName)]) 6 env0 ⟨[], []⟩) = some (none, ⟨[], [0, 1, 2, 3, 4, 5]⟩) :=
  ⟨rfl, by decide +kernel, by decide +kernel⟩

/-- `print(7); if 1: continue` -/
def skips : List S := [prints 7, .if_ (.const 1) .cont .skip]

/-- Three times `print(7); if 1: continue` is reported, although the second and the third are not reached. -/
theorem C113_continue_counterexample :
    reportsMerge R (some (twice (skips ++ skips ++ skips)))
        [(twice (skips ++ skips ++ skips)).body.take 2, ((twice (skips ++ skips ++ skips)).body.drop 2).take 2, (twice (skips ++ skips ++ skips)).body.drop 4]
        [(printName, 0)] 0 (fun _ => 6) (fun _ => 3) = .ok (some ([2, 4, 6], .value (.int 6))) ∧
      seen (runRange small 5 iName (block (skips ++ skips ++ skips)) 2 env0 ⟨[], []⟩) = some (none, ⟨[], [7, 7]⟩) ∧
      seen (runRange small 5 iName (block skips) 6 env0 ⟨[], []⟩) = some (none, ⟨[], [7, 7, 7, 7, 7, 7]⟩) :=
  ⟨rfl, by decide +kernel, by decide +kernel⟩

/-- `n + 1` -/
def nPlus : Expr := .bin .add (.name ['n']) (.const (.int 1))

/-- For `range(n + 1)`, the suggested number is `n + 1 * 3`. -/
theorem C113_product_counterexample (hn : env ['n'] = .ok (.int 1)) :
    newIter R nPlus 3 = .ok (.text (nPlus.text ++ [.sym "*", .lit (.int 3)])) ∧
      Py.eval (intSem R).toSem env nPlus = .ok (.int 2) ∧ (Times.text (nPlus.text ++ [.sym "*", .lit (.int 3)])).Means R env 4 := by
  have hr : Reads 0 (nPlus.text ++ [.sym "*", .lit (.int 3)]) (.bin .add (.name ['n']) (.bin .mul (.const (.int 1)) (.const (.int 3)))) :=
    (Reads.bin (op := .add) (t := [.ident ['n']]) (u := [.lit (.int 1), .sym "*", .lit (.int 3)]) (by decide) ((Reads.name ['n']).mono (by decide))
      (Reads.bin (op := .mul) (t := [.lit (.int 1)]) (u := [.lit (.int 3)]) (by decide) ((Reads.lit _).mono (by decide)) ((Reads.lit _).mono (by decide)))).mono
      (by decide)
  refine ⟨rfl, by simp [nPlus, Py.eval, hn, intSem, Py.Val.asInt, Py.intBin], ⟨_, hr⟩, fun e he => ?_⟩
  rw [he.unique hr]
  exact ⟨.int 4, by simp [Py.eval, hn, intSem, Py.Val.asInt, Py.intBin], rfl⟩

/-- The value of the variable after the loop is not the same. -/
theorem C113_after_counterexample :
    (runRange small 5 iName (block [prints 7, prints 7, prints 7]) 2 env0 ⟨[], []⟩).map (fun r => r.2.1 iName) = some (some (.num 1)) ∧
      (runRange small 5 iName (block [prints 7]) 6 env0 ⟨[], []⟩).map (fun r => r.2.1 iName) = some (some (.num 5)) := by decide +kernel

/-- `print(7); y = print(8); print(7); print(7)`, where `y` is not used, so that the assignment is left out -/
theorem C113_skipped_counterexample :
    let f := twice [prints 7, .assign ['y'] (.call (.name printName) (.const 8)), prints 7, prints 7]
    reportsMerge R (some f) [f.body.take 1, (f.body.drop 2).take 1, f.body.drop 3] [(printName, 0)] 0 (fun _ => 3) (fun _ => 1) =
      .ok (some ([2, 4, 5], .value (.int 6))) ∧
      seen (runRange small 5 iName (block (f.body.map (·.code))) 2 env0 ⟨[], []⟩) = some (none, ⟨[], [7, 8, 7, 7, 7, 8, 7, 7]⟩) ∧
      seen (runRange small 5 iName (block [prints 7]) 6 env0 ⟨[], []⟩) = some (none, ⟨[], [7, 7, 7, 7, 7, 7]⟩) ∧
      seen (runRange small 5 iName (block [prints 7, .assign ['y'] (.call (.name printName) (.const 8))]) 6 env0 ⟨[], []⟩) =
        some (none, ⟨[], [7, 8, 7, 8, 7, 8, 7, 8, 7, 8, 7, 8]⟩) :=
  ⟨rfl, by decide +kernel, by decide +kernel, by decide +kernel⟩

end Verif.LoopMerge

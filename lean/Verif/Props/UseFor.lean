import Verif.Lemmas.UseFor
import Verif.Props.Uses

/-!
**C110**: loops that are reported to be `for` loops.

Full statement: if `use-for-loop` is reported for a `while`, then every iteration changes the variable of the test by the same step of one
towards the limit, exactly once, and nothing else in the test is assigned to; so the loop runs for the values of a `range`.
-/

namespace Verif.UseFor

open Verif.Flow
open Verif.Traverse (Loc locAt)
open Verif.Inside (At Inside place first modifying)
open Verif.Cfg (Event Item)
open Verif.Uses (File Gives ownEvents labels usesOf mem_own mem_labels mem_usesOf)
open Verif.Py (CmpOp intCmp rangeLen pyRange)

/-! ### What an assignment changes -/

/-- The value of an operand, if it is an integer; `x` is the value of the variable. -/
def Operand.val (env : Nat → Int) (x : Int) : Operand → Option Int
  | .self => some x
  | .const c => some c
  | .text => none
  | .other n => some (env n)

/-- The result of the operator. -/
def Op.on : Op → Option Int → Option Int → Option Int
  | .add, some a, some b => some (a + b)
  | .sub, some a, some b => some (a - b)
  | _, _, _ => none

/-- The value of the variable afterwards, as far as it is known. -/
def Write.run (env : Nat → Int) (x : Int) : Write → Option Int
  | .aug op v => op.on (some x) (v.val env x)
  | .assign op left right => op.on (left.val env x) (right.val env x)
  | .value => none
  | .other => none

theorem constOf_int {o : Operand} {c : Int} (h : constOf o = .int c) : o = .const c := by
  cases o <;> simp only [constOf] at h <;> cases h
  rfl

/-- **C110**, the changes: what is found to change the variable by `c` adds `c` to it. Missing: `x = c - x`, for which it is false. -/
theorem C110_change_partial (w : Write) (c : Int) (h : changeValue w = .ok (some c)) (hw : ∀ k, w ≠ .assign .sub (.const k) .self)
    (env : Nat → Int) (x : Int) : w.run env x = some (x + c) := by
  cases w with
  | value => cases h
  | other => cases h
  | aug op value =>
    cases op with
    | other => cases h
    | add =>
      simp only [changeValue] at h
      cases hc : constOf value with
      | none => rw [hc] at h; cases h
      | text => rw [hc] at h; cases h
      | int k => rw [hc] at h; cases h; rw [constOf_int hc]; rfl
    | sub =>
      simp only [changeValue] at h
      cases hc : constOf value with
      | none => rw [hc] at h; cases h
      | text => rw [hc] at h; cases h
      | int k => rw [hc] at h; cases h; rw [constOf_int hc]; rfl
  | assign op left right =>
    have key : ∀ k, other left right = .int k → (left = .self ∧ right = .const k) ∨ (left = .const k ∧ right = .self) := by
      intro k hk
      unfold other at hk
      split at hk
      · rename_i hr; exact .inr ⟨constOf_int hk, hr⟩
      · split at hk
        · rename_i hl; exact .inl ⟨hl, constOf_int hk⟩
        · cases hk
    cases op with
    | other => cases h
    | add =>
      simp only [changeValue] at h
      cases hc : other left right with
      | none => rw [hc] at h; cases h
      | text => rw [hc] at h; cases h
      | int k =>
        rw [hc] at h; cases h
        rcases key _ hc with ⟨rfl, rfl⟩ | ⟨rfl, rfl⟩
        · rfl
        · show some (c + x) = some (x + c)
          rw [Int.add_comm]
    | sub =>
      simp only [changeValue] at h
      cases hc : other left right with
      | none => rw [hc] at h; cases h
      | text => rw [hc] at h; cases h
      | int k =>
        rw [hc] at h; cases h
        rcases key _ hc with ⟨rfl, rfl⟩ | ⟨rfl, rfl⟩
        · rfl
        · exact absurd rfl (hw k)

/-- `x += 2`, `x = x - 1`, `x = 3 + x`, `x -= -1`. -/
example : changeValue (.aug .add (.const 2)) = .ok (some 2) ∧ changeValue (.assign .sub .self (.const 1)) = .ok (some (-1)) ∧
    changeValue (.assign .add (.const 3) .self) = .ok (some 3) ∧ changeValue (.aug .sub (.const (-1))) = .ok (some 1) := ⟨rfl, rfl, rfl, rfl⟩

/-- `x = y + 1`, `x += y`, `x *= 2`, `x = x + x`. -/
example : changeValue (.assign .add (.other 0) (.const 1)) = .ok none ∧ changeValue (.aug .add (.other 0)) = .ok none ∧
    changeValue (.aug .other (.const 2)) = .ok none ∧ changeValue (.assign .add .self .self) = .ok none := ⟨rfl, rfl, rfl, rfl⟩

/-- The changes are false of `x = 1 - x`, which is taken for `x = x - 1`. -/
theorem C110_reversed_counterexample : changeValue (.assign .sub (.const 1) .self) = .ok (some (-1)) ∧
    Write.run (fun _ => 0) 5 (.assign .sub (.const 1) .self) = some (-4) := ⟨rfl, rfl⟩

/-- Each change is the same. -/
theorem reduced_all {cs : List (Option Int)} {c : Int} (h : reduced cs = some c) : cs ≠ [] ∧ ∀ x ∈ cs, x = some c := by
  have key : ∀ (cs : List (Option Int)) (r : Option Int), cs.foldl both r = some c → r = some c ∧ ∀ x ∈ cs, x = some c := by
    intro cs
    induction cs with
    | nil => exact fun r h => ⟨h, by simp⟩
    | cons a cs ih =>
      intro r h
      obtain ⟨h1, h2⟩ := ih _ h
      unfold both at h1
      split at h1
      · rename_i hc
        rw [h1] at hc
        exact ⟨hc.2.2.symm, fun x hx => by
          rcases List.mem_cons.1 hx with rfl | hx
          · exact h1
          · exact h2 x hx⟩
      · cases h1
  cases cs with
  | nil => cases h
  | cons a cs =>
    obtain ⟨h1, h2⟩ := key cs a h
    refine ⟨by simp, fun x hx => ?_⟩
    rcases List.mem_cons.1 hx with rfl | hx
    · exact h1
    · exact h2 x hx

/-! ### The test -/

/-- The value of the test, if the variable has the value `x` and the other side has the value `limit`. -/
def Test.value (T : Test) (v : Nat) (x limit : Int) : Option Bool :=
  if T.left = .var v then intCmp T.op x limit else intCmp T.op limit x

/-- `range(start, limit, change)`, or one further if the test is also true of the limit. -/
def Test.stop (T : Test) (limit change : Int) : Int := if T.op = .lt ∨ T.op = .gt then limit else limit + change

theorem fromRange_iff {T : Test} {v : Nat} (h : T.fromRange v = true) :
    (T.left = .var v ∧ v ∉ T.right.events) ∨ (T.right = .var v ∧ v ∉ T.left.events) := by
  unfold Test.fromRange at h
  rw [Bool.and_eq_true, Bool.or_eq_true] at h
  obtain ⟨h1, h2⟩ := h
  simp only [beq_iff_eq] at h1 h2
  rw [List.count_append] at h1
  rcases h2 with h2 | h2
  · refine .inl ⟨h2, fun hm => ?_⟩
    have h3 : T.left.events.count v = 1 := by rw [h2]; simp [Side.events]
    have := List.count_pos_iff.2 hm
    omega
  · refine .inr ⟨h2, fun hm => ?_⟩
    have h3 : T.right.events.count v = 1 := by rw [h2]; simp [Side.events]
    have := List.count_pos_iff.2 hm
    omega

/-- **C110**, the values: if the change is towards the limit, then, as long as it happens once in each iteration, the test is true as
often as there are elements in the range, and the values of the variable are those elements. -/
theorem C110_range (T : Test) (v : Nat) (c : Int) (hc : c = 1 ∨ c = -1) (hv : T.fromRange v = true) (ht : T.towards v c = true) (x limit : Int) :
    (∀ n : Nat, T.value v (x + c * n) limit = some (decide (n < (pyRange x (T.stop limit c) c).length))) ∧
      ∀ n : Nat, n < (pyRange x (T.stop limit c) c).length → (pyRange x (T.stop limit c) c)[n]? = some (x + c * n) := by
  have hlen : (pyRange x (T.stop limit c) c).length = rangeLen x (T.stop limit c) c := by simp [pyRange]
  refine ⟨fun n => ?_, fun n hn => ?_⟩
  · rw [hlen]
    rcases fromRange_iff hv with ⟨h1, h2⟩ | ⟨h1, h2⟩
    · have hm : T.left.events.contains v = true := by rw [h1]; simp [Side.events]
      unfold Test.towards at ht
      rw [if_pos hm] at ht
      simp only [Bool.or_eq_true, Bool.and_eq_true, beq_iff_eq, decide_eq_true_eq] at ht
      unfold Test.value
      rw [if_pos h1]
      rcases hc with rfl | rfl
      · rcases ht with ⟨-, h | h⟩ | ⟨h, -⟩
        · simp [h, intCmp, Test.stop, rangeLen]; omega
        · simp [h, intCmp, Test.stop, rangeLen]; omega
        · omega
      · rcases ht with ⟨h, -⟩ | ⟨-, h | h⟩
        · omega
        · simp [h, intCmp, Test.stop, rangeLen]; omega
        · simp [h, intCmp, Test.stop, rangeLen]; omega
    · have hm : ¬ T.left.events.contains v = true := by simpa using h2
      have hl : T.left ≠ .var v := by intro e; rw [e] at h2; simp [Side.events] at h2
      unfold Test.towards at ht
      rw [if_neg hm] at ht
      simp only [Bool.or_eq_true, Bool.and_eq_true, beq_iff_eq, decide_eq_true_eq] at ht
      unfold Test.value
      rw [if_neg hl]
      rcases hc with rfl | rfl
      · rcases ht with ⟨h, -⟩ | ⟨-, h | h⟩
        · omega
        · simp [h, intCmp, Test.stop, rangeLen]; omega
        · simp [h, intCmp, Test.stop, rangeLen]; omega
      · rcases ht with ⟨-, h | h⟩ | ⟨h, -⟩
        · simp [h, intCmp, Test.stop, rangeLen]; omega
        · simp [h, intCmp, Test.stop, rangeLen]; omega
        · omega
  · rw [hlen] at hn
    simp [pyRange, hn]

/-- `while x <= 7` with `x += 1` from 5: `range(5, 8)`; `while 7 < x` with `x -= 1` from 9: `range(9, 7, -1)`. -/
example : pyRange 5 ((⟨.var 0, .le, .expr [1]⟩ : Test).stop 7 1) 1 = [5, 6, 7] ∧
    pyRange 9 ((⟨.expr [], .lt, .var 0⟩ : Test).stop 7 (-1)) (-1) = [9, 8] := by decide

/-! ### Reported loops -/

/-- Results without an error. -/
theorem mapM_ok {α β : Type} {f : α → Except PyErr β} : ∀ {l : List α} {r : List β}, l.mapM f = .ok r → ∀ a ∈ l, ∃ b ∈ r, f a = .ok b
  | [], _, _, _, h => nomatch h
  | a :: l, r, h, x, hx => by
    rw [List.mapM_cons] at h
    cases h1 : f a with
    | error e => rw [h1] at h; cases h
    | ok b =>
      rw [h1] at h
      cases h2 : l.mapM f with
      | error e => rw [h2] at h; cases h
      | ok bs =>
        rw [h2] at h
        cases h
        rcases List.mem_cons.1 hx with rfl | hx
        · exact ⟨b, by simp, h1⟩
        · obtain ⟨b', hb, hf⟩ := mapM_ok h2 x hx
          exact ⟨b', by simp [hb], hf⟩

/-- What the check means. -/
theorem checks_true {L : Loop} {g : Flow.Graph} {p : Body} {T : Test} {items : Nat → List Item} {write : Nat → Write}
    {definitions : List (Event × Event)} {home : Nat → Nat} (h : L.Checks g p T items write definitions home (.ok true)) :
    ∃ locs v c, Inside g L.body locs ∧ (c = 1 ∨ c = -1) ∧ T.fromRange v = true ∧ T.towards v c = true ∧
      (∀ e ∈ eventsIn g items T.vars locs, e.2.var = v ∧ changeValue (write e.2.node) = .ok (some c) ∧ L.inner e.1 = false) ∧
      again definitions (eventsIn g items T.vars locs) = false ∧
      L.EveryPath g p ((eventsIn g items T.vars locs).map (·.1)) (L.usedOutside definitions home (eventsIn g items T.vars locs)) true := by
  unfold Loop.Checks at h
  split at h
  · obtain ⟨locs, hl, h⟩ := h
    refine ⟨locs, ?_⟩
    generalize eventsIn g items T.vars locs = evs at h ⊢
    unfold Loop.Decides at h
    cases ho : onlyVar evs with
    | none => simp only [ho] at h; cases h
    | some v =>
      cases hc : evs.mapM fun e => changeValue (write e.2.node) with
      | error x => simp only [ho, hc] at h; cases h
      | ok cs =>
        simp only [ho, hc] at h
        cases hr : reduced cs with
        | none => simp only [hr] at h; cases h
        | some c =>
          simp only [hr] at h
          split at h
          · rename_i hch
            obtain ⟨every, h1, h2⟩ := h
            injection h2 with h2
            have k := h2.symm
            simp only [Loop.holds, Bool.and_eq_true, Bool.not_eq_true'] at k
            obtain ⟨⟨⟨⟨k2, h3⟩, h4⟩, h5⟩, k6⟩ := k
            rw [k6] at h1
            refine ⟨v, c, hl, hch, k2, h3, fun e he => ⟨?_, ?_, ?_⟩, h4, h1⟩
            · cases evs with
              | nil => cases he
              | cons a es =>
                simp only [onlyVar] at ho
                cases ha : es.all fun e' => e'.2.var == a.2.var with
                | true =>
                  rw [ha, if_pos rfl] at ho
                  cases ho
                  rcases List.mem_cons.1 he with rfl | he
                  · rfl
                  · simpa using List.all_eq_true.1 ha e he
                | false => rw [ha] at ho; cases ho
            · obtain ⟨b, hb, hf⟩ := mapM_ok hc e he
              rw [hf, (reduced_all hr).2 b hb]
            · simpa using List.any_eq_false.1 h5 e he
          · cases h
  · cases h

theorem mem_eventsAt {items : Nat → List Item} {vars : List Nat} {l l' : Nat} {e : Event} :
    (l', e) ∈ eventsAt items vars l ↔ l' = l ∧ e ∈ ownEvents (items l) ∧ e.var ∈ vars ∧ modifying e.type = true := by
  unfold eventsAt
  simp only [List.mem_flatMap, List.mem_map, List.mem_filter, Bool.and_eq_true, beq_iff_eq, Prod.mk.injEq]
  constructor
  · rintro ⟨v, hv, e', ⟨h1, rfl, h2⟩, rfl, rfl⟩
    exact ⟨rfl, h1, hv, h2⟩
  · rintro ⟨rfl, h1, h2, h3⟩
    exact ⟨_, h2, e, ⟨h1, rfl, h3⟩, rfl, rfl⟩

theorem mem_eventsIn {g : Flow.Graph} {items : Nat → List Item} {vars : List Nat} {locs : List Loc} {l : Nat} {e : Event} :
    (l, e) ∈ eventsIn g items vars locs ↔ (∃ x ∈ locs, locAt g x = some l) ∧ .own e ∈ items l ∧ e.var ∈ vars ∧ modifying e.type = true := by
  unfold eventsIn
  rw [List.mem_flatMap]
  constructor
  · rintro ⟨l', h1, h2⟩
    obtain ⟨rfl, h3, h4, h5⟩ := mem_eventsAt.1 h2
    exact ⟨mem_labels.1 h1, mem_own.1 h3, h4, h5⟩
  · rintro ⟨h1, h2, h3, h4⟩
    exact ⟨l, mem_labels.2 h1, mem_eventsAt.2 ⟨rfl, mem_own.2 h2, h3, h4⟩⟩

theorem mem_vars {T : Test} {v : Nat} : v ∈ T.vars ↔ v ∈ T.left.events ∨ v ∈ T.right.events := by
  unfold Test.vars
  rw [List.mem_eraseDups, List.mem_append]

theorem fromRange_vars {T : Test} {v : Nat} (h : T.fromRange v = true) : v ∈ T.vars := by
  rw [mem_vars]
  rcases fromRange_iff h with ⟨h, -⟩ | ⟨h, -⟩
  · exact .inl (by rw [h]; simp [Side.events])
  · exact .inr (by rw [h]; simp [Side.events])

variable {L : Loop} {p : Body} {f : Bool}

theorem test_outside (hat : At (.cons L.stmt .nil) true p f) (hd : p.locations.Nodup) : L.test ∉ L.body.locations := by
  have h : (Body.cons L.stmt .nil).locations.Nodup := hat.sublist.nodup hd
  have h : (L.test :: (L.body.locations ++ L.orelse.locations)).Nodup := by
    simpa [Body.locations, Loop.stmt, Stmt.locations] using h
  exact fun hm => (List.nodup_cons.1 h).1 (List.mem_append_left _ hm)

theorem first_body {s : Stmt} {rest : Body} (hb : L.body = .cons s rest) : first s ∈ L.body.locations := by
  rw [hb]
  simp only [Body.locations, List.mem_append]
  exact .inl (Inside.first_mem s)

/-- **C110**: if the loop is reported, then there is a variable that is one side of the test, and a step of one towards the limit, such
that all assignments to variables of the test that are executed in the body change that variable by that step, according to the
check, outside of other loops; and each time the test is executed again after the body has been begun, there has been one. Missing:
iterations in which there is a `break` of another loop, and loops that are followed by others and have an `else` such that no
execution gets from the test to what follows; what is missing for C90 and C70. -/
theorem C110_partial (W : World) (p : Body) (L : Loop) (f : Bool) (hat : At (.cons L.stmt .nil) true p f) (hm : p.mild = true)
    (hf : W.asks = true ∨ p.noFor = true) (ht : p.noTry = true ∨ ∀ l x, ¬ W.raises l x) (hfin : p.noFinally = true) (hd : p.locations.Nodup)
    (T : Test) (items : Nat → List Item) (write : Nat → Write) (definitions : List (Event × Event)) (home : Nat → Nat)
    (h : L.Checks (moduleGraph p) p T items write definitions home (.ok true)) :
    ∃ v c, (c = 1 ∨ c = -1) ∧ T.fromRange v = true ∧ T.towards v c = true ∧
      (∀ tr o, RunBody W p tr o → ∀ l ∈ tr, l ∈ L.body.locations → ∀ e, .own e ∈ items l → e.var ∈ T.left.events ∨ e.var ∈ T.right.events →
        modifying e.type = true → e.var = v ∧ changeValue (write e.node) = .ok (some c) ∧ ∀ x ∈ L.body.parts, l ∉ loopLocs x) ∧
      ∀ tr o s rest t1 t2 t3, RunBody W p tr o → L.body = .cons s rest → tr = t1 ++ first s :: (t2 ++ L.test :: t3) →
        (∀ z ∈ first s :: t2, leaves p z = false) →
        (followed L.test p = some true → ∃ tr' o' u1 l u3, RunBody W p tr' o' ∧ tr' = u1 ++ L.test :: l :: u3 ∧ L.has l = false) →
        ∃ l ∈ first s :: t2, l ∈ L.body.locations ∧ ∃ e, .own e ∈ items l ∧ e.var = v ∧ modifying e.type = true := by
  obtain ⟨locs, v, c, h1, h2, h3, h4, h5, h6, h7⟩ := checks_true h
  obtain ⟨s, rest, hb⟩ := Inside.cons_of h1
  have hbat : At L.body true p true := body_at hat rfl (by rw [hb]; rfl)
  refine ⟨v, c, h2, h3, h4, fun tr o hr l hl hlb e he hv hmo => ?_, fun tr o s' rest' t1 t2 t3 hr hb' htr hleave hnext => ?_⟩
  · have hx := Inside.C90_partial W p L.body true hbat (.inl rfl) hm hf ht hfin hd locs h1 tr o hr l hl hlb
    obtain ⟨k1, k2, k3⟩ := h5 (l, e) (mem_eventsIn.2 ⟨hx, he, mem_vars.2 hv, hmo⟩)
    refine ⟨k1, k2, fun x hx hm => ?_⟩
    unfold Loop.inner at k3
    simp only [List.contains_eq_mem, List.mem_flatMap, decide_eq_false_iff_not] at k3
    exact k3 ⟨x, hx, hm⟩
  · have hsound := (Inside.C90_sound_partial p L.body true hbat hfin hd locs h1).2
    have hin : ∀ l ∈ (eventsIn (moduleGraph p) items T.vars locs).map (·.1),
        l ∈ L.body.locations ∧ ∃ e, .own e ∈ items l ∧ e.var = v ∧ modifying e.type = true := by
      intro l hl
      obtain ⟨⟨l', e⟩, he, rfl⟩ := List.mem_map.1 hl
      obtain ⟨⟨x, hx, k1⟩, k2, k3, k4⟩ := mem_eventsIn.1 he
      obtain ⟨l'', k5, k6⟩ := hsound x hx
      rw [k1] at k5
      cases k5
      exact ⟨k6, e, k2, (h5 _ he).1, k4⟩
    have hto := test_outside hat hd
    obtain ⟨tb, htb⟩ := test_block (hat.module hd)
    obtain ⟨path, hp, hpre, -⟩ := C70_module_partial W p hm hf ht tr o hr
    rw [htr] at hpre
    obtain ⟨l, hl, hla⟩ := every_core (module_sane p) ((module_all p hfin).nodup_iff.2 hd) htb (test_stays hat hd) (fun hm => hto (hin _ hm).1) h7 hb' hp
      hpre hleave (fun e => hto (e ▸ first_body hb')) (fun hfo => by
        obtain ⟨tr', o', u1, l, u3, k1, k2, k3⟩ := hnext hfo
        obtain ⟨path', hp', hpre', -⟩ := C70_module_partial W p hm hf ht tr' o' k1
        rw [k2] at hpre'
        exact ⟨path', u1, l, u3, hp', hpre', k3⟩)
    exact ⟨l, hl, hin l hla⟩

/-- **C110**, for functions. -/
theorem C110_function_partial (W : World) (args : Nat) (p : Body) (L : Loop) (f : Bool) (hat : At (.cons L.stmt .nil) true p f)
    (hm : p.mild = true) (hf : W.asks = true ∨ p.noFor = true) (ht : p.noTry = true ∨ ∀ l x, ¬ W.raises l x) (hfin : p.noFinally = true)
    (hd : (args :: p.locations).Nodup) (T : Test) (items : Nat → List Item) (write : Nat → Write) (definitions : List (Event × Event))
    (home : Nat → Nat) (h : L.Checks (functionGraph args p) p T items write definitions home (.ok true)) :
    ∃ v c, (c = 1 ∨ c = -1) ∧ T.fromRange v = true ∧ T.towards v c = true ∧
      (∀ tr o, RunBody W p tr o → ∀ l ∈ tr, l ∈ L.body.locations → ∀ e, .own e ∈ items l → e.var ∈ T.left.events ∨ e.var ∈ T.right.events →
        modifying e.type = true → e.var = v ∧ changeValue (write e.node) = .ok (some c) ∧ ∀ x ∈ L.body.parts, l ∉ loopLocs x) ∧
      ∀ tr o s rest t1 t2 t3, RunBody W p tr o → L.body = .cons s rest → tr = t1 ++ first s :: (t2 ++ L.test :: t3) →
        (∀ z ∈ first s :: t2, leaves p z = false) →
        (followed L.test p = some true → ∃ tr' o' u1 l u3, RunBody W p tr' o' ∧ tr' = u1 ++ L.test :: l :: u3 ∧ L.has l = false) →
        ∃ l ∈ first s :: t2, l ∈ L.body.locations ∧ ∃ e, .own e ∈ items l ∧ e.var = v ∧ modifying e.type = true := by
  obtain ⟨locs, v, c, h1, h2, h3, h4, h5, h6, h7⟩ := checks_true h
  obtain ⟨s, rest, hb⟩ := Inside.cons_of h1
  have hd' := (List.nodup_cons.1 hd).2
  have hbat : At L.body true p true := body_at hat rfl (by rw [hb]; rfl)
  refine ⟨v, c, h2, h3, h4, fun tr o hr l hl hlb e he hv hmo => ?_, fun tr o s' rest' t1 t2 t3 hr hb' htr hleave hnext => ?_⟩
  · have hx := Inside.C90_function_partial W args p L.body true hbat (.inl rfl) hm hf ht hfin hd locs h1 tr o hr l hl hlb
    obtain ⟨k1, k2, k3⟩ := h5 (l, e) (mem_eventsIn.2 ⟨hx, he, mem_vars.2 hv, hmo⟩)
    refine ⟨k1, k2, fun x hx hm => ?_⟩
    unfold Loop.inner at k3
    simp only [List.contains_eq_mem, List.mem_flatMap, decide_eq_false_iff_not] at k3
    exact k3 ⟨x, hx, hm⟩
  · have hsound := (Inside.C90_sound_function_partial args p L.body true hbat hfin hd locs h1).2
    have hin : ∀ l ∈ (eventsIn (functionGraph args p) items T.vars locs).map (·.1),
        l ∈ L.body.locations ∧ ∃ e, .own e ∈ items l ∧ e.var = v ∧ modifying e.type = true := by
      intro l hl
      obtain ⟨⟨l', e⟩, he, rfl⟩ := List.mem_map.1 hl
      obtain ⟨⟨x, hx, k1⟩, k2, k3, k4⟩ := mem_eventsIn.1 he
      obtain ⟨l'', k5, k6⟩ := hsound x hx
      rw [k1] at k5
      cases k5
      exact ⟨k6, e, k2, (h5 _ he).1, k4⟩
    have hto := test_outside hat hd'
    obtain ⟨tb, htb⟩ := test_block (hat.function hd)
    obtain ⟨path, hp, hpre, -⟩ := C70_function_partial W args p hm hf ht tr o hr
    rw [htr, ← List.cons_append] at hpre
    obtain ⟨l, hl, hla⟩ := every_core (function_sane args p) ((function_all args p hfin).nodup_iff.2 hd) htb (test_stays hat hd') (fun hm => hto (hin _ hm).1)
      h7 hb' hp hpre hleave (fun e => hto (e ▸ first_body hb')) (fun hfo => by
        obtain ⟨tr', o', u1, l, u3, k1, k2, k3⟩ := hnext hfo
        obtain ⟨path', hp', hpre', -⟩ := C70_function_partial W args p hm hf ht tr' o' k1
        rw [k2] at hpre'
        exact ⟨path', args :: u1, l, u3, hp', hpre', k3⟩)
    exact ⟨l, hl, hin l hla⟩

/-- **C110**, at most once: what changes the variable in a loop that is reported is executed at most once in each iteration. -/
theorem C110_once_partial (W : World) (p : Body) (L : Loop) (f : Bool) (hat : At (.cons L.stmt .nil) true p f) (hm : p.mild = true)
    (hf : W.asks = true ∨ p.noFor = true) (ht : p.noTry = true ∨ ∀ l x, ¬ W.raises l x) (hfin : p.noFinally = true) (hd : p.locations.Nodup)
    (T : Test) (items : Nat → List Item) (write : Nat → Write) (definitions : List (Event × Event)) (home : Nat → Nat)
    (h : L.Checks (moduleGraph p) p T items write definitions home (.ok true)) (l : Nat) (hl : ∃ tr o, RunBody W p tr o ∧ l ∈ tr)
    (hlb : l ∈ L.body.locations) (e : Event) (he : .own e ∈ items l) (hv : e.var ∈ T.left.events ∨ e.var ∈ T.right.events)
    (hmo : modifying e.type = true) (iteration : List Nat) (o : Out) (hr : RunBody W L.body iteration o) : iteration.count l ≤ 1 := by
  obtain ⟨v, c, -, -, -, h1, -⟩ := C110_partial W p L f hat hm hf ht hfin hd T items write definitions home h
  obtain ⟨tr, o', hr', hl⟩ := hl
  obtain ⟨-, -, h2⟩ := h1 tr o' hr' l hl hlb e he hv hmo
  refine Nat.le_trans (body_once W l L.body h2 iteration o hr) (List.nodup_iff_count_le_one.1 ?_ l)
  have h3 : (Body.cons L.stmt .nil).locations.Nodup := hat.sublist.nodup hd
  have h3 : (L.test :: (L.body.locations ++ L.orelse.locations)).Nodup := by
    simpa [Body.locations, Loop.stmt, Stmt.locations] using h3
  exact (List.nodup_append.1 (List.nodup_cons.1 h3).2).1

/-- **C110**, iterations that leave the loop: if a loop is reported, and in some execution the body is left by `break` or `return`
before the variable is changed, then no value that the variable is given in the body is used outside of the loop. -/
theorem C110_left_partial (W : World) (F : File) (vars : Nat) (L : Loop) (f : Bool) (hat : At (.cons L.stmt .nil) true F.body f)
    (hm : F.body.mild = true) (hf : W.asks = true ∨ F.body.noFor = true) (ht : F.body.noTry = true ∨ ∀ l x, ¬ W.raises l x)
    (hfin : F.body.noFinally = true) (hd : F.body.locations.Nodup) (T : Test) (items : Nat → List Item) (write : Nat → Write)
    (definitions : List (Event × Event)) (hdef : F.Definitions items vars definitions) (home : Nat → Nat)
    (h : L.Checks (moduleGraph F.body) F.body T items write definitions home (.ok true)) (s : Stmt) (rest : Body)
    (hb : L.body = .cons s rest) (tr t1 m m' t3 : List Nat) (z : Nat) (o : Out) (hr : RunBody W F.body tr o)
    (htr : tr = t1 ++ (m ++ z :: t3)) (hms : m ++ [z] = first s :: m') (hleave : ∀ y ∈ m, leaves F.body y = false)
    (hz : leaves F.body z = true) (htest : L.test ∉ m)
    (hno : ∀ l ∈ m, l ∈ L.body.locations → ∀ e, .own e ∈ items l → e.var ∈ T.vars → modifying e.type = false)
    (tr' : List Nat) (o' : Out) (hr' : RunBody W F.body tr' o') (v : Nat) (hv : v ∈ T.vars) (hvv : v < vars)
    (hcalled : ∀ l x, Item.called x ∈ items l → x.var = v → x.type = .read) (d e : Event) (x y : Nat) (hg : Gives items tr' v d x e y)
    (hx : x ∈ L.body.locations) (hmo : modifying d.type = true) (hy : home e.node = y) : y ∈ L.stmt.locations := by
  obtain ⟨locs, v', c, h1, h2, h3, h4, h5, h6, h7⟩ := checks_true h
  have hbat : At L.body true F.body true := body_at hat rfl (by rw [hb]; rfl)
  cases hu : L.usedOutside definitions home (eventsIn (moduleGraph F.body) items T.vars locs) with
  | false =>
    have hdf := Uses.C92_partial F items vars definitions hdef W hm hf ht tr' o' hr' v hvv hcalled d e x y hg
    have hxm : x ∈ tr' := hg.ends.1.1
    have hxo : .own d ∈ items x := hg.ends.1.2
    have hxl := Inside.C90_partial W F.body L.body true hbat (.inl rfl) hm hf ht hfin hd locs h1 tr' o' hr' x hxm hx
    have he := mem_eventsIn.2 ⟨hxl, hxo, hg.1 ▸ hv, hmo⟩
    unfold Loop.usedOutside at hu
    have k1 := List.any_eq_false.1 hu _ he
    rw [Bool.not_eq_true] at k1
    have k2 := List.any_eq_false.1 k1 e (mem_usesOf.2 hdf)
    rw [hy] at k2
    unfold Loop.has at k2
    simpa using k2
  | true =>
    rw [hu] at h7
    have hsound := (Inside.C90_sound_partial F.body L.body true hbat hfin hd locs h1).2
    obtain ⟨tb, htb⟩ := test_block (hat.module hd)
    obtain ⟨path, hp, hpre, -⟩ := C70_module_partial W F.body hm hf ht tr o hr
    rw [htr] at hpre
    obtain ⟨l, hl, hla⟩ := leave_core (module_sane F.body) ((module_all F.body hfin).nodup_iff.2 hd) htb h7 hb hp hpre hms hleave hz htest
    obtain ⟨⟨l', e'⟩, he, rfl⟩ := List.mem_map.1 hla
    obtain ⟨⟨w, hw, k1⟩, k2, k3, k4⟩ := mem_eventsIn.1 he
    obtain ⟨l'', k5, k6⟩ := hsound w hw
    rw [k1] at k5
    cases k5
    have := hno _ hl k6 e' k2 k3
    rw [k4] at this
    cases this

/-- **C110**, not twice: if a loop is reported, then what reads the value that one assignment in its body gives to the variable also
reads, maybe in another execution, the value that any other in it gives to the variable. -/
theorem C110_twice_partial (W : World) (F : File) (vars : Nat) (L : Loop) (f : Bool) (hat : At (.cons L.stmt .nil) true F.body f)
    (hm : F.body.noTry = true) (hf : W.asks = true ∨ F.body.noFor = true)
    (hms : ∀ f ∈ F.functions, f.2.noTry = true) (hfs : W.asks = true ∨ ∀ f ∈ F.functions, f.2.noFor = true)
    (hfin : F.body.noFinally = true) (hd : F.body.locations.Nodup) (T : Test) (items : Nat → List Item) (write : Nat → Write)
    (definitions : List (Event × Event)) (hdef : F.Definitions items vars definitions) (home : Nat → Nat)
    (h : L.Checks (moduleGraph F.body) F.body T items write definitions home (.ok true)) (v : Nat) (hv : v ∈ T.vars) (hvv : v < vars)
    (hcalled : ∀ l x, Item.called x ∈ items l → x.var = v → x.type = .read)
    (tr : List Nat) (o : Out) (hr : RunBody W F.body tr o) (d e : Event) (x y : Nat) (hg : Gives items tr v d x e y)
    (hx : x ∈ L.body.locations) (hdm : modifying d.type = true) (tr' : List Nat) (o' : Out) (hr' : RunBody W F.body tr' o') (d' : Event)
    (x' : Nat) (hx' : x' ∈ tr') (hxb' : x' ∈ L.body.locations) (hd' : .own d' ∈ items x') (hv' : d'.var = v) (hdm' : modifying d'.type = true) :
    (∃ tr x y, RunBody W F.body tr .cut ∧ (Gives items tr v d' x e y ∨ Uses.GivesCalled items tr v d' x e y)) ∨
      ∃ q ∈ F.functions, ∃ tr x y, RunBody W q.2 tr .cut ∧
        (Gives items (q.1 :: tr) v d' x e y ∨ Uses.GivesCalled items (q.1 :: tr) v d' x e y) := by
  obtain ⟨locs, v', c, h1, h2, h3, h4, h5, h6, h7⟩ := checks_true h
  obtain ⟨s, rest, hb⟩ := Inside.cons_of h1
  have hbat : At L.body true F.body true := body_at hat rfl (by rw [hb]; rfl)
  have hmild := body_mild _ hm
  have hdf := Uses.C92_partial F items vars definitions hdef W hmild hf (.inl hm) tr o hr v hvv hcalled d e x y hg
  have hmem : ∀ tr o, RunBody W F.body tr o → ∀ l ∈ tr, ∀ e, .own e ∈ items l → e.var = v → l ∈ L.body.locations → modifying e.type = true →
      (l, e) ∈ eventsIn (moduleGraph F.body) items T.vars locs := fun tr o hr l hl e he hev hlb hmo =>
    mem_eventsIn.2 ⟨Inside.C90_partial W F.body L.body true hbat (.inl rfl) hmild hf (.inl hm) hfin hd locs h1 tr o hr l hl hlb, he, hev ▸ hv, hmo⟩
  have m1 := hmem tr o hr x hg.ends.1.1 d hg.ends.1.2 hg.1 hx hdm
  have m2 := hmem tr' o' hr' x' hx' d' hd' hv' hxb' hdm'
  have same : usesOf definitions d = usesOf definitions d' := by
    generalize eventsIn (moduleGraph F.body) items T.vars locs = evs at m1 m2 h6
    cases evs with
    | nil => cases m1
    | cons a es =>
      unfold again at h6
      have k1 := List.any_eq_false.1 h6 _ m1
      have k2 := List.any_eq_false.1 h6 _ m2
      simp only [bne_iff_ne, ne_eq, Decidable.not_not] at k1 k2
      rw [k1, k2]
  have hself : (e, d') ∈ definitions := mem_usesOf.1 (same ▸ mem_usesOf.2 hdf)
  have hev := hg.2.2.1
  subst hev
  exact Uses.C92_possible_partial F items vars definitions hdef W hm hf hms hfs d' e hvv hcalled hself

/-- **C110**, at most once, for functions. -/
theorem C110_once_function_partial (W : World) (args : Nat) (p : Body) (L : Loop) (f : Bool) (hat : At (.cons L.stmt .nil) true p f)
    (hm : p.mild = true) (hf : W.asks = true ∨ p.noFor = true) (ht : p.noTry = true ∨ ∀ l x, ¬ W.raises l x) (hfin : p.noFinally = true)
    (hd : (args :: p.locations).Nodup) (T : Test) (items : Nat → List Item) (write : Nat → Write) (definitions : List (Event × Event))
    (home : Nat → Nat) (h : L.Checks (functionGraph args p) p T items write definitions home (.ok true)) (l : Nat)
    (hl : ∃ tr o, RunBody W p tr o ∧ l ∈ tr) (hlb : l ∈ L.body.locations) (e : Event) (he : .own e ∈ items l)
    (hv : e.var ∈ T.left.events ∨ e.var ∈ T.right.events) (hmo : modifying e.type = true) (iteration : List Nat) (o : Out)
    (hr : RunBody W L.body iteration o) : iteration.count l ≤ 1 := by
  obtain ⟨v, c, -, -, -, h1, -⟩ := C110_function_partial W args p L f hat hm hf ht hfin hd T items write definitions home h
  obtain ⟨tr, o', hr', hl⟩ := hl
  obtain ⟨-, -, h2⟩ := h1 tr o' hr' l hl hlb e he hv hmo
  refine Nat.le_trans (body_once W l L.body h2 iteration o hr) (List.nodup_iff_count_le_one.1 ?_ l)
  have h3 : (Body.cons L.stmt .nil).locations.Nodup := hat.sublist.nodup (List.nodup_cons.1 hd).2
  have h3 : (L.test :: (L.body.locations ++ L.orelse.locations)).Nodup := by
    simpa [Body.locations, Loop.stmt, Stmt.locations] using h3
  exact (List.nodup_append.1 (List.nodup_cons.1 h3).2).1

/-- **C110**, iterations that leave the loop, for functions. -/
theorem C110_left_function_partial (W : World) (F : File) (hne : F.body.isNil = false) (vars : Nat) (args : Nat) (p : Body)
    (hpF : (args, p) ∈ F.functions) (L : Loop) (f : Bool) (hat : At (.cons L.stmt .nil) true p f)
    (hm : p.mild = true) (hf : W.asks = true ∨ p.noFor = true) (ht : p.noTry = true ∨ ∀ l x, ¬ W.raises l x)
    (hfin : p.noFinally = true) (hd : (args :: p.locations).Nodup) (T : Test) (items : Nat → List Item) (write : Nat → Write)
    (definitions : List (Event × Event)) (hdef : F.Definitions items vars definitions) (home : Nat → Nat)
    (h : L.Checks (functionGraph args p) p T items write definitions home (.ok true)) (s : Stmt) (rest : Body)
    (hb : L.body = .cons s rest) (tr t1 m m' t3 : List Nat) (z : Nat) (o : Out) (hr : RunBody W p tr o)
    (htr : tr = t1 ++ (m ++ z :: t3)) (hms : m ++ [z] = first s :: m') (hleave : ∀ y ∈ m, leaves p y = false)
    (hz : leaves p z = true) (htest : L.test ∉ m)
    (hno : ∀ l ∈ m, l ∈ L.body.locations → ∀ e, .own e ∈ items l → e.var ∈ T.vars → modifying e.type = false)
    (tr' : List Nat) (o' : Out) (hr' : RunBody W p tr' o') (v : Nat) (hv : v ∈ T.vars) (hvv : v < vars)
    (hcalled : ∀ l x, Item.called x ∈ items l → x.var = v → x.type = .read) (d e : Event) (x y : Nat)
    (hg : Gives items (args :: tr') v d x e y) (hx : x ∈ L.body.locations) (hmo : modifying d.type = true) (hy : home e.node = y) :
    y ∈ L.stmt.locations := by
  obtain ⟨locs, v', c, h1, h2, h3, h4, h5, h6, h7⟩ := checks_true h
  have hbat : At L.body true p true := body_at hat rfl (by rw [hb]; rfl)
  have hna : args ≠ x := fun he => (List.nodup_cons.1 hd).1 (he ▸ hbat.sublist.subset hx)
  cases hu : L.usedOutside definitions home (eventsIn (functionGraph args p) items T.vars locs) with
  | false =>
    have hdf := Uses.C92_function_partial F hne items vars definitions hdef args p hpF W hm hf ht tr' o' hr' v hvv hcalled d e x y hg
    have hxm : x ∈ tr' := (List.mem_cons.1 hg.ends.1.1).resolve_left (Ne.symm hna)
    have hxo : .own d ∈ items x := hg.ends.1.2
    have hxl := Inside.C90_function_partial W args p L.body true hbat (.inl rfl) hm hf ht hfin hd locs h1 tr' o' hr' x hxm hx
    have he := mem_eventsIn.2 ⟨hxl, hxo, hg.1 ▸ hv, hmo⟩
    unfold Loop.usedOutside at hu
    have k1 := List.any_eq_false.1 hu _ he
    rw [Bool.not_eq_true] at k1
    have k2 := List.any_eq_false.1 k1 e (mem_usesOf.2 hdf)
    rw [hy] at k2
    unfold Loop.has at k2
    simpa using k2
  | true =>
    rw [hu] at h7
    have hsound := (Inside.C90_sound_function_partial args p L.body true hbat hfin hd locs h1).2
    obtain ⟨tb, htb⟩ := test_block (hat.function hd)
    obtain ⟨path, hp, hpre, -⟩ := C70_function_partial W args p hm hf ht tr o hr
    rw [htr, ← List.cons_append] at hpre
    obtain ⟨l, hl, hla⟩ := leave_core (function_sane args p) ((function_all args p hfin).nodup_iff.2 hd) htb h7 hb hp hpre hms hleave hz htest
    obtain ⟨⟨l', e'⟩, he, rfl⟩ := List.mem_map.1 hla
    obtain ⟨⟨w, hw, k1⟩, k2, k3, k4⟩ := mem_eventsIn.1 he
    obtain ⟨l'', k5, k6⟩ := hsound w hw
    rw [k1] at k5
    cases k5
    have := hno _ hl k6 e' k2 k3
    rw [k4] at this
    cases this

/-- **C110**, not twice, for functions. -/
theorem C110_twice_function_partial (W : World) (F : File) (hne : F.body.isNil = false) (vars : Nat) (args : Nat) (p : Body)
    (hpF : (args, p) ∈ F.functions) (L : Loop) (f : Bool) (hat : At (.cons L.stmt .nil) true p f)
    (hm : F.body.noTry = true) (hf : W.asks = true ∨ F.body.noFor = true)
    (hms : ∀ f ∈ F.functions, f.2.noTry = true) (hfs : W.asks = true ∨ ∀ f ∈ F.functions, f.2.noFor = true)
    (hfin : p.noFinally = true) (hd : (args :: p.locations).Nodup) (T : Test) (items : Nat → List Item) (write : Nat → Write)
    (definitions : List (Event × Event)) (hdef : F.Definitions items vars definitions) (home : Nat → Nat)
    (h : L.Checks (functionGraph args p) p T items write definitions home (.ok true)) (v : Nat) (hv : v ∈ T.vars) (hvv : v < vars)
    (hcalled : ∀ l x, Item.called x ∈ items l → x.var = v → x.type = .read)
    (tr : List Nat) (o : Out) (hr : RunBody W p tr o) (d e : Event) (x y : Nat) (hg : Gives items (args :: tr) v d x e y)
    (hx : x ∈ L.body.locations) (hdm : modifying d.type = true) (tr' : List Nat) (o' : Out) (hr' : RunBody W p tr' o') (d' : Event)
    (x' : Nat) (hx' : x' ∈ tr') (hxb' : x' ∈ L.body.locations) (hd' : .own d' ∈ items x') (hv' : d'.var = v) (hdm' : modifying d'.type = true) :
    (∃ tr x y, RunBody W F.body tr .cut ∧ (Gives items tr v d' x e y ∨ Uses.GivesCalled items tr v d' x e y)) ∨
      ∃ q ∈ F.functions, ∃ tr x y, RunBody W q.2 tr .cut ∧
        (Gives items (q.1 :: tr) v d' x e y ∨ Uses.GivesCalled items (q.1 :: tr) v d' x e y) := by
  obtain ⟨locs, v', c, h1, h2, h3, h4, h5, h6, h7⟩ := checks_true h
  obtain ⟨s, rest, hb⟩ := Inside.cons_of h1
  have hbat : At L.body true p true := body_at hat rfl (by rw [hb]; rfl)
  have hna : args ≠ x := fun he => (List.nodup_cons.1 hd).1 (he ▸ hbat.sublist.subset hx)
  have hpt := hms _ hpF
  have hpf : W.asks = true ∨ p.noFor = true := hfs.imp_right fun h => h _ hpF
  have hmild := body_mild _ hpt
  have hdf := Uses.C92_function_partial F hne items vars definitions hdef args p hpF W hmild hpf (.inl hpt) tr o hr v hvv hcalled d e x y hg
  have hmem : ∀ tr o, RunBody W p tr o → ∀ l ∈ tr, ∀ e, .own e ∈ items l → e.var = v → l ∈ L.body.locations → modifying e.type = true →
      (l, e) ∈ eventsIn (functionGraph args p) items T.vars locs := fun tr o hr l hl e he hev hlb hmo =>
    mem_eventsIn.2 ⟨Inside.C90_function_partial W args p L.body true hbat (.inl rfl) hmild hpf (.inl hpt) hfin hd locs h1 tr o hr l hl hlb, he, hev ▸ hv, hmo⟩
  have m1 := hmem tr o hr x ((List.mem_cons.1 hg.ends.1.1).resolve_left (Ne.symm hna)) d hg.ends.1.2 hg.1 hx hdm
  have m2 := hmem tr' o' hr' x' hx' d' hd' hv' hxb' hdm'
  have same : usesOf definitions d = usesOf definitions d' := by
    generalize eventsIn (functionGraph args p) items T.vars locs = evs at m1 m2 h6
    cases evs with
    | nil => cases m1
    | cons a es =>
      unfold again at h6
      have k1 := List.any_eq_false.1 h6 _ m1
      have k2 := List.any_eq_false.1 h6 _ m2
      simp only [bne_iff_ne, ne_eq, Decidable.not_not] at k1 k2
      rw [k1, k2]
  have hself : (e, d') ∈ definitions := mem_usesOf.1 (same ▸ mem_usesOf.2 hdf)
  have hev := hg.2.2.1
  subst hev
  exact Uses.C92_possible_partial F items vars definitions hdef W hm hf hms hfs d' e hvv hcalled hself

/-! ### Examples -/

/-- `x += 1` -/
def plusOne (n : Nat) : List Item := [.own ⟨0, n, .read⟩, .own ⟨0, n, .reassign⟩]

/-- `x < 10` -/
def belowTen : Test := ⟨.var 0, .lt, .expr []⟩

/-- All assignments are `x += 1`. -/
def allPlus : Nat → Write := fun _ => .aug .add (.const 1)

/-- `while x < 10: (print(x); x += 1)` -/
def plain : Loop := ⟨1, seq [.simple 2, .simple 3], .nil⟩

/-- `x = 0` and the loop. -/
def plainFile : File := ⟨[], seq [.simple 0, plain.stmt]⟩

def plainItems : Nat → List Item
  | 0 => [.own ⟨0, 10, .assign⟩]
  | 1 => [.own ⟨0, 11, .read⟩]
  | 2 => [.own ⟨0, 12, .read⟩]
  | 3 => plusOne 13
  | _ => []

def plainHome (n : Nat) : Nat := n - 10

def plainDefinitions : List (Event × Event) :=
  [(⟨0, 11, .read⟩, ⟨0, 10, .assign⟩), (⟨0, 11, .read⟩, ⟨0, 13, .reassign⟩), (⟨0, 12, .read⟩, ⟨0, 10, .assign⟩),
   (⟨0, 13, .read⟩, ⟨0, 10, .assign⟩), (⟨0, 12, .read⟩, ⟨0, 13, .reassign⟩), (⟨0, 13, .read⟩, ⟨0, 13, .reassign⟩)]

theorem plain_definitions : plainFile.Definitions plainItems 1 plainDefinitions :=
  .inr ⟨rfl, [⟨0, [0, 2, 4], _⟩], .cons (n := 20) ⟨40, by decide +kernel, by decide +kernel⟩ (by decide +kernel) .nil, by decide +kernel⟩

theorem plain_checks : plain.Checks (moduleGraph plainFile.body) plainFile.body belowTen plainItems allPlus plainDefinitions plainHome (.ok true) :=
  checksIn_eq (n := 40) (by decide +kernel)

/-- In each execution, each time that the test is executed after the body has been begun, `x` has been changed. -/
example (tr : List Nat) (o : Out) (t1 t2 t3 : List Nat) (hr : RunBody quiet plainFile.body tr o) (h : tr = t1 ++ 2 :: (t2 ++ 1 :: t3))
    (hl : ∀ z ∈ 2 :: t2, leaves plainFile.body z = false) : ∃ l ∈ 2 :: t2, ∃ e, .own e ∈ plainItems l ∧ modifying e.type = true := by
  obtain ⟨v, c, -, -, -, -, h1⟩ := C110_partial quiet plainFile.body plain true (.skip (.here .nil)) rfl (.inr rfl) (.inl rfl) rfl (by decide) belowTen
    plainItems allPlus plainDefinitions plainHome plain_checks
  obtain ⟨l, h2, -, e, h3, -, h4⟩ := h1 tr o (.simple 2) (seq [.simple 3]) t1 t2 t3 hr rfl h hl (fun e => nomatch e)
  exact ⟨l, h2, e, h3, h4⟩

/-- `x += 1` is executed at most once in each iteration. -/
example (tr : List Nat) (o : Out) (hr : RunBody quiet plain.body tr o) : tr.count 3 ≤ 1 :=
  C110_once_partial quiet plainFile.body plain true (.skip (.here .nil)) rfl (.inr rfl) (.inl rfl) rfl (by decide) belowTen plainItems allPlus
    plainDefinitions plainHome plain_checks 3
    ⟨[0, 1, 2, 3], .cut, .both (t1 := [0]) .ok (.first (.leave (t1 := [1]) .ok (.both (t1 := [2]) .ok (.first .after (by decide))) (by decide) (by decide) (by decide))
      (by decide)), by decide⟩ (by decide) ⟨0, 13, .reassign⟩ (by decide) (.inl (by decide)) rfl tr o hr

/-- The same in a function. -/
example (tr : List Nat) (o : Out) (t1 t2 t3 : List Nat) (hr : RunBody quiet plainFile.body tr o) (h : tr = t1 ++ 2 :: (t2 ++ 1 :: t3))
    (hl : ∀ z ∈ 2 :: t2, leaves plainFile.body z = false)
    (hc : plain.Checks (functionGraph 9 plainFile.body) plainFile.body belowTen plainItems allPlus plainDefinitions plainHome (.ok true)) :
    ∃ l ∈ 2 :: t2, ∃ e, .own e ∈ plainItems l ∧ modifying e.type = true := by
  obtain ⟨v, c, -, -, -, -, h1⟩ := C110_function_partial quiet 9 plainFile.body plain true (.skip (.here .nil)) rfl (.inr rfl) (.inl rfl) rfl
    (by decide) belowTen plainItems allPlus plainDefinitions plainHome hc
  obtain ⟨l, h2, -, e, h3, -, h4⟩ := h1 tr o (.simple 2) (seq [.simple 3]) t1 t2 t3 hr rfl h hl (fun e => nomatch e)
  exact ⟨l, h2, e, h3, h4⟩

/-- It is reported there. -/
example : plain.Checks (functionGraph 9 plainFile.body) plainFile.body belowTen plainItems allPlus plainDefinitions plainHome (.ok true) :=
  checksIn_eq (n := 40) (by decide +kernel)

/-- `while x < 10: ((if a: break); x += 1)` -/
def mayBreak : Loop := ⟨1, seq [.cond 2 (seq [.jump .brk 3]) .nil, .simple 4], .nil⟩

/-- `x = 0` and the loop. -/
def mayBreakFile : File := ⟨[], seq [.simple 0, mayBreak.stmt]⟩

def mayBreakItems : Nat → List Item
  | 0 => [.own ⟨0, 10, .assign⟩]
  | 1 => [.own ⟨0, 11, .read⟩]
  | 4 => plusOne 14
  | _ => []

def mayBreakDefinitions : List (Event × Event) :=
  [(⟨0, 11, .read⟩, ⟨0, 10, .assign⟩), (⟨0, 11, .read⟩, ⟨0, 14, .reassign⟩), (⟨0, 14, .read⟩, ⟨0, 10, .assign⟩),
   (⟨0, 14, .read⟩, ⟨0, 14, .reassign⟩)]

theorem mayBreak_definitions : mayBreakFile.Definitions mayBreakItems 1 mayBreakDefinitions :=
  .inr ⟨rfl, [⟨0, [0, 2, 4, 5, 7], _⟩], .cons (n := 40) ⟨60, by decide +kernel, by decide +kernel⟩ (by decide +kernel) .nil, by decide +kernel⟩

theorem mayBreak_checks : mayBreak.Checks (moduleGraph mayBreakFile.body) mayBreakFile.body belowTen mayBreakItems allPlus mayBreakDefinitions
    plainHome (.ok true) :=
  checksIn_eq (n := 60) (by decide +kernel)

/-- `break` leaves before `x += 1`, so that the value is only used within the loop: at the test and at `x += 1`. -/
example (tr : List Nat) (o : Out) (hr : RunBody quiet mayBreakFile.body tr o) (e : Event) (y : Nat)
    (hg : Gives mayBreakItems tr 0 ⟨0, 14, .reassign⟩ 4 e y) (hy : plainHome e.node = y) : y ∈ [1, 2, 3, 4] := by
  have h : RunBody quiet mayBreakFile.body [0, 1, 2, 3] .normal := by
    refine .both (t1 := [0]) (t2 := [1, 2, 3]) .ok (.both (t1 := [1, 2, 3]) (t2 := []) ?_ .ok)
    refine .brk (t1 := [1]) (t2 := [2, 3]) .ok (.first (.both (t1 := [2]) (t2 := [3]) .ok (.left ?_)) (by decide))
    exact .first (.both (t1 := [3]) (t2 := []) .ok .brk) (by decide)
  have := C110_left_partial quiet mayBreakFile 1 mayBreak true (.skip (.here .nil)) rfl (.inr rfl) (.inl rfl) rfl (by decide) belowTen mayBreakItems
    allPlus mayBreakDefinitions mayBreak_definitions plainHome mayBreak_checks _ _ rfl _ [0, 1] [2] [3] [] 3 _ h rfl rfl (by decide) (by decide)
    (by decide) (fun l hl _ e he => by rw [List.mem_singleton.1 hl] at he; cases he) tr o hr 0 (by decide) (by decide) (fun l x hx => by
      unfold mayBreakItems at hx
      split at hx <;> simp [plusOne] at hx) ⟨0, 14, .reassign⟩ e 4 y hg (by decide) rfl hy
  exact this

/-- `while x < 10: (if a: x += 1 else: x += 1)` -/
def either : Loop := ⟨1, seq [.cond 2 (seq [.simple 3]) (seq [.simple 4])], .nil⟩

/-- `x = 0` and the loop. -/
def eitherFile : File := ⟨[], seq [.simple 0, either.stmt]⟩

def eitherItems : Nat → List Item
  | 0 => [.own ⟨0, 10, .assign⟩]
  | 1 => [.own ⟨0, 11, .read⟩]
  | 3 => plusOne 13
  | 4 => plusOne 14
  | _ => []

def eitherDefinitions : List (Event × Event) :=
  [(⟨0, 11, .read⟩, ⟨0, 10, .assign⟩), (⟨0, 11, .read⟩, ⟨0, 13, .reassign⟩), (⟨0, 11, .read⟩, ⟨0, 14, .reassign⟩),
   (⟨0, 13, .read⟩, ⟨0, 10, .assign⟩), (⟨0, 13, .read⟩, ⟨0, 13, .reassign⟩), (⟨0, 13, .read⟩, ⟨0, 14, .reassign⟩),
   (⟨0, 14, .read⟩, ⟨0, 10, .assign⟩), (⟨0, 14, .read⟩, ⟨0, 13, .reassign⟩), (⟨0, 14, .read⟩, ⟨0, 14, .reassign⟩)]

theorem either_definitions : eitherFile.Definitions eitherItems 1 eitherDefinitions :=
  .inr ⟨rfl, [⟨0, [0, 2, 4, 5, 6], _⟩], .cons (n := 40) ⟨60, by decide +kernel, by decide +kernel⟩ (by decide +kernel) .nil, by decide +kernel⟩

theorem either_checks : either.Checks (moduleGraph eitherFile.body) eitherFile.body belowTen eitherItems allPlus eitherDefinitions plainHome (.ok true) :=
  checksIn_eq (n := 60) (by decide +kernel)

/-- The test uses what the first `x += 1` assigns, so that there is also an execution in which it uses what the second assigns. -/
example : ∃ tr x y, RunBody quiet eitherFile.body tr .cut ∧
    (Gives eitherItems tr 0 ⟨0, 14, .reassign⟩ x ⟨0, 11, .read⟩ y ∨ Uses.GivesCalled eitherItems tr 0 ⟨0, 14, .reassign⟩ x ⟨0, 11, .read⟩ y) := by
  have key : ∀ l ∈ [3, 4], RunBody quiet eitherFile.body [0, 1, 2, l, 1] .cut := by
    intro l hl
    refine .both (t1 := [0]) (t2 := [1, 2, l, 1]) .ok (.first ?_ (by decide))
    refine .next (t1 := [1]) (t2 := [2, l]) (t3 := [1]) .ok ?_ (.inl rfl) (.head .after (by decide))
    refine .both (t1 := [2, l]) (t2 := []) (.both (t1 := [2]) (t2 := [l]) .ok ?_) .ok
    simp only [List.mem_cons, List.not_mem_nil, or_false] at hl
    rcases hl with rfl | rfl
    · exact .left (.both (t1 := [3]) (t2 := []) .ok .ok)
    · exact .right (.both (t1 := [4]) (t2 := []) .ok .ok)
  have h := C110_twice_partial quiet eitherFile 1 either true (.skip (.here .nil)) rfl (.inr rfl) (by simp [eitherFile]) (.inr (by simp [eitherFile])) rfl
    (by decide) belowTen eitherItems allPlus eitherDefinitions either_definitions plainHome either_checks 0 (by decide) (by decide) (fun l x hx => by
      unfold eitherItems at hx
      split at hx <;> simp [plusOne] at hx) _ _ (key 3 (by simp)) ⟨0, 13, .reassign⟩ ⟨0, 11, .read⟩ 3 1
    ⟨rfl, by decide, rfl, .inl rfl, [(0, .own ⟨0, 10, .assign⟩), (1, .own ⟨0, 11, .read⟩), (3, .own ⟨0, 13, .read⟩)], [], [], by decide, by simp⟩
    (by decide) rfl _ _ (key 4 (by simp)) ⟨0, 14, .reassign⟩ 4 (by simp) (by decide) (by decide) rfl rfl
  rcases h with h | ⟨q, hq, -⟩
  · exact h
  · exact nomatch hq

/-! The same in a function. -/

/-- The function, and a module that does something else. -/
def mayBreakIn : File := ⟨[(9, mayBreakFile.body)], seq [.simple 20]⟩

@[inherit_doc mayBreakIn]
def eitherIn : File := ⟨[(9, eitherFile.body)], seq [.simple 20]⟩

theorem mayBreakIn_definitions : mayBreakIn.Definitions mayBreakItems 1 mayBreakDefinitions :=
  .inr ⟨rfl, [⟨0, [0, 4, 6, 10, 12, 16], _⟩, ⟨6, [1], _⟩], .cons (n := 60) ⟨80, by decide +kernel, by decide +kernel⟩ (by decide +kernel)
    (.cons (n := 60) ⟨80, by decide +kernel, by decide +kernel⟩ (by decide +kernel) .nil), by decide +kernel⟩

theorem eitherIn_definitions : eitherIn.Definitions eitherItems 1 eitherDefinitions :=
  .inr ⟨rfl, [⟨0, [0, 4, 6, 10, 12, 14], _⟩, ⟨6, [1], _⟩], .cons (n := 60) ⟨80, by decide +kernel, by decide +kernel⟩ (by decide +kernel)
    (.cons (n := 60) ⟨80, by decide +kernel, by decide +kernel⟩ (by decide +kernel) .nil), by decide +kernel⟩

example (tr : List Nat) (o : Out) (hr : RunBody quiet plain.body tr o) : tr.count 3 ≤ 1 :=
  C110_once_function_partial quiet 9 plainFile.body plain true (.skip (.here .nil)) rfl (.inr rfl) (.inl rfl) rfl (by decide) belowTen plainItems allPlus
    plainDefinitions plainHome (checksIn_eq (n := 40) (by decide +kernel)) 3
    ⟨[0, 1, 2, 3], .cut, .both (t1 := [0]) .ok (.first (.leave (t1 := [1]) .ok (.both (t1 := [2]) .ok (.first .after (by decide))) (by decide) (by decide) (by decide))
      (by decide)), by decide⟩ (by decide) ⟨0, 13, .reassign⟩ (by decide) (.inl (by decide)) rfl tr o hr

example (tr : List Nat) (o : Out) (hr : RunBody quiet mayBreakFile.body tr o) (e : Event) (y : Nat)
    (hg : Gives mayBreakItems (9 :: tr) 0 ⟨0, 14, .reassign⟩ 4 e y) (hy : plainHome e.node = y) : y ∈ [1, 2, 3, 4] := by
  have h : RunBody quiet mayBreakFile.body [0, 1, 2, 3] .normal := by
    refine .both (t1 := [0]) (t2 := [1, 2, 3]) .ok (.both (t1 := [1, 2, 3]) (t2 := []) ?_ .ok)
    refine .brk (t1 := [1]) (t2 := [2, 3]) .ok (.first (.both (t1 := [2]) (t2 := [3]) .ok (.left ?_)) (by decide))
    exact .first (.both (t1 := [3]) (t2 := []) .ok .brk) (by decide)
  have := C110_left_function_partial quiet mayBreakIn rfl 1 9 mayBreakFile.body (by simp [mayBreakIn]) mayBreak true (.skip (.here .nil)) rfl (.inr rfl) (.inl rfl)
    rfl (by decide) belowTen mayBreakItems
    allPlus mayBreakDefinitions mayBreakIn_definitions plainHome (checksIn_eq (n := 60) (by decide +kernel)) _ _ rfl _ [0, 1] [2] [3] [] 3 _ h rfl rfl (by decide)
    (by decide) (by decide) (fun l hl _ e he => by rw [List.mem_singleton.1 hl] at he; cases he) tr o hr 0 (by decide) (by decide) (fun l x hx => by
      unfold mayBreakItems at hx
      split at hx <;> simp [plusOne] at hx) ⟨0, 14, .reassign⟩ e 4 y hg (by decide) rfl hy
  exact this

example : ∃ q ∈ eitherIn.functions, ∃ tr x y, RunBody quiet q.2 tr .cut ∧
    (Gives eitherItems (q.1 :: tr) 0 ⟨0, 14, .reassign⟩ x ⟨0, 11, .read⟩ y ∨
      Uses.GivesCalled eitherItems (q.1 :: tr) 0 ⟨0, 14, .reassign⟩ x ⟨0, 11, .read⟩ y) := by
  have key : ∀ l ∈ [3, 4], RunBody quiet eitherFile.body [0, 1, 2, l, 1] .cut := by
    intro l hl
    refine .both (t1 := [0]) (t2 := [1, 2, l, 1]) .ok (.first ?_ (by decide))
    refine .next (t1 := [1]) (t2 := [2, l]) (t3 := [1]) .ok ?_ (.inl rfl) (.head .after (by decide))
    refine .both (t1 := [2, l]) (t2 := []) (.both (t1 := [2]) (t2 := [l]) .ok ?_) .ok
    simp only [List.mem_cons, List.not_mem_nil, or_false] at hl
    rcases hl with rfl | rfl
    · exact .left (.both (t1 := [3]) (t2 := []) .ok .ok)
    · exact .right (.both (t1 := [4]) (t2 := []) .ok .ok)
  have h := C110_twice_function_partial quiet eitherIn rfl 1 9 eitherFile.body (by simp [eitherIn]) either true (.skip (.here .nil)) rfl (.inr rfl)
    (by simp [eitherIn]; rfl) (.inr (by simp [eitherIn]; rfl)) rfl
    (by decide) belowTen eitherItems allPlus eitherDefinitions eitherIn_definitions plainHome (checksIn_eq (n := 60) (by decide +kernel)) 0 (by decide) (by decide)
    (fun l x hx => by
      unfold eitherItems at hx
      split at hx <;> simp [plusOne] at hx) _ _ (key 3 (by simp)) ⟨0, 13, .reassign⟩ ⟨0, 11, .read⟩ 3 1
    ⟨rfl, by decide, rfl, .inl rfl, [(0, .own ⟨0, 10, .assign⟩), (1, .own ⟨0, 11, .read⟩), (3, .own ⟨0, 13, .read⟩)], [], [], by decide, by simp⟩
    (by decide) rfl _ _ (key 4 (by simp)) ⟨0, 14, .reassign⟩ 4 (by simp) (by decide) (by decide) rfl rfl
  rcases h with ⟨tr, x, y, hr, hg⟩ | h
  · exfalso
    have key : ∀ tr o, RunBody quiet (seq [.simple 20]) tr o → ∀ l ∈ tr, l = 20 := by
      intro tr o hr l hl
      have := Uses.run_in hr hl
      simpa [seq, Body.locations, Stmt.locations] using this
    rcases hg with hg | hg
    · have := key tr _ hr x hg.ends.1.1
      have h2 := hg.ends.1.2
      subst this
      cases h2
    · have := key tr _ hr x hg.ends.1.1
      have h2 := hg.ends.1.2
      subst this
      cases h2
  · exact h

/-! ### Disagreements -/

/-- `while x < 10: (if a: (x += 1; if b: continue)); x += 1` -/
def twice : Loop := ⟨1, seq [.cond 2 (seq [.simple 3, .cond 4 (seq [.jump .cont 5]) .nil]) .nil, .simple 6], .nil⟩

def twiceFile : File := ⟨[], seq [.simple 0, twice.stmt]⟩

def twiceItems : Nat → List Item
  | 0 => [.own ⟨0, 10, .assign⟩]
  | 1 => [.own ⟨0, 11, .read⟩]
  | 3 => plusOne 13
  | 6 => plusOne 16
  | _ => []

def twiceDefinitions : List (Event × Event) :=
  [(⟨0, 11, .read⟩, ⟨0, 10, .assign⟩), (⟨0, 11, .read⟩, ⟨0, 13, .reassign⟩), (⟨0, 11, .read⟩, ⟨0, 16, .reassign⟩),
   (⟨0, 13, .read⟩, ⟨0, 10, .assign⟩), (⟨0, 13, .read⟩, ⟨0, 13, .reassign⟩), (⟨0, 13, .read⟩, ⟨0, 16, .reassign⟩),
   (⟨0, 16, .read⟩, ⟨0, 10, .assign⟩), (⟨0, 16, .read⟩, ⟨0, 13, .reassign⟩), (⟨0, 16, .read⟩, ⟨0, 16, .reassign⟩)]

/-- **C110** is false of loops with `continue`: the variable may be changed twice in one iteration. -/
theorem C110_continue_counterexample :
    twiceFile.Definitions twiceItems 1 twiceDefinitions ∧
      twice.Checks (moduleGraph twiceFile.body) twiceFile.body belowTen twiceItems allPlus twiceDefinitions plainHome (.ok true) ∧
      RunBody quiet twice.body [2, 3, 4, 6] .normal ∧ twiceItems 3 = plusOne 13 ∧ twiceItems 6 = plusOne 16 :=
  ⟨.inr ⟨rfl, [⟨0, [0, 2, 4, 5, 6, 9], _⟩], .cons (n := 30) ⟨60, by decide +kernel, by decide +kernel⟩ (by decide +kernel) .nil, by decide +kernel⟩,
    checksIn_eq (n := 60) (by decide +kernel),
    .both (t1 := [2, 3, 4]) (.both (t1 := [2]) .ok (.left (.both (t1 := [3]) .ok (.both (t1 := [4]) (.both (t1 := [4]) .ok (.right .ok)) .ok))))
      (.both (t1 := [6]) .ok .ok), rfl, rfl⟩

/-- `while x < 10: ((if a: x += 1); (if b: break)) else: return` -/
def withElse : Loop := ⟨2, seq [.cond 3 (seq [.simple 4]) .nil, .cond 5 (seq [.jump .brk 6]) .nil], seq [.jump .ret 7]⟩

/-- It is followed by another statement. -/
def withElseBody : Body := seq [.simple 1, withElse.stmt, .simple 8]

def withElseItems : Nat → List Item
  | 1 => [.own ⟨0, 11, .assign⟩]
  | 2 => [.own ⟨0, 12, .read⟩]
  | 4 => plusOne 14
  | _ => []

def withElseDefinitions : List (Event × Event) :=
  [(⟨0, 12, .read⟩, ⟨0, 11, .assign⟩), (⟨0, 12, .read⟩, ⟨0, 14, .reassign⟩), (⟨0, 14, .read⟩, ⟨0, 11, .assign⟩),
   (⟨0, 14, .read⟩, ⟨0, 14, .reassign⟩)]

/-- **C110** is false of loops with an `else` that returns: it is not found that the variable need not be changed. -/
theorem C110_else_counterexample :
    (File.mk [(0, withElseBody)] (seq [.simple 9])).Definitions withElseItems 1 withElseDefinitions ∧
      withElse.Checks (functionGraph 0 withElseBody) withElseBody belowTen withElseItems allPlus withElseDefinitions plainHome (.ok true) ∧
      RunBody quiet withElse.body [3, 5] .normal ∧ ∀ l ∈ [3, 5], withElseItems l = [] :=
  ⟨.inr ⟨rfl, [⟨0, [0, 4, 6, 10, 12, 14, 16, 8, 22], _⟩, ⟨9, [1], _⟩], .cons (n := 60) ⟨80, by decide +kernel, by decide +kernel⟩ (by decide +kernel)
      (.cons (n := 60) ⟨80, by decide +kernel, by decide +kernel⟩ (by decide +kernel) .nil), by decide +kernel⟩,
    checksIn_eq (n := 60) (by decide +kernel),
    .both (t1 := [3]) (.both (t1 := [3]) .ok (.right .ok)) (.both (t1 := [5]) (.both (t1 := [5]) .ok (.right .ok)) .ok), by decide⟩

/-- `while x < 10: (while a: (if b: break) else: return); (if c: x += 1)` -/
def withInner : Loop :=
  ⟨2, seq [.loop 3 (seq [.cond 4 (seq [.jump .brk 5]) .nil]) (seq [.jump .ret 6]), .cond 7 (seq [.simple 8]) .nil], .nil⟩

def withInnerBody : Body := seq [.simple 1, withInner.stmt]

def withInnerItems : Nat → List Item
  | 1 => [.own ⟨0, 11, .assign⟩]
  | 2 => [.own ⟨0, 12, .read⟩]
  | 8 => plusOne 18
  | _ => []

def withInnerDefinitions : List (Event × Event) :=
  [(⟨0, 12, .read⟩, ⟨0, 11, .assign⟩), (⟨0, 12, .read⟩, ⟨0, 18, .reassign⟩), (⟨0, 18, .read⟩, ⟨0, 11, .assign⟩),
   (⟨0, 18, .read⟩, ⟨0, 18, .reassign⟩)]

/-- **C110** is false of loops in which the variable is changed after a `break` of another: what follows it is not explored. -/
theorem C110_break_counterexample :
    (File.mk [(0, withInnerBody)] (seq [.simple 9])).Definitions withInnerItems 1 withInnerDefinitions ∧
      withInner.Checks (functionGraph 0 withInnerBody) withInnerBody belowTen withInnerItems allPlus withInnerDefinitions plainHome (.ok true) ∧
      RunBody quiet withInner.body [3, 4, 5, 7] .normal ∧ ∀ l ∈ [3, 4, 5, 7], withInnerItems l = [] :=
  ⟨.inr ⟨rfl, [⟨0, [0, 4, 6, 12, 16, 18, 14, 28, 24], _⟩, ⟨9, [1], _⟩], .cons (n := 60) ⟨80, by decide +kernel, by decide +kernel⟩ (by decide +kernel)
      (.cons (n := 60) ⟨80, by decide +kernel, by decide +kernel⟩ (by decide +kernel) .nil), by decide +kernel⟩,
    checksIn_eq (n := 60) (by decide +kernel),
    .both (t1 := [3, 4, 5]) (.brk (t1 := [3]) .ok (.first (.both (t1 := [4]) .ok (.left (.first (.both (t1 := [5]) .ok .brk) (by decide)))) (by decide)))
      (.both (t1 := [7]) (.both (t1 := [7]) .ok (.right .ok)) .ok), by decide⟩

/-- `while x > 0: x = 1 - x` is reported: **C110** is false of it. -/
theorem C110_flip_counterexample :
    (⟨1, seq [.simple 2], .nil⟩ : Loop).Checks (moduleGraph (seq [.simple 0, .loop 1 (seq [.simple 2]) .nil])) (seq [.simple 0, .loop 1 (seq [.simple 2]) .nil])
      ⟨.var 0, .gt, .expr []⟩ (fun l => if l = 2 then plusOne 12 else []) (fun _ => .assign .sub (.const 1) .self) [] plainHome (.ok true) ∧
      Write.run (fun _ => 0) 5 (.assign .sub (.const 1) .self) = some (-4) :=
  ⟨checksIn_eq (n := 60) (by decide +kernel), rfl⟩

/-- `while x < 10: x -= "a"` makes the check raise an exception. -/
example : changeValue (.aug .sub .text) = .error .typeError := rfl

end Verif.UseFor

import Verif.Props.BoolOps

/-!
What is collected for suggesting `max` and `min`.
-/

namespace Verif.Py.BoolOps

variable {V : Type} {S : NumSem V}

/-! ### Comparisons as they are collected -/

section
variable {α : Type}

def getCmp (op : CmpOp) : List (CmpOp × List (α × Bool)) → List (α × Bool)
  | [] => []
  | c :: cs => if c.1 = op then c.2 else getCmp op cs

/-- What has been collected for an expression and a comparison. -/
def get (e : Expr) (op : CmpOp) : Comparisons α → List (α × Bool)
  | [] => []
  | c :: cs => if c.1 = e then getCmp op c.2 else get e op cs

theorem getCmp_update {op op' : CmpOp} {x : α × Bool} : ∀ cs : List (CmpOp × List (α × Bool)),
    getCmp op' (updateCmp op x cs) = getCmp op' cs ++ if op = op' then [x] else []
  | [] => by simp [updateCmp, getCmp]
  | c :: cs => by
    rw [updateCmp]
    split
    · rename_i h
      simp only [getCmp, h]
      split <;> simp
    · rename_i h
      simp only [getCmp]
      split
      · rename_i h'
        rw [if_neg (fun e => h (h'.trans e.symm)), List.append_nil]
      · exact getCmp_update cs

theorem get_update {e e' : Expr} {op op' : CmpOp} {x : α × Bool} : ∀ c : Comparisons α,
    get e' op' (update e op x c) = get e' op' c ++ if e = e' ∧ op = op' then [x] else []
  | [] => by
    simp only [update, get, getCmp]
    by_cases h1 : e = e' <;> by_cases h2 : op = op' <;> simp [h1, h2]
  | c :: cs => by
    rw [update]
    split
    · rename_i h
      simp only [get, h]
      by_cases h1 : e = e'
      · simp only [h1, if_true, true_and]; exact getCmp_update _
      · simp [h1]
    · rename_i h
      simp only [get]
      split
      · rename_i h'
        have : e ≠ e' := fun he => h (h'.trans he.symm)
        simp [this]
      · exact get_update cs

theorem updateCmp_keys {op : CmpOp} {x : α × Bool} : ∀ cs : List (CmpOp × List (α × Bool)),
    (updateCmp op x cs).map (·.1) = if op ∈ cs.map (·.1) then cs.map (·.1) else cs.map (·.1) ++ [op]
  | [] => rfl
  | c :: cs => by
    rw [updateCmp]
    split
    · rename_i h; simp [h]
    · rename_i h
      have ih := updateCmp_keys (op := op) (x := x) cs
      rw [List.map_cons, ih]
      by_cases hm : op ∈ cs.map (·.1)
      · rw [if_pos hm, if_pos (by simp only [List.map_cons, List.mem_cons]; exact .inr hm)]; rfl
      · rw [if_neg hm, if_neg (by simp only [List.map_cons, List.mem_cons, not_or]; exact ⟨fun e => h e.symm, hm⟩)]; rfl

theorem update_keys {e : Expr} {op : CmpOp} {x : α × Bool} : ∀ c : Comparisons α,
    (update e op x c).map (·.1) = if e ∈ c.map (·.1) then c.map (·.1) else c.map (·.1) ++ [e]
  | [] => rfl
  | c :: cs => by
    rw [update]
    split
    · rename_i h; simp [h]
    · rename_i h
      have ih := update_keys (e := e) (op := op) (x := x) cs
      rw [List.map_cons, ih]
      by_cases hm : e ∈ cs.map (·.1)
      · rw [if_pos hm, if_pos (by simp only [List.map_cons, List.mem_cons]; exact .inr hm)]; rfl
      · rw [if_neg hm, if_neg (by simp only [List.map_cons, List.mem_cons, not_or]; exact ⟨fun e => h e.symm, hm⟩)]; rfl

/-- Nothing is collected in two places. -/
def Distinct (c : Comparisons α) : Prop := (c.map (·.1)).Nodup ∧ ∀ p ∈ c, (p.2.map (·.1)).Nodup

theorem nodup_add {β : Type} [DecidableEq β] {l : List β} {x : β} (h : l.Nodup) : (if x ∈ l then l else l ++ [x]).Nodup := by
  split
  · exact h
  · rename_i hx
    rw [List.nodup_append]
    refine ⟨h, by simp, ?_⟩
    intro a ha b hb
    rw [List.mem_singleton] at hb
    subst hb
    exact fun e => hx (e ▸ ha)

theorem distinct_update {e : Expr} {op : CmpOp} {x : α × Bool} {c : Comparisons α} (h : Distinct c) : Distinct (update e op x c) := by
  refine ⟨by rw [update_keys]; exact nodup_add h.1, ?_⟩
  have : ∀ c : Comparisons α, (∀ p ∈ c, (p.2.map (·.1)).Nodup) → ∀ p ∈ update e op x c, (p.2.map (·.1)).Nodup := by
    intro c
    induction c with
    | nil => intro _ p hp; rw [update, List.mem_singleton] at hp; subst hp; simp
    | cons d c ih =>
      intro hd p hp
      rw [update] at hp
      split at hp
      · rcases List.mem_cons.1 hp with rfl | hp
        · rw [updateCmp_keys]
          exact nodup_add (hd d (by simp))
        · exact hd p (by simp [hp])
      · rcases List.mem_cons.1 hp with rfl | hp
        · exact hd _ (by simp)
        · exact ih (fun p hp => hd p (by simp [hp])) p hp
  exact this c h.2

theorem getCmp_of_mem {q : CmpOp × List (α × Bool)} : ∀ {cs : List (CmpOp × List (α × Bool))}, (cs.map (·.1)).Nodup → q ∈ cs → getCmp q.1 cs = q.2
  | [], _, h => by cases h
  | c :: cs, hn, h => by
    rw [getCmp]
    rw [List.map_cons, List.nodup_cons] at hn
    rcases List.mem_cons.1 h with rfl | h
    · rw [if_pos rfl]
    · rw [if_neg (fun e : c.1 = q.1 => hn.1 (e ▸ List.mem_map_of_mem h)), getCmp_of_mem hn.2 h]

theorem get_of_mem {p : Expr × List (CmpOp × List (α × Bool))} {q : CmpOp × List (α × Bool)} : ∀ {c : Comparisons α}, Distinct c → p ∈ c → q ∈ p.2 →
    get p.1 q.1 c = q.2
  | [], _, h, _ => by cases h
  | d :: c, hn, h, hq => by
    rw [get]
    have h1 := hn.1
    rw [List.map_cons, List.nodup_cons] at h1
    rcases List.mem_cons.1 h with rfl | h
    · rw [if_pos rfl]
      exact getCmp_of_mem (hn.2 p (by simp)) hq
    · rw [if_neg (fun e : d.1 = p.1 => h1.1 (e ▸ List.mem_map_of_mem h))]
      exact get_of_mem ⟨h1.2, fun p hp => hn.2 p (by simp [hp])⟩ h hq

theorem mem_of_getCmp {op : CmpOp} : ∀ {cs : List (CmpOp × List (α × Bool))}, getCmp op cs ≠ [] → (op, getCmp op cs) ∈ cs
  | [], h => absurd rfl h
  | c :: cs, h => by
    rw [getCmp] at h ⊢
    split
    · rename_i hc; subst hc; simp
    · rename_i hc
      rw [if_neg hc] at h
      exact List.mem_cons_of_mem _ (mem_of_getCmp h)

theorem mem_of_get {e : Expr} {op : CmpOp} : ∀ {c : Comparisons α}, get e op c ≠ [] → ∃ p ∈ c, p.1 = e ∧ (op, get e op c) ∈ p.2
  | [], h => absurd rfl h
  | d :: c, h => by
    rw [get] at h ⊢
    split
    · rename_i hc
      rw [if_pos hc] at h
      exact ⟨d, by simp, hc, mem_of_getCmp h⟩
    · rename_i hc
      rw [if_neg hc] at h
      obtain ⟨p, hp, h1, h2⟩ := mem_of_get h
      exact ⟨p, List.mem_cons_of_mem _ hp, h1, h2⟩

theorem find_get {e : Expr} {op : CmpOp} {x : α × Bool} {k : Expr} : ∀ {c : Comparisons α}, c.find? (·.1 == e) = some (k, [(op, [x])]) → get e op c = [x]
  | [], h => by cases h
  | d :: c, h => by
    rw [List.find?_cons] at h
    rw [get]
    cases hd : d.1 == e with
    | true =>
      rw [hd] at h
      simp only [Option.some.injEq] at h
      rw [if_pos (by simpa using hd), h]
      simp [getCmp]
    | false =>
      rw [hd] at h
      rw [if_neg (by simpa using hd)]
      exact find_get h

end

/-- The comparison of two expressions that are not numbers that an operand is. -/
def notOf (S : NumSem V) (x : Expr) : Option (Expr × CmpOp × Expr) := match notNumbers S x with | .ok r => r | .error _ => none

/-- What an operand adds for an expression and a comparison. -/
def added (S : NumSem V) (e : Expr) (op : CmpOp) (x : Expr) : List (Expr × Bool) :=
  match notOf S x with
  | some (l, o, r) => (if l = e ∧ o = op then [(r, false)] else []) ++ (if r = e ∧ switched o = op then [(l, true)] else [])
  | none => []

/-- What an operand adds for numbers. -/
def addedNum (S : NumSem V) (e : Expr) (op : CmpOp) (x : Expr) : List (V × Bool) :=
  match opOf S x with
  | some (e', o, v) => if e' = e ∧ o = op then [(v, wasSwitched x o)] else []
  | none => []

theorem notOf_of_opOf {x : Expr} {y : Expr × CmpOp × V} (h : operandOf S x = .ok (some y)) : notOf S x = none := by
  unfold operandOf at h
  unfold notOf notNumbers
  split at h
  · rename_i left o right
    split at h
    · cases h
    · rename_i l hl
      split at h
      · cases h
      · rename_i r hr
        split at h
        · simp only [hl]; cases isOrder o <;> rfl
        · simp only [hl, hr]; cases isOrder o <;> rfl
        · cases h
  · cases h

theorem collect_parts {isOr : Bool} {acc acc' : Acc V} {x : Expr} (h : collect S isOr acc x = .ok acc') :
    (∀ e op, get e op acc'.comparisons = get e op acc.comparisons ++ added S e op x) ∧
    (∀ e op, get e op acc'.numbers = get e op acc.numbers ++ addedNum S e op x) ∧
    (Distinct acc.comparisons → Distinct acc'.comparisons) := by
  unfold collect at h
  split at h
  · cases h
  · rename_i e op v ho
    cases h
    have h1 := notOf_of_opOf ho
    have h2 : opOf S x = some (e, op, v) := by simp [opOf, ho]
    refine ⟨fun e' op' => by simp [added, h1], fun e' op' => ?_, id⟩
    simp only [addedNum, h2]
    exact get_update _
  · rename_i ho
    have h2 : opOf S x = none := by simp [opOf, ho]
    have hnum : ∀ e op, addedNum S e op x = [] := fun e op => by simp [addedNum, h2]
    split at h
    · cases h
    · rename_i l op r hn
      cases h
      have h1 : notOf S x = some (l, op, r) := by simp [notOf, hn]
      refine ⟨fun e' op' => ?_, fun e' op' => by simp [hnum], fun hd => distinct_update (distinct_update hd)⟩
      simp only [added, h1]
      rw [get_update, get_update, List.append_assoc]
    · rename_i hn
      have h1 : notOf S x = none := by simp [notOf, hn]
      have hadd : ∀ e op, added S e op x = [] := fun e op => by simp [added, h1]
      repeat' split at h
      all_goals first | (cases h; done) | (cases h; exact ⟨fun _ _ => by simp [hadd], fun _ _ => by simp [hnum], id⟩)

theorem collectAll_parts {pure : Expr → Bool} {isOr : Bool} : ∀ {values : List Expr} {acc acc' : Acc V},
    collectAll S pure isOr acc values = .ok (some acc') →
    (∀ e op, get e op acc'.comparisons = get e op acc.comparisons ++ values.flatMap (added S e op)) ∧
    (∀ e op, get e op acc'.numbers = get e op acc.numbers ++ values.flatMap (addedNum S e op)) ∧
    (Distinct acc.comparisons → Distinct acc'.comparisons)
  | [], acc, acc', h => by cases h; simp
  | x :: values, acc, acc', h => by
    rw [collectAll] at h
    split at h
    · split at h
      · cases h
      · rename_i acc1 hc
        obtain ⟨h1, h2, h3⟩ := collect_parts hc
        obtain ⟨h4, h5, h6⟩ := collectAll_parts h
        refine ⟨fun e op => ?_, fun e op => ?_, h6 ∘ h3⟩
        · rw [h4, h1, List.flatMap_cons, List.append_assoc]
        · rw [h5, h2, List.flatMap_cons, List.append_assoc]
    · cases h

/-! ### What is chosen -/

/-- How many comparisons are put together. -/
def Chosen.count (c : Chosen V) : Nat := c.exprs.length + c.num.toList.length

/-- A choice is one of the comparisons. -/
structure Choice (numbers : Comparisons V) (c : Chosen V) (exprs : List (Expr × Bool)) : Prop where
  exprs : c.exprs = exprs
  two : 2 ≤ c.exprs.length
  num : c.num = onlyNumber numbers c.expr c.op

/-- Going through comparisons keeps a choice that is as good as any before. -/
theorem choose_best {numbers : Comparisons V} {e : Expr} {best : Option (Chosen V)} {c : CmpOp × List (Expr × Bool)} :
    (∀ d, choose numbers e best c = some d → best = some d ∨ (d.expr = e ∧ d.op = c.1 ∧ Choice numbers d c.2)) ∧
    (∀ b, best = some b → ∃ d, choose numbers e best c = some d ∧ b.count ≤ d.count) ∧
    (2 ≤ c.2.length → ∃ d, choose numbers e best c = some d ∧ c.2.length + (onlyNumber numbers e c.1).toList.length ≤ d.count) := by
  have htl : ∀ o : Option (V × Bool), o.toList.length = if o.isSome then 1 else 0 := by intro o; cases o <;> rfl
  unfold choose
  split
  · rename_i hlt
    exact ⟨fun d h => .inl h, fun b h => ⟨b, h, Nat.le_refl _⟩, fun h => by omega⟩
  · rename_i hge
    cases best with
    | none =>
      refine ⟨fun d h => ?_, (fun b h => nomatch h), fun h => ⟨_, rfl, by simp [Chosen.count]⟩⟩
      cases h
      exact .inr ⟨rfl, rfl, rfl, by simpa using hge, rfl⟩
    | some b =>
      simp only
      by_cases hlt : b.exprs.length < c.2.length + (if (onlyNumber numbers e c.1).isSome then 1 else 0)
      · simp only [hlt, if_true]
        refine ⟨fun d h => ?_, fun b' h => ⟨_, rfl, ?_⟩, fun h => ⟨_, rfl, by simp [Chosen.count]⟩⟩
        · cases h
          exact .inr ⟨rfl, rfl, rfl, by simpa using hge, rfl⟩
        · cases h
          simp only [Chosen.count, htl]
          have : (if b.num.isSome = true then 1 else 0) ≤ 1 := by split <;> omega
          omega
      · simp only [hlt, if_false]
        refine ⟨fun d h => .inl h, fun b' h => ⟨b, rfl, by cases h; exact Nat.le_refl _⟩, fun h => ⟨b, rfl, ?_⟩⟩
        simp only [Chosen.count, htl]
        omega

theorem choose_all {numbers : Comparisons V} {e : Expr} : ∀ {cs : List (CmpOp × List (Expr × Bool))} {best : Option (Chosen V)},
    (∀ d, cs.foldl (choose numbers e) best = some d → best = some d ∨ ∃ c ∈ cs, d.expr = e ∧ d.op = c.1 ∧ Choice numbers d c.2) ∧
    (∀ b, best = some b → ∃ d, cs.foldl (choose numbers e) best = some d ∧ b.count ≤ d.count) ∧
    (∀ c ∈ cs, 2 ≤ c.2.length → ∃ d, cs.foldl (choose numbers e) best = some d ∧ c.2.length + (onlyNumber numbers e c.1).toList.length ≤ d.count)
  | [], best => ⟨fun d h => .inl h, fun b h => ⟨b, h, Nat.le_refl _⟩, (fun _ h => nomatch h)⟩
  | c :: cs, best => by
    obtain ⟨h1, h2, h3⟩ := choose_best (numbers := numbers) (e := e) (best := best) (c := c)
    obtain ⟨h4, h5, h6⟩ := choose_all (numbers := numbers) (e := e) (cs := cs) (best := choose numbers e best c)
    rw [List.foldl_cons]
    refine ⟨fun d h => ?_, fun b h => ?_, fun c' hc' hl => ?_⟩
    · rcases h4 d h with h | ⟨c', hc', h⟩
      · rcases h1 d h with h | h
        · exact .inl h
        · exact .inr ⟨c, by simp, h⟩
      · exact .inr ⟨c', by simp [hc'], h⟩
    · obtain ⟨d, hd, hb⟩ := h2 b h
      obtain ⟨d', hd', hb'⟩ := h5 d hd
      exact ⟨d', hd', Nat.le_trans hb hb'⟩
    · rcases List.mem_cons.1 hc' with rfl | hc'
      · obtain ⟨d, hd, hb⟩ := h3 hl
        obtain ⟨d', hd', hb'⟩ := h5 d hd
        exact ⟨d', hd', Nat.le_trans hb hb'⟩
      · exact h6 c' hc' hl

theorem chosen_best {numbers : Comparisons V} : ∀ {cs : Comparisons Expr} {best : Option (Chosen V)},
    (∀ d, cs.foldl (fun best c => c.2.foldl (choose numbers c.1) best) best = some d →
      best = some d ∨ ∃ p ∈ cs, ∃ c ∈ p.2, d.expr = p.1 ∧ d.op = c.1 ∧ Choice numbers d c.2) ∧
    (∀ b, best = some b → ∃ d, cs.foldl (fun best c => c.2.foldl (choose numbers c.1) best) best = some d ∧ b.count ≤ d.count) ∧
    (∀ p ∈ cs, ∀ c ∈ p.2, 2 ≤ c.2.length → ∃ d, cs.foldl (fun best c => c.2.foldl (choose numbers c.1) best) best = some d ∧
      c.2.length + (onlyNumber numbers p.1 c.1).toList.length ≤ d.count)
  | [], best => ⟨fun d h => .inl h, fun b h => ⟨b, h, Nat.le_refl _⟩, (fun _ h => nomatch h)⟩
  | p :: cs, best => by
    obtain ⟨h1, h2, h3⟩ := choose_all (numbers := numbers) (e := p.1) (cs := p.2) (best := best)
    obtain ⟨h4, h5, h6⟩ := chosen_best (numbers := numbers) (cs := cs) (best := p.2.foldl (choose numbers p.1) best)
    rw [List.foldl_cons]
    refine ⟨fun d h => ?_, fun b h => ?_, fun p' hp' c' hc' hl => ?_⟩
    · rcases h4 d h with h | ⟨p', hp', h⟩
      · rcases h1 d h with h | ⟨c, hc, h⟩
        · exact .inl h
        · exact .inr ⟨p, by simp, c, hc, h⟩
      · exact .inr ⟨p', by simp [hp'], h⟩
    · obtain ⟨d, hd, hb⟩ := h2 b h
      obtain ⟨d', hd', hb'⟩ := h5 d hd
      exact ⟨d', hd', Nat.le_trans hb hb'⟩
    · rcases List.mem_cons.1 hp' with rfl | hp'
      · obtain ⟨d, hd, hb⟩ := h3 c' hc' hl
        obtain ⟨d', hd', hb'⟩ := h5 d hd
        exact ⟨d', hd', Nat.le_trans hb hb'⟩
      · exact h6 p' hp' c' hc' hl

theorem onlyNumber_get {numbers : Comparisons V} {e : Expr} {op : CmpOp} {n : V × Bool} (h : onlyNumber numbers e op = some n) :
    get e op numbers = [n] := by
  unfold onlyNumber at h
  split at h
  · rename_i k o x hf
    split at h
    · rename_i ho; cases h; subst ho; exact find_get hf
    · cases h
  · cases h

end Verif.Py.BoolOps

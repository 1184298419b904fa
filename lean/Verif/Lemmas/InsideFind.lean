import Verif.Lemmas.InsideCtx
import Verif.Lemmas.InsideWalk

/-! Lemmas for C90: which parts of blocks are found to be in the statements. -/

namespace Verif.Inside

open Verif.Flow
open Verif.Traverse (Loc locAt ofFlow locAt_unique lt_of_get)

/-! ### Positions of statements -/

theorem covered_mem {F : Graph} {s : Stmt} {x : Loc} (h : locAt F x = some (first s)) : x.2 ∈ covered F s x := by
  have hlt : x.2 < (F.locs x.1).length := lt_of_get h
  have many : x.2 ∈ (List.range' x.2 ((F.locs x.1).length - x.2)).takeWhile (isIn F s x.1) := by
    have : (F.locs x.1).length - x.2 = ((F.locs x.1).length - x.2 - 1) + 1 := by omega
    rw [this, List.range'_succ, List.takeWhile_cons_of_pos]
    · exact List.mem_cons_self
    · rw [isIn_eq h]
      simpa using first_mem s
  cases s with
  | simple l => exact List.mem_singleton.2 rfl
  | jump j l => exact List.mem_singleton.2 rfl
  | cond _ _ _ => exact many
  | loop _ _ _ => exact many
  | each _ _ _ _ => exact many
  | enter _ _ _ => exact many
  | try_ _ _ _ _ _ => exact many

theorem covered_in {F : Graph} {s : Stmt} {x : Loc} (h : locAt F x = some (first s)) {i : Nat} (hi : i ∈ covered F s x) :
    ∃ l, locAt F (x.1, i) = some l ∧ l ∈ s.locations := by
  have many : i ∈ (List.range' x.2 ((F.locs x.1).length - x.2)).takeWhile (isIn F s x.1) →
      ∃ l, locAt F (x.1, i) = some l ∧ l ∈ s.locations := by
    intro hi
    have h1 : isIn F s x.1 i = true := by
      have hall := List.all_takeWhile (p := isIn F s x.1) (l := List.range' x.2 ((F.locs x.1).length - x.2))
      exact List.all_eq_true.1 hall i hi
    unfold isIn at h1
    split at h1
    · rename_i l hl
      exact ⟨l, hl, by simpa using h1⟩
    · cases h1
  cases s with
  | simple l => rw [List.mem_singleton.1 hi]; exact ⟨_, h, first_mem _⟩
  | jump j l => rw [List.mem_singleton.1 hi]; exact ⟨_, h, first_mem _⟩
  | cond _ _ _ => exact many hi
  | loop _ _ _ => exact many hi
  | each _ _ _ _ => exact many hi
  | enter _ _ _ => exact many hi
  | try_ _ _ _ _ _ => exact many hi

theorem stmt_locations : ∀ {b : Body} {s : Stmt}, s ∈ stmts b → ∀ l ∈ s.locations, l ∈ b.locations
  | .nil, _, h => nomatch h
  | .cons s' rest, s, h => by
    intro l hl
    rcases List.mem_cons.1 h with rfl | h
    · exact List.mem_append_left _ hl
    · exact List.mem_append_right _ (stmt_locations h l hl)

theorem cov_in {F : Graph} (hg : Sane F) (hd : F.all.Nodup) {b : Body} {B i : Nat}
    (hall : ∀ s ∈ stmts b, ∃ x, locAt F x = some (first s)) (hi : i ∈ cov F (stmts b) B) :
    ∃ l, locAt F (B, i) = some l ∧ l ∈ b.locations := by
  obtain ⟨s, hs, hi⟩ := List.mem_flatMap.1 hi
  obtain ⟨x, hx⟩ := hall s hs
  unfold covOf at hi
  rw [place_eq hg hd hx] at hi
  simp only at hi
  split at hi
  · rename_i e
    obtain ⟨l, h1, h2⟩ := covered_in hx hi
    exact ⟨l, e ▸ h1, stmt_locations hs l h2⟩
  · cases hi

/-! ### Sorting -/

theorem insert_mem {a x : Stmt × Loc} : ∀ {l : List (Stmt × Loc)}, x ∈ insert a l ↔ x = a ∨ x ∈ l
  | [] => by simp [insert]
  | c :: cs => by
    unfold insert
    split
    · simp
    · rw [List.mem_cons, insert_mem, List.mem_cons]
      constructor
      · rintro (h | h | h) <;> simp [h]
      · rintro (h | h | h) <;> simp [h]

/-- In the order of the positions. -/
def Ordered (l : List (Stmt × Loc)) : Prop := l.Pairwise fun a b => a.2.2 ≤ b.2.2

theorem insert_head {a : Stmt × Loc} {l : List (Stmt × Loc)} (h : ∀ x ∈ l, a.2.2 ≤ x.2.2) : insert a l = a :: l := by
  cases l with
  | nil => rfl
  | cons c cs => unfold insert; rw [if_pos (h c (by simp))]

theorem insert_ordered {a : Stmt × Loc} : ∀ {l : List (Stmt × Loc)}, Ordered l → Ordered (insert a l)
  | [], _ => by simp [insert, Ordered]
  | c :: cs, h => by
    have h' := List.pairwise_cons.1 h
    unfold insert
    split
    · rename_i hac
      refine List.pairwise_cons.2 ⟨fun x hx => ?_, h⟩
      rcases List.mem_cons.1 hx with rfl | hx
      · exact hac
      · exact Nat.le_trans hac (h'.1 x hx)
    · rename_i hac
      refine List.pairwise_cons.2 ⟨fun x hx => ?_, insert_ordered h'.2⟩
      rcases insert_mem.1 hx with rfl | hx
      · omega
      · exact h'.1 x hx

theorem sorted_ordered : ∀ (l : List (Stmt × Loc)), Ordered (sorted l)
  | [] => List.Pairwise.nil
  | _ :: as => insert_ordered (sorted_ordered as)

theorem insert_filter {p : Stmt × Loc → Bool} {a : Stmt × Loc} : ∀ {l : List (Stmt × Loc)}, Ordered l →
    (insert a l).filter p = if p a then insert a (l.filter p) else l.filter p
  | [], _ => by
    cases h : p a <;> simp [insert, h]
  | c :: cs, h => by
    have h' := List.pairwise_cons.1 h
    have hins : ∀ cs, insert a (c :: cs) = if a.2.2 ≤ c.2.2 then a :: c :: cs else c :: insert a cs := fun _ => rfl
    by_cases hac : a.2.2 ≤ c.2.2
    · rw [hins, if_pos hac]
      cases hp : p a with
      | false => rw [List.filter_cons_of_neg (by simp [hp])]; rfl
      | true =>
        rw [List.filter_cons_of_pos hp, if_pos rfl]
        refine (insert_head fun x hx => ?_).symm
        rcases List.mem_cons.1 (List.mem_filter.1 hx).1 with rfl | hx
        · exact hac
        · exact Nat.le_trans hac (h'.1 x hx)
    · rw [hins, if_neg hac]
      cases hc : p c with
      | false =>
        rw [List.filter_cons_of_neg (by simp [hc]), List.filter_cons_of_neg (by simp [hc]), insert_filter h'.2]
      | true =>
        rw [List.filter_cons_of_pos hc, List.filter_cons_of_pos hc, insert_filter h'.2, hins, if_neg hac]
        cases p a <;> rfl

theorem sorted_of_ordered : ∀ {l : List (Stmt × Loc)}, Ordered l → sorted l = l
  | [], _ => rfl
  | a :: as, h => by
    have h' := List.pairwise_cons.1 h
    show insert a (sorted as) = _
    rw [sorted_of_ordered h'.2, insert_head h'.1]

theorem sorted_filter {p : Stmt × Loc → Bool} : ∀ (l : List (Stmt × Loc)), (sorted l).filter p = sorted (l.filter p)
  | [] => rfl
  | a :: as => by
    show (insert a (sorted as)).filter p = _
    rw [insert_filter (sorted_ordered as), sorted_filter as]
    cases h : p a with
    | false => rw [List.filter_cons_of_neg (by simp [h])]; rfl
    | true => rw [List.filter_cons_of_pos h]; rfl

theorem ordered_of_cover {f : Stmt × Loc → List Nat} : ∀ {l : List (Stmt × Loc)}, (l.flatMap f).Pairwise (· < ·) →
    (∀ a ∈ l, a.2.2 ∈ f a) → Ordered l
  | [], _, _ => List.Pairwise.nil
  | a :: as, h, hf => by
    rw [List.flatMap_cons, List.pairwise_append] at h
    refine List.pairwise_cons.2 ⟨fun x hx => ?_, ordered_of_cover h.2.1 fun x hx => hf x (List.mem_cons_of_mem _ hx)⟩
    exact Nat.le_of_lt (h.2.2 _ (hf a List.mem_cons_self) _ (List.mem_flatMap.2 ⟨x, hx, hf x (List.mem_cons_of_mem _ hx)⟩))

/-! ### Positions found in blocks -/

theorem placed_eq {F : Graph} (hg : Sane F) (hd : F.all.Nodup) : ∀ {ss : List Stmt}, (∀ s ∈ ss, ∃ x, locAt F x = some (first s)) →
    ∃ ps, placed F ss = some ps ∧ (∀ a ∈ ps, locAt F a.2 = some (first a.1)) ∧
      ∀ B, (ps.filter fun a => a.2.1 == B).flatMap (fun a => covered F a.1 a.2) = cov F ss B
  | [], _ => ⟨[], rfl, by simp, fun _ => rfl⟩
  | s :: ss, h => by
    obtain ⟨x, hx⟩ := h s List.mem_cons_self
    obtain ⟨ps, h1, h2, h3⟩ := placed_eq hg hd (ss := ss) fun s hs => h s (List.mem_cons_of_mem _ hs)
    have hp := place_eq hg hd hx
    refine ⟨(s, x) :: ps, ?_, ?_, fun B => ?_⟩
    · show (match place F (first s), placed F ss with | some x, some ps => _ | _, _ => _) = _
      rw [hp, h1]
    · intro a ha
      rcases List.mem_cons.1 ha with rfl | ha
      · exact hx
      · exact h2 a ha
    · rw [cov_cons, ← h3 B]
      unfold covOf
      rw [hp]
      by_cases e : x.1 = B
      · rw [List.filter_cons_of_pos (by simpa using e), List.flatMap_cons]
        simp only [if_pos e]
      · rw [List.filter_cons_of_neg (by simpa using e)]
        simp only [if_neg e, List.nil_append]

theorem blockLocs_eq {F : Graph} (hg : Sane F) (hd : F.all.Nodup) {ss : List Stmt} (hall : ∀ s ∈ ss, ∃ x, locAt F x = some (first s))
    (hr : ∀ B, ∃ m n, cov F ss B = List.range' m n) : ∃ ps, placed F ss = some ps ∧ ∀ B, blockLocs F ps B = cov F ss B := by
  obtain ⟨ps, h1, h2, h3⟩ := placed_eq hg hd hall
  refine ⟨ps, h1, fun B => ?_⟩
  unfold blockLocs
  rw [sorted_filter, sorted_of_ordered, h3 B]
  obtain ⟨m, n, hmn⟩ := hr B
  refine ordered_of_cover (f := fun a => covered F a.1 a.2) ?_ ?_
  · rw [h3 B, hmn]; exact List.pairwise_lt_range'
  · intro a ha
    exact covered_mem (h2 a (List.mem_filter.1 ha).1)

theorem conseqsFrom_range (lo : Nat) : ∀ (n last : Nat), conseqsFrom lo last (List.range' (last + 1) n) = [(lo, last + 1 + n)]
  | 0, last => rfl
  | n + 1, last => by
    rw [List.range'_succ]
    simp only [conseqsFrom]
    rw [if_pos trivial, conseqsFrom_range lo n (last + 1)]
    congr 2; omega

theorem conseqs_range (m n : Nat) : conseqs (List.range' m n) = if n = 0 then [] else [(m, m + n)] := by
  cases n with
  | zero => rfl
  | succ n =>
    rw [List.range'_succ, if_neg (by omega)]
    show conseqsFrom m m (List.range' (m + 1) n) = _
    rw [conseqsFrom_range]
    congr 2; omega

/-! ### Blocks -/

/-- The location at the position is in the statements. -/
def In (F : Graph) (b : Body) (B i : Nat) : Prop := ∃ l, locAt F (B, i) = some l ∧ l ∈ b.locations

/-- In a block, the locations of the statements are in a row (`u` of them after `a` others), and the last of them are found, or
none. -/
structure Look (F : Graph) (b : Body) (start : Loc) (free : Bool) (B a u m n : Nat) : Prop where
  cov : cov F (stmts b) B = List.range' m n
  iff : ∀ i, In F b B i ↔ a ≤ i ∧ i < a + u
  len : a + u ≤ (F.locs B).length
  ends : n = 0 ∨ m + n = a + u
  old : a ≠ 0 → n = u
  lead : a ≠ 0 → u ≠ 0 → start.1 = B
  start : start.1 = B → start.2 = a ∧ n ≠ 0
  all : free = true ∨ noEnter b = true → a + u < (F.locs B).length → n = u

theorem in_iff {F : Graph} {b : Body} {B : Nat} {A U V : List Nat} (h : F.locs B = A ++ (U ++ V)) (hA : ∀ l ∈ A, l ∉ b.locations)
    (hU : ∀ l ∈ U, l ∈ b.locations) (hV : ∀ l ∈ V, l ∉ b.locations) (i : Nat) :
    In F b B i ↔ A.length ≤ i ∧ i < A.length + U.length := by
  unfold In
  show (∃ l, (F.locs B)[i]? = some l ∧ _) ↔ _
  rw [h]
  constructor
  · rintro ⟨l, h1, h2⟩
    by_cases e1 : i < A.length
    · rw [List.getElem?_append_left e1] at h1
      exact absurd h2 (hA l (List.mem_of_getElem? h1))
    · rw [List.getElem?_append_right (by omega)] at h1
      by_cases e2 : i - A.length < U.length
      · omega
      · rw [List.getElem?_append_right (by omega)] at h1
        exact absurd h2 (hV l (List.mem_of_getElem? h1))
  · rintro ⟨h1, h2⟩
    rw [List.getElem?_append_right h1, List.getElem?_append_left (by omega)]
    exact ⟨U[i - A.length], List.getElem?_eq_getElem _, hU _ (List.getElem_mem _)⟩

/-- Statements with locations in `F`, of which the first one begins at `start`: what is found for them in each block. -/
theorem look {F : Graph} {b : Body} {free : Bool} (hg : Sane F) (hd : F.all.Nodup) (hf : b.noFinally = true) (hn : b.locations.Nodup)
    (hctx : Ctx F b free) {s : Stmt} {rest : Body} (hb : b = .cons s rest) :
    ∃ start, locAt F start = some (first s) ∧ (∀ s ∈ stmts b, ∃ x, locAt F x = some (first s)) ∧
      ∀ B, ∃ a u m n, Look F b start free B a u m n := by
  obtain ⟨bd, g, c, ht, ha, hk, hfree⟩ := hctx
  obtain ⟨hall, hc⟩ := body_cover b bd hf hn ht ha hg hd hk
  have hlay := body_lay b bd ht
  have hputs := puts_all (body_puts b bd hf ht)
  -- the first statement
  have hfirst : ∃ start, locAt F start = some (first s) ∧
      ((start.1 = c ∧ start.2 = (g.locs c).length) ∨ (g.count ≤ start.1 ∧ start.2 = 0 ∧ (visitBody b bd (g, c)).1.locs c = g.locs c)) := by
    subst hb
    simp only [Body.noFinally, Bool.and_eq_true] at hf
    simp only [visitBody] at hk ⊢
    have hput := visit_put s bd ht
    have hp1 := visit_puts s bd hf.1 ht
    have hrest := body_lay rest bd hput.lays.tidy
    obtain ⟨hb, hp, hn, h1, h2, h3, h4⟩ := stmt_spot hg hd ht.cur hput (puts_all hp1)
      (fun x l hl hm => ha x l hl (List.mem_append_left _ hm)) (hk.left hput.lays hrest)
    refine ⟨(hb, hp), h1, ?_⟩
    rcases h4 with h4 | ⟨h5, h6, h7, h8, h9, h10, h11⟩
    · exact .inl ⟨h4.1, h4.2.1⟩
    · refine .inr ⟨h5, h8, ?_⟩
      have := hrest.frame c (Nat.lt_of_lt_of_le ht.cur hput.lays.count) (fun e => h11 e.symm)
      exact this.trans h10
  obtain ⟨start, hs1, hs2⟩ := hfirst
  have hmem : ∃ ss, stmts b = s :: ss := ⟨stmts rest, by rw [hb]; rfl⟩
  have hstart : ∀ {B m n}, start.1 = B → cov F (stmts b) B = List.range' m n → n ≠ 0 := by
    rintro B m n rfl h1 rfl
    obtain ⟨ss, hss⟩ := hmem
    have h2 : start.2 ∈ cov F (stmts b) start.1 := by
      rw [hss, cov_cons]
      refine List.mem_append_left _ ?_
      unfold covOf
      rw [place_eq hg hd hs1]
      simp only [if_true]
      exact covered_mem hs1
    rw [h1] at h2
    cases h2
  refine ⟨start, hs1, hall, fun B => ?_⟩
  -- what is added later
  have hlater : ∀ B, (B = c ∨ g.count ≤ B) → B < (visitBody b bd (g, c)).1.count →
      ∃ V, F.locs B = (visitBody b bd (g, c)).1.locs B ++ V ∧ (∀ l ∈ V, l ∉ b.locations) ∧
        (V ≠ [] → B = (visitBody b bd (g, c)).2 ∧ free = false) := by
    intro B h1 h2
    by_cases e : B = (visitBody b bd (g, c)).2
    · obtain ⟨v, hv⟩ := hk.more
      refine ⟨v, by rw [e]; exact hv, beyond hg hd hlay hputs ha hk hv, fun hne => ⟨e, ?_⟩⟩
      cases hfr : free with
      | false => rfl
      | true =>
        rw [hfree hfr] at hv
        exact absurd (List.self_eq_append_right.1 hv) hne
    · exact ⟨[], by rw [hk.same B h1 h2 e]; simp, by simp, fun h => absurd rfl h⟩
  have hcnt := hlay.count
  have hcc := ht.cur
  by_cases e1 : B = c
  · subst e1
    obtain ⟨U, hU, hUb⟩ := hlay.at_
    obtain ⟨V, hV, hVb, hVf⟩ := hlater B (.inl rfl) (by omega)
    have hF : F.locs B = g.locs B ++ (U ++ V) := by rw [hV, hU, List.append_assoc]
    have hcov := hc.at_
    have hlen : ((visitBody b bd (g, B)).1.locs B).length - (g.locs B).length = U.length := by rw [hU]; simp
    rw [hlen] at hcov
    refine ⟨(g.locs B).length, U.length, (g.locs B).length, U.length, hcov, in_iff hF (fun l hl => ha B l hl) hUb hVb, by rw [hF]; simp,
      .inr rfl, fun _ => rfl, fun _ hne => ?_, fun h => ⟨?_, hstart h hcov⟩, fun _ _ => rfl⟩
    · rcases hs2 with h | h
      · exact h.1
      · rw [h.2.2] at hU
        rw [List.self_eq_append_right.1 hU] at hne
        exact absurd rfl hne
    · rcases hs2 with h' | h'
      · exact h'.2
      · omega
  · by_cases e2 : g.count ≤ B ∧ B < (visitBody b bd (g, c)).1.count
    · obtain ⟨V, hV, hVb, hVf⟩ := hlater B (.inr e2.1) e2.2
      obtain ⟨m, n, hcov, hends, hno⟩ := hc.new B e2.1 e2.2
      have hF : F.locs B = [] ++ ((visitBody b bd (g, c)).1.locs B ++ V) := hV
      refine ⟨0, ((visitBody b bd (g, c)).1.locs B).length, m, n, hcov, ?_, by rw [hF]; simp, by simpa using hends, fun h => absurd rfl h,
        fun h => absurd rfl h, fun h => ⟨?_, hstart h hcov⟩, fun hfr hlt => ?_⟩
      · simpa using in_iff hF (by simp) (hlay.new B e2.1) hVb
      · rcases hs2 with h' | h'
        · omega
        · exact h'.2.1
      · have hne : V ≠ [] := by
          rintro rfl
          rw [hF] at hlt
          simp at hlt
        obtain ⟨k1, k2⟩ := hVf hne
        rcases hfr with hfr | hfr
        · rw [hfr] at k2; cases k2
        · obtain ⟨q1, q2⟩ := hno hfr
          by_cases e0 : n = 0
          · rw [q2 e0 k1, e0]; rfl
          · have := q1 e0
            rcases hends with h | h <;> omega
    · have hnone : ∀ l ∈ F.locs B, l ∉ b.locations := by
        intro l hl hm
        obtain ⟨x, hx⟩ := hputs l hm
        have hxlt : x < (visitBody b bd (g, c)).1.count := by
          by_cases e : x < (visitBody b bd (g, c)).1.count
          · exact e
          · rw [hlay.tidy.fresh x (by omega)] at hx; cases hx
        have hxc : x = c ∨ g.count ≤ x := by
          by_cases e : x < g.count
          · by_cases e' : x = c
            · exact .inl e'
            · rw [hlay.frame x e e'] at hx; exact absurd hm (ha x l hx)
          · exact .inr (by omega)
        obtain ⟨V, hV, _⟩ := hlater x hxc hxlt
        have : B = x := all_unique hd hg hl (by rw [hV]; exact List.mem_append_left _ hx)
        subst this
        rcases hxc with h | h
        · exact e1 h
        · exact e2 ⟨h, hxlt⟩
      have hcov : cov F (stmts b) B = List.range' 0 0 := by
        by_cases e : B < g.count
        · exact hc.old B e e1
        · exact hc.far B (by omega)
      refine ⟨(F.locs B).length, 0, 0, 0, hcov, ?_, Nat.le_refl _, .inl rfl, fun _ => rfl, fun _ h => absurd rfl h, fun h => ?_, fun _ _ => rfl⟩
      · simpa using in_iff (A := F.locs B) (U := []) (V := []) (by simp) hnone (by simp) (by simp)
      · exact absurd rfl (hstart h hcov)

/-! ### Parts of blocks -/

theorem stopOn_eq {F : Graph} {b : Body} {B hi : Nat} : stopOn F b B hi = false ↔ In F b B (hi - 1) := by
  unfold stopOn In
  cases h : locAt F (B, hi - 1) with
  | none => simp
  | some l => simp

/-- The position is in a part that is said to be in the statements. -/
def Yields (parts : List Part) (B i : Nat) : Prop := ∃ lo hi, (true, B, lo, hi) ∈ parts ∧ lo ≤ i ∧ i < hi

theorem parts_cases {F : Graph} {b : Body} {ps : List (Stmt × Loc)} {B lo hi m n : Nat} (hps : blockLocs F ps B = List.range' m n) :
    (partsOf F b ps (B, lo, hi) = [(!stopOn F b B hi, B, lo, hi)] ∧ (n = 0 ∨ (F.locs B).length ≤ m + n)) ∨
    (partsOf F b ps (B, lo, hi) = [(true, B, m, m + n), (false, B, m + n, (F.locs B).length)] ∧ n ≠ 0 ∧ m + n < (F.locs B).length) := by
  unfold partsOf
  simp only [hps, conseqs_range]
  by_cases e : n = 0
  · left; simp [e]
  · simp only [if_neg e]
    by_cases e2 : (F.locs B).length ≤ m + n
    · left; simp [e2]
    · right
      refine ⟨?_, e, by omega⟩
      rw [if_neg e2]
      simp only [between]
      rw [if_pos (by omega)]

theorem sound_part {F : Graph} {b : Body} {ps : List (Stmt × Loc)} {start : Loc} {free : Bool} {B lo hi a u m n i : Nat}
    (hl : Look F b start free B a u m n) (hg : Sane F) (hd : F.all.Nodup) (hall : ∀ s ∈ stmts b, ∃ x, locAt F x = some (first s))
    (hps : blockLocs F ps B = cov F (stmts b) B) (hfr : Fresh (ofFlow F) start B lo hi)
    (hy : Yields (partsOf F b ps (B, lo, hi)) B i) : In F b B i := by
  rw [hl.cov] at hps
  obtain ⟨lo', hi', hm, h1, h2⟩ := hy
  rcases parts_cases (b := b) (lo := lo) (hi := hi) hps with ⟨hp, hc⟩ | ⟨hp, hn, hlt⟩
  · rw [hp, List.mem_singleton] at hm
    simp only [Prod.mk.injEq] at hm
    obtain ⟨h3, -, rfl, rfl⟩ := hm
    have hin := stopOn_eq.1 (show stopOn F b B hi' = false by rw [← Bool.not_eq_true', ← h3])
    rw [hl.iff] at hin ⊢
    refine ⟨?_, by omega⟩
    by_cases ha : a = 0
    · omega
    · have hu : u ≠ 0 := by omega
      have hs := hl.lead ha hu
      have := hl.start hs
      obtain ⟨f1, f2, f3⟩ := hfr
      rcases f3 with f3 | f3 | f3
      · exact absurd hs.symm f3.1
      · omega
      · omega
  · rw [hp] at hm
    simp only [List.mem_cons, Prod.mk.injEq, List.not_mem_nil, or_false] at hm
    rcases hm with ⟨-, -, rfl, rfl⟩ | ⟨h3, -⟩
    · refine cov_in hg hd hall (B := B) (i := i) ?_
      rw [hl.cov, List.mem_range'_1]
      exact ⟨h1, h2⟩
    · cases h3

theorem complete_part {F : Graph} {b : Body} {ps : List (Stmt × Loc)} {start : Loc} {free : Bool} {B lo hi a u m n i : Nat}
    (hl : Look F b start free B a u m n) (hps : blockLocs F ps B = cov F (stmts b) B) (hfr : Fresh (ofFlow F) start B lo hi)
    (hfree : free = true ∨ noEnter b = true) (hin : In F b B i) (h1 : lo ≤ i) (h2 : i < hi) : Yields (partsOf F b ps (B, lo, hi)) B i := by
  rw [hl.cov] at hps
  have hi' := (hl.iff i).1 hin
  have hlen := hl.len
  obtain ⟨f1, f2, f3⟩ := hfr
  have f2 : hi ≤ (F.locs B).length := f2
  rcases parts_cases (b := b) (lo := lo) (hi := hi) hps with ⟨hp, hc⟩ | ⟨hp, hn, hlt⟩
  · rw [hp]
    refine ⟨lo, hi, ?_, h1, h2⟩
    have : stopOn F b B hi = false := by
      rw [stopOn_eq, hl.iff]
      have key : hi = (F.locs B).length → (F.locs B).length ≤ a + u → a ≤ hi - 1 ∧ hi - 1 < a + u := by omega
      have hends := hl.ends
      by_cases e0 : n = 0
      · have hv : (F.locs B).length ≤ a + u := by
          by_cases e : a + u < (F.locs B).length
          · have := hl.all hfree e; omega
          · omega
        rcases f3 with f3 | f3 | f3
        · exact key f3.2.2 hv
        · exact key f3.2.2 hv
        · exact absurd e0 (hl.start f3.1.symm).2
      · have hv : (F.locs B).length ≤ a + u := by omega
        rcases f3 with f3 | f3 | f3
        · exact key f3.2.2 hv
        · exact key f3.2.2 hv
        · have := (hl.start f3.1.symm).1; omega
    rw [this]
    exact List.mem_singleton.2 rfl
  · rw [hp]
    refine ⟨m, m + n, by simp, ?_, ?_⟩
    · have hends := hl.ends
      have := hl.all hfree (by omega)
      omega
    · have hends := hl.ends
      omega

end Verif.Inside

import Verif.Lemmas.InsideLay
import Verif.Lemmas.TraverseFlow

/-! Lemmas for C90: which positions in blocks are found for statements. -/

namespace Verif.Inside

open Verif.Flow
open Verif.Traverse (Loc locAt locAt_unique lt_of_get)

/-- Blocks that have been left stay as they are, the current one may be added to. -/
structure Kept (F g : Graph) (c : Nat) (st : Flow.State) : Prop where
  same : ∀ x, (x = c ∨ g.count ≤ x) → x < st.1.count → x ≠ st.2 → F.locs x = st.1.locs x
  more : ∃ v, F.locs st.2 = st.1.locs st.2 ++ v

theorem Kept.left {F g : Graph} {c : Nat} {st1 st2 : Flow.State} {ls ls' : List Nat} (hk : Kept F g c st2) (h1 : Lays g c ls st1)
    (h2 : Lays st1.1 st1.2 ls' st2) : Kept F g c st1 where
  same x hx hlt hne := by
    have := h2.count
    rw [hk.same x hx (by omega) (by rcases h2.cur with e | e <;> omega), h2.frame x hlt hne]
  more := by
    obtain ⟨u, hu, _⟩ := h2.at_
    by_cases e : st2.2 = st1.2
    · obtain ⟨v, hv⟩ := hk.more
      rw [e, hu] at hv
      exact ⟨u ++ v, by rw [hv, List.append_assoc]⟩
    · refine ⟨u, ?_⟩
      rw [hk.same st1.2 h1.cur (Nat.lt_of_lt_of_le h1.tidy.cur h2.count) (fun e' => e e'.symm), hu]

theorem Kept.right {F g : Graph} {c : Nat} {st1 st2 : Flow.State} {ls : List Nat} (hk : Kept F g c st2) (h1 : Lays g c ls st1) :
    Kept F st1.1 st1.2 st2 where
  same x hx hlt hne := by
    have := h1.count
    refine hk.same x ?_ hlt hne
    rcases hx with e | e
    · rw [e]; exact h1.cur
    · exact .inr (by omega)
  more := hk.more

theorem place_eq {F : Graph} (hg : Sane F) (hd : F.all.Nodup) {x : Loc} {l : Nat} (h : locAt F x = some l) : place F l = some x := by
  have hmem : l ∈ F.locs x.1 := List.mem_of_getElem? h
  have hlt : x.1 < F.count := by
    by_cases e : x.1 < F.count
    · exact e
    · rw [hg.fresh x.1 (by omega)] at hmem; cases hmem
  have hsome : (place F l).isSome = true := by
    unfold place
    rw [List.findSome?_isSome_iff]
    exact ⟨x.1, List.mem_range.2 hlt, by rw [if_pos hmem]; rfl⟩
  cases hp : place F l with
  | none => rw [hp] at hsome; cases hsome
  | some y =>
    unfold place at hp
    obtain ⟨b, _, hb⟩ := List.exists_of_findSome?_eq_some hp
    split at hb
    · rename_i hm
      simp only [Option.some.injEq] at hb
      subst hb
      rw [locAt_unique hg hd (x := (b, (F.locs b).idxOf l)) (y := x) (l := l) ?_ h]
      show (F.locs b)[(F.locs b).idxOf l]? = some l
      exact List.getElem?_idxOf hm
    · cases hb

/-- The locations are not in the graph. -/
def Apart (g : Graph) (ls : List Nat) : Prop := ∀ x l, l ∈ g.locs x → l ∉ ls

theorem Lays.sub {g : Graph} {c : Nat} {ls : List Nat} {st : Flow.State} (h : Lays g c ls st) {x l : Nat} (hl : l ∈ st.1.locs x) :
    l ∈ g.locs x ∨ l ∈ ls := by
  by_cases e : x < g.count
  · by_cases e' : x = c
    · subst e'
      obtain ⟨u, h1, h2⟩ := h.at_
      rw [h1] at hl
      rcases List.mem_append.1 hl with hl | hl
      · exact .inl hl
      · exact .inr (h2 l hl)
    · rw [h.frame x e e'] at hl; exact .inl hl
  · exact .inr (h.new x (by omega) l hl)

/-- What is added to the current block later is none of the locations. -/
theorem beyond {F g : Graph} {c : Nat} {ls : List Nat} {st : Flow.State} (hg : Sane F) (hd : F.all.Nodup) (hl : Lays g c ls st)
    (hp : ∀ l ∈ ls, ∃ x, l ∈ st.1.locs x) (ha : Apart g ls) (hk : Kept F g c st) {v : List Nat}
    (hv : F.locs st.2 = st.1.locs st.2 ++ v) : ∀ l ∈ v, l ∉ ls := by
  intro l hlv hls
  obtain ⟨x, hx⟩ := hp l hls
  have hxlt : x < st.1.count := by
    by_cases e : x < st.1.count
    · exact e
    · rw [hl.tidy.fresh x (by omega)] at hx; cases hx
  have hxc : x = c ∨ g.count ≤ x := by
    by_cases e : x < g.count
    · by_cases e' : x = c
      · exact .inl e'
      · rw [hl.frame x e e'] at hx; exact absurd hls (ha x l hx)
    · exact .inr (by omega)
  have hcur : l ∈ F.locs st.2 := by rw [hv]; exact List.mem_append_right _ hlv
  by_cases e : x = st.2
  · subst e
    have hn := locs_nodup hd hg st.2
    rw [hv, List.nodup_append] at hn
    exact hn.2.2 l hx l hlv rfl
  · refine e (all_unique hd hg ?_ hcur)
    rw [hk.same x hxc hxlt e]; exact hx

theorem isIn_eq {F : Graph} {s : Stmt} {b i l : Nat} (h : (F.locs b)[i]? = some l) : isIn F s b i = s.locations.contains l := by
  unfold isIn locAt
  rw [h]

theorem first_mem : ∀ (s : Stmt), first s ∈ s.locations
  | .simple _ => by simp [first, Stmt.locations]
  | .jump _ _ => by simp [first, Stmt.locations]
  | .cond _ _ _ => by simp [first, Stmt.locations]
  | .loop _ _ _ => by simp [first, Stmt.locations]
  | .each _ _ _ _ => by simp [first, Stmt.locations]
  | .enter _ _ _ => by simp [first, Stmt.locations]
  | .try_ s _ _ _ _ => by
    have := first_mem s
    simp [first, Stmt.locations, this]

/-- The positions that are found for a statement, if the block has its locations `u` from where it begins. -/
theorem covered_eq {F : Graph} {s : Stmt} {b : Nat} {A u v : List Nat} (hn : (F.locs b).Nodup) (h : F.locs b = A ++ (u ++ v))
    (hu : ∀ l ∈ u, l ∈ s.locations) (hv : ∀ l ∈ v, l ∉ s.locations) (hne : u ≠ []) :
    covered F s (b, A.length) = List.range' A.length u.length := by
  have hun : u.Nodup := by
    rw [h] at hn
    exact (List.nodup_append.1 (List.nodup_append.1 hn).2.1).1
  have one : ∀ a, s.locations = [a] → u.length = 1 := by
    intro a ha
    rw [ha] at hu
    cases u with
    | nil => exact absurd rfl hne
    | cons x u =>
      cases u with
      | nil => rfl
      | cons y u =>
        have hx := List.mem_singleton.1 (hu x (by simp))
        have hy := List.mem_singleton.1 (hu y (by simp))
        rw [hx, hy] at hun
        simp at hun
  have many : (List.range' A.length ((F.locs b).length - A.length)).takeWhile (isIn F s b) = List.range' A.length u.length := by
    have hlen : (F.locs b).length - A.length = u.length + v.length := by rw [h]; simp
    rw [hlen, ← List.range'_append_1]
    rw [List.takeWhile_append_of_pos]
    · have hnil : (List.range' (A.length + u.length) v.length).takeWhile (isIn F s b) = [] := by
        cases v with
        | nil => rfl
        | cons w v =>
          have hw : (F.locs b)[A.length + u.length]? = some w := by
            rw [h, ← List.append_assoc, List.getElem?_append_right (by simp)]
            simp
          rw [List.length_cons, List.range'_succ, List.takeWhile_cons_of_neg]
          rw [isIn_eq hw]
          simpa using hv w (by simp)
      rw [hnil, List.append_nil]
    · intro i hi
      rw [List.mem_range'_1] at hi
      have hget : (F.locs b)[i]? = some u[i - A.length] := by
        rw [h, List.getElem?_append_right hi.1, List.getElem?_append_left (by omega)]
        exact List.getElem?_eq_getElem _
      rw [isIn_eq hget]
      simpa using hu _ (List.getElem_mem _)
  cases s with
  | simple l => show [A.length] = _; rw [one l rfl]; rfl
  | jump j l => show [A.length] = _; rw [one l rfl]; rfl
  | cond _ _ _ => exact many
  | loop _ _ _ => exact many
  | each _ _ _ _ => exact many
  | enter _ _ _ => exact many
  | try_ _ _ _ _ _ => exact many

/-- Where the positions are that are found for a statement. -/
def Spot (F : Graph) (s : Stmt) (g : Graph) (c : Nat) (st : Flow.State) : Prop :=
  ∃ hb hp hn, locAt F (hb, hp) = some (first s) ∧ covered F s (hb, hp) = List.range' hp hn ∧ 0 < hn ∧
    ((hb = c ∧ hp = (g.locs c).length ∧ hp + hn = (st.1.locs c).length) ∨
     (g.count ≤ hb ∧ hb < st.1.count ∧ hb ≠ st.2 ∧ hp = 0 ∧ hn = (st.1.locs hb).length ∧ st.1.locs c = g.locs c ∧ st.2 ≠ c))

theorem stmt_spot {F g : Graph} {c : Nat} {s : Stmt} {st : Flow.State} (hg : Sane F) (hd : F.all.Nodup) (hc : c < g.count)
    (hs : Put s g c st) (hp : ∀ l ∈ s.locations, ∃ x, l ∈ st.1.locs x) (ha : Apart g s.locations) (hk : Kept F g c st) :
    Spot F s g c st := by
  rcases hs.heads with ⟨u, hu⟩ | ⟨h1, h2, x, h3, h4, h5, h6⟩
  · -- in the current block
    have hin : ∀ l ∈ first s :: u, l ∈ s.locations := by
      intro l hl
      obtain ⟨u', h1, h2⟩ := hs.lays.at_
      rw [hu, List.append_cancel_left_eq] at h1
      exact h2 l (h1 ▸ hl)
    have hF : ∃ v, F.locs c = g.locs c ++ ((first s :: u) ++ v) ∧ ∀ l ∈ v, l ∉ s.locations := by
      by_cases e : st.2 = c
      · obtain ⟨v, hv⟩ := hk.more
        refine ⟨v, ?_, beyond hg hd hs.lays hp ha hk hv⟩
        rw [e, hu] at hv
        rw [hv, List.append_assoc]
      · refine ⟨[], ?_, by simp⟩
        rw [hk.same c (.inl rfl) (Nat.lt_of_lt_of_le hc hs.lays.count) (fun e' => e e'.symm), hu]; simp
    obtain ⟨v, hF, hv⟩ := hF
    refine ⟨c, (g.locs c).length, (first s :: u).length, ?_, covered_eq (locs_nodup hd hg c) hF hin hv (by simp), by simp,
      .inl ⟨rfl, rfl, by rw [hu]; simp⟩⟩
    show (F.locs c)[(g.locs c).length]? = _
    rw [hF]; simp
  · -- in a new one
    have hF : F.locs x = st.1.locs x := hk.same x (.inr h3) h4 h5
    have hin : ∀ l ∈ st.1.locs x, l ∈ s.locations := fun l hl => hs.lays.new x h3 l hl
    refine ⟨x, 0, (st.1.locs x).length, ?_, ?_, ?_, .inr ⟨h3, h4, h5, rfl, rfl, h1, h2⟩⟩
    · show (F.locs x)[0]? = _
      rw [hF, ← List.head?_eq_getElem?]; exact h6
    · refine covered_eq (A := []) (u := st.1.locs x) (v := []) (locs_nodup hd hg x) (by rw [hF]; simp) hin (by simp) ?_
      intro e; rw [e] at h6; cases h6
    · cases h : st.1.locs x with
      | nil => rw [h] at h6; cases h6
      | cons _ _ => simp

/-- The positions in a block that are found for a statement. -/
def covOf (F : Graph) (B : Nat) (s : Stmt) : List Nat :=
  match place F (first s) with
  | some x => if x.1 = B then covered F s x else []
  | none => []

/-- The positions in a block that are found for statements in turn. -/
def cov (F : Graph) (ss : List Stmt) (B : Nat) : List Nat := ss.flatMap (covOf F B)

theorem cov_cons (F : Graph) (s : Stmt) (ss : List Stmt) (B : Nat) : cov F (s :: ss) B = covOf F B s ++ cov F ss B := rfl

theorem covOf_eq {F : Graph} {s : Stmt} {g : Graph} {c : Nat} {st : Flow.State} (hg : Sane F) (hd : F.all.Nodup)
    (h : Spot F s g c st) (hc : c < g.count) :
    (covOf F c s = List.range' (g.locs c).length ((st.1.locs c).length - (g.locs c).length) ∧
      (g.locs c).length ≤ (st.1.locs c).length) ∧
    (∀ B, B ≠ c → B < g.count ∨ st.1.count ≤ B ∨ B = st.2 → covOf F B s = []) ∧
    (∀ B, covOf F B s = [] ∨ B = c ∨ covOf F B s = List.range' 0 (st.1.locs B).length) := by
  obtain ⟨hb, hp, hn, h1, h2, h3, h4⟩ := h
  have hpl := place_eq hg hd h1
  have hcov : ∀ B, covOf F B s = if hb = B then List.range' hp hn else [] := by
    intro B
    unfold covOf
    rw [hpl]
    simp only [h2]
  rcases h4 with ⟨rfl, h5, h6⟩ | ⟨h5, h6, h7, rfl, h8, h9, h10⟩
  · refine ⟨⟨?_, by omega⟩, fun B hB _ => ?_, fun B => ?_⟩
    · rw [hcov, if_pos rfl, h5]; congr 1; omega
    · rw [hcov, if_neg (fun e => hB e.symm)]
    · by_cases e : hb = B
      · exact .inr (.inl e.symm)
      · left; rw [hcov, if_neg e]
  · refine ⟨⟨?_, by rw [h9]; exact Nat.le_refl _⟩, fun B hB hB' => ?_, fun B => ?_⟩
    · rw [hcov, if_neg (by omega), h9]; simp
    · rw [hcov, if_neg (by omega)]
    · by_cases e : hb = B
      · right; right; rw [hcov, if_pos e, h8, e]
      · left; rw [hcov, if_neg e]

/-- There is no `with` among the statements, besides within others. -/
def noEnter (b : Body) : Bool := (stmts b).all fun s => !isEnter s

structure Cover (F : Graph) (b : Body) (g : Graph) (c : Nat) (st : Flow.State) : Prop where
  old : ∀ B, B < g.count → B ≠ c → cov F (stmts b) B = []
  far : ∀ B, st.1.count ≤ B → cov F (stmts b) B = []
  at_ : cov F (stmts b) c = List.range' (g.locs c).length ((st.1.locs c).length - (g.locs c).length)
  new : ∀ B, g.count ≤ B → B < st.1.count → ∃ m n, cov F (stmts b) B = List.range' m n ∧
    (n = 0 ∨ m + n = (st.1.locs B).length) ∧
    (noEnter b = true → (n ≠ 0 → m = 0) ∧ (n = 0 → B = st.2 → st.1.locs B = []))

theorem puts_all {g : Graph} {ls : List Nat} {st : Flow.State} (h : Puts g ls st) : ∀ l ∈ ls, ∃ x, l ∈ st.1.locs x := by
  intro l hl
  have : l ∈ st.1.all := h.all.mem_iff.2 (List.mem_append_right _ hl)
  obtain ⟨x, _, hx⟩ := List.mem_flatMap.1 this
  exact ⟨x, hx⟩

theorem body_cover : ∀ (b : Body) (bd : List Exits) {F g : Graph} {c : Nat}, b.noFinally = true → b.locations.Nodup → Tidy g c →
    Apart g b.locations → Sane F → F.all.Nodup → Kept F g c (visitBody b bd (g, c)) →
    (∀ s ∈ stmts b, ∃ x, locAt F x = some (first s)) ∧ Cover F b g c (visitBody b bd (g, c))
  | .nil, bd, F, g, c, _, _, h, _, _, _, _ => by
    simp only [visitBody]
    refine ⟨(fun s hs => nomatch hs), ⟨fun _ _ _ => rfl, fun _ _ => rfl, by simp [cov, stmts], fun B h1 h2 => ?_⟩⟩
    have : B < g.count := h2
    omega
  | .cons s rest, bd, F, g, c, hf, hn, h, ha, hg, hd, hk => by
    simp only [Body.noFinally, Bool.and_eq_true] at hf
    simp only [Body.locations] at hn ha
    rw [List.nodup_append] at hn
    have hput := visit_put s bd h
    have hputs := visit_puts s bd hf.1 h
    simp only [visitBody] at hk ⊢
    generalize hst : visit s bd (g, c) = st1 at hput hputs hk ⊢
    obtain ⟨g1, c1⟩ := st1
    have hrest := body_lay rest bd hput.lays.tidy
    have hk1 := hk.left hput.lays hrest
    have hk2 := hk.right hput.lays
    have hsp := stmt_spot hg hd h.cur hput (puts_all hputs) (fun x l hl hm => ha x l hl (List.mem_append_left _ hm)) hk1
    have hap : Apart g1 rest.locations := by
      intro x l hl hm
      rcases hput.lays.sub hl with hl | hl
      · exact ha x l hl (List.mem_append_right _ hm)
      · exact hn.2.2 l hl l hm rfl
    obtain ⟨ih1, ih2⟩ := body_cover rest bd hf.2 hn.2.1 hput.lays.tidy hap hg hd hk2
    obtain ⟨⟨k1, k1'⟩, k2, k3⟩ := covOf_eq hg hd hsp h.cur
    generalize hst2 : visitBody rest bd (g1, c1) = st2 at hk hrest hk2 ih2 ⊢
    have hc := h.cur
    have hcnt1 : g.count ≤ g1.count := hput.lays.count
    have hcnt2 : g1.count ≤ st2.1.count := hrest.count
    have hcur1 : c1 = c ∨ g.count ≤ c1 := hput.lays.cur
    have hcur2 : st2.2 = c1 ∨ g1.count ≤ st2.2 := hrest.cur
    have hc1 : c1 < g1.count := hput.lays.tidy.cur
    have k1 : covOf F c s = List.range' (g.locs c).length ((g1.locs c).length - (g.locs c).length) := k1
    have k1' : (g.locs c).length ≤ (g1.locs c).length := k1'
    refine ⟨fun s' hs' => ?_, ⟨fun B h1 h2 => ?_, fun B h1 => ?_, ?_, fun B h1 h2 => ?_⟩⟩
    · rcases List.mem_cons.1 hs' with rfl | hs'
      · obtain ⟨hb, hp, _, h1, _⟩ := hsp
        exact ⟨(hb, hp), h1⟩
      · exact ih1 s' hs'
    · show covOf F B s ++ cov F (stmts rest) B = []
      rw [k2 B h2 (.inl h1), ih2.old B (by show B < g1.count; omega) (by show B ≠ c1; omega)]; rfl
    · show covOf F B s ++ cov F (stmts rest) B = []
      rw [k2 B (by omega) (.inr (.inl (by show g1.count ≤ B; omega))), ih2.far B h1]; rfl
    · show covOf F c s ++ cov F (stmts rest) c = _
      rw [k1]
      by_cases e : c1 = c
      · subst e
        have h3 : cov F (stmts rest) c1 = List.range' (g1.locs c1).length ((st2.1.locs c1).length - (g1.locs c1).length) := ih2.at_
        obtain ⟨u, hu, _⟩ := hrest.at_
        have hu : st2.1.locs c1 = g1.locs c1 ++ u := hu
        have hlen : (st2.1.locs c1).length = (g1.locs c1).length + u.length := by rw [hu]; simp
        rw [h3]
        have : (g1.locs c1).length = (g.locs c1).length + ((g1.locs c1).length - (g.locs c1).length) := by omega
        conv_lhs => rw [this]
        rw [Nat.add_sub_cancel_left, List.range'_append_1]
        congr 1; omega
      · rw [ih2.old c (by show c < g1.count; omega) (fun e' => e e'.symm), List.append_nil]
        have h3 : st2.1.locs c = g1.locs c := hrest.frame c (by show c < g1.count; omega) (fun e' => e e'.symm)
        rw [h3]
    · have hBc : B ≠ c := by omega
      show ∃ m n, covOf F B s ++ cov F (stmts rest) B = _ ∧ _
      by_cases e1 : B < g1.count
      · by_cases e2 : B = c1
        · subst e2
          have h3 : cov F (stmts rest) B = List.range' (g1.locs B).length ((st2.1.locs B).length - (g1.locs B).length) := ih2.at_
          obtain ⟨u, hu, _⟩ := hrest.at_
          have hu : st2.1.locs B = g1.locs B ++ u := hu
          have hlen : (st2.1.locs B).length = (g1.locs B).length + u.length := by rw [hu]; simp
          refine ⟨_, _, by rw [k2 B hBc (.inr (.inr rfl)), h3]; rfl, by omega, fun hne => ?_⟩
          have hcl : (g1.locs B) = [] := by
            simp only [noEnter, stmts, List.all_cons, Bool.and_eq_true, Bool.not_eq_true'] at hne
            cases hsim : isSimple s with
            | true =>
              exfalso
              cases s with
              | simple l =>
                simp only [visit, Prod.mk.injEq] at hst
                omega
              | _ => cases hsim
            | false => exact (hput.closes hne.1 hsim).2
          rw [hcl]
          refine ⟨fun _ => rfl, fun hz _ => ?_⟩
          rw [List.length_nil, Nat.sub_zero] at hz
          exact List.length_eq_zero_iff.1 hz
        · have hst2B : st2.1.locs B = g1.locs B := hrest.frame B e1 e2
          rw [ih2.old B e1 e2, List.append_nil, hst2B]
          rcases k3 B with h3 | h3 | h3
          · exact ⟨0, 0, by rw [h3]; rfl, .inl rfl, fun _ => ⟨fun h => absurd rfl h, fun _ h => by omega⟩⟩
          · exact absurd h3 hBc
          · exact ⟨0, (g1.locs B).length, h3, .inr (by omega), fun _ => ⟨fun _ => rfl, fun _ h => by omega⟩⟩
      · obtain ⟨m, n, h3, h4, h5⟩ := ih2.new B (by show g1.count ≤ B; omega) h2
        refine ⟨m, n, by rw [k2 B hBc (.inr (.inl (by show g1.count ≤ B; omega))), h3]; rfl, h4, fun hne => h5 ?_⟩
        simp only [noEnter, stmts, List.all_cons, Bool.and_eq_true] at hne
        exact hne.2

end Verif.Inside

import Verif.Lemmas.FlowStmt

/-! `try` statements are added to a graph. -/

namespace Verif.Flow

/-! ### Several links -/

theorem links_locs (G : Graph) (s : Nat) : ∀ ts, (G.links s ts).locs = G.locs
  | [] => rfl
  | t :: ts => (links_locs (G.link s t) s ts).trans rfl
theorem links_count (G : Graph) (s : Nat) : ∀ ts, (G.links s ts).count = G.count
  | [] => rfl
  | t :: ts => (links_count (G.link s t) s ts).trans rfl
theorem links_start (G : Graph) (s : Nat) : ∀ ts, (G.links s ts).start = G.start
  | [] => rfl
  | t :: ts => (links_start (G.link s t) s ts).trans rfl
theorem links_edges (G : Graph) (s a u : Nat) : ∀ ts, (a, u) ∈ (G.links s ts).edges ↔ (a, u) ∈ G.edges ∨ (a = s ∧ u ∈ ts)
  | [] => by simp [Graph.links]
  | t :: ts => by
    unfold Graph.links
    rw [links_edges (G.link s t) s a u ts]
    have : (a, u) ∈ (G.link s t).edges ↔ (a, u) ∈ G.edges ∨ (a = s ∧ u = t) := by simp [Graph.link]
    rw [this, List.mem_cons]
    constructor
    · rintro ((h | h) | h)
      · exact .inl h
      · exact .inr ⟨h.1, .inl h.2⟩
      · exact .inr ⟨h.1, .inr h.2⟩
    · rintro (h | ⟨h, h' | h'⟩)
      · exact .inl (.inl h)
      · exact .inl (.inr ⟨h, h'⟩)
      · exact .inr ⟨h, h'⟩

theorem multiple_locs (G : Graph) (s : Nat) (ts : List Nat) : (G.multiple s ts).locs = G.locs := by
  unfold Graph.multiple; split
  · rfl
  · exact links_locs _ _ _
theorem multiple_count (G : Graph) (s : Nat) (ts : List Nat) : (G.multiple s ts).count = G.count := by
  unfold Graph.multiple; split
  · rfl
  · exact links_count _ _ _
theorem multiple_start (G : Graph) (s : Nat) (ts : List Nat) : (G.multiple s ts).start = G.start := by
  unfold Graph.multiple; split
  · rfl
  · exact links_start _ _ _

theorem multiple_edges (G : Graph) (s a u : Nat) (ts : List Nat) : (a, u) ∈ (G.multiple s ts).edges ↔
    (if G.locs s = [] then ((a, u) ∈ G.edges ∧ u ≠ s) ∨ ((a, s) ∈ G.edges ∧ u ∈ ts)
    else (a, u) ∈ G.edges ∨ (a = s ∧ u ∈ ts)) := by
  unfold Graph.multiple
  by_cases hs : G.locs s = []
  · simp only [hs, if_true, List.mem_append, List.mem_filter, List.mem_flatMap, List.mem_map, Prod.mk.injEq, bne_iff_ne, ne_eq,
      beq_iff_eq]
    constructor
    · rintro (h | ⟨⟨x, y⟩, ⟨h1, h2⟩, v, h3, h4, h5⟩)
      · exact .inl h
      · simp only at h2 h4
        subst h2; subst h4; subst h5; exact .inr ⟨h1, h3⟩
    · rintro (h | h)
      · exact .inl h
      · exact .inr ⟨(a, s), ⟨h.1, rfl⟩, u, h.2, rfl, rfl⟩
  · simp only [hs, if_false]
    exact links_edges G s a u ts

theorem multiple_grow {G : Graph} {s L : Nat} {ts : List Nat} (h : Wf G) (hn : NS G s)
    (hts : ∀ t ∈ ts, t < G.count ∧ NS G t) (hL : L ∈ ts) : Grow (moved G s L) (· ≠ s) G (G.multiple s ts) := by
  have hst : St G (G.multiple s ts) := by
    intro e; rw [multiple_start, multiple_locs] at e; rw [multiple_start]; exact ⟨e, rfl⟩
  refine ⟨⟨?_, ?_, ?_, ?_, ?_⟩, hst, ⟨?_, ?_, ?_, ?_, ?_, ?_⟩, ?_⟩
  · intro a u hau
    rw [multiple_locs]
    rw [multiple_edges] at hau
    by_cases hs : G.locs s = []
    · rw [if_pos hs] at hau
      rcases hau with hau | hau
      · exact h.src _ _ hau.1
      · exact h.src _ _ hau.1
    · rw [if_neg hs] at hau
      rcases hau with hau | hau
      · exact h.src _ _ hau
      · rw [hau.1]; exact hs
  · intro a u hau
    rw [multiple_count]
    rw [multiple_edges] at hau
    by_cases hs : G.locs s = []
    · rw [if_pos hs] at hau
      rcases hau with hau | hau
      · exact h.tgt _ _ hau.1
      · exact (hts u hau.2).1
    · rw [if_neg hs] at hau
      rcases hau with hau | hau
      · exact h.tgt _ _ hau
      · exact (hts u hau.2).1
  · intro a u hau
    apply hst.ns
    rw [multiple_edges] at hau
    by_cases hs : G.locs s = []
    · rw [if_pos hs] at hau
      rcases hau with hau | hau
      · exact h.ns _ _ hau.1
      · exact (hts u hau.2).2
    · rw [if_neg hs] at hau
      rcases hau with hau | hau
      · exact h.ns _ _ hau
      · exact (hts u hau.2).2
  · intro b hb; rw [multiple_locs]; rw [multiple_count] at hb; exact h.fresh b hb
  · rw [multiple_start, multiple_count]; exact h.start
  · rw [multiple_count]; exact Nat.le_refl _
  · intro b hb
    by_cases e : b = s
    · subst e; rw [moved_full hb]
    · rw [moved_ne e]
  · intro b; rw [multiple_locs]; exact List.prefix_refl _
  · intro a u hau
    rw [multiple_edges]
    by_cases hs : G.locs s = []
    · rw [if_pos hs]
      by_cases e : u = s
      · subst e; rw [moved_self hs]; exact .inr ⟨hau, hL⟩
      · rw [moved_ne e]; exact .inl ⟨hau, e⟩
    · rw [if_neg hs, moved_full hs]; exact .inl hau
  · intro a u _; rw [multiple_locs]
  · rw [multiple_start]
    by_cases e : G.locs s = []
    · rw [moved_ne]
      intro e'
      exact hn (e' ▸ e) e'.symm
    · rw [moved_full e]
  · intro b _ hb; exact ⟨moved_ne hb, by rw [multiple_locs]⟩

theorem multiple_reach {G G' F : Graph} {s L : Nat} {ts : List Nat} (hL : L ∈ ts) {φ : Nat → Nat} (e : G.multiple s ts = G')
    (hF : Ext φ G' F) : Reach F (φ (moved G s L s)) (G.locs s).length [] (φ L) 0 := by
  subst e
  by_cases hs : G.locs s = []
  · rw [moved_self hs, hs]; exact .refl
  · have he : (s, L) ∈ (G.multiple s ts).edges := by rw [multiple_edges, if_neg hs]; exact .inr ⟨rfl, hL⟩
    rw [moved_full hs, hF.keep s (by rwa [multiple_locs])]
    have := hF.edge_reach he
    rwa [multiple_locs] at this

/-! ### Clauses -/

theorem clause_get (ex : List Str) (h : Nat) (bd : List Exits) (j : Jump) :
    (jumpTo j (clauseExits ex h ++ bd) = some h ∨ jumpTo j (clauseExits ex h ++ bd) = jumpTo j bd) ∧
    ((∀ n, j ≠ .raise n) → jumpTo j (clauseExits ex h ++ bd) = jumpTo j bd) := by
  have key : ∀ (E : List Exits), (∀ x ∈ E, ∃ n, x = [(.raise n, h)]) →
      (jumpTo j (E ++ bd) = some h ∨ jumpTo j (E ++ bd) = jumpTo j bd) ∧
      ((∀ n, j ≠ .raise n) → jumpTo j (E ++ bd) = jumpTo j bd) := by
    intro E
    induction E with
    | nil => intro _; exact ⟨.inr rfl, fun _ => rfl⟩
    | cons x E ih =>
      intro hE
      obtain ⟨n, rfl⟩ := hE x (by simp)
      have ih := ih (fun y hy => hE y (List.mem_cons_of_mem _ hy))
      have hu : jumpTo j ([(.raise n, h)] :: E ++ bd) = (match Exits.get [(.raise n, h)] j with
          | some t => some t
          | none => match Exits.get [(.raise n, h)] j.kind with
            | some t => some t
            | none => jumpTo j (E ++ bd)) := by
        rw [List.cons_append]; rw [jumpTo]; rfl
      rw [hu]
      by_cases h1 : Jump.raise n = j
      · subst h1
        have : Exits.get [(Jump.raise n, h)] (.raise n) = some h := by simp [Exits.get]
        rw [this]
        exact ⟨.inl rfl, fun hc => absurd rfl (hc n)⟩
      · have hg : Exits.get [(Jump.raise n, h)] j = none := by simp [Exits.get, h1]
        rw [hg]
        by_cases h2 : Jump.raise n = j.kind
        · have : Exits.get [(Jump.raise n, h)] j.kind = some h := by simp [Exits.get, h2]
          rw [this]
          refine ⟨.inl rfl, fun hc => ?_⟩
          cases j with
          | raise m => exact absurd rfl (hc m)
          | brk => cases h2
          | cont => cases h2
          | ret => cases h2
        · have : Exits.get [(Jump.raise n, h)] j.kind = none := by simp [Exits.get, h2]
          rw [this]
          exact ih
  apply key
  intro x hx
  unfold clauseExits at hx
  split at hx
  · simp at hx; exact ⟨none, hx⟩
  · simp at hx; obtain ⟨n, _, rfl⟩ := hx; exact ⟨some n, rfl⟩

/-- What adding the clauses of a `try` does. -/
structure HGood (ψ : Nat → Nat) (bd : List Exits) (G G' : Graph) (hs : List Nat) (bd' : List Exits) : Prop where
  grow : Grow ψ (fun _ => True) G G'
  bds : ∀ j t, jumpTo j bd' = some t → t < G'.count ∧ NS G' t
  from_ : ∀ j t, jumpTo j bd' = some t → jumpTo j bd = some t ∨ G.count ≤ t
  same : ∀ j, (∀ n, j ≠ .raise n) → jumpTo j bd' = jumpTo j bd
  hs : ∀ t ∈ hs, G.count ≤ t ∧ t < G'.count ∧ NS G' t

theorem NS.full {G : Graph} {c : Nat} (h : G.locs c ≠ []) : NS G c := fun e e' => h (e' ▸ e)

theorem addName_grow {G : Graph} {c : Nat} (name : Option Nat) (h : Wf G) (hc : c < G.count) (ho : Open G c) :
    Grow id (· ≠ c) G (addName name G c) ∧ (addName name G c).count = G.count ∧ Open (addName name G c) c := by
  cases name with
  | none => exact ⟨⟨h, St.refl G, Ext.refl G, fun _ _ _ => ⟨rfl, rfl⟩⟩, rfl, ho⟩
  | some l => exact ⟨add_grow l h hc ho, rfl, ho⟩

theorem HGood.nil {bd G} (h : Wf G) (hb : ∀ j t, jumpTo j bd = some t → t < G.count ∧ NS G t) : HGood id bd G G [] bd where
  grow := ⟨h, St.refl G, Ext.refl G, fun _ _ _ => ⟨rfl, rfl⟩⟩
  bds := hb
  from_ _ _ h := .inl h
  same _ _ := rfl
  hs t ht := by cases ht

theorem HGood.step {v A sl ok tf ψ bd G G1 hs bd1} (hv : Adds v A sl ok tf) (h : HGood ψ bd G G1 hs bd1) {k : Nat}
    (hk : k < G.count) (hkn : NS G k) (ex : List Str) (name : Option Nat) {st}
    (e : v (clauseExits ex G1.count ++ bd1) (addName name G1.new G1.count, G1.count) = st) :
    ∃ χ, HGood χ bd G (st.1.linkOrMerge st.2 k) (hs ++ [G1.count]) (clauseExits ex G1.count ++ bd1) := by
  have ga := new_grow h.grow.wf
  have na : G1.new.locs G1.count = [] := h.grow.wf.fresh _ (Nat.le_refl _)
  have hcc : G1.count < G1.new.count := Nat.lt_succ_self _
  obtain ⟨gb, cb, ob⟩ := addName_grow name ga.wf hcc (ga.wf.open_ na)
  have cG := h.grow.ext.count
  have nb : NS (addName name G1.new G1.count) G1.count := gb.st.ns (new_ns h.grow.wf)
  have hbd : ∀ j t, jumpTo j (clauseExits ex G1.count ++ bd1) = some t → t = G1.count ∨ jumpTo j bd1 = some t := by
    intro j t ht
    rcases (clause_get ex G1.count bd1 j).1 with h' | h'
    · rw [h'] at ht; cases ht; exact .inl rfl
    · rw [h'] at ht; exact .inr ht
  have hbB : Bd (clauseExits ex G1.count ++ bd1) (addName name G1.new G1.count) G1.count := by
    intro j t ht
    have hr : (∀ n, j ≠ .raise n) → t ≠ G1.count := fun hj => by
      rw [(clause_get ex G1.count bd1 j).2 hj] at ht
      have := (h.bds j t ht).1
      omega
    rcases hbd j t ht with e | h'
    · rw [e] at hr ⊢; exact ⟨by omega, nb, hr⟩
    · have := h.bds j t h'
      exact ⟨by rw [cb]; exact Nat.lt_succ_of_lt this.1, (ga.st.trans gb.st).ns this.2, hr⟩
  obtain ⟨χ, g⟩ := hv _ _ G1.count gb.wf (by omega) ob hbB
  rw [e] at g
  obtain ⟨Gd, e1⟩ := st
  simp only at g ⊢
  have cd := g.grow.ext.count
  have he1 : G1.count ≤ e1 := by
    have : G1.new.count = G1.count + 1 := rfl
    rcases g.old with e | e <;> omega
  have nsk : NS Gd k := (((h.grow.st.trans ga.st).trans gb.st).trans g.grow.st).ns hkn
  have gl := lm_grow g.grow.wf (s := e1) (t := k) (by omega) nsk (NS.hst (g.ns (.inl nb)) _)
  have gall := ((h.grow.trans (M := fun _ => True) ga (fun _ _ _ => ⟨trivial, trivial⟩)).trans (M := fun b => b ≠ G1.count) gb
    (fun _ _ h => ⟨trivial, h⟩))
  have gall := (gall.trans (M := fun _ => True) g.grow (fun b h1 _ => ⟨(by omega : b ≠ G1.count), (by omega : b ≠ G1.count)⟩)).trans
    (M := fun _ => True) gl (fun b h1 _ => ⟨trivial, (by omega : b ≠ e1)⟩)
  exact ⟨_, {
    grow := gall
    bds := fun j t ht => ⟨by have := (hbB j t ht).1; rw [lm_count]; omega, (g.grow.st.trans gl.st).ns (hbB j t ht).2.1⟩
    from_ := fun j t ht => by
      rcases hbd j t ht with rfl | h'
      · exact .inr cG
      · exact h.from_ j t h'
    same := fun j hj => ((clause_get ex G1.count bd1 j).2 hj).trans (h.same j hj)
    hs := fun t ht => by
      rcases List.mem_append.1 ht with ht | ht
      · obtain ⟨h1, h2, h3⟩ := h.hs t ht
        exact ⟨h1, by rw [lm_count]; omega, (((ga.st.trans gb.st).trans g.grow.st).trans gl.st).ns h3⟩
      · simp at ht
        subst ht
        exact ⟨cG, by rw [lm_count]; omega, (g.grow.st.trans gl.st).ns nb⟩ }⟩

/-! ### `try` -/

theorem RS.congr {F R T T' b i b' i'} (h : RS F R T b i b' i') (hT : ∀ j, (∀ n, j ≠ .raise n) → T' j = T j) :
    RS F R T' b i b' i' := by
  intro tr o hr
  obtain ⟨h1, h2, h3⟩ := h tr o hr
  refine ⟨h1, fun j t hj ht => h2 j t hj ?_, h3⟩
  rw [← hT j (by cases hj <;> simp)]
  exact ht

/-- `try` without `finally` whose body does not raise exceptions. -/
theorem RS.try_ {F B E T b i b' i'} {H : Str → Beh} (hB : ∀ t e, ¬ B t (.raise e)) (h : RS F (Seq B E) T b i b' i') :
    RS F (FinallyRun (TryRun B H E) Skip) T b i b' i' := by
  have key : ∀ t o, TryRun B H E t o → Seq B E t o := by
    intro t o ht
    cases ht with
    | good h1 h2 => exact .both h1 h2
    | caught h1 _ => exact absurd h1 (hB _ _)
    | leave h1 h2 _ => exact .first h1 h2
  intro tr o hr
  cases hr with
  | both h1 h2 h3 => cases h3; rw [List.append_nil]; exact h _ _ (key _ _ h1)
  | leave h1 h2 h3 h4 =>
    cases h3 with
    | ok => exact absurd rfl h4
    | cut =>
      obtain ⟨-, -, h5⟩ := h _ _ (key _ _ h1)
      rw [List.append_nil]
      exact ⟨fun h => (by cases h), fun j t hj => (by cases hj), h5⟩
  | cut h1 => exact h _ _ (key _ _ h1)

theorem jumpTo_try (k : Nat) (bd : List Exits) (j : Jump) : jumpTo j ([(.raise none, k)] :: bd) =
    match j with
    | .raise _ => some k
    | j => jumpTo j bd := by
  cases j with
  | raise n => cases n <;> rfl
  | brk => rfl
  | cont => rfl
  | ret => rfl

/-- The blocks made for a `try`. -/
theorem new3_grow {G : Graph} (h : Wf G) : Grow id (fun _ => True) G G.new3 ∧ NS G.new3 G.count ∧ NS G.new3 (G.count + 1) ∧
    NS G.new3 (G.count + 2) := by
  have g1 := new_grow h
  have g2 := new_grow g1.wf
  have g3 := new_grow g2.wf
  exact ⟨(g1.trans (M := fun _ => True) g2 (fun _ _ _ => ⟨trivial, trivial⟩)).trans g3 (fun _ _ _ => ⟨trivial, trivial⟩),
    (g2.st.trans g3.st).ns (new_ns h), g3.st.ns (new_ns g1.wf), new_ns g2.wf⟩

/-- The end of a `try`, after its clauses and its `else` were visited. -/
theorem try_good {v B E sl ok okE tf bd bd1 G G1 G2 c hs L ψ χ} {H : Str → Beh} (hv : Adds v B sl ok tf)
    (hfull : ∀ bd G c, Wf G → c < G.count → Open G c → Bd bd G c → (v bd (G, c)).2 = c → (v bd (G, c)).1.locs c ≠ [])
    (h : Wf G) (hc : c < G.count) (ho : Open G2 c) (hb : Bd bd G c)
    (hh : HGood ψ ([(.raise none, G.count + 2)] :: bd) G.new3 G1 hs bd1)
    (ge : Grow χ (fun b => b < G1.count) G1 G2) (hL : G.count < L ∧ L < G2.count ∧ NS G2 L)
    (hsE : okE → ∀ F φ, Ext φ G2 F → RS F E (tgt φ bd1) (φ L) 0 (φ (G.count + 1)) 0)
    (hB : ok → ∀ t e, ¬ B t (.raise e)) {st} (e : v bd1 (G2, c) = st) :
    ∃ ρ, Good ρ bd G c (tryEnd G.count st (hs ++ [L])).1 (G.count + 2) (FinallyRun (TryRun B H E) Skip) sl (ok ∧ okE) False := by
  obtain ⟨g3, nk, nk1, nk2⟩ := new3_grow h
  have c3 : G.new3.count = G.count + 3 := rfl
  have c1 := hh.grow.ext.count
  have c2 := ge.ext.count
  have hT : ∀ j, (∀ n, j ≠ .raise n) → jumpTo j bd1 = jumpTo j bd := by
    intro j hj
    rw [hh.same j hj, jumpTo_try]
    cases j with
    | raise n => exact absurd rfl (hj n)
    | brk => rfl
    | cont => rfl
    | ret => rfl
  have hb2 : Bd bd1 G2 c := fun j t ht => by
    have := hh.bds j t ht
    exact ⟨by omega, ge.st.ns this.2, fun hj => (hb j t ((hT j hj).symm.trans ht)).2.2 hj⟩
  have hf := hfull bd1 G2 c ge.wf (by omega) ho hb2
  obtain ⟨ψb, g⟩ := hv bd1 G2 c ge.wf (by omega) ho hb2
  rw [e] at g hf
  obtain ⟨G3, e1⟩ := st
  simp only at g hf
  have hst2 : St G.new3 G2 := hh.grow.st.trans ge.st
  have c4 := g.grow.ext.count
  have he1 := g.cur
  have hes : ∀ b, G.count ≤ b → b < G2.count → b ≠ e1 := by
    intro b h1 h2
    rcases g.old with e | e <;> omega
  have nse : NS G3 e1 := by
    rcases g.old with e | e
    · subst e; exact NS.full (hf rfl)
    · exact g.ns (.inr e)
  have gl := lm_grow g.grow.wf (s := G.count) (t := e1) he1 nse (NS.hst ((hst2.trans g.grow.st).ns nk) _)
  unfold tryEnd
  simp only
  have ll : (G3.linkOrMerge G.count e1).locs = G3.locs := lm_locs _ _ _
  have cl4 : (G3.linkOrMerge G.count e1).count = G3.count := lm_count _ _ _
  generalize hG4 : G3.linkOrMerge G.count e1 = G4 at *
  have gm := multiple_grow (L := L) gl.wf (gl.st.ns nse) (ts := hs ++ [L]) (by
    intro t ht
    rcases List.mem_append.1 ht with ht | ht
    · obtain ⟨h1, h2, h3⟩ := hh.hs t ht
      exact ⟨by omega, ((ge.st.trans g.grow.st).trans gl.st).ns h3⟩
    · simp at ht; subst ht; exact ⟨by omega, (g.grow.st.trans gl.st).ns hL.2.2⟩) (by simp)
  have lm : (G4.multiple e1 (hs ++ [L])).locs = G4.locs := multiple_locs _ _ _
  have cm : (G4.multiple e1 (hs ++ [L])).count = G4.count := multiple_count _ _ _
  have hmf : e1 = c → ∀ b, moved G4 e1 L b = b := fun e b => moved_full (by rw [ll, e]; exact hf e) b
  generalize hG5 : G4.multiple e1 (hs ++ [L]) = G5 at *
  have nk2' : NS G5 (G.count + 2) := (((hst2.trans g.grow.st).trans gl.st).trans gm.st).ns nk2
  have gn := lm_grow gm.wf (s := G.count + 1) (t := G.count + 2) (by omega) nk2'
    (NS.hst ((((hst2.trans g.grow.st).trans gl.st).trans gm.st).ns nk1) _)
  have ln : (G5.linkOrMerge (G.count + 1) (G.count + 2)).locs = G5.locs := lm_locs _ _ _
  have cn : (G5.linkOrMerge (G.count + 1) (G.count + 2)).count = G5.count := lm_count _ _ _
  generalize hG6 : G5.linkOrMerge (G.count + 1) (G.count + 2) = G6 at *
  -- what was empty still is
  have h02 := hh.grow.trans (M := fun _ => True) ge (fun b h1 _ => ⟨trivial, (by omega : b < G1.count)⟩)
  have h03 := h02.trans (M := (· ≠ c)) g.grow (fun b h1 h2 => ⟨trivial, h2⟩)
  have l6 : ∀ b, G6.locs b = G3.locs b := fun b => by rw [ln, lm, ll]
  have em : ∀ b, G.count ≤ b → b < G.count + 3 → G3.locs b = [] := by
    intro b h1 h2
    rw [(h03.fix b (by omega) (by omega)).2]
    exact h.fresh b h1
  have g46 := (gl.trans (M := fun b => b ≠ G.count ∧ b ≠ e1) gm (fun _ _ h => h)).trans
    (M := fun b => b ≠ G.count ∧ b ≠ e1 ∧ b ≠ G.count + 1) gn (fun _ _ h => ⟨⟨h.1, h.2.1⟩, h.2.2⟩)
  -- where blocks are
  have fixm : ∀ b, b < G.count → moved G5 (G.count + 1) (G.count + 2) (moved G4 e1 L (moved G3 G.count e1 b)) = b := by
    intro b hb'
    rw [moved_ne (b := b) (s := G.count) (by omega)]
    have : moved G4 e1 L b = b := by
      by_cases e' : b = e1
      · exact hmf (by rcases g.old with e | e <;> omega) b
      · exact moved_ne e'
    rw [this, moved_ne (by omega)]
  have h06 := (g3.trans (M := (· ≠ c)) h03 (fun b _ h => ⟨trivial, h⟩)).trans (M := (· ≠ c)) g46 (fun b h1 h2 =>
    ⟨h2, by omega, by rcases g.old with e | e <;> omega, by omega⟩)
  have e2 : ∀ b, b < G.count + 3 → χ (ψ b) = b := fun b hb' => (h02.fix b hb' trivial).1
  exact ⟨_, {
    grow := h06
    cur := by omega
    opn := h06.wf.open_ (by rw [l6]; exact em _ (by omega) (by omega))
    ns := fun _ => gn.st.ns nk2'
    old := .inr (by omega)
    stay := fun hsl => by
      show moved G5 (G.count + 1) (G.count + 2) (moved G4 e1 L (moved G3 G.count e1 (ψb (χ (ψ (id c)))))) = c
      rw [show χ (ψ (id c)) = c from e2 c (by omega), g.stay hsl, fixm c hc]
    sound := fun hok F φ hF => by
      have hF5 : Ext _ G5 F := gn.ext.trans hF
      have hF4 : Ext _ G4 F := gm.ext.trans hF5
      have hF3 : Ext _ G3 F := gl.ext.trans hF4
      have hF2 : Ext _ G2 F := g.grow.ext.trans hF3
      have s1 := g.sound hok.1 F _ hF3
      have s2 := hsE hok.2 F _ hF2
      have r := multiple_reach (ts := hs ++ [L]) (L := L) (by simp) hG5 hF5
      have hlen : (G2.locs c).length = (G.locs c).length := by
        rw [(h02.fix c (by omega) trivial).2]; rfl
      have hfixb : ∀ j t, (∀ n, j ≠ .raise n) → jumpTo j bd1 = some t → t < G.count := fun j t hj ht =>
        (hb j t ((hT j hj).symm.trans ht)).1
      have t1 : ∀ j, (∀ n, j ≠ .raise n) → tgt φ bd j =
          tgt (fun b => φ (moved G5 (G.count + 1) (G.count + 2) (moved G4 e1 L (moved G3 G.count e1 b)))) bd1 j := by
        intro j hj
        unfold tgt
        cases ht : jumpTo j bd1 with
        | none => rw [← hT j hj, ht]; rfl
        | some t =>
          rw [← hT j hj, ht]
          simp only [Option.map_some]
          rw [fixm t (hfixb j t hj ht)]
      have t2 : ∀ j, (∀ n, j ≠ .raise n) → tgt φ bd j =
          tgt (fun b => φ (moved G5 (G.count + 1) (G.count + 2) (moved G4 e1 L (moved G3 G.count e1 (ψb b))))) bd1 j := by
        intro j hj
        unfold tgt
        cases ht : jumpTo j bd1 with
        | none => rw [← hT j hj, ht]; rfl
        | some t =>
          rw [← hT j hj, ht]
          simp only [Option.map_some]
          have htl := hfixb j t hj ht
          rw [(g.grow.fix t (by omega) ((hb2 j t ht).2.2 hj)).1, fixm t htl]
      have s1 := s1.congr t1
      have s2 := s2.congr t2
      rw [(g.grow.fix L hL.2.1 (by show L ≠ c; omega)).1, moved_ne (b := L) (s := G.count) (by omega),
        moved_ne (b := L) (s := e1) (hes L (by omega) hL.2.1),
        (g.grow.fix (G.count + 1) (by omega) (by show G.count + 1 ≠ c; omega)).1,
        moved_ne (b := G.count + 1) (s := G.count) (by omega), moved_ne (b := G.count + 1) (s := e1) (hes _ (by omega) (by omega)),
        moved_self (s := G.count + 1) (by rw [lm, ll]; exact em _ (by omega) (by omega))] at s2
      rw [ll] at r
      have hk1 : moved G3 G.count e1 e1 = e1 := by
        by_cases e' : e1 = G.count
        · exact absurd e'.symm (hes _ (by omega) (by omega))
        · exact moved_ne e'
      show RS F _ (tgt φ bd) (φ (moved G5 (G.count + 1) (G.count + 2) (moved G4 e1 L (moved G3 G.count e1 (ψb (χ (ψ (id c)))))))) _ _ _
      rw [show χ (ψ (id c)) = c from e2 c (by omega), ← hlen, l6, em (G.count + 2) (by omega) (by omega)]
      refine RS.try_ (hB hok.1) ((s1.post ?_).seq s2)
      simp only [hk1]
      exact r
    cl := fun h => h.elim
    prec := fun h => h.elim }⟩

end Verif.Flow

import Verif.Model.SetParents
import Verif.Props.Antiunify
import Mathlib.Data.List.Forall2

/-!
**C162**: comparing pieces of code raises no exception.

Full statement: however pieces of code look, anti-unification gives a core or finds that they may not have one. False for pieces that have a complex number in
common: `set_parents` does not expect one.
-/

namespace Verif.Aunify

/-- What an attribute may be: a list, of elements that are all of some shape, or not a list. -/
inductive Shape where
  | leaf
  | list (elements : Shape)

def Ast.HasShape : Shape → Ast → Prop
  | .leaf, .seq _ => False
  | .leaf, _ => True
  | .list s, .seq l => ∀ a ∈ l, a.HasShape s
  | .list _, _ => False

/-- Nodes have the attributes that are compared, those of their own class and of the classes above, and an attribute of a class always has the same shape. -/
def Regular (L : Lang) (shape : Str → Str → Shape) (t : Ast) : Prop :=
  ∀ c as, Part (.node c as) t → ∀ d, L.isSub c d = true → (∀ a ∈ L.fields d, ∃ x, as.lookup a = some x ∧ x.HasShape (shape d a)) ∧
    (isNameCls d = true → ∃ x, as.lookup "name".toList = some x)

mutual
/-- How deep nodes and lists are nested. -/
def Ast.depth : Ast → Nat
  | .const _ => 0
  | .seq l => Ast.depths l + 1
  | .node _ attrs => Ast.depthAttrs attrs + 1

def Ast.depths : List Ast → Nat
  | [] => 0
  | a :: l => max a.depth (Ast.depths l)

def Ast.depthAttrs : List (Str × Ast) → Nat
  | [] => 0
  | (_, a) :: l => max a.depth (Ast.depthAttrs l)
end

theorem depth_mem {a : Ast} : ∀ {l : List Ast}, a ∈ l → a.depth ≤ Ast.depths l
  | b :: l, h => by
    rw [Ast.depths]
    rcases List.mem_cons.1 h with rfl | h
    · omega
    · have := depth_mem h
      omega

theorem depth_lookup {a : Str} {x : Ast} : ∀ {l : List (Str × Ast)}, l.lookup a = some x → x.depth ≤ Ast.depthAttrs l
  | (b, y) :: l, h => by
    rw [Ast.depthAttrs]
    rw [List.lookup_cons] at h
    split at h
    · cases h
      omega
    · have := depth_lookup h
      omega

theorem mem_of_lookup {a : Str} {x : Ast} : ∀ {l : List (Str × Ast)}, l.lookup a = some x → (a, x) ∈ l
  | (b, y) :: l, h => by
    rw [List.lookup_cons] at h
    split at h
    · rename_i hb
      cases h
      rw [beq_iff_eq.1 hb]
      exact List.mem_cons_self ..
    · exact List.mem_cons_of_mem _ (mem_of_lookup h)

theorem Regular.part {L : Lang} {shape : Str → Str → Shape} {s t : Ast} (h : Regular L shape t) (hp : Part s t) : Regular L shape s :=
  fun c as hc => h c as (hc.trans hp)

variable {simple : Nat → Bool} {L : Lang} {stop : StopOn}

/-- All have a constant in common that `set_parents` does not know. -/
def Common (simple : Nat → Bool) (ts : List Ast) : Prop := ∃ k, simple k = false ∧ ∀ t ∈ ts, Part (.const (.other k)) t

theorem column_mem {ls : List (List Ast)} {n : Nat} {col : List Ast} (h : col ∈ columns n ls) :
    ∃ i < n, col = ls.map fun l => (l[i]?).getD (.const .none) := by
  obtain ⟨i, hi, rfl⟩ := List.mem_map.1 h
  exact ⟨i, List.mem_range.1 hi, rfl⟩

/-- What all have in common at some index is common to the lists. -/
theorem common_column {ls : List (List Ast)} {n : Nat} (hl : ∀ m ∈ ls, m.length = n) {col : List Ast} (h : col ∈ columns n ls) (hc : Common simple col) :
    Common simple (ls.map Ast.seq) := by
  obtain ⟨i, hi, rfl⟩ := column_mem h
  obtain ⟨k, hk, hp⟩ := hc
  refine ⟨k, hk, fun t ht => ?_⟩
  obtain ⟨l, hm, rfl⟩ := List.mem_map.1 ht
  have hlt : i < l.length := by rw [hl l hm]; exact hi
  have := hp _ (List.mem_map.2 ⟨l, hm, rfl⟩)
  rw [List.getElem?_eq_getElem hlt] at this
  exact .seq (List.getElem_mem hlt) this

theorem each_core {f : Nat → List Ast → Result Core} : ∀ {cols : List (List Ast)} {num num' : Nat} {cores : List Core}
    {avars : List Avar}, aunifyEach f num cols = .ok (cores, avars, num') → ∀ c ∈ cores, ∃ col ∈ cols, ∃ n as n', f n col = .ok (c, as, n')
  | [], _, _, _, _, h => by cases h; simp
  | col :: cols, num, num', cores, avars, h => by
    rw [aunifyEach] at h
    split at h
    · cases h
    · rename_i core as n hf
      split at h
      · cases h
      · rename_i cores' as' n' hr
        cases h
        intro c hc
        rcases List.mem_cons.1 hc with rfl | hc
        · exact ⟨col, by simp, _, _, _, hf⟩
        · obtain ⟨col', hm, h⟩ := each_core hr c hc
          exact ⟨col', List.mem_cons_of_mem _ hm, h⟩

theorem parentsOkAll_eq (simple : Nat → Bool) : ∀ l : List Core, Core.parentsOkAll simple l = l.all (·.parentsOk simple)
  | [] => rfl
  | c :: l => by rw [Core.parentsOkAll, parentsOkAll_eq simple l]; rfl

theorem newAunifier_parents {num num' : Nat} {ts : List Ast} {core : Core} {avars : List Avar} (h : newAunifier stop num ts = .ok (core, avars, num')) :
    core.parentsOk simple = true := by
  unfold newAunifier at h
  split at h
  · cases h
  · cases h
    rfl

/-- If the parents of what is left cannot be set, then all have a constant in common. -/
theorem core_common : ∀ (limit : Nat) {num num' : Nat} {ts : List Ast} {core : Core} {avars : List Avar},
    aunifyParents simple L stop limit num ts = .ok (core, avars, num') → core.parentsOk simple = false → Common simple ts
  | 0, _, _, _, _, _, h, _ => nomatch h
  | limit + 1, num, num', [], core, avars, h, hbad => nomatch h
  | limit + 1, num, num', .seq l :: ts, core, avars, h, hbad => by
    rw [aunifyParents] at h
    split at h
    · cases h
    · rename_i ls hls
      split at h
      · rename_i hlen
        split at h
        · cases h
        · rename_i cores as n he
          cases h
          rw [Core.parentsOk, parentsOkAll_eq] at hbad
          obtain ⟨c, hc, hcb⟩ := List.all_eq_false.1 hbad
          obtain ⟨col, hm, n, as, n', hf⟩ := each_core he c hc
          rw [allSeqs_some hls]
          exact common_column (fun m hm => by simpa using List.all_eq_true.1 hlen m hm) hm (core_common limit hf (by simpa using hcb))
      · rw [newAunifier_parents h] at hbad
        cases hbad
  | limit + 1, num, num', .const c :: ts, core, avars, h, hbad => by
    rw [aunifyParents] at h
    split at h
    · rw [newAunifier_parents h] at hbad
      cases hbad
    · unfold aunifyConsts at h
      split at h
      · rename_i hall
        cases h
        rw [Core.parentsOk] at hbad
        cases c with
        | other k =>
          refine ⟨k, hbad, fun t ht => ?_⟩
          have := List.all_eq_true.1 hall t ht
          cases t with
          | const d =>
            have hd : d = .other k := by
              simp only [Const.pyEq, Const.num, Bool.or_eq_true, decide_eq_true_eq] at this
              rcases this with h | h
              · exact h
              · cases h1 : d.num <;> simp [h1] at h
            subst hd
            exact .refl _
          | seq _ => cases this
          | node _ _ => cases this
        | none => cases hbad
        | bool _ => cases hbad
        | int _ => cases hbad
        | str _ => cases hbad
      · rw [newAunifier_parents h] at hbad
        cases hbad
  | limit + 1, num, num', .node cls attrs :: ts, core, avars, h, hbad => by
    have key : ∀ {cores : List (Str × Core)} {as : List Avar} {n : Nat}, finishParents simple stop cls cores as n = .ok (core, avars, num') → False := by
      intro cores as n h
      unfold finishParents finish at h
      split at h
      · split at h
        · cases h
        · cases h
          cases hbad
      · cases h
    rw [aunifyParents] at h
    split at h
    · split at h
      · split at h
        · cases h
        · split at h
          · cases h
          · exact (key h).elim
      · split at h
        · cases h
        · exact (key h).elim
    · rw [newAunifier_parents h] at hbad
      cases hbad

theorem each_error {f : Nat → List Ast → Result Core} {e : Err} : ∀ {cols : List (List Ast)} {num : Nat}, aunifyEach f num cols = .error e →
    ∃ col ∈ cols, ∃ n, f n col = .error e
  | [], _, h => nomatch h
  | col :: cols, num, h => by
    rw [aunifyEach] at h
    split at h
    · rename_i e' hf
      cases h
      exact ⟨col, by simp, _, hf⟩
    · split at h
      · rename_i e' hr
        cases h
        obtain ⟨col', hm, h⟩ := each_error hr
        exact ⟨col', List.mem_cons_of_mem _ hm, h⟩
      · cases h

theorem attrs_error {f : Nat → List Ast → Result Core} {ts : List Ast} {e : Err} : ∀ {attrs : List Str} {num : Nat}, aunifyAttrs f ts num attrs = .error e →
    ∃ a ∈ attrs, getattrs a ts = none ∨ ∃ vals n, getattrs a ts = some vals ∧ f n vals = .error e
  | [], _, h => nomatch h
  | a :: attrs, num, h => by
    rw [aunifyAttrs] at h
    split at h
    · rename_i hn
      exact ⟨a, by simp, .inl hn⟩
    · rename_i vals hv
      split at h
      · rename_i e' hf
        cases h
        exact ⟨a, by simp, .inr ⟨vals, _, hv, hf⟩⟩
      · split at h
        · rename_i e' hr
          cases h
          obtain ⟨a', hm, h⟩ := attrs_error hr
          exact ⟨a', List.mem_cons_of_mem _ hm, h⟩
        · cases h

theorem attrs_core {f : Nat → List Ast → Result Core} {ts : List Ast} : ∀ {attrs : List Str} {num num' : Nat} {cores : List (Str × Core)} {avars : List Avar},
    aunifyAttrs f ts num attrs = .ok (cores, avars, num') → ∀ p ∈ cores, p.1 ∈ attrs ∧ ∃ vals n as n', getattrs p.1 ts = some vals ∧ f n vals = .ok (p.2, as, n')
  | [], _, _, _, _, h => by cases h; simp
  | a :: attrs, num, num', cores, avars, h => by
    rw [aunifyAttrs] at h
    split at h
    · cases h
    · rename_i vals hv
      split at h
      · cases h
      · rename_i core as n hf
        split at h
        · cases h
        · rename_i cores' as' n' hr
          cases h
          intro p hp
          rcases List.mem_cons.1 hp with rfl | hp
          · exact ⟨by simp, _, _, _, _, hv, hf⟩
          · obtain ⟨hm, h⟩ := attrs_core hr p hp
            exact ⟨List.mem_cons_of_mem _ hm, h⟩

/-- The values of an attribute. -/
theorem getattrs_spec {a : Str} : ∀ {ts vals : List Ast}, getattrs a ts = some vals → List.Forall₂ (fun t x => t.getattr a = some x) ts vals
  | [], vals, h => by cases h; exact .nil
  | t :: ts, vals, h => by
    rw [getattrs] at h
    split at h
    · rename_i x xs hx hxs
      cases h
      exact .cons hx (getattrs_spec hxs)
    · cases h

theorem getattrs_exists {a : Str} : ∀ {ts : List Ast}, (∀ t ∈ ts, ∃ x, t.getattr a = some x) → getattrs a ts ≠ none
  | [], _ => by simp [getattrs]
  | t :: ts, h => by
    obtain ⟨x, hx⟩ := h t (by simp)
    have := getattrs_exists (fun t ht => h t (List.mem_cons_of_mem _ ht))
    rw [getattrs, hx]
    cases h1 : getattrs a ts with
    | none => exact (this h1).elim
    | some xs => simp

theorem forall₂_right {R : Ast → Ast → Prop} : ∀ {l m : List Ast}, List.Forall₂ R l m → ∀ y ∈ m, ∃ x ∈ l, R x y
  | _, _, .cons h hs, y, hy => by
    rcases List.mem_cons.1 hy with rfl | hy
    · exact ⟨_, by simp, h⟩
    · obtain ⟨x, hx, h⟩ := forall₂_right hs y hy
      exact ⟨x, List.mem_cons_of_mem _ hx, h⟩

theorem forall₂_left {R : Ast → Ast → Prop} : ∀ {l m : List Ast}, List.Forall₂ R l m → ∀ x ∈ l, ∃ y ∈ m, R x y
  | _, _, .cons h hs, y, hy => by
    rcases List.mem_cons.1 hy with rfl | hy
    · exact ⟨_, by simp, h⟩
    · obtain ⟨x, hx, h⟩ := forall₂_left hs y hy
      exact ⟨x, List.mem_cons_of_mem _ hx, h⟩

theorem getattr_part {t x : Ast} {a : Str} (h : t.getattr a = some x) : Part x t := by
  cases t with
  | node c as => exact .node (mem_of_lookup h) (.refl _)
  | seq _ => cases h
  | const _ => cases h

theorem common_attr {ts vals : List Ast} {a : Str} (h : getattrs a ts = some vals) (hc : Common simple vals) : Common simple ts := by
  obtain ⟨k, hk, hp⟩ := hc
  refine ⟨k, hk, fun t ht => ?_⟩
  obtain ⟨x, hx, hg⟩ := forall₂_left (getattrs_spec h) t ht
  exact (hp x hx).trans (getattr_part hg)

theorem allSeqs_none : ∀ {ts : List Ast}, allSeqs ts = none → ∃ t ∈ ts, ∀ l, t ≠ .seq l
  | [], h => nomatch h
  | .seq l :: ts, h => by
    simp only [allSeqs, Option.map_eq_none_iff] at h
    obtain ⟨t, ht, hn⟩ := allSeqs_none h
    exact ⟨t, List.mem_cons_of_mem _ ht, hn⟩
  | .const c :: ts, _ => ⟨_, List.mem_cons_self .., fun _ => by simp⟩
  | .node c as :: ts, _ => ⟨_, List.mem_cons_self .., fun _ => by simp⟩

theorem newAunifier_error {num : Nat} {ts : List Ast} {e : PyErr} : newAunifier stop num ts ≠ .error (.py e) := by
  unfold newAunifier
  split <;> simp

theorem finishParents_error {cls : Str} {cores : List (Str × Core)} {avars : List Avar} {num : Nat} {e : PyErr}
    (h : finishParents simple stop cls cores avars num = .error (.py e)) : e = .assertionError ∧ ∃ p ∈ cores, p.2.parentsOk simple = false := by
  unfold finishParents finish at h
  split at h
  · split at h <;> cases h
  · rename_i hall
    cases h
    obtain ⟨p, hp, hb⟩ := List.all_eq_false.1 (Bool.eq_false_iff.2 hall)
    exact ⟨rfl, p, hp, by simpa using hb⟩

theorem error_common {shape : Str → Str → Shape} : ∀ (limit : Nat) {num : Nat} {t : Ast} {ts : List Ast} {s : Shape} {e : PyErr},
    (∀ u ∈ t :: ts, Regular L shape u ∧ u.HasShape s) → t.depth < limit → aunifyParents simple L stop limit num (t :: ts) = .error (.py e) →
      e = .assertionError ∧ Common simple (t :: ts)
  | 0, _, _, _, _, _, _, hd, _ => nomatch hd
  | limit + 1, num, .seq l, ts, s, e, hreg, hd, h => by
    cases s with
    | leaf => exact ((hreg _ (List.mem_cons_self ..)).2).elim
    | list s =>
      rw [aunifyParents] at h
      split at h
      · rename_i hn
        obtain ⟨u, hu, hns⟩ := allSeqs_none hn
        have := (hreg u hu).2
        cases u with
        | seq m => exact (hns m rfl).elim
        | const _ => exact this.elim
        | node _ _ => exact this.elim
      · rename_i ls hls
        have hts := allSeqs_some hls
        split at h
        · rename_i hlen
          have hlen' : ∀ m ∈ ls, m.length = l.length := fun m hm => by simpa using List.all_eq_true.1 hlen m hm
          split at h
          · rename_i e' he
            cases h
            obtain ⟨col, hm, n, hf⟩ := each_error he
            obtain ⟨i, hi, hcol⟩ := column_mem hm
            cases ls with
            | nil => cases hts
            | cons l' ls =>
              obtain ⟨hl, htl⟩ := List.cons.inj hts
              cases hl
              have hcol0 := hcol
              rw [List.map_cons, List.getElem?_eq_getElem hi] at hcol
              have hcolreg : ∀ u ∈ col, Regular L shape u ∧ u.HasShape s := by
                intro u hu
                rw [hcol0] at hu
                obtain ⟨m, hmem, rfl⟩ := List.mem_map.1 hu
                have hlt : i < m.length := by rw [hlen' m hmem]; exact hi
                have hin : Ast.seq m ∈ Ast.seq l :: ts := by rw [hts]; exact List.mem_map.2 ⟨m, hmem, rfl⟩
                have := hreg _ hin
                rw [List.getElem?_eq_getElem hlt]
                exact ⟨this.1.part (.seq (List.getElem_mem hlt) (.refl _)), this.2 _ (List.getElem_mem hlt)⟩
              have hdep : l[i].depth < limit := by
                have := depth_mem (List.getElem_mem hi)
                rw [Ast.depth] at hd
                omega
              rw [Option.getD_some] at hcol
              rw [hcol] at hf hcolreg
              obtain ⟨h1, h2⟩ := error_common limit hcolreg hdep hf
              rw [← hcol] at h2
              refine ⟨h1, ?_⟩
              rw [hts]
              exact common_column hlen' hm h2
          · cases h
        · exact (newAunifier_error h).elim
  | limit + 1, num, .const c, ts, s, e, hreg, hd, h => by
    rw [aunifyParents] at h
    split at h
    · exact (newAunifier_error h).elim
    · unfold aunifyConsts at h
      split at h
      · cases h
      · exact (newAunifier_error h).elim
  | limit + 1, num, .node cls attrs, ts, s, e, hreg, hd, h => by
    rw [aunifyParents] at h
    split at h
    · rename_i hinst
      have hnode : ∀ u ∈ Ast.node cls attrs :: ts, ∃ c as, u = .node c as ∧ L.isSub c cls = true := by
        intro u hu
        have := List.all_eq_true.1 hinst u hu
        cases u with
        | node c as => exact ⟨c, as, rfl, this⟩
        | seq _ => cases this
        | const _ => cases this
      split at h
      · rename_i hname
        split at h
        · rename_i hn
          refine (getattrs_exists (fun u hu => ?_) hn).elim
          obtain ⟨c, as, rfl, hsub⟩ := hnode u hu
          exact ((hreg _ hu).1 c as (.refl _) cls hsub).2 hname
        · split at h
          · rename_i e' he
            cases h
            exact (newAunifier_error he).elim
          · rename_i core avars n he
            obtain ⟨h1, p, hp, hb⟩ := finishParents_error h
            rw [List.mem_singleton] at hp
            subst hp
            rw [newAunifier_parents he] at hb
            cases hb
      · split at h
        · rename_i e' he
          cases h
          obtain ⟨a, ha, hn | ⟨vals, n, hv, hf⟩⟩ := attrs_error he
          · refine (getattrs_exists (fun u hu => ?_) hn).elim
            obtain ⟨c, as, rfl, hsub⟩ := hnode u hu
            obtain ⟨x, hx, _⟩ := ((hreg _ hu).1 c as (.refl _) cls hsub).1 a ha
            exact ⟨x, hx⟩
          · have hvals := getattrs_spec hv
            have hvreg : ∀ u ∈ vals, Regular L shape u ∧ u.HasShape (shape cls a) := by
              intro u hu
              obtain ⟨t, ht, hg⟩ := forall₂_right hvals u hu
              refine ⟨(hreg t ht).1.part (getattr_part hg), ?_⟩
              obtain ⟨c, as, rfl, hsub⟩ := hnode t ht
              obtain ⟨x, hx, hs⟩ := ((hreg _ ht).1 c as (.refl _) cls hsub).1 a ha
              cases hx.symm.trans hg
              exact hs
            cases vals with
            | nil => cases hvals
            | cons x xs =>
              cases hvals with
              | cons hx hxs =>
                have hdep : x.depth < limit := by
                  have := depth_lookup hx
                  rw [Ast.depth] at hd
                  omega
                obtain ⟨h1, h2⟩ := error_common limit hvreg hdep hf
                exact ⟨h1, common_attr hv h2⟩
        · rename_i cores avars n he
          obtain ⟨h1, p, hp, hb⟩ := finishParents_error h
          obtain ⟨hm, vals, n, as, n', hv, hf⟩ := attrs_core he p hp
          exact ⟨h1, common_attr hv (core_common limit hf hb)⟩
    · exact (newAunifier_error h).elim

theorem each_agree {f g : Nat → List Ast → Result Core} (h : ∀ n ts, f n ts = g n ts ∨ f n ts = .error (.py .assertionError)) :
    ∀ (cols : List (List Ast)) (num : Nat), aunifyEach f num cols = aunifyEach g num cols ∨ aunifyEach f num cols = .error (.py .assertionError)
  | [], _ => .inl rfl
  | col :: cols, num => by
    rw [aunifyEach, aunifyEach]
    rcases h num col with h1 | h1
    · rw [h1]
      cases g num col with
      | error e => exact .inl rfl
      | ok r =>
        obtain ⟨core, as, n⟩ := r
        rcases each_agree h cols n with h2 | h2
        · exact .inl (by simp only [h2])
        · exact .inr (by simp only [h2])
    · exact .inr (by simp only [h1])

theorem attrs_agree {f g : Nat → List Ast → Result Core} {ts : List Ast} (h : ∀ n ts, f n ts = g n ts ∨ f n ts = .error (.py .assertionError)) :
    ∀ (attrs : List Str) (num : Nat), aunifyAttrs f ts num attrs = aunifyAttrs g ts num attrs ∨ aunifyAttrs f ts num attrs = .error (.py .assertionError)
  | [], _ => .inl rfl
  | a :: attrs, num => by
    rw [aunifyAttrs, aunifyAttrs]
    cases getattrs a ts with
    | none => exact .inl rfl
    | some vals =>
      rcases h num vals with h1 | h1
      · simp only [h1]
        cases g num vals with
        | error e => exact .inl rfl
        | ok r =>
          obtain ⟨core, as, n⟩ := r
          rcases attrs_agree (ts := ts) h attrs n with h2 | h2
          · exact .inl (by simp only [h2])
          · exact .inr (by simp only [h2])
      · exact .inr (by simp only [h1])

/-- Setting the parents changes nothing unless it fails. -/
theorem C162_agree (simple : Nat → Bool) (L : Lang) (stop : StopOn) : ∀ (limit num : Nat) (ts : List Ast),
    aunifyParents simple L stop limit num ts = aunify L stop limit num ts ∨ aunifyParents simple L stop limit num ts = .error (.py .assertionError)
  | 0, _, _ => .inl rfl
  | limit + 1, num, [] => .inl rfl
  | limit + 1, num, .seq l :: ts => by
    rw [aunifyParents, aunify]
    cases allSeqs (.seq l :: ts) with
    | none => exact .inl rfl
    | some ls =>
      simp only
      by_cases hl : (ls.all fun m => decide (m.length = l.length)) = true
      · simp only [hl, if_true]
        rcases each_agree (C162_agree simple L stop limit) (columns l.length ls) num with h | h
        · rw [h]
          exact .inl rfl
        · exact .inr (by simp only [h])
      · simp only [hl]
        exact .inl rfl
  | limit + 1, num, .const c :: ts => .inl (by rw [aunifyParents, aunify])
  | limit + 1, num, .node cls attrs :: ts => by
    have key : ∀ (cores : List (Str × Core)) (as : List Avar) (n : Nat), finishParents simple stop cls cores as n = finish stop (.node cls cores) as n ∨
        finishParents simple stop cls cores as n = .error (.py .assertionError) := by
      intro cores as n
      unfold finishParents
      split
      · exact .inl rfl
      · exact .inr rfl
    rw [aunifyParents, aunify]
    by_cases hi : ((Ast.node cls attrs :: ts).all fun t => t.isInstance L (.node cls attrs)) = true
    · simp only [hi, if_true]
      by_cases hn : isNameCls cls = true
      · simp only [hn, if_true]
        cases getattrs "name".toList (.node cls attrs :: ts) with
        | none => exact .inl rfl
        | some names =>
          simp only
          cases newAunifier stop num names with
          | error e => exact .inl rfl
          | ok r => exact key ..
      · simp only [hn]
        rcases attrs_agree (ts := .node cls attrs :: ts) (C162_agree simple L stop limit) (L.fields cls) num with h | h
        · rw [h]
          cases aunifyAttrs (aunify L stop limit) (.node cls attrs :: ts) num (L.fields cls) with
          | error e => exact .inl rfl
          | ok r => exact key ..
        · exact .inr (by simp only [h]; rfl)
    · simp only [hi]
      exact .inl rfl

/-- **C162**, what holds: for pieces of code whose nodes have their attributes and that are not nested too deep, anti-unification gives a core or finds that there
may be none, unless it is a failed assertion, and then one and the same constant of a kind that `set_parents` does not know occurs in each of the pieces. -/
theorem C162_partial {shape : Str → Str → Shape} {s : Shape} {limit num : Nat} {t : Ast} {ts : List Ast}
    (hreg : ∀ u ∈ t :: ts, Regular L shape u ∧ u.HasShape s) (hdepth : t.depth < limit) :
    (∃ r, aunifyParents simple L stop limit num (t :: ts) = .ok r) ∨ aunifyParents simple L stop limit num (t :: ts) = .error .disallowed ∨
      (aunifyParents simple L stop limit num (t :: ts) = .error (.py .assertionError) ∧
        ∃ k, simple k = false ∧ ∀ u ∈ t :: ts, Part (.const (.other k)) u) := by
  cases h : aunifyParents simple L stop limit num (t :: ts) with
  | ok r => exact .inl ⟨r, rfl⟩
  | error e =>
    cases e with
    | disallowed => exact .inr (.inl rfl)
    | py e =>
      obtain ⟨rfl, hc⟩ := error_common limit hreg hdepth h
      exact .inr (.inr ⟨rfl, hc⟩)

/-- If some piece is without complex numbers then there is no exception, and the result is the one that is described elsewhere (`C31`). -/
theorem C162_plain {shape : Str → Str → Shape} {s : Shape} {limit num : Nat} {t : Ast} {ts : List Ast}
    (hreg : ∀ u ∈ t :: ts, Regular L shape u ∧ u.HasShape s) (hdepth : t.depth < limit)
    (hplain : ∃ u ∈ t :: ts, ∀ k, Part (.const (.other k)) u → simple k = true) :
    aunifyParents simple L stop limit num (t :: ts) = aunify L stop limit num (t :: ts) ∧
      ∀ e, aunify L stop limit num (t :: ts) ≠ .error (.py e) := by
  obtain ⟨u, hu, hk⟩ := hplain
  have hno : ∀ e, aunifyParents simple L stop limit num (t :: ts) ≠ .error (.py e) := by
    intro e he
    obtain ⟨_, k, hk', hp⟩ := error_common limit hreg hdepth he
    rw [hk k (hp u hu)] at hk'
    cases hk'
  rcases C162_agree simple L stop limit num (t :: ts) with h | h
  · exact ⟨h, h ▸ hno⟩
  · exact (hno _ h).elim

/-! ### Examples -/

/-- `x = …` -/
def assignOf (x : String) (value : Ast) : Ast :=
  .node "Assign".toList [("targets".toList, .seq [.node "AssignName".toList [("name".toList, .const (.str x.toList))]]), ("value".toList, value)]

def constOf (c : Const) : Ast := .node "Const".toList [("value".toList, .const c)]

def assignLang : Lang where
  fields c := if c = "Assign".toList then ["targets".toList, "value".toList] else if c = "Const".toList then ["value".toList] else ["name".toList]
  isSub c d := decide (c = d)

def assignShape (c a : Str) : Shape := if c = "Assign".toList ∧ a = "targets".toList then .list .leaf else .leaf

/-- Of the constants that are not told apart further, the first one is `2.5` and all others are complex. -/
def onlyFloat (k : Nat) : Bool := k == 0

def never : StopOn := fun _ _ => false

def failure : Result Core → Option PyErr
  | .error (.py e) => some e
  | _ => none

/-- **C162**, counterexample: `x = 1j` and `y = 1j`. -/
theorem C162_complex_counterexample :
    failure (aunifyParents onlyFloat assignLang never 9 0 [assignOf "x" (constOf (.other 1)), assignOf "y" (constOf (.other 1))]) = some .assertionError := by
  decide +kernel

/-- For `x = 1j` and `y = 2j` the number becomes a placeholder, and `x = 2.5` and `y = 2.5` are fine. -/
example : failure (aunifyParents onlyFloat assignLang never 9 0 [assignOf "x" (constOf (.other 1)), assignOf "y" (constOf (.other 2))]) = none ∧
    failure (aunifyParents onlyFloat assignLang never 9 0 [assignOf "x" (constOf (.other 0)), assignOf "y" (constOf (.other 0))]) = none := by
  decide +kernel

theorem part_const {t : Ast} {c : Const} (h : Part t (.const c)) : t = .const c := by
  cases h
  rfl

/-- The parts of an assignment of a constant. -/
theorem part_assign {t : Ast} {x : String} {c : Const} (h : Part t (assignOf x (constOf c))) : t = assignOf x (constOf c) ∨
    t = .seq [.node "AssignName".toList [("name".toList, .const (.str x.toList))]] ∨ t = .node "AssignName".toList [("name".toList, .const (.str x.toList))] ∨
      t = .const (.str x.toList) ∨ t = constOf c ∨ t = .const c := by
  cases h with
  | refl => exact .inl rfl
  | node hm hp =>
    simp only [List.mem_cons, List.not_mem_nil, or_false, Prod.mk.injEq] at hm
    rcases hm with ⟨_, rfl⟩ | ⟨_, rfl⟩
    · cases hp with
      | refl => exact .inr (.inl rfl)
      | seq hm hp =>
        rw [List.mem_singleton] at hm
        subst hm
        cases hp with
        | refl => exact .inr (.inr (.inl rfl))
        | node hm hp =>
          rw [List.mem_singleton] at hm
          cases hm
          exact .inr (.inr (.inr (.inl (part_const hp))))
    · cases hp with
      | refl => exact .inr (.inr (.inr (.inr (.inl rfl))))
      | node hm hp =>
        rw [List.mem_singleton] at hm
        cases hm
        exact .inr (.inr (.inr (.inr (.inr (part_const hp)))))

theorem assign_regular (x : String) (c : Const) : Regular assignLang assignShape (assignOf x (constOf c)) ∧ (assignOf x (constOf c)).HasShape .leaf := by
  refine ⟨fun k as hp d hd => ?_, trivial⟩
  have hd : k = d := of_decide_eq_true hd
  subst hd
  rcases part_assign hp with h | h | h | h | h | h <;> cases h
  · refine ⟨fun a ha => ?_, fun hn => absurd hn (by decide +kernel)⟩
    have : assignLang.fields "Assign".toList = ["targets".toList, "value".toList] := by decide +kernel
    rw [this] at ha
    simp only [List.mem_cons, List.not_mem_nil, or_false] at ha
    rcases ha with rfl | rfl
    · refine ⟨_, rfl, ?_⟩
      have : assignShape "Assign".toList "targets".toList = .list .leaf := rfl
      rw [this]
      intro a ha
      rw [List.mem_singleton] at ha
      subst ha
      trivial
    · exact ⟨_, rfl, trivial⟩
  · refine ⟨fun a ha => ?_, fun _ => ⟨_, rfl⟩⟩
    have : assignLang.fields "AssignName".toList = ["name".toList] := by decide +kernel
    rw [this, List.mem_singleton] at ha
    subst ha
    exact ⟨_, rfl, trivial⟩
  · refine ⟨fun a ha => ?_, fun hn => absurd hn (by decide +kernel)⟩
    have : assignLang.fields "Const".toList = ["value".toList] := by decide +kernel
    rw [this, List.mem_singleton] at ha
    subst ha
    exact ⟨_, rfl, trivial⟩

theorem assign_all {x y : String} {c d : Const} : ∀ u ∈ [assignOf x (constOf c), assignOf y (constOf d)], Regular assignLang assignShape u ∧ u.HasShape .leaf := by
  intro u hu
  simp only [List.mem_cons, List.not_mem_nil, or_false] at hu
  rcases hu with rfl | rfl <;> exact assign_regular ..

/-- `x = 1j` and `y = 1j` have their attributes and are not nested too deep, so that the constant is what is to blame. -/
example : ∃ k, onlyFloat k = false ∧ ∀ u ∈ [assignOf "x" (constOf (.other 1)), assignOf "y" (constOf (.other 1))], Part (.const (.other k)) u := by
  rcases C162_partial (simple := onlyFloat) (stop := never) (limit := 9) (num := 0)
    (assign_all (x := "x") (y := "y") (c := .other 1) (d := .other 1)) (by decide +kernel) with ⟨r, h⟩ | h | ⟨_, h⟩
  · exact absurd C162_complex_counterexample (by rw [h]; exact fun h => nomatch h)
  · exact absurd C162_complex_counterexample (by rw [h]; exact fun h => nomatch h)
  · exact h

/-- `x = 1` and `y = 1j` -/
example : aunifyParents onlyFloat assignLang never 9 0 [assignOf "x" (constOf (.int 1)), assignOf "y" (constOf (.other 1))] =
    aunify assignLang never 9 0 [assignOf "x" (constOf (.int 1)), assignOf "y" (constOf (.other 1))] := by
  refine (C162_plain assign_all (by decide +kernel) ⟨_, List.mem_cons_self .., fun k hk => ?_⟩).1
  rcases part_assign hk with h | h | h | h | h | h <;> cases h

end Verif.Aunify

import Verif.Model.Antiunify
import Mathlib.Tactic.ByContra

/-! C31 and C61: anti-unification. -/

namespace Verif.Aunify

mutual
/-- The tree with each placeholder replaced by the value recorded for the `i`-th fragment. -/
def Core.inst (i : Nat) : Core → Ast
  | .const c => .const c
  | .avar _ subs => (subs[i]?).getD (.const .none)
  | .seq l => .seq (Core.instAll i l)
  | .node cls attrs => .node cls (Core.instAttrs i attrs)

def Core.instAll (i : Nat) : List Core → List Ast
  | [] => []
  | c :: l => c.inst i :: Core.instAll i l

def Core.instAttrs (i : Nat) : List (Str × Core) → List (Str × Ast)
  | [] => []
  | (a, c) :: l => (a, c.inst i) :: Core.instAttrs i l
end

theorem instAll_eq (i : Nat) : ∀ (l : List Core), Core.instAll i l = l.map (Core.inst i)
  | [] => by simp [Core.instAll]
  | c :: l => by simp [Core.instAll, instAll_eq i l]

theorem instAttrs_eq (i : Nat) : ∀ (l : List (Str × Core)), Core.instAttrs i l = l.map fun p => (p.1, p.2.inst i)
  | [] => by simp [Core.instAttrs]
  | (a, c) :: l => by simp [Core.instAttrs, instAttrs_eq i l]

/-- `b` is `a` except that constants are only equal in the sense of `==`, that a node of a subclass may have become one
of the class, and that nodes have no other attributes than the fields of their class. -/
inductive Like (L : Lang) : Ast → Ast → Prop
  | const {c d : Const} : c.pyEq d = true → Like L (.const c) (.const d)
  | seq {l m : List Ast} : l.length = m.length →
    (∀ (k : Nat) (a b : Ast), l[k]? = some a → m[k]? = some b → Like L a b) → Like L (.seq l) (.seq m)
  | node {c d : Str} {as bs : List (Str × Ast)} (val : Str → Ast) : (c = d ∨ L.isSub c d = true) →
    (∀ p ∈ bs, as.lookup p.1 = some (val p.1)) → (∀ p ∈ bs, Like L (val p.1) p.2) → Like L (.node c as) (.node d bs)
  /-- whatever is recorded is the same -/
  | same (a : Ast) : Like L a a

/-! ### Helpers -/

theorem newAunifier_ok {stop : StopOn} {num num' : Nat} {ts : List Ast} {core : Core} {avars : List Avar}
    (h : newAunifier stop num ts = .ok (core, avars, num')) :
    core = .avar (num + 1) ts ∧ avars = [(num + 1, ts)] ∧ num' = num + 1 := by
  unfold newAunifier at h
  split at h
  · cases h
  · cases h; exact ⟨rfl, rfl, rfl⟩

theorem finish_ok {stop : StopOn} {core core' : Core} {avars avars' : List Avar} {num num' : Nat}
    (h : finish stop core avars num = .ok (core', avars', num')) : core' = core ∧ avars' = avars ∧ num' = num := by
  unfold finish at h
  split at h
  · cases h
  · cases h; exact ⟨rfl, rfl, rfl⟩

theorem allSeqs_some : ∀ {ts : List Ast} {ls : List (List Ast)}, allSeqs ts = some ls → ts = ls.map Ast.seq
  | [], ls, h => by cases h; rfl
  | .seq l :: ts, ls, h => by
    simp only [allSeqs, Option.map_eq_some_iff] at h
    obtain ⟨ms, hms, rfl⟩ := h
    rw [List.map_cons, ← allSeqs_some hms]
  | .const _ :: _, _, h => by simp [allSeqs] at h
  | .node _ _ :: _, _, h => by simp [allSeqs] at h

theorem getattrs_some {attr : Str} : ∀ {ts vals : List Ast}, getattrs attr ts = some vals →
    vals.length = ts.length ∧ ∀ (i : Nat) (t : Ast), ts[i]? = some t → ∃ x, vals[i]? = some x ∧ t.getattr attr = some x
  | [], vals, h => by cases h; simp
  | t :: ts, vals, h => by
    simp only [getattrs] at h
    cases ha : t.getattr attr with
    | none => simp [ha] at h
    | some x =>
      cases hg : getattrs attr ts with
      | none => simp [ha, hg] at h
      | some xs =>
        simp only [ha, hg, Option.some.injEq] at h
        subst h
        obtain ⟨h1, h2⟩ := getattrs_some hg
        refine ⟨by simp [h1], ?_⟩
        intro i u hu
        cases i with
        | zero => simp only [List.getElem?_cons_zero, Option.some.injEq] at hu; subst hu; exact ⟨x, by simp, ha⟩
        | succ i => simpa using h2 i u (by simpa using hu)

theorem aunifyEach_ok {f : Nat → List Ast → Result Core} : ∀ {cols : List (List Ast)} {num num' : Nat} {cores : List Core}
    {avars : List Avar}, aunifyEach f num cols = .ok (cores, avars, num') → cores.length = cols.length ∧
      ∀ (k : Nat) (col : List Ast), cols[k]? = some col → ∃ (n n' : Nat) (c : Core) (as : List Avar), cores[k]? = some c ∧
        f n col = .ok (c, as, n')
  | [], num, num', cores, avars, h => by cases h; simp
  | col :: cols, num, num', cores, avars, h => by
    simp only [aunifyEach] at h
    cases hf : f num col with
    | error e => simp [hf] at h
    | ok r =>
      obtain ⟨c, as, n⟩ := r
      simp only [hf] at h
      cases hr : aunifyEach f n cols with
      | error e => simp [hr] at h
      | ok r =>
        obtain ⟨cs, as', n'⟩ := r
        simp only [hr] at h
        cases h
        obtain ⟨h1, h2⟩ := aunifyEach_ok hr
        refine ⟨by simp [h1], ?_⟩
        intro k x hx
        cases k with
        | zero =>
          simp only [List.getElem?_cons_zero, Option.some.injEq] at hx
          subst hx
          exact ⟨num, n, c, as, by simp, hf⟩
        | succ k => simpa using h2 k x (by simpa using hx)

theorem aunifyAttrs_ok {f : Nat → List Ast → Result Core} {ts : List Ast} : ∀ {attrs : List Str} {num num' : Nat}
    {cores : List (Str × Core)} {avars : List Avar}, aunifyAttrs f ts num attrs = .ok (cores, avars, num') →
      cores.map Prod.fst = attrs ∧ ∀ p ∈ cores, ∃ (vals : List Ast) (n n' : Nat) (as : List Avar),
        getattrs p.1 ts = some vals ∧ f n vals = .ok (p.2, as, n')
  | [], num, num', cores, avars, h => by cases h; simp
  | attr :: attrs, num, num', cores, avars, h => by
    simp only [aunifyAttrs] at h
    cases hg : getattrs attr ts with
    | none => simp [hg] at h
    | some vals =>
      simp only [hg] at h
      cases hf : f num vals with
      | error e => simp [hf] at h
      | ok r =>
        obtain ⟨c, as, n⟩ := r
        simp only [hf] at h
        cases hr : aunifyAttrs f ts n attrs with
        | error e => simp [hr] at h
        | ok r =>
          obtain ⟨cs, as', n'⟩ := r
          simp only [hr] at h
          cases h
          obtain ⟨h1, h2⟩ := aunifyAttrs_ok hr
          refine ⟨by simp [h1], ?_⟩
          intro p hp
          rcases List.mem_cons.1 hp with rfl | hp
          · exact ⟨vals, num, n, as, hg, hf⟩
          · exact h2 p hp

theorem mem_of_get {α : Type} {l : List α} {i : Nat} {x : α} (h : l[i]? = some x) : x ∈ l := List.mem_of_getElem? h

theorem columns_get {n : Nat} {ls : List (List Ast)} {k i : Nat} {col : List Ast} {l : List Ast}
    (hc : (columns n ls)[k]? = some col) (hl : ls[i]? = some l) : k < n ∧ col[i]? = some ((l[k]?).getD (.const .none)) := by
  unfold columns at hc
  rw [List.getElem?_map] at hc
  cases hr : (List.range n)[k]? with
  | none => simp [hr] at hc
  | some j =>
    have hk : k < n := by have := (List.getElem?_eq_some_iff.1 hr).1; simpa using this
    rw [List.getElem?_range hk] at hr
    cases hr
    rw [List.getElem?_range hk] at hc
    simp only [Option.map_some, Option.some.injEq] at hc
    subst hc
    exact ⟨hk, by simp [List.getElem?_map, hl]⟩

/-- The cases in which anti-unification has a result. -/
theorem aunify_cases {L : Lang} {stop : StopOn} {limit num num' : Nat} {ts : List Ast} {core : Core} {avars : List Avar}
    (h : aunify L stop (limit + 1) num ts = .ok (core, avars, num')) :
    (core = .avar (num + 1) ts ∧ avars = [(num + 1, ts)] ∧ num' = num + 1) ∨
    (∃ c, core = .const c ∧ avars = [] ∧ num' = num ∧ ts.head? = some (.const c) ∧
      ∀ t ∈ ts, ∃ d, t = .const d ∧ d.pyEq c = true) ∨
    (∃ (l : List Ast) (ls : List (List Ast)) (cores : List Core), ts = ls.map Ast.seq ∧ (∀ m ∈ ls, m.length = l.length) ∧
      core = .seq cores ∧ aunifyEach (aunify L stop limit) num (columns l.length ls) = .ok (cores, avars, num')) ∨
    (∃ cls attrs, ts.head? = some (.node cls attrs) ∧ (∀ t ∈ ts, ∃ c as, t = .node c as ∧ L.isSub c cls = true) ∧
      ((isNameCls cls = true ∧ ∃ names, getattrs "name".toList ts = some names ∧
          core = .node cls [("name".toList, .avar (num + 1) names)] ∧ avars = [(num + 1, names)] ∧ num' = num + 1) ∨
       (isNameCls cls = false ∧ ∃ cores, core = .node cls cores ∧
          aunifyAttrs (aunify L stop limit) ts num (L.fields cls) = .ok (cores, avars, num')))) := by
  cases ts with
  | nil => simp [aunify] at h
  | cons t ts =>
    cases t with
    | seq l =>
      simp only [aunify] at h
      cases hs : allSeqs (.seq l :: ts) with
      | none => simp [hs] at h
      | some ls =>
        simp only [hs] at h
        split at h
        · rename_i hall
          cases he : aunifyEach (aunify L stop limit) num (columns l.length ls) with
          | error e => simp [he] at h
          | ok r =>
            obtain ⟨cores, as, n⟩ := r
            simp only [he] at h
            cases h
            exact .inr (.inr (.inl ⟨l, ls, cores, allSeqs_some hs, by simpa using hall, rfl, he⟩))
        · exact .inl (newAunifier_ok h)
    | const c =>
      simp only [aunify] at h
      split at h
      · exact .inl (newAunifier_ok h)
      · unfold aunifyConsts at h
        split at h
        · rename_i hall
          cases h
          refine .inr (.inl ⟨c, rfl, rfl, rfl, rfl, ?_⟩)
          intro t ht
          rw [List.all_eq_true] at hall
          have := hall t ht
          cases t with
          | const d => exact ⟨d, rfl, this⟩
          | seq _ => simp at this
          | node _ _ => simp at this
        · exact .inl (newAunifier_ok h)
    | node cls attrs =>
      simp only [aunify] at h
      split at h
      · rename_i hall
        have hinst : ∀ t ∈ Ast.node cls attrs :: ts, ∃ c as, t = .node c as ∧ L.isSub c cls = true := by
          intro t ht
          rw [List.all_eq_true] at hall
          have := hall t ht
          cases t with
          | node c as => exact ⟨c, as, rfl, by simpa [Ast.isInstance] using this⟩
          | const _ => simp [Ast.isInstance] at this
          | seq _ => simp [Ast.isInstance] at this
        refine .inr (.inr (.inr ⟨cls, attrs, rfl, hinst, ?_⟩))
        split at h
        · rename_i hn
          cases hg : getattrs "name".toList (Ast.node cls attrs :: ts) with
          | none => simp only [hg] at h; cases h
          | some names =>
            simp only [hg] at h
            cases hf : newAunifier stop num names with
            | error e => simp [hf] at h
            | ok r =>
              obtain ⟨c, as, n⟩ := r
              simp only [hf] at h
              obtain ⟨rfl, rfl, rfl⟩ := finish_ok h
              obtain ⟨rfl, rfl, rfl⟩ := newAunifier_ok hf
              exact .inl ⟨hn, names, rfl, rfl, rfl, rfl⟩
        · rename_i hn
          cases hf : aunifyAttrs (aunify L stop limit) (Ast.node cls attrs :: ts) num (L.fields cls) with
          | error e => simp [hf] at h
          | ok r =>
            obtain ⟨cs, as, n⟩ := r
            simp only [hf] at h
            obtain ⟨rfl, rfl, rfl⟩ := finish_ok h
            exact .inr ⟨by simpa using hn, cs, rfl, rfl⟩
      · exact .inl (newAunifier_ok h)

/-- C31 for all fragments: the core with the values recorded for a fragment is the fragment, up to constants that
are equal for Python, subclasses, and attributes that are not compared. -/
theorem C31_like {L : Lang} {stop : StopOn} : ∀ {limit num num' : Nat} {ts : List Ast} {core : Core} {avars : List Avar},
    aunify L stop limit num ts = .ok (core, avars, num') → ∀ (i : Nat) (t : Ast), ts[i]? = some t → Like L t (core.inst i)
  | 0, num, num', ts, core, avars, h => by simp [aunify] at h
  | limit + 1, num, num', ts, core, avars, h => by
    intro i t ht
    rcases aunify_cases h with ⟨rfl, _, _⟩ | ⟨c, rfl, _, _, _, hc⟩ | ⟨l, ls, cores, rfl, hlen, rfl, he⟩ |
      ⟨cls, attrs, hhead, hinst, ⟨hn, names, hg, rfl, _, _⟩ | ⟨hn, cores, rfl, ha⟩⟩
    · simp only [Core.inst, ht, Option.getD_some]
      exact .same t
    · obtain ⟨d, rfl, hd⟩ := hc t (mem_of_get ht)
      exact .const hd
    · rw [List.getElem?_map, Option.map_eq_some_iff] at ht
      obtain ⟨m, hm, rfl⟩ := ht
      obtain ⟨hcl, hcol⟩ := aunifyEach_ok he
      have hml := hlen m (mem_of_get hm)
      simp only [Core.inst, instAll_eq]
      refine .seq (by simp [hcl, columns, hml]) ?_
      intro k a b hka hkb
      rw [List.getElem?_map, Option.map_eq_some_iff] at hkb
      obtain ⟨c, hc, rfl⟩ := hkb
      have hk : k < (columns l.length ls).length := by
        rw [← hcl]; exact (List.getElem?_eq_some_iff.1 hc).1
      obtain ⟨n, n', c', as, hc', hf⟩ := hcol k _ (List.getElem?_eq_getElem hk)
      rw [hc] at hc'
      cases hc'
      refine C31_like hf i a ?_
      rw [(columns_get (List.getElem?_eq_getElem hk) hm).2, hka]
      rfl
    · obtain ⟨c, as, rfl, hsub⟩ := hinst t (mem_of_get ht)
      obtain ⟨x, hx, hattr⟩ := (getattrs_some hg).2 i _ ht
      simp only [Core.inst, instAttrs_eq, List.map_cons, List.map_nil, hx, Option.getD_some]
      refine .node (fun _ => x) (.inr hsub) ?_ ?_
      · intro p hp
        simp only [List.mem_singleton] at hp
        subst hp
        exact hattr
      · intro p hp
        simp only [List.mem_singleton] at hp
        subst hp
        exact .same x
    · obtain ⟨c, as, rfl, hsub⟩ := hinst t (mem_of_get ht)
      obtain ⟨hkeys, hcores⟩ := aunifyAttrs_ok ha
      simp only [Core.inst, instAttrs_eq]
      refine .node (fun a => (as.lookup a).getD (.const .none)) (.inr hsub) ?_ ?_
      · intro p hp
        obtain ⟨q, hq, rfl⟩ := List.mem_map.1 hp
        obtain ⟨vals, n, n', as', hg, hf⟩ := hcores q hq
        obtain ⟨x, hx, hattr⟩ := (getattrs_some hg).2 i _ ht
        simp only [Ast.getattr] at hattr
        simp [hattr]
      · intro p hp
        obtain ⟨q, hq, rfl⟩ := List.mem_map.1 hp
        obtain ⟨vals, n, n', as', hg, hf⟩ := hcores q hq
        obtain ⟨x, hx, hattr⟩ := (getattrs_some hg).2 i _ ht
        simp only [Ast.getattr] at hattr
        simp only [hattr, Option.getD_some]
        exact C31_like hf i x hx

/-! ### Exactly -/

/-- `s` is a part of a tree. -/
inductive Part : Ast → Ast → Prop
  | refl (a : Ast) : Part a a
  | seq {s a : Ast} {l : List Ast} : a ∈ l → Part s a → Part s (.seq l)
  | node {s : Ast} {c : Str} {p : Str × Ast} {attrs : List (Str × Ast)} : p ∈ attrs → Part s p.2 → Part s (.node c attrs)

/-- Fragments in which constants that are equal for Python are the same, no class of a node is a proper subclass of
another one, and nodes have just the attributes that are compared. -/
structure Plain (L : Lang) (ts : List Ast) : Prop where
  consts : ∀ t ∈ ts, ∀ u ∈ ts, ∀ c d, Part (.const c) t → Part (.const d) u → c.pyEq d = true → c = d
  classes : ∀ t ∈ ts, ∀ u ∈ ts, ∀ c as d bs, Part (.node c as) t → Part (.node d bs) u → L.isSub c d = true → c = d
  attrs : ∀ t ∈ ts, ∀ c as, Part (.node c as) t → as.map Prod.fst = L.fields c

theorem Part.trans {a b c : Ast} (h : Part a b) (h' : Part b c) : Part a c := by
  induction h' with
  | refl => exact h
  | seq hm _ ih => exact .seq hm ih
  | node hm _ ih => exact .node hm ih

/-- Parts of plain fragments are plain. -/
theorem Plain.parts {L : Lang} {ts us : List Ast} (h : Plain L ts) (hp : ∀ u ∈ us, ∃ t ∈ ts, Part u t) : Plain L us := by
  refine ⟨?_, ?_, ?_⟩
  · intro t ht u hu c d hc hd
    obtain ⟨t', ht', hpt⟩ := hp t ht
    obtain ⟨u', hu', hpu⟩ := hp u hu
    exact h.consts t' ht' u' hu' c d (hc.trans hpt) (hd.trans hpu)
  · intro t ht u hu c as d bs hc hd
    obtain ⟨t', ht', hpt⟩ := hp t ht
    obtain ⟨u', hu', hpu⟩ := hp u hu
    exact h.classes t' ht' u' hu' c as d bs (hc.trans hpt) (hd.trans hpu)
  · intro t ht c as hc
    obtain ⟨t', ht', hpt⟩ := hp t ht
    exact h.attrs t' ht' c as (hc.trans hpt)

theorem lookup_mem {α : Type} {a : Str} {x : α} : ∀ {as : List (Str × α)}, as.lookup a = some x → (a, x) ∈ as
  | [], h => by simp at h
  | (b, y) :: as, h => by
    by_cases hab : a = b
    · subst hab
      rw [List.lookup_cons] at h
      simp only [BEq.rfl] at h
      cases h
      simp
    · rw [List.lookup_cons] at h
      have : (a == b) = false := by simpa using hab
      simp only [this] at h
      exact List.mem_cons_of_mem _ (lookup_mem h)

/-- A list of attributes with different names is determined by what is found for the names. -/
theorem attrs_ext {as bs : List (Str × Ast)} (hk : as.map Prod.fst = bs.map Prod.fst) (hnd : (as.map Prod.fst).Nodup)
    (h : ∀ p ∈ bs, as.lookup p.1 = some p.2) : bs = as := by
  have hsub : ∀ p ∈ bs, p ∈ as := fun p hp => lookup_mem (h p hp)
  have hlen : bs.length = as.length := by
    have := congrArg List.length hk
    simpa using this.symm
  apply List.ext_getElem hlen
  intro i h1 h2
  have hmem := hsub _ (List.getElem_mem h1)
  obtain ⟨j, hj, hjeq⟩ := List.getElem_of_mem hmem
  have hfst : (as.map Prod.fst)[j]'(by simpa using hj) = (as.map Prod.fst)[i]'(by simpa using h2) := by
    have h3 : (as.map Prod.fst)[i]'(by simpa using h2) = (bs.map Prod.fst)[i]'(by simpa using h1) := by
      simp only [hk]
    rw [h3]
    simp [hjeq]
  have hij : j = i := (List.getElem_inj hnd).1 hfst
  subst hij
  exact hjeq.symm

/-- C31 for plain fragments: the core with the values recorded for a fragment is the fragment. -/
theorem C31_exact_partial {L : Lang} {stop : StopOn} (hnd : ∀ c, (L.fields c).Nodup) (hname : ∀ c, isNameCls c = true →
      L.fields c = ["name".toList]) :
    ∀ {limit num num' : Nat} {ts : List Ast} {core : Core} {avars : List Avar},
    Plain L ts → aunify L stop limit num ts = .ok (core, avars, num') → ∀ (i : Nat) (t : Ast), ts[i]? = some t → core.inst i = t
  | 0, num, num', ts, core, avars, _, h => by simp [aunify] at h
  | limit + 1, num, num', ts, core, avars, hP, h => by
    intro i t ht
    have htm := mem_of_get ht
    rcases aunify_cases h with ⟨rfl, _, _⟩ | ⟨c, rfl, _, _, hhead, hc⟩ | ⟨l, ls, cores, rfl, hlen, rfl, he⟩ |
      ⟨cls, attrs, hhead, hinst, hcases⟩
    · simp only [Core.inst, ht, Option.getD_some]
    · obtain ⟨d, rfl, hd⟩ := hc t htm
      have := hP.consts _ htm _ (List.mem_of_head? hhead) d c (.refl _) (.refl _) hd
      rw [this, Core.inst]
    · rw [List.getElem?_map, Option.map_eq_some_iff] at ht
      obtain ⟨m, hm, rfl⟩ := ht
      obtain ⟨hcl, hcol⟩ := aunifyEach_ok he
      have hml := hlen m (mem_of_get hm)
      simp only [Core.inst, instAll_eq, Ast.seq.injEq]
      apply List.ext_getElem (by simp [hcl, columns, hml])
      intro k h1 h2
      rw [List.getElem_map]
      have hk : k < (columns l.length ls).length := by simpa [columns, ← hml] using h2
      obtain ⟨n, n', c', as, hc', hf⟩ := hcol k _ (List.getElem?_eq_getElem hk)
      have hck : cores[k]? = some (cores[k]'(by simpa using h1)) := List.getElem?_eq_getElem _
      rw [hck] at hc'
      cases hc'
      refine C31_exact_partial hnd hname ?_ hf i _ ?_
      · apply hP.parts
        intro u hu
        obtain ⟨j, hj, rfl⟩ := List.getElem_of_mem hu
        have hjl : j < ls.length := by simpa [columns] using hj
        have hget := (columns_get (List.getElem?_eq_getElem hk) (List.getElem?_eq_getElem hjl)).2
        rw [List.getElem?_eq_getElem hj] at hget
        have hkl : k < (ls[j]).length := by
          rw [hlen _ (List.getElem_mem hjl)]
          simpa [columns] using hk
        rw [List.getElem?_eq_getElem hkl] at hget
        simp only [Option.getD_some, Option.some.injEq] at hget
        rw [hget]
        exact ⟨.seq ls[j], List.mem_map_of_mem (List.getElem_mem hjl), .seq (List.getElem_mem hkl) (.refl _)⟩
      · rw [(columns_get (List.getElem?_eq_getElem hk) hm).2, List.getElem?_eq_getElem h2]
        rfl
    · obtain ⟨c, as, rfl, hsub⟩ := hinst t htm
      have hcc : c = cls := hP.classes _ htm _ (List.mem_of_head? hhead) c as cls attrs (.refl _) (.refl _) hsub
      subst hcc
      have hkeys := hP.attrs _ htm c as (.refl _)
      rcases hcases with ⟨hn, names, hg, rfl, _, _⟩ | ⟨hn, cores, rfl, ha⟩
      · obtain ⟨x, hx, hattr⟩ := (getattrs_some hg).2 i _ ht
        simp only [Core.inst, instAttrs_eq, List.map_cons, List.map_nil, hx, Option.getD_some, Ast.node.injEq, true_and]
        apply attrs_ext
        · rw [hkeys, hname c hn]; rfl
        · rw [hkeys]; exact hnd c
        · intro p hp
          simp only [List.mem_singleton] at hp
          subst hp
          exact hattr
      · obtain ⟨hck, hcores⟩ := aunifyAttrs_ok ha
        simp only [Core.inst, instAttrs_eq, Ast.node.injEq, true_and]
        apply attrs_ext
        · rw [hkeys, List.map_map, ← hck]; rfl
        · rw [hkeys]; exact hnd c
        · intro p hp
          obtain ⟨q, hq, rfl⟩ := List.mem_map.1 hp
          obtain ⟨vals, n, n', as', hg, hf⟩ := hcores q hq
          obtain ⟨x, hx, hattr⟩ := (getattrs_some hg).2 i _ ht
          simp only [Ast.getattr] at hattr
          rw [hattr, C31_exact_partial hnd hname ?_ hf i x hx]
          apply hP.parts
          intro u hu
          obtain ⟨j, hj, rfl⟩ := List.getElem_of_mem hu
          have hjl : j < ts.length := by rw [← (getattrs_some hg).1]; exact hj
          obtain ⟨y, hy, hya⟩ := (getattrs_some hg).2 j _ (List.getElem?_eq_getElem hjl)
          rw [List.getElem?_eq_getElem hj] at hy
          simp only [Option.some.injEq] at hy
          rw [hy]
          refine ⟨ts[j], List.getElem_mem hjl, ?_⟩
          obtain ⟨d, bs, hd, _⟩ := hinst _ (List.getElem_mem hjl)
          rw [hd] at hya ⊢
          exact .node (lookup_mem hya) (.refl _)

/-! ### Placeholders -/

/-- The placeholders that are returned are those of the core, in order, and are numbered one by one. -/
def Numbered (num num' : Nat) (holes : List Hole) (avars : List Avar) : Prop :=
  holes.map (fun h => (h.id, h.subs)) = avars ∧ num ≤ num' ∧ avars.map Prod.fst = List.range' (num + 1) (num' - num)

theorem Numbered.append {a b c : Nat} {hs hs' : List Hole} {as as' : List Avar} (h : Numbered a b hs as)
    (h' : Numbered b c hs' as') : Numbered a c (hs ++ hs') (as ++ as') := by
  obtain ⟨h1, h2, h3⟩ := h
  obtain ⟨h4, h5, h6⟩ := h'
  refine ⟨by rw [List.map_append, h1, h4], by omega, ?_⟩
  rw [List.map_append, h3, h6]
  have hb : b + 1 = a + 1 + 1 * (b - a) := by omega
  have hc : c - a = (b - a) + (c - b) := by omega
  rw [hb, hc, List.range'_append]

theorem numberedEach {f : Nat → List Ast → Result Core} (isName : Bool)
    (hf : ∀ {num num' : Nat} {ts : List Ast} {core : Core} {avars : List Avar}, f num ts = .ok (core, avars, num') →
      Numbered num num' (core.holes isName) avars) : ∀ {cols : List (List Ast)} {num num' : Nat} {cores : List Core}
    {avars : List Avar}, aunifyEach f num cols = .ok (cores, avars, num') →
      Numbered num num' (Core.holesAll isName cores) avars
  | [], num, num', cores, avars, h => by cases h; exact ⟨rfl, Nat.le_refl _, by simp⟩
  | col :: cols, num, num', cores, avars, h => by
    simp only [aunifyEach] at h
    cases hc : f num col with
    | error e => simp [hc] at h
    | ok r =>
      obtain ⟨c, as, n⟩ := r
      simp only [hc] at h
      cases hr : aunifyEach f n cols with
      | error e => simp [hr] at h
      | ok r =>
        obtain ⟨cs, as', n'⟩ := r
        simp only [hr] at h
        cases h
        exact (hf hc).append (numberedEach isName hf hr)

theorem numberedAttrs {f : Nat → List Ast → Result Core} {ts : List Ast} (isName : Bool)
    (hf : ∀ {num num' : Nat} {ts : List Ast} {core : Core} {avars : List Avar}, f num ts = .ok (core, avars, num') →
      Numbered num num' (core.holes isName) avars) : ∀ {attrs : List Str} {num num' : Nat}
    {cores : List (Str × Core)} {avars : List Avar}, aunifyAttrs f ts num attrs = .ok (cores, avars, num') →
      Numbered num num' (Core.holesAttrs isName cores) avars
  | [], num, num', cores, avars, h => by cases h; exact ⟨rfl, Nat.le_refl _, by simp⟩
  | attr :: attrs, num, num', cores, avars, h => by
    simp only [aunifyAttrs] at h
    cases hg : getattrs attr ts with
    | none => simp [hg] at h
    | some vals =>
      simp only [hg] at h
      cases hc : f num vals with
      | error e => simp [hc] at h
      | ok r =>
        obtain ⟨c, as, n⟩ := r
        simp only [hc] at h
        cases hr : aunifyAttrs f ts n attrs with
        | error e => simp [hr] at h
        | ok r =>
          obtain ⟨cs, as', n'⟩ := r
          simp only [hr] at h
          cases h
          exact (hf hc).append (numberedAttrs isName hf hr)

/-- The placeholders returned are exactly those in the core, in order, with different numbers. -/
theorem C31_placeholders {L : Lang} {stop : StopOn} : ∀ {limit num num' : Nat} {ts : List Ast} {core : Core}
    {avars : List Avar} (isName : Bool), aunify L stop limit num ts = .ok (core, avars, num') →
    Numbered num num' (core.holes isName) avars
  | 0, num, num', ts, core, avars, _, h => by simp [aunify] at h
  | limit + 1, num, num', ts, core, avars, isName, h => by
    rcases aunify_cases h with ⟨rfl, rfl, rfl⟩ | ⟨c, rfl, rfl, rfl, _, hc⟩ | ⟨l, ls, cores, rfl, hlen, rfl, he⟩ |
      ⟨cls, attrs, hhead, hinst, ⟨hn, names, hg, rfl, rfl, rfl⟩ | ⟨hn, cores, rfl, ha⟩⟩
    · exact ⟨rfl, by omega, by simp⟩
    · exact ⟨rfl, Nat.le_refl _, by simp⟩
    · exact numberedEach isName (fun h => C31_placeholders isName h) he
    · exact ⟨rfl, by omega, by simp⟩
    · exact numberedAttrs _ (fun h => C31_placeholders _ h) ha

/-! ### Variables -/

/-- Placeholders stand in variables for whole names, and nothing else stands there. -/
inductive Shaped : Core → Prop
  | const (c : Const) : Shaped (.const c)
  | avar (id : Nat) (subs : List Ast) : Shaped (.avar id subs)
  | seq {l : List Core} : (∀ c ∈ l, Shaped c) → Shaped (.seq l)
  | name {cls : Str} (id : Nat) (names : List Ast) : isNameCls cls = true →
    Shaped (.node cls [("name".toList, .avar id names)])
  | node {cls : Str} {attrs : List (Str × Core)} : isNameCls cls = false → (∀ p ∈ attrs, Shaped p.2) →
    Shaped (.node cls attrs)

theorem aunify_shaped {L : Lang} {stop : StopOn} : ∀ {limit num num' : Nat} {ts : List Ast} {core : Core}
    {avars : List Avar}, aunify L stop limit num ts = .ok (core, avars, num') → Shaped core
  | 0, num, num', ts, core, avars, h => by simp [aunify] at h
  | limit + 1, num, num', ts, core, avars, h => by
    rcases aunify_cases h with ⟨rfl, rfl, rfl⟩ | ⟨c, rfl, rfl, rfl, _, hc⟩ | ⟨l, ls, cores, rfl, hlen, rfl, he⟩ |
      ⟨cls, attrs, hhead, hinst, ⟨hn, names, hg, rfl, rfl, rfl⟩ | ⟨hn, cores, rfl, ha⟩⟩
    · exact .avar _ _
    · exact .const _
    · refine .seq ?_
      intro c hc
      obtain ⟨k, hk, rfl⟩ := List.getElem_of_mem hc
      obtain ⟨hcl, hcol⟩ := aunifyEach_ok he
      obtain ⟨n, n', c', as, hc', hf⟩ := hcol k _ (List.getElem?_eq_getElem (by rw [← hcl]; exact hk))
      rw [List.getElem?_eq_getElem hk] at hc'
      cases hc'
      exact aunify_shaped hf
    · exact .name _ _ hn
    · refine .node hn ?_
      intro p hp
      obtain ⟨vals, n, n', as, _, hf⟩ := (aunifyAttrs_ok ha).2 p hp
      exact aunify_shaped hf

theorem holesAll_eq (b : Bool) : ∀ (l : List Core), Core.holesAll b l = l.flatMap (Core.holes b)
  | [] => by simp [Core.holesAll]
  | c :: l => by simp [Core.holesAll, holesAll_eq b l]

theorem holesAttrs_eq (b : Bool) : ∀ (l : List (Str × Core)), Core.holesAttrs b l = l.flatMap fun p => p.2.holes b
  | [] => by simp [Core.holesAttrs]
  | (a, c) :: l => by simp [Core.holesAttrs, holesAttrs_eq b l]

theorem renameAll_eq (ids : List Nat) (b : Bool) : ∀ (l : List Core), Core.renameAll ids b l = l.map (Core.rename ids b)
  | [] => by simp [Core.renameAll]
  | c :: l => by simp [Core.renameAll, renameAll_eq ids b l]

theorem renameAttrs_eq (ids : List Nat) (b : Bool) :
    ∀ (l : List (Str × Core)), Core.renameAttrs ids b l = l.map fun p => (p.1, p.2.rename ids b)
  | [] => by simp [Core.renameAttrs]
  | (a, c) :: l => by simp [Core.renameAttrs, renameAttrs_eq ids b l]

mutual
/-- The tree with the name of each variable changed by `f`. -/
def Ast.mapNames (f : Ast → Ast) : Ast → Ast
  | .const c => .const c
  | .seq l => .seq (Ast.mapNamesAll f l)
  | .node cls attrs => .node cls (if isNameCls cls then attrs.map fun p => (p.1, f p.2) else Ast.mapNamesAttrs f attrs)

def Ast.mapNamesAll (f : Ast → Ast) : List Ast → List Ast
  | [] => []
  | a :: l => a.mapNames f :: Ast.mapNamesAll f l

def Ast.mapNamesAttrs (f : Ast → Ast) : List (Str × Ast) → List (Str × Ast)
  | [] => []
  | (k, a) :: l => (k, a.mapNames f) :: Ast.mapNamesAttrs f l
end

theorem mapNamesAll_eq (f : Ast → Ast) : ∀ (l : List Ast), Ast.mapNamesAll f l = l.map (Ast.mapNames f)
  | [] => by simp [Ast.mapNamesAll]
  | c :: l => by simp [Ast.mapNamesAll, mapNamesAll_eq f l]

theorem mapNamesAttrs_eq (f : Ast → Ast) :
    ∀ (l : List (Str × Ast)), Ast.mapNamesAttrs f l = l.map fun p => (p.1, p.2.mapNames f)
  | [] => by simp [Ast.mapNamesAttrs]
  | (a, c) :: l => by simp [Ast.mapNamesAttrs, mapNamesAttrs_eq f l]

/-- The tree with the names of variables forgotten. -/
def Ast.blur (a : Ast) : Ast := a.mapNames fun _ => .const .none

/-- Merging changes only names of variables. -/
theorem rename_blur (ids : List Nat) (i : Nat) {core : Core} (h : Shaped core) :
    ((core.rename ids false).inst i).blur = (core.inst i).blur := by
  induction h with
  | const c => simp [Core.rename]
  | avar id subs => simp [Core.rename]
  | seq _ ih =>
    simp only [Core.rename, renameAll_eq, Core.inst, instAll_eq, Ast.blur, Ast.mapNames, mapNamesAll_eq, List.map_map,
      Ast.seq.injEq]
    exact List.map_congr_left fun c hc => ih c hc
  | name id names hn =>
    simp [Core.rename, Core.renameAttrs, Core.inst, Core.instAttrs, Ast.blur, Ast.mapNames, hn]
  | node hn _ ih =>
    simp only [Core.rename, renameAttrs_eq, Core.inst, instAttrs_eq, Ast.blur, Ast.mapNames, hn, if_false,
      mapNamesAttrs_eq, List.map_map, Ast.node.injEq, true_and, Bool.false_eq_true]
    exact List.map_congr_left fun p hp => Prod.ext rfl (ih p hp)

/-- Merging changes nothing for a fragment in which the merged names are those of the first one. -/
theorem rename_inst (ids : List Nat) (i : Nat) {core : Core} (h : Shaped core)
    (hs : ∀ p ∈ core.holes false, p.isName = true → p.id ∈ ids → p.subs[i]? = p.subs[0]?) :
    (core.rename ids false).inst i = core.inst i := by
  induction h with
  | const c => simp [Core.rename]
  | avar id subs => simp [Core.rename]
  | seq _ ih =>
    simp only [Core.rename, renameAll_eq, Core.inst, instAll_eq, List.map_map, Ast.seq.injEq]
    refine List.map_congr_left fun c hc => ih c hc ?_
    intro p hp
    refine hs p ?_
    simp only [Core.holes, holesAll_eq]
    exact List.mem_flatMap.2 ⟨c, hc, hp⟩
  | name id names hn =>
    have := hs ⟨id, true, names⟩ (by simp [Core.holes, Core.holesAttrs, hn]) rfl
    simp only [Core.rename, Core.renameAttrs, Core.inst, Core.instAttrs, hn]
    by_cases hid : id ∈ ids
    · cases names with
      | nil => simp [hid, Core.inst]
      | cons x xs =>
        have h0 := this hid
        cases x with
        | const c => simp only [hid]; simp [Core.inst, h0]
        | seq _ => simp [hid, Core.inst]
        | node _ _ => simp [hid, Core.inst]
    · simp [hid, Core.inst]
  | node hn _ ih =>
    simp only [Core.rename, renameAttrs_eq, Core.inst, instAttrs_eq, hn, List.map_map, Ast.node.injEq, true_and]
    refine List.map_congr_left fun p hp => Prod.ext rfl (ih p hp ?_)
    intro q hq
    refine hs q ?_
    simp only [Core.holes, holesAttrs_eq, hn]
    exact List.mem_flatMap.2 ⟨p, hp, hq⟩

/-! ### Groups -/

theorem extendAt_mem {key : List Ast} {values : List Hole} : ∀ {d : List (List Ast × List Hole)} {g : List Ast × List Hole},
    g ∈ extendAt key values d → g ∈ d ∨ (g.1 = key ∧ ∀ h ∈ g.2, h ∈ values ∨ ∃ g' ∈ d, g'.1 = key ∧ h ∈ g'.2)
  | [], g, h => by simp only [extendAt, List.mem_singleton] at h; subst h; exact .inr ⟨rfl, fun h hh => .inl hh⟩
  | (k, vs) :: d, g, h => by
    simp only [extendAt] at h
    split at h
    · rename_i hk
      rcases List.mem_cons.1 h with rfl | h
      · refine .inr ⟨hk, ?_⟩
        intro x hx
        rcases List.mem_append.1 hx with hx | hx
        · exact .inr ⟨(k, vs), by simp, hk, hx⟩
        · exact .inl hx
      · exact .inl (List.mem_cons_of_mem _ h)
    · rcases List.mem_cons.1 h with rfl | h
      · exact .inl (by simp)
      · rcases extendAt_mem h with h | ⟨h1, h2⟩
        · exact .inl (List.mem_cons_of_mem _ h)
        · refine .inr ⟨h1, fun x hx => ?_⟩
          rcases h2 x hx with h2 | ⟨g', hg', h2⟩
          · exact .inl h2
          · exact .inr ⟨g', List.mem_cons_of_mem _ hg', h2⟩

/-- Placeholders are grouped by their values, and come from `hs`. -/
def Grouped (hs : List Hole) (groups : List (List Ast × List Hole)) : Prop := ∀ g ∈ groups, ∀ h ∈ g.2, h.subs = g.1 ∧ h ∈ hs

theorem Grouped.extend {hs : List Hole} {groups : List (List Ast × List Hole)} {key : List Ast} {values : List Hole}
    (h : Grouped hs groups) (hv : ∀ x ∈ values, x.subs = key ∧ x ∈ hs) : Grouped hs (extendAt key values groups) := by
  intro g hg x hx
  rcases extendAt_mem hg with hg | ⟨hk, hg⟩
  · exact h g hg x hx
  · rcases hg x hx with hx | ⟨g', hg', hk', hx⟩
    · exact ⟨(hv x hx).1.trans hk.symm, (hv x hx).2⟩
    · exact ⟨((h g' hg' x hx).1.trans hk').trans hk.symm, (h g' hg' x hx).2⟩

theorem step_grouped {consistent : Bool} {all : List Hole} {s s' : Merge} {h : Hole} (hh : h ∈ all)
    (hs : s.step consistent h = some s') (hg : Grouped all s.groups) (hf : Grouped all s.forced) :
    Grouped all s'.groups ∧ Grouped all s'.forced := by
  have key : ∀ {x}, x ∈ [h] → x.subs = h.subs ∧ x ∈ all := by
    intro x hx
    rw [List.mem_singleton] at hx
    subst hx
    exact ⟨rfl, hh⟩
  have key' : ∀ {c}, c = h.subs → ∀ {x}, x ∈ [h] → x.subs = c ∧ x ∈ all := fun e _ hx => e ▸ key hx
  have filt : ∀ (p : List Ast × List Hole → Bool), Grouped all (s.groups.filter p) :=
    fun p g hg' => hg g (List.mem_filter.1 hg').1
  unfold Merge.step at hs
  split at hs
  · cases hs; exact ⟨hg, hf⟩
  · split at hs
    · cases hs; exact ⟨hg, hf.extend fun x hx => key hx⟩
    · split at hs
      · cases hs
        refine ⟨?_, hf⟩
        show Grouped all (if _ then _ else _)
        split
        · exact hg.extend fun x hx => key hx
        · exact hg
      · split at hs
        · rename_i hc
          cases hs
          exact ⟨hg.extend fun x hx => key' hc.2.1 hx, hf⟩
        · split at hs
          · cases hs
          · cases hs; exact ⟨filt _, hf⟩
      · split at hs
        · cases hs
        · cases hs; exact ⟨filt _, hf⟩

theorem steps_grouped {consistent : Bool} {all : List Hole} : ∀ {hs : List Hole} {s s' : Merge}, (∀ h ∈ hs, h ∈ all) →
    Merge.steps consistent s hs = some s' → Grouped all s.groups → Grouped all s.forced →
    Grouped all s'.groups ∧ Grouped all s'.forced
  | [], s, s', _, h, hg, hf => by cases h; exact ⟨hg, hf⟩
  | x :: hs, s, s', hall, h, hg, hf => by
    simp only [Merge.steps] at h
    cases hx : s.step consistent x with
    | none => simp [hx] at h
    | some t =>
      simp only [hx] at h
      obtain ⟨h1, h2⟩ := step_grouped (hall x (by simp)) hx hg hf
      exact steps_grouped (fun y hy => hall y (List.mem_cons_of_mem _ hy)) h h1 h2

theorem foldl_grouped {all : List Hole} : ∀ {forced groups : List (List Ast × List Hole)}, Grouped all groups →
    Grouped all forced → Grouped all (forced.foldl (fun groups g => extendAt g.1 g.2 groups) groups)
  | [], groups, hg, _ => hg
  | g :: forced, groups, hg, hf => by
    rw [List.foldl_cons]
    exact foldl_grouped (hg.extend fun x hx => hf g (by simp) x hx) fun g' hg' => hf g' (List.mem_cons_of_mem _ hg')

theorem candidates_grouped {consistent : Bool} {hs : List Hole} {groups : List (List Ast × List Hole)}
    (h : mergeCandidates consistent hs = some groups) : Grouped hs groups := by
  unfold mergeCandidates at h
  rw [Option.map_eq_some_iff] at h
  obtain ⟨s, hs', rfl⟩ := h
  obtain ⟨h1, h2⟩ := steps_grouped (fun _ h => h) hs' (fun g hg => by simp at hg) (fun g hg => by simp at hg)
  exact foldl_grouped h1 h2

theorem inj_of_nodup_map {α β : Type} {f : α → β} : ∀ {l : List α}, (l.map f).Nodup → ∀ {x y : α}, x ∈ l → y ∈ l →
    f x = f y → x = y
  | [], _, x, _, hx, _, _ => by simp at hx
  | a :: l, h, x, y, hx, hy, he => by
    rw [List.map_cons, List.nodup_cons] at h
    rcases List.mem_cons.1 hx with rfl | hx'
    · rcases List.mem_cons.1 hy with rfl | hy
      · rfl
      · exact absurd (List.mem_map.2 ⟨y, hy, he.symm⟩) h.1
    · rcases List.mem_cons.1 hy with rfl | hy
      · exact absurd (List.mem_map.2 ⟨x, hx', he⟩) h.1
      · exact inj_of_nodup_map h.2 hx' hy he

/-- A merged placeholder has the same value in all fragments or is in a group that can be merged. -/
theorem mergedIds_mem {mergeable : List Hole → Bool} {hs : List Hole} {groups : List (List Ast × List Hole)}
    (hg : Grouped hs groups) (hnd : (hs.map Hole.id).Nodup) {p : Hole} (hp : p ∈ hs) (hid : p.id ∈ mergedIds mergeable groups) :
    allSame p.subs = true ∨ ∃ g, p ∈ g ∧ mergeable g = true := by
  unfold mergedIds at hid
  obtain ⟨g, hgm, hid⟩ := List.mem_flatMap.1 hid
  obtain ⟨q, hq, hqid⟩ := List.mem_map.1 hid
  obtain ⟨hgm, hc⟩ := List.mem_filter.1 hgm
  obtain ⟨hqs, hqm⟩ := hg g hgm q hq
  have hpq : q = p := inj_of_nodup_map hnd hqm hp hqid
  subst hpq
  rcases Bool.or_eq_true_iff.1 hc with hc | hc
  · exact .inl (hqs ▸ hc)
  · exact .inr ⟨g.2, hq, hc⟩

/-! ### The whole of anti-unification -/

/-- What a successful anti-unification consists of. -/
theorem antiunify_ok {L : Lang} {stop : StopOn} {stopAfter mergeable : List Hole → Bool} {consistent : Bool} {limit : Nat}
    {ts : List Ast} {core : Core} {hs : List Hole}
    (h : antiunify L stop stopAfter mergeable consistent limit ts = .ok (some (core, hs))) :
    ∃ (core₀ : Core) (avars : List Avar) (num : Nat) (groups : List (List Ast × List Hole)),
      aunify L stop limit 0 ts = .ok (core₀, avars, num) ∧ mergeCandidates consistent (core₀.holes false) = some groups ∧
      core = core₀.rename (mergedIds mergeable groups) false ∧ hs = core.holes false := by
  unfold antiunify at h
  cases ha : aunify L stop limit 0 ts with
  | error e => cases e <;> simp [ha] at h
  | ok r =>
    obtain ⟨core₀, avars, num⟩ := r
    simp only [ha] at h
    cases hm : mergeCandidates consistent (core₀.holes false) with
    | none => simp [hm] at h
    | some groups =>
      simp only [hm] at h
      split at h
      · cases h
      · simp only [Except.ok.injEq, Option.some.injEq, Prod.mk.injEq] at h
        obtain ⟨rfl, rfl⟩ := h
        exact ⟨core₀, avars, num, groups, rfl, hm, rfl, rfl⟩

theorem holes_nodup {L : Lang} {stop : StopOn} {limit num num' : Nat} {ts : List Ast} {core : Core} {avars : List Avar}
    {b : Bool} (h : aunify L stop limit num ts = .ok (core, avars, num')) : ((core.holes b).map Hole.id).Nodup := by
  obtain ⟨h1, _, h3⟩ := C31_placeholders b h
  have : (core.holes b).map Hole.id = avars.map Prod.fst := by
    rw [← h1, List.map_map]; rfl
  rw [this, h3]
  exact List.nodup_range'

/-- Names of variables are strings. -/
def Named (ts : List Ast) : Prop := ∀ t ∈ ts, ∀ (c : Str) (as : List (Str × Ast)) (x : Ast), Part (.node c as) t →
  isNameCls c = true → as.lookup "name".toList = some x → ∃ n, x = .const (.str n)

theorem Named.parts {ts us : List Ast} (h : Named ts) (hp : ∀ u ∈ us, ∃ t ∈ ts, Part u t) : Named us := by
  intro u hu c as x hc
  obtain ⟨t, ht, hpt⟩ := hp u hu
  exact h t ht c as x (hc.trans hpt)

theorem columns_parts {ls : List (List Ast)} {n k : Nat} {col : List Ast} (hlen : ∀ m ∈ ls, m.length = n)
    (hc : (columns n ls)[k]? = some col) : ∀ u ∈ col, ∃ t ∈ ls.map Ast.seq, Part u t := by
  intro u hu
  unfold columns at hc
  rw [List.getElem?_map, Option.map_eq_some_iff] at hc
  obtain ⟨j, hj, rfl⟩ := hc
  have hk : k < n := by simpa using (List.getElem?_eq_some_iff.1 hj).1
  rw [List.getElem?_range hk] at hj
  cases hj
  obtain ⟨l, hl, rfl⟩ := List.mem_map.1 hu
  have hkl : k < l.length := by rw [hlen l hl]; exact hk
  refine ⟨.seq l, List.mem_map_of_mem hl, ?_⟩
  rw [List.getElem?_eq_getElem hkl, Option.getD_some]
  exact .seq (List.getElem_mem hkl) (.refl _)

theorem getattrs_parts {attr : Str} {ts vals : List Ast} (h : getattrs attr ts = some vals)
    (hinst : ∀ t ∈ ts, ∃ c as, t = .node c as) : ∀ u ∈ vals, ∃ t ∈ ts, Part u t := by
  intro u hu
  obtain ⟨j, hj, rfl⟩ := List.getElem_of_mem hu
  have hjl : j < ts.length := by rw [← (getattrs_some h).1]; exact hj
  obtain ⟨y, hy, hya⟩ := (getattrs_some h).2 j _ (List.getElem?_eq_getElem hjl)
  rw [List.getElem?_eq_getElem hj] at hy
  simp only [Option.some.injEq] at hy
  rw [hy]
  refine ⟨ts[j], List.getElem_mem hjl, ?_⟩
  obtain ⟨d, bs, hd⟩ := hinst _ (List.getElem_mem hjl)
  rw [hd] at hya ⊢
  exact .node (lookup_mem hya) (.refl _)

/-- A placeholder has a value for each fragment; one for a name has names. -/
theorem aunify_holes {L : Lang} {stop : StopOn} : ∀ {limit num num' : Nat} {ts : List Ast} {core : Core}
    {avars : List Avar}, aunify L stop limit num ts = .ok (core, avars, num') → ∀ p ∈ core.holes false,
      p.subs.length = ts.length ∧ (p.isName = true → Named ts → ∃ n, p.subs.head? = some (.const (.str n)))
  | 0, num, num', ts, core, avars, h => by simp [aunify] at h
  | limit + 1, num, num', ts, core, avars, h => by
    intro p hp
    rcases aunify_cases h with ⟨rfl, rfl, rfl⟩ | ⟨c, rfl, rfl, rfl, _, hc⟩ | ⟨l, ls, cores, rfl, hlen, rfl, he⟩ |
      ⟨cls, attrs, hhead, hinst, ⟨hn, names, hg, rfl, rfl, rfl⟩ | ⟨hn, cores, rfl, ha⟩⟩
    · simp only [Core.holes, List.mem_singleton] at hp
      subst hp
      exact ⟨rfl, fun h => by cases h⟩
    · simp [Core.holes] at hp
    · simp only [Core.holes, holesAll_eq] at hp
      obtain ⟨c, hc, hp⟩ := List.mem_flatMap.1 hp
      obtain ⟨k, hk, rfl⟩ := List.getElem_of_mem hc
      obtain ⟨hcl, hcol⟩ := aunifyEach_ok he
      have hk' : k < (columns l.length ls).length := by rw [← hcl]; exact hk
      have hgk := List.getElem?_eq_getElem hk'
      obtain ⟨n, n', c', as, hc', hf⟩ := hcol k _ hgk
      rw [List.getElem?_eq_getElem hk] at hc'
      cases hc'
      obtain ⟨h1, h2⟩ := aunify_holes hf p hp
      refine ⟨by rw [h1]; simp [columns], fun hn hN => h2 hn (hN.parts (columns_parts hlen hgk))⟩
    · simp only [Core.holes, Core.holesAttrs, hn, List.append_nil, List.mem_singleton] at hp
      subst hp
      obtain ⟨hl, hv⟩ := getattrs_some hg
      refine ⟨hl, fun _ hN => ?_⟩
      rw [List.head?_eq_getElem?] at hhead
      obtain ⟨x, hx, hattr⟩ := hv 0 _ hhead
      obtain ⟨n, rfl⟩ := hN _ (mem_of_get hhead) cls attrs x (.refl _) hn hattr
      exact ⟨n, by rw [List.head?_eq_getElem?]; exact hx⟩
    · simp only [Core.holes, holesAttrs_eq, hn] at hp
      obtain ⟨q, hq, hp⟩ := List.mem_flatMap.1 hp
      obtain ⟨vals, n, n', as, hg, hf⟩ := (aunifyAttrs_ok ha).2 q hq
      obtain ⟨h1, h2⟩ := aunify_holes hf p hp
      refine ⟨by rw [h1, (getattrs_some hg).1], fun hn hN => h2 hn (hN.parts (getattrs_parts hg ?_))⟩
      intro t ht
      obtain ⟨c, as, h, _⟩ := hinst t ht
      exact ⟨c, as, h⟩

theorem allSame_get {subs : List Ast} (h : allSame subs = true) {i : Nat} (hi : i < subs.length) : subs[i]? = subs[0]? := by
  unfold allSame at h
  rw [List.all_eq_true] at h
  have := h subs[i] (List.getElem_mem hi)
  rw [List.getElem?_eq_getElem hi, ← List.head?_eq_getElem?]
  simpa using this

/-- C31: for plain fragments, the core reproduces the first fragment, and every other one too unless names that differ
are merged; in any case it reproduces all of every fragment but the names of its variables. -/
theorem C31_core_partial {L : Lang} {stop : StopOn} {stopAfter mergeable : List Hole → Bool} {consistent : Bool}
    {limit : Nat} {ts : List Ast} {core : Core} {hs : List Hole} (hnd : ∀ c, (L.fields c).Nodup)
    (hname : ∀ c, isNameCls c = true → L.fields c = ["name".toList]) (hP : Plain L ts)
    (h : antiunify L stop stopAfter mergeable consistent limit ts = .ok (some (core, hs))) (i : Nat) (t : Ast)
    (ht : ts[i]? = some t) :
    (core.inst i).blur = t.blur ∧ ((i = 0 ∨ ∀ g, mergeable g = false) → core.inst i = t) := by
  obtain ⟨core₀, avars, num, groups, ha, hm, rfl, rfl⟩ := antiunify_ok h
  have hex := C31_exact_partial hnd hname hP ha i t ht
  have hsh := aunify_shaped ha
  refine ⟨by rw [rename_blur _ _ hsh, hex], ?_⟩
  intro hi
  rw [rename_inst _ _ hsh, hex]
  intro p hp _ hid
  rcases hi with rfl | hi
  · rfl
  · rcases mergedIds_mem (candidates_grouped hm) (holes_nodup ha) hp hid with hall | ⟨g, _, hg⟩
    · exact allSame_get hall (by rw [(aunify_holes ha p hp).1]; exact (List.getElem?_eq_some_iff.1 ht).1)
    · rw [hi] at hg; cases hg

/-! ### Consistent names -/

/-- What holds of the placeholders seen by `get_merge_candidates` when names have to be consistent. -/
structure Consistent (seen : List Hole) (s : Merge) : Prop where
  same : ∀ p ∈ seen, ∀ q ∈ seen, ∀ (i : Nat) (v : Ast), p.subs[i]? = some v → q.subs[i]? = some v → p.subs = q.subs
  owned : ∀ p ∈ seen, ∀ (i : Nat) (v : Ast), p.subs[i]? = some v → s.owner.lookup (i, v) ≠ none
  keys : ∀ k ∈ s.groups.map Prod.fst, ∃ p ∈ seen, p.subs = k

theorem mem_indexed {subs : List Ast} {i : Nat} {v : Ast} : (i, v) ∈ indexed subs ↔ subs[i]? = some v := by
  unfold indexed
  rw [List.mem_map]
  constructor
  · rintro ⟨⟨a, k⟩, hm, he⟩
    cases he
    simpa using (List.mem_zipIdx_iff_getElem?.1 hm)
  · intro h
    exact ⟨(v, i), List.mem_zipIdx_iff_getElem?.2 h, rfl⟩

theorem lookup_append_ne {α β : Type} [BEq α] {k : α} : ∀ {a b : List (α × β)}, b.lookup k ≠ none → (a ++ b).lookup k ≠ none
  | [], b, h => h
  | (x, y) :: a, b, h => by
    rw [List.cons_append, List.lookup_cons]
    split
    · simp
    · exact lookup_append_ne h

theorem lookup_map_ne {subs : List Ast} {b : List ((Nat × Ast) × List Ast)} {k : Nat × Ast} : ∀ {l : List (Nat × Ast)},
    k ∈ l → (l.map (fun k => (k, subs)) ++ b).lookup k ≠ none
  | x :: l, h => by
    rw [List.map_cons, List.cons_append, List.lookup_cons]
    split
    · simp
    · rename_i hx
      rcases List.mem_cons.1 h with rfl | h
      · simp at hx
      · exact lookup_map_ne h

theorem extendAt_keys {key : List Ast} {values : List Hole} : ∀ {d : List (List Ast × List Hole)} {k : List Ast},
    k ∈ (extendAt key values d).map Prod.fst → k = key ∨ k ∈ d.map Prod.fst
  | [], k, h => by simp [extendAt] at h; exact .inl h
  | (x, vs) :: d, k, h => by
    simp only [extendAt] at h
    split at h
    · exact .inr (by simpa using h)
    · rw [List.map_cons, List.mem_cons] at h
      rcases h with h | h
      · exact .inr (by simp [h])
      · rcases extendAt_keys h with h | h
        · exact .inl h
        · exact .inr (List.mem_cons_of_mem _ h)

theorem canonicals_nil {owner : List ((Nat × Ast) × List Ast)} {h : Hole} (hn : h.isName = true)
    (hc : canonicals owner h = []) {i : Nat} {v : Ast} (hv : h.subs[i]? = some v) : owner.lookup (i, v) = none := by
  by_contra hne
  obtain ⟨k, hk⟩ := Option.ne_none_iff_exists'.1 hne
  have hmem : k ∈ canonicals owner h := by
    unfold canonicals
    simp only [hn, if_true, List.mem_eraseDups, List.mem_filterMap]
    exact ⟨(i, v), mem_indexed.2 hv, hk⟩
  rw [hc] at hmem
  simp at hmem

theorem step_consistent {s s' : Merge} {h : Hole} {seen : List Hole} (hs : s.step true h = some s')
    (hC : Consistent seen s) (hh : h.isName = true → ∃ n, h.subs.head? = some (.const (.str n))) :
    Consistent (if h.isName then h :: seen else seen) s' := by
  unfold Merge.step at hs
  split at hs
  · rename_i l _ hl
    cases hs
    by_cases hn : h.isName
    · obtain ⟨n, hn⟩ := hh hn
      rw [hl] at hn
      cases hn
    · simpa [hn] using hC
  · simp only [Bool.not_true, Bool.false_and, Bool.false_eq_true, if_false, if_true] at hs
    split at hs
    · rename_i hc
      cases hs
      by_cases hn : h.isName
      · simp only [hn, if_true]
        have fresh := fun (i : Nat) (v : Ast) => canonicals_nil (i := i) (v := v) hn hc
        refine ⟨?_, ?_, ?_⟩
        · intro p hp q hq i v hpv hqv
          rcases List.mem_cons.1 hp with rfl | hp'
          · rcases List.mem_cons.1 hq with rfl | hq
            · rfl
            · exact absurd (fresh i v hpv) (hC.owned q hq i v hqv)
          · rcases List.mem_cons.1 hq with rfl | hq
            · exact absurd (fresh i v hqv) (hC.owned p hp' i v hpv)
            · exact hC.same p hp' q hq i v hpv hqv
        · intro p hp i v hpv
          rcases List.mem_cons.1 hp with rfl | hp
          · exact lookup_map_ne (mem_indexed.2 hpv)
          · exact lookup_append_ne (hC.owned p hp i v hpv)
        · intro k hk
          rcases extendAt_keys hk with rfl | hk
          · exact ⟨h, by simp, rfl⟩
          · obtain ⟨p, hp, h⟩ := hC.keys k hk
            exact ⟨p, List.mem_cons_of_mem _ hp, h⟩
      · simp only [hn, if_false, Bool.false_eq_true]
        exact ⟨hC.same, fun p hp i v hpv => lookup_append_ne (hC.owned p hp i v hpv), hC.keys⟩
    · split at hs
      · rename_i hc
        cases hs
        obtain ⟨hn, hcanon, hmem⟩ := hc
        simp only [hn, if_true]
        obtain ⟨r, hr, hrs⟩ := hC.keys _ hmem
        rw [hcanon] at hrs
        refine ⟨?_, ?_, ?_⟩
        · intro p hp q hq i v hpv hqv
          rcases List.mem_cons.1 hp with rfl | hp'
          · rcases List.mem_cons.1 hq with rfl | hq
            · rfl
            · rw [← hrs] at hpv ⊢
              exact hC.same r hr q hq i v hpv hqv
          · rcases List.mem_cons.1 hq with rfl | hq
            · rw [← hrs] at hqv ⊢
              exact hC.same p hp' r hr i v hpv hqv
            · exact hC.same p hp' q hq i v hpv hqv
        · intro p hp i v hpv
          rcases List.mem_cons.1 hp with rfl | hp
          · rw [← hrs] at hpv
            exact hC.owned r hr i v hpv
          · exact hC.owned p hp i v hpv
        · intro k hk
          rcases extendAt_keys hk with rfl | hk
          · exact ⟨h, by simp, hcanon.symm⟩
          · obtain ⟨p, hp, h⟩ := hC.keys k hk
            exact ⟨p, List.mem_cons_of_mem _ hp, h⟩
      · cases hs
    · cases hs

theorem steps_consistent : ∀ {hs : List Hole} {s s' : Merge} {seen : List Hole}, Merge.steps true s hs = some s' →
    Consistent seen s → (∀ h ∈ hs, h.isName = true → ∃ n, h.subs.head? = some (.const (.str n))) →
    ∃ seen', (∀ h ∈ hs, h.isName = true → h ∈ seen') ∧ (∀ h ∈ seen, h ∈ seen') ∧ Consistent seen' s'
  | [], s, s', seen, h, hC, _ => by cases h; exact ⟨seen, by simp, fun _ h => h, hC⟩
  | x :: hs, s, s', seen, h, hC, hh => by
    simp only [Merge.steps] at h
    cases hx : s.step true x with
    | none => simp [hx] at h
    | some t =>
      simp only [hx] at h
      obtain ⟨seen', h1, h2, h3⟩ := steps_consistent h (step_consistent hx hC (hh x (by simp)))
        fun y hy => hh y (List.mem_cons_of_mem _ hy)
      refine ⟨seen', ?_, ?_, h3⟩
      · intro y hy hn
        rcases List.mem_cons.1 hy with rfl | hy
        · exact h2 y (by simp [hn])
        · exact h1 y hy hn
      · intro y hy
        refine h2 y ?_
        split
        · exact List.mem_cons_of_mem _ hy
        · exact hy

theorem candidates_consistent {hs : List Hole} {groups : List (List Ast × List Hole)}
    (h : mergeCandidates true hs = some groups) (hh : ∀ h ∈ hs, h.isName = true → ∃ n, h.subs.head? = some (.const (.str n))) :
    ∀ p ∈ hs, ∀ q ∈ hs, p.isName = true → q.isName = true → ∀ (i : Nat) (v : Ast), p.subs[i]? = some v → q.subs[i]? = some v →
      p.subs = q.subs := by
  unfold mergeCandidates at h
  rw [Option.map_eq_some_iff] at h
  obtain ⟨s, hs', rfl⟩ := h
  obtain ⟨seen, h1, _, hC⟩ := steps_consistent (seen := []) hs' ⟨by simp, by simp, by simp⟩ hh
  intro p hp q hq hpn hqn
  exact hC.same p (h1 p hp hpn) q (h1 q hq hqn)

/-- The part for another fragment is got by changing names. -/
theorem inst_mapNames {i j : Nat} {ρ : Ast → Ast} {core : Core} (h : Shaped core)
    (hs : ∀ p ∈ core.holes false, p.isName = true ∧ ρ ((p.subs[i]?).getD (.const .none)) = (p.subs[j]?).getD (.const .none)) :
    (core.inst i).mapNames ρ = core.inst j := by
  induction h with
  | const c => simp [Core.inst, Ast.mapNames]
  | avar id subs =>
    have := (hs ⟨id, false, subs⟩ (by simp [Core.holes])).1
    cases this
  | seq _ ih =>
    simp only [Core.inst, instAll_eq, Ast.mapNames, mapNamesAll_eq, List.map_map, Ast.seq.injEq]
    refine List.map_congr_left fun c hc => ih c hc ?_
    intro p hp
    refine hs p ?_
    simp only [Core.holes, holesAll_eq]
    exact List.mem_flatMap.2 ⟨c, hc, hp⟩
  | name id names hn =>
    have := (hs ⟨id, true, names⟩ (by simp [Core.holes, Core.holesAttrs, hn])).2
    simp [Core.inst, Core.instAttrs, Ast.mapNames, hn, this]
  | node hn _ ih =>
    simp only [Core.inst, instAttrs_eq, Ast.mapNames, hn, mapNamesAttrs_eq, Bool.false_eq_true, if_false, List.map_map,
      Ast.node.injEq, true_and]
    refine List.map_congr_left fun p hp => Prod.ext rfl (ih p hp ?_)
    intro q hq
    refine hs q ?_
    simp only [Core.holes, holesAttrs_eq, hn]
    exact List.mem_flatMap.2 ⟨p, hp, hq⟩

/-- Only placeholders for names are merged. -/
theorem holes_rename {ids : List Nat} {core : Core} (h : Shaped core) : ∀ p ∈ core.holes false, p.isName = false →
    p ∈ (core.rename ids false).holes false := by
  induction h with
  | const c => simp [Core.holes]
  | avar id subs => simp [Core.holes, Core.rename]
  | seq _ ih =>
    intro p hp hn
    simp only [Core.rename, renameAll_eq, Core.holes, holesAll_eq] at hp ⊢
    obtain ⟨c, hc, hp⟩ := List.mem_flatMap.1 hp
    exact List.mem_flatMap.2 ⟨c.rename ids false, List.mem_map_of_mem hc, ih c hc p hp hn⟩
  | name id names hn =>
    intro p hp hpn
    simp only [Core.holes, Core.holesAttrs, hn, List.append_nil, List.mem_singleton] at hp
    subst hp
    cases hpn
  | node hn _ ih =>
    intro p hp hpn
    simp only [Core.rename, renameAttrs_eq, Core.holes, holesAttrs_eq, hn] at hp ⊢
    obtain ⟨q, hq, hp⟩ := List.mem_flatMap.1 hp
    exact List.mem_flatMap.2 ⟨(q.1, q.2.rename ids false), List.mem_map.2 ⟨q, hq, rfl⟩, ih q hq p hp hpn⟩

/-- The name in fragment `j` for a name in fragment `i`. -/
def otherName (hs : List Hole) (i j : Nat) (x : Ast) : Ast :=
  match hs.find? fun p => p.isName && decide (p.subs[i]? = some x) with
  | some p => (p.subs[j]?).getD (.const .none)
  | none => x

/-- C61: when names have to be consistent and no placeholder but those for names is left, each fragment is each other one
with its variables renamed: a variable has the same other name wherever it occurs. -/
theorem C61_renaming_partial {L : Lang} {stop : StopOn} {stopAfter mergeable : List Hole → Bool} {limit : Nat}
    {ts : List Ast} {core : Core} {hs : List Hole} (hnd : ∀ c, (L.fields c).Nodup)
    (hname : ∀ c, isNameCls c = true → L.fields c = ["name".toList]) (hP : Plain L ts) (hN : Named ts)
    (h : antiunify L stop stopAfter mergeable true limit ts = .ok (some (core, hs))) (hleft : ∀ p ∈ hs, p.isName = true) (i j : Nat) (t u : Ast)
    (ht : ts[i]? = some t) (hu : ts[j]? = some u) : ∃ ρ : Ast → Ast, t.mapNames ρ = u := by
  obtain ⟨core₀, avars, num, groups, ha, hm, rfl, hhs⟩ := antiunify_ok h
  have hsh := aunify_shaped ha
  have hc := candidates_consistent hm fun p hp hn => (aunify_holes ha p hp).2 hn hN
  refine ⟨otherName (core₀.holes false) i j, ?_⟩
  rw [← C31_exact_partial hnd hname hP ha i t ht, ← C31_exact_partial hnd hname hP ha j u hu]
  apply inst_mapNames hsh
  intro p hp
  have hpn : p.isName = true := by
    cases hn : p.isName with
    | true => rfl
    | false =>
      have := holes_rename (ids := mergedIds mergeable groups) hsh p hp hn
      rw [← hhs] at this
      rw [hleft p this] at hn
      cases hn
  refine ⟨hpn, ?_⟩
  have hi : i < p.subs.length := by rw [(aunify_holes ha p hp).1]; exact (List.getElem?_eq_some_iff.1 ht).1
  have hpi := List.getElem?_eq_getElem hi
  rw [hpi, Option.getD_some]
  unfold otherName
  cases hf : (core₀.holes false).find? fun q => q.isName && decide (q.subs[i]? = some p.subs[i]) with
  | none =>
    have := List.find?_eq_none.1 hf p hp
    simp [hpn] at this
  | some q =>
    have hq := List.mem_of_find?_eq_some hf
    have hqp := List.find?_some hf
    simp only [Bool.and_eq_true, decide_eq_true_eq] at hqp
    have := hc p hp q hq hpn hqp.1 i _ hpi hqp.2
    simp only [this]

/-! ### Examples and counterexamples -/

def exLang : Lang where
  fields := fun c =>
    if isNameCls c then ["name".toList]
    else if c = "Const".toList then ["value".toList]
    else if c = "Assign".toList then ["targets".toList, "value".toList]
    else if c = "Call".toList then ["func".toList, "args".toList]
    else if c = "FormattedValue".toList then ["value".toList]
    else if c = "For".toList ∨ c = "AsyncFor".toList then ["body".toList]
    else []
  isSub := fun c d => decide (c = d ∨ (c = "AsyncFor".toList ∧ d = "For".toList))

def exName (n : String) : Ast := .node "Name".toList [("name".toList, .const (.str n.toList))]

def exConst (c : Const) : Ast := .node "Const".toList [("value".toList, .const c)]

def exAssign (n : String) (v : Ast) : Ast :=
  .node "Assign".toList [("targets".toList, .seq [.node "AssignName".toList [("name".toList, .const (.str n.toList))]]),
    ("value".toList, v)]

def exCall (f : String) (args : List Ast) : Ast :=
  .node "Call".toList [("func".toList, exName f), ("args".toList, .seq args)]

/-- `x = f(1)` and `y = f(2)` -/
def exPair : List Ast := [exAssign "x" (exCall "f" [exConst (.int 1)]), exAssign "y" (exCall "f" [exConst (.int 2)])]

theorem exLang_fields (c : Str) : (exLang.fields c).Nodup := by
  show (if isNameCls c then ["name".toList] else if _ then ["value".toList] else
    if _ then ["targets".toList, "value".toList] else if _ then ["func".toList, "args".toList] else
    if _ then ["value".toList] else if _ then ["body".toList] else []).Nodup
  split
  · decide
  split
  · decide
  split
  · decide
  split
  · decide
  split
  · decide
  split
  · decide
  · exact List.nodup_nil

theorem exLang_name (c : Str) (h : isNameCls c = true) : exLang.fields c = ["name".toList] := by
  show (if isNameCls c then ["name".toList] else _) = _
  rw [if_pos h]

/-- The core and the placeholders of the core, by number. -/
def exRun (mergeable : Bool) (consistent : Bool) (ts : List Ast) : Option (List Ast × List (Nat × Bool × List Ast)) :=
  match antiunify exLang (fun _ _ => false) (fun _ => false) (fun _ => mergeable) consistent 20 ts with
  | .error _ => none
  | .ok none => none
  | .ok (some (core, hs)) => some ([core.inst 0, core.inst 1], hs.map fun h => (h.id, h.isName, h.subs))

theorem exRun_some {mergeable consistent : Bool} {ts : List Ast} {a b : Ast} {l : List (Nat × Bool × List Ast)}
    (h : exRun mergeable consistent ts = some ([a, b], l)) :
    ∃ core hs, antiunify exLang (fun _ _ => false) (fun _ => false) (fun _ => mergeable) consistent 20 ts =
      .ok (some (core, hs)) ∧ core.inst 0 = a ∧ core.inst 1 = b ∧ hs.length = l.length := by
  unfold exRun at h
  cases ha : antiunify exLang (fun _ _ => false) (fun _ => false) (fun _ => mergeable) consistent 20 ts with
  | error e => simp [ha] at h
  | ok r =>
    cases r with
    | none => simp [ha] at h
    | some r =>
      obtain ⟨core, hs⟩ := r
      simp only [ha, Option.some.injEq, Prod.mk.injEq, List.cons.injEq, and_true] at h
      obtain ⟨⟨h1, h2⟩, h3⟩ := h
      refine ⟨core, hs, rfl, h1, h2, ?_⟩
      rw [← h3, List.length_map]

/-- Fragments that a core does not reproduce. -/
def NotReproduced (mergeable : List Hole → Bool) (t u : Ast) : Prop :=
  ∃ core, antiunify exLang (fun _ _ => false) (fun _ => false) mergeable false 20 [t, u] = .ok (some (core, [])) ∧
    (core.inst 0 ≠ t ∨ core.inst 1 ≠ u)

theorem exRun_not {mergeable : Bool} {t u a : Ast} (hne : a ≠ u) (h : exRun mergeable false [t, u] = some ([a, a], [])) :
    NotReproduced (fun _ => mergeable) t u := by
  obtain ⟨core, hs, h1, _, h3, h4⟩ := exRun_some h
  have : hs = [] := List.eq_nil_of_length_eq_zero h4
  subst this
  exact ⟨core, h1, .inr (by rw [h3]; exact hne)⟩

/-- Both are reproduced; the call of `f` has no placeholder, since the name is the same. -/
example : exRun false false exPair = some (exPair,
    [(1, true, [.const (.str "x".toList), .const (.str "y".toList)]), (3, false, [.const (.int 1), .const (.int 2)])]) := by
  decide +kernel

/-- With the names merged, the second one has the names of the first one. -/
example : exRun true false exPair = some ([exAssign "x" (exCall "f" [exConst (.int 1)]),
    exAssign "x" (exCall "f" [exConst (.int 2)])], [(3, false, [.const (.int 1), .const (.int 2)])]) := by
  decide +kernel

/-- Names that are not consistent are told apart: `x = f(x)` and `y = f(x)`. -/
example : exRun true true [exAssign "x" (exCall "f" [exName "x"]), exAssign "y" (exCall "f" [exName "x"])] = none := by
  decide +kernel

/-- Names that are: `x = f(x)` and `y = f(y)`. -/
example : exRun true true [exAssign "x" (exCall "f" [exName "x"]), exAssign "y" (exCall "f" [exName "y"])] =
    some ([exAssign "x" (exCall "f" [exName "x"]), exAssign "x" (exCall "f" [exName "x"])], []) := by
  decide +kernel

example : (exAssign "x" (exCall "f" [exName "x"])).mapNames (fun a => if a = .const (.str "x".toList) then .const (.str "y".toList)
    else a) = exAssign "y" (exCall "f" [exName "y"]) := by decide +kernel

/-- C31 is false of constants that are equal for Python: `1` and `True` have a core without placeholders. -/
theorem C31_constant_counterexample : NotReproduced (fun _ => false) (exConst (.int 1)) (exConst (.bool true)) :=
  exRun_not (a := exConst (.int 1)) (by decide +kernel) (by decide +kernel)

/-- C31 is false of attributes that are not compared, such as the conversion in an f-string: `{x!r}` and `{x!s}` have a
core without a conversion. -/
theorem C31_attribute_counterexample : NotReproduced (fun _ => false)
    (.node "FormattedValue".toList [("value".toList, exName "x"), ("conversion".toList, .const (.int 114))])
    (.node "FormattedValue".toList [("value".toList, exName "x"), ("conversion".toList, .const (.int 115))]) :=
  exRun_not (a := .node "FormattedValue".toList [("value".toList, exName "x")]) (by decide +kernel) (by decide +kernel)

/-- C31 is false of subclasses: `for` and `async for` have a core that is a `for`. -/
theorem C31_subclass_counterexample : NotReproduced (fun _ => false)
    (.node "For".toList [("body".toList, .seq [])]) (.node "AsyncFor".toList [("body".toList, .seq [])]) :=
  exRun_not (a := .node "For".toList [("body".toList, .seq [])]) (by decide +kernel) (by decide +kernel)

/-- C31 is false of merged names: `x = 1` and `y = 1`. -/
theorem C31_merged_counterexample : NotReproduced (fun _ => true) (exAssign "x" (exConst (.int 1)))
    (exAssign "y" (exConst (.int 1))) :=
  exRun_not (a := exAssign "x" (exConst (.int 1))) (by decide +kernel) (by decide +kernel)

def Ast.nth (a : Ast) (k : Nat) : Ast :=
  match a with
  | .const c => .const c
  | .seq l => (l[k]?).getD (.const .none)
  | .node _ attrs => ((attrs[k]?).map Prod.snd).getD (.const .none)

def exFst : Ast :=
  .seq [exAssign "x" (exCall "f" []), exAssign "y" (exCall "g" [exName "x"]), exCall "h" [exName "x", exName "y"]]

def exSnd : Ast :=
  .seq [exAssign "x" (exCall "f" []), exAssign "x" (exCall "g" [exName "x"]), exCall "h" [exName "x", exName "x"]]

/-- Where names need not be consistent, there can be no placeholders although neither is the other one with its variables
renamed: `[x = f(), y = g(x), h(x, y)]` and `[x = f(), x = g(x), h(x, x)]`. -/
theorem C61_inconsistent_counterexample :
    (∃ core, antiunify exLang (fun _ _ => false) (fun _ => false) (fun _ => true) false 20 [exFst, exSnd] =
      .ok (some (core, []))) ∧
    ∀ ρ : Ast → Ast, exSnd.mapNames ρ ≠ exFst := by
  constructor
  · obtain ⟨core, hs, h1, _, _, h4⟩ := exRun_some (mergeable := true) (consistent := false) (l := [])
      (a := exFst) (b := exFst) (ts := [exFst, exSnd]) (by decide +kernel)
    have : hs = [] := List.eq_nil_of_length_eq_zero h4
    subst this
    exact ⟨core, h1⟩
  · intro ρ h
    have h1 : ρ (.const (.str "x".toList)) = .const (.str "x".toList) :=
      congrArg (fun a => (((a.nth 2).nth 1).nth 0).nth 0) h
    have h2 : ρ (.const (.str "x".toList)) = .const (.str "y".toList) :=
      congrArg (fun a => (((a.nth 2).nth 1).nth 1).nth 0) h
    rw [h1] at h2
    exact absurd h2 (by decide +kernel)

/-- Where names have to be consistent, there is no core. -/
example : exRun true true [exFst, exSnd] = none := by decide +kernel

/-! The hypotheses of the theorems hold of the examples. -/

mutual
def Ast.parts : Ast → List Ast
  | .const c => [.const c]
  | .seq l => .seq l :: Ast.partsAll l
  | .node cls attrs => .node cls attrs :: Ast.partsAttrs attrs

def Ast.partsAll : List Ast → List Ast
  | [] => []
  | a :: l => a.parts ++ Ast.partsAll l

def Ast.partsAttrs : List (Str × Ast) → List Ast
  | [] => []
  | (_, a) :: l => a.parts ++ Ast.partsAttrs l
end

theorem partsAll_eq : ∀ (l : List Ast), Ast.partsAll l = l.flatMap Ast.parts
  | [] => by simp [Ast.partsAll]
  | c :: l => by simp [Ast.partsAll, partsAll_eq l]

theorem partsAttrs_eq : ∀ (l : List (Str × Ast)), Ast.partsAttrs l = l.flatMap fun p => p.2.parts
  | [] => by simp [Ast.partsAttrs]
  | (a, c) :: l => by simp [Ast.partsAttrs, partsAttrs_eq l]

theorem Part.mem {s t : Ast} (h : Part s t) : s ∈ t.parts := by
  induction h with
  | refl => cases s <;> simp [Ast.parts]
  | seq hm _ ih =>
    simp only [Ast.parts, partsAll_eq]
    exact List.mem_cons_of_mem _ (List.mem_flatMap.2 ⟨_, hm, ih⟩)
  | node hm _ ih =>
    simp only [Ast.parts, partsAttrs_eq]
    exact List.mem_cons_of_mem _ (List.mem_flatMap.2 ⟨_, hm, ih⟩)

def compatible (L : Lang) : Ast → Ast → Bool
  | .const c, .const d => !c.pyEq d || decide (c = d)
  | .node c _, .node d _ => !L.isSub c d || decide (c = d)
  | _, _ => true

def wellFormed (L : Lang) : Ast → Bool
  | .node c as => decide (as.map Prod.fst = L.fields c) &&
    (!isNameCls c || match as.lookup "name".toList with
      | none | some (.const (.str _)) => true
      | _ => false)
  | _ => true

def plainCheck (L : Lang) (ts : List Ast) : Bool :=
  (ts.flatMap Ast.parts).all fun p => wellFormed L p && (ts.flatMap Ast.parts).all fun q => compatible L p q

theorem plainCheck_ok {L : Lang} {ts : List Ast} (h : plainCheck L ts = true) : Plain L ts ∧ Named ts := by
  unfold plainCheck at h
  simp only [List.all_eq_true, Bool.and_eq_true, List.mem_flatMap] at h
  refine ⟨⟨?_, ?_, ?_⟩, ?_⟩
  · intro t ht u hu c d hc hd he
    have := (h _ ⟨t, ht, hc.mem⟩).2 _ ⟨u, hu, hd.mem⟩
    simpa [compatible, he] using this
  · intro t ht u hu c as d bs hc hd he
    have := (h _ ⟨t, ht, hc.mem⟩).2 _ ⟨u, hu, hd.mem⟩
    simpa [compatible, he] using this
  · intro t ht c as hc
    have := (h _ ⟨t, ht, hc.mem⟩).1
    simp only [wellFormed, Bool.and_eq_true, decide_eq_true_eq] at this
    exact this.1
  · intro t ht c as x hc hn hl
    have := (h _ ⟨t, ht, hc.mem⟩).1
    simp only [wellFormed, Bool.and_eq_true, hn, Bool.not_true, Bool.false_or, hl] at this
    cases x with
    | const k =>
      cases k with
      | str n => exact ⟨n, rfl⟩
      | none => simp at this
      | bool _ => simp at this
      | int _ => simp at this
      | other _ => simp at this
    | seq _ => simp at this
    | node _ _ => simp at this

/-- `x = f(x)` and `y = f(y)` -/
def exSame : List Ast := [exAssign "x" (exCall "f" [exName "x"]), exAssign "y" (exCall "f" [exName "y"])]

example : Plain exLang exPair ∧ Plain exLang exSame ∧ Named exSame :=
  ⟨(plainCheck_ok (by decide +kernel)).1, plainCheck_ok (by decide +kernel)⟩

example : ∃ core hs, antiunify exLang (fun _ _ => false) (fun _ => false) (fun _ => true) false 20 exPair = .ok (some (core, hs)) ∧
    (core.inst 1).blur = (exAssign "y" (exCall "f" [exConst (.int 2)])).blur := by
  obtain ⟨core, hs, h, _⟩ := exRun_some (mergeable := true) (consistent := false) (ts := exPair)
    (a := exAssign "x" (exCall "f" [exConst (.int 1)])) (b := exAssign "x" (exCall "f" [exConst (.int 2)]))
    (l := [(3, false, [.const (.int 1), .const (.int 2)])]) (by decide +kernel)
  exact ⟨core, hs, h, (C31_core_partial exLang_fields exLang_name (plainCheck_ok (by decide +kernel)).1 h 1 _ rfl).1⟩

example : ∃ ρ : Ast → Ast, (exAssign "x" (exCall "f" [exName "x"])).mapNames ρ = exAssign "y" (exCall "f" [exName "y"]) := by
  obtain ⟨core, hs, h, _, _, h4⟩ := exRun_some (mergeable := true) (consistent := true) (ts := exSame)
    (a := exAssign "x" (exCall "f" [exName "x"])) (b := exAssign "x" (exCall "f" [exName "x"])) (l := []) (by decide +kernel)
  have : hs = [] := List.eq_nil_of_length_eq_zero h4
  subst this
  obtain ⟨hP, hN⟩ := plainCheck_ok (L := exLang) (ts := exSame) (by decide +kernel)
  exact C61_renaming_partial exLang_fields exLang_name hP hN h (by simp) 0 1 _ _ rfl rfl

end Verif.Aunify

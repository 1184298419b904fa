import Verif.Props.Antiunify

/-!
C132: code that differs in the names of variables and in constants is recognized where names have to be consistent.
-/

namespace Verif.Aunify

/-- What fragments have in common: values that are the same, constants, of which the `i`-th fragment has `k i`, and variables. -/
inductive Template where
  | same (c : Const)
  | const (k : Nat → Const)
  | seq (l : List Template)
  | node (cls : Str) (attrs : List (Str × Template))
  | var (cls : Str) (x : Str)

mutual
/-- The fragment with number `i`, in which the variable `x` is named `ρ x`. -/
def Template.inst (ρ : Str → Str) (i : Nat) : Template → Ast
  | .same c => .const c
  | .const k => .const (k i)
  | .seq l => .seq (Template.instAll ρ i l)
  | .node cls attrs => .node cls (Template.instAttrs ρ i attrs)
  | .var cls x => .node cls [("name".toList, .const (.str (ρ x)))]

def Template.instAll (ρ : Str → Str) (i : Nat) : List Template → List Ast
  | [] => []
  | t :: l => t.inst ρ i :: Template.instAll ρ i l

def Template.instAttrs (ρ : Str → Str) (i : Nat) : List (Str × Template) → List (Str × Ast)
  | [] => []
  | (a, t) :: l => (a, t.inst ρ i) :: Template.instAttrs ρ i l
end

/-- Nodes have the attributes of their classes, and just variables are of the classes of variables. -/
inductive Template.WF (L : Lang) : Template → Prop
  | same (c : Const) : WF L (.same c)
  | const (k : Nat → Const) : WF L (.const k)
  | seq {l : List Template} : (∀ t ∈ l, WF L t) → WF L (.seq l)
  | node {cls : Str} {attrs : List (Str × Template)} : isNameCls cls = false → attrs.map Prod.fst = L.fields cls → (∀ p ∈ attrs, WF L p.2) →
      WF L (.node cls attrs)
  | var {cls : Str} (x : Str) : isNameCls cls = true → WF L (.var cls x)

/-- The type of a constant; nothing is known of other ones. -/
def Const.ty : Const → Nat
  | .none => 0
  | .bool _ => 1
  | .int _ => 2
  | .str _ => 3
  | .other k => k + 4

/-- No constant that differs is a string, and constants for which there is one in the other fragment are of the same type. -/
inductive Template.NoStr : Template → Prop
  | same (c : Const) : NoStr (.same c)
  | const {k : Nat → Const} : (∀ i s, k i ≠ .str s) → (∀ i j, (k i).ty = (k j).ty) → NoStr (.const k)
  | seq {l : List Template} : (∀ t ∈ l, NoStr t) → NoStr (.seq l)
  | node {cls : Str} {attrs : List (Str × Template)} : (∀ p ∈ attrs, NoStr p.2) → NoStr (.node cls attrs)
  | var (cls x : Str) : NoStr (.var cls x)

/-- The fragments; `n + 1` of them. -/
def Template.fragments (T : Template) (ρ : Nat → Str → Str) (n : Nat) : List Ast := (List.range (n + 1)).map fun i => T.inst (ρ i) i

/-- A placeholder for a name, or for constants. -/
def Fits (ρ : Nat → Str → Str) (n : Nat) (h : Hole) : Prop :=
  (h.isName = true ∧ ∃ x, h.subs = (List.range (n + 1)).map fun i => .const (.str (ρ i x))) ∨
    (h.isName = false ∧ ∃ k : Nat → Const, (∀ i s, k i ≠ .str s) ∧ h.subs = (List.range (n + 1)).map fun i => .const (k i))

/-! ### The loop -/

/-- What holds after the placeholders that have been seen. -/
structure Seen (ρ : Nat → Str → Str) (n : Nat) (s : Merge) : Prop where
  owner : ∀ i m subs, s.owner.lookup (i, .const (.str m)) = some subs →
    ∃ x, m = ρ i x ∧ subs = ((List.range (n + 1)).map fun i => Ast.const (.str (ρ i x))) ∧ subs ∈ s.groups.map Prod.fst

theorem extendAt_sub {key : List Ast} {values : List Hole} : ∀ {d : List (List Ast × List Hole)} {k : List Ast},
    k ∈ d.map Prod.fst → k ∈ (extendAt key values d).map Prod.fst
  | (x, vs) :: d, k, h => by
    simp only [extendAt]
    split
    · simpa using h
    · rw [List.map_cons, List.mem_cons] at h ⊢
      exact h.imp id extendAt_sub

theorem extendAt_key {key : List Ast} {values : List Hole} : ∀ {d : List (List Ast × List Hole)}, key ∈ (extendAt key values d).map Prod.fst
  | [] => by simp [extendAt]
  | (x, vs) :: d => by
    simp only [extendAt]
    split
    · rename_i h
      simp [h]
    · rw [List.map_cons, List.mem_cons]
      exact .inr extendAt_key

theorem lookup_append_cases {α β : Type} [BEq α] [LawfulBEq α] {k : α} {y : β} : ∀ {a b : List (α × β)}, (a ++ b).lookup k = some y →
    (k, y) ∈ a ∨ b.lookup k = some y
  | [], b, h => .inr h
  | (x, z) :: a, b, h => by
    rw [List.cons_append, List.lookup_cons] at h
    split at h
    · rename_i hk
      cases h
      rw [eq_of_beq hk]
      exact .inl (by simp)
    · exact (lookup_append_cases h).imp (List.mem_cons_of_mem _) id

theorem get_range {α : Type} {n i : Nat} {f : Nat → α} {v : α} (h : ((List.range n).map f)[i]? = some v) : v = f i := by
  rw [List.getElem?_map] at h
  cases hr : (List.range n)[i]? with
  | none => simp [hr] at h
  | some j =>
    rw [hr] at h
    have := (List.getElem?_eq_some_iff.1 hr)
    obtain ⟨h1, h2⟩ := this
    simp at h2
    subst h2
    simpa [eq_comm] using h

theorem eraseDups_all {α : Type} [BEq α] [LawfulBEq α] {x : α} {l : List α} (h : ∀ y ∈ l, y = x) : l.eraseDups = [] ∨ l.eraseDups = [x] := by
  cases l with
  | nil => exact .inl rfl
  | cons a l =>
    have ha := h a (by simp)
    subst ha
    rw [List.eraseDups_cons]
    have : l.filter (fun b => !b == a) = [] := by
      rw [List.filter_eq_nil_iff]
      intro y hy
      simp [h y (List.mem_cons_of_mem _ hy)]
    rw [this]
    exact .inr rfl

/-- Each placeholder is accepted. -/
theorem step_seen {ρ : Nat → Str → Str} (hρ : ∀ i x y, ρ i x = ρ i y → x = y) {n : Nat} {s : Merge} {h : Hole} (hs : Seen ρ n s) (hf : Fits ρ n h) :
    ∃ s', s.step true h = some s' ∧ Seen ρ n s' := by
  have hne : ∀ l rest, h.subs ≠ .seq l :: rest := by
    intro l rest he
    rcases hf with ⟨_, x, hx⟩ | ⟨_, k, _, hx⟩ <;>
    · rw [he, List.range_succ_eq_map] at hx
      simp at hx
  have hstep : s.step true h = (match canonicals s.owner h with
      | [] =>
        some { s with
          groups := if h.isName then extendAt h.subs [h] s.groups else s.groups
          owner := ((indexed h.subs).map fun k => (k, h.subs)) ++ s.owner }
      | [canon] =>
        if h.isName = true ∧ canon = h.subs ∧ canon ∈ s.groups.map Prod.fst then
          some { s with groups := extendAt canon [h] s.groups }
        else none
      | _ => none) := by
    rw [Merge.step]
    split
    · rename_i l rest he
      exact absurd he (hne l rest)
    · simp only [Bool.not_true, Bool.false_and, Bool.false_eq_true, if_false, if_true]
      cases canonicals s.owner h with
      | nil => rfl
      | cons c cs => cases cs <;> rfl
  rw [hstep]
  rcases hf with ⟨hn, x, hx⟩ | ⟨hn, k, hk, hx⟩
  · have hall : ∀ c ∈ ((indexed h.subs).filterMap fun k => s.owner.lookup k), c = h.subs := by
      intro c hc
      rw [List.mem_filterMap] at hc
      obtain ⟨⟨i, v⟩, hm, hl⟩ := hc
      have hv := mem_indexed.1 hm
      rw [hx] at hv
      rw [get_range hv] at hl
      obtain ⟨y, hy, hsub, _⟩ := hs.owner _ _ _ hl
      rw [hsub, ← hρ _ _ _ hy, hx]
    have hcan : canonicals s.owner h = ((indexed h.subs).filterMap fun k => s.owner.lookup k).eraseDups := by
      unfold canonicals
      simp [hn]
    rcases eraseDups_all hall with he | he
    · rw [hcan, he]
      refine ⟨_, rfl, ⟨fun i m subs hl => ?_⟩⟩
      simp only [hn, if_true]
      rcases lookup_append_cases hl with hl | hl
      · rw [List.mem_map] at hl
        obtain ⟨⟨j, v⟩, hm, hq⟩ := hl
        simp only [Prod.mk.injEq] at hq
        obtain ⟨⟨hj, hv'⟩, hsubs⟩ := hq
        have hv := mem_indexed.1 hm
        rw [hx] at hv
        have hv := get_range hv
        rw [hv'] at hv
        simp only [Ast.const.injEq, Const.str.injEq] at hv
        refine ⟨x, by rw [hv, hj], by rw [← hsubs, hx], ?_⟩
        rw [← hsubs]
        exact extendAt_key
      · obtain ⟨y, h1, h2, h3⟩ := hs.owner _ _ _ hl
        exact ⟨y, h1, h2, extendAt_sub h3⟩
    · rw [hcan, he]
      have hmem : h.subs ∈ ((indexed h.subs).filterMap fun k => s.owner.lookup k) := by
        rw [← List.mem_eraseDups, he]
        simp
      have hgrp : h.subs ∈ s.groups.map Prod.fst := by
        rw [List.mem_filterMap] at hmem
        obtain ⟨⟨i, v⟩, hm, hl⟩ := hmem
        have hv := mem_indexed.1 hm
        rw [hx] at hv
        rw [get_range hv] at hl
        obtain ⟨y, _, _, hg⟩ := hs.owner _ _ _ hl
        exact hg
      simp only
      rw [if_pos ⟨hn, trivial, hgrp⟩]
      refine ⟨_, rfl, ⟨fun i m subs hl => ?_⟩⟩
      obtain ⟨y, h1, h2, h3⟩ := hs.owner _ _ _ hl
      exact ⟨y, h1, h2, extendAt_sub h3⟩
  · have hcan : canonicals s.owner h = [] := by
      unfold canonicals
      have : ((indexed h.subs).filterMap fun p => p.2.varName.map fun x => (p.1, x)) = [] := by
        rw [List.filterMap_eq_nil_iff]
        rintro ⟨i, v⟩ hm
        have hv := mem_indexed.1 hm
        rw [hx] at hv
        rw [get_range hv]
        rfl
      simp [hn, this]
    rw [hcan]
    refine ⟨_, rfl, ⟨fun i m subs hl => ?_⟩⟩
    simp only [hn, Bool.false_eq_true, if_false]
    rcases lookup_append_cases hl with hl | hl
    · rw [List.mem_map] at hl
      obtain ⟨⟨j, v⟩, hm, hq⟩ := hl
      simp only [Prod.mk.injEq] at hq
      obtain ⟨⟨_, hv'⟩, _⟩ := hq
      have hv := mem_indexed.1 hm
      rw [hx] at hv
      have hv := get_range hv
      rw [hv'] at hv
      simp only [Ast.const.injEq] at hv
      exact absurd hv.symm (hk _ _)
    · exact hs.owner _ _ _ hl

theorem steps_seen {ρ : Nat → Str → Str} (hρ : ∀ i x y, ρ i x = ρ i y → x = y) {n : Nat} : ∀ {hs : List Hole} {s : Merge}, Seen ρ n s →
    (∀ h ∈ hs, Fits ρ n h) → ∃ s', Merge.steps true s hs = some s'
  | [], s, _, _ => ⟨s, rfl⟩
  | h :: hs, s, hS, hf => by
    obtain ⟨s', h1, h2⟩ := step_seen hρ hS (hf h (by simp))
    obtain ⟨s'', h3⟩ := steps_seen hρ h2 fun p hp => hf p (List.mem_cons_of_mem _ hp)
    exact ⟨s'', by simp [Merge.steps, h1, h3]⟩

/-! ### The placeholders -/

/-- Placeholders for names and for constants of the same type do not stop anti-unification. So it is for `length_mismatch` and `type_mismatch`
(`edulint/linting/checkers/duplication/utils.py:15-34`), with which `edulint/linting/checkers/duplication/duplicate_block.py:226-227` stops. -/
def Lenient (stop : StopOn) : Prop := ∀ c as, (∀ a ∈ as, ∃ ty, ∀ s ∈ a.2, ∃ d, s = Ast.const d ∧ d.ty = ty) → stop c as = false

/-- What is known of the result. -/
def Good (ρ : Nat → Str → Str) (n : Nat) (cores : List Core) (as : List Avar) : Prop :=
  (∀ c ∈ cores, ∀ h ∈ c.holes false, Fits ρ n h) ∧ ∀ a ∈ as, ∃ ty, ∀ s ∈ a.2, ∃ d, s = Ast.const d ∧ d.ty = ty

theorem instAll_map (ρ : Str → Str) (i : Nat) : ∀ (l : List Template), Template.instAll ρ i l = l.map (Template.inst ρ i)
  | [] => by simp [Template.instAll]
  | t :: l => by simp [Template.instAll, instAll_map ρ i l]

theorem instAttrs_map (ρ : Str → Str) (i : Nat) : ∀ (l : List (Str × Template)), Template.instAttrs ρ i l = l.map fun p => (p.1, p.2.inst ρ i)
  | [] => by simp [Template.instAttrs]
  | (a, t) :: l => by simp [Template.instAttrs, instAttrs_map ρ i l]

theorem allSeqs_map {α : Type} (f : α → List Ast) : ∀ (l : List α), allSeqs (l.map fun x => .seq (f x)) = some (l.map f)
  | [] => rfl
  | x :: l => by simp [allSeqs, allSeqs_map f l]

theorem getattrs_map {α : Type} {attr : Str} {f g : α → Ast} : ∀ {l : List α}, (∀ x ∈ l, (f x).getattr attr = some (g x)) →
    getattrs attr (l.map f) = some (l.map g)
  | [], _ => rfl
  | x :: l, h => by simp [getattrs, h x (by simp), getattrs_map fun y hy => h y (List.mem_cons_of_mem _ hy)]

theorem fragments_cons (T : Template) (ρ : Nat → Str → Str) (n : Nat) : ∃ rest, T.fragments ρ n = T.inst (ρ 0) 0 :: rest := by
  unfold Template.fragments
  rw [List.range_succ_eq_map]
  exact ⟨_, rfl⟩

theorem columns_map {l : List Template} {ρ : Nat → Str → Str} {n : Nat} :
    columns l.length ((List.range (n + 1)).map fun i => Template.instAll (ρ i) i l) = l.map fun t => t.fragments ρ n := by
  unfold columns
  refine List.ext_getElem? fun j => ?_
  rw [List.getElem?_map, List.getElem?_map]
  by_cases hj : j < l.length
  · rw [List.getElem?_range hj, List.getElem?_eq_getElem hj]
    simp only [Option.map_some, Option.some.injEq, List.map_map, Template.fragments]
    refine List.map_congr_left fun i _ => ?_
    simp [instAll_map, List.getElem?_eq_getElem hj]
  · rw [List.getElem?_eq_none (by simpa using hj), List.getElem?_eq_none (by simpa using hj)]
    rfl

theorem lookup_attrs {ρ : Str → Str} {i : Nat} : ∀ {attrs : List (Str × Template)} {a : Str} {t : Template}, (attrs.map Prod.fst).Nodup → (a, t) ∈ attrs →
    (attrs.map fun p => (p.1, p.2.inst ρ i)).lookup a = some (t.inst ρ i)
  | (b, u) :: attrs, a, t, hnd, hm => by
    rw [List.map_cons, List.lookup_cons]
    rw [List.map_cons, List.nodup_cons] at hnd
    rcases List.mem_cons.1 hm with he | hm'
    · cases he
      simp
    · have : (a == b) = false := by
        rw [beq_eq_false_iff_ne]
        rintro rfl
        exact hnd.1 (List.mem_map.2 ⟨(_, t), hm', rfl⟩)
      simp only [this]
      exact lookup_attrs hnd.2 hm'

theorem pyEq_refl (c : Const) : c.pyEq c = true := by simp [Const.pyEq]

mutual
theorem aunify_template {L : Lang} {stop : StopOn} (hnd : ∀ c, (L.fields c).Nodup) (hsub : ∀ c, L.isSub c c = true) (hst : Lenient stop)
    (ρ : Nat → Str → Str) (n : Nat) : ∀ (T : Template), T.WF L → T.NoStr →
    ∃ lim, ∀ limit ≥ lim, ∀ num, ∃ core as num', aunify L stop limit num (T.fragments ρ n) = .ok (core, as, num') ∧ Good ρ n [core] as
  | .same c, _, _ => by
    refine ⟨1, fun limit hl num => ?_⟩
    obtain ⟨limit, rfl⟩ : ∃ k, limit = k + 1 := ⟨limit - 1, by omega⟩
    obtain ⟨rest, hr⟩ := fragments_cons (.same c) ρ n
    have hall : ∀ t ∈ (Template.same c).fragments ρ n, t = .const c := by
      intro t ht
      unfold Template.fragments at ht
      rw [List.mem_map] at ht
      obtain ⟨i, _, rfl⟩ := ht
      rfl
    refine ⟨.const c, [], num, ?_, by simp [Good, Core.holes]⟩
    have h0 : (Template.same c).inst (ρ 0) 0 = .const c := rfl
    rw [h0] at hr
    rw [aunify.eq_def]
    simp only [hr]
    rw [← hr, if_neg, aunifyConsts, if_pos]
    · rw [List.all_eq_true]
      intro t ht
      rw [hall t ht]
      exact pyEq_refl c
    · rw [List.any_eq_true]
      rintro ⟨t, ht, hn⟩
      rw [hall t ht] at hn
      cases hn
  | .const k, _, hs => by
    cases hs with | const hs hty => ?_
    refine ⟨1, fun limit hl num => ?_⟩
    obtain ⟨limit, rfl⟩ : ∃ k, limit = k + 1 := ⟨limit - 1, by omega⟩
    obtain ⟨rest, hr⟩ := fragments_cons (.const k) ρ n
    have hall : ∀ t ∈ (Template.const k).fragments ρ n, ∃ d, t = .const d ∧ d.ty = (k 0).ty := by
      intro t ht
      unfold Template.fragments at ht
      rw [List.mem_map] at ht
      obtain ⟨i, _, rfl⟩ := ht
      exact ⟨_, rfl, hty i 0⟩
    have h0 : (Template.const k).inst (ρ 0) 0 = .const (k 0) := rfl
    rw [h0] at hr
    rw [aunify.eq_def]
    simp only [hr]
    rw [← hr, if_neg, aunifyConsts]
    · split
      · exact ⟨_, _, _, rfl, by simp [Good, Core.holes]⟩
      · rw [newAunifier, hst none _ (by simpa using ⟨_, hall⟩)]
        refine ⟨_, _, _, rfl, ?_, by simpa using ⟨_, hall⟩⟩
        simp only [Core.holes, List.mem_singleton, forall_eq]
        exact .inr ⟨rfl, k, hs, rfl⟩
    · rw [List.any_eq_true]
      rintro ⟨t, ht, hn⟩
      obtain ⟨d, rfl, _⟩ := hall t ht
      cases hn
  | .seq l, hw, hs => by
    cases hw with | seq hw => ?_
    cases hs with | seq hs => ?_
    obtain ⟨lim, hlim⟩ := aunify_templates hnd hsub hst ρ n l hw hs
    refine ⟨lim + 1, fun limit hl num => ?_⟩
    obtain ⟨limit, rfl⟩ : ∃ k, limit = k + 1 := ⟨limit - 1, by omega⟩
    obtain ⟨cores, as, num', h1, h2⟩ := hlim limit (by omega) num
    obtain ⟨rest, hr⟩ := fragments_cons (.seq l) ρ n
    have h0 : (Template.seq l).inst (ρ 0) 0 = .seq (Template.instAll (ρ 0) 0 l) := by rw [Template.inst]
    rw [h0] at hr
    have hse : allSeqs ((Template.seq l).fragments ρ n) = some ((List.range (n + 1)).map fun i => Template.instAll (ρ i) i l) := by
      unfold Template.fragments
      rw [← allSeqs_map]
      congr 1
    refine ⟨.seq cores, as, num', ?_, ?_, h2.2⟩
    · rw [aunify.eq_def]
      simp only [hr]
      rw [← hr, hse]
      simp only
      rw [if_pos]
      · have hlen : (Template.instAll (ρ 0) 0 l).length = l.length := by simp [instAll_map]
        rw [hlen, columns_map, h1]
      · rw [List.all_eq_true]
        intro m hm
        rw [List.mem_map] at hm
        obtain ⟨i, _, rfl⟩ := hm
        simp [instAll_map]
    · simp only [List.mem_singleton, forall_eq, Core.holes, holesAll_eq, List.mem_flatMap]
      rintro h ⟨c, hc, hh⟩
      exact h2.1 c hc h hh
  | .node cls attrs, hw, hs => by
    cases hw with | node hcls hf hw => ?_
    cases hs with | node hs => ?_
    obtain ⟨lim, hlim⟩ := aunify_attrs hnd hsub hst ρ n attrs hw hs
    refine ⟨lim + 1, fun limit hl num => ?_⟩
    obtain ⟨limit, rfl⟩ : ∃ k, limit = k + 1 := ⟨limit - 1, by omega⟩
    obtain ⟨cores, as, num', h1, h2⟩ := hlim limit (by omega) num ((Template.node cls attrs).fragments ρ n) (by
      intro a t hat
      unfold Template.fragments
      refine getattrs_map fun i _ => ?_
      rw [Template.inst, Ast.getattr, instAttrs_map]
      exact lookup_attrs (by rw [hf]; exact hnd cls) hat)
    obtain ⟨rest, hr⟩ := fragments_cons (.node cls attrs) ρ n
    have h0 : (Template.node cls attrs).inst (ρ 0) 0 = .node cls (Template.instAttrs (ρ 0) 0 attrs) := by rw [Template.inst]
    rw [h0] at hr
    refine ⟨.node cls cores, as, num', ?_, ?_, h2.2⟩
    · rw [aunify.eq_def]
      simp only [hr]
      rw [← hr, if_pos]
      · rw [hf] at h1
        simp only [hcls, Bool.false_eq_true, if_false, h1, finish]
        rw [hst _ _ h2.2]
        rfl
      · rw [List.all_eq_true]
        intro t ht
        unfold Template.fragments at ht
        rw [List.mem_map] at ht
        obtain ⟨i, _, rfl⟩ := ht
        rw [Template.inst]
        exact hsub cls
    · simp only [List.mem_singleton, forall_eq, Core.holes, holesAttrs_eq, List.mem_flatMap, hcls]
      rintro h ⟨c, hc, hh⟩
      exact h2.1 c.2 (List.mem_map_of_mem hc) h hh
  | .var cls x, hw, _ => by
    cases hw with | var _ hcls => ?_
    refine ⟨1, fun limit hl num => ?_⟩
    obtain ⟨limit, rfl⟩ : ∃ k, limit = k + 1 := ⟨limit - 1, by omega⟩
    obtain ⟨rest, hr⟩ := fragments_cons (.var cls x) ρ n
    have h0 : (Template.var cls x).inst (ρ 0) 0 = .node cls [("name".toList, .const (.str (ρ 0 x)))] := by rw [Template.inst]
    rw [h0] at hr
    have hg : getattrs "name".toList ((Template.var cls x).fragments ρ n) = some ((List.range (n + 1)).map fun i => .const (.str (ρ i x))) := by
      unfold Template.fragments
      refine getattrs_map fun i _ => ?_
      rw [Template.inst, Ast.getattr]
      simp
    have hc : ∀ s ∈ (List.range (n + 1)).map (fun i => Ast.const (.str (ρ i x))), ∃ d, s = Ast.const d ∧ d.ty = 3 := by
      intro s hs
      rw [List.mem_map] at hs
      obtain ⟨i, _, rfl⟩ := hs
      exact ⟨_, rfl, rfl⟩
    have hc' : ∀ a ∈ [(num + 1, (List.range (n + 1)).map fun i => Ast.const (.str (ρ i x)))], ∃ ty, ∀ s ∈ a.2, ∃ d, s = Ast.const d ∧ d.ty = ty := by
      intro a ha
      rw [List.mem_singleton.1 ha]
      exact ⟨3, hc⟩
    refine ⟨.node cls [("name".toList, .avar (num + 1) ((List.range (n + 1)).map fun i => .const (.str (ρ i x))))],
      [(num + 1, (List.range (n + 1)).map fun i => .const (.str (ρ i x)))], num + 1, ?_, ?_, hc'⟩
    · rw [aunify.eq_def]
      simp only [hr]
      rw [← hr, if_pos, if_pos hcls, hg]
      · simp only [newAunifier]
        rw [hst none _ hc']
        simp only [Bool.false_eq_true, if_false, finish]
        rw [hst _ _ hc']
        rfl
      · rw [List.all_eq_true]
        intro t ht
        unfold Template.fragments at ht
        rw [List.mem_map] at ht
        obtain ⟨i, _, rfl⟩ := ht
        rw [Template.inst]
        exact hsub cls
    · simp only [List.mem_singleton, forall_eq, Core.holes, Core.holesAttrs, List.append_nil, hcls]
      exact .inl ⟨rfl, x, rfl⟩

theorem aunify_templates {L : Lang} {stop : StopOn} (hnd : ∀ c, (L.fields c).Nodup) (hsub : ∀ c, L.isSub c c = true) (hst : Lenient stop)
    (ρ : Nat → Str → Str) (n : Nat) : ∀ (l : List Template), (∀ t ∈ l, t.WF L) → (∀ t ∈ l, t.NoStr) →
    ∃ lim, ∀ limit ≥ lim, ∀ num, ∃ cores as num', aunifyEach (aunify L stop limit) num (l.map fun t => t.fragments ρ n) = .ok (cores, as, num') ∧
      Good ρ n cores as
  | [], _, _ => ⟨0, fun limit _ num => ⟨[], [], num, rfl, by simp [Good]⟩⟩
  | t :: l, hw, hs => by
    obtain ⟨lim, h⟩ := aunify_template hnd hsub hst ρ n t (hw t (by simp)) (hs t (by simp))
    obtain ⟨lim', h'⟩ := aunify_templates hnd hsub hst ρ n l (fun u hu => hw u (List.mem_cons_of_mem _ hu)) fun u hu => hs u (List.mem_cons_of_mem _ hu)
    refine ⟨max lim lim', fun limit hl num => ?_⟩
    obtain ⟨core, as, num', h1, h2⟩ := h limit (by omega) num
    obtain ⟨cores, as', num'', h3, h4⟩ := h' limit (by omega) num'
    refine ⟨core :: cores, as ++ as', num'', by simp [aunifyEach, h1, h3], ?_, ?_⟩
    · intro c hc
      rcases List.mem_cons.1 hc with rfl | hc
      · exact h2.1 _ (by simp)
      · exact h4.1 c hc
    · intro a ha
      exact (List.mem_append.1 ha).elim (h2.2 a) (h4.2 a)

theorem aunify_attrs {L : Lang} {stop : StopOn} (hnd : ∀ c, (L.fields c).Nodup) (hsub : ∀ c, L.isSub c c = true) (hst : Lenient stop)
    (ρ : Nat → Str → Str) (n : Nat) : ∀ (l : List (Str × Template)), (∀ p ∈ l, p.2.WF L) → (∀ p ∈ l, p.2.NoStr) →
    ∃ lim, ∀ limit ≥ lim, ∀ num ts, (∀ a t, (a, t) ∈ l → getattrs a ts = some (t.fragments ρ n)) →
      ∃ cores as num', aunifyAttrs (aunify L stop limit) ts num (l.map Prod.fst) = .ok (cores, as, num') ∧ Good ρ n (cores.map Prod.snd) as
  | [], _, _ => ⟨0, fun limit _ num ts _ => ⟨[], [], num, rfl, by simp [Good]⟩⟩
  | (a, t) :: l, hw, hs => by
    obtain ⟨lim, h⟩ := aunify_template hnd hsub hst ρ n t (hw (a, t) (by simp)) (hs (a, t) (by simp))
    obtain ⟨lim', h'⟩ := aunify_attrs hnd hsub hst ρ n l (fun u hu => hw u (List.mem_cons_of_mem _ hu)) fun u hu => hs u (List.mem_cons_of_mem _ hu)
    refine ⟨max lim lim', fun limit hl num ts hts => ?_⟩
    obtain ⟨core, as, num', h1, h2⟩ := h limit (by omega) num
    obtain ⟨cores, as', num'', h3, h4⟩ := h' limit (by omega) num' ts fun b u hb => hts b u (List.mem_cons_of_mem _ hb)
    refine ⟨(a, core) :: cores, as ++ as', num'', by simp [aunifyAttrs, hts a t (by simp), h1, h3], ?_, ?_⟩
    · intro c hc
      rw [List.map_cons] at hc
      rcases List.mem_cons.1 hc with rfl | hc
      · exact h2.1 _ (by simp)
      · exact h4.1 c hc
    · intro b hb
      exact (List.mem_append.1 hb).elim (h2.2 b) (h4.2 b)
end

/-! ### Results -/

/-- C132: Where names have to be consistent, there is a core for fragments that differ just in the names of variables, one for one, and in constants that are
not strings, however deep they are. -/
theorem C132_recognized_partial {L : Lang} {stop : StopOn} {stopAfter mergeable : List Hole → Bool} (hnd : ∀ c, (L.fields c).Nodup)
    (hsub : ∀ c, L.isSub c c = true) (hst : Lenient stop) (hsa : ∀ hs, stopAfter hs = false) {ρ : Nat → Str → Str} (hρ : ∀ i x y, ρ i x = ρ i y → x = y)
    (n : Nat) {T : Template} (hw : T.WF L) (hs : T.NoStr) :
    ∃ lim, ∀ limit ≥ lim, ∃ core hs, antiunify L stop stopAfter mergeable true limit (T.fragments ρ n) = .ok (some (core, hs)) := by
  obtain ⟨lim, h⟩ := aunify_template hnd hsub hst ρ n T hw hs
  refine ⟨lim, fun limit hl => ?_⟩
  obtain ⟨core, as, num', h1, h2⟩ := h limit hl 0
  obtain ⟨s, hS⟩ := steps_seen (s := ⟨[], [], []⟩) hρ ⟨by simp⟩ (h2.1 core (by simp))
  unfold antiunify
  rw [h1]
  simp only [mergeCandidates, hS, Option.map_some, hsa, Bool.false_eq_true, if_false]
  exact ⟨_, _, rfl⟩

/-! ### Examples -/

def noCore (r : Except PyErr (Option (Core × List Hole))) : Bool :=
  match r with
  | .ok none => true
  | _ => false

/-- `x` and `y` are swapped. -/
def exSwap (s : Str) : Str := if s = "x".toList then "y".toList else if s = "y".toList then "x".toList else s

theorem exSwap_swap (s : Str) : exSwap (exSwap s) = s := by
  unfold exSwap
  by_cases hx : s = "x".toList
  · subst hx
    decide
  · by_cases hy : s = "y".toList
    · subst hy
      decide
    · rw [if_neg hx, if_neg hy, if_neg hx, if_neg hy]

def exRho (i : Nat) : Str → Str := if i = 0 then id else exSwap

theorem exRho_inj (i : Nat) (x y : Str) (h : exRho i x = exRho i y) : x = y := by
  unfold exRho at h
  split at h
  · exact h
  · rw [← exSwap_swap x, h, exSwap_swap]

def exArg (k : Nat → Const) : Template := .node "Const".toList [("value".toList, .const k)]

/-- A call of `print`. -/
def exPrint (args : List Template) : Template :=
  .node "Call".toList [("func".toList, .var "Name".toList "print".toList), ("args".toList, .seq args)]

theorem exArg_wf (k : Nat → Const) : (exArg k).WF exLang :=
  .node (by decide) (show ["value".toList] = exLang.fields _ by decide) (by simpa using Template.WF.const k)

theorem exVar_wf (x : Str) : (Template.var "Name".toList x).WF exLang := .var x (by decide)

theorem exPrint_wf {args : List Template} (h : ∀ t ∈ args, t.WF exLang) : (exPrint args).WF exLang := by
  refine .node (by decide) (show ["func".toList, "args".toList] = exLang.fields _ by decide) fun p hp => ?_
  simp only [List.mem_cons, List.not_mem_nil, or_false] at hp
  rcases hp with rfl | rfl
  · exact exVar_wf _
  · exact .seq h

/-- Strings are taken for names of variables: there is no core for `print("x", x)` and `print("y", y)`, while there is one for `print(x, "x")` and
`print(y, "y")`. -/
theorem C132_strings_counterexample :
    ∃ a v : Template, (exPrint [a, v]).WF exLang ∧ (exPrint [v, a]).WF exLang ∧ (∀ i x y, exRho i x = exRho i y → x = y) ∧
      (exPrint [a, v]).fragments exRho 1 = [exCall "print" [exConst (.str "x".toList), exName "x"], exCall "print" [exConst (.str "y".toList), exName "y"]] ∧
      antiunify exLang (fun _ _ => false) (fun _ => false) (fun _ => true) true 20 ((exPrint [a, v]).fragments exRho 1) = .ok none ∧
      ∃ core hs, antiunify exLang (fun _ _ => false) (fun _ => false) (fun _ => true) true 20 ((exPrint [v, a]).fragments exRho 1) =
        .ok (some (core, hs)) := by
  refine ⟨exArg fun i => .str (if i = 0 then "x".toList else "y".toList), .var "Name".toList "x".toList, ?_, ?_, exRho_inj, by decide +kernel, ?_, ?_⟩
  · refine exPrint_wf ?_
    simpa using ⟨exArg_wf _, exVar_wf _⟩
  · refine exPrint_wf ?_
    simpa using ⟨exVar_wf _, exArg_wf _⟩
  · have h : noCore (antiunify exLang (fun _ _ => false) (fun _ => false) (fun _ => true) true 20 ((exPrint [exArg fun i => .str (if i = 0 then "x".toList else
        "y".toList), .var "Name".toList "x".toList]).fragments exRho 1)) = true := by decide +kernel
    revert h
    generalize antiunify _ _ _ _ _ _ _ = r
    rcases r with _ | _ | _ <;> simp [noCore]
  · have h : (exRun true true ((exPrint [.var "Name".toList "x".toList, exArg fun i => .str (if i = 0 then "x".toList else "y".toList)]).fragments exRho
        1)).isSome = true := by decide +kernel
    revert h
    unfold exRun
    generalize antiunify _ _ _ _ _ _ _ = r
    rcases r with _ | _ | ⟨core, hs⟩
    · simp
    · simp
    · exact fun _ => ⟨core, hs, rfl⟩

theorem exLang_sub (c : Str) : exLang.isSub c c = true := by
  show decide (c = c ∨ _) = true
  exact decide_eq_true (.inl rfl)

theorem exArg_noStr : (exArg fun i => .int (i + 1)).NoStr := by
  refine .node fun p hp => ?_
  rw [List.mem_singleton.1 hp]
  exact .const (fun _ _ => nofun) fun _ _ => rfl

/-- `print(1, x)` and `print(2, y)` are recognized. -/
example : ∃ lim, ∀ limit ≥ lim, ∃ core hs, antiunify exLang (fun _ _ => false) (fun _ => false) (fun _ => true) true limit
    ((exPrint [exArg fun i => .int (i + 1), .var "Name".toList "x".toList]).fragments exRho 1) = .ok (some (core, hs)) := by
  refine C132_recognized_partial exLang_fields exLang_sub (fun _ _ _ => rfl) (fun _ => rfl) exRho_inj 1
    (exPrint_wf fun t ht => ?_) (.node fun p hp => ?_)
  · rcases List.mem_cons.1 ht with rfl | ht
    · exact exArg_wf _
    · rw [List.mem_singleton.1 ht]
      exact exVar_wf _
  · rcases List.mem_cons.1 hp with rfl | hp
    · exact .var _ _
    · rw [List.mem_singleton.1 hp]
      refine .seq fun t ht => ?_
      rcases List.mem_cons.1 ht with rfl | ht
      · exact exArg_noStr
      · rw [List.mem_singleton.1 ht]
        exact .var _ _

end Verif.Aunify

import Verif.Lemmas.Z3BlockValue
import Mathlib.Tactic.ByContra

/-!
Running a block and what the solver is told about it: if all that is known before holds for some values of the solver's
variables, then the variables made for the block can be given values such that all that is known after it holds as well;
and if the block was run from an environment with the values from before, then they are those after it.
-/

namespace Verif.Py.Blocks

/-! ### Values of variables that are not made yet -/

abbrev Vals := Expr → Nat → Int

/-- The values of the variables made so far are the same. -/
def Ext (cnt : Ver) (σ σ' : Vals) : Prop := ∀ k n, n ≤ cnt k → σ' k n = σ k n

def Ver.Le (a b : Ver) : Prop := ∀ k, a k ≤ b k

theorem Ver.Le.refl (a : Ver) : a.Le a := fun _ => Nat.le_refl _

theorem Ver.Le.trans {a b c : Ver} (h : a.Le b) (h' : b.Le c) : a.Le c := fun k => Nat.le_trans (h k) (h' k)

theorem Ext.refl (cnt : Ver) (σ : Vals) : Ext cnt σ σ := fun _ _ _ => rfl

theorem Ext.mono {cnt cnt' : Ver} {σ σ' : Vals} (h : Ext cnt' σ σ') (hl : cnt.Le cnt') : Ext cnt σ σ' :=
  fun k n hn => h k n (Nat.le_trans hn (hl k))

theorem Ext.trans {cnt cnt' : Ver} {σ σ' σ'' : Vals} (h : Ext cnt σ σ') (h' : Ext cnt' σ' σ'') (hl : cnt.Le cnt') :
    Ext cnt σ σ'' := fun k n hn => by rw [h'.mono hl k n hn, h k n hn]

theorem Ext.at {cnt ver : Ver} {σ σ' : Vals} (h : Ext cnt σ σ') (hv : ver.Le cnt) : at_ σ' ver = at_ σ ver := by
  funext k; exact h k _ (hv k)

def upd (σ : Vals) (k : Expr) (n : Nat) (i : Int) : Vals := fun k' n' => if k' = k ∧ n' = n then i else σ k' n'

theorem upd_ext (cnt : Ver) (σ : Vals) (k : Expr) (i : Int) : Ext cnt σ (upd σ k (cnt k + 1) i) := by
  intro k' n hn
  simp only [upd]
  rw [if_neg]
  rintro ⟨rfl, rfl⟩
  omega

theorem upd_self (σ : Vals) (k : Expr) (n : Nat) (i : Int) : upd σ k n i k n = i := by simp [upd]

section
variable (zero : Int → Int)

/-- Only variables made so far matter. -/
def Fm.Below (cnt : Ver) (f : Fm) : Prop := ∀ σ σ', Ext cnt σ σ' → f.eval zero σ' = f.eval zero σ

def Vl.Below (cnt : Ver) (v : Vl) : Prop := ∀ σ σ', Ext cnt σ σ' → v.eval zero σ' = v.eval zero σ

def BelowAll (cnt : Ver) (fs : List Fm) : Prop := ∀ f ∈ fs, f.Below zero cnt

def Holds (fs : List Fm) (σ : Vals) : Prop := ∀ f ∈ fs, f.eval zero σ = true

variable {zero}

theorem Fm.Below.mono {cnt cnt' : Ver} {f : Fm} (h : f.Below zero cnt) (hl : cnt.Le cnt') : f.Below zero cnt' :=
  fun σ σ' he => h σ σ' (he.mono hl)

theorem Vl.Below.mono {cnt cnt' : Ver} {v : Vl} (h : v.Below zero cnt) (hl : cnt.Le cnt') : v.Below zero cnt' :=
  fun σ σ' he => h σ σ' (he.mono hl)

theorem BelowAll.mono {cnt cnt' : Ver} {fs : List Fm} (h : BelowAll zero cnt fs) (hl : cnt.Le cnt') :
    BelowAll zero cnt' fs := fun f hf => (h f hf).mono hl

theorem BelowAll.append {cnt : Ver} {fs gs : List Fm} (h : BelowAll zero cnt fs) (h' : BelowAll zero cnt gs) :
    BelowAll zero cnt (fs ++ gs) := by
  intro f hf
  rcases List.mem_append.mp hf with hf | hf
  · exact h f hf
  · exact h' f hf

theorem BelowAll.nil {cnt : Ver} : BelowAll zero cnt [] := by intro f hf; cases hf

theorem BelowAll.single {cnt : Ver} {f : Fm} (h : f.Below zero cnt) : BelowAll zero cnt [f] := by
  intro g hg
  rw [List.mem_singleton.mp hg]
  exact h

theorem Holds.append {σ : Vals} {fs gs : List Fm} (h : Holds zero fs σ) (h' : Holds zero gs σ) :
    Holds zero (fs ++ gs) σ := by
  intro f hf
  rcases List.mem_append.mp hf with hf | hf
  · exact h f hf
  · exact h' f hf

theorem Holds.ext {cnt : Ver} {fs : List Fm} {σ σ' : Vals} (h : Holds zero fs σ) (hb : BelowAll zero cnt fs)
    (he : Ext cnt σ σ') : Holds zero fs σ' := fun f hf => by rw [hb f hf σ σ' he]; exact h f hf

theorem Holds.single {σ : Vals} {f : Fm} (h : f.eval zero σ = true) : Holds zero [f] σ := by
  intro g hg
  rw [List.mem_singleton.mp hg]
  exact h

theorem term_below {cnt ver : Ver} (t : Term) (h : ver.Le cnt) : (Fm.term ver t).Below zero cnt := by
  intro σ σ' he
  simp only [Fm.eval, he.at h]

theorem termValue_at {σ σ' : Vals} {ver : Ver} (h : at_ σ' ver = at_ σ ver) (t : Term) :
    termValue zero σ' ver t = termValue zero σ ver t := by
  cases t <;> simp only [termValue, h]

theorem vterm_below {cnt ver : Ver} (t : Term) (h : ver.Le cnt) : (Vl.term ver t).Below zero cnt := by
  intro σ σ' he
  simp only [Vl.eval, termValue_at (he.at h)]

theorem not_below {cnt : Ver} {f : Fm} (h : f.Below zero cnt) : (Fm.not f).Below zero cnt := by
  intro σ σ' he; simp only [Fm.eval, h σ σ' he]

theorem and_below {cnt : Ver} {f g : Fm} (h : f.Below zero cnt) (h' : g.Below zero cnt) : (Fm.and f g).Below zero cnt := by
  intro σ σ' he; simp only [Fm.eval, h σ σ' he, h' σ σ' he]

theorem or_below {cnt : Ver} {f g : Fm} (h : f.Below zero cnt) (h' : g.Below zero cnt) : (Fm.or f g).Below zero cnt := by
  intro σ σ' he; simp only [Fm.eval, h σ σ' he, h' σ σ' he]

theorem imp_below {cnt : Ver} {f g : Fm} (h : f.Below zero cnt) (h' : g.Below zero cnt) : (Fm.imp f g).Below zero cnt := by
  intro σ σ' he; simp only [Fm.eval, h σ σ' he, h' σ σ' he]

theorem conj_below {cnt : Ver} : ∀ {fs : List Fm}, BelowAll zero cnt fs → (conj fs).Below zero cnt
  | [], _ => fun _ _ _ => by simp [conj, Fm.eval]
  | f :: fs, h => and_below (h f (by simp)) (conj_below fun g hg => h g (by simp [hg]))

theorem disj_below {cnt : Ver} : ∀ {fs : List Fm}, BelowAll zero cnt fs → (disj fs).Below zero cnt
  | [], _ => fun _ _ _ => by simp [disj, Fm.eval]
  | f :: fs, h => or_below (h f (by simp)) (disj_below fun g hg => h g (by simp [hg]))

theorem nots_below {cnt : Ver} {fs : List Fm} (h : BelowAll zero cnt fs) : BelowAll zero cnt (fs.map .not) := by
  intro f hf
  obtain ⟨g, hg, rfl⟩ := List.mem_map.mp hf
  exact not_below (h g hg)

theorem conj_eval {σ : Vals} : ∀ {fs : List Fm}, (conj fs).eval zero σ = true ↔ Holds zero fs σ
  | [] => by simp [conj, Fm.eval, Holds]
  | f :: fs => by
    simp only [conj, Fm.eval, Bool.and_eq_true, conj_eval (fs := fs), Holds, List.mem_cons, forall_eq_or_imp]

theorem nots_eval {σ : Vals} {fs : List Fm} : (conj (fs.map .not)).eval zero σ = true ↔ ∀ f ∈ fs, f.eval zero σ = false := by
  rw [conj_eval]
  simp [Holds, Fm.eval]

theorem disj_eval {σ : Vals} : ∀ {fs : List Fm}, (disj fs).eval zero σ = true ↔ ∃ f ∈ fs, f.eval zero σ = true
  | [] => by simp [disj, Fm.eval]
  | f :: fs => by simp [disj, Fm.eval, disj_eval (fs := fs)]

/-! ### A new variable -/

theorem set_le {ver cnt : Ver} (h : ver.Le cnt) (k : Expr) : (ver.set k (cnt k + 1)).Le (cnt.set k (cnt k + 1)) := by
  intro k'
  simp only [Ver.set]
  by_cases hk : k' = k
  · simp [hk]
  · simpa [hk] using h k'

theorem bump_le (st : St) (k : Expr) (v : Vl) : st.cnt.Le (st.bump k v).cnt := by
  intro k'
  simp only [St.bump, Ver.set]
  by_cases hk : k' = k
  · simp [hk]
  · simp [hk]

theorem eq_below {cnt : Ver} {k : Expr} {n : Nat} {v : Vl} (hn : n ≤ cnt k) (hv : v.Below zero cnt) :
    (Fm.eq k n v).Below zero cnt := by
  intro σ σ' he; simp only [Fm.eval, hv σ σ' he, he k n hn]

theorem bump_below {st : St} {k : Expr} {v : Vl} (h : BelowAll zero st.cnt st.rels) (hv : v.Below zero st.cnt) :
    BelowAll zero (st.bump k v).cnt (st.bump k v).rels := by
  refine BelowAll.append (h.mono (bump_le st k v)) (BelowAll.single (eq_below ?_ (hv.mono (bump_le st k v))))
  simp [St.bump, Ver.set]

theorem bump_holds {st : St} {k : Expr} {v : Vl} {σ : Vals} {i : Int} (h : BelowAll zero st.cnt st.rels)
    (hv : v.Below zero st.cnt) (hs : Holds zero st.rels σ) (hi : eqValue i (v.eval zero σ) = true) :
    Holds zero (st.bump k v).rels (upd σ k (st.cnt k + 1) i) := by
  refine (hs.ext h (upd_ext _ _ _ _)).append (.single ?_)
  simp only [Fm.eval, upd_self, hv σ _ (upd_ext _ _ _ _), hi]

end

section
variable (R : FoldSem Val) (isFloat : Val → Bool) (vs : Vars) (K : Expr → Prop) (zero : Int → Int) (T : List Str)
variable (iter : Val → Except PyErr (List Val)) (effect : Nat → Env Val → Except PyErr (Env Val))
variable (other : Nat → Env Val → Except PyErr Flow)

/-- Variables of the solver that are not variables of the program are about none that is assigned to. -/
def Keys : Prop := ∀ k, K k → (∃ x, k = .name x) ∨ ∀ x ∈ names k, x ∉ T

/-- Only variables among those in question differ. -/
def Same (env env' : Env Val) : Prop := ∀ x, x ∉ T → env' x = env x

variable {R isFloat vs K zero T}

theorem Same.builtins {env env' : Env Val} (h : Same T env env')
    (hT : ∀ f ∈ ["ord".toList, "range".toList, "abs".toList], f ∉ T) (hB : Builtins env) : Builtins env' :=
  fun f hf => by rw [h f (hT f hf)]; exact hB f hf

theorem Same.trans {a b c : Env Val} (h : Same T a b) (h' : Same T b c) : Same T a c :=
  fun x hx => by rw [h' x hx, h x hx]

theorem Fits.ext {cnt ver : Ver} {σ σ' : Vals} {env : Env Val} (h : Fits R K ver σ env) (hv : ver.Le cnt)
    (he : Ext cnt σ σ') : Fits R K ver σ' env := by
  intro k hk
  rw [he.at hv]
  exact h k hk

theorem condition_below {cnt ver : Ver} {e : Expr} {f : Fm}
    (h : condition (intSem R) isFloat vs ver e = .ok (some f)) (hv : ver.Le cnt) : f.Below zero cnt := by
  unfold condition at h
  cases hc : convert (intSem R) isFloat vs e true with
  | error x => rw [hc] at h; cases h
  | ok o =>
    rw [hc] at h
    cases o with
    | none => cases h
    | some t => cases h; exact term_below t hv

theorem assigned_below {cnt ver : Ver} {e : Expr} {v : Vl}
    (h : assigned (intSem R) isFloat vs ver e = .ok (some v)) (hv : ver.Le cnt) : v.Below zero cnt := by
  have hplain : ∀ {e v}, Blocks.value (intSem R) isFloat vs ver e = .ok (some v) → Vl.Below zero cnt v := by
    intro e v h
    obtain ⟨t, _, rfl⟩ := value_term h
    exact vterm_below t hv
  cases e with
  | ifExp t a b =>
    simp only [assigned] at h
    obtain ⟨⟨c, x, y⟩, hbo, h⟩ := andSome_ok h
    obtain ⟨hc, hbo⟩ := both_ok hbo
    obtain ⟨hx, hy⟩ := both_ok hbo
    cases h
    intro σ σ' he
    simp only [Vl.eval, condition_below hc hv σ σ' he, hplain hx σ σ' he, hplain hy σ σ' he]
  | _ => simp only [assigned] at h; exact hplain h

/-- A value for a new variable: that of the expression, if it has one. -/
theorem ValueSound.pick {q : Prop} {e : Expr} (h : ValueSound R isFloat vs K zero q e) {ver : Ver} {v : Vl}
    (hv : assigned (intSem R) isFloat vs ver e = .ok (some v)) (σ : Vals) (env : Env Val) :
    ∃ i, eqValue i (v.eval zero σ) = true ∧
      (q → Fits R K ver σ env → Builtins env → ∀ w, eval (intSem R).toSem env e = .ok w → w.asInt = some i) := by
  obtain ⟨ht, hs⟩ := h ver v hv
  by_cases hc : q ∧ Fits R K ver σ env ∧ Builtins env ∧ ∃ w, eval (intSem R).toSem env e = .ok w
  · obtain ⟨hq, hf, hB, w, hw⟩ := hc
    obtain ⟨i, hi, he⟩ := hs hq σ env w hf hB hw
    refine ⟨i, he, fun _ _ _ w' hw' => ?_⟩
    rw [hw] at hw'
    cases hw'
    exact hi
  · obtain ⟨tv, htv⟩ := ht σ
    exact ⟨num tv, by rw [htv]; exact eqValue_num tv, fun hq hf hB w hw => absurd ⟨hq, hf, hB, w, hw⟩ hc⟩

theorem eval_setVar {env : Env Val} {x : Str} {v : Val} (hx : x ∈ T) (hk : Keys K T) {k : Expr} (h : K k)
    (hn : k ≠ .name x) : eval (intSem R).toSem (setVar env x v) k = eval (intSem R).toSem env k := by
  apply eval_congr
  intro y hy
  simp only [setVar]
  rw [if_neg]
  rintro rfl
  rcases hk k h with ⟨z, rfl⟩ | hk
  · simp only [names, List.mem_singleton] at hy
    subst hy
    exact hn rfl
  · exact hk y hy hx

theorem same_setVar {env : Env Val} {x : Str} {v : Val} (hx : x ∈ T) : Same T env (setVar env x v) := by
  intro y hy
  simp only [setVar]
  rw [if_neg]
  rintro rfl
  exact hy hx

variable (zero T) in
/-- What is known after a statement, as far as the variables of the solver go. -/
def Out.Good (ver cnt : Ver) : Out → Prop
  | .ends => True
  | .goes ver' changed asserts =>
    ver'.Le cnt ∧ BelowAll zero cnt asserts ∧ (∀ k ∈ changed, ∃ x ∈ T, k = .name x) ∧ ∀ k, k ∉ changed → ver' k = ver k

variable (R K zero) in
/-- What is known after a statement is so. -/
def Out.Fits (σ : Vals) (env : Env Val) : Out → Prop
  | .ends => False
  | .goes ver _ asserts => Blocks.Fits R K ver σ env ∧ Holds zero asserts σ

variable (R K zero T) in
/-- The claim about a statement or block. -/
def Step (run : Env Val → Except PyErr Flow) (ver : Ver) (st : St) (o : Out) (st' : St) : Prop :=
  st.cnt.Le st'.cnt ∧ BelowAll zero st'.cnt st'.rels ∧ o.Good zero T ver st'.cnt ∧
  ∀ σ env, Holds zero st.rels σ → ∃ σ', Ext st.cnt σ σ' ∧ Holds zero st'.rels σ' ∧
    ∀ env', Blocks.Fits R K ver σ env → Builtins env → run env = .ok (.go env') →
      Same T env env' ∧ o.Fits R K zero σ' env'

/-! ### Assignments -/

variable (R isFloat vs K zero T) in
/-- The targets and their values. -/
def Pairs : List Target → List Expr → Prop
  | .name x :: ts, e :: es => (x ∈ T ∧ (Known vs (.name x) → ValueSound R isFloat vs K zero (K (.name x)) e)) ∧ Pairs ts es
  | _, _ => True

theorem assignAll_ok (hk : Keys K T) (hkv : ∀ k, K k → Known vs k) (ver : Ver) :
    ∀ (ts : List Target) (es : List Expr) (ver' : Ver) (changed : List Expr) (st : St) (o : Out) (st' : St),
    Pairs R isFloat vs K zero T ts es → ver.Le st.cnt → ver'.Le st.cnt → BelowAll zero st.cnt st.rels →
    (∀ k ∈ changed, ∃ x ∈ T, k = .name x) →
    assignAll (intSem R) isFloat vs ver ts es ver' changed st = .ok (some (o, st')) →
    st.cnt.Le st'.cnt ∧ BelowAll zero st'.cnt st'.rels ∧
    ∃ ver'' changed', o = .goes ver'' changed' [] ∧ ver''.Le st'.cnt ∧ (∀ k ∈ changed', ∃ x ∈ T, k = .name x) ∧
      (∀ k, k ∉ changed' → k ∉ changed ∧ ver'' k = ver' k) ∧
      ∀ σ env₀, Holds zero st.rels σ → ∃ σ', Ext st.cnt σ σ' ∧ Holds zero st'.rels σ' ∧
        ∀ env env' vals, Fits R K ver σ env₀ → Builtins env₀ → evalAll (intSem R).toSem env₀ es = .ok vals →
          assignTargets effect ts vals env = .ok env' → Fits R K ver' σ env →
          Same T env env' ∧ Fits R K ver'' σ' env'
  | [], es, ver', changed, st, o, st', _, hv, hv', hb, hc, h => by
    simp only [assignAll, Except.ok.injEq, Option.some.injEq, Prod.mk.injEq] at h
    obtain ⟨rfl, rfl⟩ := h
    refine ⟨.refl _, hb, ver', changed, rfl, hv', hc, fun k hk => ⟨hk, rfl⟩, fun σ env₀ hs => ⟨σ, .refl _ _, hs, ?_⟩⟩
    intro env env' vals _ _ _ ha hf
    cases vals with
    | nil => simp only [assignTargets, Except.ok.injEq] at ha; subst ha; exact ⟨fun _ _ => rfl, hf⟩
    | cons v vals => simp only [assignTargets] at ha; cases ha
  | .other _ :: _, es, ver', changed, st, o, st', _, hv, hv', hb, hc, h => by
    simp only [assignAll] at h; cases h
  | .name x :: ts, [], ver', changed, st, o, st', _, hv, hv', hb, hc, h => by
    simp only [assignAll] at h
    by_cases hl : vs.lookup (.name x) = none
    · rw [if_pos hl] at h
      obtain ⟨h1, h2, ver'', changed', h3, h4, h5, h6, h7⟩ :=
        assignAll_ok hk hkv ver ts [] ver' changed st o st' (by cases ts <;> simp [Pairs]) hv hv' hb hc h
      refine ⟨h1, h2, ver'', changed', h3, h4, h5, h6, fun σ env₀ hs => ?_⟩
      obtain ⟨σ', hσ1, hσ2, _⟩ := h7 σ env₀ hs
      refine ⟨σ', hσ1, hσ2, fun env env' vals hf hB hev ha hf' => ?_⟩
      simp only [evalAll, Except.ok.injEq] at hev
      subst hev
      simp only [assignTargets] at ha
      cases ha
    · rw [if_neg hl] at h; cases h
  | .name x :: ts, e :: es, ver', changed, st, o, st', hp, hv, hv', hb, hc, h => by
    simp only [Pairs] at hp
    obtain ⟨⟨hx, he⟩, hp⟩ := hp
    simp only [assignAll] at h
    by_cases hl : vs.lookup (.name x) = none
    · rw [if_pos hl] at h
      obtain ⟨h1, h2, ver'', changed', h3, h4, h5, h6, h7⟩ :=
        assignAll_ok hk hkv ver ts es ver' changed st o st' hp hv hv' hb hc h
      refine ⟨h1, h2, ver'', changed', h3, h4, h5, h6, fun σ env₀ hs => ?_⟩
      obtain ⟨σ', hσ1, hσ2, hσ3⟩ := h7 σ env₀ hs
      refine ⟨σ', hσ1, hσ2, fun env env' vals hf hB hev ha hf' => ?_⟩
      simp only [evalAll] at hev
      cases hee : eval (intSem R).toSem env₀ e with
      | error y => rw [hee] at hev; cases hev
      | ok w =>
        rw [hee] at hev
        simp only at hev
        cases hes : evalAll (intSem R).toSem env₀ es with
        | error y => rw [hes] at hev; cases hev
        | ok ws =>
          rw [hes] at hev
          cases hev
          simp only [assignTargets] at ha
          obtain ⟨hs1, hs2⟩ := hσ3 (setVar env x w) env' ws hf hB hes ha (fun k hkk => by
            intro u hu
            rw [eval_setVar hx hk hkk (by rintro rfl; exact hkv _ hkk hl)] at hu
            exact hf' k hkk u hu)
          exact ⟨(same_setVar hx).trans hs1, hs2⟩
    · rw [if_neg hl] at h
      obtain ⟨v, hav, h⟩ := andSome_ok h
      have hvb : v.Below zero st.cnt := assigned_below hav hv
      have hle := bump_le st (.name x) v
      obtain ⟨h1, h2, ver'', changed', h3, h4, h5, h6, h7⟩ :=
        assignAll_ok hk hkv ver ts es (ver'.set (.name x) (st.cnt (.name x) + 1)) (changed ++ [.name x])
          (st.bump (.name x) v) o st' hp (hv.trans hle) (set_le hv' _) (bump_below hb hvb)
          (by
            intro k hk
            rcases List.mem_append.mp hk with hk | hk
            · exact hc k hk
            · exact ⟨x, hx, List.mem_singleton.mp hk⟩) h
      refine ⟨hle.trans h1, h2, ver'', changed', h3, h4, h5, fun k hkc => ?_, fun σ env₀ hs => ?_⟩
      · obtain ⟨ha, hb⟩ := h6 k hkc
        simp only [List.mem_append, List.mem_singleton, not_or] at ha
        refine ⟨ha.1, ?_⟩
        rw [hb]
        simp only [Ver.set]
        rw [if_neg ha.2]
      · obtain ⟨i, hi, hpy⟩ := (he hl).pick hav σ env₀
        obtain ⟨σ', hσ1, hσ2, hσ3⟩ := h7 (upd σ (.name x) (st.cnt (.name x) + 1) i) env₀ (bump_holds hb hvb hs hi)
        have hue := upd_ext st.cnt σ (.name x) i
        refine ⟨σ', hue.trans hσ1 hle, hσ2, fun env env' vals hf hB hev ha hf' => ?_⟩
        simp only [evalAll] at hev
        cases hee : eval (intSem R).toSem env₀ e with
        | error y => rw [hee] at hev; cases hev
        | ok w =>
          rw [hee] at hev
          simp only at hev
          cases hes : evalAll (intSem R).toSem env₀ es with
          | error y => rw [hes] at hev; cases hev
          | ok ws =>
            rw [hes] at hev
            cases hev
            simp only [assignTargets] at ha
            obtain ⟨hs1, hs2⟩ := hσ3 (setVar env x w) env' ws (hf.ext hv hue) hB hes ha (by
              intro k hkk u hu
              by_cases hkx : k = .name x
              · subst hkx
                simp only [eval, setVar, if_true] at hu
                cases hu
                rw [hpy hkk hf hB w hee]
                simp [at_, Ver.set, upd]
              · rw [eval_setVar hx hk hkk hkx] at hu
                rw [hf' k hkk u hu]
                simp only [at_, Ver.set]
                rw [if_neg hkx, hue k _ (hv' k)])
            exact ⟨(same_setVar hx).trans hs1, hs2⟩

theorem assign_step (hk : Keys K T) (hkv : ∀ k, K k → Known vs k) {ver : Ver} {st : St} {o : Out} {st' : St}
    {ts : List Target} {es : List Expr}
    (hp : Pairs R isFloat vs K zero T ts es) (hv : ver.Le st.cnt) (hb : BelowAll zero st.cnt st.rels)
    (h : assignAll (intSem R) isFloat vs ver ts es ver [] st = .ok (some (o, st')))
    {run : Env Val → Except PyErr Flow}
    (hrun : ∀ env env', run env = .ok (.go env') → ∃ vals, evalAll (intSem R).toSem env es = .ok vals ∧
      assignTargets effect ts vals env = .ok env') : Step R K zero T run ver st o st' := by
  obtain ⟨h1, h2, ver'', changed', rfl, h4, h5, h6, h7⟩ :=
    assignAll_ok effect hk hkv ver ts es ver [] st o st' hp hv hv hb (by simp) h
  refine ⟨h1, h2, ⟨h4, .nil, h5, fun k hkc => (h6 k hkc).2⟩, fun σ env hs => ?_⟩
  obtain ⟨σ', hσ1, hσ2, hσ3⟩ := h7 σ env hs
  refine ⟨σ', hσ1, hσ2, fun env' hf hB hr => ?_⟩
  obtain ⟨vals, hev, ha⟩ := hrun env env' hr
  obtain ⟨hs, hf'⟩ := hσ3 env env' vals hf hB hev ha hf
  exact ⟨hs, hf', fun f hf => nomatch hf⟩

/-- A statement after which all is as before. -/
theorem nothing_step {ver : Ver} {st : St} (hv : ver.Le st.cnt) (hb : BelowAll zero st.cnt st.rels)
    {run : Env Val → Except PyErr Flow} (hrun : ∀ env env', run env = .ok (.go env') → env' = env) :
    Step R K zero T run ver st (.goes ver [] []) st := by
  refine ⟨.refl _, hb, ⟨hv, .nil, fun k hk => (nomatch hk), fun _ _ => rfl⟩, fun σ env hs => ⟨σ, .refl _ _, hs, ?_⟩⟩
  intro env' hf _ hr
  rw [hrun env env' hr]
  exact ⟨fun _ _ => rfl, hf, fun f hf => nomatch hf⟩

/-! ### One after another -/

/-- What was known before is added. -/
def Out.after (changed : List Expr) (asserts : List Fm) : Out → Out
  | .ends => .ends
  | .goes ver changed' asserts' => .goes ver (changed ++ changed') (asserts ++ asserts')

theorem afterBlock_shift : ∀ (b : Block) (ver : Ver) (changed : List Expr) (asserts : List Fm) (ch : List Expr)
    (as : List Fm) (st : St) (o : Out) (st' : St),
    afterBlock (intSem R) isFloat vs b ver changed asserts st = .ok (some (o, st')) →
    afterBlock (intSem R) isFloat vs b ver (ch ++ changed) (as ++ asserts) st = .ok (some (o.after ch as, st'))
  | .nil, ver, changed, asserts, ch, as, st, o, st', h => by
    simp only [afterBlock, Except.ok.injEq, Option.some.injEq, Prod.mk.injEq] at h ⊢
    obtain ⟨rfl, rfl⟩ := h
    exact ⟨by simp [Out.after], rfl⟩
  | .cons s b, ver, changed, asserts, ch, as, st, o, st', h => by
    simp only [afterBlock] at h ⊢
    obtain ⟨⟨o1, st1⟩, h1, h⟩ := andSome_ok h
    rw [h1]
    simp only [andSome]
    cases o1 with
    | ends =>
      simp only [Except.ok.injEq, Option.some.injEq, Prod.mk.injEq] at h ⊢
      obtain ⟨rfl, rfl⟩ := h
      exact ⟨rfl, rfl⟩
    | goes ver1 ch1 as1 =>
      simp only at h ⊢
      rw [List.append_assoc, List.append_assoc]
      exact afterBlock_shift b ver1 _ _ ch as st1 o st' h

theorem afterBlock_acc : ∀ (b : Block) (ver : Ver) (changed : List Expr) (asserts : List Fm) (st : St) (o : Out) (st' : St),
    afterBlock (intSem R) isFloat vs b ver changed asserts st = .ok (some (o, st')) →
    ∃ o', afterBlock (intSem R) isFloat vs b ver [] [] st = .ok (some (o', st')) ∧ o = o'.after changed asserts
  | .nil, ver, changed, asserts, st, o, st', h => by
    simp only [afterBlock, Except.ok.injEq, Option.some.injEq, Prod.mk.injEq] at h ⊢
    obtain ⟨rfl, rfl⟩ := h
    exact ⟨_, ⟨rfl, rfl⟩, by simp [Out.after]⟩
  | .cons s b, ver, changed, asserts, st, o, st', h => by
    simp only [afterBlock] at h ⊢
    obtain ⟨⟨o1, st1⟩, h1, h⟩ := andSome_ok h
    rw [h1]
    simp only [andSome]
    cases o1 with
    | ends =>
      simp only [Except.ok.injEq, Option.some.injEq, Prod.mk.injEq] at h ⊢
      obtain ⟨rfl, rfl⟩ := h
      exact ⟨_, ⟨rfl, rfl⟩, rfl⟩
    | goes ver1 ch1 as1 =>
      simp only at h ⊢
      obtain ⟨o2, h2, rfl⟩ := afterBlock_acc b ver1 _ _ st1 o st' h
      refine ⟨o2.after ch1 as1, ?_, ?_⟩
      · simpa using afterBlock_shift b ver1 [] [] ch1 as1 st1 o2 st' h2
      · cases o2 <;> simp [Out.after]

variable (hT : ∀ f ∈ ["ord".toList, "range".toList, "abs".toList], f ∉ T)

include hT in
theorem seq_step {run₁ run₂ : Env Val → Except PyErr Flow} {ver ver₁ : Ver} {st st₁ st₂ : St} {ch : List Expr} {as : List Fm}
    {o : Out} (h₁ : Step R K zero T run₁ ver st (.goes ver₁ ch as) st₁) (h₂ : Step R K zero T run₂ ver₁ st₁ o st₂) :
    Step R K zero T (fun env =>
      match run₁ env with
      | .error x => .error x
      | .ok .stop => .ok .stop
      | .ok (.go env) => run₂ env) ver st (o.after ch as) st₂ := by
  obtain ⟨a1, a2, a3, a4⟩ := h₁
  obtain ⟨b1, b2, b3, b4⟩ := h₂
  refine ⟨a1.trans b1, b2, ?_, fun σ env hs => ?_⟩
  · cases o with
    | ends => trivial
    | goes ver₂ ch₂ as₂ =>
      obtain ⟨c1, c2, c3, c4⟩ := a3
      obtain ⟨d1, d2, d3, d4⟩ := b3
      refine ⟨d1, (c2.mono b1).append d2, fun k hk => ?_, fun k hk => ?_⟩
      · rcases List.mem_append.mp hk with hk | hk
        · exact c3 k hk
        · exact d3 k hk
      · simp only [List.mem_append, not_or] at hk
        rw [d4 k hk.2, c4 k hk.1]
  · obtain ⟨σ₁, e1, e2, e3⟩ := a4 σ env hs
    cases hr : run₁ env with
    | error x =>
      obtain ⟨σ₂, f1, f2, _⟩ := b4 σ₁ env e2
      refine ⟨σ₂, e1.trans f1 a1, f2, fun env' _ _ h => ?_⟩
      simp only [hr] at h
      cases h
    | ok fl =>
      cases fl with
      | stop =>
        obtain ⟨σ₂, f1, f2, _⟩ := b4 σ₁ env e2
        refine ⟨σ₂, e1.trans f1 a1, f2, fun env' _ _ h => ?_⟩
        simp only [hr] at h
        cases h
      | go env₁ =>
        obtain ⟨σ₂, f1, f2, f3⟩ := b4 σ₁ env₁ e2
        refine ⟨σ₂, e1.trans f1 a1, f2, fun env' hf hB h => ?_⟩
        simp only [hr] at h
        obtain ⟨g1, g2, g3⟩ := e3 env₁ hf hB hr
        obtain ⟨h1, h2⟩ := f3 env' g2 (g1.builtins hT hB) h
        refine ⟨g1.trans h1, ?_⟩
        cases o with
        | ends => exact h2
        | goes ver₂ ch₂ as₂ => exact ⟨h2.1, (g3.ext a3.2.1 f1).append h2.2⟩

/-! ### Branches -/

variable (zero) in
/-- The numbers of the variables after the first branch of which the condition is true. -/
def Picks (σ : Vals) : List Fm → List Ver → Ver → Prop
  | c :: cs, b :: bs, w => if c.eval zero σ = true then w = b else Picks σ cs bs w
  | _, _, _ => False

theorem Picks.mem {σ : Vals} {w : Ver} : ∀ {cs : List Fm} {bs : List Ver}, Picks zero σ cs bs w → w ∈ bs
  | [], _, h => by simp only [Picks] at h
  | _ :: _, [], h => by simp only [Picks] at h
  | c :: cs, b :: bs, h => by
    simp only [Picks] at h
    by_cases hc : c.eval zero σ = true
    · rw [if_pos hc] at h; subst h; exact List.mem_cons_self
    · rw [if_neg hc] at h; exact List.mem_cons_of_mem _ h.mem

theorem Picks.some_true {σ : Vals} {w : Ver} : ∀ {cs : List Fm} {bs : List Ver}, Picks zero σ cs bs w →
    ∃ c ∈ cs, c.eval zero σ = true
  | [], _, h => by simp only [Picks] at h
  | _ :: _, [], h => by simp only [Picks] at h
  | c :: cs, b :: bs, h => by
    simp only [Picks] at h
    by_cases hc : c.eval zero σ = true
    · exact ⟨c, List.mem_cons_self, hc⟩
    · rw [if_neg hc] at h
      obtain ⟨d, hd, hd'⟩ := h.some_true
      exact ⟨d, List.mem_cons_of_mem _ hd, hd'⟩

theorem Picks.append {σ : Vals} {w : Ver} {cs' : List Fm} {bs' : List Ver} : ∀ {cs : List Fm} {bs : List Ver},
    Picks zero σ cs bs w → Picks zero σ (cs ++ cs') (bs ++ bs') w
  | [], _, h => by simp only [Picks] at h
  | _ :: _, [], h => by simp only [Picks] at h
  | c :: cs, b :: bs, h => by
    simp only [Picks, List.cons_append] at h ⊢
    by_cases hc : c.eval zero σ = true
    · rw [if_pos hc] at h ⊢; exact h
    · rw [if_neg hc] at h ⊢; exact h.append

theorem picks_last {σ : Vals} {c : Fm} {w : Ver} (hc : c.eval zero σ = true) : ∀ {cs : List Fm} {bs : List Ver},
    cs.length = bs.length → (∀ d ∈ cs, d.eval zero σ = false) → Picks zero σ (cs ++ [c]) (bs ++ [w]) w
  | [], [], _, _ => by simp [Picks, hc]
  | [], _ :: _, h, _ => by simp at h
  | _ :: _, [], h, _ => by simp at h
  | d :: cs, b :: bs, h, hd => by
    simp only [List.cons_append, Picks, hd d List.mem_cons_self]
    exact picks_last hc (by simpa using h) fun e he => hd e (List.mem_cons_of_mem _ he)

theorem Picks.ext {cnt : Ver} {σ σ' : Vals} {w : Ver} (he : Ext cnt σ σ') : ∀ {cs : List Fm} {bs : List Ver},
    BelowAll zero cnt cs → Picks zero σ cs bs w → Picks zero σ' cs bs w
  | [], _, _, h => by simp only [Picks] at h
  | _ :: _, [], _, h => by simp only [Picks] at h
  | c :: cs, b :: bs, hb, h => by
    simp only [Picks] at h ⊢
    rw [hb c List.mem_cons_self σ σ' he]
    by_cases hc : c.eval zero σ = true
    · rw [if_pos hc] at h ⊢; exact h
    · rw [if_neg hc] at h ⊢; exact h.ext he fun f hf => hb f (List.mem_cons_of_mem _ hf)

/-! ### What a variable is after an `if` -/

theorem howChanged_int (σ : Vals) (x : Expr) (n : Nat) (he : Bool) : ∀ (cs : List Fm) (bs : List Ver),
    ∃ i, (howChanged x n he cs bs).eval zero σ = some (.int i)
  | cs, [] => by cases cs <;> exact ⟨_, rfl⟩
  | [], b :: bs => ⟨_, rfl⟩
  | c :: cs, b :: bs => by
    simp only [howChanged]
    by_cases h : (he && bs.isEmpty) = true
    · rw [if_pos h]; exact ⟨_, rfl⟩
    · rw [if_neg h]
      obtain ⟨i, hi⟩ := howChanged_int σ x n he cs bs
      simp only [Vl.eval, hi, iteValue]
      exact ⟨_, rfl⟩

theorem howChanged_picks {σ : Vals} {w : Ver} (x : Expr) (n : Nat) (he : Bool) : ∀ {cs : List Fm} {bs : List Ver},
    Picks zero σ cs bs w → (howChanged x n he cs bs).eval zero σ = some (.int (σ x (w x)))
  | [], _, h => by simp only [Picks] at h
  | _ :: _, [], h => by simp only [Picks] at h
  | c :: cs, b :: bs, h => by
    simp only [howChanged]
    simp only [Picks] at h
    by_cases hl : (he && bs.isEmpty) = true
    · rw [if_pos hl]
      simp only [Bool.and_eq_true, List.isEmpty_iff] at hl
      rw [hl.2] at h
      by_cases hc : c.eval zero σ = true
      · rw [if_pos hc] at h; rw [h]; simp only [Vl.eval]
      · rw [if_neg hc] at h
        cases cs <;> simp only [Picks] at h
    · rw [if_neg hl]
      by_cases hc : c.eval zero σ = true
      · rw [if_pos hc] at h
        obtain ⟨i, hi⟩ := howChanged_int (zero := zero) σ x n he cs bs
        simp [Vl.eval, hi, iteValue, hc, h, num]
      · rw [if_neg hc] at h
        simp [Vl.eval, howChanged_picks x n he h, iteValue, hc, num]

theorem howChanged_none {σ : Vals} (x : Expr) (n : Nat) : ∀ {cs : List Fm} {bs : List Ver}, cs.length = bs.length →
    (∀ c ∈ cs, c.eval zero σ = false) → (howChanged x n false cs bs).eval zero σ = some (.int (σ x n))
  | [], [], _, _ => rfl
  | [], _ :: _, h, _ => by simp at h
  | _ :: _, [], h, _ => by simp at h
  | c :: cs, b :: bs, h, hc => by
    simp only [howChanged, Bool.false_and]
    have := howChanged_none (σ := σ) x n (cs := cs) (bs := bs) (by simpa using h)
      fun e he => hc e (List.mem_cons_of_mem _ he)
    simp [Vl.eval, this, iteValue, hc c List.mem_cons_self, num]

theorem howChanged_else {σ : Vals} (x : Expr) (n : Nat) {w : Ver} : ∀ {cs : List Fm} {bs : List Ver}, cs.length = bs.length →
    (∀ c ∈ cs, c.eval zero σ = false) → (howChanged x n true cs (bs ++ [w])).eval zero σ = some (.int (σ x (w x)))
  | [], [], _, _ => rfl
  | [], _ :: _, h, _ => by simp at h
  | _ :: _, [], h, _ => by simp at h
  | c :: cs, b :: bs, h, hc => by
    simp only [howChanged, List.cons_append]
    have := howChanged_else (σ := σ) x n (w := w) (cs := cs) (bs := bs) (by simpa using h)
      fun e he => hc e (List.mem_cons_of_mem _ he)
    rw [if_neg (by simp)]
    simp [Vl.eval, this, iteValue, hc c List.mem_cons_self, num]

theorem howChanged_below {cnt : Ver} (x : Expr) {n : Nat} (hn : n ≤ cnt x) (he : Bool) : ∀ {cs : List Fm} {bs : List Ver},
    BelowAll zero cnt cs → (∀ b ∈ bs, b.Le cnt) → (howChanged x n he cs bs).Below zero cnt
  | cs, [], _, _ => by
    intro σ σ' h
    cases cs <;> simp only [howChanged, Vl.eval, h x n hn]
  | [], b :: bs, _, hb => by
    intro σ σ' h
    simp only [howChanged, Vl.eval, h x _ (hb b List.mem_cons_self x)]
  | c :: cs, b :: bs, hc, hb => by
    intro σ σ' h
    simp only [howChanged]
    by_cases hl : (he && bs.isEmpty) = true
    · rw [if_pos hl]
      simp only [Vl.eval, h x _ (hb b List.mem_cons_self x)]
    · rw [if_neg hl]
      simp only [Vl.eval, h x _ (hb b List.mem_cons_self x), hc c List.mem_cons_self σ σ' h,
        howChanged_below x hn he (fun f hf => hc f (List.mem_cons_of_mem _ hf))
          (fun d hd => hb d (List.mem_cons_of_mem _ hd)) σ σ' h]

/-- New variables for those that were changed in a branch. -/
theorem newVars_ok {acc : Acc} {he : Bool} {ver : Ver} : ∀ (xs : List Expr) (ver' : Ver) (st : St), ver'.Le st.cnt →
    BelowAll zero st.cnt st.rels → (∀ x, (howChanged x (ver x) he acc.conds acc.branches).Below zero st.cnt) →
    let r := newVars acc he ver xs (ver', st)
    st.cnt.Le r.2.cnt ∧ BelowAll zero r.2.cnt r.2.rels ∧ r.1.Le r.2.cnt ∧ (∀ k, k ∉ xs → r.1 k = ver' k) ∧
    ∀ σ, Holds zero st.rels σ → ∃ σ', Ext st.cnt σ σ' ∧ Holds zero r.2.rels σ' ∧
      ∀ x ∈ xs, (howChanged x (ver x) he acc.conds acc.branches).eval zero σ = some (.int (σ' x (r.1 x)))
  | [], ver', st, hv, hb, hh => by
    simp only [newVars]
    exact ⟨.refl _, hb, hv, fun _ _ => trivial, fun σ hs => ⟨σ, .refl _ _, hs, fun x hx => nomatch hx⟩⟩
  | x :: xs, ver', st, hv, hb, hh => by
    simp only [newVars]
    have hle := bump_le st x (howChanged x (ver x) he acc.conds acc.branches)
    obtain ⟨h1, h2, h3, h4, h5⟩ := newVars_ok xs (ver'.set x (st.cnt x + 1))
      (st.bump x (howChanged x (ver x) he acc.conds acc.branches)) (set_le hv x) (bump_below hb (hh x))
      (fun y => (hh y).mono hle)
    refine ⟨hle.trans h1, h2, h3, fun k hk => ?_, fun σ hs => ?_⟩
    · simp only [List.mem_cons, not_or] at hk
      rw [h4 k hk.2]
      simp only [Ver.set]
      rw [if_neg hk.1]
    · obtain ⟨i, hi⟩ := howChanged_int (zero := zero) σ x (ver x) he acc.conds acc.branches
      have hue := upd_ext st.cnt σ x i
      obtain ⟨σ', a1, a2, a3⟩ := h5 (upd σ x (st.cnt x + 1) i) (bump_holds hb (hh x) hs (by rw [hi]; simp [eqValue]))
      refine ⟨σ', hue.trans a1 hle, a2, fun y hy => ?_⟩
      by_cases hyx : y ∈ xs
      · rw [← a3 y hyx, hh y σ _ hue]
      · rcases List.mem_cons.mp hy with rfl | hy
        · rw [h4 y hyx, hi]
          simp only [Ver.set, if_true]
          rw [a1 y (st.cnt y + 1) (by simp [St.bump, Ver.set]), upd_self]
        · exact absurd hy hyx

/-! ### `if` -/

variable (zero T) in
/-- What the branches so far gave, as far as the variables of the solver go. -/
def Acc.Good (ver cnt : Ver) (acc : Acc) : Prop :=
  BelowAll zero cnt acc.conds ∧ BelowAll zero cnt acc.asserts ∧ (∀ k ∈ acc.changed, ∃ x ∈ T, k = .name x) ∧
  (∀ b ∈ acc.branches, b.Le cnt ∧ ∀ k, k ∉ acc.changed → b k = ver k) ∧ (acc.always = true → acc.conds = [])

variable (R K zero) in
/-- One of the branches was run. -/
def Decided (acc : Acc) (σ : Vals) (env' : Env Val) : Prop :=
  Holds zero acc.asserts σ ∧ ∃ w, Picks zero σ acc.conds acc.branches w ∧ Fits R K w σ env'

variable (zero) in
/-- No branch was run yet. -/
def Undecided (acc : Acc) (σ : Vals) : Prop :=
  Holds zero acc.asserts σ ∧ ∀ c ∈ acc.conds, c.eval zero σ = false

variable (R K zero) in
/-- What comes out. -/
def Final (ver : Ver) (acc : Acc) (he : Bool) (σ : Vals) (env' : Env Val) : Prop :=
  acc.always = false ∧ Holds zero acc.asserts σ ∧ ∃ w, (∀ k, k ∉ acc.changed → w k = ver k) ∧ Fits R K w σ env' ∧
    ∀ x, (howChanged x (ver x) he acc.conds acc.branches).eval zero σ = some (.int (σ x (w x)))

variable (R K zero T) in
/-- The claim about the branches that are left. -/
def RestStep (run : Env Val → Except PyErr Flow) (ver : Ver) (acc : Acc) (st : St) (acc' : Acc) (he : Bool) (st' : St) :
    Prop :=
  st.cnt.Le st'.cnt ∧ BelowAll zero st'.cnt st'.rels ∧ acc'.Good zero T ver st'.cnt ∧
  ∀ σ env, Holds zero st.rels σ → ∃ σ', Ext st.cnt σ σ' ∧ Holds zero st'.rels σ' ∧
    (∀ env', Decided R K zero acc σ env' → Final R K zero ver acc' he σ' env') ∧
    ∀ env', Undecided zero acc σ → Fits R K ver σ env → Builtins env → run env = .ok (.go env') →
      Same T env env' ∧ Final R K zero ver acc' he σ' env'

theorem decided_final {ver cnt : Ver} {acc : Acc} {σ : Vals} {env' : Env Val} (hg : acc.Good zero T ver cnt) (he : Bool)
    (h : Decided R K zero acc σ env') : Final R K zero ver acc he σ env' := by
  obtain ⟨ha, w, hp, hf⟩ := h
  refine ⟨?_, ha, w, (hg.2.2.2.1 w hp.mem).2, hf, fun x => howChanged_picks x _ he hp⟩
  obtain ⟨c, hc, _⟩ := hp.some_true
  cases hal : acc.always with
  | false => rfl
  | true => rw [hg.2.2.2.2 hal] at hc; cases hc

theorem Decided.ext {ver cnt : Ver} {acc : Acc} {σ σ' : Vals} {env' : Env Val} (hg : acc.Good zero T ver cnt)
    (he : Ext cnt σ σ') (h : Decided R K zero acc σ env') : Decided R K zero acc σ' env' := by
  obtain ⟨ha, w, hp, hf⟩ := h
  exact ⟨ha.ext hg.2.1 he, w, hp.ext he hg.1, hf.ext (hg.2.2.2.1 w hp.mem).1 he⟩

theorem Undecided.ext {ver cnt : Ver} {acc : Acc} {σ σ' : Vals} (hg : acc.Good zero T ver cnt)
    (he : Ext cnt σ σ') (h : Undecided zero acc σ) : Undecided zero acc σ' :=
  ⟨h.1.ext hg.2.1 he, fun c hc => by rw [hg.1 c hc σ σ' he]; exact h.2 c hc⟩

theorem Acc.Good.mono {ver cnt cnt' : Ver} {acc : Acc} (h : acc.Good zero T ver cnt) (hl : cnt.Le cnt') :
    acc.Good zero T ver cnt' :=
  ⟨h.1.mono hl, h.2.1.mono hl, h.2.2.1, fun b hb => ⟨(h.2.2.2.1 b hb).1.trans hl, (h.2.2.2.1 b hb).2⟩, h.2.2.2.2⟩

theorem branch_good {ver cnt : Ver} {acc : Acc} {c : Fm} {o : Out} (h : acc.Good zero T ver cnt) (hc : c.Below zero cnt)
    (ho : o.Good zero T ver cnt) : (acc.branch c o).Good zero T ver cnt := by
  obtain ⟨h1, h2, h3, h4, h5⟩ := h
  cases o with
  | ends =>
    exact ⟨h1, h2.append (.single (imp_below (conj_below (nots_below h1)) (not_below hc))), h3, h4, h5⟩
  | goes ver' ch as =>
    obtain ⟨o1, o2, o3, o4⟩ := ho
    refine ⟨h1.append (.single hc), h2.append ?_, ?_, ?_, fun h => nomatch h⟩
    · intro f hf
      obtain ⟨g, hg, rfl⟩ := List.mem_map.mp hf
      exact imp_below (and_below (conj_below (nots_below h1)) hc) (o2 g hg)
    · intro k hk
      rcases List.mem_append.mp hk with hk | hk
      · exact h3 k hk
      · exact o3 k hk
    · intro b hb
      rcases List.mem_append.mp hb with hb | hb
      · exact ⟨(h4 b hb).1, fun k hk => (h4 b hb).2 k fun hk' => hk (List.mem_append_left _ hk')⟩
      · rw [List.mem_singleton.mp hb]
        exact ⟨o1, fun k hk => o4 k fun hk' => hk (List.mem_append_right _ hk')⟩

theorem branch_length {acc : Acc} {c : Fm} {o : Out} (h : acc.conds.length = acc.branches.length) :
    (acc.branch c o).conds.length = (acc.branch c o).branches.length := by
  cases o with
  | ends => exact h
  | goes _ _ _ => simp [Acc.branch, h]

theorem not_first {σ : Vals} {cs : List Fm} (h : ∃ c ∈ cs, c.eval zero σ = true) :
    (conj (cs.map .not)).eval zero σ = false := by
  cases hn : (conj (cs.map .not)).eval zero σ with
  | false => rfl
  | true =>
    obtain ⟨c, hc, ht⟩ := h
    rw [nots_eval.mp hn c hc] at ht
    cases ht

theorem branch_decided {acc : Acc} {c : Fm} {o : Out} {σ : Vals} {env' : Env Val} (h : Decided R K zero acc σ env') :
    Decided R K zero (acc.branch c o) σ env' := by
  obtain ⟨ha, w, hp, hf⟩ := h
  have hn := not_first hp.some_true
  cases o with
  | ends => exact ⟨ha.append (.single (by simp [Fm.eval, hn])), w, hp, hf⟩
  | goes ver' ch as =>
    refine ⟨ha.append fun f hf => ?_, w, hp.append, hf⟩
    obtain ⟨g, hg, rfl⟩ := List.mem_map.mp hf
    simp [Fm.eval, hn]

theorem branch_run {acc : Acc} {c : Fm} {o : Out} {σ : Vals} {env' : Env Val} (h : Undecided zero acc σ)
    (hl : acc.conds.length = acc.branches.length) (hc : c.eval zero σ = true) (ho : o.Fits R K zero σ env') :
    Decided R K zero (acc.branch c o) σ env' := by
  cases o with
  | ends => exact ho.elim
  | goes ver' ch as =>
    refine ⟨h.1.append fun f hf => ?_, ver', picks_last hc hl h.2, ho.1⟩
    obtain ⟨g, hg, rfl⟩ := List.mem_map.mp hf
    simp [Fm.eval, ho.2 g hg]

theorem branch_skipped {acc : Acc} {c : Fm} {o : Out} {σ : Vals} (h : Undecided zero acc σ) (hc : c.eval zero σ = false) :
    Undecided zero (acc.branch c o) σ := by
  cases o with
  | ends => exact ⟨h.1.append (.single (by simp [Fm.eval, hc])), h.2⟩
  | goes ver' ch as =>
    refine ⟨h.1.append fun f hf => ?_, fun d hd => ?_⟩
    · obtain ⟨g, hg, rfl⟩ := List.mem_map.mp hf
      simp [Fm.eval, hc]
    · rcases List.mem_append.mp hd with hd | hd
      · exact h.2 d hd
      · rw [List.mem_singleton.mp hd]; exact hc

variable (R isFloat vs K zero T) in
def StmtOk (s : Stmt) : Prop :=
  ∀ ver st o st', ver.Le st.cnt → BelowAll zero st.cnt st.rels →
    afterStmt (intSem R) isFloat vs s ver st = .ok (some (o, st')) →
    Step R K zero T (runStmt (intSem R).toSem iter effect other s) ver st o st'

variable (R isFloat vs K zero T) in
def BlockOk (b : Block) : Prop :=
  ∀ ver st o st', ver.Le st.cnt → BelowAll zero st.cnt st.rels →
    afterBlock (intSem R) isFloat vs b ver [] [] st = .ok (some (o, st')) →
    Step R K zero T (runBlock (intSem R).toSem iter effect other b) ver st o st'

variable (R isFloat vs K zero T) in
def RestOk (r : Rest) : Prop :=
  ∀ ver acc st acc' he st', ver.Le st.cnt → BelowAll zero st.cnt st.rels → acc.Good zero T ver st.cnt →
    acc.conds.length = acc.branches.length →
    afterRest (intSem R) isFloat vs r ver acc st = .ok (some (acc', he, st')) →
    RestStep R K zero T (runRest (intSem R).toSem iter effect other r) ver acc st acc' he st'

theorem none_ok : RestOk R isFloat vs K zero T iter effect other .none := by
  intro ver acc st acc' he st' hv hb hg hl h
  simp only [afterRest, Except.ok.injEq, Option.some.injEq, Prod.mk.injEq] at h
  obtain ⟨rfl, rfl, rfl⟩ := h
  refine ⟨.refl _, hb, ⟨hg.1, hg.2.1, hg.2.2.1, hg.2.2.2.1, fun h => nomatch h⟩, fun σ env hs => ?_⟩
  refine ⟨σ, .refl _ _, hs, fun env' hd => ?_, fun env' hu hf hB hr => ?_⟩
  · obtain ⟨_, h2⟩ := decided_final hg false hd
    exact ⟨rfl, h2⟩
  · simp only [runRest, Except.ok.injEq, Flow.go.injEq] at hr
    subst hr
    exact ⟨fun _ _ => rfl, rfl, hu.1, ver, fun _ _ => rfl, hf, fun x => howChanged_none x _ hl hu.2⟩

theorem else_ok {b : Block} (hbk : BlockOk R isFloat vs K zero T iter effect other b) :
    RestOk R isFloat vs K zero T iter effect other (.else_ b) := by
  intro ver acc st acc' he st' hv hb hg hl h
  simp only [afterRest] at h
  obtain ⟨⟨o, st1⟩, hob, h⟩ := andSome_ok h
  simp only [Except.ok.injEq, Option.some.injEq, Prod.mk.injEq] at h
  obtain ⟨rfl, rfl, rfl⟩ := h
  obtain ⟨b1, b2, b3, b4⟩ := hbk ver st o st1 hv hb hob
  have hg' := hg.mono b1
  have hgood : (acc.elseBranch o).Good zero T ver st1.cnt := by
    clear hob b4
    obtain ⟨h1, h2, h3, h4, h5⟩ := hg'
    cases o with
    | ends => exact ⟨h1, h2.append (.single (disj_below h1)), h3, h4, h5⟩
    | goes ver' ch as =>
      obtain ⟨o1, o2, o3, o4⟩ := b3
      refine ⟨h1, h2.append fun f hf => ?_, fun k hk => ?_, fun b hb => ?_, fun h => nomatch h⟩
      · obtain ⟨g, hg, rfl⟩ := List.mem_map.mp hf
        exact imp_below (conj_below (nots_below h1)) (o2 g hg)
      · rcases List.mem_append.mp hk with hk | hk
        · exact h3 k hk
        · exact o3 k hk
      · rcases List.mem_append.mp hb with hb | hb
        · exact ⟨(h4 b hb).1, fun k hk => (h4 b hb).2 k fun hk' => hk (List.mem_append_left _ hk')⟩
        · rw [List.mem_singleton.mp hb]
          exact ⟨o1, fun k hk => o4 k fun hk' => hk (List.mem_append_right _ hk')⟩
  refine ⟨b1, b2, hgood, fun σ env hs => ?_⟩
  obtain ⟨σ', s1, s2, s3⟩ := b4 σ env hs
  refine ⟨σ', s1, s2, fun env' hd => ?_, fun env' hu hf hB hr => ?_⟩
  · refine decided_final hgood true ?_
    obtain ⟨ha, w, hp, hfw⟩ := hd.ext hg s1
    cases o with
    | ends => exact ⟨ha.append (.single (disj_eval.mpr hp.some_true)), w, hp, hfw⟩
    | goes ver' ch as =>
      refine ⟨ha.append fun f hf => ?_, w, by simpa [Acc.elseBranch] using hp.append (cs' := []) (bs' := [ver']), hfw⟩
      obtain ⟨g, hg, rfl⟩ := List.mem_map.mp hf
      simp [Fm.eval, not_first hp.some_true]
  · simp only [runRest] at hr
    obtain ⟨hsame, hfit⟩ := s3 env' hf hB hr
    refine ⟨hsame, ?_⟩
    have hu := hu.ext hg s1
    cases o with
    | ends => exact hfit.elim
    | goes ver' ch as =>
      refine ⟨rfl, hu.1.append fun f hf => ?_, ver', fun k hk => b3.2.2.2 k fun hk' => hk (List.mem_append_right _ hk'),
        hfit.1, fun x => howChanged_else x _ hl hu.2⟩
      obtain ⟨g, hg, rfl⟩ := List.mem_map.mp hf
      simp [Fm.eval, hfit.2 g hg]

theorem elif_ok {t : Expr} {b : Block} {r : Rest} (ht : CondSound R isFloat vs K zero t)
    (hbk : BlockOk R isFloat vs K zero T iter effect other b) (hrk : RestOk R isFloat vs K zero T iter effect other r) :
    RestOk R isFloat vs K zero T iter effect other (.elif_ t b r) := by
  intro ver acc st acc' he st' hv hb hg hl h
  simp only [afterRest] at h
  obtain ⟨⟨c, o, st1⟩, hbo, h⟩ := andSome_ok h
  obtain ⟨hc, h1⟩ := both_ok hbo
  have hcb : c.Below zero st.cnt := condition_below hc hv
  obtain ⟨b1, b2, b3, b4⟩ := hbk ver st o st1 hv hb h1
  obtain ⟨r1, r2, r3, r4⟩ := hrk ver (acc.branch c o) st1 acc' he st' (hv.trans b1) b2
    (branch_good (hg.mono b1) (hcb.mono b1) b3) (branch_length hl) h
  refine ⟨b1.trans r1, r2, r3, fun σ env hs => ?_⟩
  obtain ⟨σ1, s1, s2, s3⟩ := b4 σ env hs
  obtain ⟨σ2, u1, u2, u3, u4⟩ := r4 σ1 env s2
  refine ⟨σ2, s1.trans u1 b1, u2, fun env' hd => u3 env' (branch_decided (hd.ext hg s1)), fun env' hu hf hB hr => ?_⟩
  simp only [runRest] at hr
  cases htr : truthOf (intSem R).toSem env t with
  | error x => rw [htr] at hr; cases hr
  | ok q =>
    rw [htr] at hr
    have hcq : c.eval zero σ1 = q := by rw [hcb σ σ1 s1]; exact ht ver c hc σ env q hf hB htr
    cases q with
    | true =>
      simp only at hr
      obtain ⟨hsame, hfit⟩ := s3 env' hf hB hr
      exact ⟨hsame, u3 env' (branch_run (hu.ext hg s1) hl hcq hfit)⟩
    | false =>
      simp only at hr
      exact u4 env' (branch_skipped (hu.ext hg s1) hcq) (hf.ext hv s1) hB hr

theorem if_ok {t : Expr} {b : Block} {r : Rest} (hrk : RestOk R isFloat vs K zero T iter effect other (.elif_ t b r)) :
    StmtOk R isFloat vs K zero T iter effect other (.if_ t b r) := by
  intro ver st o st' hv hb h
  simp only [afterStmt] at h
  obtain ⟨⟨c, p⟩, hbo, h⟩ := andSome_ok h
  obtain ⟨hc, hp⟩ := both_ok hbo
  obtain ⟨⟨acc', he, st1⟩, hq, h⟩ := andSome_ok h
  simp only [Except.ok.injEq, Option.some.injEq] at h
  have h0 : Acc.Good zero T ver st.cnt ⟨[], [], [], [], true⟩ :=
    ⟨.nil, .nil, fun k hk => (nomatch hk), fun b hb => (nomatch hb), fun _ => rfl⟩
  obtain ⟨r1, r2, r3, r4⟩ := hrk ver ⟨[], [], [], [], true⟩ st acc' he st1 hv hb h0 rfl (by
    simp only [afterRest, hc, hp, andSome]
    exact hq)
  have hundec : ∀ σ, Undecided zero ⟨[], [], [], [], true⟩ σ := fun σ => ⟨fun f hf => (nomatch hf), fun f hf => nomatch hf⟩
  have hrun : ∀ env, runStmt (intSem R).toSem iter effect other (.if_ t b r) env =
      runRest (intSem R).toSem iter effect other (.elif_ t b r) env := fun env => by simp only [runStmt, runRest]
  unfold finishIf at h
  cases hal : acc'.always with
  | true =>
    rw [if_pos hal] at h
    cases h
    refine ⟨r1, r2, trivial, fun σ env hs => ?_⟩
    obtain ⟨σ', s1, s2, _, s4⟩ := r4 σ env hs
    refine ⟨σ', s1, s2, fun env' hf hB hr => ?_⟩
    rw [hrun] at hr
    have := (s4 env' (hundec σ) hf hB hr).2.1
    rw [hal] at this
    cases this
  | false =>
    rw [if_neg (by rw [hal]; exact Bool.false_ne_true)] at h
    obtain ⟨n1, n2, n3, n4, n5⟩ := newVars_ok (zero := zero) (acc := acc') (he := he) (ver := ver) acc'.changed.eraseDups ver
      st1 (hv.trans r1) r2 (fun x => howChanged_below x ((hv.trans r1) x) he r3.1 fun b hb => (r3.2.2.2.1 b hb).1)
    generalize newVars acc' he ver acc'.changed.eraseDups (ver, st1) = nv at *
    obtain ⟨nver, nst⟩ := nv
    simp only at n1 n2 n3 n4 n5
    simp only [Prod.mk.injEq] at h
    obtain ⟨rfl, rfl⟩ := h
    refine ⟨r1.trans n1, n2, ⟨n3, r3.2.1.mono n1, fun k hk => r3.2.2.1 k (List.mem_eraseDups.mp hk), n4⟩,
      fun σ env hs => ?_⟩
    obtain ⟨σ1, s1, s2, _, s4⟩ := r4 σ env hs
    obtain ⟨σ2, t1, t2, t3⟩ := n5 σ1 s2
    refine ⟨σ2, s1.trans t1 r1, t2, fun env' hf hB hr => ?_⟩
    rw [hrun] at hr
    obtain ⟨hsame, _, has, w, hw, hfw, hch⟩ := s4 env' (hundec σ) hf hB hr
    refine ⟨hsame, ?_, has.ext r3.2.1 t1⟩
    intro k hk v hev
    rw [hfw k hk v hev]
    simp only [at_]
    by_cases hkc : k ∈ acc'.changed
    · have := t3 k (List.mem_eraseDups.mpr hkc)
      rw [hch k] at this
      simpa using this
    · rw [n4 k (fun h => hkc (List.mem_eraseDups.mp h)), hw k hkc, t1 k _ ((hv.trans r1) k)]

/-! ### All of it -/

variable (R isFloat vs K zero T) in
mutual
/-- All values and conditions are translated as they are meant. -/
def Stmt.Fine : Stmt → Prop
  | .assign (.name x) e => Pairs R isFloat vs K zero T [.name x] [e]
  | .assigns ts e => ∃ es, e = .other "Tuple".toList es ∧ Pairs R isFloat vs K zero T ts es
  | .aug (.name x) op e => Pairs R isFloat vs K zero T [.name x] [.bin op (.name x) e]
  | .assert_ e => CondSound R isFloat vs K zero e
  | .if_ t b r => CondSound R isFloat vs K zero t ∧ b.Fine ∧ r.Fine
  | .other _ => False
  | _ => True

def Block.Fine : Block → Prop
  | .nil => True
  | .cons s b => s.Fine ∧ b.Fine

def Rest.Fine : Rest → Prop
  | .none => True
  | .elif_ t b r => CondSound R isFloat vs K zero t ∧ b.Fine ∧ r.Fine
  | .else_ b => b.Fine
end

variable (hk : Keys K T) (hkv : ∀ k, K k → Known vs k)

set_option linter.unusedSectionVars false in
include hk hkv hT in
mutual
theorem stmt_ok : ∀ (s : Stmt), s.Fine R isFloat vs K zero T → StmtOk R isFloat vs K zero T iter effect other s
  | .assign (.name x) e, hf => by
    intro ver st o st' hv hb h
    simp only [afterStmt, afterAssign] at h
    simp only [Stmt.Fine] at hf
    refine assign_step effect hk hkv hf hv hb h fun env env' hr => ?_
    simp only [runStmt] at hr
    cases hev : eval (intSem R).toSem env e with
    | error y => rw [hev] at hr; cases hr
    | ok v =>
      rw [hev] at hr
      simp only [assignTargets, goOn, Except.ok.injEq, Flow.go.injEq] at hr
      exact ⟨[v], by simp [evalAll, hev], by simp [assignTargets, hr]⟩
  | .assign (.other _) e, hf => by
    intro ver st o st' hv hb h
    simp only [afterStmt, afterAssign, assignAll] at h
    cases h
  | .assigns ts e, hf => by
    intro ver st o st' hv hb h
    simp only [afterStmt, afterAssign] at h
    simp only [Stmt.Fine] at hf
    obtain ⟨es, rfl, hf⟩ := hf
    simp only [children] at h
    refine assign_step effect hk hkv hf hv hb h fun env env' hr => ?_
    simp only [runStmt, unpack, if_true] at hr
    cases hev : evalAll (intSem R).toSem env es with
    | error y => rw [hev] at hr; cases hr
    | ok vals =>
      rw [hev] at hr
      simp only at hr
      cases ha : assignTargets effect ts vals env with
      | error y => rw [ha] at hr; cases hr
      | ok env1 => rw [ha] at hr; cases hr; exact ⟨vals, rfl, ha⟩
  | .aug (.name x) op e, hf => by
    intro ver st o st' hv hb h
    simp only [afterStmt, afterAssign] at h
    simp only [Stmt.Fine] at hf
    refine assign_step effect hk hkv hf hv hb h fun env env' hr => ?_
    simp only [runStmt] at hr
    cases hev : eval (intSem R).toSem env (.bin op (.name x) e) with
    | error y => rw [hev] at hr; cases hr
    | ok v =>
      rw [hev] at hr
      simp only [Except.ok.injEq, Flow.go.injEq] at hr
      exact ⟨[v], by simp [evalAll, hev], by simp [assignTargets, hr]⟩
  | .aug (.other _) op e, hf => by
    intro ver st o st' hv hb h
    simp only [afterStmt, afterAssign] at h
    cases h
  | .expr e, hf => by
    intro ver st o st' hv hb h
    simp only [afterStmt, afterAssign, Except.ok.injEq, Option.some.injEq, Prod.mk.injEq] at h
    obtain ⟨rfl, rfl⟩ := h
    refine nothing_step hv hb fun env env' hr => ?_
    simp only [runStmt] at hr
    cases hev : eval (intSem R).toSem env e with
    | error y => rw [hev] at hr; cases hr
    | ok v => rw [hev] at hr; cases hr; rfl
  | .pass, hf => by
    intro ver st o st' hv hb h
    simp only [afterStmt, afterAssign, Except.ok.injEq, Option.some.injEq, Prod.mk.injEq] at h
    obtain ⟨rfl, rfl⟩ := h
    refine nothing_step hv hb fun env env' hr => ?_
    simp only [runStmt] at hr
    cases hr
    rfl
  | .assert_ e, hf => by
    intro ver st o st' hv hb h
    simp only [Stmt.Fine] at hf
    simp only [afterStmt] at h
    obtain ⟨c, hc, h⟩ := andSome_ok h
    simp only [Except.ok.injEq, Option.some.injEq, Prod.mk.injEq] at h
    obtain ⟨rfl, rfl⟩ := h
    refine ⟨.refl _, hb, ⟨hv, .single (condition_below hc hv), fun k hk => (nomatch hk), fun _ _ => rfl⟩,
      fun σ env hs => ⟨σ, .refl _ _, hs, fun env' hfit hB hr => ?_⟩⟩
    simp only [runStmt] at hr
    cases htr : truthOf (intSem R).toSem env e with
    | error x => rw [htr] at hr; cases hr
    | ok q =>
      rw [htr] at hr
      cases q with
      | false => cases hr
      | true => cases hr; exact ⟨fun _ _ => rfl, hfit, .single (hf ver c hc σ env true hfit hB htr)⟩
  | .end_, hf => by
    intro ver st o st' hv hb h
    simp only [afterStmt, Except.ok.injEq, Option.some.injEq, Prod.mk.injEq] at h
    obtain ⟨rfl, rfl⟩ := h
    refine ⟨.refl _, hb, trivial, fun σ env hs => ⟨σ, .refl _ _, hs, fun env' hfit hB hr => ?_⟩⟩
    simp only [runStmt] at hr
    cases hr
  | .if_ t b r, hf => by
    simp only [Stmt.Fine] at hf
    exact if_ok iter effect other (elif_ok iter effect other hf.1 (block_ok b hf.2.1) (rest_ok r hf.2.2))
  | .other _, hf => by simp only [Stmt.Fine] at hf

theorem block_ok : ∀ (b : Block), b.Fine R isFloat vs K zero T → BlockOk R isFloat vs K zero T iter effect other b
  | .nil, hf => by
    intro ver st o st' hv hb h
    simp only [afterBlock, Except.ok.injEq, Option.some.injEq, Prod.mk.injEq] at h
    obtain ⟨rfl, rfl⟩ := h
    refine nothing_step hv hb fun env env' hr => ?_
    simp only [runBlock] at hr
    cases hr
    rfl
  | .cons s b, hf => by
    simp only [Block.Fine] at hf
    intro ver st o st' hv hb h
    simp only [afterBlock] at h
    obtain ⟨⟨o1, st1⟩, h1, h⟩ := andSome_ok h
    have hs := stmt_ok s hf.1 ver st o1 st1 hv hb h1
    have hrun : runBlock (intSem R).toSem iter effect other (.cons s b) = fun env =>
        match runStmt (intSem R).toSem iter effect other s env with
        | .error x => .error x
        | .ok .stop => .ok .stop
        | .ok (.go env) => runBlock (intSem R).toSem iter effect other b env := by
      funext env
      simp only [runBlock]
      rcases runStmt (intSem R).toSem iter effect other s env with x | (_ | _) <;> rfl
    cases o1 with
    | ends =>
      simp only [Except.ok.injEq, Option.some.injEq, Prod.mk.injEq] at h
      obtain ⟨rfl, rfl⟩ := h
      obtain ⟨a1, a2, a3, a4⟩ := hs
      refine ⟨a1, a2, trivial, fun σ env hs => ?_⟩
      obtain ⟨σ', b1, b2, b3⟩ := a4 σ env hs
      refine ⟨σ', b1, b2, fun env' hfit hB hr => ?_⟩
      rw [hrun] at hr
      cases hrs : runStmt (intSem R).toSem iter effect other s env with
      | error x => simp only [hrs] at hr; cases hr
      | ok fl =>
        cases fl with
        | stop => simp only [hrs] at hr; cases hr
        | go env1 => exact (b3 env1 hfit hB hrs).2.elim
    | goes ver1 ch1 as1 =>
      simp only [List.nil_append] at h
      obtain ⟨o2, h2, rfl⟩ := afterBlock_acc b ver1 ch1 as1 st1 o st' h
      rw [hrun]
      exact seq_step hT hs (block_ok b hf.2 ver1 st1 o2 st' hs.2.2.1.1 hs.2.1 h2)

theorem rest_ok : ∀ (r : Rest), r.Fine R isFloat vs K zero T → RestOk R isFloat vs K zero T iter effect other r
  | .none, _ => none_ok iter effect other
  | .elif_ t b r, hf => by
    simp only [Rest.Fine] at hf
    exact elif_ok iter effect other hf.1 (block_ok b hf.2.1) (rest_ok r hf.2.2)
  | .else_ b, hf => by
    simp only [Rest.Fine] at hf
    exact else_ok iter effect other (block_ok b hf)
end

end

end Verif.Py.Blocks

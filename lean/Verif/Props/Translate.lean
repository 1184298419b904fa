import Verif.Model.Translate
import Verif.Lemmas.Regex
import Mathlib.Tactic.ByContra

/-!
C24: translation of messages.
-/

namespace Verif

/-- `%r`, `%s`, `%d`, in either case. -/
def IsHole (c : Char) : Prop := c ∈ ['r', 's', 'd', 'R', 'S', 'D']

/-- The text `message` results from the linter's template by putting `args` in place of `%r`, `%s`, `%d`, up to
the case of letters outside them. -/
inductive FillIn : Str → List Str → Str → Prop
  | nil : FillIn [] [] []
  | hole {c template arg args message} : IsHole c → '\n' ∉ arg → FillIn template args message →
      FillIn ('%' :: c :: template) (arg :: args) (arg ++ message)
  | lit {c d template args message} : d.toLower = c.toLower → (c = '%' → ∀ h ∈ template.head?, ¬ IsHole h) →
      FillIn template args message → FillIn (c :: template) args (d :: message)

/-- A template has a place to fill in. -/
def HasHole (template : Str) : Prop := ∃ pre c post, template = pre ++ '%' :: c :: post ∧ IsHole c

/-- The word at position `i` (from 0) as it is shown: looked up in the table of the translation for the
position, counted from 1. -/
def Shown (env : TrEnv) (extracts : Toml) (i : Nat) (word shown : Str) : Prop :=
  ∃ d, extracts = .table d ∧
    ((Dict.get? d (natStr (i + 1)) = none ∧ shown = word) ∨
      ∃ mapping, Dict.get? d (natStr (i + 1)) = some (.table mapping) ∧
        ((Dict.get? mapping word = none ∧ shown = word) ∨
          (Dict.get? mapping word = some (.str shown)) ∨
          ∃ v, Dict.get? mapping word = some v ∧ (∀ s, v ≠ .str s) ∧ shown = env.render v))

/-- Each word as it is shown. -/
def AllShown (env : TrEnv) (extracts : Toml) (words shown : List Str) : Prop :=
  shown.length = words.length ∧
    ∀ i w s, words[i]? = some w → shown[i]? = some s → Shown env extracts i w s

/-- The template of the linter fits the beginning of the message with these parts filled in. -/
def Captures (template : Str) (args : List Str) (message : Str) : Prop :=
  ∃ start rest, message = start ++ rest ∧ FillIn template args start

/-- The translated text. -/
def Translated (env : TrEnv) (t : Translation) (code message text : Str) : Prop :=
  (((∀ template, Dict.get? env.messages code = some template →
      ¬ HasHole template ∨ ∀ args, ¬ Captures template args message)) ∧ text = t.translation) ∨
  ∃ template args shown, Dict.get? env.messages code = some template ∧ HasHole template ∧
    Captures template args message ∧ AllShown env t.extracts args shown ∧ pyFormat t.translation shown = .ok text

theorem isHole_iff (c : Char) : (c.toLower = 'r' ∨ c.toLower = 's' ∨ c.toLower = 'd') ↔ IsHole c := by
  unfold IsHole
  constructor
  · intro h
    by_cases hu : 'A' ≤ c ∧ c ≤ 'Z'
    · have hc : c.toNat ≤ 90 ∧ 65 ≤ c.toNat := by
        obtain ⟨h1, h2⟩ := hu
        exact ⟨h2, h1⟩
      have : ∀ n, n ≤ 90 → 65 ≤ n →
          ((Char.ofNat n).toLower = 'r' ∨ (Char.ofNat n).toLower = 's' ∨ (Char.ofNat n).toLower = 'd') →
          Char.ofNat n ∈ ['r', 's', 'd', 'R', 'S', 'D'] := by decide
      have := this c.toNat hc.1 hc.2
      rw [Char.ofNat_toNat] at this
      exact this h
    · have : c.toLower = c := by
        unfold Char.toLower
        rw [dif_neg]
        exact fun hh => hu hh
      rw [this] at h
      rcases h with rfl | rfl | rfl <;> decide
  · intro h
    simp only [List.mem_cons, List.not_mem_nil, or_false] at h
    rcases h with rfl | rfl | rfl | rfl | rfl | rfl <;> decide

/-- How a template is read. -/
theorem toPattern_hole {c : Char} {t : Str} (h : IsHole c) : toPattern ('%' :: c :: t) = .hole :: toPattern t := by
  rw [toPattern, if_pos ((isHole_iff c).2 h)]

theorem toPattern_lit {c : Char} {t : Str} (h : c = '%' → ∀ x ∈ t.head?, ¬ IsHole x) :
    toPattern (c :: t) = .lit c :: toPattern t := by
  by_cases hc : c = '%'
  · subst hc
    cases t with
    | nil => rfl
    | cons x t =>
      rw [toPattern, if_neg]
      rw [isHole_iff]
      exact h rfl x (by simp)
  · rw [toPattern]
    intro c' t' hh
    exact absurd hh hc

/-- Reading a template step by step. -/
theorem template_cases (P : Str → Prop) (nil : P []) (hole : ∀ c t, IsHole c → P t → P ('%' :: c :: t))
    (lit : ∀ c t, (c = '%' → ∀ x ∈ t.head?, ¬ IsHole x) → P t → P (c :: t)) (t : Str) : P t := by
  induction hn : t.length using Nat.strongRecOn generalizing t with
  | ind n ih =>
    cases t with
    | nil => exact nil
    | cons c t =>
      by_cases h : c = '%' → ∀ x ∈ t.head?, ¬ IsHole x
      · exact lit c t h (ih t.length (by rw [← hn]; simp) t rfl)
      · have h1 : c = '%' := by by_contra hc; exact h (fun e => absurd e hc)
        subst h1
        cases t with
        | nil => exact absurd (fun _ => by simp) h
        | cons x t =>
          refine hole x t ?_ (ih t.length (by rw [← hn]; simp only [List.length_cons]; omega) t rfl)
          by_contra hx
          exact h (fun _ => by simpa using hx)

theorem fillIn_of_fits (template : Str) : ∀ ps, Fits ((toPattern template).map Seg.atom) ps →
    FillIn template (holePieces (toPattern template) ps) ps.flatten := by
  refine template_cases (fun template => ∀ ps, Fits ((toPattern template).map Seg.atom) ps →
    FillIn template (holePieces (toPattern template) ps) ps.flatten) ?_ ?_ ?_ template
  · intro ps h
    cases h
    exact .nil
  · intro c t hc ih ps h
    rw [toPattern_hole hc] at h ⊢
    cases h with
    | cons h1 h2 =>
      refine .hole hc ?_ (ih _ h2)
      intro hm
      simpa [dot] using h1 _ hm
  · intro c t hc ih ps h
    rw [toPattern_lit hc] at h ⊢
    cases h with
    | cons h1 h2 =>
      obtain ⟨d, rfl, hd⟩ := h1
      exact .lit (by simpa using hd) hc (ih _ h2)

theorem fits_of_fillIn {template args message} (h : FillIn template args message) :
    ∃ ps, Fits ((toPattern template).map Seg.atom) ps ∧ ps.flatten = message := by
  induction h with
  | nil => exact ⟨[], .nil, rfl⟩
  | @hole c template arg args message hc hn _ ih =>
    obtain ⟨ps, hf, rfl⟩ := ih
    rw [toPattern_hole hc]
    refine ⟨arg :: ps, .cons ?_ hf, rfl⟩
    intro x hx
    simp only [dot, ne_eq, decide_not, Bool.not_eq_eq_eq_not, Bool.not_true, decide_eq_false_iff_not]
    rintro rfl
    exact hn hx
  | @lit c d template args message hd hc _ ih =>
    obtain ⟨ps, hf, rfl⟩ := ih
    rw [toPattern_lit hc]
    exact ⟨[d] :: ps, .cons ⟨d, rfl, by simpa using hd⟩ hf, rfl⟩

theorem hasHole_iff (template : Str) : (toPattern template).contains .hole = true ↔ HasHole template := by
  rw [List.contains_iff_mem]
  refine template_cases (fun template => .hole ∈ toPattern template ↔ HasHole template) ?_ ?_ ?_ template
  · simp [toPattern, HasHole]
  · intro c t hc _
    rw [toPattern_hole hc]
    simp only [List.mem_cons, true_or, true_iff]
    exact ⟨[], c, t, rfl, hc⟩
  · intro c t hc ih
    rw [toPattern_lit hc, List.mem_cons, ih]
    constructor
    · rintro (h | ⟨pre, x, post, rfl, hx⟩)
      · cases h
      · exact ⟨c :: pre, x, post, rfl, hx⟩
    · rintro ⟨pre, x, post, h, hx⟩
      cases pre with
      | nil =>
        simp only [List.nil_append, List.cons.injEq] at h
        obtain ⟨rfl, rfl⟩ := h
        exact absurd hx (hc rfl x (by simp))
      | cons p pre =>
        simp only [List.cons_append, List.cons.injEq] at h
        exact Or.inr ⟨pre, x, post, h.2, hx⟩

theorem translateExtracts_spec (env : TrEnv) (extracts : Toml) (i : Nat) (ws xs : List Str)
    (h : translateExtracts env extracts i ws = .ok xs) :
    xs.length = ws.length ∧ ∀ k w s, ws[k]? = some w → xs[k]? = some s → Shown env extracts (i + k) w s := by
  induction ws generalizing i xs with
  | nil =>
    simp only [translateExtracts, Except.ok.injEq] at h
    subst h
    simp
  | cons w ws ih =>
    cases extracts with
    | table d =>
      simp only [translateExtracts] at h
      split at h
      · cases h
      rename_i x hx
      split at h
      · cases h
      rename_i ys hys
      cases h
      obtain ⟨h1, h2⟩ := ih (i + 1) ys hys
      refine ⟨by simp [h1], ?_⟩
      intro k v s hv hs
      cases k with
      | zero =>
        simp only [List.getElem?_cons_zero, Option.some.injEq] at hv hs
        subst hv hs
        refine ⟨d, rfl, ?_⟩
        rw [Nat.add_zero]
        split at hx
        · rename_i hg
          cases hx
          exact Or.inl ⟨hg, rfl⟩
        · rename_i m hg
          cases hx
          refine Or.inr ⟨m, hg, ?_⟩
          unfold mapWord
          split
          · rename_i hm; exact Or.inl ⟨hm, rfl⟩
          · rename_i s hm; exact Or.inr (Or.inl hm)
          · rename_i v hns hm
            exact Or.inr (Or.inr ⟨v, hm, fun s hs => hns s hs, rfl⟩)
        · cases hx
      | succ k =>
        have := h2 k v s (by simpa using hv) (by simpa using hs)
        rwa [show i + (k + 1) = i + 1 + k by omega]
    | _ => simp [translateExtracts] at h

theorem translate_spec (env : TrEnv) (t : Translation) (code message text : Str)
    (h : t.translate env code message = .ok text) : Translated env t code message text := by
  unfold Translation.translate at h
  split at h
  · rename_i hn
    cases h
    exact Or.inl ⟨fun template ht => absurd (hn.symm.trans ht) (by simp), rfl⟩
  rename_i template ht
  simp only at h
  split at h
  · rename_i hh
    split at h
    · rename_i hm
      cases h
      refine Or.inl ⟨fun template' ht' => Or.inr fun args hc => ?_, rfl⟩
      rw [ht] at ht'
      cases ht'
      obtain ⟨start, rest, rfl, hf⟩ := hc
      obtain ⟨ps, hps, rfl⟩ := fits_of_fillIn hf
      exact matchSeq_complete (t := rest) hps hm
    · rename_i ps hm
      split at h
      · cases h
      rename_i shown hs
      obtain ⟨hf, rest, rfl⟩ := matchSeq_sound hm
      obtain ⟨h1, h2⟩ := translateExtracts_spec env _ 0 _ _ hs
      exact Or.inr ⟨template, _, shown, ht, (hasHole_iff template).1 hh, ⟨_, rest, rfl, fillIn_of_fits template ps hf⟩,
        ⟨h1, fun i w s hw hsh => by simpa using h2 i w s hw hsh⟩, h⟩
  · rename_i hh
    cases h
    refine Or.inl ⟨fun template' ht' => Or.inl ?_, rfl⟩
    rw [ht] at ht'
    cases ht'
    exact fun hole => hh ((hasHole_iff template).2 hole)

/-- The entry of the table for a problem: by code, otherwise by symbol. -/
def EntryFor (lang : LangTranslations) (p : Problem) (t : Translation) : Prop :=
  Dict.get? lang p.code = some t ∨
    (Dict.get? lang p.code = none ∧ ∃ s, p.symbol = some s ∧ Dict.get? lang s = some t)

/-- **C24.** If translating succeeds, then either no entry exists for the problem's code or symbol and the
problem is untouched, or nothing but the text is changed and the text is the translation. Missing:
translating may fail, and text that does not fit the linter's template gets the translation with its
places unfilled (see the counterexamples). -/
theorem C24_translation_partial (env : TrEnv) (lang : LangTranslations) (p q : Problem)
    (h : translateProblem env lang p = .ok q) :
    ((∀ t, ¬ EntryFor lang p t) ∧ q = p) ∨
      ∃ t text, EntryFor lang p t ∧ q = { p with text := text } ∧ Translated env t p.code p.text text := by
  unfold translateProblem at h
  simp only at h
  split at h
  · rename_i hf
    cases h
    refine Or.inl ⟨?_, rfl⟩
    rintro t (ht | ⟨hn, s, hs, ht⟩)
    · rw [ht] at hf; cases hf
    · simp [hn, hs, ht] at hf
  · rename_i t hf
    split at h
    · cases h
    rename_i text htext
    cases h
    refine Or.inr ⟨t, text, ?_, rfl, translate_spec env t _ _ _ htext⟩
    split at hf
    · rename_i t' ht'
      cases hf
      exact Or.inl ht'
    · rename_i hn
      split at hf
      · cases hf
      · rename_i s hs
        exact Or.inr ⟨hn, s, hs, hf⟩

/-- Problems without an entry are never an error. -/
theorem C24_untouched (env : TrEnv) (lang : LangTranslations) (p : Problem) (h : ∀ t, ¬ EntryFor lang p t) :
    translateProblem env lang p = .ok p := by
  cases hq : translateProblem env lang p with
  | ok q =>
    rcases C24_translation_partial env lang p q hq with ⟨-, rfl⟩ | ⟨t, _, ht, -⟩
    · rfl
    · exact absurd ht (h t)
  | error e =>
    exfalso
    unfold translateProblem at hq
    simp only at hq
    split at hq
    · cases hq
    rename_i t hf
    refine h t ?_
    split at hf
    · rename_i t' ht'; cases hf; exact Or.inl ht'
    · rename_i hn
      split at hf
      · cases hf
      · rename_i s hs; exact Or.inr ⟨hn, s, hs, hf⟩

/-- **C24**, the parts filled in: if the message is the linter's template with `args` filled in, and it cannot
be read as filled in with anything else, and the translation formats these arguments (as shown), this
is the text of the result. -/
theorem C24_arguments (env : TrEnv) (lang : LangTranslations) (p : Problem) (t : Translation) (template : Str)
    (args shown : List Str) (text : Str) (ht : EntryFor lang p t)
    (hm : Dict.get? env.messages p.code = some template) (hh : HasHole template)
    (hc : Captures template args p.text) (hu : ∀ args', Captures template args' p.text → args' = args)
    (hs : translateExtracts env t.extracts 0 args = .ok shown) (hf : pyFormat t.translation shown = .ok text) :
    translateProblem env lang p = .ok { p with text := text } := by
  have key : t.translate env p.code p.text = .ok text := by
    unfold Translation.translate
    rw [hm]
    simp only
    rw [if_pos ((hasHole_iff template).2 hh)]
    cases hmatch : matchSeq ((toPattern template).map Seg.atom) p.text with
    | none =>
      obtain ⟨start, rest, he, hfill⟩ := hc
      obtain ⟨ps, hps, rfl⟩ := fits_of_fillIn hfill
      rw [he] at hmatch
      exact absurd hmatch (matchSeq_complete (t := rest) hps)
    | some ps =>
      obtain ⟨hfit, rest, he⟩ := matchSeq_sound hmatch
      have := hu _ ⟨_, rest, he, fillIn_of_fits template ps hfit⟩
      simp only [this, hs, hf]
  unfold translateProblem
  rcases ht with ht | ⟨hn, s, hsym, ht⟩
  · simp only [ht, key]
  · simp only [hn, hsym, ht, key]

/-- The messages used in the examples, `edulint/config/raw_flake8_patterns.py:10` among them. -/
def exTr : TrEnv where
  messages := [("F841".toList, "local variable %r is assigned to but never used".toList),
    ("F501".toList, "'...' %% ... has invalid format string: %s".toList)]
  render := fun _ => []

/-- A flake8 problem. -/
def exF (code text : String) : Problem :=
  { source := .flake8, enabledBy := none, path := [], line := 1, column := 0, code := code.toList, text := text.toList }

example : (match translateProblem exTr [("F841".toList, ⟨"nepoužitá proměnná {}".toList, .table []⟩)]
      (exF "F841" "local variable 'x' is assigned to but never used") with
    | .ok q => String.ofList q.text
    | .error _ => "") = "nepoužitá proměnná 'x'" := by
  decide +kernel

/-- **C24 fails in the code** for a table whose translation has a place too many: the error is not caught. -/
theorem C24_counterexample_places :
    translateProblem exTr [("F841".toList, ⟨"nepoužitá proměnná {} v {}".toList, .table []⟩)]
      (exF "F841" "local variable 'x' is assigned to but never used") = .error .indexError := by
  decide +kernel

/-- **C24 fails in the code** for messages whose template contains `%%` (which is written for a single `%`):
they never match, so the places of the translation are not filled in. -/
theorem C24_counterexample_percent :
    (match translateProblem exTr [("F501".toList, ⟨"chybný formátovací řetězec: {}".toList, .table []⟩)]
      (exF "F501" "'...' % ... has invalid format string: unsupported") with
    | .ok q => String.ofList q.text
    | .error _ => "") = "chybný formátovací řetězec: {}" := by
  decide +kernel

end Verif

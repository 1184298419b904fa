import Verif.Model.Linting
import Verif.Lemmas.Regex
import Verif.Lemmas.JoinPath
import Mathlib.Tactic.ByContra

/-!
C22: the report of in-file configuration that is to be ignored.
-/

namespace Verif

/-- The text of a configuration comment (after `#` and spaces), in any case. -/
def Magic.Text : Magic → Str → Prop
  | .noqa, w => lower w = "noqa".toList
  | .flake8Noqa, w => ∃ a n b, w = a ++ List.replicate n ' ' ++ b ∧ lower a = "flake8:".toList ∧
      lower b = "noqa".toList
  | .pylintDisable, w => ∃ a s b, w = a ++ s ++ b ∧ lower a = "pylint:".toList ∧ (∀ c ∈ s, rxSpace c = true) ∧
      lower b = "disable".toList
  | .pylintEnable, w => ∃ a s b, w = a ++ s ++ b ∧ lower a = "pylint:".toList ∧ (∀ c ∈ s, rxSpace c = true) ∧
      lower b = "enable".toList

/-- At column `col` of the line there is a `#`, then spaces, then the configuration text `w`. -/
def CommentAt (m : Magic) (line : Str) (col : Nat) (w : Str) : Prop :=
  ∃ pre spaces rest, line = pre ++ '#' :: (spaces ++ (w ++ rest)) ∧ pre.length = col ∧ '\n' ∉ pre ∧
    (∀ c ∈ spaces, rxSpace c = true) ∧ m.Text w

/-- The line imports something from `ib111`. -/
def ImportsIb111 (line : Str) : Prop :=
  ∃ pre a s b t c rest, line = pre ++ a ++ s ++ b ++ t ++ c ++ rest ∧ '\n' ∉ pre ∧ lower a = "from".toList ∧
    s ≠ [] ∧ (∀ x ∈ s, rxSpace x = true) ∧ lower b = "ib111".toList ∧ t ≠ [] ∧ (∀ x ∈ t, rxSpace x = true) ∧
    lower c = "import".toList

/-- The kinds of configuration comments that suppress flake8's messages. -/
def Magic.isNoqa : Magic → Prop
  | .noqa => True
  | .flake8Noqa => True
  | _ => False

theorem dot_all {w : Str} : (∀ c ∈ w, dot c = true) ↔ '\n' ∉ w := by
  constructor
  · intro h hm
    simpa [dot] using h _ hm
  · intro h c hc
    simp only [dot, ne_eq, decide_not, Bool.not_eq_eq_eq_not, Bool.not_true, decide_eq_false_iff_not]
    rintro rfl
    exact h hc

theorem lower_lower_lit {s t : Str} (hs : lower s = s) : lower t = lower s ↔ lower t = s := by rw [hs]

theorem fits_litsI' {s : Str} (hs : lower s = s) {ws} (h : Fits (litsI s) ws) : lower ws.flatten = s := by
  obtain ⟨t, rfl, ht⟩ := (fits_litsI s).1 h
  rw [flatten_singletons, ht, hs]

theorem fits_litsI_of {s w : Str} (hs : lower s = s) (h : lower w = s) : Fits (litsI s) (w.map fun c => [c]) :=
  (fits_litsI s).2 ⟨w, rfl, by rw [h, hs]⟩

theorem all_eq_replicate {s : Str} {c : Char} (h : ∀ x ∈ s, (decide (x = c)) = true) : s = List.replicate s.length c := by
  rw [List.eq_replicate_iff]
  exact ⟨rfl, fun x hx => by simpa using h x hx⟩

/-- The atoms of a pattern describe its text. -/
theorem magic_text {m : Magic} {w : Str} : m.Text w ↔ ∃ ps, Fits m.atoms ps ∧ ps.flatten = w := by
  have three : ∀ {a b : Str} {p : Char → Bool}, lower a = a → lower b = b →
      ((∃ ps, Fits (litsI a ++ [.star p] ++ litsI b) ps ∧ ps.flatten = w) ↔
        ∃ x s y, w = x ++ s ++ y ∧ lower x = a ∧ (∀ c ∈ s, p c = true) ∧ lower y = b) := by
    intro a b p ha hb
    constructor
    · rintro ⟨ps, hf, rfl⟩
      obtain ⟨us, ys, rfl, hu, hy⟩ := hf.split
      obtain ⟨xs, ss, rfl, hx, hs⟩ := hu.split
      cases hs with
      | cons h1 h2 =>
        cases h2
        rename_i s
        exact ⟨xs.flatten, s, ys.flatten, by simp, fits_litsI' ha hx, h1, fits_litsI' hb hy⟩
    · rintro ⟨x, s, y, rfl, hx, hs, hy⟩
      exact ⟨_, ((fits_litsI_of ha hx).append (Fits.cons (a := .star p) (w := s) hs .nil)).append (fits_litsI_of hb hy),
        by simp [flatten_singletons]⟩
  cases m with
  | noqa =>
    simp only [Magic.Text, Magic.atoms]
    constructor
    · intro h
      exact ⟨_, fits_litsI_of rfl h, flatten_singletons w⟩
    · rintro ⟨ps, hf, rfl⟩
      exact fits_litsI' rfl hf
  | flake8Noqa =>
    simp only [Magic.Text, Magic.atoms]
    rw [three rfl rfl]
    constructor
    · rintro ⟨a, n, b, rfl, ha, hb⟩
      exact ⟨a, _, b, rfl, ha, fun c hc => by simpa using (List.mem_replicate.1 hc).2, hb⟩
    · rintro ⟨a, s, b, rfl, ha, hs, hb⟩
      exact ⟨a, s.length, b, by rw [← all_eq_replicate hs], ha, hb⟩
  | pylintDisable =>
    simp only [Magic.Text, Magic.atoms]
    rw [three rfl rfl]
  | pylintEnable =>
    simp only [Magic.Text, Magic.atoms]
    rw [three rfl rfl]

theorem fits_pattern {m : Magic} {ps : List Str} (h : Fits m.pattern ps) :
    ∃ pre spaces qs, ps = pre :: ['#'] :: spaces :: qs ∧ '\n' ∉ pre ∧ (∀ c ∈ spaces, rxSpace c = true) ∧
      m.Text qs.flatten := by
  unfold Magic.pattern at h
  cases h with
  | cons h1 h =>
    cases h with
    | cons h2 h =>
      cases h with
      | cons h3 h4 =>
        obtain ⟨c, rfl, hc⟩ := h2
        have hc' : c = '#' := by simpa using hc
        subst hc'
        exact ⟨_, _, _, rfl, dot_all.1 h1, h3, magic_text.2 ⟨_, h4, rfl⟩⟩

theorem fits_of_comment {m : Magic} {line : Str} {col : Nat} {w : Str} (h : CommentAt m line col w) :
    ∃ pre vs t, Fits m.pattern (pre :: vs) ∧ line = pre ++ vs.flatten ++ t ∧ pre.length = col := by
  obtain ⟨pre, spaces, rest, rfl, hlen, hn, hs, ht⟩ := h
  obtain ⟨qs, hq, rfl⟩ := magic_text.1 ht
  exact ⟨pre, ['#'] :: spaces :: qs, rest, .cons (dot_all.2 hn) (.cons ⟨'#', rfl, by simp⟩ (.cons hs hq)),
    by simp, hlen⟩

/-! Uniqueness of the text at a column. -/

theorem lower_mem {s : Str} {c : Char} (h : c ∈ s) : c.toLower ∈ lower s := List.mem_map.2 ⟨c, h, rfl⟩

theorem space_lower {c : Char} (h : rxSpace c = true) : c.toLower = c := by
  simp only [rxSpace, Bool.or_eq_true, decide_eq_true_eq] at h
  rcases h with ((((rfl | rfl) | rfl) | rfl) | rfl) | rfl <;> decide

theorem lower_spaces {s : Str} (h : ∀ c ∈ s, rxSpace c = true) : lower s = s := by
  induction s with
  | nil => rfl
  | cons c s ih =>
    simp only [lower, List.map_cons] at ih ⊢
    rw [space_lower (h c (by simp)), ih fun d hd => h d (by simp [hd])]

/-- Spaces followed by something that does not start with a space split in one way only. -/
theorem spaces_unique {p : Char → Bool} {s s' x x' : Str} (h : s ++ x = s' ++ x') (hs : ∀ c ∈ s, p c = true)
    (hs' : ∀ c ∈ s', p c = true) (hx : ∀ c ∈ x.head?, p c = false) (hx' : ∀ c ∈ x'.head?, p c = false) :
    s = s' ∧ x = x' := by
  induction s generalizing s' with
  | nil =>
    cases s' with
    | nil => exact ⟨rfl, h⟩
    | cons c s' =>
      simp only [List.nil_append, List.cons_append] at h
      subst h
      have h1 := hx c (by simp)
      rw [hs' c (by simp)] at h1
      cases h1
  | cons c s ih =>
    cases s' with
    | nil =>
      simp only [List.nil_append, List.cons_append] at h
      subst h
      have h1 := hx' c (by simp)
      rw [hs c (by simp)] at h1
      cases h1
    | cons d s' =>
      simp only [List.cons_append, List.cons.injEq] at h
      obtain ⟨rfl, h⟩ := h
      obtain ⟨rfl, rfl⟩ := ih h (fun d hd => hs d (by simp [hd])) (fun d hd => hs' d (by simp [hd]))
      exact ⟨rfl, rfl⟩

theorem length_of_lower {s t : Str} (h : lower s = t) : s.length = t.length := by rw [← h]; simp [lower]

theorem head_of_lower {s rest : Str} {c : Char} {t : Str} (h : lower s = c :: t) :
    ∀ d ∈ (s ++ rest).head?, d.toLower = c := by
  cases s with
  | nil => simp [lower] at h
  | cons x s =>
    simp only [lower, List.map_cons, List.cons.injEq] at h
    simp [h.1]

theorem not_space_of_lower {c d : Char} (hd : rxSpace d = false) (h : c.toLower = d) : rxSpace c = false := by
  cases hc : rxSpace c with
  | false => rfl
  | true =>
    have := space_lower hc
    rw [this] at h
    subst h
    rw [hc] at hd
    cases hd

theorem text_head {m : Magic} {w rest : Str} (h : m.Text w) : ∀ c ∈ (w ++ rest).head?, rxSpace c = false := by
  intro c hc
  cases m with
  | noqa => exact not_space_of_lower (d := 'n') (by decide) (head_of_lower (show lower w = 'n' :: _ from h) c hc)
  | flake8Noqa =>
    obtain ⟨a, n, b, rfl, ha, -⟩ := h
    rw [List.append_assoc, List.append_assoc] at hc
    exact not_space_of_lower (d := 'f') (by decide) (head_of_lower (show lower a = 'f' :: _ from ha) c hc)
  | pylintDisable =>
    obtain ⟨a, s, b, rfl, ha, -⟩ := h
    rw [List.append_assoc, List.append_assoc] at hc
    exact not_space_of_lower (d := 'p') (by decide) (head_of_lower (show lower a = 'p' :: _ from ha) c hc)
  | pylintEnable =>
    obtain ⟨a, s, b, rfl, ha, -⟩ := h
    rw [List.append_assoc, List.append_assoc] at hc
    exact not_space_of_lower (d := 'p') (by decide) (head_of_lower (show lower a = 'p' :: _ from ha) c hc)

theorem three_unique {p : Char → Bool} {a b : Str} {x s y r x' s' y' r' : Str}
    (h : x ++ s ++ y ++ r = x' ++ s' ++ y' ++ r') (hx : lower x = a) (hx' : lower x' = a) (hs : ∀ c ∈ s, p c = true)
    (hs' : ∀ c ∈ s', p c = true) (hy : lower y = b) (hy' : lower y' = b)
    (hb : ∀ w t : Str, lower w = b → ∀ c ∈ (w ++ t).head?, p c = false) :
    x ++ s ++ y = x' ++ s' ++ y' := by
  simp only [List.append_assoc] at h
  obtain ⟨rfl, h1⟩ := List.append_inj h (by rw [length_of_lower hx, length_of_lower hx'])
  obtain ⟨rfl, h2⟩ := spaces_unique h1 hs hs' (hb y r hy) (hb y' r' hy')
  obtain ⟨rfl, h3⟩ := List.append_inj h2 (by rw [length_of_lower hy, length_of_lower hy'])
  rfl

theorem text_unique {m : Magic} {w w' r r' : Str} (h : m.Text w) (h' : m.Text w') (he : w ++ r = w' ++ r') : w = w' := by
  cases m with
  | noqa =>
    exact (List.append_inj he (by rw [length_of_lower h, length_of_lower h'])).1
  | flake8Noqa =>
    obtain ⟨a, n, b, rfl, ha, hb⟩ := h
    obtain ⟨a', n', b', rfl, ha', hb'⟩ := h'
    refine three_unique (p := fun c => decide (c = ' ')) he ha ha' (fun c hc => by simpa using (List.mem_replicate.1 hc).2)
      (fun c hc => by simpa using (List.mem_replicate.1 hc).2) hb hb' ?_
    intro w t hw c hc
    have := head_of_lower (show lower w = 'n' :: _ from hw) c hc
    simp only [decide_eq_false_iff_not]
    rintro rfl
    revert this; decide
  | pylintDisable =>
    obtain ⟨a, s, b, rfl, ha, hs, hb⟩ := h
    obtain ⟨a', s', b', rfl, ha', hs', hb'⟩ := h'
    refine three_unique he ha ha' hs hs' hb hb' ?_
    intro w t hw c hc
    exact not_space_of_lower (d := 'd') (by decide) (head_of_lower (show lower w = 'd' :: _ from hw) c hc)
  | pylintEnable =>
    obtain ⟨a, s, b, rfl, ha, hs, hb⟩ := h
    obtain ⟨a', s', b', rfl, ha', hs', hb'⟩ := h'
    refine three_unique he ha ha' hs hs' hb hb' ?_
    intro w t hw c hc
    exact not_space_of_lower (d := 'e') (by decide) (head_of_lower (show lower w = 'e' :: _ from hw) c hc)

/-- The text of a comment is determined by the line and the column. -/
theorem commentAt_unique {m : Magic} {line : Str} {col : Nat} {w w' : Str} (h : CommentAt m line col w)
    (h' : CommentAt m line col w') : w = w' := by
  obtain ⟨pre, s, r, rfl, hl, -, hs, ht⟩ := h
  obtain ⟨pre', s', r', he, hl', -, hs', ht'⟩ := h'
  obtain ⟨rfl, h1⟩ := List.append_inj he (by rw [hl, hl'])
  obtain ⟨rfl, h2⟩ := spaces_unique (List.cons.inj h1).2 hs hs' (text_head ht) (text_head ht')
  exact text_unique ht ht' h2

theorem containsStr_iff {needle s : Str} : containsStr needle s = true ↔ ∃ a b, s = a ++ needle ++ b := by
  induction s with
  | nil =>
    simp only [containsStr, List.isPrefixOf_iff_prefix, List.prefix_nil]
    constructor
    · rintro rfl; exact ⟨[], [], rfl⟩
    · rintro ⟨a, b, h⟩; simp at h; exact h.2.1
  | cons c s ih =>
    simp only [containsStr, Bool.or_eq_true, ih, List.isPrefixOf_iff_prefix]
    constructor
    · rintro (⟨t, ht⟩ | ⟨a, b, rfl⟩)
      · exact ⟨[], t, by simp [ht]⟩
      · exact ⟨c :: a, b, rfl⟩
    · rintro ⟨a, b, h⟩
      cases a with
      | nil => exact Or.inl ⟨b, by simp [h]⟩
      | cons d a =>
        simp only [List.cons_append, List.cons.injEq] at h
        exact Or.inr ⟨a, b, h.2⟩

theorem text_noqa {m : Magic} {w : Str} (h : m.Text w) : containsStr "noqa".toList (lower w) = true ↔ m.isNoqa := by
  have app : ∀ x y : Str, lower (x ++ y) = lower x ++ lower y := fun x y => List.map_append
  have noq : ∀ {a s b : Str} {t u : Str}, lower a = t → (∀ c ∈ s, rxSpace c = true) → lower b = u → 'q' ∉ t → 'q' ∉ u →
      containsStr "noqa".toList (lower (a ++ s ++ b)) ≠ true := by
    intro a s b t u ha hs hb ht hu hc
    obtain ⟨x, y, hxy⟩ := containsStr_iff.1 hc
    rw [app, app, ha, hb, lower_spaces hs] at hxy
    have hq : 'q' ∈ t ++ s ++ u := by
      rw [hxy]
      simp only [List.mem_append]
      exact Or.inl (Or.inr (by decide))
    simp only [List.mem_append] at hq
    rcases hq with (hq | hq) | hq
    · exact ht hq
    · have := hs _ hq
      revert this; decide
    · exact hu hq
  cases m with
  | noqa => simp only [Magic.isNoqa, iff_true]; exact containsStr_iff.2 ⟨[], [], by rw [show lower w = _ from h]; rfl⟩
  | flake8Noqa =>
    obtain ⟨a, n, b, rfl, ha, hb⟩ := h
    simp only [Magic.isNoqa, iff_true]
    refine containsStr_iff.2 ⟨lower (a ++ List.replicate n ' '), [], ?_⟩
    rw [app, hb, List.append_nil]
  | pylintDisable =>
    obtain ⟨a, s, b, rfl, ha, hs, hb⟩ := h
    simp only [Magic.isNoqa, iff_false]
    exact noq ha hs hb (by decide) (by decide)
  | pylintEnable =>
    obtain ⟨a, s, b, rfl, ha, hs, hb⟩ := h
    simp only [Magic.isNoqa, iff_false]
    exact noq ha hs hb (by decide) (by decide)

theorem importsIb111_iff {line : Str} : matchSeq ib111Pattern line ≠ none ↔ ImportsIb111 line := by
  rw [matchSeq_iff]
  unfold ib111Pattern
  constructor
  · rintro ⟨ps, rest, hf, rfl⟩
    obtain ⟨us, cs, rfl, hf1, hc⟩ := hf.split
    obtain ⟨us, ts, rfl, hf2, ht⟩ := hf1.split
    obtain ⟨us, bs, rfl, hf3, hb⟩ := hf2.split
    obtain ⟨us, ss, rfl, hf4, hs⟩ := hf3.split
    clear hf hf1 hf2 hf3
    cases hf4 with
    | cons h1 hf =>
      have plus : ∀ {ts : List Str}, Fits [.one rxSpace, .star rxSpace] ts →
          ts.flatten ≠ [] ∧ ∀ x ∈ ts.flatten, rxSpace x = true := by
        intro ts h
        cases h with
        | cons h1 h =>
          cases h with
          | cons h2 h =>
            cases h
            obtain ⟨c, rfl, hc⟩ := h1
            refine ⟨by simp, ?_⟩
            intro x hx
            simp only [List.flatten_cons, List.flatten_nil, List.append_nil, List.cons_append, List.nil_append,
              List.mem_cons] at hx
            rcases hx with rfl | hx
            · exact hc
            · exact h2 x hx
      exact ⟨_, _, ss.flatten, bs.flatten, ts.flatten, cs.flatten, rest, by simp, dot_all.1 h1, fits_litsI' rfl hf,
        (plus hs).1, (plus hs).2, fits_litsI' rfl hb, (plus ht).1, (plus ht).2, fits_litsI' rfl hc⟩
  · rintro ⟨pre, a, s, b, t, c, rest, rfl, hp, ha, hs, hs', hb, ht, ht', hc⟩
    have plus : ∀ {s : Str}, s ≠ [] → (∀ x ∈ s, rxSpace x = true) →
        ∃ ts, Fits [.one rxSpace, .star rxSpace] ts ∧ ts.flatten = s := by
      intro s h1 h2
      cases s with
      | nil => exact absurd rfl h1
      | cons d s =>
        exact ⟨[[d], s], .cons ⟨d, rfl, h2 d (by simp)⟩ (.cons (fun x hx => h2 x (by simp [hx])) .nil), by simp⟩
    obtain ⟨ss, hss, rfl⟩ := plus hs hs'
    obtain ⟨ts, hts, rfl⟩ := plus ht ht'
    refine ⟨_, rest, ((((Fits.cons (a := .star dot) (w := pre) (dot_all.2 hp) (fits_litsI_of rfl ha)).append hss).append
      (fits_litsI_of rfl hb)).append hts).append (fits_litsI_of rfl hc), ?_⟩
    simp [flatten_singletons]

/-- What is reported for one line and one kind of comment. -/
theorem reportLine_iff (enabler : Option Str) (path : Str) (i : Nat) (line : Str) (m : Magic) (p : Problem) :
    p ∈ reportLine enabler path i line m ↔
      ∃ col w, CommentAt m line col w ∧ (∀ col' w', CommentAt m line col' w' → col' ≤ col) ∧
        ¬ (m.isNoqa ∧ ImportsIb111 line) ∧
        p = { source := .edulint, enabledBy := enabler, path := path, line := i, column := col,
              code := "EDL001".toList, text := "Forbidden magic comment '".toList ++ w ++ "'".toList,
              endLine := some i, endColumn := some line.length } := by
  cases hm : matchSeq m.pattern line with
  | none =>
    simp only [reportLine, hm, List.not_mem_nil, false_iff]
    rintro ⟨col, w, hc, -⟩
    obtain ⟨pre, vs, t, hf, rfl, -⟩ := fits_of_comment hc
    exact matchSeq_complete (t := t) hf (by simpa using hm)
  | some ps =>
    obtain ⟨hf, t, hline⟩ := matchSeq_sound hm
    obtain ⟨pre, sp, qs, rfl, hn, hs, ht⟩ := fits_pattern hf
    have hcomment : CommentAt m line pre.length qs.flatten :=
      ⟨pre, sp, t, by rw [hline]; simp, rfl, hn, hs, ht⟩
    have hmax : ∀ col' w', CommentAt m line col' w' → col' ≤ pre.length := by
      intro col' w' hc
      obtain ⟨pre', vs, t', hf', hl', rfl⟩ := fits_of_comment hc
      exact matchSeq_greedy hm hf' hl'
    have cond : (!containsStr "noqa".toList (lower qs.flatten) || (matchSeq ib111Pattern line).isNone) = true ↔
        ¬ (m.isNoqa ∧ ImportsIb111 line) := by
      rw [Bool.or_eq_true, Bool.not_eq_true', ← importsIb111_iff, ← text_noqa ht, Option.isNone_iff_eq_none]
      constructor
      · rintro (h | h) ⟨h1, h2⟩
        · rw [h] at h1; cases h1
        · exact h2 h
      · intro h
        by_cases h1 : containsStr "noqa".toList (lower qs.flatten) = true
        · exact Or.inr (by by_contra h2; exact h ⟨h1, h2⟩)
        · exact Or.inl (by simpa using h1)
    simp only [reportLine, hm, List.take_succ_cons, List.take_zero, List.flatten_cons, List.flatten_nil, List.append_nil,
      List.drop_succ_cons, List.drop_zero]
    split
    · rename_i hc
      rw [List.mem_singleton]
      constructor
      · rintro rfl
        exact ⟨pre.length, qs.flatten, hcomment, hmax, cond.1 hc, rfl⟩
      · rintro ⟨col, w, h1, h2, -, rfl⟩
        have : col = pre.length := Nat.le_antisymm (hmax _ _ h1) (h2 _ _ hcomment)
        subst this
        rw [commentAt_unique h1 hcomment]
        rfl
    · rename_i hc
      simp only [List.not_mem_nil, false_iff]
      rintro ⟨_, _, -, -, h, -⟩
      exact hc (cond.2 h)

theorem reportLines_iff {enabler pats path p} (i : Nat) (lines : List Str) :
    p ∈ reportLines enabler pats path i lines ↔
      ∃ k line m, lines[k]? = some line ∧ m ∈ pats ∧ p ∈ reportLine enabler path (i + k) line m := by
  induction lines generalizing i with
  | nil => simp [reportLines]
  | cons l lines ih =>
    simp only [reportLines, List.mem_append, List.mem_flatMap, ih]
    constructor
    · rintro (⟨m, hm, hp⟩ | ⟨k, line, m, hk, hm, hp⟩)
      · exact ⟨0, l, m, rfl, hm, hp⟩
      · exact ⟨k + 1, line, m, by simpa using hk, hm, by rwa [show i + (k + 1) = i + 1 + k by omega]⟩
    · rintro ⟨k, line, m, hk, hm, hp⟩
      cases k with
      | zero =>
        simp only [List.getElem?_cons_zero, Option.some.injEq] at hk
        subst hk
        exact Or.inl ⟨m, hm, hp⟩
      | succ k =>
        exact Or.inr ⟨k, line, m, by simpa using hk, hm, by rwa [show i + 1 + k = i + (k + 1) by omega]⟩

mutual
/-- The file at `file` with these lines lies at or below the path. -/
inductive Holds : FTree → Str → Str → List Str → Prop
  | file (path lines) : Holds (.file lines) path path lines
  | dir {entries path file lines} : HoldsIn entries path file lines → Holds (.dir entries) path file lines
/-- The same for the entries of a directory. -/
inductive HoldsIn : FForest → Str → Str → List Str → Prop
  | head {name tree rest path file lines p} : EntryPath path name p → Holds tree p file lines →
      HoldsIn (.cons name tree rest) path file lines
  | tail {name tree rest path file lines} : HoldsIn rest path file lines →
      HoldsIn (.cons name tree rest) path file lines
end

mutual
theorem treePaths_iff (tree : FTree) (path file : Str) (lines : List Str) :
    (file, lines) ∈ treePaths path tree ↔ Holds tree path file lines ∧ endsWithPy file = true := by
  cases tree with
  | file ls =>
    simp only [treePaths]
    constructor
    · intro h
      split at h
      · rename_i hp
        simp only [List.mem_singleton, Prod.mk.injEq] at h
        obtain ⟨rfl, rfl⟩ := h
        exact ⟨.file _ _, hp⟩
      · simp at h
    · rintro ⟨h, hp⟩
      cases h
      simp [hp]
  | dir entries =>
    simp only [treePaths]
    rw [forestPaths_iff entries path file lines]
    constructor
    · rintro ⟨h, hp⟩; exact ⟨.dir h, hp⟩
    · rintro ⟨h, hp⟩; cases h with | dir h => exact ⟨h, hp⟩
theorem forestPaths_iff (entries : FForest) (path file : Str) (lines : List Str) :
    (file, lines) ∈ forestPaths path entries ↔ HoldsIn entries path file lines ∧ endsWithPy file = true := by
  cases entries with
  | nil =>
    simp only [forestPaths, List.not_mem_nil, false_iff]
    rintro ⟨h, -⟩; cases h
  | cons name tree rest =>
    simp only [forestPaths, List.mem_append]
    rw [treePaths_iff tree (joinPath path name) file lines, forestPaths_iff rest path file lines]
    constructor
    · rintro (⟨h, hp⟩ | ⟨h, hp⟩)
      · exact ⟨.head (joinPath_iff.2 rfl) h, hp⟩
      · exact ⟨.tail h, hp⟩
    · rintro ⟨h, hp⟩
      cases h with
      | head he h => exact Or.inl ⟨joinPath_iff.1 he ▸ h, hp⟩
      | tail h => exact Or.inr ⟨h, hp⟩
end

/-- The ignored linters: named (in any case), or all of them if `all` is given. -/
def IgnoredFor (ignored : List Str) (l : Linter) : Prop :=
  (∃ name ∈ ignored, lower name = l.toName) ∨ "all".toList ∈ ignored

theorem safeFromName_iff {s : Str} {l : Linter} : Linter.safeFromName s = some l ↔ lower s = l.toName := by
  unfold Linter.safeFromName
  constructor
  · intro h
    have := List.find?_some h
    simpa using (by simpa using this : l.toName = lower s).symm
  · intro h
    rw [h]
    cases l <;> decide

theorem reportPatterns_iff {ignored order : List Str} (ho : ∀ x, x ∈ order ↔ x ∈ expandIgnored ignored) (m : Magic) :
    m ∈ reportPatterns order ↔ ∃ l, IgnoredFor ignored l ∧ m ∈ configPatterns l := by
  have hmem : (∃ x l, x ∈ order ∧ lower x = Linter.toName l ∧ m ∈ configPatterns l) ↔
      ∃ l, IgnoredFor ignored l ∧ m ∈ configPatterns l := by
    simp only [ho, expandIgnored, List.contains_iff_mem]
    by_cases ha : "all".toList ∈ ignored
    · rw [if_pos ha]
      constructor
      · rintro ⟨x, l, -, -, hm⟩
        exact ⟨l, Or.inr ha, hm⟩
      · rintro ⟨l, -, hm⟩
        refine ⟨l.toName, l, List.mem_append_right _ (List.mem_map.2 ⟨l, ?_, rfl⟩), ?_, hm⟩
        · cases l <;> decide
        · cases l <;> rfl
    · rw [if_neg ha]
      constructor
      · rintro ⟨x, l, hx, hl, hm⟩
        exact ⟨l, Or.inl ⟨x, hx, hl⟩, hm⟩
      · rintro ⟨l, hl | hl, hm⟩
        · obtain ⟨x, hx, hn⟩ := hl
          exact ⟨x, l, hx, hn, hm⟩
        · exact absurd hl ha
  rw [← hmem]
  simp only [reportPatterns, List.mem_flatMap]
  constructor
  · rintro ⟨x, hx, hm⟩
    cases hl : Linter.safeFromName x with
    | none => simp [hl] at hm
    | some l =>
      rw [hl] at hm
      exact ⟨x, l, hx, safeFromName_iff.1 hl, hm⟩
  · rintro ⟨x, l, hx, hl, hm⟩
    refine ⟨x, hx, ?_⟩
    rw [safeFromName_iff.2 hl]
    exact hm

/-- The configuration comments of a linter. -/
def ConfigComment : Linter → Magic → Prop
  | .flake8, m => m = .noqa ∨ m = .flake8Noqa
  | .pylint, m => m = .pylintDisable ∨ m = .pylintEnable
  | .edulint, _ => False

/-- **C22**. With in-file configuration ignored (whatever the order in which the set is traversed), the
report consists exactly of: for each line of each Python file at or below the given paths, and each
kind of configuration comment of an ignored linter found in the line, a problem at the column of the
(last such) comment, except for `noqa` comments of lines that import from `ib111`. Missing: that
exception, and the configuration comments that the code does not know (see the counterexamples). -/
theorem C22_report_partial (items : List Item) (ignored order : List Str)
    (ho : ∀ x, x ∈ order ↔ x ∈ expandIgnored ignored) (enablers : Dict Str Str) (p : Problem) :
    p ∈ reportInfile items order enablers ↔
      ∃ item ∈ items, ∃ file lines, Holds item.tree item.path file lines ∧ (∃ stem, file = stem ++ ".py".toList) ∧
      ∃ (k : Nat) (line : Str), lines[k]? = some line ∧
      ∃ l m, IgnoredFor ignored l ∧ ConfigComment l m ∧
      ∃ col w, CommentAt m line col w ∧ (∀ col' w', CommentAt m line col' w' → col' ≤ col) ∧
        ¬ (l = .flake8 ∧ ImportsIb111 line) ∧
        p = { source := .edulint, enabledBy := Dict.get? enablers "EDL001".toList, path := file, line := (k : Int) + 1,
              column := col, code := "EDL001".toList,
              text := "Forbidden magic comment '".toList ++ w ++ "'".toList,
              endLine := some ((k : Int) + 1), endColumn := some line.length } := by
  have hpat : ∀ l m, m ∈ configPatterns l ↔ ConfigComment l m := by
    intro l m; cases l <;> simp [configPatterns, ConfigComment]
  have hnoqa : ∀ l m, ConfigComment l m → (m.isNoqa ↔ l = .flake8) := by
    intro l m h
    cases l <;> simp only [ConfigComment] at h <;> rcases h with rfl | rfl <;> simp [Magic.isNoqa]
  have hpy : ∀ f : Str, endsWithPy f = true ↔ ∃ stem, f = stem ++ ".py".toList := by
    intro f
    rw [endsWithPy, List.isSuffixOf_iff_suffix]
    exact ⟨fun ⟨s, h⟩ => ⟨s, h.symm⟩, fun ⟨s, h⟩ => ⟨s, h.symm⟩⟩
  simp only [reportInfile, List.mem_flatMap]
  constructor
  · rintro ⟨⟨file, lines⟩, ⟨item, hi, hf⟩, hp⟩
    obtain ⟨hh, hy⟩ := (treePaths_iff _ _ _ _).1 hf
    obtain ⟨k, line, m, hk, hm, hp⟩ := (reportLines_iff _ _).1 hp
    obtain ⟨l, hl, hm⟩ := (reportPatterns_iff ho m).1 hm
    obtain ⟨col, w, hc, hmax, hno, rfl⟩ := (reportLine_iff _ _ _ _ _ _).1 hp
    refine ⟨item, hi, file, lines, hh, (hpy file).1 hy, k, line, hk, l, m, hl, (hpat l m).1 hm, col, w, hc, hmax, ?_, ?_⟩
    · rwa [← hnoqa l m ((hpat l m).1 hm)]
    · have : ((1 + k : Nat) : Int) = (k : Int) + 1 := by omega
      rw [this]
  · rintro ⟨item, hi, file, lines, hh, hy, k, line, hk, l, m, hl, hm, col, w, hc, hmax, hno, rfl⟩
    refine ⟨(file, lines), ⟨item, hi, (treePaths_iff _ _ _ _).2 ⟨hh, (hpy file).2 hy⟩⟩, ?_⟩
    refine (reportLines_iff _ _).2 ⟨k, line, m, hk, (reportPatterns_iff ho m).2 ⟨l, hl, (hpat l m).2 hm⟩, ?_⟩
    refine (reportLine_iff _ _ _ _ _ _).2 ⟨col, w, hc, hmax, ?_, ?_⟩
    · rwa [hnoqa l m hm]
    · have : ((1 + k : Nat) : Int) = (k : Int) + 1 := by omega
      rw [this]

example : (reportInfile [⟨"a.py".toList, .file ["x = 1  # NoQA: E1 # noqa\n".toList, "y = 2  # pylint:disable=all\n".toList]⟩]
    ["flake8".toList, "pylint".toList] []).map (fun p => (p.line, p.column, String.ofList p.text))
    = [(1, 18, "Forbidden magic comment 'noqa'"), (2, 7, "Forbidden magic comment 'pylint:disable'")] := by
  decide +kernel

/-- **C22 is not unconditional in the code**: a `noqa` comment on a line that imports from `ib111` is not
reported, although flake8 obeys it. -/
theorem C22_counterexample_import :
    ∃ line, CommentAt .noqa line 27 "noqa".toList ∧
      ∀ path enablers, reportInfile [⟨path, .file [line]⟩] ["flake8".toList] enablers = [] := by
  refine ⟨"from ib111 import week_01  # noqa\n".toList, ⟨"from ib111 import week_01  ".toList, [' '], ['\n'],
    rfl, rfl, by decide, by decide, rfl⟩, ?_⟩
  intro path enablers
  have h1 : ∀ i e path, reportLine e path i "from ib111 import week_01  # noqa\n".toList .noqa = [] := by
    intro i e path
    rw [List.eq_nil_iff_forall_not_mem]
    intro p hp
    obtain ⟨_, _, -, -, hno, -⟩ := (reportLine_iff _ _ _ _ _ _).1 hp
    exact hno ⟨trivial, [], "from".toList, [' '], "ib111".toList, [' '], "import".toList,
      " week_01  # noqa\n".toList, rfl, by decide, rfl, by decide, by decide, rfl, by decide, by decide, rfl⟩
  have h2 : ∀ i e path, reportLine e path i "from ib111 import week_01  # noqa\n".toList .flake8Noqa = [] := by
    intro i e path
    have : matchSeq Magic.flake8Noqa.pattern "from ib111 import week_01  # noqa\n".toList = none := by decide +kernel
    simp only [reportLine, this]
  have hp : reportPatterns ["flake8".toList] = [.noqa, .flake8Noqa] := by decide
  simp only [reportInfile, hp, List.flatMap_cons, List.flatMap_nil, List.append_nil, treePaths]
  split
  · simp only [reportLines, List.flatMap_cons, List.flatMap_nil, h1, h2, List.append_nil]
  · rfl

/-- Neither is `pylint: skip-file` reported, which makes pylint skip the whole file. -/
theorem C22_counterexample_skip_file :
    ∀ path enablers, reportInfile [⟨path, .file ["# pylint: skip-file\n".toList]⟩] ["pylint".toList] enablers = [] := by
  intro path enablers
  have hp : reportPatterns ["pylint".toList] = [.pylintDisable, .pylintEnable] := by decide
  have h1 : matchSeq Magic.pylintDisable.pattern "# pylint: skip-file\n".toList = none := by decide +kernel
  have h2 : matchSeq Magic.pylintEnable.pattern "# pylint: skip-file\n".toList = none := by decide +kernel
  simp only [reportInfile, hp, List.flatMap_cons, List.flatMap_nil, List.append_nil, treePaths]
  split
  · simp only [reportLines, reportLine, List.flatMap_cons, List.flatMap_nil, h1, h2, List.append_nil]
  · rfl

end Verif

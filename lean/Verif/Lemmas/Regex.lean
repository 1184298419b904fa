import Verif.Model.Regex

/-!
What a match is: soundness, completeness and greediness of `matchSeq`.
-/

namespace Verif

/-- A text that an atom can match. -/
def Atom.Lang : Atom → Str → Prop
  | .one p, w => ∃ c, w = [c] ∧ p c = true
  | .star p, w => ∀ c ∈ w, p c = true
  | .alt ws, w => w ∈ ws

/-- The pieces fit the atoms one by one. -/
inductive Fits : List Atom → List Str → Prop
  | nil : Fits [] []
  | cons {a as w ws} : a.Lang w → Fits as ws → Fits (a :: as) (w :: ws)

theorem Fits.length {as ws} (h : Fits as ws) : ws.length = as.length := by
  induction h <;> simp_all

theorem Fits.append {as bs us vs} (h : Fits as us) (h' : Fits bs vs) : Fits (as ++ bs) (us ++ vs) := by
  induction h with
  | nil => exact h'
  | cons ha _ ih => exact .cons ha ih

theorem starMatch_sound {p k s r} (h : starMatch p k s = some r) :
    ∃ w ws t, r = w :: ws ∧ s = w ++ t ∧ (∀ c ∈ w, p c = true) ∧ k t = some ws := by
  induction s generalizing r with
  | nil =>
    simp only [starMatch, Option.map_eq_some_iff] at h
    obtain ⟨ws, hk, rfl⟩ := h
    exact ⟨[], ws, [], rfl, rfl, by simp, hk⟩
  | cons c s ih =>
    have fallback : ∀ r, (k (c :: s)).map ([] :: ·) = some r →
        ∃ w ws t, r = w :: ws ∧ c :: s = w ++ t ∧ (∀ c ∈ w, p c = true) ∧ k t = some ws := by
      intro r h
      simp only [Option.map_eq_some_iff] at h
      obtain ⟨ws, hk, rfl⟩ := h
      exact ⟨[], ws, c :: s, rfl, rfl, by simp, hk⟩
    simp only [starMatch] at h
    split at h
    · rename_i hp
      split at h
      · rename_i w ws hs
        obtain ⟨w', ws', t, heq, hst, hall, hk⟩ := ih hs
        cases heq
        cases h
        refine ⟨c :: w, ws, t, rfl, by simp [hst], ?_, hk⟩
        intro d hd
        rcases List.mem_cons.1 hd with rfl | hd
        · exact hp
        · exact hall d hd
      · exact fallback r h
    · exact fallback r h

theorem starMatch_complete {p k w t} (hall : ∀ c ∈ w, p c = true) (hk : k t ≠ none) :
    starMatch p k (w ++ t) ≠ none := by
  induction w with
  | nil =>
    obtain ⟨r, hr⟩ := Option.ne_none_iff_exists'.1 hk
    cases t with
    | nil => simp [starMatch, hr]
    | cons c t =>
      simp only [List.nil_append, starMatch]
      split
      · split <;> simp [hr]
      · simp [hr]
  | cons c w ih =>
    have h := ih (fun d hd => hall d (by simp [hd]))
    obtain ⟨r, hr⟩ := Option.ne_none_iff_exists'.1 h
    obtain ⟨w', ws, t', rfl, -, -, -⟩ := starMatch_sound hr
    simp [starMatch, hall c (by simp), hr]

/-- The repetition takes the longest piece after which the rest still matches. -/
theorem starMatch_greedy {p k w t w' ws} (hall : ∀ c ∈ w, p c = true) (hk : k t ≠ none)
    (h : starMatch p k (w ++ t) = some (w' :: ws)) : w.length ≤ w'.length := by
  induction w generalizing w' ws with
  | nil => simp
  | cons c w ih =>
    have hall' := fun d hd => hall d (List.mem_cons_of_mem c hd)
    obtain ⟨r, hr⟩ := Option.ne_none_iff_exists'.1 (starMatch_complete hall' hk)
    obtain ⟨w'', ws'', t', rfl, -, -, -⟩ := starMatch_sound hr
    have hle := ih hall' hr
    simp only [List.cons_append, starMatch, hall c (List.mem_cons_self ..), if_true, hr] at h
    cases h
    simpa using hle

theorem altMatch_sound {k s ws r} (h : altMatch k s ws = some r) :
    ∃ w ps t, r = w :: ps ∧ s = w ++ t ∧ w ∈ ws ∧ k t = some ps := by
  induction ws with
  | nil => simp [altMatch] at h
  | cons w ws ih =>
    simp only [altMatch] at h
    split at h
    · rename_i r' hr
      cases h
      split at hr
      · rename_i hp
        obtain ⟨t, rfl⟩ := List.isPrefixOf_iff_prefix.1 hp
        simp only [List.drop_left, Option.map_eq_some_iff] at hr
        obtain ⟨ps, hk, rfl⟩ := hr
        exact ⟨w, ps, t, rfl, rfl, by simp, hk⟩
      · simp at hr
    · obtain ⟨w', ps, t, h1, h2, h3, h4⟩ := ih h
      exact ⟨w', ps, t, h1, h2, by simp [h3], h4⟩

theorem altMatch_complete {k ws w t} (hw : w ∈ ws) (hk : k t ≠ none) :
    altMatch k (w ++ t) ws ≠ none := by
  induction ws with
  | nil => simp at hw
  | cons v ws ih =>
    simp only [altMatch]
    split
    · simp
    · rename_i hnone
      rcases List.mem_cons.1 hw with rfl | hw
      · obtain ⟨r, hr⟩ := Option.ne_none_iff_exists'.1 hk
        simp [hr] at hnone
      · exact ih hw

/-- A match splits a prefix of the text into pieces that fit the atoms. -/
theorem matchSeq_sound {as s ps} (h : matchSeq as s = some ps) :
    Fits as ps ∧ ∃ t, s = ps.flatten ++ t := by
  induction as generalizing s ps with
  | nil => simp only [matchSeq, Option.some.injEq] at h; subst h; exact ⟨.nil, s, rfl⟩
  | cons a as ih =>
    cases a with
    | one p =>
      cases s with
      | nil => simp [matchSeq] at h
      | cons c s =>
        simp only [matchSeq] at h
        split at h
        · rename_i hp
          simp only [Option.map_eq_some_iff] at h
          obtain ⟨qs, hq, rfl⟩ := h
          obtain ⟨hf, t, rfl⟩ := ih hq
          exact ⟨.cons ⟨c, rfl, hp⟩ hf, t, by simp⟩
        · simp at h
    | star p =>
      obtain ⟨w, ws, t, rfl, rfl, hall, hk⟩ := starMatch_sound h
      obtain ⟨hf, t', rfl⟩ := ih hk
      exact ⟨.cons hall hf, t', by simp⟩
    | alt words =>
      obtain ⟨w, ws, t, rfl, rfl, hw, hk⟩ := altMatch_sound h
      obtain ⟨hf, t', rfl⟩ := ih hk
      exact ⟨.cons hw hf, t', by simp⟩

/-- If some prefix of the text splits into fitting pieces, there is a match. -/
theorem matchSeq_complete {as ps t} (h : Fits as ps) : matchSeq as (ps.flatten ++ t) ≠ none := by
  induction h with
  | nil => simp [matchSeq]
  | @cons a as w ws ha hf ih =>
    cases a with
    | one p =>
      obtain ⟨c, rfl, hp⟩ := ha
      obtain ⟨r, hr⟩ := Option.ne_none_iff_exists'.1 ih
      simp [matchSeq, hp, hr]
    | star p =>
      simp only [matchSeq, List.flatten_cons, List.append_assoc]
      exact starMatch_complete ha ih
    | alt words =>
      simp only [matchSeq, List.flatten_cons, List.append_assoc]
      exact altMatch_complete ha ih

theorem matchSeq_iff {as s} : matchSeq as s ≠ none ↔ ∃ ps t, Fits as ps ∧ s = ps.flatten ++ t := by
  constructor
  · intro h
    obtain ⟨ps, hp⟩ := Option.ne_none_iff_exists'.1 h
    obtain ⟨hf, t, ht⟩ := matchSeq_sound hp
    exact ⟨ps, t, hf, ht⟩
  · rintro ⟨ps, t, hf, rfl⟩
    exact matchSeq_complete hf

/-- A leading repetition takes the longest piece that any match could give it. -/
theorem matchSeq_greedy {p as s w' ws w vs t} (h : matchSeq (.star p :: as) s = some (w' :: ws))
    (hf : Fits (.star p :: as) (w :: vs)) (hs : s = w ++ vs.flatten ++ t) : w.length ≤ w'.length := by
  cases hf with
  | cons ha hf =>
    subst hs
    rw [List.append_assoc] at h
    exact starMatch_greedy ha (matchSeq_complete hf) h

theorem fits_lits (s : Str) {ws} : Fits (lits s) ws ↔ ws = s.map fun c => [c] := by
  induction s generalizing ws with
  | nil =>
    constructor
    · intro h; cases h; rfl
    · rintro rfl; exact .nil
  | cons c s ih =>
    constructor
    · intro h
      cases h with
      | cons ha hf =>
        obtain ⟨d, rfl, hd⟩ := ha
        simp only [beq_iff_eq] at hd
        subst hd
        simp [ih.1 hf]
    · rintro rfl
      exact .cons ⟨c, rfl, by simp⟩ (ih.2 rfl)

theorem fits_litsI (s : Str) {ws} :
    Fits (litsI s) ws ↔ ∃ t : Str, ws = t.map (fun c => [c]) ∧ lower t = lower s := by
  induction s generalizing ws with
  | nil =>
    constructor
    · intro h; cases h; exact ⟨[], rfl, rfl⟩
    · rintro ⟨t, rfl, h⟩
      cases t with
      | nil => exact .nil
      | cons c t => simp [lower] at h
  | cons c s ih =>
    constructor
    · intro h
      cases h with
      | cons ha hf =>
        obtain ⟨d, rfl, hd⟩ := ha
        simp only [beq_iff_eq] at hd
        obtain ⟨t, rfl, ht⟩ := ih.1 hf
        refine ⟨d :: t, rfl, ?_⟩
        simp only [lower, List.map_cons] at ht ⊢
        rw [hd, ht]
    · rintro ⟨t, rfl, h⟩
      cases t with
      | nil => simp [lower] at h
      | cons d t =>
        simp only [lower, List.map_cons, List.cons.injEq] at h
        exact .cons ⟨d, rfl, by simp [h.1]⟩ (ih.2 ⟨t, rfl, h.2⟩)

theorem flatten_singletons (s : Str) : (s.map fun c => [c]).flatten = s := by
  induction s <;> simp_all

theorem Fits.split {as bs ws} (h : Fits (as ++ bs) ws) :
    ∃ us vs, ws = us ++ vs ∧ Fits as us ∧ Fits bs vs := by
  induction as generalizing ws with
  | nil => exact ⟨[], ws, rfl, .nil, h⟩
  | cons a as ih =>
    cases h with
    | cons ha hf =>
      obtain ⟨us, vs, rfl, h1, h2⟩ := ih hf
      exact ⟨_ :: us, vs, rfl, .cons ha h1, h2⟩

end Verif

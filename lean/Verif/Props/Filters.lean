import Verif.Props.Outcome
import Verif.Props.Report
import Mathlib.Data.List.Forall2
import Mathlib.Tactic.ByContra

/-!
C50 to C53: filtering and rewording the linters' messages.
-/

namespace Verif

/-! ### C50 -/

/-- The kinds of problems that can be filtered out. -/
def Filterable (p : Problem) : Prop :=
  (p.source = .pylint ∧ p.code ∈ ["C0104".toList, "R6607".toList, "C0325".toList, "W0622".toList]) ∨
    (p.source = .flake8 ∧ p.code = "F401".toList)

/-- The kinds of problems whose text can be changed. -/
def Rewordable (p : Problem) : Prop :=
  (p.source = .pylint ∧ p.code = "C0104".toList) ∨ (p.source = .flake8 ∧ p.code = "E712".toList)

/-- What filtering and rewording may do to a list of problems. -/
inductive Filtered : List Problem → List Problem → Prop
  | nil : Filtered [] []
  | same {p ps ks} : Filtered ps ks → Filtered (p :: ps) (p :: ks)
  | reword {p ps ks} (text : Str) : Rewordable p → Filtered ps ks → Filtered (p :: ps) ({ p with text := text } :: ks)
  | drop {p ps ks} : Filterable p → Filtered ps ks → Filtered (p :: ps) ks

theorem tweakers_cases {l : Linter} {code : Str} {t : Tweaker} (h : Dict.get? tweakers (l, code) = some t) :
    (l = .pylint ∧ code = "C0104".toList ∧
      t = ⟨[.allowedOnecharNames], disallowedNamePattern, disallowedNameKeep, disallowedNameReword⟩) ∨
    (l = .flake8 ∧ code = "F401".toList ∧ t = ⟨[], unusedImportPattern, unusedImportKeep, sameText⟩) ∨
    (l = .pylint ∧ code = "R6607".toList ∧ t = ⟨[.setGroups], repeatedOpPattern, noRepeatedOpKeep, sameText⟩) ∨
    (l = .pylint ∧ code = "C0325".toList ∧ t = ⟨[], superfluousParensPattern, superfluousParensKeep, sameText⟩) ∨
    (l = .pylint ∧ code = "W0622".toList ∧
      t = ⟨[.disallowedBuiltinNames], redefinedBuiltinPattern, redefinedBuiltinKeep, sameText⟩) ∨
    (l = .flake8 ∧ code = "E712".toList ∧ t = ⟨[], boolComparisonPattern, keepAll, boolComparisonReword⟩) := by
  have hm := Dict.mem_of_get? h
  unfold tweakers at hm
  simp only [List.mem_cons, Prod.mk.injEq, List.not_mem_nil, or_false] at hm
  rcases hm with ⟨⟨h1, h2⟩, h3⟩ | ⟨⟨h1, h2⟩, h3⟩ | ⟨⟨h1, h2⟩, h3⟩ | ⟨⟨h1, h2⟩, h3⟩ | ⟨⟨h1, h2⟩, h3⟩ | ⟨⟨h1, h2⟩, h3⟩
  · exact Or.inl ⟨h1, h2, h3⟩
  · exact Or.inr (Or.inl ⟨h1, h2, h3⟩)
  · exact Or.inr (Or.inr (Or.inl ⟨h1, h2, h3⟩))
  · exact Or.inr (Or.inr (Or.inr (Or.inl ⟨h1, h2, h3⟩)))
  · exact Or.inr (Or.inr (Or.inr (Or.inr (Or.inl ⟨h1, h2, h3⟩))))
  · exact Or.inr (Or.inr (Or.inr (Or.inr (Or.inr ⟨h1, h2, h3⟩))))

/-- **C50.** Filtering keeps the order; it only removes problems of five kinds and only changes the text of
problems of two kinds. -/
theorem C50_filtering (config : ImmutableConfig) (ps kept : List Problem)
    (h : applyTweaks tweakers config ps = .ok kept) : Filtered ps kept := by
  induction ps generalizing kept with
  | nil => cases h; exact .nil
  | cons p ps ih =>
    simp only [applyTweaks] at h
    split at h
    · cases h
    rename_i hd hhd
    split at h
    · cases h
    rename_i rest hrest
    cases h
    have ih' := ih rest hrest
    split at hhd
    · cases hhd; exact .same ih'
    rename_i t ht
    have htc := tweakers_cases ht
    split at hhd
    · cases hhd
    · rename_i hk
      cases hhd
      refine .drop ?_ ih'
      rcases htc with ⟨h1, h2, -⟩ | ⟨h1, h2, -⟩ | ⟨h1, h2, -⟩ | ⟨h1, h2, -⟩ | ⟨h1, h2, -⟩ | ⟨-, -, rfl⟩
      · exact Or.inl ⟨h1, by rw [h2]; decide⟩
      · exact Or.inr ⟨h1, h2⟩
      · exact Or.inl ⟨h1, by rw [h2]; decide⟩
      · exact Or.inl ⟨h1, by rw [h2]; decide⟩
      · exact Or.inl ⟨h1, by rw [h2]; decide⟩
      · cases hk
    · split at hhd
      · cases hhd
      rename_i text htext
      cases hhd
      rcases htc with ⟨h1, h2, -⟩ | ⟨-, -, rfl⟩ | ⟨-, -, rfl⟩ | ⟨-, -, rfl⟩ | ⟨-, -, rfl⟩ | ⟨h1, h2, -⟩
      · exact .reword text (Or.inl ⟨h1, h2⟩) ih'
      · cases htext; exact .same ih'
      · cases htext; exact .same ih'
      · cases htext; exact .same ih'
      · cases htext; exact .same ih'
      · exact .reword text (Or.inr ⟨h1, h2⟩) ih'

/-- **C50**, independence: the result for a list of problems consists of the results for each of them alone. -/
theorem C50_each_alone (config : ImmutableConfig) (ps kept : List Problem) :
    applyTweaks tweakers config ps = .ok kept ↔
      ∃ parts, List.Forall₂ (fun p r => applyTweaks tweakers config [p] = .ok r) ps parts ∧ kept = parts.flatten := by
  have cons : ∀ p ps, applyTweaks tweakers config (p :: ps) =
      match applyTweaks tweakers config [p] with
      | .error e => .error e
      | .ok a =>
        match applyTweaks tweakers config ps with
        | .error e => .error e
        | .ok b => .ok (a ++ b) := by
    intro p ps
    have key : ∀ hd : Except PyErr (List Problem),
        ((match hd with
          | .error e => .error e
          | .ok h =>
            match applyTweaks tweakers config ps with
            | .error e => .error e
            | .ok r => .ok (h ++ r)) : Except PyErr (List Problem)) =
        (match (match hd with
            | .error e => (.error e : Except PyErr (List Problem))
            | .ok h => .ok (h ++ [])) with
          | .error e => (.error e : Except PyErr (List Problem))
          | .ok a =>
            match applyTweaks tweakers config ps with
            | .error e => .error e
            | .ok b => .ok (a ++ b)) := by
      intro hd
      cases hd with
      | error e => rfl
      | ok h => simp only [List.append_nil]
    exact key _
  induction ps generalizing kept with
  | nil =>
    constructor
    · intro h; cases h; exact ⟨[], .nil, rfl⟩
    · rintro ⟨parts, h, rfl⟩; cases h; rfl
  | cons p ps ih =>
    rw [cons]
    constructor
    · intro h
      split at h
      · cases h
      rename_i a ha
      split at h
      · cases h
      rename_i b hb
      cases h
      obtain ⟨parts, h1, rfl⟩ := (ih b).1 hb
      exact ⟨a :: parts, .cons ha h1, rfl⟩
    · rintro ⟨parts, h, rfl⟩
      cases h with
      | cons h1 h2 =>
        rename_i a parts
        rw [h1, (ih parts.flatten).2 ⟨parts, h2, rfl⟩]
        rfl

/-! ### Reading messages -/

theorem matchSeq_lits (a : Str) (as : List Atom) (s : Str) :
    matchSeq (lits a ++ as) (a ++ s) = (matchSeq as s).map (a.map (fun c => [c]) ++ ·) := by
  induction a with
  | nil => simp [lits]
  | cons c a ih =>
    have : matchSeq (lits (c :: a) ++ as) (c :: a ++ s) = (matchSeq (lits a ++ as) (a ++ s)).map ([c] :: ·) := by
      simp [lits, matchSeq]
    rw [this, ih]
    cases matchSeq as s <;> simp

/-- A repetition takes `w` if the rest of the pattern matches the rest `t`, but no proper end of it. -/
theorem starMatch_longest {p k r} {w t : Str} (hw : ∀ c ∈ w, p c = true) (hk : k t = some r)
    (ht : ∀ u v, t = u ++ v → u ≠ [] → (∀ c ∈ u, p c = true) → k v = none) :
    starMatch p k (w ++ t) = some (w :: r) := by
  induction w with
  | nil =>
    cases t with
    | nil => simp only [List.nil_append, starMatch, hk, Option.map_some]
    | cons c s =>
      simp only [List.nil_append, starMatch, hk, Option.map_some]
      split
      · rename_i hc
        split
        · rename_i w' ws hm
          obtain ⟨x, xs, t', h1, h2, h3, h4⟩ := starMatch_sound hm
          have := ht (c :: x) t' (by rw [h2]; rfl) (by simp) (by
            intro d hd
            rcases List.mem_cons.1 hd with rfl | hd
            · exact hc
            · exact h3 d hd)
          rw [this] at h4
          cases h4
        · rfl
      · rfl
  | cons c w ih =>
    have hc := hw c (by simp)
    simp only [List.cons_append, starMatch, hc, if_true]
    rw [ih fun d hd => hw d (by simp [hd])]

theorem matchSeq_star {p as r} {w t : Str} (hw : ∀ c ∈ w, p c = true) (hk : matchSeq as t = some r)
    (ht : ∀ u v, t = u ++ v → u ≠ [] → (∀ c ∈ u, p c = true) → matchSeq as v = none) :
    matchSeq (.star p :: as) (w ++ t) = some (w :: r) := starMatch_longest hw hk ht

/-- A repetition ends before a character that is not in its class. -/
theorem matchSeq_star_stop {p as r} {w t : Str} {c : Char} (hw : ∀ c ∈ w, p c = true) (ht : t.head? = some c)
    (hc : p c = false) (hk : matchSeq as t = some r) : matchSeq (.star p :: as) (w ++ t) = some (w :: r) := by
  refine matchSeq_star hw hk ?_
  intro u v h1 h2 h3
  cases u with
  | nil => exact absurd rfl h2
  | cons d u =>
    rw [h1] at ht
    cases ht
    rw [h3 _ (by simp)] at hc
    cases hc

/-- A part between two fixed texts is found. -/
theorem matchSeq_between {a b n : Str} (hn : '\n' ∉ n) :
    matchSeq (lits a ++ [.star dot] ++ lits b) (a ++ n ++ b) =
      some (a.map (fun c => [c]) ++ n :: b.map (fun c => [c])) := by
  rw [List.append_assoc, List.append_assoc, matchSeq_lits]
  have hb : ∀ t, matchSeq (lits b) t = none ∨ b.length ≤ t.length := by
    intro t
    cases h : matchSeq (lits b) t with
    | none => exact Or.inl rfl
    | some ps =>
      obtain ⟨hf, t', ht⟩ := matchSeq_sound h
      rw [(fits_lits b).1 hf, flatten_singletons] at ht
      right
      rw [ht]
      simp
  have h1 : matchSeq (lits b) b = some (b.map fun c => [c]) := by
    have := matchSeq_lits b [] []
    simpa [matchSeq] using this
  have := matchSeq_star (p := dot) (w := n) (dot_all.2 hn) h1 (by
    intro u v h2 h3 _
    rcases hb v with h4 | h4
    · exact h4
    · have h5 := congrArg List.length h2
      rw [List.length_append] at h5
      have := List.length_pos_iff.2 h3
      omega)
  rw [List.singleton_append, this]
  rfl

theorem pieces_at (us vs : List Str) (w : Str) (k : Nat) (hk : us.length = k) : pieces (us ++ w :: vs) k 1 = w := by
  subst hk
  simp [pieces]

/-- A configuration as produced by `to_immutable`: one value per option. -/
def fullConfig (f : Opt → Val) (en : Dict Str Str) : ImmutableConfig := ⟨Opt.all.map fun o => ⟨o, f o⟩, en⟩

/-- These are the configurations that runs use. -/
theorem fullConfig_of_toImmutable (c : Config) (sets : OptionSets) (hs : SetsOk sets)
    (hc : WTyped (present c.config)) : ∃ f en, c.toImmutable sets = .ok (fullConfig f en) := by
  obtain ⟨en, -, h⟩ := toImmutable_spec c sets hs hc
  exact ⟨_, _, h⟩

theorem fullConfig_one (f : Opt → Val) (en : Dict Str Str) (o : Opt) :
    ((fullConfig f en).config.filter fun a => [o].contains a.option) = [⟨o, f o⟩] := by
  cases o <;> rfl

/-! ### C51 -/

/-- The characters that the option `allowed-onechar-names` allows. -/
def Allows (v : Val) (c : Char) : Prop := ∃ s, v = .str s ∧ c ∈ s

theorem containsStr_single {c : Char} {s : Str} : containsStr [c] s = true ↔ c ∈ s := by
  rw [containsStr_iff]
  constructor
  · rintro ⟨a, b, rfl⟩; simp
  · intro h
    obtain ⟨a, b, rfl⟩ := List.append_of_mem h
    exact ⟨a, b, by simp⟩

/-- pylint's problem about a disallowed name. -/
def IsNameProblem (p : Problem) (name : Str) : Prop :=
  p.source = .pylint ∧ p.code = "C0104".toList ∧ p.text = "Disallowed name \"".toList ++ name ++ "\"".toList ∧ '\n' ∉ name

theorem disallowedName_group {p : Problem} {name : Str} (h : IsNameProblem p name) :
    disallowedNameGroup p = .ok name := by
  obtain ⟨-, -, ht, hn⟩ := h
  unfold disallowedNameGroup tweakMatch disallowedNamePattern
  rw [ht, show "Disallowed name \"".toList = disallowedNamePrefix from rfl, show "\"".toList = ['"'] from rfl,
    matchSeq_between hn]
  simp only
  rw [pieces_at _ _ _ _ (by simp)]

/-- **C51.** A problem about a disallowed name is left out exactly if the name is a single character listed in
`allowed-onechar-names`; if it is kept and the name is a single character, its text asks for a more
descriptive name, otherwise it is unchanged. -/
theorem C51_names (f : Opt → Val) (en : Dict Str Str) (p : Problem) (name : Str) (hp : IsNameProblem p name)
    (hv : f .allowedOnecharNames = .none ∨ ∃ s, f .allowedOnecharNames = .str s) :
    (∀ c, name = [c] → Allows (f .allowedOnecharNames) c → applyTweaks tweakers (fullConfig f en) [p] = .ok []) ∧
    (∀ c, name = [c] → ¬ Allows (f .allowedOnecharNames) c → applyTweaks tweakers (fullConfig f en) [p] =
      .ok [{ p with text := "Disallowed single-character variable name \"".toList ++ [c] ++
        "\", choose a more descriptive name".toList }]) ∧
    ((∀ c, name ≠ [c]) → applyTweaks tweakers (fullConfig f en) [p] = .ok [p]) := by
  have hg := disallowedName_group hp
  have ht : Dict.get? tweakers (p.source, p.code) =
      some ⟨[.allowedOnecharNames], disallowedNamePattern, disallowedNameKeep, disallowedNameReword⟩ := by
    rw [hp.1, hp.2.1]; rfl
  have hlen : name.length = 1 ↔ ∃ c, name = [c] := List.length_eq_one_iff
  have hkeep : ∃ allowed : Str, (∀ c, c ∈ allowed ↔ Allows (f .allowedOnecharNames) c) ∧
      disallowedNameKeep p [⟨.allowedOnecharNames, f .allowedOnecharNames⟩] =
        .ok (decide (name.length ≠ 1) || !containsStr name allowed) := by
    rcases hv with hv | ⟨s, hv⟩
    · exact ⟨[], fun c => by simp [Allows, hv], by simp [disallowedNameKeep, hv, hg]⟩
    · exact ⟨s, fun c => by simp [Allows, hv], by simp [disallowedNameKeep, hv, hg]⟩
  obtain ⟨allowed, ha, hkeep⟩ := hkeep
  have hres : applyTweaks tweakers (fullConfig f en) [p] =
      if (decide (name.length ≠ 1) || !containsStr name allowed) = true then
        .ok [{ p with text := if name.length = 1 then "Disallowed single-character variable name \"".toList ++ name ++
          "\", choose a more descriptive name".toList else p.text }]
      else .ok [] := by
    simp only [applyTweaks, ht, fullConfig_one, hkeep]
    cases hb : (decide (name.length ≠ 1) || !containsStr name allowed) with
    | false => simp
    | true =>
      simp only [disallowedNameReword, hg]
      by_cases hl : name.length = 1 <;> simp [hl]
  refine ⟨?_, ?_, ?_⟩
  · rintro c rfl hc
    rw [hres, if_neg (by simp [containsStr_single, (ha c).2 hc])]
  · rintro c rfl hc
    have : containsStr [c] allowed = false := by
      rw [Bool.eq_false_iff]
      exact fun h => hc ((ha c).1 (containsStr_single.1 h))
    rw [hres, if_pos (by simp [this])]
    simp
  · intro hno
    have hl : ¬ name.length = 1 := fun h => by
      obtain ⟨c, hc⟩ := hlen.1 h
      exact hno c hc
    rw [hres, if_pos (by simp [hl])]
    simp [hl]

/-! ### C52 -/

theorem stripChars_quoted {q name : Str} (hq : ∀ c ∈ q, c = '\'' ∨ c = '"') (hne : name ≠ [])
    (h1 : ∀ c ∈ name.head?, c ≠ '\'' ∧ c ≠ '"') (h2 : ∀ c ∈ name.getLast?, c ≠ '\'' ∧ c ≠ '"') :
    stripChars ['\'', '"'] (q ++ name ++ q) = name := by
  have hall : ∀ c ∈ q, (['\'', '"'] : Str).contains c = true := by
    intro c hc
    rcases hq c hc with rfl | rfl <;> decide
  have hd : ∀ (l m : Str), (∀ c ∈ l, (['\'', '"'] : Str).contains c = true) → m ≠ [] → (∀ c ∈ m.head?, c ≠ '\'' ∧ c ≠ '"') →
      ∀ r, List.dropWhile (['\'', '"'] : Str).contains (l ++ (m ++ r)) = m ++ r := by
    intro l m hl hm hh r
    induction l with
    | nil =>
      cases m with
      | nil => exact absurd rfl hm
      | cons c m =>
        have := hh c (by simp)
        rw [List.nil_append, List.cons_append, List.dropWhile_cons_of_neg]
        simp [this.1, this.2]
    | cons c l ih =>
      rw [List.cons_append, List.dropWhile_cons_of_pos (hl c (by simp))]
      exact ih fun d hd => hl d (by simp [hd])
  unfold stripChars
  rw [List.append_assoc, hd q name hall hne h1 q, List.reverse_append]
  have := hd q.reverse name.reverse (fun c hc => hall c (by simpa using hc)) (by simpa using hne)
    (by rw [List.head?_reverse]; exact h2) []
  rw [List.append_nil] at this
  rw [this, List.reverse_reverse]

/-- pylint's problem about a redefined built-in name; the name is shown in quotes. -/
def IsBuiltinProblem (p : Problem) (name : Str) : Prop :=
  p.source = .pylint ∧ p.code = "W0622".toList ∧ p.text = "Redefining built-in '".toList ++ name ++ "'".toList ∧
    name ≠ [] ∧ '\'' ∉ name ∧ '"' ∉ name ∧ '\n' ∉ name

/-- **C52.** A problem about a redefined built-in is reported, unchanged, exactly if `disallowed-builtin-names`
lists the name or lists nothing. -/
theorem C52_builtins (f : Opt → Val) (en : Dict Str Str) (p : Problem) (name : Str) (hp : IsBuiltinProblem p name)
    (names : List Str) (hv : f .disallowedBuiltinNames = .list names) :
    applyTweaks tweakers (fullConfig f en) [p] = .ok (if names = [] ∨ name ∈ names then [p] else []) := by
  obtain ⟨hsrc, hcode, ht, hne, hq1, hq2, hn⟩ := hp
  have htw : Dict.get? tweakers (p.source, p.code) =
      some ⟨[.disallowedBuiltinNames], redefinedBuiltinPattern, redefinedBuiltinKeep, sameText⟩ := by
    rw [hsrc, hcode]; rfl
  have hm : tweakMatch redefinedBuiltinPattern p =
      .ok (redefinedBuiltinPrefix.map (fun c => [c]) ++ [['\''] ++ name ++ ['\'']]) := by
    unfold tweakMatch redefinedBuiltinPattern
    have : p.text = redefinedBuiltinPrefix ++ (['\''] ++ name ++ ['\'']) ++ [] := by
      rw [ht]
      show redefinedBuiltinPrefix ++ ['\''] ++ name ++ ['\''] = _
      simp
    rw [this]
    have := matchSeq_between (a := redefinedBuiltinPrefix) (b := []) (n := ['\''] ++ name ++ ['\'']) (by simp [hn])
    simp only [lits, List.map_nil, List.append_nil] at this
    rw [List.append_nil]
    simp only [lits]
    rw [this]
  have hstrip : stripChars ['\'', '"'] (['\''] ++ name ++ ['\'']) = name :=
    stripChars_quoted (by simp) hne
      (fun c hc => ⟨fun e => hq1 (e ▸ List.mem_of_mem_head? hc), fun e => hq2 (e ▸ List.mem_of_mem_head? hc)⟩)
      (fun c hc => ⟨fun e => hq1 (e ▸ List.mem_of_mem_getLast? hc), fun e => hq2 (e ▸ List.mem_of_mem_getLast? hc)⟩)
  have hkeep : redefinedBuiltinKeep p [⟨.disallowedBuiltinNames, f .disallowedBuiltinNames⟩] =
      .ok (decide (names = []) || names.contains name) := by
    unfold redefinedBuiltinKeep
    rw [hm]
    simp only
    rw [pieces_at _ _ _ _ (by simp), hstrip, hv]
    simp only [if_true, Val.truthy, Val.contains]
    by_cases hnil : names = []
    · simp [hnil]
    · simp [hnil]
  simp only [applyTweaks, htw, fullConfig_one, hkeep]
  by_cases hc : names = [] ∨ name ∈ names
  · have : (decide (names = []) || names.contains name) = true := by simpa using hc
    rw [this, if_pos hc]
    simp [sameText]
  · have : (decide (names = []) || names.contains name) = false := by
      rw [Bool.eq_false_iff]; simpa using hc
    rw [this, if_neg hc]
    simp

/-! ### C53 -/

/-- **C53**, unused imports: a problem about an unused import is left out exactly if the imported name starts
with `ib111`. -/
theorem C53_unused_import (f : Opt → Val) (en : Dict Str Str) (p : Problem) (name : Str)
    (hp : p.source = .flake8 ∧ p.code = "F401".toList ∧ p.text = "'".toList ++ name ++ "' imported but unused".toList)
    (hn : '\n' ∉ name) :
    ((∃ rest, name = "ib111".toList ++ rest) → applyTweaks tweakers (fullConfig f en) [p] = .ok []) ∧
    ((¬ ∃ rest, name = "ib111".toList ++ rest) → applyTweaks tweakers (fullConfig f en) [p] = .ok [p]) := by
  obtain ⟨hsrc, hcode, ht⟩ := hp
  have htw : Dict.get? tweakers (p.source, p.code) = some ⟨[], unusedImportPattern, unusedImportKeep, sameText⟩ := by
    rw [hsrc, hcode]; rfl
  have hkeep : ∀ args, unusedImportKeep p args = .ok !(startsWith name "ib111".toList) := by
    intro args
    unfold unusedImportKeep tweakMatch unusedImportPattern
    rw [ht, show "'".toList = ['\''] from rfl, show "' imported but unused".toList = unusedImportSuffix from rfl,
      matchSeq_between hn]
    simp only
    rw [pieces_at _ _ _ _ (by simp)]
  have hst : startsWith name "ib111".toList = true ↔ ∃ rest, name = "ib111".toList ++ rest := by
    unfold startsWith
    rw [List.isPrefixOf_iff_prefix]
    exact ⟨fun ⟨r, h⟩ => ⟨r, h.symm⟩, fun ⟨r, h⟩ => ⟨r, h.symm⟩⟩
  simp only [applyTweaks, htw, hkeep]
  refine ⟨fun hc => ?_, fun hc => ?_⟩
  · rw [hst.2 hc]; simp
  · rw [Bool.eq_false_iff.2 (fun h => hc (hst.1 h))]; simp [sameText]

/-- **C53**, superfluous parentheses: the problem is left out exactly after the keyword `not` (in any case). -/
theorem C53_parens (f : Opt → Val) (en : Dict Str Str) (p : Problem) (keyword : Str)
    (hp : p.source = .pylint ∧ p.code = "C0325".toList ∧
      p.text = "Unnecessary parens after '".toList ++ keyword ++ "' keyword".toList)
    (hk : keyword ≠ [] ∧ '\'' ∉ keyword ∧ '"' ∉ keyword ∧ '\n' ∉ keyword) :
    applyTweaks tweakers (fullConfig f en) [p] = .ok (if lower keyword = "not".toList then [] else [p]) := by
  obtain ⟨hsrc, hcode, ht⟩ := hp
  obtain ⟨hne, hq1, hq2, hn⟩ := hk
  have htw : Dict.get? tweakers (p.source, p.code) =
      some ⟨[], superfluousParensPattern, superfluousParensKeep, sameText⟩ := by
    rw [hsrc, hcode]; rfl
  have hstrip : stripChars ['\'', '"'] (['\''] ++ keyword ++ ['\'']) = keyword :=
    stripChars_quoted (by simp) hne
      (fun c hc => ⟨fun e => hq1 (e ▸ List.mem_of_mem_head? hc), fun e => hq2 (e ▸ List.mem_of_mem_head? hc)⟩)
      (fun c hc => ⟨fun e => hq1 (e ▸ List.mem_of_mem_getLast? hc), fun e => hq2 (e ▸ List.mem_of_mem_getLast? hc)⟩)
  have hkeep : ∀ args, superfluousParensKeep p args = .ok (decide (lower keyword ≠ "not".toList)) := by
    intro args
    unfold superfluousParensKeep tweakMatch superfluousParensPattern
    have : p.text = superfluousParensPrefix ++ (['\''] ++ keyword ++ ['\'']) ++ " keyword".toList := by
      rw [ht]
      show superfluousParensPrefix ++ ['\''] ++ keyword ++ (['\''] ++ " keyword".toList) = _
      simp
    rw [this, matchSeq_between (by simp [hn])]
    simp only
    rw [pieces_at _ _ _ _ (by simp), hstrip]
  simp only [applyTweaks, htw, hkeep]
  by_cases hc : lower keyword = "not".toList
  · rw [if_pos hc, decide_eq_false (by simpa using hc)]; simp
  · rw [if_neg hc, decide_eq_true hc]; simp [sameText]

/-- **C53**, comparisons to `True` or `False`: the suggestion to use `is` is removed from the text. (`other` must
not contain the separating text itself, which pycodestyle's suggestions do not.) -/
theorem C53_bool_comparison (f : Opt → Val) (en : Dict Str Str) (p : Problem) (b cond other : Str)
    (hb : b = "True".toList ∨ b = "False".toList)
    (hp : p.source = .flake8 ∧ p.code = "E712".toList ∧
      p.text = "comparison to ".toList ++ b ++ " should be 'if cond is ".toList ++ cond ++ "' or ".toList ++ other)
    (hn : '\n' ∉ cond ∧ '\n' ∉ other) (ho : ∀ x y, other ≠ x ++ "' or ".toList ++ y) :
    applyTweaks tweakers (fullConfig f en) [p] =
      .ok [{ p with text := "comparison to ".toList ++ b ++ " should be ".toList ++ other }] := by
  obtain ⟨hsrc, hcode, ht⟩ := hp
  have htw : Dict.get? tweakers (p.source, p.code) =
      some ⟨[], boolComparisonPattern, keepAll, boolComparisonReword⟩ := by
    rw [hsrc, hcode]; rfl
  have hend : matchSeq [.star dot] other = some [other] := by
    have := matchSeq_star (p := dot) (w := other) (t := []) (as := []) (dot_all.2 hn.2) rfl (by
      intro u v h1 h2
      simp only [List.nil_eq, List.append_eq_nil_iff] at h1
      exact absurd h1.1 h2)
    rwa [List.append_nil] at this
  have hor : matchSeq (lits "' or ".toList ++ [.star dot]) ("' or ".toList ++ other) =
      some ("' or ".toList.map (fun c => [c]) ++ [other]) := by
    rw [matchSeq_lits, hend]; rfl
  have hcond := matchSeq_star (p := dot) (w := cond) (dot_all.2 hn.1) hor (by
    intro u v h1 h2 _
    by_contra hsome
    obtain ⟨ps, t, hf, ht⟩ := matchSeq_iff.1 hsome
    obtain ⟨us, vs, rfl, hu, -⟩ := hf.split
    rw [(fits_lits _).1 hu, List.flatten_append, flatten_singletons, List.append_assoc] at ht
    rcases List.append_eq_append_iff.1 h1 with ⟨x, hx1, hx2⟩ | ⟨x, hx1, hx2⟩
    · exact ho x (vs.flatten ++ t) (by rw [hx2, ht, List.append_assoc])
    · cases x with
      | nil =>
        rw [List.nil_append] at hx2
        exact ho [] (vs.flatten ++ t) (by rw [← hx2, ht]; rfl)
      | cons c x =>
        rw [ht] at hx2
        have hc : c = '\'' := (List.cons.inj hx2).1.symm
        cases u with
        | nil => exact h2 rfl
        | cons d u =>
          have hd : d = '\'' := (List.cons.inj hx1).1.symm
          have := congrArg (List.count '\'') hx1
          rw [hc, hd, List.count_append, List.count_cons_self, List.count_cons_self] at this
          have : "' or ".toList.count '\'' = 1 := rfl
          omega)
  have hm : tweakMatch boolComparisonPattern p =
      .ok ("comparison to ".toList.map (fun c => [c]) ++ [b] ++ " should be ".toList.map (fun c => [c]) ++
        "'if cond is ".toList.map (fun c => [c]) ++ cond :: ("' or ".toList.map (fun c => [c]) ++ [other])) := by
    unfold tweakMatch boolComparisonPattern
    have hsplit : p.text = "comparison to ".toList ++ (b ++ (" should be ".toList ++ ("'if cond is ".toList ++
        (cond ++ ("' or ".toList ++ other))))) := by
      rw [ht, show " should be 'if cond is ".toList = " should be ".toList ++ "'if cond is ".toList from rfl]
      simp only [List.append_assoc]
    have h1 : matchSeq (lits " should be ".toList ++ (lits "'if cond is ".toList ++ (.star dot ::
        (lits "' or ".toList ++ [.star dot])))) (" should be ".toList ++ ("'if cond is ".toList ++
        (cond ++ ("' or ".toList ++ other)))) = some (" should be ".toList.map (fun c => [c]) ++
        ("'if cond is ".toList.map (fun c => [c]) ++ cond :: ("' or ".toList.map (fun c => [c]) ++ [other]))) := by
      rw [matchSeq_lits, matchSeq_lits, hcond]; rfl
    rw [hsplit]
    simp only [List.append_assoc, List.cons_append, List.nil_append]
    rw [matchSeq_lits]
    have h2 : ∀ rest r, matchSeq rest (" should be ".toList ++ ("'if cond is ".toList ++
        (cond ++ ("' or ".toList ++ other)))) = some r → matchSeq (.alt ["True".toList, "False".toList] :: rest)
        (b ++ (" should be ".toList ++ ("'if cond is ".toList ++ (cond ++ ("' or ".toList ++ other))))) = some (b :: r) := by
      intro rest r hr
      generalize (" should be ".toList ++ ("'if cond is ".toList ++ (cond ++ ("' or ".toList ++ other)))) = tail at *
      rcases hb with rfl | rfl
      · simp [matchSeq, altMatch, hr]
      · simp [matchSeq, altMatch, hr]
    rw [h2 _ _ h1]
    rfl
  have hre : boolComparisonReword p = .ok ("comparison to ".toList ++ b ++ " should be ".toList ++ other) := by
    unfold boolComparisonReword
    rw [hm]
    have hp1 : ∀ us vs : List Str, pieces (us ++ vs) 0 us.length = us.flatten := by
      intro us vs; simp [pieces]
    have h1 := hp1 ("comparison to ".toList.map (fun c => [c]) ++ [b] ++ " should be ".toList.map (fun c => [c]))
      ("'if cond is ".toList.map (fun c => [c]) ++ cond :: ("' or ".toList.map (fun c => [c]) ++ [other]))
    have h2 := pieces_at ("comparison to ".toList.map (fun c => [c]) ++ [b] ++ " should be ".toList.map (fun c => [c]) ++
      "'if cond is ".toList.map (fun c => [c]) ++ [cond] ++ "' or ".toList.map (fun c => [c])) [] other _ rfl
    simp only [List.append_assoc, List.cons_append, List.nil_append] at h1 h2 ⊢
    refine congrArg Except.ok ?_
    refine (congr (congrArg _ h1) h2).trans ?_
    simp only [List.flatten_append, List.flatten_cons, flatten_singletons, List.append_assoc]
  simp only [applyTweaks, htw, keepAll, hre]
  rfl

/-! ### C54 -/

/-- edulint's own problem about a repeated operation in an expression. -/
def IsRepeatedOp (p : Problem) (expr : Str) : Prop :=
  p.source = .pylint ∧ p.code = "R6607".toList ∧ ∃ better op, ' ' ∉ better ∧ ' ' ∉ op ∧
    p.text = "Use ".toList ++ better ++ " instead of repeated ".toList ++ op ++ " in ".toList ++ expr ++ ".".toList

theorem repeatedOp_keep {p : Problem} {expr start rest : Str} (hp : IsRepeatedOp p expr)
    (hs : expr ++ ['.'] = start ++ '.' :: rest) (hd : '.' ∉ start) (o : Opt) (groups : List Str) :
    noRepeatedOpKeep p [⟨o, .list groups⟩] = .ok (decide (groups ≠ []) || decide (start.count '*' > 1)) := by
  obtain ⟨-, -, better, op, hb, ho, ht⟩ := hp
  have hm : matchSeq repeatedOpPattern p.text = some ("Use ".toList.map (fun c => [c]) ++ better ::
      (" instead of repeated ".toList.map (fun c => [c]) ++ op :: (" in ".toList.map (fun c => [c]) ++ [start, ['.']]))) := by
    have h1 : matchSeq (.star (· ≠ '.') :: [.one dot]) (start ++ '.' :: rest) = some [start, ['.']] := by
      refine matchSeq_star_stop (by simp only [decide_eq_true_eq]; rintro c hc rfl; exact hd hc) rfl (by decide) ?_
      simp [matchSeq, dot]
    have h2 : matchSeq (lits " in ".toList ++ (.star (· ≠ '.') :: [.one dot])) (" in ".toList ++ (start ++ '.' :: rest)) =
        some (" in ".toList.map (fun c => [c]) ++ [start, ['.']]) := by
      rw [matchSeq_lits, h1]; rfl
    have h3 := matchSeq_star_stop (p := (· ≠ ' ')) (w := op) (c := ' ')
      (by simp only [decide_eq_true_eq]; rintro c hc rfl; exact ho hc) rfl (by decide) h2
    have h4 := matchSeq_lits " instead of repeated ".toList (.star (· ≠ ' ') :: (lits " in ".toList ++
        (.star (· ≠ '.') :: [.one dot]))) (op ++ (" in ".toList ++ (start ++ '.' :: rest)))
    rw [h3] at h4
    have h5 := matchSeq_star_stop (p := (· ≠ ' ')) (w := better) (c := ' ')
      (by simp only [decide_eq_true_eq]; rintro c hc rfl; exact hb hc) rfl (by decide) h4
    have hsplit : p.text = "Use ".toList ++ (better ++ (" instead of repeated ".toList ++ (op ++ (" in ".toList ++ (start ++ '.' :: rest))))) := by
      rw [ht, ← hs]
      simp only [List.append_assoc]
      rfl
    rw [hsplit]
    unfold repeatedOpPattern
    simp only [List.append_assoc, List.cons_append, List.nil_append]
    rw [matchSeq_lits]
    rw [h5]
    rfl
  unfold noRepeatedOpKeep
  simp only [Val.contains]
  cases he : groups.contains "enhancement".toList with
  | true =>
    have : groups ≠ [] := by rintro rfl; cases he
    simp [this]
  | false =>
    simp only [tweakMatch, hm]
    have h2 := pieces_at ("Use ".toList.map (fun c => [c]) ++ better ::
      (" instead of repeated ".toList.map (fun c => [c]) ++ op :: (" in ".toList.map (fun c => [c])))) [['.']] start repeatedOpGroupAt rfl
    simp only [List.append_assoc, List.cons_append] at h2
    rw [h2]
    rfl

/-- **C54.** Without enabled groups, a repeated operation is reported exactly if the expression contains more
than one `*`; with an enabled group, it is always reported. Missing: expressions with a `.` (the part after
the first one is disregarded, see the counterexample). -/
theorem C54_repeated_op_partial (f : Opt → Val) (en : Dict Str Str) (p : Problem) (expr : Str)
    (hp : IsRepeatedOp p expr) (hdot : '.' ∉ expr) (groups : List Str) (hv : f .setGroups = .list groups) :
    applyTweaks tweakers (fullConfig f en) [p] = .ok (if groups ≠ [] ∨ 1 < expr.count '*' then [p] else []) := by
  have htw : Dict.get? tweakers (p.source, p.code) =
      some ⟨[.setGroups], repeatedOpPattern, noRepeatedOpKeep, sameText⟩ := by
    rw [hp.1, hp.2.1]; rfl
  simp only [applyTweaks, htw, fullConfig_one, hv, repeatedOp_keep hp rfl hdot]
  by_cases hc : groups ≠ [] ∨ 1 < expr.count '*'
  · have : (decide (groups ≠ []) || decide (expr.count '*' > 1)) = true := by simpa using hc
    rw [if_pos hc, this]; simp [sameText]
  · have : (decide (groups ≠ []) || decide (expr.count '*' > 1)) = false := by
      rw [Bool.eq_false_iff]; simpa using hc
    rw [if_neg hc, this]; simp

/-- A sample problem. -/
def exMessage (source : Linter) (code text : String) : Problem :=
  { source := source, enabledBy := none, path := "a.py".toList, line := 3, column := 5, code := code.toList,
    text := text.toList, endLine := none, endColumn := none }

/-- Sample values of the options. -/
def exValues : Opt → Val
  | .allowedOnecharNames => .str "ij".toList
  | .disallowedBuiltinNames => .list ["list".toList]
  | .setGroups => .list []
  | _ => .none

/-- **C54 is false of the code** for attributes: `self.x * self.x * self.x` is not reported. -/
theorem C54_counterexample :
    ∃ expr : Str, 1 < expr.count '*' ∧ ∃ p, IsRepeatedOp p expr ∧
      applyTweaks tweakers (fullConfig exValues []) [p] = .ok [] := by
  refine ⟨"self.x * self.x * self.x".toList, by decide,
    exMessage .pylint "R6607" "Use exponentiation instead of repeated muliplication in self.x * self.x * self.x.",
    ⟨rfl, rfl, "exponentiation".toList, "muliplication".toList, by decide, by decide, rfl⟩, ?_⟩
  decide +kernel

/-! ### Concrete cases -/

example : IsRepeatedOp (exMessage .pylint "R6607" "Use exponentiation instead of repeated muliplication in x * x * x.")
    "x * x * x".toList ∧ '.' ∉ "x * x * x".toList ∧ 1 < "x * x * x".toList.count '*' :=
  ⟨⟨rfl, rfl, "exponentiation".toList, "muliplication".toList, by decide, by decide, rfl⟩, by decide, by decide⟩

example : IsNameProblem (exMessage .pylint "C0104" "Disallowed name \"i\"") "i".toList ∧
    Allows (exValues .allowedOnecharNames) 'i' := ⟨⟨rfl, rfl, rfl, by decide⟩, "ij".toList, rfl, by decide⟩

example : IsBuiltinProblem (exMessage .pylint "W0622" "Redefining built-in 'id'") "id".toList :=
  ⟨rfl, rfl, rfl, by decide, by decide, by decide, by decide⟩

/-- All kinds together. -/
example : applyTweaks tweakers (fullConfig exValues [])
    [exMessage .pylint "C0104" "Disallowed name \"i\"",
     exMessage .pylint "C0104" "Disallowed name \"l\"",
     exMessage .pylint "C0104" "Disallowed name \"foo\"",
     exMessage .flake8 "F401" "'ib111.week_02' imported but unused",
     exMessage .flake8 "F401" "'math' imported but unused",
     exMessage .pylint "C0325" "Unnecessary parens after 'not' keyword",
     exMessage .pylint "C0325" "Unnecessary parens after 'if' keyword",
     exMessage .pylint "W0622" "Redefining built-in 'id'",
     exMessage .pylint "W0622" "Redefining built-in 'list'",
     exMessage .pylint "R6607" "Use multiplication instead of repeated addition in x + x + x.",
     exMessage .flake8 "E712" "comparison to True should be 'if cond is True:' or 'if cond:'",
     exMessage .flake8 "E501" "line too long"] = .ok
    [exMessage .pylint "C0104" "Disallowed single-character variable name \"l\", choose a more descriptive name",
     exMessage .pylint "C0104" "Disallowed name \"foo\"",
     exMessage .flake8 "F401" "'math' imported but unused",
     exMessage .pylint "C0325" "Unnecessary parens after 'if' keyword",
     exMessage .pylint "W0622" "Redefining built-in 'list'",
     exMessage .flake8 "E712" "comparison to True should be 'if cond:'",
     exMessage .flake8 "E501" "line too long"] := by
  decide +kernel

end Verif

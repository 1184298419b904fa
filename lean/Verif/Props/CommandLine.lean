import Verif.Model.CommandLine

/-!
C159: every path and every option on the command line is used.
-/

namespace Verif.CommandLine

/-! ### What a command line says, without the parser -/

/-- What the parts of a command line other than paths say. -/
inductive Part where
  | json
  | noVersion
  | noExplanations
  | option (value : Str)
  deriving DecidableEq, Repr

/-- The values given with `-o`, in the order of the parts. -/
def values (l : List Part) : List Str :=
  l.filterMap fun
    | .option v => some v
    | _ => none

/-- `w` stands for the option `name`: it begins with `--` and some more, and is the beginning of this option only. -/
def Abbreviates (w name : Str) : Prop :=
  3 ≤ w.length ∧ w <+: name ∧
    ∀ n ∈ ["--help".toList, "--json".toList, "--disable-version-check".toList, "--disable-explanations-update".toList, "--option".toList], w <+: n → n = name

/-- The ways to write a part; `V` holds for values that are an argument of their own. -/
inductive Spells (V : Str → Prop) : List Str → Part → Prop where
  | json {w : Str} : Abbreviates w "--json".toList → Spells V [w] .json
  | noVersion {w : Str} : Abbreviates w "--disable-version-check".toList → Spells V [w] .noVersion
  | noExplanations {w : Str} : Abbreviates w "--disable-explanations-update".toList → Spells V [w] .noExplanations
  | short {v : Str} : V v → Spells V ["-o".toList, v] (.option v)
  | shortEq {v : Str} : Spells V ["-o=".toList ++ v] (.option v)
  | joined {v : Str} : v ≠ [] → v.head? ≠ some '=' → Spells V ["-o".toList ++ v] (.option v)
  | long {w v : Str} : Abbreviates w "--option".toList → V v → Spells V [w, v] (.option v)
  | longEq {w v : Str} : Abbreviates w "--option".toList → Spells V [w ++ '=' :: v] (.option v)

/-- Several parts, one after the other. -/
inductive SpellAll (V : Str → Prop) : List Str → List Part → Prop where
  | nil : SpellAll V [] []
  | cons {ws rest : List Str} {p : Part} {ps : List Part} : Spells V ws p → SpellAll V rest ps → SpellAll V (ws ++ rest) (p :: ps)

/-- Arguments that cannot be mistaken for an option. -/
def Plain (s : Str) : Prop := s.head? ≠ some '-'

/-! ### Lemmas on classify -/

instance (s : Str) : Decidable (Plain s) := by unfold Plain; infer_instance

theorem classify_plain {names : List (Str × Opt)} {s : Str} (h : Plain s) : classify names s = some (.arg s) := by
  unfold classify Plain at *
  simp only [ne_eq, h, not_false_eq_true, if_true]

theorem splitOnce_some {c : Char} {s a b : Str} (h : splitOnce c s = some (a, b)) : s = a ++ c :: b ∧ c ∉ a := by
  induction s generalizing a b with
  | nil => exact nomatch h
  | cons x xs ih =>
    rw [splitOnce.eq_def] at h
    simp only at h
    by_cases hx : x = c
    · rw [if_pos hx] at h
      obtain ⟨rfl, rfl⟩ := Prod.mk.inj (Option.some.inj h)
      exact ⟨by rw [hx]; rfl, by simp⟩
    · rw [if_neg hx] at h
      cases hr : splitOnce c xs with
      | none => rw [hr] at h; exact nomatch h
      | some ab =>
        rw [hr] at h
        obtain ⟨a', b'⟩ := ab
        obtain ⟨rfl, rfl⟩ := Prod.mk.inj (Option.some.inj h)
        obtain ⟨h1, h2⟩ := ih hr
        refine ⟨by rw [h1]; rfl, ?_⟩
        intro hm
        rcases List.mem_cons.1 hm with e | e
        · exact hx e.symm
        · exact h2 e

theorem splitOnce_append {c : Char} {a b : Str} (h : c ∉ a) : splitOnce c (a ++ c :: b) = some (a, b) := by
  induction a with
  | nil => simp [splitOnce]
  | cons x xs ih =>
    have hx : ¬ x = c := fun e => h (by rw [e]; exact List.mem_cons_self ..)
    have := ih (fun hm => h (List.mem_cons_of_mem _ hm))
    simp only [List.cons_append, splitOnce, if_neg hx, this]

theorem startsWith_iff {s p : Str} : startsWith s p = true ↔ p <+: s := by simp [startsWith]

/-- The options of `check` with two dashes. -/
theorem mem_names {n : Str × Opt} : n ∈ Command.names .check ↔
    n = ("-h".toList, .help) ∨ n = ("--help".toList, .help) ∨ n = ("--json".toList, .json) ∨ n = ("--disable-version-check".toList, .noVersion) ∨
      n = ("--disable-explanations-update".toList, .noExplanations) ∨ n = ("-o".toList, .option) ∨ n = ("--option".toList, .option) := by
  simp [Command.names, sharedNames]

theorem mem_of_lookup {names : List (Str × Opt)} {s : Str} {o : Opt} (h : names.lookup s = some o) : (s, o) ∈ names := by
  induction names with
  | nil => exact nomatch h
  | cons n ns ih =>
    obtain ⟨k, o'⟩ := n
    rw [List.lookup_cons] at h
    cases hk : s == k with
    | true =>
      rw [hk] at h
      rw [eq_of_beq hk, ← Option.some.inj h]
      exact List.mem_cons_self ..
    | false => rw [hk] at h; exact List.mem_cons_of_mem _ (ih h)

theorem filter_single {α : Type} {q : α → Bool} {l : List α} {x : α} (h : l.filter q = [x]) :
    x ∈ l ∧ q x = true ∧ ∀ y ∈ l, q y = true → y = x := by
  have hx : x ∈ l.filter q := by rw [h]; exact List.mem_cons_self ..
  refine ⟨(List.mem_filter.1 hx).1, (List.mem_filter.1 hx).2, fun y hy hq => ?_⟩
  have : y ∈ l.filter q := List.mem_filter.2 ⟨hy, hq⟩
  rw [h] at this
  exact List.mem_singleton.1 this

theorem abbreviates_of {w : Str} {x : Str × Opt} (h3 : 3 ≤ w.length) (hw : "--".toList <+: w)
    (h : (Command.names .check).filter (fun n => startsWith n.1 w) = [x]) : Abbreviates w x.1 ∧ x ∈ Command.names .check := by
  obtain ⟨h1, h2, hu⟩ := filter_single h
  refine ⟨⟨h3, startsWith_iff.1 h2, fun n hn hp => ?_⟩, h1⟩
  simp only [List.mem_cons, List.not_mem_nil, or_false] at hn
  have := fun (o : Opt) (hm : (n, o) ∈ Command.names .check) => hu (n, o) hm (startsWith_iff.2 hp)
  rcases hn with rfl | rfl | rfl | rfl | rfl
  · rw [← this .help (by decide)]
  · rw [← this .json (by decide)]
  · rw [← this .noVersion (by decide)]
  · rw [← this .noExplanations (by decide)]
  · rw [← this .option (by decide)]

/-- What is meant by an argument that is taken for an option. -/
def Means (s : Str) : Opt → Option Str → Prop
  | .help, _ => True
  | .json, e => e = none → Abbreviates s "--json".toList
  | .noVersion, e => e = none → Abbreviates s "--disable-version-check".toList
  | .noExplanations, e => e = none → Abbreviates s "--disable-explanations-update".toList
  | .option, none => s = "-o".toList ∨ Abbreviates s "--option".toList
  | .option, some v => s = "-o=".toList ++ v ∨ (v ≠ [] ∧ v.head? ≠ some '=' ∧ s = "-o".toList ++ v) ∨ ∃ w, Abbreviates w "--option".toList ∧ s = w ++ '=' :: v

instance (w n : Str) : Decidable (Abbreviates w n) := by unfold Abbreviates; infer_instance

theorem means_none {s : Str} {x : Str × Opt} (hm : x ∈ Command.names .check) (h : x.1 = s ∨ Abbreviates s x.1) : Means s x.2 none := by
  rcases mem_names.1 hm with rfl | rfl | rfl | rfl | rfl | rfl | rfl
  · trivial
  · trivial
  · intro _; rcases h with h | h
    · rw [← h]; decide
    · exact h
  · intro _; rcases h with h | h
    · rw [← h]; decide
    · exact h
  · intro _; rcases h with h | h
    · rw [← h]; decide
    · exact h
  · rcases h with h | h
    · exact Or.inl h.symm
    · exact absurd (h.2.1.length_le) (by have := h.1; simp; omega)
  · rcases h with h | h
    · rw [← h]; exact Or.inr (by decide)
    · exact Or.inr h

theorem means_some {w v : Str} {x : Str × Opt} (hm : x ∈ Command.names .check) (h : x.1 = w ∨ Abbreviates w x.1) : Means (w ++ '=' :: v) x.2 (some v) := by
  rcases mem_names.1 hm with rfl | rfl | rfl | rfl | rfl | rfl | rfl
  · trivial
  · trivial
  · exact fun h => nomatch h
  · exact fun h => nomatch h
  · exact fun h => nomatch h
  · rcases h with h | h
    · exact Or.inl (by rw [← h]; simp)
    · exact absurd (h.2.1.length_le) (by have := h.1; simp; omega)
  · rcases h with h | h
    · exact Or.inr (Or.inr ⟨w, by rw [← h]; decide, rfl⟩)
    · exact Or.inr (Or.inr ⟨w, h, rfl⟩)

theorem three_le {w : Str} (h : "--".toList <+: w) (hne : w ≠ "--".toList) : 3 ≤ w.length := by
  obtain ⟨t, rfl⟩ := h
  cases t with
  | nil => exact absurd rfl hne
  | cons a t => simp

theorem classify_opt {s : Str} {o : Opt} {e : Option Str} (hs : s ≠ "--".toList) (h : classify (Command.names .check) s = some (.opt o e)) : Means s o e := by
  unfold classify at h
  by_cases hd : s.head? ≠ some '-'
  · rw [if_pos hd] at h; exact nomatch h
  · rw [if_neg hd] at h
    cases hl : (Command.names .check).lookup s with
    | some o' =>
      rw [hl] at h
      simp only [Option.some.injEq, Tok.opt.injEq] at h
      obtain ⟨rfl, rfl⟩ := h
      exact means_none (mem_of_lookup hl) (Or.inl rfl)
    | none =>
      rw [hl] at h
      simp only at h
      by_cases h1 : s.length = 1
      · rw [if_pos h1] at h; exact nomatch h
      · rw [if_neg h1] at h
        cases hk : known (Command.names .check) s with
        | some t =>
          rw [hk] at h
          simp only [Option.some.injEq] at h
          unfold known at hk
          cases hsp : splitOnce '=' s with
          | none => rw [hsp] at hk; exact nomatch hk
          | some nv =>
            obtain ⟨n, v⟩ := nv
            rw [hsp] at hk
            simp only [Option.map_eq_some_iff] at hk
            obtain ⟨o', ho', rfl⟩ := hk
            simp only [Tok.opt.injEq] at h
            obtain ⟨rfl, rfl⟩ := h
            rw [(splitOnce_some hsp).1]
            exact means_some (mem_of_lookup ho') (Or.inl rfl)
        | none =>
          rw [hk] at h
          simp only at h
          cases hc : candidates (Command.names .check) s with
          | nil =>
            rw [hc] at h
            simp only at h
            split at h <;> exact nomatch h
          | cons t ts =>
            cases ts with
            | cons t' ts' => rw [hc] at h; exact nomatch h
            | nil =>
              rw [hc] at h
              simp only [Option.some.injEq] at h
              unfold candidates at hc
              by_cases hdd : startsWith s "--".toList = true
              · rw [if_pos hdd] at hc
                cases hsp : splitOnce '=' s with
                | none =>
                  rw [hsp] at hc
                  simp only [List.map_eq_singleton_iff] at hc
                  obtain ⟨x, hx, hxt⟩ := hc
                  rw [h] at hxt
                  simp only [Tok.opt.injEq] at hxt
                  obtain ⟨rfl, rfl⟩ := hxt
                  obtain ⟨ha, hm⟩ := abbreviates_of (three_le (startsWith_iff.1 hdd) hs) (startsWith_iff.1 hdd) hx
                  exact means_none hm (Or.inr ha)
                | some pv =>
                  obtain ⟨p, v⟩ := pv
                  rw [hsp] at hc
                  simp only [List.map_eq_singleton_iff] at hc
                  obtain ⟨x, hx, hxt⟩ := hc
                  rw [h] at hxt
                  simp only [Tok.opt.injEq] at hxt
                  obtain ⟨rfl, rfl⟩ := hxt
                  have hsv := (splitOnce_some hsp).1
                  have hpp : "--".toList <+: p := by
                    have := startsWith_iff.1 hdd
                    rw [hsv] at this
                    match p, this with
                    | [], h => simp at h
                    | [a], h => simp at h
                    | a :: b :: p', h => simpa using h
                  have hne : p ≠ "--".toList := by
                    rintro rfl
                    revert hx
                    have : ((Command.names .check).filter fun n => startsWith n.1 "--".toList).length = 5 := by decide
                    intro hx
                    rw [hx] at this
                    simp at this
                  obtain ⟨ha, hm⟩ := abbreviates_of (three_le hpp hne) hpp hx
                  rw [hsv]
                  exact means_some hm (Or.inr ha)
              · rw [if_neg hdd] at hc
                have ht : t ∈ (Command.names .check).filterMap fun n =>
                    if n.1 = s.take 2 then some (Tok.opt n.2 (some (s.drop 2)))
                    else if startsWith n.1 s then some (.opt n.2 none) else none := by rw [hc]; exact List.mem_cons_self ..
                obtain ⟨x, hx, hxt⟩ := List.mem_filterMap.1 ht
                by_cases h2 : x.1 = s.take 2
                · rw [if_pos h2, h] at hxt
                  simp only [Option.some.injEq, Tok.opt.injEq] at hxt
                  obtain ⟨rfl, rfl⟩ := hxt
                  have hst : s = x.1 ++ s.drop 2 := by rw [h2]; exact (List.take_append_drop 2 s).symm
                  rcases mem_names.1 hx with rfl | rfl | rfl | rfl | rfl | rfl | rfl
                  · trivial
                  · trivial
                  · exact fun h => nomatch h
                  · exact fun h => nomatch h
                  · exact fun h => nomatch h
                  · refine Or.inr (Or.inl ⟨?_, ?_, hst⟩)
                    · intro e
                      rw [e] at hst
                      rw [hst] at hl
                      exact absurd hl (by decide)
                    · intro e
                      cases hsd : s.drop 2 with
                      | nil => rw [hsd] at e; exact nomatch e
                      | cons c v' =>
                        rw [hsd] at e hst
                        have hc' : c = '=' := by simpa using e
                        rw [hc'] at hst
                        unfold known at hk
                        rw [hst, splitOnce_append (by decide)] at hk
                        revert hk
                        simp [Command.names, sharedNames, List.lookup]
                  · have := congrArg List.length h2
                    simp only [List.length_take] at this
                    have e : ("--option".toList).length = 8 := by decide
                    omega
                · rw [if_neg h2] at hxt
                  by_cases h3 : startsWith x.1 s = true
                  · have hp := startsWith_iff.1 h3
                    match s, hd, h1, hp, hdd, hl with
                    | [], hd, _, _, _, _ => exact absurd (by simp) hd
                    | [_], _, h1, _, _, _ => exact absurd rfl h1
                    | a :: b :: s', hd, _, hp, hdd, hl =>
                      have ha : a = '-' := by simpa using hd
                      subst ha
                      rcases mem_names.1 hx with rfl | rfl | rfl | rfl | rfl | rfl | rfl
                      all_goals
                        simp [startsWith] at hp hdd
                      · obtain ⟨rfl, rfl⟩ := hp; exact absurd hl (by decide)
                      · exact absurd hp.1.symm hdd
                      · exact absurd hp.1.symm hdd
                      · exact absurd hp.1.symm hdd
                      · exact absurd hp.1.symm hdd
                      · obtain ⟨rfl, rfl⟩ := hp; exact absurd hl (by decide)
                      · exact absurd hp.1.symm hdd
                  · simp only [h3] at hxt; exact nomatch hxt

/-- Arguments that are taken for paths: those that do not begin with a dash, `-`, those that contain a space, and numbers. -/
def PathLike (s : Str) : Prop := Plain s ∨ s = "-".toList ∨ ' ' ∈ s ∨ ∃ t, s = '-' :: t ∧ ∀ c ∈ t, c.isDigit = true ∨ c = '.'

theorem number_like {s : Str} (h : isNumber s = true) : ∃ t, s = '-' :: t ∧ ∀ c ∈ t, c.isDigit = true ∨ c = '.' := by
  unfold isNumber at h
  split at h
  · rename_i t
    refine ⟨t, rfl, fun c hc => ?_⟩
    simp only [Bool.or_eq_true, Bool.and_eq_true, List.all_eq_true] at h
    rcases h with ⟨_, h⟩ | h
    · exact Or.inl (h c hc)
    · cases hs : splitOnce '.' t with
      | none => rw [hs] at h; exact nomatch h
      | some ab =>
        obtain ⟨a, b⟩ := ab
        rw [hs] at h
        simp only [Bool.and_eq_true, List.all_eq_true] at h
        rw [(splitOnce_some hs).1] at hc
        rcases List.mem_append.1 hc with hc | hc
        · exact Or.inl (h.1.1 c hc)
        · rcases List.mem_cons.1 hc with e | hc
          · exact Or.inr e
          · exact Or.inl (h.2 c hc)
  · exact nomatch h

theorem candidates_opt {names : List (Str × Opt)} {s : Str} {t : Tok} (h : t ∈ candidates names s) : ∃ o e, t = .opt o e := by
  unfold candidates at h
  split at h
  · split at h
    · obtain ⟨n, _, rfl⟩ := List.mem_map.1 h; exact ⟨_, _, rfl⟩
    · obtain ⟨n, _, rfl⟩ := List.mem_map.1 h; exact ⟨_, _, rfl⟩
  · obtain ⟨n, _, hn⟩ := List.mem_filterMap.1 h
    split at hn
    · exact ⟨_, _, (Option.some.inj hn).symm⟩
    · split at hn
      · exact ⟨_, _, (Option.some.inj hn).symm⟩
      · exact nomatch hn

theorem known_opt {names : List (Str × Opt)} {s : Str} {t : Tok} (h : known names s = some t) : ∃ o e, t = .opt o e := by
  unfold known at h
  split at h
  · exact nomatch h
  · obtain ⟨o, _, rfl⟩ := Option.map_eq_some_iff.1 h; exact ⟨_, _, rfl⟩

/-- An argument is taken for a path as it is, an option, or something unknown; it is never `--`. -/
theorem classify_cases {names : List (Str × Opt)} {s : Str} {t : Tok} (h : classify names s = some t) :
    (t = .arg s ∧ PathLike s) ∨ (∃ o e, t = .opt o e) ∨ t = .unknown := by
  unfold classify at h
  split at h
  · rename_i hd
    exact Or.inl ⟨(Option.some.inj h).symm, Or.inl hd⟩
  · split at h
    · exact Or.inr (Or.inl ⟨_, _, (Option.some.inj h).symm⟩)
    · split at h
      · rename_i hd _ _ h1
        refine Or.inl ⟨(Option.some.inj h).symm, Or.inr (Or.inl ?_)⟩
        match s, hd, h1 with
        | [a], hd, _ =>
          have : a = '-' := by simpa using hd
          rw [this]; rfl
      · split at h
        · rename_i hk
          exact Or.inr (Or.inl (known_opt (hk.trans h)))
        · split at h
          · split at h
            · rename_i hn
              refine Or.inl ⟨(Option.some.inj h).symm, ?_⟩
              rw [Bool.or_eq_true] at hn
              rcases hn with hn | hn
              · exact Or.inr (Or.inr (Or.inr (number_like hn)))
              · exact Or.inr (Or.inr (Or.inl (by simpa using hn)))
            · exact Or.inr (Or.inr (Option.some.inj h).symm)
          · rename_i hc
            refine Or.inr (Or.inl (candidates_opt (names := names) (s := s) ?_))
            rw [hc, Option.some.inj h]
            exact List.mem_cons_self ..
          · exact nomatch h

/-- Once an argument is not recognized, nothing is run. -/
theorem not_run_of_extra (ts : List Tok) (ph : Phase) (p q : Parsed) : parseToks ts ph true p ≠ .run q := by
  suffices ∀ b, b = true → parseToks ts ph b p ≠ .run q from this true rfl
  intro b hb
  fun_induction parseToks ts ph b p <;> simp_all

theorem run_args (ss : List Str) (ph : Phase) (p q : Parsed) (hp : ph ≠ .after) (h : parseToks (ss.map .arg) ph false p = .run q) :
    q = { p with args := p.args ++ ss } ∧ (ph = .before → ss ≠ []) := by
  induction ss generalizing ph p with
  | nil =>
    simp only [List.map_nil, parseToks, Bool.false_or, beq_iff_eq] at h
    by_cases hb : ph = .before
    · rw [if_pos hb] at h; exact nomatch h
    · rw [if_neg hb] at h
      rw [← Result.run.inj h]
      exact ⟨by simp, fun e => absurd e hb⟩
  | cons s ss ih =>
    have : parseToks (ss.map .arg) .inside false { p with args := p.args ++ [s] } = .run q := by
      cases ph with
      | after => exact absurd rfl hp
      | before => exact h
      | inside => exact h
    obtain ⟨h1, _⟩ := ih .inside _ (by decide) this
    exact ⟨by rw [h1]; simp, fun _ => by simp⟩

/-- What is added by the parts and paths. -/
structure Adds (p q : Parsed) (parts : List Part) (paths : List Str) : Prop where
  json : q.json = true ↔ p.json = true ∨ .json ∈ parts
  noVersion : q.noVersion = true ↔ p.noVersion = true ∨ .noVersion ∈ parts
  noExplanations : q.noExplanations = true ↔ p.noExplanations = true ∨ .noExplanations ∈ parts
  options : q.options = p.options ++ values parts
  args : q.args = p.args ++ paths

theorem values_cons_option (v : Str) (l : List Part) : values (.option v :: l) = v :: values l := rfl

/-- The paths with or without `--` among them. -/
inductive Paths : List Str → List Str → List Str → Prop where
  | plain {xs post : List Str} : (∀ x ∈ xs, PathLike x) → Paths xs xs post
  | dashes {xs ys : List Str} : (∀ x ∈ xs, PathLike x) → Paths (xs ++ "--".toList :: ys) (xs ++ ys) []

theorem Paths.cons {mid paths post : List Str} {x : Str} (h : Paths mid paths post) (hx : PathLike x) : Paths (x :: mid) (x :: paths) post := by
  cases h with
  | plain h => exact .plain (fun y hy => by rcases List.mem_cons.1 hy with e | hy
                                            · rw [e]; exact hx
                                            · exact h y hy)
  | @dashes xs ys h => exact .dashes (xs := x :: xs) (fun y hy => by rcases List.mem_cons.1 hy with e | hy
                                                                     · rw [e]; exact hx
                                                                     · exact h y hy)

/-- The form of the arguments that are left, depending on the phase. -/
structure Shape (ph : Phase) (p q : Parsed) (args : List Str) (pre mid post : List Str) (pp qq : List Part) (paths : List Str) : Prop where
  eq : args = pre ++ mid ++ post
  hpre : SpellAll PathLike pre pp
  hpost : SpellAll PathLike post qq
  hpaths : Paths mid paths post
  adds : Adds p q (pp ++ qq) paths
  before : ph = .before → paths ≠ []
  inside : ph = .inside → pre = [] ∧ pp = []
  after : ph = .after → pre = [] ∧ pp = [] ∧ mid = [] ∧ paths = []

/-- A part in front of the others. -/
theorem Shape.part {ph : Phase} {p p' q : Parsed} {ws args pre mid post : List Str} {pp qq : List Part} {paths : List Str} {part : Part}
    (h : Shape ph.leave p' q args pre mid post pp qq paths) (hs : Spells PathLike ws part)
    (ha : ∀ parts, Adds p' q parts paths → Adds p q (part :: parts) paths) :
    ∃ pre mid post pp qq paths, Shape ph p q (ws ++ args) pre mid post pp qq paths := by
  cases ph with
  | before =>
    exact ⟨ws ++ pre, mid, post, part :: pp, qq, paths, by rw [h.eq]; simp, .cons hs h.hpre, h.hpost, h.hpaths, ha _ h.adds, h.before,
      (fun e => nomatch e), (fun e => nomatch e)⟩
  | inside =>
    obtain ⟨rfl, rfl, rfl, rfl⟩ := h.after rfl
    exact ⟨[], [], ws ++ post, [], part :: qq, [], by rw [h.eq]; simp, .nil, .cons hs h.hpost, .plain (fun x hx => nomatch hx), ha _ h.adds,
      (fun e => nomatch e), fun _ => ⟨rfl, rfl⟩, (fun e => nomatch e)⟩
  | after =>
    obtain ⟨rfl, rfl, rfl, rfl⟩ := h.after rfl
    exact ⟨[], [], ws ++ post, [], part :: qq, [], by rw [h.eq]; simp, .nil, .cons hs h.hpost, .plain (fun x hx => nomatch hx), ha _ h.adds,
      (fun e => nomatch e), fun _ => ⟨rfl, rfl⟩, fun _ => ⟨rfl, rfl, rfl, rfl⟩⟩

theorem used_aux (n : Nat) : ∀ (args : List Str) (ts : List Tok) (ph : Phase) (p q : Parsed), args.length ≤ n →
    tokens (Command.names .check) args = some ts → parseToks ts ph false p = .run q →
    ∃ pre mid post pp qq paths, Shape ph p q args pre mid post pp qq paths := by
  induction n with
  | zero =>
    intro args ts ph p q hn ht hr
    have : args = [] := List.length_eq_zero_iff.1 (Nat.le_zero.1 hn)
    subst this
    rw [← Option.some.inj ht] at hr
    simp only [parseToks, Bool.false_or, beq_iff_eq] at hr
    by_cases hb : ph = .before
    · rw [if_pos hb] at hr; exact nomatch hr
    · rw [if_neg hb] at hr
      have hq := Result.run.inj hr
      subst hq
      exact ⟨[], [], [], [], [], [], rfl, .nil, .nil, .plain (fun x hx => nomatch hx), ⟨by simp, by simp, by simp, by simp [values], by simp⟩,
        fun e => absurd e hb, fun _ => ⟨rfl, rfl⟩, fun _ => ⟨rfl, rfl, rfl, rfl⟩⟩
  | succ n ih =>
    intro args ts ph p q hn ht hr
    cases args with
    | nil => exact ih [] ts ph p q (Nat.zero_le _) ht hr
    | cons s ss =>
      have hn' : ss.length ≤ n := by simpa using hn
      rw [tokens] at ht
      by_cases hd : s = "--".toList
      · rw [if_pos hd] at ht
        rw [← Option.some.inj ht] at hr
        have key : ph ≠ .after ∧ parseToks (ss.map .arg) ph false p = .run q := by
          cases ph with
          | after => exact absurd hr (not_run_of_extra _ _ _ _)
          | before => exact ⟨by decide, hr⟩
          | inside => exact ⟨by decide, hr⟩
        obtain ⟨h1, h2⟩ := run_args ss ph p q key.1 key.2
        refine ⟨[], s :: ss, [], [], [], ss, by simp, .nil, .nil, ?_, ?_, h2, fun _ => ⟨rfl, rfl⟩, fun e => absurd e key.1⟩
        · rw [hd]; exact .dashes (xs := []) (fun x hx => nomatch hx)
        · rw [h1]; exact ⟨by simp, by simp, by simp, by simp [values], rfl⟩
      · rw [if_neg hd] at ht
        cases hc : classify (Command.names .check) s with
        | none => rw [hc] at ht; exact nomatch ht
        | some t =>
          cases hts : tokens (Command.names .check) ss with
          | none => rw [hc, hts] at ht; exact nomatch ht
          | some ts' =>
            rw [hc, hts] at ht
            rw [← Option.some.inj ht] at hr
            rcases classify_cases hc with ⟨rfl, hpl⟩ | ⟨o, e, rfl⟩ | rfl
            · -- a path
              have key : ph ≠ .after ∧ parseToks ts' .inside false { p with args := p.args ++ [s] } = .run q := by
                cases ph with
                | after => exact absurd hr (not_run_of_extra _ _ _ _)
                | before => exact ⟨by decide, hr⟩
                | inside => exact ⟨by decide, hr⟩
              obtain ⟨pre, mid, post, pp, qq, paths, h⟩ := ih ss ts' .inside _ q hn' hts key.2
              obtain ⟨rfl, rfl⟩ := h.inside rfl
              refine ⟨[], s :: mid, post, [], qq, s :: paths, by rw [h.eq]; rfl, .nil, h.hpost, h.hpaths.cons hpl, ?_, fun _ => by simp,
                fun _ => ⟨rfl, rfl⟩, fun e => absurd e key.1⟩
              exact ⟨h.adds.json, h.adds.noVersion, h.adds.noExplanations, h.adds.options, by rw [h.adds.args]; simp⟩
            · have hm := classify_opt hd hc
              cases o with
              | help => cases e <;> exact nomatch hr
              | json =>
                cases e with
                | some v => exact nomatch hr
                | none =>
                  obtain ⟨pre, mid, post, pp, qq, paths, h⟩ := ih ss ts' _ _ q hn' hts hr
                  refine h.part (ws := [s]) (.json (hm rfl)) fun parts ha => ?_
                  exact ⟨by rw [ha.json]; simp, by rw [ha.noVersion]; simp, by rw [ha.noExplanations]; simp, ha.options, ha.args⟩
              | noVersion =>
                cases e with
                | some v => exact nomatch hr
                | none =>
                  obtain ⟨pre, mid, post, pp, qq, paths, h⟩ := ih ss ts' _ _ q hn' hts hr
                  refine h.part (ws := [s]) (.noVersion (hm rfl)) fun parts ha => ?_
                  exact ⟨by rw [ha.json]; simp, by rw [ha.noVersion]; simp, by rw [ha.noExplanations]; simp, ha.options, ha.args⟩
              | noExplanations =>
                cases e with
                | some v => exact nomatch hr
                | none =>
                  obtain ⟨pre, mid, post, pp, qq, paths, h⟩ := ih ss ts' _ _ q hn' hts hr
                  refine h.part (ws := [s]) (.noExplanations (hm rfl)) fun parts ha => ?_
                  exact ⟨by rw [ha.json]; simp, by rw [ha.noVersion]; simp, by rw [ha.noExplanations]; simp, ha.options, ha.args⟩
              | option =>
                cases e with
                | some v =>
                  obtain ⟨pre, mid, post, pp, qq, paths, h⟩ := ih ss ts' _ _ q hn' hts hr
                  have hs : Spells PathLike [s] (.option v) := by
                    rcases hm with e | ⟨h1, h2, e⟩ | ⟨w, hw, e⟩
                    · rw [e]; exact .shortEq
                    · rw [e]; exact .joined h1 h2
                    · rw [e]; exact .longEq hw
                  refine h.part (ws := [s]) hs fun parts ha => ?_
                  exact ⟨by rw [ha.json]; simp, by rw [ha.noVersion]; simp, by rw [ha.noExplanations]; simp,
                    by rw [ha.options, values_cons_option]; simp, ha.args⟩
                | none =>
                  cases ss with
                  | nil => rw [← Option.some.inj hts] at hr; exact nomatch hr
                  | cons v ss' =>
                    rw [tokens] at hts
                    by_cases hvd : v = "--".toList
                    · rw [if_pos hvd] at hts
                      rw [← Option.some.inj hts] at hr
                      exact nomatch hr
                    · rw [if_neg hvd] at hts
                      cases hcv : classify (Command.names .check) v with
                      | none => rw [hcv] at hts; exact nomatch hts
                      | some tv =>
                        cases hts' : tokens (Command.names .check) ss' with
                        | none => rw [hcv, hts'] at hts; exact nomatch hts
                        | some ts'' =>
                          rw [hcv, hts'] at hts
                          rw [← Option.some.inj hts] at hr
                          rcases classify_cases hcv with ⟨rfl, hpl⟩ | ⟨o, e, rfl⟩ | rfl
                          · obtain ⟨pre, mid, post, pp, qq, paths, h⟩ := ih ss' ts'' _ _ q (by simp at hn'; omega) hts' hr
                            have hs : Spells PathLike [s, v] (.option v) := by
                              rcases hm with e | e
                              · rw [e]; exact .short hpl
                              · exact .long e hpl
                            refine h.part (ws := [s, v]) hs fun parts ha => ?_
                            exact ⟨by rw [ha.json]; simp, by rw [ha.noVersion]; simp, by rw [ha.noExplanations]; simp,
                              by rw [ha.options, values_cons_option]; simp, ha.args⟩
                          · exact nomatch hr
                          · exact nomatch hr
            · exact absurd hr (not_run_of_extra _ _ _ _)

/-! ### The other direction -/

theorem not_prefix_of {w name n : Str} (h : Abbreviates w name)
    (hn : n ∈ ["--help".toList, "--json".toList, "--disable-version-check".toList, "--disable-explanations-update".toList, "--option".toList])
    (hne : n ≠ name) : startsWith n w = false := by
  cases hs : startsWith n w with
  | false => rfl
  | true => exact absurd (h.2.2 n hn (startsWith_iff.1 hs)) hne

theorem not_prefix_short {w name n : Str} (h : Abbreviates w name) (hn : n.length = 2) : startsWith n w = false := by
  cases hs : startsWith n w with
  | false => rfl
  | true =>
    have := (startsWith_iff.1 hs).length_le
    have := h.1
    omega

theorem filter_abbreviates {w : Str} {x : Str × Opt} (hx : x ∈ Command.names .check) (hl : 3 ≤ x.1.length) (h : Abbreviates w x.1) :
    (Command.names .check).filter (fun n => startsWith n.1 w) = [x] := by
  have hs := startsWith_iff.2 h.2.1
  have n1 := not_prefix_short (n := "-h".toList) h rfl
  have n2 := not_prefix_short (n := "-o".toList) h rfl
  have m := fun n hn hne => not_prefix_of (n := n) h hn hne
  rcases mem_names.1 hx with rfl | rfl | rfl | rfl | rfl | rfl | rfl
  · exact absurd hl (by decide)
  · simp only [Command.names, sharedNames, List.cons_append, List.nil_append, List.filter, n1, n2, hs,
      m "--json".toList (by decide) (by decide), m "--disable-version-check".toList (by decide) (by decide), m "--disable-explanations-update".toList (by decide) (by decide), m "--option".toList (by decide) (by decide)]
  · simp only [Command.names, sharedNames, List.cons_append, List.nil_append, List.filter, n1, n2, hs,
      m "--help".toList (by decide) (by decide), m "--disable-version-check".toList (by decide) (by decide), m "--disable-explanations-update".toList (by decide) (by decide), m "--option".toList (by decide) (by decide)]
  · simp only [Command.names, sharedNames, List.cons_append, List.nil_append, List.filter, n1, n2, hs,
      m "--help".toList (by decide) (by decide), m "--json".toList (by decide) (by decide), m "--disable-explanations-update".toList (by decide) (by decide), m "--option".toList (by decide) (by decide)]
  · simp only [Command.names, sharedNames, List.cons_append, List.nil_append, List.filter, n1, n2, hs,
      m "--help".toList (by decide) (by decide), m "--json".toList (by decide) (by decide), m "--disable-version-check".toList (by decide) (by decide), m "--option".toList (by decide) (by decide)]
  · exact absurd hl (by decide)
  · simp only [Command.names, sharedNames, List.cons_append, List.nil_append, List.filter, n1, n2, hs,
      m "--help".toList (by decide) (by decide), m "--json".toList (by decide) (by decide), m "--disable-version-check".toList (by decide) (by decide), m "--disable-explanations-update".toList (by decide) (by decide)]

theorem lookup_abbreviates {w : Str} {x : Str × Opt} {o : Opt} (hx : x ∈ Command.names .check) (hl : 3 ≤ x.1.length) (h : Abbreviates w x.1)
    (ho : (Command.names .check).lookup w = some o) : o = x.2 := by
  have hm := mem_of_lookup ho
  have : (w, o) ∈ (Command.names .check).filter (fun n => startsWith n.1 w) := List.mem_filter.2 ⟨hm, startsWith_iff.2 (List.prefix_refl w)⟩
  rw [filter_abbreviates hx hl h] at this
  rw [← List.mem_singleton.1 this]

theorem no_eq {x : Str × Opt} (hx : x ∈ Command.names .check) : '=' ∉ x.1 := by
  rcases mem_names.1 hx with rfl | rfl | rfl | rfl | rfl | rfl | rfl <;> decide

theorem no_eq_abbreviates {w : Str} {x : Str × Opt} (hx : x ∈ Command.names .check) (h : Abbreviates w x.1) : '=' ∉ w :=
  fun hm => no_eq hx (h.2.1.subset hm)

theorem dashes_of {w : Str} {x : Str × Opt} (hx : x ∈ Command.names .check) (hl : 3 ≤ x.1.length) (h : Abbreviates w x.1) : "--".toList <+: w := by
  have h1 : "--".toList <+: x.1 := by
    rcases mem_names.1 hx with rfl | rfl | rfl | rfl | rfl | rfl | rfl
    · exact absurd hl (by decide)
    all_goals first | exact absurd hl (by decide) | decide
  exact List.prefix_of_prefix_length_le h1 h.2.1 (by have := h.1; simp; omega)

theorem splitOnce_none {c : Char} {s : Str} (h : c ∉ s) : splitOnce c s = none := by
  cases hs : splitOnce c s with
  | none => rfl
  | some ab =>
    obtain ⟨a, b⟩ := ab
    rw [(splitOnce_some hs).1] at h
    exact absurd (by simp) h

theorem head_of_dashes {w : Str} (h : "--".toList <+: w) : w.head? = some '-' := by
  obtain ⟨t, rfl⟩ := h
  rfl

theorem classify_abbreviates {w : Str} {x : Str × Opt} (hx : x ∈ Command.names .check) (hl : 3 ≤ x.1.length) (h : Abbreviates w x.1) :
    classify (Command.names .check) w = some (.opt x.2 none) := by
  have hd := dashes_of hx hl h
  unfold classify
  rw [if_neg (by rw [head_of_dashes hd]; simp)]
  cases hlk : (Command.names .check).lookup w with
  | some o => simp only [lookup_abbreviates hx hl h hlk]
  | none =>
    have h1 : ¬ w.length = 1 := by have := h.1; omega
    have hk : known (Command.names .check) w = none := by unfold known; rw [splitOnce_none (no_eq_abbreviates hx h)]
    have hc : candidates (Command.names .check) w = [.opt x.2 none] := by
      unfold candidates
      rw [if_pos (startsWith_iff.2 hd), splitOnce_none (no_eq_abbreviates hx h)]
      simp only [filter_abbreviates hx hl h, List.map_cons, List.map_nil]
    simp only [h1, if_false, hk, hc]

theorem classify_abbreviates_eq {w v : Str} {x : Str × Opt} (hx : x ∈ Command.names .check) (hl : 3 ≤ x.1.length) (h : Abbreviates w x.1) :
    classify (Command.names .check) (w ++ '=' :: v) = some (.opt x.2 (some v)) := by
  have hd := dashes_of hx hl h
  have hd' : "--".toList <+: w ++ '=' :: v := hd.trans (List.prefix_append _ _)
  have hsp := splitOnce_append (b := v) (no_eq_abbreviates hx h)
  unfold classify
  rw [if_neg (by rw [head_of_dashes hd']; simp)]
  have hlk : (Command.names .check).lookup (w ++ '=' :: v) = none := by
    cases hlk : (Command.names .check).lookup (w ++ '=' :: v) with
    | none => rfl
    | some o => exact absurd (no_eq (mem_of_lookup hlk)) (by simp)
  have h1 : ¬ (w ++ '=' :: v).length = 1 := by have := h.1; simp; omega
  rw [hlk]
  simp only [h1, if_false]
  have hk : known (Command.names .check) (w ++ '=' :: v) = ((Command.names .check).lookup w).map fun o => .opt o (some v) := by unfold known; rw [hsp]
  have hc : candidates (Command.names .check) (w ++ '=' :: v) = [.opt x.2 (some v)] := by
    unfold candidates
    rw [if_pos (startsWith_iff.2 hd'), hsp]
    simp only [filter_abbreviates hx hl h, List.map_cons, List.map_nil]
  rw [hk]
  cases hw : (Command.names .check).lookup w with
  | some o => simp only [Option.map_some, lookup_abbreviates hx hl h hw]
  | none => simp only [Option.map_none, hc]

theorem classify_joined {v : Str} (h1 : v ≠ []) (h2 : v.head? ≠ some '=') :
    classify (Command.names .check) ("-o".toList ++ v) = some (.opt .option (some v)) := by
  cases v with
  | nil => exact absurd rfl h1
  | cons c v =>
    have hc : c ≠ '=' := by simpa using h2
    unfold classify
    rw [if_neg (by simp)]
    have hlk : (Command.names .check).lookup ("-o".toList ++ c :: v) = none := by
      simp [Command.names, sharedNames, List.lookup]
    have hk : known (Command.names .check) ("-o".toList ++ c :: v) = none := by
      unfold known
      cases hs : splitOnce '=' v with
      | none => simp [splitOnce, hc, hs]
      | some ab => simp [splitOnce, hc, hs, Command.names, sharedNames, List.lookup]
    have hca : candidates (Command.names .check) ("-o".toList ++ c :: v) = [.opt .option (some (c :: v))] := by
      simp [candidates, startsWith, Command.names, sharedNames]
    rw [hlk]
    simp only [hk, hca]
    simp

theorem classify_shortEq {v : Str} : classify (Command.names .check) ("-o=".toList ++ v) = some (.opt .option (some v)) := by
  have hk : known (Command.names .check) ("-o=".toList ++ v) = some (.opt .option (some v)) := by
    simp [known, splitOnce, Command.names, sharedNames, List.lookup]
  have hlk : (Command.names .check).lookup ("-o=".toList ++ v) = none := by
    simp [Command.names, sharedNames, List.lookup]
  unfold classify
  rw [if_neg (by simp), hlk]
  simp only [hk]
  simp

/-- The values with one more part. -/
def addPart (p : Parsed) : Part → Parsed
  | .json => { p with json := true }
  | .noVersion => { p with noVersion := true }
  | .noExplanations => { p with noExplanations := true }
  | .option v => { p with options := p.options ++ [v] }

theorem abbreviates_ne_dashes {w name : Str} (h : Abbreviates w name) : w ≠ "--".toList := by
  rintro rfl
  exact absurd h.1 (by decide)

theorem plain_ne_dashes {v : Str} (h : Plain v) : v ≠ "--".toList := by
  rintro rfl
  exact h rfl

theorem parse_part {ws rest : List Str} {part : Part} {ts : List Tok} (hs : Spells Plain ws part) (ht : tokens (Command.names .check) rest = some ts) :
    ∃ tks, tokens (Command.names .check) (ws ++ rest) = some tks ∧
      ∀ ph p, parseToks tks ph false p = parseToks ts ph.leave false (addPart p part) := by
  have one : ∀ {s : Str} {t : Tok}, s ≠ "--".toList → classify (Command.names .check) s = some t → tokens (Command.names .check) ([s] ++ rest) = some (t :: ts) := by
    intro s t h1 h2
    rw [List.singleton_append, tokens, if_neg h1, h2, ht]
  have two : ∀ {s v : Str} {t : Tok}, s ≠ "--".toList → classify (Command.names .check) s = some t → Plain v →
      tokens (Command.names .check) ([s, v] ++ rest) = some (t :: .arg v :: ts) := by
    intro s v t h1 h2 h3
    show tokens _ (s :: v :: rest) = _
    rw [tokens, if_neg h1, h2, tokens, if_neg (plain_ne_dashes h3), classify_plain h3, ht]
  cases hs with
  | json h => exact ⟨_, one (abbreviates_ne_dashes h) (classify_abbreviates (x := ("--json".toList, .json)) (by decide) (by decide) h), fun _ _ => by simp only [parseToks, addPart]⟩
  | noVersion h =>
    exact ⟨_, one (abbreviates_ne_dashes h) (classify_abbreviates (x := ("--disable-version-check".toList, .noVersion)) (by decide) (by decide) h), fun _ _ => by simp only [parseToks, addPart]⟩
  | noExplanations h =>
    exact ⟨_, one (abbreviates_ne_dashes h) (classify_abbreviates (x := ("--disable-explanations-update".toList, .noExplanations)) (by decide) (by decide) h), fun _ _ => by simp only [parseToks, addPart]⟩
  | short hv => exact ⟨_, two (by decide) (t := .opt .option none) (by decide) hv, fun _ _ => by simp only [parseToks, addPart]⟩
  | shortEq => exact ⟨_, one (by simp) classify_shortEq, fun _ _ => by simp only [parseToks, addPart]⟩
  | joined h1 h2 => exact ⟨_, one (by simp) (classify_joined h1 h2), fun _ _ => by simp only [parseToks, addPart]⟩
  | long h hv =>
    exact ⟨_, two (abbreviates_ne_dashes h) (classify_abbreviates (x := ("--option".toList, .option)) (by decide) (by decide) h) hv, fun _ _ => by simp only [parseToks, addPart]⟩
  | longEq h =>
    refine ⟨_, one ?_ (classify_abbreviates_eq (x := ("--option".toList, .option)) (by decide) (by decide) h), fun _ _ => by simp only [parseToks, addPart]⟩
    intro e
    have := congrArg List.length e
    have := h.1
    simp at *
    omega

theorem parse_parts {ws rest : List Str} {parts : List Part} {ts : List Tok} (hs : SpellAll Plain ws parts) (ht : tokens (Command.names .check) rest = some ts) :
    ∃ tks, tokens (Command.names .check) (ws ++ rest) = some tks ∧
      ∀ ph p, ∃ ph', (ph' = ph ∨ ph' = ph.leave) ∧ parseToks tks ph false p = parseToks ts ph' false (parts.foldl addPart p) := by
  induction hs with
  | nil => exact ⟨ts, ht, fun ph p => ⟨ph, Or.inl rfl, rfl⟩⟩
  | cons h _ ih =>
    obtain ⟨t1, h1, h2⟩ := ih
    obtain ⟨t2, h3, h4⟩ := parse_part h h1
    refine ⟨t2, by rw [List.append_assoc]; exact h3, fun ph p => ?_⟩
    obtain ⟨ph', h5, h6⟩ := h2 ph.leave (addPart p _)
    refine ⟨ph', Or.inr ?_, by rw [h4, h6]; rfl⟩
    rcases h5 with h5 | h5
    · exact h5
    · rw [h5]; cases ph <;> rfl

theorem tokens_paths {paths rest : List Str} {ts : List Tok} (hp : ∀ x ∈ paths, Plain x) (ht : tokens (Command.names .check) rest = some ts) :
    tokens (Command.names .check) (paths ++ rest) = some (paths.map .arg ++ ts) := by
  induction paths with
  | nil => exact ht
  | cons x xs ih =>
    have hx := hp x (List.mem_cons_self ..)
    rw [List.cons_append, tokens, if_neg (plain_ne_dashes hx), classify_plain hx, ih (fun y hy => hp y (List.mem_cons_of_mem _ hy))]
    rfl

theorem parse_paths (paths : List Str) (ts : List Tok) (ph : Phase) (p : Parsed) (hph : ph ≠ .after) (hne : paths ≠ []) :
    parseToks (paths.map .arg ++ ts) ph false p = parseToks ts .inside false { p with args := p.args ++ paths } := by
  induction paths generalizing ph p with
  | nil => exact absurd rfl hne
  | cons x xs ih =>
    have h1 : parseToks ((x :: xs).map .arg ++ ts) ph false p = parseToks (xs.map .arg ++ ts) .inside false { p with args := p.args ++ [x] } := by
      cases ph with
      | after => exact absurd rfl hph
      | before => rfl
      | inside => rfl
    rw [h1]
    cases xs with
    | nil => rfl
    | cons y ys =>
      rw [ih .inside _ (by decide) (by simp)]
      simp

theorem fold_adds (parts : List Part) (p : Parsed) : Adds p (parts.foldl addPart p) parts [] := by
  induction parts generalizing p with
  | nil => exact ⟨by simp, by simp, by simp, by simp [values], by simp⟩
  | cons a l ih =>
    have h := ih (addPart p a)
    cases a with
    | json => exact ⟨by rw [List.foldl_cons, h.json]; simp [addPart], by rw [List.foldl_cons, h.noVersion]; simp [addPart],
        by rw [List.foldl_cons, h.noExplanations]; simp [addPart], h.options, h.args⟩
    | noVersion => exact ⟨by rw [List.foldl_cons, h.json]; simp [addPart], by rw [List.foldl_cons, h.noVersion]; simp [addPart],
        by rw [List.foldl_cons, h.noExplanations]; simp [addPart], h.options, h.args⟩
    | noExplanations => exact ⟨by rw [List.foldl_cons, h.json]; simp [addPart], by rw [List.foldl_cons, h.noVersion]; simp [addPart],
        by rw [List.foldl_cons, h.noExplanations]; simp [addPart], h.options, h.args⟩
    | option v => exact ⟨by rw [List.foldl_cons, h.json]; simp [addPart], by rw [List.foldl_cons, h.noVersion]; simp [addPart],
        by rw [List.foldl_cons, h.noExplanations]; simp [addPart], by rw [List.foldl_cons, h.options, values_cons_option]; simp [addPart], h.args⟩

/-! ### C159 -/

/-- **C159**, arguments that are accepted: options in front of the paths and behind them, with each of their spellings, and paths that do not begin with a dash. What is run has the paths in their order, the values of `-o` in theirs, and exactly the flags that are given. Missing: options among the paths, for which this is false (`C159_among_counterexample`), and values that begin with a dash in an argument of their own (`C159_dash_counterexample`). -/
theorem C159_accepts_partial (pre paths post : List Str) (pp qq : List Part) (h1 : SpellAll Plain pre pp) (hne : paths ≠ []) (hp : ∀ x ∈ paths, Plain x)
    (h2 : SpellAll Plain post qq) :
    ∃ p, parseArgs .check (pre ++ paths ++ post) = .run p ∧ p.args = paths ∧ p.options = values pp ++ values qq ∧
      (p.json = true ↔ .json ∈ pp ∨ .json ∈ qq) ∧ (p.noVersion = true ↔ .noVersion ∈ pp ∨ .noVersion ∈ qq) ∧
      (p.noExplanations = true ↔ .noExplanations ∈ pp ∨ .noExplanations ∈ qq) := by
  obtain ⟨t2, ht2, hq⟩ := parse_parts (rest := []) (ts := []) h2 rfl
  rw [List.append_nil] at ht2
  obtain ⟨t1, ht1, hpp⟩ := parse_parts h1 (tokens_paths hp ht2)
  obtain ⟨ph1, e1, hr1⟩ := hpp .before {}
  have hb : ph1 ≠ .after := by rcases e1 with rfl | rfl <;> decide
  have hr2 := parse_paths paths t2 ph1 (pp.foldl addPart {}) hb hne
  obtain ⟨ph2, e2, hr3⟩ := hq .inside { (pp.foldl addPart {}) with args := (pp.foldl addPart {}).args ++ paths }
  have a1 := fold_adds pp {}
  have a2 := fold_adds qq { (pp.foldl addPart {}) with args := (pp.foldl addPart {}).args ++ paths }
  refine ⟨qq.foldl addPart { (pp.foldl addPart {}) with args := (pp.foldl addPart {}).args ++ paths }, ?_, ?_, ?_, ?_, ?_, ?_⟩
  · unfold parseArgs
    rw [List.append_assoc, ht1]
    simp only [Command.takesArgs, if_true]
    rw [hr1, hr2, hr3]
    rcases e2 with rfl | rfl <;> rfl
  · rw [a2.args, a1.args]; simp
  · rw [a2.options, a1.options]; simp
  · rw [a2.json, a1.json]; simp
  · rw [a2.noVersion, a1.noVersion]; simp
  · rw [a2.noExplanations, a1.noExplanations]; simp

/-- **C159**, nothing is left out: if the parser of `check` accepts the arguments, then they are options of the program, the paths, and more options; the paths are those that are checked, and the options say what is set. Only the first `--` is left out, behind which all are paths. -/
theorem C159_used (args : List Str) (p : Parsed) (h : parseArgs .check args = .run p) :
    ∃ pre mid post pp qq, args = pre ++ mid ++ post ∧ SpellAll PathLike pre pp ∧ SpellAll PathLike post qq ∧ p.args ≠ [] ∧
      ((mid = p.args ∧ ∀ x ∈ p.args, PathLike x) ∨
        ∃ xs ys, mid = xs ++ "--".toList :: ys ∧ p.args = xs ++ ys ∧ (∀ x ∈ xs, PathLike x) ∧ post = []) ∧
      p.options = values (pp ++ qq) ∧ (p.json = true ↔ .json ∈ pp ++ qq) ∧ (p.noVersion = true ↔ .noVersion ∈ pp ++ qq) ∧
      (p.noExplanations = true ↔ .noExplanations ∈ pp ++ qq) := by
  unfold parseArgs at h
  cases ht : tokens (Command.names .check) args with
  | none => rw [ht] at h; exact nomatch h
  | some ts =>
    rw [ht] at h
    obtain ⟨pre, mid, post, pp, qq, paths, hs⟩ := used_aux args.length args ts .before {} p (Nat.le_refl _) ht h
    have ha : p.args = paths := by rw [hs.adds.args]; rfl
    refine ⟨pre, mid, post, pp, qq, hs.eq, hs.hpre, hs.hpost, by rw [ha]; exact hs.before rfl, ?_, by rw [hs.adds.options]; rfl,
      by rw [hs.adds.json]; simp, by rw [hs.adds.noVersion]; simp, by rw [hs.adds.noExplanations]; simp⟩
    rw [ha]
    have := hs.hpaths
    cases this with
    | plain hx => exact Or.inl ⟨rfl, hx⟩
    | dashes hx => exact Or.inr ⟨_, _, rfl, rfl, hx, rfl⟩

theorem not_run_of_unknown (ts : List Tok) (ph : Phase) (b : Bool) (p q : Parsed) (h : .unknown ∈ ts) : parseToks ts ph b p ≠ .run q := by
  fun_induction parseToks ts ph b p with
  | case1 => exact nomatch h
  | case7 => exact not_run_of_extra _ _ _ _
  | _ => simp_all

theorem unknown_mem {names : List (Str × Opt)} {pre post : List Str} {s : Str} {ts : List Tok} (hd : "--".toList ∉ pre) (hs : s ≠ "--".toList)
    (hc : classify names s = some .unknown) (h : tokens names (pre ++ s :: post) = some ts) : .unknown ∈ ts := by
  induction pre generalizing ts with
  | nil =>
    rw [List.nil_append, tokens, if_neg hs, hc] at h
    cases ht : tokens names post with
    | none => rw [ht] at h; exact nomatch h
    | some ts' => rw [ht] at h; rw [← Option.some.inj h]; exact List.mem_cons_self ..
  | cons x xs ih =>
    rw [List.cons_append, tokens, if_neg (fun e => hd (by rw [e]; exact List.mem_cons_self ..))] at h
    cases hx : classify names x with
    | none => rw [hx] at h; exact nomatch h
    | some t =>
      cases ht : tokens names (xs ++ s :: post) with
      | none => rw [hx, ht] at h; exact nomatch h
      | some ts' =>
        rw [hx, ht] at h
        rw [← Option.some.inj h]
        exact List.mem_cons_of_mem _ (ih (fun hm => hd (List.mem_cons_of_mem _ hm)) ht)

theorem not_number {s : Str} (h : "--".toList <+: s) : isNumber s = false := by
  cases hn : isNumber s with
  | false => rfl
  | true =>
    obtain ⟨t, rfl⟩ := h
    obtain ⟨u, hu, hc⟩ := number_like hn
    have : '-' ∈ u := by
      have e : u = '-' :: t := by simpa using hu.symm
      rw [e]; exact List.mem_cons_self ..
    rcases hc _ this with h | h <;> exact absurd h (by decide)

/-- **C159**, unknown options: if an argument begins with two dashes, is not behind `--`, contains no space, and what is in front of its `=`, if there is one, is not the beginning of an option of `check`, then nothing is run. -/
theorem C159_unknown (pre post : List Str) (w s : Str) (p : Parsed) (hd : "--".toList ∉ pre) (hw : "--".toList <+: w) (heq : '=' ∉ w)
    (hs : s = w ∨ ∃ v, s = w ++ '=' :: v) (hsp : ' ' ∉ s)
    (hn : ∀ n ∈ ["--help".toList, "--json".toList, "--disable-version-check".toList, "--disable-explanations-update".toList, "--option".toList], ¬ w <+: n) :
    parseArgs .check (pre ++ s :: post) ≠ .run p := by
  have hpre : w <+: s := by
    rcases hs with rfl | ⟨v, rfl⟩
    · exact List.prefix_refl _
    · exact List.prefix_append _ _
  have hss := hw.trans hpre
  have hne : ∀ x ∈ Command.names .check, ¬ w <+: x.1 := by
    intro x hx hp
    have hl := hw.trans hp
    rcases mem_names.1 hx with rfl | rfl | rfl | rfl | rfl | rfl | rfl
    · exact absurd hl (by decide)
    · exact hn _ (by decide) hp
    · exact hn _ (by decide) hp
    · exact hn _ (by decide) hp
    · exact hn _ (by decide) hp
    · exact absurd hl (by decide)
    · exact hn _ (by decide) hp
  have hlook : ∀ u, w <+: u → (Command.names .check).lookup u = none := by
    intro u hu
    cases hlk : (Command.names .check).lookup u with
    | none => rfl
    | some o => exact absurd hu (hne _ (mem_of_lookup hlk))
  have hfil : (Command.names .check).filter (fun n => startsWith n.1 w) = [] := by
    simp only [List.filter_eq_nil_iff]
    intro x hx hp
    exact hne x hx (startsWith_iff.1 hp)
  have hcl : classify (Command.names .check) s = some .unknown := by
    have h1 : ¬ s.length = 1 := by have := hss.length_le; simp at this; omega
    have hk : known (Command.names .check) s = none := by
      unfold known
      rcases hs with rfl | ⟨v, rfl⟩
      · rw [splitOnce_none heq]
      · rw [splitOnce_append heq]; simp only [hlook w (List.prefix_refl _), Option.map_none]
    have hc : candidates (Command.names .check) s = [] := by
      unfold candidates
      rw [if_pos (startsWith_iff.2 hss)]
      rcases hs with rfl | ⟨v, rfl⟩
      · rw [splitOnce_none heq]; simp only [hfil, List.map_nil]
      · rw [splitOnce_append heq]; simp only [hfil, List.map_nil]
    unfold classify
    rw [if_neg (by rw [head_of_dashes hss]; simp), hlook s hpre]
    simp only [h1, if_false, hk, hc]
    simp [not_number hss, hsp]
  have hsd : s ≠ "--".toList := by
    rintro rfl
    exact hn "--json".toList (by decide) (hpre.trans (by decide))
  unfold parseArgs
  cases ht : tokens (Command.names .check) (pre ++ s :: post) with
  | none => exact fun h => nomatch h
  | some ts => exact not_run_of_unknown ts _ _ _ p (unknown_mem hd hsd hcl ht)

/-- **C159**, `main`: options, paths that do not begin with a dash, and more options behind `check` are checked with these paths and the values of the options, and the exit status is that of the check (C20). -/
theorem C159_main_partial (env : Env) (lenv : LintEnv) (fuel : Nat) (lies : Str → Option FTree) (pre paths post : List Str) (pp qq : List Part)
    (h1 : SpellAll Plain pre pp) (hne : paths ≠ []) (hp : ∀ x ∈ paths, Plain x) (h2 : SpellAll Plain post qq) :
    mainStatus env lenv fuel lies ("check".toList :: (pre ++ paths ++ post)) =
      exitStatus (checkReturn (checkCode env lenv fuel (paths.map fun s => ⟨s, lies s⟩) (values pp ++ values qq))) := by
  obtain ⟨p, h, ha, ho, _⟩ := C159_accepts_partial pre paths post pp qq h1 hne hp h2
  have hc : commandOf "check".toList = some .check := by decide
  simp only [mainStatus, hc, h, ha, ho]

/-- **C159 is false of the code** for options among the paths: here the paths `a.py` and `b.py` and the option are all fine, but as the option is between them, nothing is checked, and the program ends with 2, as if a linter had failed. -/
theorem C159_among_counterexample :
    (∀ p, parseArgs .check ["a.py".toList, "-o".toList, "no-flake8".toList, "b.py".toList] ≠ .run p) ∧
      ∀ env lenv fuel lies, mainStatus env lenv fuel lies ["check".toList, "a.py".toList, "-o".toList, "no-flake8".toList, "b.py".toList] = 2 := by
  have h : parseArgs .check ["a.py".toList, "-o".toList, "no-flake8".toList, "b.py".toList] = .usage := by decide +kernel
  have hc : commandOf "check".toList = some .check := by decide
  exact ⟨fun p e => (nomatch h.symm.trans e), fun env lenv fuel lies => by simp only [mainStatus, hc, h]⟩

/-- **C159 is false of the code** for values that begin with a dash: they are not taken for the value of `-o` in front of them. -/
theorem C159_dash_counterexample :
    parseArgs .check ["-o".toList, "--enable=all".toList, "a.py".toList] = .usage ∧
      parseArgs .check ["-o--enable=all".toList, "a.py".toList] = .run { options := ["--enable=all".toList], args := ["a.py".toList] } := by
  decide +kernel

/-! ### Examples -/

/-- `--js -o a=b x.py y.py --option=c=d -oe` -/
example : parseArgs .check ["--js".toList, "-o".toList, "a=b".toList, "x.py".toList, "y.py".toList, "--option=c=d".toList, "-oe".toList] =
    .run { json := true, options := ["a=b".toList, "c=d".toList, "e".toList], args := ["x.py".toList, "y.py".toList] } := by decide +kernel

example : ∃ p, parseArgs .check (["--js".toList, "-o".toList, "a=b".toList] ++ ["x.py".toList, "y.py".toList] ++ ["--option=c=d".toList, "-oe".toList]) = .run p ∧
    p.args = ["x.py".toList, "y.py".toList] ∧ p.options = ["a=b".toList, "c=d".toList, "e".toList] := by
  obtain ⟨p, h, ha, ho, _⟩ := C159_accepts_partial ["--js".toList, "-o".toList, "a=b".toList] ["x.py".toList, "y.py".toList] ["--option=c=d".toList, "-oe".toList]
    [.json, .option "a=b".toList] [.option "c=d".toList, .option "e".toList]
    (.cons (.json (by decide)) (.cons (.short (by decide)) .nil)) (by decide) (by decide)
    (.cons (.longEq (w := "--option".toList) (v := "c=d".toList) (by decide)) (.cons (.joined (v := "e".toList) (by decide) (by decide)) .nil))
  exact ⟨p, h, ha, ho⟩

/-- `-- -x.py` -/
example : parseArgs .check ["--".toList, "-x.py".toList] = .run { args := ["-x.py".toList] } := by decide +kernel

/-- `--enable=all a.py`: only options of the program are known. -/
example (p : Parsed) : parseArgs .check ["--enable=all".toList, "a.py".toList] ≠ .run p :=
  C159_unknown [] ["a.py".toList] "--enable".toList "--enable=all".toList p (by decide) (by decide) (by decide) (Or.inr ⟨"all".toList, by decide⟩) (by decide) (by decide)

/-- `--disable` may be either of two options. -/
example : parseArgs .check ["--disable".toList, "a.py".toList] = .usage := by decide +kernel

/-- `-h` -/
example : parseArgs .check ["-h".toList] = .help ∧ parseArgs .version [] = .run {} ∧ parseArgs .explain ["all".toList] = .run { args := ["all".toList] } ∧
    parseArgs .explain [] = .usage ∧ parseArgs .version ["x".toList] = .usage ∧ parseArgs .explain ["-o".toList, "x".toList] = .usage := by decide +kernel

end Verif.CommandLine

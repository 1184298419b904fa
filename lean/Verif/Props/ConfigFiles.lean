import Verif.Props.Config
import Verif.Model.ConfigMany
import Mathlib.Data.List.Forall2

/-!
Property theorems about reading configuration: C10, C13, C14, C15.
-/

namespace Verif

/-! ### C14 A configuration reference denotes exactly one source -/

/-- Begins with the `http://` or `https://` protocol. -/
def HasProtocol (s : Str) : Prop :=
  (∃ r, s = "http://".toList ++ r) ∨ ∃ r, s = "https://".toList ++ r

/-- Ends in `.toml`. -/
def EndsInToml (s : Str) : Prop := ∃ r, s = r ++ ".toml".toList

theorem startsWith_iff (s p : Str) : startsWith s p = true ↔ ∃ r, s = p ++ r := by
  constructor
  · intro h
    have h' : p <+: s := by simpa [startsWith] using h
    obtain ⟨r, hr⟩ := h'
    exact ⟨r, hr.symm⟩
  · rintro ⟨r, rfl⟩
    simp [startsWith]

theorem protocol_iff (s : Str) :
    (startsWith s "http://".toList || startsWith s "https://".toList) = true ↔ HasProtocol s := by
  rw [Bool.or_eq_true, startsWith_iff, startsWith_iff]; rfl

/-- **C14** (exactly one source). The three classes exclude each other, cover every string, and addresses
with a protocol are remote whatever else they contain. -/
theorem C14_classes (s : Str) :
    (getConfigType s = .remote ↔ HasProtocol s) ∧
    (getConfigType s = .packaged ↔ ¬ HasProtocol s ∧ ∀ c ∈ s, allowedLetter c = true) ∧
    (getConfigType s = .local ↔ ¬ HasProtocol s ∧ ∃ c ∈ s, allowedLetter c = false) := by
  have hp := protocol_iff s
  unfold getConfigType
  by_cases h : HasProtocol s
  · rw [if_pos (hp.2 h)]; simp [h]
  · rw [if_neg (fun x => h (hp.1 x))]
    by_cases ha : s.all allowedLetter = true
    · rw [if_pos ha]
      have ha' := List.all_eq_true.1 ha
      have hn : ¬ ∃ c ∈ s, allowedLetter c = false := by
        rintro ⟨c, hc, hf⟩
        rw [ha' c hc] at hf; cases hf
      exact ⟨⟨fun x => (by cases x), fun x => absurd x h⟩, ⟨fun _ => ⟨h, ha'⟩, fun _ => rfl⟩,
        ⟨fun x => (by cases x), fun x => absurd x.2 hn⟩⟩
    · rw [if_neg ha]
      have hx : ∃ c ∈ s, allowedLetter c = false := by simpa using ha
      have hn : ¬ ∀ c ∈ s, allowedLetter c = true := by
        intro hall
        obtain ⟨c, hc, hf⟩ := hx
        rw [hall c hc] at hf; cases hf
      exact ⟨⟨fun x => (by cases x), fun x => absurd x h⟩, ⟨fun x => (by cases x), fun x => absurd x.2 hn⟩,
        ⟨fun _ => ⟨h, hx⟩, fun _ => rfl⟩⟩

/-- **C14** (consequence). A packaged name has no separator and no dot, so the file looked up for it lies
directly in the directory of packaged configurations. -/
theorem C14_packaged_stays_inside (s : Str) (h : getConfigType s = .packaged) : '/' ∉ s ∧ '.' ∉ s := by
  have := ((C14_classes s).2.1.1 h).2
  exact ⟨fun hm => absurd (this _ hm) (by decide), fun hm => absurd (this _ hm) (by decide)⟩

/-- The documented rule (`docs/source/configuration.rst:92`) as a relation: with a protocol remote, otherwise
local when the name ends in `.toml`, otherwise packaged. -/
def DocumentedType (s : Str) : ConfigFileType → Prop
  | .remote => HasProtocol s
  | .local => ¬ HasProtocol s ∧ EndsInToml s
  | .packaged => ¬ HasProtocol s ∧ ¬ EndsInToml s

/-- The documented part of C14. -/
def C14_claim : Prop := ∀ s, DocumentedType s (getConfigType s)

theorem not_protocol_of_head {c : Char} {s : Str} (h : c ≠ 'h') : ¬ HasProtocol (c :: s) := by
  rintro (⟨r, hr⟩ | ⟨r, hr⟩) <;> · injection hr with h1 _; exact h h1

/-- **C14** is false in its documented part: the documentation's own example of a local path
(`docs/source/configuration.rst:90`) does not end in `.toml`, so the rule makes it packaged; the code makes it
local. -/
theorem C14_counterexample : ¬ C14_claim := by
  intro h
  have h1 := h "/path/to/local/toml/file".toList
  have h2 : getConfigType "/path/to/local/toml/file".toList = .local := by decide
  rw [h2] at h1
  obtain ⟨r, hr⟩ := h1.2
  have := congrArg List.getLast? hr
  rw [List.getLast?_append, show (".toml".toList).getLast? = some 'l' by decide,
    show ("/path/to/local/toml/file".toList).getLast? = some 'e' by decide] at this
  simp at this

theorem toml_not_allowed {s : Str} (h : EndsInToml s) : ∃ c ∈ s, allowedLetter c = false := by
  obtain ⟨r, rfl⟩ := h
  exact ⟨'.', List.mem_append_right _ (by decide), by decide⟩

/-- **C14**, exactly where code and documentation agree: on addresses with a protocol, on names ending in
`.toml`, and on names made only of letters, digits, `-` and `_`. -/
theorem C14_documented_partial (s : Str) :
    DocumentedType s (getConfigType s) ↔
      (HasProtocol s ∨ EndsInToml s ∨ ∀ c ∈ s, allowedLetter c = true) := by
  obtain ⟨hr, hp, hl⟩ := C14_classes s
  by_cases h : HasProtocol s
  · rw [hr.2 h]; simp [DocumentedType, h]
  · by_cases ha : ∀ c ∈ s, allowedLetter c = true
    · rw [hp.2 ⟨h, ha⟩]
      refine ⟨fun _ => .inr (.inr ha), fun _ => ⟨h, fun ht => ?_⟩⟩
      obtain ⟨c, hc, hf⟩ := toml_not_allowed ht
      rw [ha c hc] at hf; cases hf
    · have hx : ∃ c ∈ s, allowedLetter c = false := by simpa using ha
      rw [hl.2 ⟨h, hx⟩]
      simp [DocumentedType, h, ha]

example : getConfigType "https://web.tld/x".toList = .remote ∧ getConfigType "cs0".toList = .packaged ∧
    getConfigType "dir/a.toml".toList = .local ∧ getConfigType "HTTP://a".toList = .local ∧
    getConfigType [] = .packaged := by decide

/-! ### C15 No option argument is silently dropped -/

/-- `arg` spells the option `r`: a name of the option, and after the first `=` its value. -/
def Spells (arg : Str) (r : RawArg) : Prop :=
  ∃ name, Opt.safeFromName name = some r.option ∧ '=' ∉ name ∧
    arg = name ++ (match r.val with | none => [] | some v => '=' :: v)

/-- The option accepts being written with, respectively without, a value. -/
def ValueFits (r : RawArg) : Prop :=
  match (optionParse r.option).takesVal with
  | .yes => r.val ≠ none
  | .no => r.val = none
  | .optional => True

/-- What became of one argument: an option, or a warning about it. -/
abbrev Verdict := RawArg ⊕ (Str × ParseWarning)

/-- A verdict is right for an argument. -/
def Right (arg : Str) : Verdict → Prop
  | .inl r => Spells arg r ∧ ValueFits r
  | .inr (a, _) => a = arg ∧ ¬ ∃ r, Spells arg r ∧ ValueFits r

theorem getNameVal_spec (arg : Str) :
    '=' ∉ (getNameVal arg).1 ∧
      arg = (getNameVal arg).1 ++ (match (getNameVal arg).2 with | none => [] | some v => '=' :: v) := by
  have key : ∀ s : Str, match splitOnce '=' s with
      | none => '=' ∉ s
      | some (a, b) => '=' ∉ a ∧ s = a ++ '=' :: b := by
    intro s
    induction s with
    | nil => simp [splitOnce]
    | cons c s ih =>
      by_cases hc : c = '='
      · subst hc; simp [splitOnce]
      · cases hs : splitOnce '=' s with
        | none => rw [hs] at ih; simp [splitOnce, hc, hs, Ne.symm hc, ih]
        | some p =>
          obtain ⟨a, b⟩ := p
          rw [hs] at ih
          simp only [splitOnce, hc, if_false, hs]
          exact ⟨by simp [Ne.symm hc, ih.1], by rw [ih.2]; rfl⟩
  have := key arg
  unfold getNameVal
  cases hs : splitOnce '=' arg with
  | none => rw [hs] at this; simpa using this
  | some p => obtain ⟨a, b⟩ := p; rw [hs] at this; simpa using this

theorem append_eq_unique {n m : Str} {v w : Option Str} (hn : '=' ∉ n) (hm : '=' ∉ m)
    (h : n ++ (match v with | none => [] | some v => '=' :: v)
      = m ++ (match w with | none => [] | some v => '=' :: v)) : n = m ∧ v = w := by
  induction n generalizing m with
  | nil =>
    cases m with
    | nil => cases v <;> cases w <;> simp_all
    | cons c m => cases v <;> simp_all
  | cons c n ih =>
    cases m with
    | nil => cases w <;> simp_all
    | cons d m =>
      simp only [List.cons_append, List.cons.injEq] at h
      simp only [List.mem_cons, not_or] at hn hm
      obtain ⟨rfl, h⟩ := h
      obtain ⟨rfl, h2⟩ := ih hn.2 hm.2 h
      exact ⟨rfl, h2⟩

theorem spells_iff (arg : Str) (r : RawArg) :
    Spells arg r ↔ Opt.safeFromName (getNameVal arg).1 = some r.option ∧ (getNameVal arg).2 = r.val := by
  obtain ⟨h1, h2⟩ := getNameVal_spec arg
  constructor
  · rintro ⟨n, hn, hne, he⟩
    obtain ⟨rfl, hv⟩ := append_eq_unique h1 hne (h2.symm.trans he)
    exact ⟨hn, hv⟩
  · rintro ⟨ho, hv⟩
    exact ⟨_, ho, h1, by rw [← hv]; exact h2⟩

/-- **C15.** Each argument gets exactly one verdict, in order; the options returned are the accepted ones,
and the warnings are about all the others. An argument is refused only if it spells no option. -/
theorem C15_nothing_dropped (args : List Str) :
    ∃ verdicts : List Verdict, List.Forall₂ Right args verdicts ∧
      (parseArgs args).1 = verdicts.filterMap Sum.getLeft? ∧
      (parseArgs args).2 = verdicts.filterMap Sum.getRight? := by
  induction args with
  | nil => exact ⟨[], .nil, rfl, rfl⟩
  | cons arg args ih =>
    obtain ⟨vs, h1, h2, h3⟩ := ih
    have hsp := spells_iff arg
    cases hp : parseOption (getNameVal arg).1 (getNameVal arg).2.isSome with
    | ok o =>
      refine ⟨.inl ⟨o, (getNameVal arg).2⟩ :: vs, .cons ?_ h1, ?_, ?_⟩
      · unfold parseOption at hp
        cases hn : Opt.safeFromName (getNameVal arg).1 with
        | none => rw [hn] at hp; cases hp
        | some o' =>
          rw [hn] at hp
          simp only at hp
          split at hp
          · cases hp
          · split at hp
            · cases hp
            · cases hp
              rename_i ha hb
              refine ⟨(hsp _).2 ⟨hn, rfl⟩, ?_⟩
              unfold ValueFits
              cases ht : (optionParse o).takesVal <;> cases hv : (getNameVal arg).2 <;> simp_all
      · simp only [parseArgs, hp, h2, List.filterMap_cons, Sum.getLeft?]
      · simp only [parseArgs, hp, h3, List.filterMap_cons, Sum.getRight?]
    | error w =>
      refine ⟨.inr (arg, w) :: vs, .cons ⟨rfl, ?_⟩ h1, ?_, ?_⟩
      · rintro ⟨r, hs, hf⟩
        obtain ⟨ho, hv⟩ := (hsp r).1 hs
        unfold parseOption at hp
        rw [ho] at hp
        unfold ValueFits at hf
        rw [hv] at hp
        cases ht : (optionParse r.option).takesVal <;> cases hr : r.val <;> simp_all
      · simp only [parseArgs, hp, h2, List.filterMap_cons, Sum.getLeft?]
      · simp only [parseArgs, hp, h3, List.filterMap_cons, Sum.getRight?]

example : parseArgs ["Config=a=b".toList, "no-flake8".toList, "no-flake8=x".toList, "pylint".toList, "q".toList]
    = ([⟨.configFile, some "a=b".toList⟩, ⟨.noFlake8, none⟩],
       [("no-flake8=x".toList, .valueUnexpected), ("pylint".toList, .valueMissing), ("q".toList, .unrecognized)]) := by
  decide

/-- A line holding an edulint comment with the given text: white space, `#`, white space and more `#`s, the
label in any case, white space, the text. -/
def IsComment (line raw : Str) : Prop :=
  ∃ a b l c, line = a ++ '#' :: (b ++ (l ++ (c ++ raw))) ∧ (∀ x ∈ a, isSpace x = true) ∧
    (∀ x ∈ b, isSpace x = true ∨ x = '#') ∧ lower l = "edulint:".toList ∧ (∀ x ∈ c, isSpace x = true)

theorem dropWhile_append_all {p : Char → Bool} {a s : Str} (h : ∀ x ∈ a, p x = true) :
    (a ++ s).dropWhile p = s.dropWhile p := by
  induction a with
  | nil => rfl
  | cons x a ih =>
    rw [List.cons_append, List.dropWhile_cons_of_pos (h x (by simp))]
    exact ih fun y hy => h y (List.mem_cons_of_mem _ hy)

theorem lower_append (a b : Str) : lower (a ++ b) = lower a ++ lower b := by simp [lower]
theorem lower_length (a : Str) : (lower a).length = a.length := by simp [lower]

theorem label_head {l : Str} (h : lower l = "edulint:".toList) :
    ∃ c t, l = c :: t ∧ isSpace c = false ∧ c ≠ '#' := by
  cases l with
  | nil => exact absurd h (by decide)
  | cons c t =>
    have hc : c.toLower = 'e' := by
      have := congrArg List.head? h
      simpa [lower] using this
    refine ⟨c, t, rfl, ?_, ?_⟩
    · cases hs : isSpace c with
      | false => rfl
      | true =>
        exfalso
        unfold Char.toLower at hc
        split at hc
        · rename_i hr
          have h1 := hr.1
          have h3 := hr.2
          have e1 : ('A' : Char).val.toNat = 65 := by decide
          have e2 : ('Z' : Char).val.toNat = 90 := by decide
          rw [ge_iff_le, UInt32.le_iff_toNat_le, e1] at h1
          rw [UInt32.le_iff_toNat_le, e2] at h3
          have e3 : c.toNat = c.val.toNat := rfl
          simp only [isSpace, e3, Bool.or_eq_true, Bool.and_eq_true, decide_eq_true_eq, beq_iff_eq] at hs
          omega
        · subst hc; revert hs; decide
    · rintro rfl; revert hc; decide

/-- **C15** (which comments count). The text found after an edulint comment is the one the pattern denotes, and
no line of that shape is missed. -/
theorem C15_comment (line : Str) :
    (∀ raw, matchEdulint line = some raw → IsComment line raw) ∧
    (∀ raw, IsComment line raw → matchEdulint line = some (raw.dropWhile isSpace)) := by
  constructor
  · intro raw h
    unfold matchEdulint at h
    split at h
    · rename_i rest hr
      simp only at h
      split at h
      · rename_i hl
        cases h
        obtain ⟨t, ht⟩ := (startsWith_iff _ _).1 hl
        refine ⟨line.takeWhile isSpace, rest.takeWhile (fun c => isSpace c || c == '#'),
          (rest.dropWhile (fun c => isSpace c || c == '#')).take 8,
          ((rest.dropWhile (fun c => isSpace c || c == '#')).drop 8).takeWhile isSpace, ?_,
          fun x hx => List.all_eq_true.1 List.all_takeWhile x hx, ?_, ?_,
          fun x hx => List.all_eq_true.1 List.all_takeWhile x hx⟩
        · have h8 : edulintLabel.length = 8 := by decide
          rw [h8, List.takeWhile_append_dropWhile, List.take_append_drop, List.takeWhile_append_dropWhile, ← hr,
            List.takeWhile_append_dropWhile]
        · intro x hx
          have := List.all_eq_true.1 List.all_takeWhile x hx
          simpa using this
        · have hm : lower ((rest.dropWhile (fun c => isSpace c || c == '#')).take 8)
              = (lower (rest.dropWhile (fun c => isSpace c || c == '#'))).take 8 := by
            simp [lower, List.map_take]
          rw [hm, ht]
          show (edulintLabel ++ t).take 8 = _
          rw [show (8 : Nat) = edulintLabel.length by decide, List.take_left']
          · rfl
          · rfl
      · cases h
    · cases h
  · rintro raw ⟨a, b, l, c, rfl, ha, hb, hl, hc⟩
    obtain ⟨x, t, rfl, hx1, hx2⟩ := label_head hl
    have h1 : (a ++ '#' :: (b ++ (x :: t ++ (c ++ raw)))).dropWhile isSpace
        = '#' :: (b ++ (x :: t ++ (c ++ raw))) := by
      rw [dropWhile_append_all ha, List.dropWhile_cons_of_neg (by decide)]
    have h2 : (b ++ (x :: t ++ (c ++ raw))).dropWhile (fun c => isSpace c || c == '#')
        = x :: t ++ (c ++ raw) := by
      rw [dropWhile_append_all (fun y hy => by simpa using hb y hy), List.cons_append,
        List.dropWhile_cons_of_neg (by simp [hx1, hx2])]
    have h3 : startsWith (lower (x :: t ++ (c ++ raw))) edulintLabel = true := by
      rw [startsWith_iff, lower_append, hl]; exact ⟨_, rfl⟩
    have h4 : edulintLabel.length = (x :: t).length := by
      rw [← lower_length (x :: t), hl]; rfl
    unfold matchEdulint
    rw [h1]
    simp only [h2, h3, if_true]
    rw [h4, List.drop_left', dropWhile_append_all hc]
    rfl

/-- The option that stands for an import from `ib111`. -/
def ib111Option : Str := "config-file=ib111.toml".toList

/-- What one line contributes: the arguments of its comment, and the packaged configuration of a course for a
line importing from that course. -/
def LineArgs (env : Env) (line args : Str) (out : List Str) : Prop :=
  args = strip line ∧ ∃ own, (match matchEdulint args with
      | none => own = []
      | some raw => env.shlex raw = .ok own) ∧
    out = own ++ (if matchIb111 args then [ib111Option] else [])

/-- **C15** (lines). The arguments of a file are those of its lines, in order, each as split by the shell rules;
apart from lines importing from `ib111`, nothing else is added. Missing: files on which splitting fails, and the
added option, for which see the counterexamples below. -/
theorem C15_lines_partial (env : Env) (lines args) (h : extractArgs env lines = .ok args) :
    ∃ outs, List.Forall₂ (fun line out => LineArgs env line (strip line) out) lines outs ∧
      args = outs.flatten := by
  induction lines generalizing args with
  | nil => cases h; exact ⟨[], .nil, rfl⟩
  | cons line lines ih =>
    have hname : Opt.toName .configFile ++ "=ib111.toml".toList = ib111Option := by decide
    unfold extractArgs at h
    simp only [hname] at h
    cases hm : matchEdulint (strip line) with
    | none =>
      simp only [hm] at h
      cases hr : extractArgs env lines with
      | error e => rw [hr] at h; cases h
      | ok more =>
        rw [hr] at h; cases h
        obtain ⟨outs, h1, h2⟩ := ih _ hr
        exact ⟨_ :: outs, .cons ⟨rfl, [], by rw [hm], rfl⟩ h1, by rw [List.flatten_cons, ← h2]⟩
    | some raw =>
      simp only [hm] at h
      cases hs : env.shlex raw with
      | error e => rw [hs] at h; cases h
      | ok own =>
        rw [hs] at h
        simp only at h
        cases hr : extractArgs env lines with
        | error e => rw [hr] at h; cases h
        | ok more =>
          rw [hr] at h; cases h
          obtain ⟨outs, h1, h2⟩ := ih _ hr
          exact ⟨_ :: outs, .cons ⟨rfl, own, by rw [hm]; exact hs, rfl⟩ h1, by rw [List.flatten_cons, ← h2]⟩

/-- C15, nothing invented: a file without edulint comments contributes no option. -/
def C15_claim_invented : Prop :=
  ∀ env lines args, (∀ l ∈ lines, ∀ raw, ¬ IsComment (strip l) raw) → extractArgs env lines = .ok args → args = []

/-- C15, reported back: text that cannot be split does not stop the reading of the file. -/
def C15_claim_reported : Prop :=
  ∀ env lines, ∃ args, extractArgs env lines = .ok args

/-- Surroundings in which every text is one argument, except that a lone quote is refused as
`shlex.split` refuses it ("No closing quotation"). -/
def quoteEnv : Env where
  shlex := fun s => if s = ['\''] then .error .valueError else .ok [s]
  load := fun _ => none
  isDir := fun _ => false
  absJoin := fun f _ => f
  stem := id
  parents := fun _ => []

/-- **C15** is false: importing from `ib111` sets a configuration file nobody wrote in a comment. -/
theorem C15_counterexample_invented : ¬ C15_claim_invented := by
  intro h
  have h1 := h quoteEnv ["from ib111 import week_02".toList] [ib111Option] (by
    intro l hl raw hc
    simp only [List.mem_singleton] at hl
    subst hl
    have := (C15_comment _).2 _ hc
    rw [show matchEdulint (strip "from ib111 import week_02".toList) = none by decide] at this
    cases this) (by decide)
  exact absurd h1 (by decide)

/-- **C15** is false: an unbalanced quote in a comment is not reported back, the error escapes. -/
theorem C15_counterexample_reported : ¬ C15_claim_reported := by
  intro h
  obtain ⟨args, ha⟩ := h quoteEnv ["# edulint: '".toList]
  have : extractArgs quoteEnv ["# edulint: '".toList] = .error .valueError := by decide
  rw [this] at ha
  cases ha

example : matchEdulint "  # #EduLint:  pylint=a no-flake8".toList = some "pylint=a no-flake8".toList ∧
    matchEdulint "x = 1 # edulint: a".toList = none ∧
    matchIb111 "from ib111 import week_02".toList = true ∧ matchIb111 "from ib111 import week_".toList = false := by
  decide

/-! ### C13 The nearest implicit configuration file is used -/

/-- The documented search: the closest directory holding one of the two names. -/
def NearestImplicit (dirs : List (List Str)) (i : Nat) (name : Str) : Prop :=
  (∃ dir, dirs[i]? = some dir ∧ name ∈ dir) ∧
  (name = "edulint.toml".toList ∨ name = ".edulint.toml".toList) ∧
  ∀ j < i, ∀ dir, dirs[j]? = some dir → "edulint.toml".toList ∉ dir ∧ ".edulint.toml".toList ∉ dir

/-- C13: whenever some directory holds such a file, the search finds a nearest one. -/
def C13_claim : Prop :=
  ∀ dirs, (∃ i name, NearestImplicit dirs i name) →
    ∃ i name, searchParents dirs = some (i, name) ∧ NearestImplicit dirs i name

/-- The search never finds anything. -/
theorem C13_never_found (dirs : List (List Str)) : searchParents dirs = none := by
  induction dirs with
  | nil => rfl
  | cons d ds ih =>
    have : d.find? (fun name => strEqTuple name implicitConfigFilenames) = none := by
      rw [List.find?_eq_none]; intro x _; simp [strEqTuple]
    simp only [searchParents, this, ih, Option.map_none]

/-- **C13** is false: with `edulint.toml` right beside the linted file, it is not found. -/
theorem C13_counterexample : ¬ C13_claim := by
  intro h
  obtain ⟨i, n, hs, _⟩ := h [["edulint.toml".toList]]
    ⟨0, "edulint.toml".toList, ⟨_, rfl, by simp⟩, .inl rfl, by omega⟩
  rw [C13_never_found] at hs
  cases hs

/-- **C13**, the part that holds: if there is no such file anywhere, none is reported. Missing: everything
about the case where there is one. -/
theorem C13_absent_partial (dirs : List (List Str)) (_h : ¬ ∃ i name, NearestImplicit dirs i name) :
    searchParents dirs = none := C13_never_found dirs

example : ¬ ∃ i name, NearestImplicit [["a.py".toList]] i name := by
  rintro ⟨i, name, ⟨dir, hd, hm⟩, hn, _⟩
  cases i with
  | zero =>
    simp at hd; subst hd; simp at hm; subst hm
    revert hn; decide
  | succ i => simp at hd

/-! ### C10 Configuration file chains -/

/-- The chain of a configuration file, base first: it starts with the packaged empty configuration, and
every file names the one before it as its base. -/
inductive RefChain (env : Env) : Str → List (Str × Dict Str Toml) → Prop
  | base {d} : env.load baseConfigName = some d → RefChain env baseConfigName [(baseConfigName, d)]
  | step {p d q rest} : p ≠ baseConfigName → env.load p = some d → baseReference env p d = .ok q →
      RefChain env q rest → RefChain env p (rest ++ [(p, d)])

/-- C10, termination: some recursion depth suffices. -/
def C10_claim : Prop :=
  ∀ env path, ∃ fuel, parseConfigFile env fuel path ≠ .error .recursionError

/-- A file system with one configuration file, which names itself as its base. -/
def selfEnv : Env where
  shlex := fun _ => .ok []
  load := fun p => if p = "/a.toml".toList then some [("config-file".toList, .str "/a.toml".toList)] else none
  isDir := fun _ => false
  absJoin := fun f _ => f
  stem := id
  parents := fun _ => []

/-- Reading never ends when every file of an endless sequence names the next one as its base. -/
theorem C10_cycle_diverges (env : Env) (p : Nat → Str)
    (h : ∀ i, p i ≠ baseConfigName ∧ ∃ d, env.load (p i) = some d ∧ baseReference env (p i) d = .ok (p (i + 1))) :
    ∀ fuel i, parseConfigFile env fuel (p i) = .error .recursionError := by
  intro fuel
  induction fuel with
  | zero => intro i; rfl
  | succ fuel ih =>
    intro i
    obtain ⟨hne, d, hl, hr⟩ := h i
    simp only [parseConfigFile, hl, if_pos hne, hr, ih]

/-- **C10** is false: a file naming itself as its base exhausts every recursion limit. -/
theorem C10_counterexample : ¬ C10_claim := by
  intro h
  obtain ⟨fuel, hf⟩ := h selfEnv "/a.toml".toList
  apply hf
  refine C10_cycle_diverges selfEnv (fun _ => "/a.toml".toList) (fun _ => ?_) fuel 0
  exact ⟨by decide, _, rfl, by rfl⟩

theorem RefChain.det {env p l m} (h : RefChain env p l) (h' : RefChain env p m) : l = m := by
  induction h generalizing m with
  | base hd =>
    cases h' with
    | base hd' => rw [hd] at hd'; cases hd'; rfl
    | step hne _ _ _ => exact absurd rfl hne
  | step hne hd hr _ ih =>
    cases h' with
    | base _ => exact absurd rfl hne
    | step _ hd' hr' hc =>
      rw [hd] at hd'; cases hd'
      rw [hr] at hr'; cases hr'
      rw [ih hc]

theorem RefChain.prefix {env p l} (h : RefChain env p l) :
    ∀ x ∈ l, ∃ m, RefChain env x.1 m ∧ m.length ≤ l.length := by
  induction h with
  | base hd => intro x hx; simp at hx; subst hx; exact ⟨_, .base hd, by simp⟩
  | @step p d q rest hne hd hr hc ih =>
    intro x hx
    rcases List.mem_append.1 hx with hx | hx
    · obtain ⟨m, hm, hl⟩ := ih x hx
      exact ⟨m, hm, by simp; omega⟩
    · simp at hx; subst hx
      exact ⟨_, .step hne hd hr hc, by simp⟩

/-- **C10** (exactly once). No file occurs twice in a chain. -/
theorem C10_each_once {env p l} (h : RefChain env p l) : (l.map (·.1)).Nodup := by
  induction h with
  | base _ => simp
  | @step p d q rest hne hd hr hc ih =>
    rw [List.map_append, List.nodup_append]
    refine ⟨ih, by simp, ?_⟩
    intro a ha b hb hab
    simp at hb
    obtain ⟨x, hx, rfl⟩ := List.mem_map.1 ha
    obtain ⟨m, hm, hl⟩ := hc.prefix x hx
    rw [hab, hb] at hm
    have := (RefChain.step hne hd hr hc).det hm
    subst this
    rw [List.length_append, List.length_singleton] at hl
    omega

/-- Reading the files of a chain, base first, each once. -/
def readChain (env : Env) (files : List (Str × Dict Str Toml)) : Except PyErr FileConfig :=
  match mkConfig none [] with
  | .error e => .error e
  | .ok c => files.foldlM (fun base f => extendBase env f.1 f.2 base) (c, [], [])

theorem readChain_snoc (env files f) :
    readChain env (files ++ [f]) =
      match readChain env files with
      | .error e => .error e
      | .ok base => extendBase env f.1 f.2 base := by
  unfold readChain
  cases mkConfig none [] with
  | error e => rfl
  | ok c =>
    simp only [List.foldlM_append]
    cases hb : List.foldlM (fun base f => extendBase env f.1 f.2 base) (c, [], []) files with
    | error e => rfl
    | ok b =>
      show (List.foldlM (fun base f => extendBase env f.1 f.2 base) b [f] : Except PyErr FileConfig) = _
      simp only [List.foldlM_cons, List.foldlM_nil]
      cases extendBase env f.1 f.2 b <;> rfl

/-- **C10**, for references that end: reading terminates once the recursion limit is the length of the chain,
and what is read is every file of the chain exactly once, the base before the file extending it. Missing: the
reference graphs with cycles, on which it is false. -/
theorem C10_chain_partial {env p files} (h : RefChain env p files) (fuel : Nat) (hf : files.length ≤ fuel) :
    parseConfigFile env fuel p =
      match readChain env files with
      | .error e => .error e
      | .ok r => .ok (some r) := by
  induction h generalizing fuel with
  | @base d hd =>
    cases fuel with
    | zero => simp at hf
    | succ fuel =>
      obtain ⟨c, hc, _⟩ := mkConfig_spec none []
      have hr := readChain_snoc env [] (baseConfigName, d)
      have h0 : readChain env [] = .ok (c, [], []) := by unfold readChain; rw [hc]; rfl
      rw [h0] at hr
      simp only [List.nil_append] at hr
      rw [hr]
      simp only [parseConfigFile, hd, ne_eq, not_true_eq_false, if_false, hc]
      cases extendBase env baseConfigName d (c, [], []) <;> rfl
  | @step p d q rest hne hd hr hc ih =>
    cases fuel with
    | zero => simp at hf
    | succ fuel =>
      simp only [List.length_append, List.length_singleton] at hf
      have hi := ih fuel (by omega)
      rw [readChain_snoc]
      simp only [parseConfigFile, hd, if_pos hne, hr, hi]
      cases readChain env rest with
      | error e => rfl
      | ok b => cases extendBase env p d b <;> rfl

/-- **C10**, converse: whenever a configuration is returned, there is a chain it was read from. -/
theorem C10_only_chains {env : Env} {fuel : Nat} {p : Str} {r : FileConfig}
    (h : parseConfigFile env fuel p = .ok (some r)) :
    ∃ files, RefChain env p files ∧ files.length ≤ fuel ∧ readChain env files = .ok r := by
  induction fuel generalizing p r with
  | zero => cases h
  | succ fuel ih =>
    have hlen : ∀ files, RefChain env p files → files.length ≤ fuel + 1 → readChain env files = .ok r := by
      intro files hc hl
      have := C10_chain_partial hc (fuel + 1) hl
      rw [h] at this
      cases hr : readChain env files with
      | error e => rw [hr] at this; cases this
      | ok r' => rw [hr] at this; cases this; rfl
    cases hd : env.load p with
    | none => simp [parseConfigFile, hd] at h
    | some d =>
      by_cases hp : p = baseConfigName
      · subst hp
        exact ⟨_, .base hd, by simp, hlen _ (.base hd) (by simp)⟩
      · cases hb : baseReference env p d with
        | error e => simp [parseConfigFile, hd, hp, hb] at h
        | ok q =>
          cases hq : parseConfigFile env fuel q with
          | error e => simp [parseConfigFile, hd, hp, hb, hq] at h
          | ok o =>
            cases o with
            | none => simp [parseConfigFile, hd, hp, hb, hq] at h
            | some b =>
              obtain ⟨files, hc, hl, _⟩ := ih hq
              have hc' := RefChain.step hp hd hb hc
              exact ⟨_, hc', by simp; omega, hlen _ hc' (by simp; omega)⟩

theorem chainConfig_snoc (layers l) :
    chainConfig (layers ++ [l]) =
      match chainConfig layers with
      | .error e => .error e
      | .ok base =>
        match mkConfig (some l.1) l.2 with
        | .error e => .error e
        | .ok this => Config.combine base this := by
  unfold chainConfig
  cases mkConfig none [] with
  | error e => rfl
  | ok c =>
    simp only [List.foldlM_append]
    generalize hb : (List.foldlM (fun base (f : Str × List RawArg) =>
      match mkConfig (some f.1) f.2 with
      | .error e => .error e
      | .ok this => Config.combine base this) c layers : Except PyErr Config) = r
    cases r with
    | error e => rfl
    | ok b =>
      show (List.foldlM (fun base (f : Str × List RawArg) =>
        match mkConfig (some f.1) f.2 with
        | .error e => .error e
        | .ok this => Config.combine base this) b [l] : Except PyErr Config) = _
      simp only [List.foldlM_cons, List.foldlM_nil]
      cases mkConfig (some l.1) l.2 with
      | error e => rfl
      | ok t => simp only; cases Config.combine b t <;> rfl

/-- The options written in a configuration file, with the name they are remembered under. -/
def FileLayer (env : Env) (f : Str × Dict Str Toml) (l : Str × List RawArg) : Prop :=
  l.1 = enablerName env f.1 f.2 ∧
    ∃ parts, fileEntries env f.1 f.2 ⟨[], some [], some []⟩ = .ok parts ∧ l.2 = parts.args

/-- **C10** (order of contributions). The configuration read from a chain is the layering, base first, of the
options written in its files; C01 – C03 therefore apply to it. -/
theorem C10_layers (env : Env) (files r) (h : readChain env files = .ok r) :
    ∃ layers, List.Forall₂ (FileLayer env) files layers ∧ chainConfig layers = .ok r.1 := by
  induction files using List.reverseRecOn generalizing r with
  | nil =>
    obtain ⟨c, hc, _⟩ := mkConfig_spec none []
    unfold readChain at h
    rw [hc] at h
    cases h
    exact ⟨[], .nil, by unfold chainConfig; rw [hc]; rfl⟩
  | append_singleton files f ih =>
    rw [readChain_snoc] at h
    cases hb : readChain env files with
    | error e => rw [hb] at h; cases h
    | ok base =>
      rw [hb] at h
      obtain ⟨layers, h1, h2⟩ := ih _ hb
      simp only at h
      unfold extendBase at h
      cases hp : fileEntries env f.1 f.2 ⟨[], some [], some []⟩ with
      | error e => rw [hp] at h; cases h
      | ok parts =>
        rw [hp] at h
        simp only at h
        refine ⟨layers ++ [(enablerName env f.1 f.2, parts.args)],
          List.rel_append h1 (.cons ⟨rfl, parts, hp, rfl⟩ .nil), ?_⟩
        rw [chainConfig_snoc, h2]
        simp only
        cases hm : mkConfig (some (enablerName env f.1 f.2)) parts.args with
        | error e => rw [hm] at h; cases h
        | ok this =>
          rw [hm] at h
          simp only at h ⊢
          cases hc : Config.combine base.1 this with
          | error e => rw [hc] at h; cases h
          | ok c =>
            rw [hc] at h
            simp only at h
            cases hs : mergeOrFail base.2.1 parts.sets with
            | error e => rw [hs] at h; cases h
            | ok sets =>
              rw [hs] at h
              simp only at h
              cases hl : mergeOrFail base.2.2 parts.lang with
              | error e => rw [hl] at h; cases h
              | ok lang => rw [hl] at h; cases h; rfl

/-- A packaged `empty`, and `/b.toml` built on it through `/a.toml`. -/
def twoEnv : Env where
  shlex := fun _ => .ok []
  load := fun p =>
    if p = "empty".toList then some []
    else if p = "/a.toml".toList then some [("pylint".toList, .str "--disable=all".toList)]
    else if p = "/b.toml".toList then
      some [("config-file".toList, .str "/a.toml".toList), ("pylint".toList, .table [("enable".toList, .str "x".toList)])]
    else none
  isDir := fun _ => false
  absJoin := fun f _ => f
  stem := id
  parents := fun _ => []

example : ∃ files, RefChain twoEnv "/b.toml".toList files ∧
    files.map (·.1) = ["empty".toList, "/a.toml".toList, "/b.toml".toList] :=
  ⟨_, .step (by decide) rfl (q := "/a.toml".toList) rfl
    (.step (by decide) rfl (q := "empty".toList) rfl (.base rfl)), by decide⟩

end Verif

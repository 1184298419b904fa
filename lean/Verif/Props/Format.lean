import Verif.Props.Translate

/-!
What `str.format` does with the places of a translation (C24), by the documentation of format strings: `{}` stands for the next argument, `{i}` for the argument with the
number, `{{` and `}}` for braces.
-/

namespace Verif

/-- A part of a template -/
inductive FmtPiece where
  | text (s : Str)
  | next
  | place (digits : Str) (i : Nat)

/-- Text as it is written in a template -/
def escaped (s : Str) : Str := s.flatMap fun c => if c = '{' then ['{', '{'] else if c = '}' then ['}', '}'] else [c]

/-- How parts are written -/
def FmtPiece.written : FmtPiece → Str
  | .text s => escaped s
  | .next => ['{', '}']
  | .place digits _ => '{' :: digits ++ ['}']

/-- What parts without numbers stand for, where `args` are the arguments that are left; `none` if there are too few. -/
def filledNext : List FmtPiece → List Str → Option Str
  | [], _ => some []
  | .text s :: ps, args => (filledNext ps args).map (s ++ ·)
  | .next :: ps, a :: args => (filledNext ps args).map (a ++ ·)
  | .next :: _, [] => none
  | .place _ _ :: _, _ => none

/-- What parts with numbers stand for; `none` if there is no argument with one of the numbers. -/
def filledAt (args : List Str) : List FmtPiece → Option Str
  | [] => some []
  | .text s :: ps => (filledAt args ps).map (s ++ ·)
  | .place digits i :: ps => if decimalValue? digits = some i then (args[i]?).bind fun a => (filledAt args ps).map (a ++ ·) else none
  | .next :: _ => none

theorem formatGo_escaped (args : List Str) (num : Numbering) (s rest r : Str) (h : formatGo args num .text rest = .ok r) :
    formatGo args num .text (escaped s ++ rest) = .ok (s ++ r) := by
  induction s with
  | nil => exact h
  | cons c s ih =>
    by_cases h1 : c = '{'
    · subst h1
      have : escaped ('{' :: s) ++ rest = '{' :: '{' :: (escaped s ++ rest) := rfl
      rw [this]
      simp [formatGo, ih]
    · by_cases h2 : c = '}'
      · subst h2
        have : escaped ('}' :: s) ++ rest = '}' :: '}' :: (escaped s ++ rest) := rfl
        rw [this]
        simp [formatGo, ih]
      · have : escaped (c :: s) ++ rest = c :: (escaped s ++ rest) := by simp [escaped, h1, h2]
        rw [this]
        simp [formatGo, ih, h1, h2]

/-- The formatter has used this many arguments. -/
def Numbering.Used (n : Nat) : Numbering → Prop
  | .unknown => n = 0
  | .auto k => n = k
  | .manual => False

theorem formatGo_next (args : List Str) (ps : List FmtPiece) (n : Nat) (num : Numbering) (hn : num.Used n) (r : Str)
    (h : filledNext ps (args.drop n) = some r) : formatGo args num .text (ps.flatMap FmtPiece.written) = .ok r := by
  induction ps generalizing n num r with
  | nil => simp only [filledNext, Option.some.injEq] at h; subst h; rfl
  | cons p ps ih =>
    rw [List.flatMap_cons]
    cases p with
    | text s =>
      simp only [filledNext, Option.map_eq_some_iff] at h
      obtain ⟨r', h, rfl⟩ := h
      exact formatGo_escaped _ _ _ _ _ (ih n num hn r' h)
    | place _ _ => exact nomatch h
    | next =>
      cases hd : args.drop n with
      | nil => rw [hd] at h; exact nomatch h
      | cons a as =>
        rw [hd] at h
        simp only [filledNext, Option.map_eq_some_iff] at h
        obtain ⟨r', h, rfl⟩ := h
        have ha : args[n]? = some a := by
          have := congrArg (·[0]?) hd
          simpa using this
        have has : args.drop (n + 1) = as := by
          have := congrArg (List.drop 1) hd
          simpa [Nat.add_comm] using this
        have := ih (n + 1) (.auto (n + 1)) rfl r' (by rw [has]; exact h)
        cases num with
        | manual => exact hn.elim
        | unknown =>
          simp only [Numbering.Used] at hn
          subst hn
          simp [FmtPiece.written, formatGo, fmtField, ha, this]
        | auto k =>
          simp only [Numbering.Used] at hn
          subst hn
          simp [FmtPiece.written, formatGo, fmtField, ha, this]

/-- **C24** Places without numbers stand for the arguments in order. -/
theorem C24_format_next (args : List Str) (ps : List FmtPiece) (r : Str) (h : filledNext ps args = some r) :
    pyFormat (ps.flatMap FmtPiece.written) args = .ok r := formatGo_next args ps 0 .unknown rfl r h

theorem formatGo_field (args : List Str) (num : Numbering) (acc f rest : Str) (hf : ∀ c ∈ f, c ≠ '}') :
    formatGo args num (.field acc) (f ++ '}' :: rest) = formatGo args num (.field (f.reverse ++ acc)) ('}' :: rest) := by
  induction f generalizing acc with
  | nil => rfl
  | cons c f ih =>
    have hc := hf c List.mem_cons_self
    rw [List.cons_append, formatGo, if_neg hc, ih _ (fun d hd => hf d (List.mem_cons_of_mem _ hd))]
    simp

theorem formatGo_at (args : List Str) (ps : List FmtPiece) (num : Numbering) (hn : ∀ n, num ≠ .auto n) (r : Str)
    (h : filledAt args ps = some r) : formatGo args num .text (ps.flatMap FmtPiece.written) = .ok r := by
  induction ps generalizing num r with
  | nil => simp only [filledAt, Option.some.injEq] at h; subst h; rfl
  | cons p ps ih =>
    rw [List.flatMap_cons]
    cases p with
    | text s =>
      simp only [filledAt, Option.map_eq_some_iff] at h
      obtain ⟨r', h, rfl⟩ := h
      exact formatGo_escaped _ _ _ _ _ (ih num hn r' h)
    | next => exact nomatch h
    | place digits i =>
      simp only [filledAt] at h
      by_cases hd : decimalValue? digits = some i
      · rw [if_pos hd] at h
        simp only [Option.bind_eq_some_iff, Option.map_eq_some_iff] at h
        obtain ⟨a, ha, r', h, rfl⟩ := h
        have hr := ih .manual (fun _ h => nomatch h) r' h
        have hdig : digits ≠ [] ∧ digits.all Char.isDigit := by
          by_contra hc
          rw [decimalValue?, if_neg hc] at hd
          exact nomatch hd
        obtain ⟨hne, hall⟩ := hdig
        have hb : ∀ c ∈ digits, c ≠ '}' ∧ c ≠ '{' := by
          intro c hc
          have := List.all_eq_true.1 hall c hc
          constructor <;> (rintro rfl; revert this; decide)
        cases digits with
        | nil => exact absurd rfl hne
        | cons c f =>
          have hc := hb c List.mem_cons_self
          have e : FmtPiece.written (.place (c :: f) i) ++ ps.flatMap FmtPiece.written = '{' :: c :: (f ++ '}' :: ps.flatMap FmtPiece.written) := by
            simp [FmtPiece.written]
          rw [e]
          have e1 : formatGo args num .text ('{' :: c :: (f ++ '}' :: ps.flatMap FmtPiece.written)) =
              formatGo args num (.field [c]) (f ++ '}' :: ps.flatMap FmtPiece.written) := by
            simp [formatGo, hc.1, hc.2]
          rw [e1, formatGo_field _ _ _ _ _ (fun d hd => (hb d (List.mem_cons_of_mem _ hd)).1)]
          have e2 : (f.reverse ++ [c]).reverse = c :: f := by simp
          have e3 : fmtField args num (c :: f) = .ok (a, .manual) := by
            unfold fmtField
            rw [if_neg (by simp), hd]
            cases num with
            | auto n => exact absurd rfl (hn n)
            | unknown => simp [ha]
            | manual => simp [ha]
          rw [formatGo, if_pos rfl, e2, e3]
          simp only [hr]
      · rw [if_neg hd] at h
        exact nomatch h

/-- **C24** Places with numbers stand for the arguments with these numbers. -/
theorem C24_format_at (args : List Str) (ps : List FmtPiece) (r : Str) (h : filledAt args ps = some r) :
    pyFormat (ps.flatMap FmtPiece.written) args = .ok r := formatGo_at args ps .unknown (fun _ h => nomatch h) r h

example : [FmtPiece.text ['a'], .next, .text ['{'], .next].flatMap FmtPiece.written = "a{}{{{}".toList ∧
    filledNext [.text ['a'], .next, .text ['{'], .next] [['x'], ['y'], ['z']] = some "ax{y".toList ∧
    filledNext [.next, .next] [['x']] = none := by decide +kernel

example : [FmtPiece.place ['1'] 1, .text ['}'], .place ['0'] 0].flatMap FmtPiece.written = "{1}}}{0}".toList ∧
    filledAt [['x'], ['y']] [.place ['1'] 1, .text ['}'], .place ['0'] 0] = some "y}x".toList ∧
    filledAt [['x']] [.place ['1'] 1] = none := by decide +kernel

example : pyFormat "{}{0}".toList [['x']] = .error .valueError ∧ pyFormat "{0}{}".toList [['x']] = .error .valueError ∧
    pyFormat "{".toList [] = .error .valueError ∧ pyFormat "}".toList [] = .error .valueError ∧ pyFormat "{x}".toList [] = .error .keyError := by decide +kernel

end Verif

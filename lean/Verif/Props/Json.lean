import Verif.Model.Json
import Mathlib.Data.List.Forall2

/-!
C141: what is printed with `--json` is JSON from which everything can be read back.

The reader below follows the grammar of JSON (RFC 8259), for numbers that are whole; it is used only in statements.
-/

namespace Verif

namespace Json

/-! ### Reading JSON -/

/-- The value of a hexadecimal digit. -/
def hexVal (c : Char) : Option Nat :=
  if 48 ≤ c.toNat ∧ c.toNat ≤ 57 then some (c.toNat - 48)
  else if 97 ≤ c.toNat ∧ c.toNat ≤ 102 then some (c.toNat - 87)
  else if 65 ≤ c.toNat ∧ c.toNat ≤ 70 then some (c.toNat - 55)
  else none

/-- What a character stands for after a backslash. -/
def escaped (c : Char) : Option Nat :=
  if c = '"' then some 34 else if c = '\\' then some 92 else if c = '/' then some 47
  else if c = 'b' then some 8 else if c = 'f' then some 12 else if c = 'n' then some 10
  else if c = 'r' then some 13 else if c = 't' then some 9 else none

/-- The code units of a string up to the quote that ends it, and what comes after. -/
def readUnits : Str → Option (List Nat × Str)
  | [] => none
  | c :: rest =>
    if c = '"' then some ([], rest)
    else if c = '\\' then
      match rest with
      | [] => none
      | e :: rest =>
        if e = 'u' then
          match rest with
          | h1 :: h2 :: h3 :: h4 :: rest =>
            match hexVal h1, hexVal h2, hexVal h3, hexVal h4 with
            | some a, some b, some c, some d =>
              (readUnits rest).map fun r => ((a * 4096 + b * 256 + c * 16 + d) :: r.1, r.2)
            | _, _, _, _ => none
          | _ => none
        else
          match escaped e with
          | none => none
          | some n => (readUnits rest).map fun r => (n :: r.1, r.2)
    else if c.toNat < 32 then none
    else (readUnits rest).map fun r => (c.toNat :: r.1, r.2)

/-- Characters from code units: two surrogates are one character. -/
def joinUnits : List Nat → Option Str
  | [] => some []
  | n :: rest =>
    if 55296 ≤ n ∧ n < 56320 then
      match rest with
      | [] => none
      | m :: rest =>
        if 56320 ≤ m ∧ m < 57344 then
          (joinUnits rest).map (Char.ofNat (65536 + (n - 55296) * 1024 + (m - 56320)) :: ·)
        else none
    else if n.isValidChar then (joinUnits rest).map (Char.ofNat n :: ·)
    else none

/-- A string after its first quote. -/
def readStr (s : Str) : Option (Str × Str) :=
  match readUnits s with
  | none => none
  | some (units, rest) => (joinUnits units).map fun t => (t, rest)

/-- Blank characters between tokens. -/
def isWs (c : Char) : Bool := c = ' ' || c = '\n' || c = '\r' || c = '\t'

@[inherit_doc isWs] def skipWs (s : Str) : Str := s.dropWhile isWs

/-- One of the three words. -/
def readLit (lit : Str) (v : Json) (s : Str) : Option (Json × Str) :=
  if lit.isPrefixOf s then some (v, s.drop lit.length) else none

/-- A whole number that is not negative, without zeros in front. -/
def readNat (s : Str) : Option (Nat × Str) :=
  let ds := s.takeWhile Char.isDigit
  if ds = [] ∨ (ds.head? = some '0' ∧ ds.length ≠ 1) then none
  else some (Nat.ofDigitChars 10 ds 0, s.dropWhile Char.isDigit)

/-- A whole number. -/
def readNum : Str → Option (Int × Str)
  | '-' :: s => (readNat s).map fun r => (-(r.1 : Int), r.2)
  | s => (readNat s).map fun r => ((r.1 : Int), r.2)

mutual
/-- A value and what comes after it; `fuel` bounds the depth of the recursion. -/
def readValue : Nat → Str → Option (Json × Str)
  | 0, _ => none
  | fuel + 1, s =>
    match skipWs s with
    | [] => none
    | c :: rest =>
      if c = '"' then (readStr rest).map fun r => (.str r.1, r.2)
      else if c = '[' then
        if (skipWs rest).head? = some ']' then some (.arr [], (skipWs rest).tail)
        else (readElems fuel rest).map fun r => (.arr r.1, r.2)
      else if c = '{' then
        if (skipWs rest).head? = some '}' then some (.obj [], (skipWs rest).tail)
        else (readFields fuel rest).map fun r => (.obj r.1, r.2)
      else if c = 't' then readLit "true".toList (.bool true) (c :: rest)
      else if c = 'f' then readLit "false".toList (.bool false) (c :: rest)
      else if c = 'n' then readLit "null".toList .null (c :: rest)
      else (readNum (c :: rest)).map fun r => (.num r.1, r.2)
/-- The elements of an array that is not empty, with the bracket that ends it. -/
def readElems : Nat → Str → Option (List Json × Str)
  | 0, _ => none
  | fuel + 1, s =>
    match readValue fuel s with
    | none => none
    | some (v, rest) =>
      match skipWs rest with
      | [] => none
      | c :: rest =>
        if c = ',' then (readElems fuel rest).map fun r => (v :: r.1, r.2)
        else if c = ']' then some ([v], rest)
        else none
/-- The members of an object that is not empty, with the brace that ends it. -/
def readFields : Nat → Str → Option (List (Str × Json) × Str)
  | 0, _ => none
  | fuel + 1, s =>
    match skipWs s with
    | [] => none
    | q :: rest =>
      if q = '"' then
        match readStr rest with
        | none => none
        | some (k, rest) =>
          match skipWs rest with
          | [] => none
          | c :: rest =>
            if c = ':' then
              match readValue fuel rest with
              | none => none
              | some (v, rest) =>
                match skipWs rest with
                | [] => none
                | c :: rest =>
                  if c = ',' then (readFields fuel rest).map fun r => ((k, v) :: r.1, r.2)
                  else if c = '}' then some ([(k, v)], rest)
                  else none
            else none
      else none
end

/-- The value that a text is the JSON of, if it is JSON. -/
def read (s : Str) : Option Json :=
  match readValue (s.length + 1) s with
  | none => none
  | some (v, rest) => if skipWs rest = [] then some v else none

/-! ### Strings -/

/-- The code units of a character. -/
def unitsOf (c : Char) : List Nat :=
  if c.toNat < 65536 then [c.toNat] else [55296 + (c.toNat - 65536) / 1024, 56320 + (c.toNat - 65536) % 1024]

theorem hexVal_hexDigit (n : Nat) (h : n < 16) : hexVal (hexDigit n) = some n := by
  have : ∀ m : Fin 16, hexVal (hexDigit m) = some m.1 := by decide
  exact this ⟨n, h⟩

theorem readUnits_escUnit (n : Nat) (h : n < 65536) (rest : Str) :
    readUnits (escUnit n ++ rest) = (readUnits rest).map fun r => (n :: r.1, r.2) := by
  have e : n / 4096 % 16 * 4096 + n / 256 % 16 * 256 + n / 16 % 16 * 16 + n % 16 = n := by omega
  simp [escUnit, readUnits, hexVal_hexDigit, Nat.mod_lt, e]

theorem readUnits_escaped (e : Char) (n : Nat) (rest : Str) (he : e ≠ 'u') (hn : escaped e = some n) :
    readUnits ('\\' :: e :: rest) = (readUnits rest).map fun r => (n :: r.1, r.2) := by
  rw [readUnits.eq_def]
  simp [he, hn]

theorem readUnits_plain (c : Char) (rest : Str) (hq : c ≠ '"') (hb : c ≠ '\\') (h : 32 ≤ c.toNat) :
    readUnits (c :: rest) = (readUnits rest).map fun r => (c.toNat :: r.1, r.2) := by
  rw [readUnits.eq_def]
  have : ¬ c.toNat < 32 := by omega
  simp [hq, hb, this]

theorem readUnits_escChar (c : Char) (rest : Str) :
    readUnits (escChar c ++ rest) = (readUnits rest).map fun r => (unitsOf c ++ r.1, r.2) := by
  have hlt : c.toNat < 1114112 := by
    have := c.valid
    rcases this with h | h
    · have : c.toNat < 0xd800 := h
      omega
    · exact h.2
  unfold escChar
  split
  · next h => subst h; exact readUnits_escaped '"' 34 rest (by decide) rfl
  split
  · next h => subst h; exact readUnits_escaped '\\' 92 rest (by decide) rfl
  split
  · next h => simpa [unitsOf, h] using readUnits_escaped 'n' 10 rest (by decide) rfl
  split
  · next h => simpa [unitsOf, h] using readUnits_escaped 'r' 13 rest (by decide) rfl
  split
  · next h => simpa [unitsOf, h] using readUnits_escaped 't' 9 rest (by decide) rfl
  split
  · next h => simpa [unitsOf, h] using readUnits_escaped 'f' 12 rest (by decide) rfl
  split
  · next h => simpa [unitsOf, h] using readUnits_escaped 'b' 8 rest (by decide) rfl
  split
  · next hq hb _ _ _ _ _ h =>
    have h2 : c.toNat < 65536 := by omega
    simpa [unitsOf, h2] using readUnits_plain c rest hq hb (by omega)
  split
  · next h =>
    rw [readUnits_escUnit _ h]
    simp [unitsOf, h]
  · next h =>
    rw [List.append_assoc, readUnits_escUnit _ (by omega), readUnits_escUnit _ (by omega)]
    simp [unitsOf, h, Option.map_map, Function.comp_def]

theorem readUnits_flatMap (s : Str) (rest : Str) :
    readUnits (s.flatMap escChar ++ '"' :: rest) = some (s.flatMap unitsOf, rest) := by
  induction s with
  | nil =>
    rw [readUnits.eq_def]
    simp
  | cons c s ih => simp [List.append_assoc, readUnits_escChar, ih]

theorem joinUnits_unitsOf (c : Char) (rest : List Nat) :
    joinUnits (unitsOf c ++ rest) = (joinUnits rest).map (c :: ·) := by
  have hv : c.toNat.isValidChar := c.valid
  have hv' := hv
  unfold Nat.isValidChar at hv'
  unfold unitsOf
  split
  · next h =>
    have h1 : ¬ (55296 ≤ c.toNat ∧ c.toNat < 56320) := by omega
    rw [List.singleton_append, joinUnits.eq_def]
    simp only [h1, if_false, hv, if_true, Char.ofNat_toNat]
  · next h =>
    have h1 : 55296 ≤ 55296 + (c.toNat - 65536) / 1024 ∧ 55296 + (c.toNat - 65536) / 1024 < 56320 := by omega
    have h2 : 56320 ≤ 56320 + (c.toNat - 65536) % 1024 ∧ 56320 + (c.toNat - 65536) % 1024 < 57344 := by omega
    have h3 : 65536 + (55296 + (c.toNat - 65536) / 1024 - 55296) * 1024 + (56320 + (c.toNat - 65536) % 1024 - 56320) = c.toNat := by
      omega
    simp only [List.cons_append, List.nil_append]
    rw [joinUnits.eq_def]
    simp only [h1, h2, and_self, if_true, h3, Char.ofNat_toNat]

theorem joinUnits_flatMap (s : Str) : joinUnits (s.flatMap unitsOf) = some s := by
  induction s with
  | nil => rfl
  | cons c s ih => simp [joinUnits_unitsOf, ih]

theorem readStr_dump (s rest : Str) : readStr (s.flatMap escChar ++ '"' :: rest) = some (s, rest) := by
  simp [readStr, readUnits_flatMap, joinUnits_flatMap]

/-! ### Numbers -/

/-- What comes next is not a digit. -/
def Ends (rest : Str) : Prop := ∀ c, rest.head? = some c → c.isDigit = false

theorem toDigits_head (n : Nat) : (Nat.toDigits 10 n).head? = some '0' → (Nat.toDigits 10 n).length = 1 := by
  induction n using Nat.strongRecOn with
  | ind n ih =>
    by_cases h : n < 10
    · rw [Nat.toDigits_of_lt_base h]
      simp
    · rw [Nat.toDigits_of_base_le (by omega) (by omega)]
      intro hh
      have hpos := @Nat.length_toDigits_pos 10 (n / 10)
      have hne : Nat.toDigits 10 (n / 10) ≠ [] := by
        intro e
        simp [e] at hpos
      rw [List.head?_append, List.head?_eq_some_head hne, Option.some_or, ← List.head?_eq_some_head hne] at hh
      have hl := ih (n / 10) (by omega) hh
      by_cases h2 : n / 10 < 10
      · rw [Nat.toDigits_of_lt_base h2] at hh
        simp at hh
        have h3 : n / 10 ≠ 0 := by omega
        have : ∀ m : Fin 10, m.1 ≠ 0 → m.1.digitChar ≠ '0' := by decide
        omega
      · rw [Nat.toDigits_of_base_le (by omega) (by omega)] at hl
        have := @Nat.length_toDigits_pos 10 (n / 10 / 10)
        simp at hl

theorem takeWhile_digits (ds rest : Str) (hd : ∀ c ∈ ds, c.isDigit = true) (hr : Ends rest) :
    (ds ++ rest).takeWhile Char.isDigit = ds ∧ (ds ++ rest).dropWhile Char.isDigit = rest := by
  induction ds with
  | nil =>
    cases rest with
    | nil => simp
    | cons c rest =>
      have := hr c rfl
      simp [this]
  | cons d ds ih =>
    have h1 := hd d (by simp)
    have h2 := ih fun c hc => hd c (by simp [hc])
    simp [h1, h2]

theorem readNat_digits (n : Nat) (rest : Str) (hr : Ends rest) : readNat (Nat.toDigits 10 n ++ rest) = some (n, rest) := by
  have hd : ∀ c ∈ Nat.toDigits 10 n, c.isDigit = true := fun c hc =>
    Nat.isDigit_of_mem_toDigits (by omega) (by omega) hc
  have hw := takeWhile_digits _ rest hd hr
  have hpos := @Nat.length_toDigits_pos 10 n
  have hne : Nat.toDigits 10 n ≠ [] := by
    intro e
    simp [e] at hpos
  have hh : ¬ ((Nat.toDigits 10 n).head? = some '0' ∧ (Nat.toDigits 10 n).length ≠ 1) :=
    fun h => h.2 (toDigits_head n h.1)
  unfold readNat
  simp only [hw.1, hw.2, hne, hh, or_self, if_false, Nat.ofDigitChars_toDigits (by omega : 1 < 10) (by omega)]

theorem intStr_ofNat (n : Nat) : intStr (Int.ofNat n) = Nat.toDigits 10 n := by
  show (Nat.repr n).toList = _
  exact Nat.toList_repr

theorem intStr_negSucc (n : Nat) : intStr (Int.negSucc n) = '-' :: Nat.toDigits 10 (n + 1) := by
  show ("-" ++ Nat.repr (n + 1)).toList = _
  rw [String.toList_append, Nat.toList_repr]
  rfl

theorem readNum_intStr (n : Int) (rest : Str) (hr : Ends rest) : readNum (intStr n ++ rest) = some (n, rest) := by
  cases n with
  | ofNat n =>
    rw [intStr_ofNat]
    have hpos := @Nat.length_toDigits_pos 10 n
    cases hds : Nat.toDigits 10 n with
    | nil => simp [hds] at hpos
    | cons d ds =>
      have hd : d.isDigit = true := Nat.isDigit_of_mem_toDigits (b := 10) (n := n) (by omega) (by omega) (by simp [hds])
      have hm : d ≠ '-' := by
        intro e
        subst e
        exact absurd hd (by decide)
      have := readNat_digits n rest hr
      rw [hds] at this
      rw [List.cons_append, readNum.eq_def]
      split
      · next h => exact absurd (List.cons.inj h).1 hm
      · rw [← List.cons_append, this]
        rfl
  | negSucc n =>
    rw [intStr_negSucc]
    simp [readNum, readNat_digits (n + 1) rest hr]
    omega

/-! ### Values -/

theorem skipWs_cons (w : Str) (hw : ∀ c ∈ w, isWs c = true) (c : Char) (hc : isWs c = false) (rest : Str) :
    skipWs (w ++ c :: rest) = c :: rest := by
  induction w with
  | nil => simp [skipWs, hc]
  | cons x w ih =>
    have h1 := hw x (by simp)
    have h2 := ih fun c hc => hw c (by simp [hc])
    simpa [skipWs, h1] using h2

theorem newline_ws (indent : Option Nat) (level : Nat) : ∀ c ∈ newline indent level, isWs c = true := by
  intro c hc
  unfold newline at hc
  split at hc
  · simp at hc
  · rcases List.mem_cons.1 hc with rfl | h
    · decide
    · rw [(List.mem_replicate.1 h).2]
      decide

/-- What is between two members is a comma and blanks. -/
theorem between_eq (indent : Option Nat) (level : Nat) : ∃ w, between indent level = ',' :: w ∧
    (∀ c ∈ w, isWs c = true) := by
  unfold between
  split
  · exact ⟨[' '], rfl, by simp [isWs]⟩
  · next n =>
    refine ⟨_, rfl, fun c hc => ?_⟩
    rcases List.mem_cons.1 hc with rfl | h
    · decide
    · rw [(List.mem_replicate.1 h).2]
      decide

theorem intStr_head (n : Int) : ∃ c t, intStr n = c :: t ∧ (c = '-' ∨ c.isDigit = true) := by
  cases n with
  | ofNat n =>
    rw [intStr_ofNat]
    have hpos := @Nat.length_toDigits_pos 10 n
    cases hds : Nat.toDigits 10 n with
    | nil => simp [hds] at hpos
    | cons d ds =>
      exact ⟨d, ds, rfl, .inr (Nat.isDigit_of_mem_toDigits (b := 10) (n := n) (by omega) (by omega) (by simp [hds]))⟩
  | negSucc n => exact ⟨'-', _, intStr_negSucc n, .inl rfl⟩

/-- Characters that start no number. -/
theorem not_number {c : Char} (h : c = '-' ∨ c.isDigit = true) : isWs c = false ∧ c ≠ '"' ∧ c ≠ '[' ∧ c ≠ '{' ∧ c ≠ 't' ∧
    c ≠ 'f' ∧ c ≠ 'n' ∧ c ≠ ']' ∧ c ≠ '}' := by
  have key : ∀ d : Char, (d = '-' ∨ d.isDigit = true) → ∀ x : Char, ¬ (x = '-' ∨ x.isDigit = true) → d ≠ x := by
    intro d hd x hx e
    exact hx (e ▸ hd)
  refine ⟨?_, key c h _ (by decide), key c h _ (by decide), key c h _ (by decide), key c h _ (by decide),
    key c h _ (by decide), key c h _ (by decide), key c h _ (by decide), key c h _ (by decide)⟩
  have h1 := key c h ' ' (by decide)
  have h2 := key c h '\n' (by decide)
  have h3 := key c h '\r' (by decide)
  have h4 := key c h '\t' (by decide)
  simp [isWs, h1, h2, h3, h4]

/-- A value starts with a character that is not blank and ends no array or object. -/
theorem dump_head (indent : Option Nat) (level : Nat) (j : Json) :
    ∃ c t, dump indent level j = c :: t ∧ isWs c = false ∧ c ≠ ']' ∧ c ≠ '}' := by
  cases j with
  | null => exact ⟨'n', "ull".toList, by simp [dump], by decide⟩
  | bool b => cases b with
    | true => exact ⟨'t', "rue".toList, by simp [dump], by decide⟩
    | false => exact ⟨'f', "alse".toList, by simp [dump], by decide⟩
  | num n =>
    obtain ⟨c, t, e, h⟩ := intStr_head n
    have := not_number h
    exact ⟨c, t, by simp [dump, e], this.1, this.2.2.2.2.2.2.2.1, this.2.2.2.2.2.2.2.2⟩
  | str s => exact ⟨'"', s.flatMap escChar ++ ['"'], by simp [dump, dumpStr], by decide⟩
  | arr l => cases l with
    | nil => exact ⟨'[', "]".toList, by simp [dump], by decide⟩
    | cons v vs => exact ⟨'[', _, by rw [dump]; simp only [List.cons_append]; rfl, by decide⟩
  | obj l => cases l with
    | nil => exact ⟨'{', "}".toList, by simp [dump], by decide⟩
    | cons f fs => exact ⟨'{', _, by rw [dump]; simp only [List.cons_append]; rfl, by decide⟩

theorem ends_of {c : Char} {rest : Str} (h : c.isDigit = false) : Ends (c :: rest) := by
  intro d hd
  simp at hd
  exact hd ▸ h

theorem ends_ws {w : Str} (hw : ∀ c ∈ w, isWs c = true) {c : Char} {rest : Str} (h : c.isDigit = false) :
    Ends (w ++ c :: rest) := by
  cases w with
  | nil => exact ends_of h
  | cons x w =>
    refine ends_of (rest := w ++ c :: rest) ?_
    have := hw x (by simp)
    simp [isWs] at this
    rcases this with ((rfl | rfl) | rfl) | rfl <;> decide

mutual
theorem readValue_dump (indent : Option Nat) (level : Nat) (j : Json) (w : Str) (hw : ∀ c ∈ w, isWs c = true)
    (rest : Str) (hr : Ends rest) (fuel : Nat) (hf : (dump indent level j).length ≤ fuel) :
    readValue fuel (w ++ (dump indent level j ++ rest)) = some (j, rest) := by
  obtain ⟨c, t, e, hc, -⟩ := dump_head indent level j
  cases fuel with
  | zero => simp [e] at hf
  | succ fuel =>
    have hs : skipWs (w ++ (dump indent level j ++ rest)) = dump indent level j ++ rest := by
      rw [e, List.cons_append]
      exact skipWs_cons w hw c hc _
    rw [readValue, hs]
    match j with
    | .null => simp [dump, readLit]
    | .bool true => simp [dump, readLit]
    | .bool false => simp [dump, readLit]
    | .num n =>
      obtain ⟨c, t, e, h⟩ := intStr_head n
      have hn := not_number h
      have hnum := readNum_intStr n rest hr
      rw [e, List.cons_append] at hnum
      simp [dump, e, hn, hnum]
    | .str s =>
      have := readStr_dump s rest
      simp [dump, dumpStr, this]
    | .arr [] => simp [dump, skipWs, isWs]
    | .arr (v :: vs) =>
      obtain ⟨c, t, e, hc, hb, -⟩ := dump_head indent (level + 1) v
      have hl := hf
      simp [dump] at hl
      have := readElems_dump indent (level + 1) v vs (newline indent (level + 1)) (newline_ws _ _)
        (newline indent level) (newline_ws _ _) rest fuel (by omega)
      have hh : (skipWs (newline indent (level + 1) ++ (dump indent (level + 1) v ++
          (dumpElems indent (level + 1) vs ++ (newline indent level ++ ']' :: rest))))).head? ≠ some ']' := by
        rw [e, List.cons_append, skipWs_cons _ (newline_ws _ _) c hc]
        simpa using hb
      simp [dump, hh, this]
    | .obj [] => simp [dump, skipWs, isWs]
    | .obj ((k, v) :: fs) =>
      have hl := hf
      simp [dump] at hl
      have := readFields_dump indent (level + 1) k v fs (newline indent (level + 1)) (newline_ws _ _)
        (newline indent level) (newline_ws _ _) rest fuel (by omega)
      have hh : (skipWs (newline indent (level + 1) ++ (dumpStr k ++ (':' :: ' ' :: (dump indent (level + 1) v ++
          (dumpFields indent (level + 1) fs ++ (newline indent level ++ '}' :: rest))))))).head? ≠ some '}' := by
        rw [dumpStr, List.cons_append, List.cons_append, skipWs_cons _ (newline_ws _ _) '"' (by decide)]
        simp
      simp [dump, hh, this]
termination_by fuel
theorem readElems_dump (indent : Option Nat) (level : Nat) (v : Json) (vs : List Json) (w : Str)
    (hw : ∀ c ∈ w, isWs c = true) (w' : Str) (hw' : ∀ c ∈ w', isWs c = true) (rest : Str) (fuel : Nat)
    (hf : (dump indent level v).length + (dumpElems indent level vs).length + 1 ≤ fuel) :
    readElems fuel (w ++ (dump indent level v ++ (dumpElems indent level vs ++ (w' ++ ']' :: rest)))) = some (v :: vs, rest) := by
  cases fuel with
  | zero => omega
  | succ fuel =>
    match vs with
    | [] =>
      have h1 := readValue_dump indent level v w hw (w' ++ ']' :: rest) (ends_ws hw' (by decide)) fuel (by omega)
      rw [readElems, dumpElems, List.nil_append, h1]
      simp [skipWs_cons w' hw' ']' (by decide)]
    | v' :: vs =>
      obtain ⟨x, ex, hx⟩ := between_eq indent level
      have hlen : (between indent level).length = x.length + 1 := by simp [ex]
      have hpos : 0 < (dump indent level v).length := by
        obtain ⟨c, t, e, -⟩ := dump_head indent level v
        simp [e]
      have hl := hf
      simp [dumpElems] at hl
      have h1 := readValue_dump indent level v w hw
        (',' :: (x ++ (dump indent level v' ++ (dumpElems indent level vs ++ (w' ++ ']' :: rest)))))
        (ends_of (by decide)) fuel (by omega)
      have h2 := readElems_dump indent level v' vs x hx w' hw' rest fuel (by omega)
      rw [readElems, dumpElems, ex]
      simp only [List.append_assoc, List.cons_append]
      rw [h1]
      simp [skipWs, isWs, h2]
termination_by fuel
theorem readFields_dump (indent : Option Nat) (level : Nat) (k : Str) (v : Json) (fs : List (Str × Json)) (w : Str)
    (hw : ∀ c ∈ w, isWs c = true) (w' : Str) (hw' : ∀ c ∈ w', isWs c = true) (rest : Str) (fuel : Nat)
    (hf : (dump indent level v).length + (dumpFields indent level fs).length + 1 ≤ fuel) :
    readFields fuel (w ++ (dumpStr k ++ (':' :: ' ' :: (dump indent level v ++ (dumpFields indent level fs ++ (w' ++ '}' :: rest)))))) =
      some ((k, v) :: fs, rest) := by
  cases fuel with
  | zero => omega
  | succ fuel =>
    have hk (r : Str) : skipWs (w ++ (dumpStr k ++ r)) = '"' :: (k.flatMap escChar ++ '"' :: r) := by
      rw [dumpStr, List.cons_append, List.cons_append, skipWs_cons w hw '"' (by decide)]
      simp
    match fs with
    | [] =>
      have h1 := readValue_dump indent level v [' '] (by simp [isWs]) (w' ++ '}' :: rest) (ends_ws hw' (by decide)) fuel (by omega)
      rw [List.singleton_append] at h1
      rw [readFields, hk]
      simp [readStr_dump, dumpFields]
      have hs : skipWs (':' :: ' ' :: (dump indent level v ++ (w' ++ '}' :: rest))) =
        ':' :: ' ' :: (dump indent level v ++ (w' ++ '}' :: rest)) := by simp [skipWs, isWs]
      simp [hs, h1, skipWs_cons w' hw' '}' (by decide)]
    | (k', v') :: fs =>
      obtain ⟨x, ex, hx⟩ := between_eq indent level
      have hlen : (between indent level).length = x.length + 1 := by simp [ex]
      have hpos : 0 < (dump indent level v).length := by
        obtain ⟨c, t, e, -⟩ := dump_head indent level v
        simp [e]
      have hl := hf
      simp [dumpFields] at hl
      have h1 := readValue_dump indent level v [' '] (by simp [isWs])
        (',' :: (x ++ (dumpStr k' ++ (':' :: ' ' :: (dump indent level v' ++ (dumpFields indent level fs ++ (w' ++ '}' :: rest)))))))
        (ends_of (by decide)) fuel (by omega)
      have h2 := readFields_dump indent level k' v' fs x hx w' hw' rest fuel (by omega)
      rw [List.singleton_append] at h1
      rw [readFields, hk]
      have hs (r : Str) : skipWs (':' :: r) = ':' :: r := by simp [skipWs, isWs]
      have hs' (r : Str) : skipWs (',' :: r) = ',' :: r := by simp [skipWs, isWs]
      simp [readStr_dump, hs, dumpFields, ex, h1, hs', h2]
termination_by fuel
end

theorem read_dump (indent : Option Nat) (level : Nat) (j : Json) : read (dump indent level j) = some j := by
  have := readValue_dump indent level j [] (by simp) [] (by intro c hc; simp at hc) ((dump indent level j).length + 1) (by omega)
  simp at this
  simp [read, this, skipWs]

/-! ### Characters -/

/-- Blanks, line breaks and what can be printed of ASCII. -/
def Plain (c : Char) : Prop := c = '\n' ∨ (32 ≤ c.toNat ∧ c.toNat ≤ 126)

theorem plain_hexDigit (n : Nat) (h : n < 16) : Plain (hexDigit n) := by
  have : ∀ m : Fin 16, 32 ≤ (hexDigit m).toNat ∧ (hexDigit m).toNat ≤ 126 := by decide
  exact .inr (this ⟨n, h⟩)

theorem plain_escUnit (n : Nat) : ∀ c ∈ escUnit n, Plain c := by
  intro c hc
  simp only [escUnit, List.mem_cons, List.not_mem_nil, or_false] at hc
  rcases hc with rfl | rfl | rfl | rfl | rfl | rfl
  · exact .inr (by decide)
  · exact .inr (by decide)
  all_goals exact plain_hexDigit _ (Nat.mod_lt _ (by omega))

theorem plain_two {a b : Char} (ha : Plain a) (hb : Plain b) : ∀ c ∈ [a, b], Plain c := by
  intro c hc
  simp at hc
  rcases hc with rfl | rfl
  · exact ha
  · exact hb

theorem plain_escChar (x : Char) : ∀ c ∈ escChar x, Plain c := by
  have hb : Plain '\\' := .inr (by decide)
  unfold escChar
  split
  · exact plain_two hb (.inr (by decide))
  split
  · exact plain_two hb hb
  split
  · exact plain_two hb (.inr (by decide))
  split
  · exact plain_two hb (.inr (by decide))
  split
  · exact plain_two hb (.inr (by decide))
  split
  · exact plain_two hb (.inr (by decide))
  split
  · exact plain_two hb (.inr (by decide))
  split
  · next h =>
    intro c hc
    simp at hc
    exact hc ▸ .inr h
  split
  · exact plain_escUnit _
  · intro c hc
    rcases List.mem_append.1 hc with h | h
    · exact plain_escUnit _ c h
    · exact plain_escUnit _ c h

theorem plain_dumpStr (s : Str) : ∀ c ∈ dumpStr s, Plain c := by
  intro c hc
  simp [dumpStr] at hc
  rcases hc with rfl | ⟨x, -, h⟩ | rfl
  · exact .inr (by decide)
  · exact plain_escChar x c h
  · exact .inr (by decide)

theorem plain_toDigits (n : Nat) : ∀ c ∈ Nat.toDigits 10 n, Plain c := by
  intro c hc
  have h := Nat.isDigit_of_mem_toDigits (b := 10) (by omega) (by omega) hc
  simp only [Char.isDigit, Bool.and_eq_true, decide_eq_true_eq] at h
  have h1 : 48 ≤ c.toNat := h.1
  have h2 : c.toNat ≤ 57 := h.2
  exact .inr (by omega)

theorem plain_intStr (n : Int) : ∀ c ∈ intStr n, Plain c := by
  cases n with
  | ofNat n =>
    rw [intStr_ofNat]
    exact plain_toDigits n
  | negSucc n =>
    rw [intStr_negSucc]
    intro c hc
    rcases List.mem_cons.1 hc with rfl | h
    · exact .inr (by decide)
    · exact plain_toDigits _ c h

theorem plain_replicate (n : Nat) : ∀ c ∈ List.replicate n ' ', Plain c := by
  intro c hc
  rw [(List.mem_replicate.1 hc).2]
  exact .inr (by decide)

theorem plain_newline (indent : Option Nat) (level : Nat) : ∀ c ∈ newline indent level, Plain c := by
  intro c hc
  unfold newline at hc
  split at hc
  · simp at hc
  · rcases List.mem_cons.1 hc with rfl | h
    · exact .inl rfl
    · exact plain_replicate _ c h

theorem plain_between (indent : Option Nat) (level : Nat) : ∀ c ∈ between indent level, Plain c := by
  unfold between
  split
  · exact plain_two (.inr (by decide)) (.inr (by decide))
  · intro c hc
    rcases List.mem_cons.1 hc with rfl | h
    · exact .inr (by decide)
    · rcases List.mem_cons.1 h with rfl | h
      · exact .inl rfl
      · exact plain_replicate _ c h

theorem plain_colon : ∀ c ∈ ": ".toList, Plain c := plain_two (.inr (by decide)) (.inr (by decide))

mutual
theorem plain_dump (indent : Option Nat) (level : Nat) : ∀ (j : Json) (c : Char), c ∈ dump indent level j → Plain c
  | .null, c, hc => by
    simp [dump] at hc
    rcases hc with rfl | rfl | rfl <;> exact .inr (by decide)
  | .bool true, c, hc => by
    simp [dump] at hc
    rcases hc with rfl | rfl | rfl | rfl <;> exact .inr (by decide)
  | .bool false, c, hc => by
    simp [dump] at hc
    rcases hc with rfl | rfl | rfl | rfl | rfl <;> exact .inr (by decide)
  | .num n, c, hc => plain_intStr n c (by simpa [dump] using hc)
  | .str s, c, hc => plain_dumpStr s c (by simpa [dump] using hc)
  | .arr [], c, hc => by
    simp [dump] at hc
    rcases hc with rfl | rfl <;> exact .inr (by decide)
  | .arr (v :: vs), c, hc => by
    simp [dump] at hc
    rcases hc with rfl | h | h | h | h | rfl
    · exact .inr (by decide)
    · exact plain_newline _ _ c h
    · exact plain_dump indent (level + 1) v c h
    · exact plain_dumpElems indent (level + 1) vs c h
    · exact plain_newline _ _ c h
    · exact .inr (by decide)
  | .obj [], c, hc => by
    simp [dump] at hc
    rcases hc with rfl | rfl <;> exact .inr (by decide)
  | .obj ((k, v) :: fs), c, hc => by
    simp [dump] at hc
    rcases hc with rfl | h | h | rfl | rfl | h | h | h | rfl
    · exact .inr (by decide)
    · exact plain_newline _ _ c h
    · exact plain_dumpStr k c h
    · exact .inr (by decide)
    · exact .inr (by decide)
    · exact plain_dump indent (level + 1) v c h
    · exact plain_dumpFields indent (level + 1) fs c h
    · exact plain_newline _ _ c h
    · exact .inr (by decide)
theorem plain_dumpElems (indent : Option Nat) (level : Nat) :
    ∀ (vs : List Json) (c : Char), c ∈ dumpElems indent level vs → Plain c
  | [], c, hc => by simp [dumpElems] at hc
  | v :: vs, c, hc => by
    simp [dumpElems] at hc
    rcases hc with h | h | h
    · exact plain_between _ _ c h
    · exact plain_dump indent level v c h
    · exact plain_dumpElems indent level vs c h
theorem plain_dumpFields (indent : Option Nat) (level : Nat) :
    ∀ (fs : List (Str × Json)) (c : Char), c ∈ dumpFields indent level fs → Plain c
  | [], c, hc => by simp [dumpFields] at hc
  | (k, v) :: fs, c, hc => by
    simp [dumpFields] at hc
    rcases hc with h | h | rfl | rfl | h | h
    · exact plain_between _ _ c h
    · exact plain_dumpStr k c h
    · exact .inr (by decide)
    · exact .inr (by decide)
    · exact plain_dump indent level v c h
    · exact plain_dumpFields indent level fs c h
end

/-- The member of an object with a name. -/
def member (k : Str) : Json → Option Json
  | .obj l => (l.find? fun f => f.1 = k).map (·.2)
  | _ => none

end Json

/-! ### The property -/

/-- The JSON value of the value of an option. -/
inductive ValIs : Val → Json → Prop where
  | none : ValIs .none .null
  | bool (b : Bool) : ValIs (.bool b) (.bool b)
  | str (s : Str) : ValIs (.str s) (.str s)
  | list (l : List Str) : ValIs (.list l) (.arr (l.map .str))
  | int (n : Nat) : ValIs (.int n) (.num n)

/-- The value is an object with the value of each option, and nothing else. -/
def ConfigIs (ic : ImmutableConfig) (j : Json) : Prop :=
  (∃ l, j = .obj l ∧ l.map (·.1) = Opt.all.map Opt.toName) ∧
    ∀ (o : Opt) (v : Val), ic.getItem o = .ok v → ∃ w, j.member o.toName = some w ∧ ValIs v w

/-- A text or `null`. -/
def StrIs (s : Option Str) (j : Option Json) : Prop :=
  match s with
  | none => j = some .null
  | some s => j = some (.str s)

/-- A number or `null`. -/
def IntIs (n : Option Int) (j : Option Json) : Prop :=
  match n with
  | none => j = some .null
  | some n => j = some (.num n)

/-- The value is an object with the attributes of a problem. -/
def ProblemIs (p : Problem) (j : Json) : Prop :=
  j.member "source".toList = some (.str (match p.source with
    | .edulint => "edulint".toList
    | .pylint => "pylint".toList
    | .flake8 => "flake8".toList)) ∧
  StrIs p.enabledBy (j.member "enabled_by".toList) ∧ j.member "path".toList = some (.str p.path) ∧
  j.member "line".toList = some (.num p.line) ∧ j.member "column".toList = some (.num p.column) ∧
  j.member "code".toList = some (.str p.code) ∧ j.member "text".toList = some (.str p.text) ∧
  IntIs p.endLine (j.member "end_line".toList) ∧ IntIs p.endColumn (j.member "end_column".toList) ∧
  StrIs p.symbol (j.member "symbol".toList)

/-- The text is JSON: an object with the configurations and the problems, in the order given. -/
def OutputIs (configs : List ImmutableConfig) (problems : List Problem) (t : Str) : Prop :=
  ∃ cs ps, Json.read t = some (.obj [("configs".toList, .arr cs), ("problems".toList, .arr ps)]) ∧
    List.Forall₂ ConfigIs configs cs ∧ List.Forall₂ ProblemIs problems ps

theorem valIs_json (v : Val) : ValIs v v.json := by
  cases v <;> constructor

theorem find_toName (l : List Arg) (hn : (l.map (·.option)).Nodup) (a : Arg) (ha : a ∈ l) :
    (l.map fun a => (a.option.toName, a.val.json)).find? (fun f => f.1 = a.option.toName) =
      some (a.option.toName, a.val.json) := by
  induction l with
  | nil => simp at ha
  | cons b l ih =>
    simp only [List.map_cons, List.nodup_cons] at hn
    rcases List.mem_cons.1 ha with rfl | h
    · simp
    · have hne : b.option.toName ≠ a.option.toName := by
        intro e
        have inj : ∀ x y : Opt, x.toName = y.toName → x = y := by
          intro x y
          cases x <;> cases y <;> decide
        exact hn.1 (inj _ _ e ▸ List.mem_map_of_mem h)
      simp only [List.map_cons, List.find?_cons, hne, decide_false]
      exact ih hn.2 h

theorem configIs_json (ic : ImmutableConfig) (h : ic.config.map (·.option) = Opt.all) : ConfigIs ic ic.json := by
  refine ⟨⟨_, rfl, ?_⟩, fun o v hv => ?_⟩
  · rw [← h]
    simp [Function.comp_def]
  · unfold ImmutableConfig.getItem at hv
    split at hv
    · next a ha =>
      have ho : a.option = o := by
        have := congrArg (fun l : List Opt => l[o.toNat]?) h
        simp only [List.getElem?_map, ha, Option.map_some] at this
        have hall : Opt.all[o.toNat]? = some o := by cases o <;> rfl
        rw [hall] at this
        exact Option.some.inj this
      have hf := find_toName ic.config (by rw [h]; decide) a (List.mem_of_getElem? ha)
      rw [ho] at hf
      refine ⟨a.val.json, ?_, ?_⟩
      · simp [ImmutableConfig.json, Json.member, hf]
      · rw [← Except.ok.inj hv]
        exact valIs_json _
    · simp at hv

theorem problemIs_json (p : Problem) : ProblemIs p p.json := by
  obtain ⟨source, enabledBy, path, line, column, code, text, endLine, endColumn, symbol⟩ := p
  refine ⟨by cases source <;> rfl, ?_, rfl, rfl, rfl, rfl, rfl, ?_, ?_, ?_⟩
  · cases enabledBy <;> rfl
  · cases endLine <;> rfl
  · cases endColumn <;> rfl
  · cases symbol <;> rfl

theorem forall₂_map {α β : Type} {R : α → β → Prop} {f : α → β} (l : List α) (h : ∀ a ∈ l, R a (f a)) :
    List.Forall₂ R l (l.map f) := by
  induction l with
  | nil => exact .nil
  | cons a l ih => exact .cons (h a (by simp)) (ih fun b hb => h b (by simp [hb]))

theorem read_wrap (a b : Str) (x y : Json)
    (h1 : ∀ (rest : Str) (fuel : Nat), Json.Ends rest → a.length ≤ fuel →
      Json.readValue fuel (' ' :: (a ++ rest)) = some (x, rest))
    (h2 : ∀ (rest : Str) (fuel : Nat), Json.Ends rest → b.length ≤ fuel →
      Json.readValue fuel (' ' :: (b ++ rest)) = some (y, rest)) :
    Json.read ("{\"configs\": ".toList ++ a ++ ", \"problems\": ".toList ++ b ++ ['}']) =
      some (.obj [("configs".toList, x), ("problems".toList, y)]) := by
  have e1 : "{\"configs\": ".toList = '{' :: '"' :: ("configs\"".toList ++ [':', ' ']) := by decide
  have e2 : ", \"problems\": ".toList = ',' :: ' ' :: '"' :: ("problems\"".toList ++ [':', ' ']) := by decide
  have hs (c : Char) (hc : Json.isWs c = false) (r : Str) : Json.skipWs (c :: r) = c :: r := by simp [Json.skipWs, hc]
  have hw : Json.isWs ' ' = true := by decide
  have hs' (c : Char) (hc : Json.isWs c = false) (r : Str) : Json.skipWs (' ' :: c :: r) = c :: r := by
    simp [Json.skipWs, hc, hw]
  have k1 (r : Str) : Json.readStr ("configs\"".toList ++ r) = some ("configs".toList, r) := Json.readStr_dump "configs".toList r
  have k2 (r : Str) : Json.readStr ("problems\"".toList ++ r) = some ("problems".toList, r) := Json.readStr_dump "problems".toList r
  rw [e1, e2]
  generalize "configs\"".toList = c1 at *
  generalize "problems\"".toList = c2 at *
  have q1 := hs '"' (by decide)
  have q2 := hs '{' (by decide)
  have q3 := hs ':' (by decide)
  have q4 := hs ',' (by decide)
  have q5 := hs '}' (by decide)
  have q6 := hs' '"' (by decide)
  simp only [List.append_assoc, List.cons_append, List.nil_append]
  obtain ⟨n, hn⟩ : ∃ n, ('{' :: '"' :: (c1 ++ ':' :: ' ' :: (a ++ ',' :: ' ' :: '"' :: (c2 ++ ':' :: ' ' :: (b ++ ['}']))))).length =
      n + 2 ∧ a.length ≤ n + 1 ∧ b.length ≤ n := by
    refine ⟨c1.length + c2.length + a.length + b.length + 8, ?_, by omega, by omega⟩
    simp
    omega
  have h1 := h1 (',' :: ' ' :: '"' :: (c2 ++ (':' :: ' ' :: (b ++ ['}'])))) (n + 1) (Json.ends_of (by decide)) hn.2.1
  have h2 := h2 ['}'] n (Json.ends_of (by decide)) hn.2.2
  rw [Json.read, hn.1, Json.readValue, q2]
  have q7 : Json.skipWs [] = [] := rfl
  simp [q1, Json.readFields, k1, q3, h1, q4, q6, k2, h2, q5, q7]

theorem read_toJson (configs : List ImmutableConfig) (problems : List Problem) :
    Json.read (toJson configs problems) =
      some (.obj [("configs".toList, .arr (configs.map (·.json))), ("problems".toList, .arr (problems.map (·.json)))]) :=
  read_wrap _ _ _ _ (fun rest fuel hr hf => Json.readValue_dump none 0 _ [' '] (by decide) rest hr fuel hf)
    (fun rest fuel hr hf => Json.readValue_dump (some 2) 0 _ [' '] (by decide) rest hr fuel hf)

/-- C141: what `edulint check --json` prints is JSON, an object with all configurations and all problems, in
their order, with the values of all options and all attributes. -/
theorem C141_check (configs : List ImmutableConfig) (hc : ∀ ic ∈ configs, ic.config.map (·.option) = Opt.all)
    (problems : List Problem) : OutputIs configs problems (toJson configs problems) :=
  ⟨_, _, read_toJson configs problems, forall₂_map configs fun ic h => configIs_json ic (hc ic h),
    forall₂_map problems fun p _ => problemIs_json p⟩

theorem readOrdered_options (ordered : List Arg) : ∀ (os : List Opt) (l : List Arg), readOrdered ordered os = .ok l →
    l.map (·.option) = os
  | [], l, h => by
    simp [readOrdered] at h
    simp [← h]
  | o :: os, l, h => by
    simp only [readOrdered] at h
    split at h
    · simp at h
    · split at h
      · simp at h
      · next more hm =>
        have := readOrdered_options ordered os more hm
        simp at h
        simp [← h, this]

theorem toImmutable_options (c : Config) (sets : OptionSets) (ic : ImmutableConfig) (h : c.toImmutable sets = .ok ic) :
    ic.config.map (·.option) = Opt.all := by
  unfold Config.toImmutable at h
  split at h
  · simp at h
  split at h
  · simp at h
  split at h
  · simp at h
  split at h
  · simp at h
  split at h
  · simp at h
  · next config hc =>
    have := readOrdered_options _ _ _ hc
    rw [← Except.ok.inj h]
    exact this

theorem runGroups_options (env : Env) (fuel : Nat) (cmd : Config) (cmdPath : Val) :
    ∀ (gs : Groups) (cache : LangCache) (out : List RunGroup), runGroups env fuel cmd cmdPath gs cache = .ok out →
      ∀ g ∈ out, g.config.config.map (·.option) = Opt.all
  | [], cache, out, h, g, hg => by
    rw [runGroups.eq_def] at h
    simp only [Except.ok.injEq] at h
    simp [← h] at hg
  | (_, infile, items) :: rest, cache, out, h, g, hg => by
    rw [runGroups.eq_def] at h
    simp only at h
    split at h
    · cases h
    split at h
    · cases h
    · exact runGroups_options env fuel cmd cmdPath rest cache out h g hg
    split at h
    · simp at h
    split at h
    · simp at h
    · next ic hic =>
      split at h
      · simp at h
      split at h
      · simp at h
      · next more hm =>
        rw [← Except.ok.inj h] at hg
        rcases List.mem_cons.1 hg with rfl | hg
        · exact toImmutable_options _ _ _ hic
        · exact runGroups_options env fuel cmd cmdPath rest _ more hm g hg

theorem checkCode_options {env : Env} {lenv : LintEnv} {fuel : Nat} {given : List GivenPath} {options : List Str}
    {groups : List RunGroup} {problems : List Problem}
    (h : checkCode env lenv fuel given options = .ok (some (groups, problems))) :
    ∀ g ∈ groups, g.config.config.map (·.option) = Opt.all := by
  unfold checkCode at h
  split at h
  · simp at h
  split at h
  · simp at h
  · next gs hgs =>
    split at h
    · simp at h
    · simp at h
    split at h
    · simp at h
    · simp at h
      rw [← h.1]
      unfold getConfigMany at hgs
      split at hgs
      · simp at hgs
      split at hgs
      · simp at hgs
      split at hgs
      · simp at hgs
      · exact runGroups_options _ _ _ _ _ _ _ hgs

/-- C141 for a whole run: with `--json`, a run that is not ended by a failure prints one text, which is JSON with
the configuration of each group of files and all problems that are printed without `--json`; a run that is
prints none. -/
theorem C141_run (env : Env) (lenv : LintEnv) (fuel : Nat) (given : List GivenPath) (options : List Str) :
    match checkCode env lenv fuel given options with
    | .ok (some (groups, problems)) =>
      ∃ t, printJson (checkCode env lenv fuel given options) = [t] ∧ OutputIs (groups.map (·.config)) problems t
    | _ => printJson (checkCode env lenv fuel given options) = [] := by
  cases h : checkCode env lenv fuel given options with
  | error e => simp [printJson]
  | ok r =>
    cases r with
    | none => simp [printJson]
    | some r =>
      obtain ⟨groups, problems⟩ := r
      refine ⟨_, rfl, C141_check _ (fun ic hic => ?_) _⟩
      obtain ⟨g, hg, rfl⟩ := List.mem_map.1 hic
      exact checkCode_options h g hg

theorem Val.json_inj : ∀ v w : Val, v.json = w.json → v = w := by
  intro v w h
  cases v <;> cases w <;> simp [Val.json] at h ⊢ <;> try exact h
  · next l m =>
    have : Function.Injective (Json.str) := fun a b h => Json.str.inj h
    exact List.map_injective_iff.2 this h
  · omega

theorem Json.ofStr?_inj (a b : Option Str) (h : Json.ofStr? a = Json.ofStr? b) : a = b := by
  cases a <;> cases b <;> simp [Json.ofStr?] at h ⊢
  exact h

theorem Json.ofInt?_inj (a b : Option Int) (h : Json.ofInt? a = Json.ofInt? b) : a = b := by
  cases a <;> cases b <;> simp [Json.ofInt?] at h ⊢
  exact h

theorem Problem.json_inj : Function.Injective Problem.json := by
  intro p q h
  have hs : ∀ a b : Linter, a.toName = b.toName → a = b := by
    intro a b
    cases a <;> cases b <;> decide
  simp only [Problem.json, Json.obj.injEq, List.cons.injEq, Prod.mk.injEq, true_and, and_true, Json.str.injEq, Json.num.injEq] at h
  obtain ⟨h1, h2, h3, h4, h5, h6, h7, h8, h9, h10⟩ := h
  obtain ⟨source, enabledBy, path, line, column, code, text, endLine, endColumn, symbol⟩ := p
  obtain ⟨source', enabledBy', path', line', column', code', text', endLine', endColumn', symbol'⟩ := q
  simp only at h1 h2 h3 h4 h5 h6 h7 h8 h9 h10
  rw [hs _ _ h1, Json.ofStr?_inj _ _ h2, h3, h4, h5, h6, h7, Json.ofInt?_inj _ _ h8, Json.ofInt?_inj _ _ h9, Json.ofStr?_inj _ _ h10]

theorem ImmutableConfig.json_inj (a b : ImmutableConfig) (h : a.json = b.json) : a.config = b.config := by
  simp only [ImmutableConfig.json, Json.obj.injEq] at h
  have key : Function.Injective fun a : Arg => (a.option.toName, a.val.json) := ?_
  · exact List.map_injective_iff.2 key h
  intro x y hxy
  simp only [Prod.mk.injEq] at hxy
  have inj : ∀ x y : Opt, x.toName = y.toName → x = y := by
    intro x y
    cases x <;> cases y <;> decide
  obtain ⟨xo, xv⟩ := x
  obtain ⟨yo, yv⟩ := y
  have h1 : xo = yo := inj _ _ hxy.1
  have h2 : xv = yv := Val.json_inj _ _ hxy.2
  rw [h1, h2]

/-- C141: nothing is lost: the same text is printed only for the same problems, and the same values of options. -/
theorem C141_lossless (cs cs' : List ImmutableConfig) (ps ps' : List Problem) (h : toJson cs ps = toJson cs' ps') :
    ps = ps' ∧ cs.map (·.config) = cs'.map (·.config) := by
  have h1 := read_toJson cs ps
  rw [h, read_toJson cs' ps'] at h1
  simp only [Option.some.injEq, Json.obj.injEq, List.cons.injEq, Prod.mk.injEq, true_and, and_true, Json.arr.injEq] at h1
  refine ⟨(List.map_injective_iff.2 Problem.json_inj h1.2).symm, ?_⟩
  have h2 := h1.1
  clear h h1
  induction cs generalizing cs' with
  | nil => cases cs' <;> simp_all
  | cons c cs ih =>
    cases cs' with
    | nil => simp at h2
    | cons c' cs' =>
      simp only [List.map_cons, List.cons.injEq] at h2 ⊢
      exact ⟨(ImmutableConfig.json_inj _ _ h2.1).symm, ih cs' h2.2⟩

theorem plain_all (s : Str) (h : s.all (fun c => decide (32 ≤ c.toNat) && decide (c.toNat ≤ 126)) = true) :
    ∀ c ∈ s, Json.Plain c := by
  intro c hc
  have := List.all_eq_true.1 h c hc
  simp at this
  exact .inr this

theorem plain_five (s1 s2 s3 s4 s5 : Str) (h1 : ∀ c ∈ s1, Json.Plain c) (h2 : ∀ c ∈ s2, Json.Plain c)
    (h3 : ∀ c ∈ s3, Json.Plain c) (h4 : ∀ c ∈ s4, Json.Plain c) (h5 : ∀ c ∈ s5, Json.Plain c) :
    ∀ c ∈ s1 ++ s2 ++ s3 ++ s4 ++ s5, Json.Plain c := by
  intro c hc
  rcases List.mem_append.1 hc with h | h
  · rcases List.mem_append.1 h with h | h
    · rcases List.mem_append.1 h with h | h
      · rcases List.mem_append.1 h with h | h
        · exact h1 c h
        · exact h2 c h
      · exact h3 c h
    · exact h4 c h
  · exact h5 c h

/-- C141: whatever the problems are about, only ASCII is printed, without control characters but line breaks. -/
theorem C141_ascii (configs : List ImmutableConfig) (problems : List Problem) (all : Expls) (ids : List Str) :
    (∀ c ∈ toJson configs problems, c = '\n' ∨ (32 ≤ c.toNat ∧ c.toNat ≤ 126)) ∧
      ∀ c ∈ explainJson all ids, c = '\n' ∨ (32 ≤ c.toNat ∧ c.toNat ≤ 126) := by
  constructor
  · exact plain_five _ _ _ _ _ (plain_all _ (by decide +kernel)) (Json.plain_dump _ _ _) (plain_all _ (by decide +kernel))
      (Json.plain_dump _ _ _) (plain_all _ (by decide +kernel))
  · intro c hc
    rw [explainJson] at hc
    exact Json.plain_dump _ _ _ c hc

/-- The value is an object with the parts of an explanation that there are. -/
def ExplIs (e : Str × Expl) (f : Str × Json) : Prop :=
  f.1 = e.1 ∧ (∃ l, f.2 = .obj l) ∧ f.2.member "why".toList = e.2.why.map .str ∧
    f.2.member "examples".toList = e.2.examples.map .str

/-- C141: what `edulint explain --json` prints is JSON, an object with the explanations that are asked for (C58), in
their order. -/
theorem C141_explain (all : Expls) (ids : List Str) :
    ∃ l, Json.read (explainJson all ids) = some (.obj [("explanations".toList, .obj l)]) ∧
      List.Forall₂ ExplIs (messageExpls all (if ids.any fun id => lower id = "all".toList then none else some ids)) l := by
  refine ⟨_, Json.read_dump _ _ _, forall₂_map _ fun e _ => ?_⟩
  obtain ⟨id, why, examples⟩ := e
  refine ⟨rfl, ⟨_, rfl⟩, ?_, ?_⟩ <;> cases why <;> cases examples <;> rfl

/-! ### Examples -/

/-- A problem whose text needs escapes. -/
def jsonProblem : Problem :=
  { source := .flake8, enabledBy := none, path := "a.py".toList, line := 3, column := -1, code := "E501".toList,
    text := "say \"ž\"\n😀".toList, symbol := none, endLine := some 3 }

example : (Problem.json jsonProblem).dump none 0 =
    ("{\"source\": \"flake8\", \"enabled_by\": null, \"path\": \"a.py\", \"line\": 3, \"column\": -1, \"code\": \"E501\", " ++
      "\"text\": \"say \\\"\\u017e\\\"\\n\\ud83d\\ude00\", \"end_line\": 3, \"end_column\": null, \"symbol\": null}").toList := by
  decide +kernel

example : toJson [] [] = "{\"configs\": [], \"problems\": []}".toList := by decide +kernel

example : explainJson [("E1".toList, { why := some "a".toList }), ("E2".toList, {})] ["E1".toList, "E3".toList] =
    "{\n  \"explanations\": {\n    \"E1\": {\n      \"why\": \"a\"\n    }\n  }\n}".toList := by decide +kernel

/-- The reader refuses what is not JSON … -/
example : (Json.read "[1,]".toList).isNone ∧ (Json.read "{\"a\": 01}".toList).isNone ∧ (Json.read "\"a".toList).isNone ∧
    (Json.read "[1] 2".toList).isNone ∧ (Json.read "\"\\ud83d\"".toList).isNone := by decide +kernel

/-- … and accepts other notations of the same. -/
example : (Json.read " { \"\\u0061\" : [ true , -12 ] } ".toList).map (Json.dump none 0) =
    some "{\"a\": [true, -12]}".toList := by decide +kernel

/-- Configurations of a run satisfy what `C141_check` asks of them. -/
example (c : Config) (sets : OptionSets) (ic : ImmutableConfig) (h : c.toImmutable sets = .ok ic) :
    OutputIs [ic] [jsonProblem] (toJson [ic] [jsonProblem]) :=
  C141_check [ic] (by simpa using toImmutable_options c sets ic h) _

end Verif

import Verif.Model.Repr
import Verif.Props.Json

/-!
**C163**: how problems are shown.

Full statement: `repr` of a problem shows each attribute that is set, and different problems are shown differently. False: strings are not escaped, and negative
numbers and empty strings are left out.
-/

namespace Verif.Repr

/-! ### Reading what is shown -/

/-- What comes before a comma or a closing parenthesis outside of quotation marks, and the rest. -/
def piece : Bool → Str → Str × Str
  | _, [] => ([], [])
  | false, c :: s => if c = ',' ∨ c = ')' then ([], c :: s) else ((c :: (piece (c == '"') s).1), (piece (c == '"') s).2)
  | true, c :: s => ((c :: (piece (c != '"') s).1), (piece (c != '"') s).2)

/-- No commas, parentheses or quotation marks. -/
def Bare (s : Str) : Prop := ∀ c ∈ s, c ≠ ',' ∧ c ≠ ')' ∧ c ≠ '"'

theorem piece_bare {s : Str} (h : Bare s) (r : Str) : piece false (s ++ r) = (s ++ (piece false r).1, (piece false r).2) := by
  induction s with
  | nil => rfl
  | cons c s ih =>
    have hc := h c (by simp)
    have hb : (c == '"') = false := by simp [hc.2.2]
    rw [List.cons_append, piece, if_neg (by simp [hc.1, hc.2.1]), hb, ih fun c h' => h c (by simp [h'])]
    rfl

theorem piece_quoted {s : Str} (h : '"' ∉ s) (r : Str) : piece true (s ++ '"' :: r) = (s ++ '"' :: (piece false r).1, (piece false r).2) := by
  induction s with
  | nil => rfl
  | cons c s ih =>
    have hb : (c != '"') = true := by
      simp only [bne_iff_ne, ne_eq]
      rintro rfl
      exact h (by simp)
    rw [List.cons_append, piece, hb, ih fun h' => h (by simp [h'])]
    rfl

theorem piece_end {r : Str} (h : r.head? = some ',' ∨ r.head? = some ')') : piece false r = ([], r) := by
  cases r with
  | nil => simp at h
  | cons c r =>
    simp only [List.head?_cons, Option.some.injEq] at h
    rw [piece, if_pos h]

/-- What can be read. -/
def Good (w : Str) : Prop := w ≠ [] ∧ ∀ r : Str, (r.head? = some ',' ∨ r.head? = some ')') → piece false (w ++ r) = (w, r)

theorem good_bare {n v : Str} (hn : Bare n) (hv : Bare v) : Good (n ++ '=' :: v) := by
  refine ⟨by simp, fun r hr => ?_⟩
  have hb : Bare (n ++ '=' :: v) := by
    intro c hc
    rcases List.mem_append.1 hc with h | h
    · exact hn c h
    · rcases List.mem_cons.1 h with rfl | h
      · decide
      · exact hv c h
  rw [piece_bare hb, piece_end hr, List.append_nil]

theorem good_quoted {n s : Str} (hn : Bare n) (hs : '"' ∉ s) : Good (n ++ '=' :: ('"' :: s ++ ['"'])) := by
  refine ⟨by simp, fun r hr => ?_⟩
  have hb : Bare (n ++ ['=']) := by
    intro c hc
    rcases List.mem_append.1 hc with h | h
    · exact hn c h
    · rw [List.mem_singleton] at h
      subst h
      decide
  have e : n ++ '=' :: ('"' :: s ++ ['"']) ++ r = (n ++ ['=']) ++ '"' :: (s ++ '"' :: r) := by simp
  have hq : piece false ('"' :: (s ++ '"' :: r)) = ('"' :: (piece true (s ++ '"' :: r)).1, (piece true (s ++ '"' :: r)).2) := rfl
  rw [e, piece_bare hb, hq, piece_quoted hs, piece_end hr]
  simp

theorem join_ne {w : Str} {m : List Str} (hw : Good w) : ")".toList ≠ joinWith ", ".toList (w :: m) ++ ")".toList := by
  have key : ∀ r : Str, (r.head? = some ',' ∨ r.head? = some ')') → ")".toList ≠ w ++ r := by
    intro r hr e
    have := hw.2 r hr
    rw [← e] at this
    have h2 : piece false ")".toList = ([], ")".toList) := by decide
    rw [h2] at this
    exact hw.1 (Prod.mk.inj this).1.symm
  intro h
  cases m with
  | nil => exact key ")".toList (.inr (by decide)) h
  | cons w' m => exact key (", ".toList ++ joinWith ", ".toList (w' :: m) ++ ")".toList) (.inl rfl) (by simpa [joinWith] using h)

/-- Lists of pieces are read back. -/
theorem join_inj : ∀ {l m : List Str}, (∀ w ∈ l, Good w) → (∀ w ∈ m, Good w) → joinWith ", ".toList l ++ ")".toList = joinWith ", ".toList m ++ ")".toList → l = m
  | [], [], _, _, _ => rfl
  | [], w :: m, _, hm, h => (join_ne (hm w (by simp)) h).elim
  | w :: l, [], hl, _, h => (join_ne (hl w (by simp)) h.symm).elim
  | w :: l, w' :: m, hl, hm, h => by
    have tail : ∀ (w : Str) (l : List Str), ∃ r : Str, (r.head? = some ',' ∨ r.head? = some ')') ∧ joinWith ", ".toList (w :: l) ++ ")".toList = w ++ r ∧
        ((l = [] ∧ r = ")".toList) ∨ (l ≠ [] ∧ r = ", ".toList ++ (joinWith ", ".toList l ++ ")".toList))) := by
      intro w l
      cases l with
      | nil => exact ⟨")".toList, .inr (by decide), rfl, .inl ⟨rfl, rfl⟩⟩
      | cons x l => exact ⟨", ".toList ++ (joinWith ", ".toList (x :: l) ++ ")".toList), .inl rfl, by simp [joinWith], .inr ⟨by simp, rfl⟩⟩
    obtain ⟨r, hr, e, hc⟩ := tail w l
    obtain ⟨r', hr', e', hc'⟩ := tail w' m
    rw [e, e'] at h
    have h1 := (hl w (by simp)).2 r hr
    rw [h, (hm w' (by simp)).2 r' hr'] at h1
    obtain ⟨hw, hrr⟩ := Prod.mk.inj h1
    subst hw hrr
    have hcl : l = m := by
      rcases hc with ⟨hl0, hc⟩ | ⟨hl0, hc⟩ <;> rcases hc' with ⟨hm0, hc'⟩ | ⟨hm0, hc'⟩
      · rw [hl0, hm0]
      · rw [hc'] at hc
        cases hc
      · rw [hc'] at hc
        cases hc
      · exact join_inj (fun w h => hl w (by simp [h])) (fun w h => hm w (by simp [h])) (List.append_cancel_left (hc.symm.trans hc'))
    rw [hcl]

/-! ### Problems -/

/-- Strings have no quotation marks in them and are not empty, and numbers are not negative. -/
def Attr.Plain : Attr → Prop
  | .none => True
  | .str s => s ≠ [] ∧ '"' ∉ s
  | .int n => 0 ≤ n
  | .linter _ => True

theorem bare_digits (n : Nat) : Bare (Nat.toDigits 10 n) := by
  intro c hc
  have h := Nat.isDigit_of_mem_toDigits (b := 10) (by omega) (by omega) hc
  refine ⟨?_, ?_, ?_⟩ <;> rintro rfl <;> exact absurd h (by decide)

theorem bare_int {n : Int} (h : 0 ≤ n) : Bare (intStr n) := by
  cases n with
  | ofNat n =>
    rw [Json.intStr_ofNat]
    exact bare_digits n
  | negSucc n => exact absurd h (by omega)

instance (s : Str) : Decidable (Bare s) := inferInstanceAs (Decidable (∀ c ∈ s, _))

theorem good_attr {n : Str} (hn : Bare n) {v : Attr} (hv : v.Plain) (hh : v.hasValue = true) : Good (n ++ '=' :: v.show) := by
  cases v with
  | none => cases hh
  | linter l => exact good_bare hn (by cases l <;> decide +kernel)
  | int n => exact good_bare hn (bare_int hv)
  | str s => exact good_quoted hn hv.2

theorem show_inj {v w : Attr} (hv : v.Plain) (hw : w.Plain) (h : v.show = w.show) (hvh : v.hasValue = true) (hwh : w.hasValue = true)
    (hk : (∃ l, v = .linter l) ↔ ∃ l, w = .linter l) : v = w := by
  have hq : ∀ {n : Int} {s : Str}, 0 ≤ n → intStr n ≠ '"' :: s := by
    intro n s hn e
    exact (bare_int hn '"' (by rw [e]; simp)).2.2 rfl
  cases v with
  | none => cases hvh
  | linter l =>
    obtain ⟨l', rfl⟩ := hk.1 ⟨l, rfl⟩
    have : l.toName = l'.toName := h
    cases l <;> cases l' <;> first | rfl | exact absurd this (by decide +kernel)
  | int n =>
    cases w with
    | none => cases hwh
    | linter l => obtain ⟨_, h⟩ := hk.2 ⟨l, rfl⟩; cases h
    | str s => exact (hq hv h).elim
    | int m =>
      have hr : Json.Ends [] := by simp [Json.Ends]
      have h1 := Json.readNum_intStr n [] hr
      have h2 := Json.readNum_intStr m [] hr
      have h : intStr n = intStr m := h
      rw [h, h2] at h1
      cases h1
      rfl
  | str s =>
    cases w with
    | none => cases hwh
    | linter l => obtain ⟨_, h⟩ := hk.2 ⟨l, rfl⟩; cases h
    | int n => exact (hq hw h.symm).elim
    | str t =>
      have h : s ++ ['"'] = t ++ ['"'] := (List.cons.inj h).2
      rw [List.append_cancel_right h]

theorem split_name {n m v w : Str} (hn : '=' ∉ n) (hm : '=' ∉ m) (h : n ++ '=' :: v = m ++ '=' :: w) : n = m ∧ v = w := by
  induction n generalizing m with
  | nil =>
    cases m with
    | nil => exact ⟨rfl, (List.cons.inj h).2⟩
    | cons c m => exact (hm (by rw [← (List.cons.inj h).1]; simp)).elim
  | cons c n ih =>
    cases m with
    | nil => exact (hn (by rw [(List.cons.inj h).1]; simp)).elim
    | cons d m =>
      obtain ⟨h1, h2⟩ := List.cons.inj h
      obtain ⟨h3, h4⟩ := ih (fun h => hn (by simp [h])) (fun h => hm (by simp [h])) h2
      exact ⟨by rw [h1, h3], h4⟩

/-- If what is shown of two lists of attributes with the same names is the same, then so are the attributes. -/
theorem attrs_inj : ∀ {l m : List (Str × Attr)}, l.map (·.1) = m.map (·.1) → (l.map (·.1)).Nodup → (∀ a ∈ l, '=' ∉ a.1 ∧ a.2.Plain) →
    (∀ a ∈ m, '=' ∉ a.1 ∧ a.2.Plain) → List.Forall₂ (fun a b => (∃ k, a.2 = .linter k) ↔ ∃ k, b.2 = .linter k) l m →
    (l.filter fun a => a.2.hasValue).map (fun a => a.1 ++ '=' :: a.2.show) = (m.filter fun a => a.2.hasValue).map (fun a => a.1 ++ '=' :: a.2.show) → l = m
  | [], [], _, _, _, _, _, _ => rfl
  | [], _ :: _, h, _, _, _, _, _ => nomatch h
  | _ :: _, [], h, _, _, _, _, _ => nomatch h
  | (n, v) :: l, (n', w) :: m, hnames, hnd, hl, hm, hk, h => by
    obtain ⟨hn, hnames'⟩ := List.cons.inj hnames
    have hn : n = n' := hn
    subst hn
    have hnd' := List.nodup_cons.1 hnd
    have notin : ∀ {l : List (Str × Attr)} {u : Str}, n ∉ l.map (·.1) → '=' ∉ n → (∀ a ∈ l, '=' ∉ a.1) →
        n ++ '=' :: u ∉ (l.filter fun a => a.2.hasValue).map (fun a => a.1 ++ '=' :: a.2.show) := by
      intro l u h1 h2 h3 hmem
      obtain ⟨a, ha, e⟩ := List.mem_map.1 hmem
      have ha := (List.mem_filter.1 ha).1
      exact h1 (List.mem_map.2 ⟨a, ha, (split_name (h3 a ha) h2 e).1⟩)
    have hne := (hl (n, v) (by simp)).1
    have hpv : v.Plain := (hl (n, v) (by simp)).2
    have hpw : w.Plain := (hm (n, w) (by simp)).2
    have hlt : ∀ a ∈ l, '=' ∉ a.1 ∧ a.2.Plain := fun a ha => hl a (by simp [ha])
    have hmt : ∀ a ∈ m, '=' ∉ a.1 ∧ a.2.Plain := fun a ha => hm a (by simp [ha])
    cases hk with
    | cons hk0 hks =>
      cases hv : v.hasValue <;> cases hw : w.hasValue
      · simp only [List.filter_cons, hv, hw] at h
        have hvn : ∀ {u : Attr}, u.Plain → u.hasValue = false → u = .none := by
          intro u hp hu
          cases u with
          | none => rfl
          | linter _ => cases hu
          | int n => simp [Attr.hasValue] at hu; have : 0 ≤ n := hp; omega
          | str s => simp [Attr.hasValue] at hu; exact (hp.1 hu).elim
        rw [hvn hpv hv, hvn hpw hw, attrs_inj hnames' hnd'.2 hlt hmt hks h]
      · simp only [List.filter_cons, hv, hw, if_true] at h
        exact (notin hnd'.1 hne (fun a ha => (hlt a ha).1) (by simp only [Bool.false_eq_true, if_false] at h; rw [h]; exact List.mem_cons_self ..)).elim
      · simp only [List.filter_cons, hv, hw, if_true] at h
        exact (notin (hnames' ▸ hnd'.1) hne (fun a ha => (hmt a ha).1) (by simp only [Bool.false_eq_true, if_false] at h; rw [← h]; exact List.mem_cons_self ..)).elim
      · simp only [List.filter_cons, hv, hw, if_true, List.map_cons] at h
        obtain ⟨h1, h2⟩ := List.cons.inj h
        rw [show_inj hpv hpw (split_name hne hne h1).2 hv hw hk0, attrs_inj hnames' hnd'.2 hlt hmt hks h2]

/-- The attributes of a problem are plain. -/
def Plain (p : Problem) : Prop := ∀ a ∈ attrs p, a.2.Plain

theorem attrs_problem {p q : Problem} (h : attrs p = attrs q) : p = q := by
  have hs : ∀ {a b : Option Str}, Attr.ofStr a = .ofStr b → a = b := by
    intro a b h
    cases a <;> cases b <;> cases h <;> rfl
  have hi : ∀ {a b : Option Int}, Attr.ofInt a = .ofInt b → a = b := by
    intro a b h
    cases a <;> cases b <;> cases h <;> rfl
  simp only [attrs, List.cons.injEq, Prod.mk.injEq, true_and, and_true, Attr.linter.injEq, Attr.str.injEq, Attr.int.injEq] at h
  obtain ⟨h1, h2, h3, h4, h5, h6, h7, h8, h9, h10⟩ := h
  cases p
  cases q
  simp only [Problem.mk.injEq]
  exact ⟨h1, hs h2, h3, h4, h5, h6, h7, hi h8, hi h9, hs h10⟩

/-- **C163**, what holds: problems without quotation marks in their strings, whose strings are not empty and whose numbers are not negative, are shown differently if
they are different. -/
theorem C163_partial {p q : Problem} (hp : Plain p) (hq : Plain q) (h : repr p = repr q) : p = q := by
  have hnames : ∀ r : Problem, (attrs r).map (·.1) = ["source".toList, "enabled_by".toList, "path".toList, "line".toList, "column".toList, "code".toList,
      "text".toList, "end_line".toList, "end_column".toList, "symbol".toList] := fun _ => rfl
  have hbare : ∀ r : Problem, ∀ a ∈ attrs r, Bare a.1 ∧ '=' ∉ a.1 := by
    intro r a ha
    have : a.1 ∈ (attrs r).map (·.1) := List.mem_map.2 ⟨a, ha, rfl⟩
    rw [hnames r] at this
    revert this
    generalize a.1 = n
    revert n
    decide +kernel
  have hgood : ∀ r : Problem, Plain r → ∀ w ∈ attrVals r, Good w := by
    intro r hr w hw
    obtain ⟨a, ha, rfl⟩ := List.mem_map.1 hw
    obtain ⟨ha, hv⟩ := List.mem_filter.1 ha
    exact good_attr (hbare r a ha).1 (hr a ha) hv
  have h1 : attrVals p = attrVals q := by
    unfold repr at h
    rw [List.append_assoc, List.append_assoc] at h
    exact join_inj (hgood p hp) (hgood q hq) (List.append_cancel_left h)
  refine attrs_problem (attrs_inj ((hnames p).trans (hnames q).symm) (by rw [hnames]; decide +kernel) (fun a ha => ⟨(hbare p a ha).2, hp a ha⟩)
    (fun a ha => ⟨(hbare q a ha).2, hq a ha⟩) ?_ h1)
  have ofStr : ∀ a : Option Str, ¬ ∃ k, Attr.ofStr a = .linter k := by rintro (_ | _) ⟨_, h⟩ <;> cases h
  have ofInt : ∀ a : Option Int, ¬ ∃ k, Attr.ofInt a = .linter k := by rintro (_ | _) ⟨_, h⟩ <;> cases h
  have str : ∀ s, ¬ ∃ k, Attr.str s = .linter k := by rintro s ⟨_, h⟩; cases h
  have int : ∀ s, ¬ ∃ k, Attr.int s = .linter k := by rintro s ⟨_, h⟩; cases h
  exact .cons ⟨fun _ => ⟨_, rfl⟩, fun _ => ⟨_, rfl⟩⟩ (.cons (iff_of_false (ofStr _) (ofStr _)) (.cons (iff_of_false (str _) (str _)) (.cons (iff_of_false (int _) (int _))
    (.cons (iff_of_false (int _) (int _)) (.cons (iff_of_false (str _) (str _)) (.cons (iff_of_false (str _) (str _)) (.cons (iff_of_false (ofInt _) (ofInt _))
      (.cons (iff_of_false (ofInt _) (ofInt _)) (.cons (iff_of_false (ofStr _) (ofStr _)) .nil)))))))))

theorem infix_join {sep w : Str} : ∀ {l : List Str}, w ∈ l → w <:+: joinWith sep l
  | [x], h => by
    rw [List.mem_singleton] at h
    subst h
    exact List.infix_rfl
  | x :: y :: l, h => by
    rw [joinWith]
    rcases List.mem_cons.1 h with rfl | h
    · exact ⟨[], sep ++ joinWith sep (y :: l), by simp⟩
    · obtain ⟨a, b, e⟩ := infix_join (sep := sep) h
      exact ⟨x ++ sep ++ a, b, by simp [← e]⟩
    · exact fun h => by simp at h

/-- Each attribute that is set is shown with its value, and strings in quotation marks: here those that all problems have. -/
theorem C163_shown (p : Problem) : ("source=".toList ++ p.source.toName) <:+: repr p ∧ (p.path ≠ [] → ("path=\"".toList ++ p.path ++ "\"".toList) <:+: repr p) ∧
    (p.text ≠ [] → ("text=\"".toList ++ p.text ++ "\"".toList) <:+: repr p) ∧ (0 ≤ p.line → ("line=".toList ++ intStr p.line) <:+: repr p) := by
  have key : ∀ a ∈ attrs p, a.2.hasValue = true → (a.1 ++ '=' :: a.2.show) <:+: repr p := by
    intro a ha hv
    have hmem : a.1 ++ '=' :: a.2.show ∈ attrVals p := List.mem_map.2 ⟨a, List.mem_filter.2 ⟨ha, hv⟩, rfl⟩
    obtain ⟨x, y, e⟩ := infix_join (sep := ", ".toList) hmem
    refine ⟨"Problem(".toList ++ x, y ++ ")".toList, ?_⟩
    unfold repr
    rw [← e]
    simp only [List.append_assoc]
  refine ⟨?_, fun h => ?_, fun h => ?_, fun h => ?_⟩
  · exact key ("source".toList, .linter p.source) (by simp [attrs]) rfl
  · exact key ("path".toList, .str p.path) (by simp [attrs]) (by simpa [Attr.hasValue] using h)
  · exact key ("text".toList, .str p.text) (by simp [attrs]) (by simpa [Attr.hasValue] using h)
  · exact key ("line".toList, .int p.line) (by simp [attrs]) (by simpa [Attr.hasValue] using h)

/-! ### Examples -/

def demo : Problem where
  source := .pylint
  enabledBy := some "edulint".toList
  path := "a.py".toList
  line := 3
  column := 0
  code := "C0104".toList
  text := "a, (b)".toList
  endColumn := some 7

example : repr demo = "Problem(source=pylint, enabled_by=\"edulint\", path=\"a.py\", line=3, column=0, code=\"C0104\", text=\"a, (b)\", end_column=7)".toList := by
  decide +kernel

theorem demo_plain (n : Nat) : Plain { demo with line := n } := by
  intro a ha
  simp only [attrs, demo, List.mem_cons, List.not_mem_nil, or_false] at ha
  rcases ha with rfl | rfl | rfl | rfl | rfl | rfl | rfl | rfl | rfl | rfl
  · trivial
  · exact ⟨by decide, by decide⟩
  · exact ⟨by decide, by decide⟩
  · exact Int.natCast_nonneg n
  · exact Int.le_refl 0
  · exact ⟨by decide, by decide⟩
  · exact ⟨by decide, by decide⟩
  · trivial
  · exact (by decide : (0 : Int) ≤ 7)
  · trivial

example (n : Nat) (h : repr { demo with line := n } = repr { demo with line := 3 }) : n = 3 := by
  have := C163_partial (demo_plain n) (demo_plain 3) h
  have h3 : (n : Int) = 3 := by simpa [demo] using this
  omega

example : "text=\"a, (b)\"".toList <:+: repr demo := (C163_shown demo).2.2.1 (by decide)

/-- **C163**, counterexample: a quotation mark in the text. Without a symbol, the text `a", symbol="b` is shown as the text `a` with the symbol `b` is. -/
theorem C163_quote_counterexample :
    let p : Problem := { demo with text := "a\", symbol=\"b".toList, endColumn := none }
    let q : Problem := { demo with text := "a".toList, endColumn := none, symbol := some "b".toList }
    p ≠ q ∧ repr p = repr q := by
  decide +kernel

/-- **C163**, counterexample: negative numbers are not shown. -/
theorem C163_negative_counterexample : demo ≠ { demo with endLine := some (-1) } ∧ repr demo = repr { demo with endLine := some (-1) } ∧
    repr { demo with line := -1 } = repr { demo with line := -2 } := by
  decide +kernel

/-- **C163**, counterexample: an empty symbol is not shown. -/
theorem C163_empty_counterexample : demo ≠ { demo with symbol := some [] } ∧ repr demo = repr { demo with symbol := some [] } := by
  decide +kernel

end Verif.Repr

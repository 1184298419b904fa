import Verif.Model.Statements

/-!
**C105** Returning early changes nothing. **C106** Code reported as long has too many lines.
-/

namespace Verif.Py.Code

/-! ### C106 -/

/-- What a line of code says, if there is one statement, or one head of a statement, in each line. -/
inductive Head where
  | simple (n : Nat) | jump (k : Jump) (n : Nat) | import_ (n : Nat) | def_ (isClass : Bool) (n : Nat) | loop (isFor : Bool) (n : Nat)
  | if_ (test : Expr) | elif_ (test : Expr) | else_ | try_ | except_ | finally_ | with_ (n : Nat) | match_ (n : Nat) | case_

/-- A line of code: how far it is indented, what it says, and whether it belongs to an import or to a function or class inside, or to an `if` that
is executed only if the file is run as a program. -/
structure Line where
  depth : Nat
  head : Head
  inDef : Bool
  inMain : Bool

/-- A line with statements below it. -/
def clause (d : Nat) (h : Head) (f m : Bool) (present : Bool) (below : List Line) : List Line :=
  if present then ⟨d, h, f, m⟩ :: below else []

/-- Is the condition `__name__ == "__main__"`? -/
def asMain (t : Expr) : Bool := decide (t = .compare (.name "__name__".toList) [(.eq, .const (.str "__main__".toList))])

theorem isMain_eq (t : Expr) : isMain t = asMain t := by
  have h : isMain t = true ↔ t = .compare (.name "__name__".toList) [(.eq, .const (.str "__main__".toList))] := by
    constructor
    · intro h
      unfold isMain at h
      split at h
      · rw [Bool.and_eq_true] at h
        rw [of_decide_eq_true h.1, of_decide_eq_true h.2]
      · cases h
    · rintro rfl
      decide +kernel
  rw [asMain, Bool.eq_iff_iff, h]
  exact ⟨decide_eq_true, of_decide_eq_true⟩

/-- An `if` that is alone in an `else` is written as `elif`. -/
def loneIf (b : List Stmt) : Bool := match b with | [.if_ _ _ _] => true | _ => false

theorem hasElif_eq (b : List Stmt) : hasElif b = loneIf b := by
  unfold hasElif loneIf
  split
  · rfl
  · split
    · rename_i h
      exact (h _ _ _ rfl).elim
    · rfl

mutual
/-- The lines of a statement; `elif` tells whether an `if` is written as `elif`. -/
def lines (elif : Bool) (d : Nat) (f m : Bool) : Stmt → List Line
  | .simple n => [⟨d, .simple n, f, m⟩]
  | .jump k n => [⟨d, .jump k n, f, m⟩]
  | .import_ n => [⟨d, .import_ n, true, m⟩]
  | .def_ c n body => ⟨d, .def_ c n, true, m⟩ :: linesAll false (d + 1) true m body
  | .loop b n body orelse =>
    ⟨d, .loop b n, f, m⟩ :: (linesAll false (d + 1) f m body ++ clause d .else_ f m (!orelse.isEmpty) (linesAll false (d + 1) f m orelse))
  | .if_ t body orelse =>
    let m := m || asMain t
    ⟨d, if elif then .elif_ t else .if_ t, f, m⟩ :: (linesAll false (d + 1) f m body ++
      if loneIf orelse then linesAll true d f m orelse
      else clause d .else_ f m (!orelse.isEmpty) (linesAll false (d + 1) f m orelse))
  | .try_ body handlers orelse final =>
    ⟨d, .try_, f, m⟩ :: (linesAll false (d + 1) f m body ++ linesEach .except_ d f m handlers ++
      clause d .else_ f m (!orelse.isEmpty) (linesAll false (d + 1) f m orelse) ++
      clause d .finally_ f m (!final.isEmpty) (linesAll false (d + 1) f m final))
  | .with_ n body => ⟨d, .with_ n, f, m⟩ :: linesAll false (d + 1) f m body
  | .match_ n cases => ⟨d, .match_ n, f, m⟩ :: linesEach .case_ (d + 1) f m cases

def linesAll (elif : Bool) (d : Nat) (f m : Bool) : List Stmt → List Line
  | [] => []
  | s :: b => lines elif d f m s ++ linesAll elif d f m b

def linesEach (h : Head) (d : Nat) (f m : Bool) : List (List Stmt) → List Line
  | [] => []
  | b :: bs => clause d h f m true (linesAll false (d + 1) f m b) ++ linesEach h d f m bs
end

mutual
/-- Code of which the grammar allows every `try`. -/
def Stmt.Ok : Stmt → Prop
  | .simple _ | .jump _ _ | .import_ _ => True
  | .def_ _ _ body | .with_ _ body => OkBlock body
  | .loop _ _ body orelse | .if_ _ body orelse => OkBlock body ∧ OkBlock orelse
  | .try_ body handlers orelse final =>
    (handlers ≠ [] ∨ final ≠ []) ∧ OkBlock body ∧ OkBlocks handlers ∧ OkBlock orelse ∧ OkBlock final
  | .match_ _ cases => OkBlocks cases

def OkBlock : List Stmt → Prop
  | [] => True
  | s :: b => s.Ok ∧ OkBlock b

def OkBlocks : List (List Stmt) → Prop
  | [] => True
  | b :: bs => OkBlock b ∧ OkBlocks bs
end

mutual
/-- Code without `match` in which every `try` has one `except` or one `finally`, and nothing else. -/
def Stmt.Plain : Stmt → Prop
  | .simple _ | .jump _ _ | .import_ _ => True
  | .def_ _ _ body | .with_ _ body => PlainBlock body
  | .loop _ _ body orelse | .if_ _ body orelse => PlainBlock body ∧ PlainBlock orelse
  | .try_ body handlers orelse final =>
    ((handlers.length = 1 ∧ final = []) ∨ (handlers = [] ∧ final ≠ [])) ∧ orelse = [] ∧ PlainBlock body ∧ PlainBlocks handlers ∧
      PlainBlock final
  | .match_ _ _ => False

def PlainBlock : List Stmt → Prop
  | [] => True
  | s :: b => s.Plain ∧ PlainBlock b

def PlainBlocks : List (List Stmt) → Prop
  | [] => True
  | b :: bs => PlainBlock b ∧ PlainBlocks bs
end

/-- The lines that count. -/
def seen (defs main : Bool) (ls : List Line) : Nat := ls.countP fun l => (defs || !l.inDef) && (main || !l.inMain)

theorem seen_append {defs main : Bool} (a b : List Line) : seen defs main (a ++ b) = seen defs main a + seen defs main b :=
  List.countP_append

theorem seen_cons {defs main : Bool} (l : Line) (b : List Line) :
    seen defs main (l :: b) = (if (defs || !l.inDef) && (main || !l.inMain) then 1 else 0) + seen defs main b := by
  simp only [seen, List.countP_cons]; omega

theorem seen_nil {defs main : Bool} : seen defs main [] = 0 := rfl

/-- Lines that do not count. -/
def hides (defs main f m : Bool) : Bool := (f && !defs) || (m && !main)

theorem vis_of_hides {defs main f m : Bool} (h : hides defs main f m = true) : ((defs || !f) && (main || !m)) = false := by
  cases defs <;> cases main <;> cases f <;> cases m <;> simp_all [hides]

theorem vis_of_not_hides {defs main f m : Bool} (h : hides defs main f m = false) : ((defs || !f) && (main || !m)) = true := by
  cases defs <;> cases main <;> cases f <;> cases m <;> simp_all [hides]

theorem hides_or {defs main f m k : Bool} (h : hides defs main f m = true) : hides defs main f (m || k) = true := by
  cases defs <;> cases main <;> cases f <;> cases m <;> cases k <;> simp_all [hides]

theorem hides_def {defs main f m : Bool} (h : hides defs main f m = true) : hides defs main true m = true := by
  cases defs <;> cases main <;> cases f <;> cases m <;> simp_all [hides]

theorem seen_clause {defs main : Bool} (d : Nat) (h : Head) (f m p : Bool) (ls : List Line) :
    seen defs main (clause d h f m p ls) = if p then (if (defs || !f) && (main || !m) then 1 else 0) + seen defs main ls else 0 := by
  unfold clause
  cases p
  · rfl
  · simp [seen_cons]

mutual
theorem hidden {defs main : Bool} : ∀ (s : Stmt) (e : Bool) (d : Nat) (f m : Bool), hides defs main f m = true →
    seen defs main (lines e d f m s) = 0
  | .simple n, e, d, f, m, h | .jump k n, e, d, f, m, h => by simp [lines, seen_cons, seen_nil, vis_of_hides h]
  | .import_ n, e, d, f, m, h => by simp only [lines, seen_cons, seen_nil, vis_of_hides (hides_def h), Bool.false_eq_true, if_false]
  | .def_ c n body, e, d, f, m, h => by
    simp only [lines, seen_cons, vis_of_hides (hides_def h), hiddenAll body false (d + 1) true m (hides_def h), Bool.false_eq_true, if_false]
  | .loop b n body orelse, e, d, f, m, h => by
    simp [lines, seen_cons, seen_append, seen_clause, vis_of_hides h, hiddenAll body false (d + 1) f m h, hiddenAll orelse false (d + 1) f m h]
  | .if_ t body orelse, e, d, f, m, h => by
    have h' := hides_or (k := asMain t) h
    simp only [lines]
    rw [seen_cons, seen_append, vis_of_hides h', hiddenAll body false (d + 1) f _ h', if_neg (by simp)]
    split
    · simp [hiddenAll orelse true d f _ h']
    · rw [seen_clause, vis_of_hides h', hiddenAll orelse false (d + 1) f _ h']; simp
  | .try_ body handlers orelse final, e, d, f, m, h => by
    simp [lines, seen_cons, seen_append, seen_clause, vis_of_hides h, hiddenAll body false (d + 1) f m h,
      hiddenAll orelse false (d + 1) f m h, hiddenAll final false (d + 1) f m h, hiddenEach handlers .except_ d f m h]
  | .with_ n body, e, d, f, m, h => by simp [lines, seen_cons, vis_of_hides h, hiddenAll body false (d + 1) f m h]
  | .match_ n cases, e, d, f, m, h => by simp [lines, seen_cons, vis_of_hides h, hiddenEach cases .case_ (d + 1) f m h]

theorem hiddenAll {defs main : Bool} : ∀ (b : List Stmt) (e : Bool) (d : Nat) (f m : Bool), hides defs main f m = true →
    seen defs main (linesAll e d f m b) = 0
  | [], _, _, _, _, _ => by simp [linesAll, seen_nil]
  | s :: b, e, d, f, m, h => by rw [linesAll, seen_append, hidden s e d f m h, hiddenAll b e d f m h]

theorem hiddenEach {defs main : Bool} : ∀ (bs : List (List Stmt)) (h : Head) (d : Nat) (f m : Bool), hides defs main f m = true →
    seen defs main (linesEach h d f m bs) = 0
  | [], _, _, _, _, _ => by simp [linesEach, seen_nil]
  | b :: bs, h, d, f, m, hh => by
    rw [linesEach, seen_append, seen_clause, hiddenAll b false (d + 1) f m hh, hiddenEach bs h d f m hh, vis_of_hides hh]; simp
end

theorem seen_if {defs main : Bool} {t : Expr} {f m : Bool} (hv : hides defs main f m = false)
    (hm : (asMain t && !main) = false) : hides defs main f (m || asMain t) = false := by
  cases defs <;> cases main <;> cases f <;> cases m <;> cases h : asMain t <;> simp_all [hides]

mutual
/-- There are at least as many lines as statements are counted. -/
theorem count_le {defs main : Bool} : ∀ (s : Stmt) (e : Bool) (d : Nat) (f m : Bool), s.Ok → hides defs main f m = false →
    count defs main s ≤ seen defs main (lines e d f m s)
  | .simple n, e, d, f, m, _, hv | .jump k n, e, d, f, m, _, hv => by simp [count, lines, seen_cons, seen_nil, vis_of_not_hides hv]
  | .import_ n, e, d, f, m, _, hv => by
    cases defs
    · simp [count]
    · have : (main || !m) = true := by cases main <;> cases m <;> simp_all [hides]
      simp [count, lines, seen_cons, seen_nil, this]
  | .def_ c n body, e, d, f, m, ho, hv => by
    cases defs
    · simp [count]
    · have h1 : (main || !m) = true := by cases main <;> cases m <;> simp_all [hides]
      have := countAll_le body false (d + 1) true m (by simpa [Stmt.Ok] using ho) (defs := true) (main := main)
        (by cases main <;> cases m <;> simp_all [hides])
      simp only [count, lines, seen_cons, Bool.true_or, Bool.true_and, h1, if_true]
      omega
  | .loop b n body orelse, e, d, f, m, ho, hv => by
    simp only [Stmt.Ok] at ho
    have h1 := countAll_le body false (d + 1) f m ho.1 hv
    have h2 := countAll_le orelse false (d + 1) f m ho.2 hv
    simp only [count, lines, seen_cons, seen_append, seen_clause, vis_of_not_hides hv, if_true]
    cases orelse with
    | nil => simp [countAll]; omega
    | cons => simp; omega
  | .if_ t body orelse, e, d, f, m, ho, hv => by
    simp only [Stmt.Ok] at ho
    rw [count, isMain_eq, hasElif_eq]
    split
    · omega
    · rename_i hm
      have hv' := seen_if hv (by simpa using hm)
      have h1 := countAll_le body false (d + 1) f _ ho.1 hv'
      simp only [lines]
      rw [seen_cons, seen_append, vis_of_not_hides hv']
      cases hel : loneIf orelse with
      | true =>
        have h2 := countAll_le orelse true d f _ ho.2 hv'
        simp only [Bool.or_true, if_true]
        omega
      | false =>
        have h2 := countAll_le orelse false (d + 1) f _ ho.2 hv'
        simp only [Bool.or_false, if_true, Bool.false_eq_true, if_false, seen_clause, vis_of_not_hides hv']
        cases orelse with
        | nil => simp [countAll]; omega
        | cons => simp; omega
  | .try_ body handlers orelse final, e, d, f, m, ho, hv => by
    simp only [Stmt.Ok] at ho
    obtain ⟨hc, hb, hh, hor, hf⟩ := ho
    have h1 := countAll_le body false (d + 1) f m hb hv
    have h2 := countLists_le handlers .except_ d f m hh hv
    have h3 := countAll_le orelse false (d + 1) f m hor hv
    have h4 := countAll_le final false (d + 1) f m hf hv
    simp only [count, lines, seen_cons, seen_append, seen_clause, vis_of_not_hides hv, if_true]
    have h5 : countAll defs main orelse ≤ if (!orelse.isEmpty) = true then 1 + seen defs main (linesAll false (d + 1) f m orelse) else 0 := by
      cases orelse with
      | nil => simp [countAll]
      | cons => simp; omega
    rcases hc with hc | hc
    · have : 1 ≤ handlers.length := by cases handlers <;> simp_all
      have h6 : countAll defs main final ≤ if (!final.isEmpty) = true then 1 + seen defs main (linesAll false (d + 1) f m final) else 0 := by
        cases final with
        | nil => simp [countAll]
        | cons => simp; omega
      omega
    · have h6 : 1 + countAll defs main final ≤ if (!final.isEmpty) = true then 1 + seen defs main (linesAll false (d + 1) f m final) else 0 := by
        cases final with
        | nil => simp at hc
        | cons => simp; omega
      omega
  | .with_ n body, e, d, f, m, ho, hv => by
    have := countAll_le body false (d + 1) f m (by simpa [Stmt.Ok] using ho) hv
    simp only [count, lines, seen_cons, vis_of_not_hides hv, if_true]
    omega
  | .match_ n cases, e, d, f, m, _, hv => by
    simp only [count, lines, seen_cons, vis_of_not_hides hv, if_true]
    omega

theorem countAll_le {defs main : Bool} : ∀ (b : List Stmt) (e : Bool) (d : Nat) (f m : Bool), OkBlock b → hides defs main f m = false →
    countAll defs main b ≤ seen defs main (linesAll e d f m b)
  | [], _, _, _, _, _, _ => by simp [countAll]
  | s :: b, e, d, f, m, ho, hv => by
    simp only [OkBlock] at ho
    have h1 := count_le s e d f m ho.1 hv
    have h2 := countAll_le b e d f m ho.2 hv
    rw [countAll, linesAll, seen_append]; omega

theorem countLists_le {defs main : Bool} : ∀ (bs : List (List Stmt)) (h : Head) (d : Nat) (f m : Bool), OkBlocks bs →
    hides defs main f m = false → countLists defs main bs + bs.length ≤ seen defs main (linesEach h d f m bs)
  | [], _, _, _, _, _, _ => by simp [countLists]
  | b :: bs, h, d, f, m, ho, hv => by
    simp only [OkBlocks] at ho
    have h1 := countAll_le b false (d + 1) f m ho.1 hv
    have h2 := countLists_le bs h d f m ho.2 hv
    rw [countLists, linesEach, seen_append, seen_clause, vis_of_not_hides hv]
    simp only [if_true, List.length_cons]; omega
end

mutual
/-- In plain code, each line that counts is counted. -/
theorem count_eq {defs main : Bool} : ∀ (s : Stmt) (e : Bool) (d : Nat) (f m : Bool), s.Plain → hides defs main f m = false →
    count defs main s = seen defs main (lines e d f m s)
  | .simple n, e, d, f, m, _, hv | .jump k n, e, d, f, m, _, hv => by simp [count, lines, seen_cons, seen_nil, vis_of_not_hides hv]
  | .import_ n, e, d, f, m, _, hv => by
    cases defs
    · simp [count, lines, seen_cons, seen_nil]
    · have : (main || !m) = true := by cases main <;> cases m <;> simp_all [hides]
      simp [count, lines, seen_cons, seen_nil, this]
  | .def_ c n body, e, d, f, m, ho, hv => by
    cases defs
    · simp [count, lines, seen_cons, hiddenAll body false (d + 1) true m (defs := false) (main := main) (by simp [hides])]
    · have h1 : (main || !m) = true := by cases main <;> cases m <;> simp_all [hides]
      have := countAll_eq body false (d + 1) true m (by simpa [Stmt.Plain] using ho) (defs := true) (main := main)
        (by cases main <;> cases m <;> simp_all [hides])
      simp only [count, lines, seen_cons, Bool.true_or, Bool.true_and, h1, if_true]
      omega
  | .loop b n body orelse, e, d, f, m, ho, hv => by
    simp only [Stmt.Plain] at ho
    have h1 := countAll_eq body false (d + 1) f m ho.1 hv
    have h2 := countAll_eq orelse false (d + 1) f m ho.2 hv
    simp only [count, lines, seen_cons, seen_append, seen_clause, vis_of_not_hides hv, if_true]
    cases orelse with
    | nil => simp [countAll]; omega
    | cons => simp; omega
  | .if_ t body orelse, e, d, f, m, ho, hv => by
    simp only [Stmt.Plain] at ho
    rw [count, isMain_eq, hasElif_eq]
    split
    · rename_i hm
      simp only [Bool.and_eq_true, Bool.not_eq_true'] at hm
      have hv' : hides defs main f (m || asMain t) = true := by simp [hides, hm]
      simp only [lines]
      rw [seen_cons, seen_append, vis_of_hides hv', hiddenAll body false (d + 1) f _ hv', if_neg (by simp)]
      split
      · simp [hiddenAll orelse true d f _ hv']
      · rw [seen_clause, vis_of_hides hv', hiddenAll orelse false (d + 1) f _ hv']; simp
    · rename_i hm
      have hv' := seen_if hv (by simpa using hm)
      have h1 := countAll_eq body false (d + 1) f _ ho.1 hv'
      simp only [lines]
      rw [seen_cons, seen_append, vis_of_not_hides hv']
      cases hel : loneIf orelse with
      | true =>
        have h2 := countAll_eq orelse true d f _ ho.2 hv'
        simp only [Bool.or_true, if_true]
        omega
      | false =>
        have h2 := countAll_eq orelse false (d + 1) f _ ho.2 hv'
        simp only [Bool.or_false, if_true, Bool.false_eq_true, if_false, seen_clause, vis_of_not_hides hv']
        cases orelse with
        | nil => simp [countAll]; omega
        | cons => simp; omega
  | .try_ body handlers orelse final, e, d, f, m, ho, hv => by
    simp only [Stmt.Plain] at ho
    obtain ⟨hc, rfl, hb, hh, hf⟩ := ho
    have h1 := countAll_eq body false (d + 1) f m hb hv
    have h2 := countLists_eq handlers .except_ d f m hh hv
    have h4 := countAll_eq final false (d + 1) f m hf hv
    simp only [count, lines, seen_cons, seen_append, seen_clause, vis_of_not_hides hv, if_true]
    rcases hc with ⟨hc, rfl⟩ | ⟨rfl, hc⟩
    · simp [countAll]; omega
    · cases final with
      | nil => simp at hc
      | cons => simp [countAll, countLists, linesEach, seen_nil] at h1 h4 ⊢; omega
  | .with_ n body, e, d, f, m, ho, hv => by
    have := countAll_eq body false (d + 1) f m (by simpa [Stmt.Plain] using ho) hv
    simp only [count, lines, seen_cons, vis_of_not_hides hv, if_true]
    omega
  | .match_ n cases, e, d, f, m, ho, hv => by simp [Stmt.Plain] at ho

theorem countAll_eq {defs main : Bool} : ∀ (b : List Stmt) (e : Bool) (d : Nat) (f m : Bool), PlainBlock b → hides defs main f m = false →
    countAll defs main b = seen defs main (linesAll e d f m b)
  | [], _, _, _, _, _, _ => by simp [countAll, linesAll, seen_nil]
  | s :: b, e, d, f, m, ho, hv => by
    simp only [PlainBlock] at ho
    have h1 := count_eq s e d f m ho.1 hv
    have h2 := countAll_eq b e d f m ho.2 hv
    rw [countAll, linesAll, seen_append]; omega

theorem countLists_eq {defs main : Bool} : ∀ (bs : List (List Stmt)) (h : Head) (d : Nat) (f m : Bool), PlainBlocks bs →
    hides defs main f m = false → countLists defs main bs + bs.length = seen defs main (linesEach h d f m bs)
  | [], _, _, _, _, _, _ => by simp [countLists, linesEach, seen_nil]
  | b :: bs, h, d, f, m, ho, hv => by
    simp only [PlainBlocks] at ho
    have h1 := countAll_eq b false (d + 1) f m ho.1 hv
    have h2 := countLists_eq bs h d f m ho.2 hv
    rw [countLists, linesEach, seen_append, seen_clause, vis_of_not_hides hv]
    simp only [if_true, List.length_cons]; omega
end

/-- The lines of code that are no imports, belong to no function or class inside, and are not only executed if the file is run as a program. -/
def ownLines (body : List Stmt) : List Line := (linesAll false 0 false false body).filter fun l => !l.inDef && !l.inMain

theorem ownLines_length (body : List Stmt) : (ownLines body).length = seen false false (linesAll false 0 false false body) := by
  simp [ownLines, seen, List.countP_eq_length_filter]

/-- C106: a function or script that is reported as long has at least as many lines of its own as the message says, and these are more than the 20
that the message names. -/
theorem C106_sound {body : List Stmt} (hok : OkBlock body) {n limit : Nat}
    (h : longFunction body = some (n, limit) ∨ longScript body = some (n, limit)) : limit = 20 ∧ 20 < n ∧ n ≤ (ownLines body).length := by
  rw [ownLines_length]
  have := countAll_le body false 0 false false hok (defs := false) (main := false) rfl
  simp only [longFunction, longScript, or_self] at h
  split at h
  · cases h; exact ⟨rfl, by assumption, this⟩
  · cases h

/-- C106 for code without `match`, if each `try` has one `except` or one `finally`: reported exactly if there are more than 20 lines, with their
number. -/
theorem C106_partial {body : List Stmt} (h : PlainBlock body) :
    longFunction body = (if 20 < (ownLines body).length then some ((ownLines body).length, 20) else none) ∧
      longScript body = (if 20 < (ownLines body).length then some ((ownLines body).length, 20) else none) := by
  rw [ownLines_length]
  have := countAll_eq body false 0 false false h (defs := false) (main := false) rfl
  simp only [longFunction, longScript, gt_iff_lt, this, and_self]

/-- Many simple statements. -/
def many (n : Nat) : List Stmt := (List.range n).map .simple

/-- `import os`, `def f(): …`, `if __name__ == "__main__": …`, `if x: … elif y: … else: …` -/
def sample : List Stmt := [.import_ 0, .def_ false 0 (many 30),
  .if_ (.compare (.name "__name__".toList) [(.eq, .const (.str "__main__".toList))]) (many 30) [],
  .if_ (.name ['x']) (many 8) [.if_ (.name ['y']) (many 8) (many 2)]]

example : (ownLines sample).length = 21 ∧ longFunction sample = some (21, 20) ∧ longScript (many 20) = none := by decide +kernel

/-- C106 is false for `match`: a function with 32 lines is not reported. -/
theorem C106_match_counterexample :
    OkBlock [.match_ 0 [many 30]] ∧ (ownLines [.match_ 0 [many 30]]).length = 32 ∧ longFunction [.match_ 0 [many 30]] = none := by
  refine ⟨?_, by decide +kernel, by decide +kernel⟩
  have : ∀ n, OkBlock (many n) := fun n => by
    unfold many
    induction List.range n <;> simp_all [OkBlock, Stmt.Ok]
  simp [OkBlock, Stmt.Ok, OkBlocks, this]

/-- C106 is false for `try` with several `except`s and `finally`: a function with 22 lines is not reported. -/
theorem C106_try_counterexample :
    let f := [Stmt.try_ (many 15) [many 1, many 1] [] (many 1)]
    (ownLines f).length = 22 ∧ longFunction f = none := by
  decide +kernel

/-! ### C105 -/

/-- How the execution of statements ends, and in which state: normally, or by a jump or an exception. -/
inductive Res (St : Type) where
  | normal (s : St)
  | ended (how : Nat) (s : St)

/-- What statements do. -/
structure Lang (St : Type) where
  /-- The condition's truth value, or an exception, and the state after it. -/
  test : Expr → St → (Bool ⊕ Nat) × St
  jump : Jump → Nat → St → Nat × St
  /-- Statements that are neither `if`s nor jumps. -/
  other : Stmt → St → Res St
  not_ : ∀ c st, test (.unary .not c) st = ((test c st).1.map (!·) id, (test c st).2)

section
variable {St : Type} (L : Lang St)

mutual
def run : Stmt → St → Res St
  | .if_ c body orelse, st =>
    match L.test c st with
    | (.inl b, st) => if b then runAll body st else runAll orelse st
    | (.inr x, st) => .ended x st
  | .jump k n, st => .ended (L.jump k n st).1 (L.jump k n st).2
  | s, st => L.other s st

def runAll : List Stmt → St → Res St
  | [], st => .normal st
  | s :: b, st =>
    match run s st with
    | .normal st => runAll b st
    | .ended x st => .ended x st
end

mutual
/-- A statement that ends a block is not followed by another one. -/
theorem endsBlock_ended : ∀ (s : Stmt) (st : St), endsBlock s = true → ∃ x st', run L s st = .ended x st'
  | .if_ c body orelse, st, h => by
    simp only [endsBlock, Bool.and_eq_true] at h
    rw [run]
    rcases hc : L.test c st with ⟨b | x, st1⟩
    · cases b
      · simpa using lastEnds_ended orelse st1 h.2
      · simpa using lastEnds_ended body st1 h.1.1
    · exact ⟨x, st1, rfl⟩
  | .jump k n, st, _ => ⟨_, _, by rw [run]⟩
  | .simple _, _, h | .import_ _, _, h | .def_ _ _ _, _, h | .loop _ _ _ _, _, h | .try_ _ _ _ _, _, h | .with_ _ _, _, h | .match_ _ _, _, h => by
    simp [endsBlock] at h

theorem lastEnds_ended : ∀ (b : List Stmt) (st : St), lastEnds b = true → ∃ x st', runAll L b st = .ended x st'
  | [], _, h => by simp [lastEnds] at h
  | s :: b, st, h => by
    rw [lastEnds] at h
    rw [runAll]
    split at h
    · obtain ⟨x, st', hx⟩ := endsBlock_ended s st h
      exact ⟨x, st', by rw [hx]⟩
    · cases run L s st with
      | normal st1 => exact lastEnds_ended b st1 h
      | ended x st1 => exact ⟨x, st1, rfl⟩
end

variable {L}

theorem runAll_append (a b : List Stmt) (st : St) : runAll L (a ++ b) st =
    match runAll L a st with
    | .normal st => runAll L b st
    | .ended x st => .ended x st := by
  induction a generalizing st with
  | nil => rfl
  | cons s a ih =>
    rw [List.cons_append, runAll, runAll]
    cases run L s st with
    | normal st1 => exact ih st1
    | ended => rfl

theorem earlyReturn_spec {isElif : Bool} {prev next : Option Stmt} {body orelse : List Stmt} (h : earlyReturn isElif prev body orelse next = true) :
    isElif = false ∧ ∃ last, (if !orelse.isEmpty then some orelse else if lastEnds body then next.map ([·]) else none) = some last ∧
      lastEnds last = true ∧ countAll true true last ≤ 2 ∧ 4 ≤ countAll true true body := by
  cases isElif with
  | true => simp [earlyReturn] at h
  | false =>
    refine ⟨rfl, ?_⟩
    unfold earlyReturn at h
    cases hp : prevLarge prev
    · simp only [hp, Bool.or_false, Bool.false_eq_true, if_false] at h
      generalize (if (!orelse.isEmpty) = true then some orelse else if lastEnds body = true then next.map ([·]) else none) = o at h ⊢
      cases o with
      | none => cases h
      | some last =>
        simp only [Bool.and_eq_true, decide_eq_true_eq] at h
        exact ⟨last, rfl, h.1.1, h.1.2, h.2⟩
    · simp [hp] at h

/-- C105 for an `if` with an `else`: with the condition negated, the `else` can be put first and what was in the `if` after it, without being
indented. What is reported has at most two statements in the `else`, which end the block, and at least four in the `if`. -/
theorem C105_else {isElif : Bool} {prev next : Option Stmt} {c : Expr} {body orelse : List Stmt}
    (h : earlyReturn isElif prev body orelse next = true) (hne : orelse ≠ []) :
    isElif = false ∧ countAll true true orelse ≤ 2 ∧ 4 ≤ countAll true true body ∧
      ∀ (rest : List Stmt) (st : St),
        runAll L (.if_ c body orelse :: rest) st = runAll L (.if_ (.unary .not c) orelse [] :: (body ++ rest)) st := by
  obtain ⟨hE, last, hl, h2, h3, h4⟩ := earlyReturn_spec h
  have hor : (!orelse.isEmpty) = true := by simpa using hne
  rw [if_pos hor] at hl
  cases hl
  refine ⟨hE, h3, h4, fun rest st => ?_⟩
  rw [runAll, runAll, run, run, L.not_]
  rcases hc : L.test c st with ⟨b | x, st1⟩
  · cases b
    · obtain ⟨x, st', hx⟩ := lastEnds_ended L orelse st1 h2
      simp [hx]
    · simp [runAll, runAll_append]
  · simp

/-- C105 for an `if` without an `else` that is followed by what ends the block. -/
theorem C105_after {isElif : Bool} {prev next : Option Stmt} {c : Expr} {body : List Stmt} (h : earlyReturn isElif prev body [] next = true) :
    isElif = false ∧ ∃ s, next = some s ∧ count true true s ≤ 2 ∧ 4 ≤ countAll true true body ∧
      ∀ (rest : List Stmt) (st : St),
        runAll L (.if_ c body [] :: s :: rest) st = runAll L (.if_ (.unary .not c) [s] [] :: body) st := by
  obtain ⟨hE, last, hl, h2, h3, h4⟩ := earlyReturn_spec h
  simp only [List.isEmpty_nil, Bool.not_true, Bool.false_eq_true, if_false] at hl
  cases hb : lastEnds body with
  | false => rw [hb] at hl; simp at hl
  | true =>
    rw [hb] at hl
    cases next with
    | none => simp at hl
    | some s =>
      simp only [if_true, Option.map_some, Option.some.injEq] at hl
      subst hl
      refine ⟨hE, s, rfl, by simpa [countAll] using h3, h4, fun rest st => ?_⟩
      rw [runAll, runAll, run, run, L.not_]
      rcases hc : L.test c st with ⟨b | x, st1⟩
      · cases b
        · obtain ⟨x, st', hx⟩ := lastEnds_ended L [s] st1 h2
          rw [runAll] at hx
          simp only [Bool.false_eq_true, if_false, runAll, Sum.map_inl, Bool.not_false, if_true]
          cases hs : run L s st1 with
          | normal st2 => rw [hs] at hx; simp [runAll] at hx
          | ended => rfl
        · obtain ⟨x, st', hx⟩ := lastEnds_ended L body st1 hb
          simp [runAll, hx]
      · simp

end

/-- What ends a block: a jump, or an `if` of which both branches end with what ends a block. -/
inductive Ends : Stmt → Prop
  | jump (k : Jump) (n : Nat) : Ends (.jump k n)
  | if_ {c : Expr} {a b : List Stmt} {s t : Stmt} : Ends s → Ends t → Ends (.if_ c (a ++ [s]) (b ++ [t]))

theorem lastEnds_append (a : List Stmt) (s : Stmt) : lastEnds (a ++ [s]) = endsBlock s := by
  induction a with
  | nil => simp [lastEnds]
  | cons x a ih => rw [List.cons_append, lastEnds, if_neg (by simp), ih]

theorem ends_endsBlock {s : Stmt} (h : Ends s) : endsBlock s = true := by
  induction h with
  | jump => rfl
  | if_ _ _ ih1 ih2 =>
    rw [endsBlock, lastEnds_append, lastEnds_append, ih1, ih2]
    simp

mutual
theorem endsBlock_ends : ∀ s : Stmt, endsBlock s = true → Ends s
  | .if_ c body orelse, h => by
    simp only [endsBlock, Bool.and_eq_true] at h
    obtain ⟨a, s, rfl, hs⟩ := lastEnds_ends body h.1.1
    obtain ⟨b, t, rfl, ht⟩ := lastEnds_ends orelse h.2
    exact .if_ hs ht
  | .jump k n, _ => .jump k n
  | .simple _, h | .import_ _, h | .def_ _ _ _, h | .loop _ _ _ _, h | .try_ _ _ _ _, h | .with_ _ _, h | .match_ _ _, h => by
    simp [endsBlock] at h

theorem lastEnds_ends : ∀ b : List Stmt, lastEnds b = true → ∃ a s, b = a ++ [s] ∧ Ends s
  | [], h => by simp [lastEnds] at h
  | s :: b, h => by
    rw [lastEnds] at h
    split at h
    · rename_i hb
      have : b = [] := by simpa using hb
      exact ⟨[], s, by simp [this], endsBlock_ends s h⟩
    · obtain ⟨a, t, hb, ht⟩ := lastEnds_ends b h
      exact ⟨s :: a, t, by simp [hb], ht⟩
end

theorem lastEnds_iff {b : List Stmt} : lastEnds b = true ↔ ∃ a s, b = a ++ [s] ∧ Ends s := by
  refine ⟨lastEnds_ends b, ?_⟩
  rintro ⟨a, s, rfl, hs⟩
  rw [lastEnds_append, ends_endsBlock hs]

/-- An `if`, possibly with `elif`s but without `else`, of which each branch ends the block and has at least three statements. -/
inductive BigChain : Stmt → Prop
  | one {c : Expr} {a : List Stmt} {s : Stmt} : Ends s → 2 < countAll true true (a ++ [s]) → BigChain (.if_ c (a ++ [s]) [])
  | cons {c : Expr} {a : List Stmt} {s t : Stmt} : Ends s → 2 < countAll true true (a ++ [s]) → BigChain t → BigChain (.if_ c (a ++ [s]) [t])

theorem bigChain_large {s : Stmt} (h : BigChain s) : largeTerminated s = true := by
  induction h with
  | one hs hc => simp [largeTerminated, lastEnds_append, ends_endsBlock hs, hc]
  | cons hs hc _ ih => simp [largeTerminated, largeTerminatedOnly, lastEnds_append, ends_endsBlock hs, hc, ih]

mutual
theorem large_bigChain : ∀ s : Stmt, largeTerminated s = true → BigChain s
  | .if_ c body orelse, h => by
    simp only [largeTerminated, Bool.and_eq_true, Bool.or_eq_true, decide_eq_true_eq] at h
    obtain ⟨⟨h1, h2⟩, h3⟩ := h
    obtain ⟨a, s, rfl, hs⟩ := lastEnds_ends body h1
    rcases h3 with h3 | h3
    · have : orelse = [] := by simpa using h3
      subst this
      exact .one hs h2
    · obtain ⟨t, rfl, ht⟩ := largeOnly_bigChain orelse h3
      exact .cons hs h2 ht
  | .jump _ _, h | .simple _, h | .import_ _, h | .def_ _ _ _, h | .loop _ _ _ _, h | .try_ _ _ _ _, h | .with_ _ _, h | .match_ _ _, h => by
    simp [largeTerminated] at h

theorem largeOnly_bigChain : ∀ b : List Stmt, largeTerminatedOnly b = true → ∃ t, b = [t] ∧ BigChain t
  | [], h => by simp [largeTerminatedOnly] at h
  | [s], h => ⟨s, rfl, large_bigChain s (by simpa [largeTerminatedOnly] using h)⟩
  | _ :: _ :: _, h => by simp [largeTerminatedOnly] at h
end

/-- C105, which `if`s are reported: those that are no `elif`, with no big chain of `if`s that end the block before, that have four or more statements
and either an `else` with at most two that ends the block, or no `else`, an end that ends the block, and after them what ends it as well, with at
most two statements. -/
theorem C105_iff {isElif : Bool} {prev next : Option Stmt} {body orelse : List Stmt} :
    earlyReturn isElif prev body orelse next = true ↔
      isElif = false ∧ (∀ s, prev = some s → ¬ BigChain s) ∧ 4 ≤ countAll true true body ∧
        ((∃ a s, orelse = a ++ [s] ∧ Ends s ∧ countAll true true orelse ≤ 2) ∨
          (orelse = [] ∧ ∃ a t s, body = a ++ [t] ∧ Ends t ∧ next = some s ∧ Ends s ∧ count true true s ≤ 2)) := by
  have hprev : prevLarge prev = false ↔ ∀ s, prev = some s → ¬ BigChain s := by
    cases prev with
    | none => simp [prevLarge]
    | some s =>
      simp only [prevLarge, Option.some.injEq, forall_eq']
      refine ⟨fun h hb => (by rw [bigChain_large hb] at h; cases h), fun h => ?_⟩
      cases hl : largeTerminated s
      · rfl
      · exact (h (large_bigChain s hl)).elim
  rw [← hprev]
  constructor
  · intro h
    obtain ⟨hE, last, hl, h2, h3, h4⟩ := earlyReturn_spec h
    have hp : prevLarge prev = false := by
      cases hp : prevLarge prev
      · rfl
      · simp [earlyReturn, hp] at h
    refine ⟨hE, hp, h4, ?_⟩
    cases orelse with
    | cons x orelse =>
      simp only [List.isEmpty_cons, Bool.not_false, if_true, Option.some.injEq] at hl
      subst hl
      obtain ⟨a, s, hb, hs⟩ := lastEnds_ends _ h2
      exact .inl ⟨a, s, hb, hs, h3⟩
    | nil =>
      simp only [List.isEmpty_nil, Bool.not_true, Bool.false_eq_true, if_false] at hl
      cases hb : lastEnds body with
      | false => rw [hb] at hl; simp at hl
      | true =>
        rw [hb] at hl
        cases next with
        | none => simp at hl
        | some s =>
          simp only [if_true, Option.map_some, Option.some.injEq] at hl
          subst hl
          obtain ⟨a, t, rfl, ht⟩ := lastEnds_ends _ hb
          exact .inr ⟨rfl, a, t, s, rfl, ht, rfl, endsBlock_ends s (by simpa [lastEnds] using h2), by simpa [countAll] using h3⟩
  · rintro ⟨rfl, hp, h4, h⟩
    unfold earlyReturn
    rw [if_neg (by simp [hp])]
    rcases h with ⟨a, s, rfl, hs, h3⟩ | ⟨rfl, a, t, s, rfl, ht, rfl, hs, h3⟩
    · have : (!(a ++ [s]).isEmpty) = true := by simp
      rw [if_pos this]
      simp [lastEnds_append, ends_endsBlock hs, h3, h4]
    · have := ends_endsBlock hs
      simp [lastEnds_append, ends_endsBlock ht, lastEnds, this, countAll, h3, h4]

/-- `if c: (four statements) else: return` -/
example : earlyReturn false none (many 4) [.jump .return_ 0] none = true ∧ earlyReturn false none (many 3) [.jump .return_ 0] none = false ∧
    earlyReturn false none (many 3 ++ [.jump .continue_ 0]) [] (some (.jump .return_ 1)) = true ∧
    earlyReturn true none (many 4) [.jump .return_ 0] none = false := by decide

end Verif.Py.Code

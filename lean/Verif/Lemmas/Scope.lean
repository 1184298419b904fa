import Verif.Model.ScopePy
import Mathlib.Data.List.Perm.Basic

/-! Lemmas about scopes -/

namespace Verif.Scope

theorem importName_eq {m : Str} {a : Option Str} (h : (a.isSome || !m.contains '.') = true) :
    importName m a = boundImport m a := by
  cases a with
  | some a => rfl
  | none =>
    simp only [Option.isSome_none, Bool.false_or, Bool.not_eq_true', List.contains_eq_mem, decide_eq_false_iff_not] at h
    simp only [importName, boundImport, Option.getD_none]
    induction m with
    | nil => rfl
    | cons c m ih =>
      rw [List.mem_cons, not_or] at h
      rw [List.takeWhile_cons, if_pos (by simpa using fun hc => h.1 hc.symm), ← ih h.2]


/-! ### Dictionaries -/

theorem lookup_append (a b : Dict) (x : Str) :
    (a ++ b).lookup x = match a.lookup x with | some s => some s | none => b.lookup x := by
  induction a with
  | nil => simp
  | cons p a ih =>
    obtain ⟨y, v⟩ := p
    by_cases h : x = y
    · subst h; simp
    · have : (x == y) = false := by simp [h]
      simp [List.lookup_cons, this, ih]

theorem lookup_const (xs : List Str) (s : Nat) (x : Str) :
    List.lookup x (xs.map (fun x => (x, s))) = if xs.contains x then some s else none := by
  induction xs with
  | nil => simp
  | cons y xs ih =>
    by_cases h : x = y
    · subst h; simp
    · have : (x == y) = false := by simp [h]
      simp only [List.map_cons, List.lookup_cons, this, ih, List.contains_cons, Bool.false_or]

theorem lookup_here (s : Nat) (ps : List Occ) (x : Str) :
    (here s ps).lookup x = if (ps.map (·.1)).contains x then some s else none := by
  have : here s ps = (ps.map (·.1)).map (fun x => (x, s)) := by simp [here]
  rw [this, lookup_const]

theorem lookup_isSome (d : Dict) (x : Str) : (d.lookup x).isSome = (d.map (·.1)).contains x := by
  induction d with
  | nil => simp
  | cons p d ih =>
    obtain ⟨y, v⟩ := p
    by_cases h : x = y
    · subst h; simp
    · have : (x == y) = false := by simp [h]
      simp only [List.map_cons, List.lookup_cons, this, ih, List.contains_cons, Bool.false_or]

theorem lookup_none {d : Dict} {x : Str} (h : (d.map (·.1)).contains x = false) : d.lookup x = none := by
  have := lookup_isSome d x
  rw [h] at this
  cases hl : d.lookup x with
  | none => rfl
  | some v => rw [hl] at this; cases this

theorem map_keys (l : List Str) (g : Str → Nat) : (l.map (fun x => (x, g x))).map (·.1) = l := by
  induction l with
  | nil => rfl
  | cons x l ih => simp only [List.map_cons, ih]

/-! ### What a dictionary has -/

/-- The dictionary has what has been bound so far. -/
structure Inv (d : Dict) (f : Frame) (seen : List Str) : Prop where
  look : ∀ x, d.lookup x = if seen.contains x then f.decl.lookup x else none
  decl : ∀ x, seen.contains x = true → ∃ v, f.decl.lookup x = some v

/-- The stack has what has been bound so far. -/
inductive Rel : Stack → List Seen → Prop
  | nil : Rel [] []
  | cons {d f seen st c} : Inv d f seen → Rel st c → Rel (d :: st) ((f, seen) :: c)

theorem Inv.congr {d : Dict} {f : Frame} {a b : List Str} (h : Inv d f a) (hab : ∀ x, a.contains x = b.contains x) : Inv d f b :=
  ⟨fun x => by rw [h.look x, hab x], fun x hx => h.decl x (by rw [hab x]; exact hx)⟩

theorem Inv.self (d : Dict) (k : Kind) (s : Nat) : Inv d ⟨k, s, d⟩ (d.map (·.1)) := by
  constructor
  · intro x
    cases h : (d.map (·.1)).contains x with
    | true => simp
    | false => simp [lookup_none h]
  · intro x hx
    have := lookup_isSome d x
    rw [hx] at this
    exact Option.isSome_iff_exists.mp this

/-- More names with the same scope -/
theorem Inv.more {d : Dict} {f : Frame} {seen : List Str} (h : Inv d f seen) (xs : List Str) (s : Nat)
    (hx : ∀ x ∈ xs, f.decl.lookup x = some s) : Inv (xs.map (fun x => (x, s)) ++ d) f (xs ++ seen) := by
  constructor
  · intro x
    rw [lookup_append, lookup_const]
    cases hc : xs.contains x with
    | true =>
      have hm : x ∈ xs := by simpa using hc
      simp [hm, hx x hm]
    | false =>
      have hm : x ∉ xs := by simpa using hc
      rw [h.look x]
      simp [hm]
  · intro x hc
    by_cases hm : x ∈ xs
    · exact ⟨s, hx x hm⟩
    · exact h.decl x (by simpa [hm] using hc)

theorem find_outer {st : Stack} {c : List Seen} (h : Rel st c) (x : Str) (hok : okOuter c x = true) :
    find st x = outer (c.map (·.1)) x := by
  induction h with
  | nil => rfl
  | @cons d f seen st c hi hr ih =>
    simp only [okOuter] at hok
    simp only [find, List.map_cons, outer]
    rw [hi.look x]
    by_cases hk : f.kind = .cls
    · simp only [hk, if_true, Bool.and_eq_true, Bool.not_eq_true'] at hok ⊢
      simp only [hok.1, Bool.false_eq_true, if_false]
      exact ih hok.2
    · simp only [hk, if_false] at hok ⊢
      cases hc : seen.contains x with
      | true =>
        obtain ⟨v, hv⟩ := hi.decl x hc
        simp [hv]
      | false =>
        simp only [hc, Bool.false_eq_true, if_false, Bool.and_eq_true, Option.isNone_iff_eq_none] at hok ⊢
        simp only [hok.1]
        exact ih hok.2

theorem find_use {st : Stack} {c : List Seen} (h : Rel st c) (x : Str) (hok : okUse c x = true) :
    find st x = varOf (c.map (·.1)) x := by
  cases h with
  | nil => rfl
  | @cons d f seen st c hi hr =>
    simp only [okUse] at hok
    simp only [find, List.map_cons, varOf]
    rw [hi.look x]
    cases hc : seen.contains x with
    | true =>
      obtain ⟨v, hv⟩ := hi.decl x hc
      simp [hv]
    | false =>
      simp only [hc, Bool.false_eq_true, if_false, Bool.and_eq_true, Option.isNone_iff_eq_none] at hok ⊢
      simp only [hok.1]
      exact find_outer hr x hok.2

/-! ### Names that do not matter -/

/-- The stacks agree but for some names. -/
def Agree (xs : List Str) (a b : Stack) : Prop := ∀ x, xs.contains x = false → find a x = find b x

theorem Agree.cons {xs : List Str} {a b : Stack} (h : Agree xs a b) (d : Dict) : Agree xs (d :: a) (d :: b) := by
  intro x hx
  simp only [find, h x hx]

mutual
theorem Exp.collect_agree (xs : List Str) : ∀ (e : Exp) (a b : Stack), Agree xs a b → e.avoids xs = true → e.collect a = e.collect b
  | .name x id, a, b, h, hv => by
    simp only [Exp.avoids, Bool.not_eq_true'] at hv
    simp only [Exp.collect, event, h x hv]
  | .many es, a, b, h, hv => by
    simp only [Exp.avoids] at hv
    simp only [Exp.collect]
    exact es.collect_agree xs a b h hv
  | .skipped es, a, b, h, hv => by simp only [Exp.collect]
  | .lam s ps e, a, b, h, hv => by
    simp only [Exp.avoids] at hv
    simp only [Exp.collect]
    rw [e.collect_agree xs _ _ (h.cons _) hv]
  | .comp s gens ws es, a, b, h, hv => by
    simp only [Exp.avoids, Bool.and_eq_true] at hv
    simp only [Exp.collect]
    rw [gens.collect_agree xs s [] a b h hv.1, es.collect_agree xs _ _ (h.cons _) hv.2]
theorem Exps.collect_agree (xs : List Str) : ∀ (e : Exps) (a b : Stack), Agree xs a b → e.avoids xs = true → e.collect a = e.collect b
  | .nil, _, _, _, _ => by simp only [Exps.collect]
  | .cons e rest, a, b, h, hv => by
    simp only [Exps.avoids, Bool.and_eq_true] at hv
    simp only [Exps.collect]
    rw [e.collect_agree xs a b h hv.1, rest.collect_agree xs a b h hv.2]
theorem Gens.collect_agree (xs : List Str) : ∀ (g : Gens) (s : Nat) (d : Dict) (a b : Stack), Agree xs a b → g.avoids xs = true →
    g.collect s d a = g.collect s d b
  | .nil, _, _, _, _, _, _ => by simp only [Gens.collect]
  | .cons ts it ifs rest, s, d, a, b, h, hv => by
    simp only [Gens.avoids, Bool.and_eq_true] at hv
    simp only [Gens.collect]
    rw [it.collect_agree xs _ _ (h.cons _) hv.1.1, ifs.collect_agree xs _ _ (h.cons _) hv.1.2,
      rest.collect_agree xs s _ a b h hv.2]
end

theorem agree_here (s : Nat) (ps : List Occ) (st : Stack) : Agree (ps.map (·.1)) (here s ps :: st) st := by
  intro x hx
  simp only [find, lookup_here, hx, Bool.false_eq_true, if_false]

theorem agree_nil (xs : List Str) (st : Stack) : Agree xs ([] :: st) st := by
  intro x _
  simp [find]

mutual
theorem Exp.avoids_nil : ∀ e : Exp, e.avoids [] = true
  | .name x id => by simp [Exp.avoids]
  | .many es => by simp only [Exp.avoids]; exact es.avoids_nil
  | .skipped es => by simp only [Exp.avoids]; exact es.avoids_nil
  | .lam s ps e => by simp only [Exp.avoids]; exact e.avoids_nil
  | .comp s gens ws es => by simp only [Exp.avoids, gens.avoids_nil, es.avoids_nil, Bool.and_self]
theorem Exps.avoids_nil : ∀ e : Exps, e.avoids [] = true
  | .nil => by simp only [Exps.avoids]
  | .cons e rest => by simp only [Exps.avoids, e.avoids_nil, rest.avoids_nil, Bool.and_self]
theorem Gens.avoids_nil : ∀ e : Gens, e.avoids [] = true
  | .nil => by simp only [Gens.avoids]
  | .cons ts it ifs rest => by
    simp only [Gens.avoids, it.avoids_nil, ifs.avoids_nil, rest.avoids_nil, Bool.and_self]
end

/-! ### Expressions -/

theorem known_append (a b : List Meaning) : known (a ++ b) = known a ++ known b := by simp [known]

theorem known_here (s : Nat) (ps : List Occ) : known (ps.map (fun p => (p.2, p.1, some s))) = hereEvents s ps := by
  induction ps with
  | nil => rfl
  | cons p ps ih =>
    simp only [known, hereEvents, List.map_cons] at ih ⊢
    simp only [List.filterMap_cons, Option.map_some, ih]

theorem known_event (st : Stack) (id : Nat) (x : Str) (v : Option Nat) (h : find st x = v) :
    event st x id = known [(id, x, v)] := by
  subst h
  cases hf : find st x <;> simp [event, known, hf]

/-- The names that generators bind -/
def Gens.names : Gens → List Str
  | .nil => []
  | .cons ts _ _ rest => ts.map (·.1) ++ rest.names

theorem Gens.all_lookup : ∀ (g : Gens) (s : Nat) (d : Dict) (x : Str), x ∈ g.names ∨ d.lookup x = some s →
    (g.all s d).lookup x = some s
  | .nil, s, d, x, h => by
    rcases h with h | h
    · simp [Gens.names] at h
    · simpa only [Gens.all] using h
  | .cons ts it ifs rest, s, d, x, h => by
    simp only [Gens.all]
    apply rest.all_lookup
    by_cases hr : x ∈ rest.names
    · exact Or.inl hr
    · right
      rw [lookup_append, lookup_here]
      by_cases hm : x ∈ ts.map (·.1)
      · have : (ts.map (·.1)).contains x = true := by simpa using hm
        simp only [this, if_true]
      · have hc : (ts.map (·.1)).contains x = false := by simpa using hm
        simp only [hc, Bool.false_eq_true, if_false]
        rcases h with h | h
        · simp only [Gens.names, List.mem_append] at h
          rcases h with h | h
          · exact absurd h hm
          · exact absurd h hr
        · exact h

theorem here_eq (s : Nat) (ps : List Occ) : here s ps = (ps.map (·.1)).map (fun x => (x, s)) := by simp [here]

mutual
theorem Exp.collect_eq : ∀ (e : Exp) (st : Stack) (c : List Seen), Rel st c → e.ok c = true →
    e.collect st = known (e.means (c.map (·.1)))
  | .name x id, st, c, hr, hok => by
    simp only [Exp.ok] at hok
    simp only [Exp.collect, Exp.means]
    exact known_event _ _ _ _ (find_use hr x hok)
  | .many es, st, c, hr, hok => by
    simp only [Exp.ok] at hok
    simp only [Exp.collect, Exp.means]
    exact es.collect_eq st c hr hok
  | .skipped es, st, c, hr, hok => by
    simp only [Exp.ok] at hok
    cases es with
    | nil => simp [Exp.collect, Exp.means, Exps.means, known]
    | cons e rest => simp [Exps.isNil] at hok
  | .lam s ps b, st, c, hr, hok => by
    simp only [Exp.ok] at hok
    simp only [Exp.collect, Exp.means, known_append, known_here]
    have hi : Inv (here s ps) ⟨.fn, s, here s ps ++ b.walrus.map (fun x => (x, s))⟩ (ps.map (·.1)) := by
      constructor
      · intro x
        rw [lookup_append, lookup_here]
        cases (ps.map (·.1)).contains x <;> simp
      · intro x hx
        exact ⟨s, by rw [lookup_append, lookup_here, hx]; simp⟩
    rw [b.collect_eq _ _ (.cons hi hr) hok]
    simp
  | .comp s gens ws es, st, c, hr, hok => by
    simp only [Exp.ok, Bool.and_eq_true, List.isEmpty_iff] at hok
    obtain ⟨⟨hw, hg⟩, he⟩ := hok
    subst hw
    simp only [Exp.collect, Exp.means, known_append]
    rw [gens.collect_eq s ⟨.comp, s, gens.all s []⟩ true [] [] st c hr (fun _ => rfl)
      ⟨fun x => by simp, fun x hx => by simp at hx⟩ (fun x hx => gens.all_lookup s [] x (Or.inl hx)) hg]
    have h2 := es.collect_eq _ _ (.cons (Inv.self (gens.all s []) .comp s) hr) he
    simp only [here, List.map_nil, List.nil_append, hereEvents]
    rw [h2]
    simp [known]
theorem Exps.collect_eq : ∀ (e : Exps) (st : Stack) (c : List Seen), Rel st c → e.ok c = true →
    e.collect st = known (e.means (c.map (·.1)))
  | .nil, _, _, _, _ => by simp [Exps.collect, Exps.means, known]
  | .cons e rest, st, c, hr, hok => by
    simp only [Exps.ok, Bool.and_eq_true] at hok
    simp only [Exps.collect, Exps.means, known_append]
    rw [e.collect_eq st c hr hok.1, rest.collect_eq st c hr hok.2]
theorem Gens.collect_eq : ∀ (g : Gens) (s : Nat) (f : Frame) (first : Bool) (seen : List Str) (d : Dict) (st : Stack) (c : List Seen),
    Rel st c → (first = true → d = []) → Inv d f seen → (∀ x ∈ g.names, f.decl.lookup x = some s) → g.ok s f first seen c = true →
    g.collect s d st = known (g.means s f first (c.map (·.1)))
  | .nil, _, _, _, _, _, _, _, _, _, _, _, _ => by simp [Gens.collect, Gens.means, known]
  | .cons ts it ifs rest, s, f, first, seen, d, st, c, hr, hd, hi, hn, hok => by
    simp only [Gens.ok, Bool.and_eq_true] at hok
    obtain ⟨⟨h1, h2⟩, h3⟩ := hok
    have hi' : Inv (here s ts ++ d) f (ts.map (·.1) ++ seen) := by
      rw [here_eq]
      exact hi.more _ s (fun x hx => hn x (by simp only [Gens.names, List.mem_append]; exact Or.inl hx))
    simp only [Gens.collect, Gens.means, known_append, known_here]
    rw [rest.collect_eq s f false _ _ st c hr (fun h => by cases h) hi'
      (fun x hx => hn x (by simp only [Gens.names, List.mem_append]; exact Or.inr hx)) h3,
      ifs.collect_eq _ _ (.cons hi' hr) h2]
    have hit : it.collect ((here s ts ++ d) :: st) = known (it.means (if first = true then c.map (·.1) else f :: c.map (·.1))) := by
      cases first with
      | true =>
        simp only [if_true, Bool.and_eq_true] at h1 ⊢
        rw [hd rfl, List.append_nil, it.collect_agree _ _ _ (agree_here s ts st) h1.2]
        exact it.collect_eq st c hr h1.1
      | false =>
        simp only [Bool.false_eq_true, if_false] at h1 ⊢
        exact it.collect_eq _ _ (.cons hi' hr) h1
    rw [hit]
    simp
end

/-! ### Statements that are no definitions -/

theorem assign_ok {d : Dict} {f : Frame} {seen : List Str} (hi : Inv d f seen) (x : Str) (id : Nat) (st : Stack) (fs : List Frame)
    (hb : okBind f seen x = true) :
    ∃ d', assign f.id (d :: st) x id = (known [(id, x, varOf (f :: fs) x)], d' :: st) ∧ Inv d' f ([x] ++ seen) := by
  have key : ∃ v, f.decl.lookup x = some v ∧ given f.id (d :: st) x = v := by
    simp only [given, hi.look x]
    cases hc : seen.contains x with
    | true =>
      obtain ⟨v, hv⟩ := hi.decl x hc
      exact ⟨v, hv, by simp [hv]⟩
    | false =>
      simp only [okBind, hc, Bool.false_or, beq_iff_eq] at hb
      exact ⟨f.id, hb, by simp⟩
  obtain ⟨v, hv, hg⟩ := key
  refine ⟨(x, v) :: d, ?_, ?_⟩
  · simp [assign, put, hg, varOf, hv, known]
  · exact hi.more [x] v (fun y hy => by simp at hy; subst hy; exact hv)

mutual
theorem Stmt.collect_ok : ∀ (s : Stmt) (f : Frame) (seen : List Str) (c : List Seen) (d : Dict) (st : Stack), Inv d f seen → Rel st c →
    (∀ x ∈ s.globs, f.decl.lookup x = some 0) → s.ok f seen c = true →
    ∃ d', s.collect f.id (parentOf c) (d :: st) = (known (s.means (f :: c.map (·.1))), d' :: st) ∧ Inv d' f (s.sees ++ seen)
  | .expr e, f, seen, c, d, st, hi, hr, hg, hok => by
    simp only [Stmt.ok] at hok
    refine ⟨d, ?_, by simpa [Stmt.sees] using hi⟩
    simp only [Stmt.collect, Stmt.means]
    rw [e.collect_eq _ _ (.cons hi hr) hok]
    simp
  | .bind x id, f, seen, c, d, st, hi, hr, hg, hok => by
    simp only [Stmt.ok] at hok
    simp only [Stmt.collect, Stmt.means, Stmt.sees]
    exact assign_ok hi x id st _ hok
  | .imp m a id, f, seen, c, d, st, hi, hr, hg, hok => by
    simp only [Stmt.ok, Bool.and_eq_true] at hok
    simp only [Stmt.collect, Stmt.means, Stmt.sees, importName_eq hok.1]
    exact assign_ok hi _ id st _ hok.2
  | .del x id, f, seen, c, d, st, hi, hr, hg, hok => by simp [Stmt.ok] at hok
  | .glob xs, f, seen, c, d, st, hi, hr, hg, hok => by
    refine ⟨xs.map (fun x => (x, 0)) ++ d, by simp [Stmt.collect, Stmt.means, puts, known], ?_⟩
    simp only [Stmt.sees]
    exact hi.more xs 0 (fun x hx => hg x (by simpa [Stmt.globs] using hx))
  | .nonloc xs, f, seen, c, d, st, hi, hr, hg, hok => by
    simp only [Stmt.ok, List.all_eq_true, beq_iff_eq] at hok
    refine ⟨xs.map (fun x => (x, parentOf c)) ++ d, by simp [Stmt.collect, Stmt.means, puts, known], ?_⟩
    simp only [Stmt.sees]
    exact hi.more xs _ hok
  | .block ss, f, seen, c, d, st, hi, hr, hg, hok => by
    simp only [Stmt.ok] at hok
    simp only [Stmt.collect, Stmt.means, Stmt.sees]
    exact ss.collect_ok f seen c d st hi hr (fun x hx => hg x (by simpa [Stmt.globs] using hx)) hok
  | .def_ .., f, seen, c, d, st, hi, hr, hg, hok => by simp [Stmt.ok] at hok
  | .class_ .., f, seen, c, d, st, hi, hr, hg, hok => by simp [Stmt.ok] at hok
theorem Stmts.collect_ok : ∀ (s : Stmts) (f : Frame) (seen : List Str) (c : List Seen) (d : Dict) (st : Stack), Inv d f seen → Rel st c →
    (∀ x ∈ s.globs, f.decl.lookup x = some 0) → s.ok f seen c = true →
    ∃ d', s.collect f.id (parentOf c) (d :: st) = (known (s.means (f :: c.map (·.1))), d' :: st) ∧ Inv d' f (s.sees ++ seen)
  | .nil, f, seen, c, d, st, hi, hr, hg, hok => ⟨d, by simp [Stmts.collect, Stmts.means, known], by simpa [Stmts.sees] using hi⟩
  | .cons s rest, f, seen, c, d, st, hi, hr, hg, hok => by
    simp only [Stmts.ok, Bool.and_eq_true] at hok
    simp only [Stmts.globs, List.mem_append] at hg
    obtain ⟨d1, h1, i1⟩ := s.collect_ok f seen c d st hi hr (fun x hx => hg x (Or.inl hx)) hok.1
    obtain ⟨d2, h2, i2⟩ := rest.collect_ok f _ c d1 st i1 hr (fun x hx => hg x (Or.inr hx)) hok.2
    refine ⟨d2, ?_, by simpa [Stmts.sees] using i2⟩
    simp only [Stmts.collect, Stmts.means, h1, h2, known_append]
end

/-! ### Bodies -/

/-- What is visited first -/
def Stmts.firsts : Stmts → List Frame → List Meaning
  | .nil, _ => []
  | .cons s rest, fs => (if s.defined.isSome then (s.means fs).take 1 else s.means fs) ++ rest.firsts fs

/-- What is visited later -/
def Stmts.seconds : Stmts → List Frame → List Meaning
  | .nil, _ => []
  | .cons s rest, fs => (if s.defined.isSome then (s.means fs).drop 1 else []) ++ rest.seconds fs

theorem Stmts.firsts_seconds : ∀ (ss : Stmts) (fs : List Frame), (ss.firsts fs ++ ss.seconds fs).Perm (ss.means fs)
  | .nil, fs => by simp [Stmts.firsts, Stmts.seconds, Stmts.means]
  | .cons s rest, fs => by
    simp only [Stmts.firsts, Stmts.seconds, Stmts.means]
    have ih := rest.firsts_seconds fs
    generalize rest.firsts fs = a at *
    generalize rest.seconds fs = b at *
    have key : ∀ u v : List Meaning, ((u ++ a) ++ (v ++ b)).Perm ((u ++ v) ++ (a ++ b)) := by
      intro u v
      rw [List.append_assoc, List.append_assoc]
      apply List.Perm.append_left
      rw [← List.append_assoc, ← List.append_assoc]
      exact List.Perm.append_right _ List.perm_append_comm
    refine (key _ _).trans ?_
    have hs : ((if s.defined.isSome = true then (s.means fs).take 1 else s.means fs) ++
        (if s.defined.isSome = true then (s.means fs).drop 1 else [])) = s.means fs := by
      cases s.defined.isSome
      · simp
      · simp only [if_true, List.take_append_drop]
    rw [hs]
    exact List.Perm.append_left _ ih

theorem Stmts.body_ok : ∀ (ss : Stmts) (f : Frame) (seen : List Str) (c : List Seen) (d : Dict) (st : Stack), Inv d f seen → Rel st c →
    (∀ x ∈ ss.globs, f.decl.lookup x = some 0) → ss.okBody f seen c = true →
    ∃ d', ss.before f.id (parentOf c) (d :: st) = (known (ss.firsts (f :: c.map (·.1))), d' :: st) ∧ Inv d' f (ss.sees ++ seen)
  | .nil, f, seen, c, d, st, hi, hr, hg, hok => ⟨d, by simp [Stmts.before, Stmts.firsts, known], by simpa [Stmts.sees] using hi⟩
  | .cons s rest, f, seen, c, d, st, hi, hr, hg, hok => by
    simp only [Stmts.okBody, Bool.and_eq_true] at hok
    simp only [Stmts.globs, List.mem_append] at hg
    have h0 : ∃ d1, (match s.defined with
        | some (x, id) => assign f.id (d :: st) x id
        | none => s.collect f.id (parentOf c) (d :: st)) =
          (known (if s.defined.isSome then (s.means (f :: c.map (·.1))).take 1 else s.means (f :: c.map (·.1))), d1 :: st) ∧
          Inv d1 f (s.sees ++ seen) := by
      have hgs : ∀ x ∈ s.globs, f.decl.lookup x = some 0 := fun x hx => hg x (Or.inl hx)
      have h1 := hok.1
      have hc := s.collect_ok f seen c d st hi hr hgs
      cases s with
      | def_ x id sc ann ps ds b =>
        simp only [Stmt.defined, Stmt.means, Stmt.sees, Option.isSome_some, if_true] at h1 ⊢
        exact assign_ok hi x id st _ h1
      | class_ x id sc b =>
        simp only [Stmt.defined, Stmt.means, Stmt.sees, Option.isSome_some, if_true] at h1 ⊢
        exact assign_ok hi x id st _ h1
      | _ =>
        simp only [Stmt.defined, Option.isSome_none, Bool.false_eq_true, if_false] at h1 ⊢
        exact hc h1
    obtain ⟨d1, h1, i1⟩ := h0
    obtain ⟨d2, h2, i2⟩ := rest.body_ok f _ c d1 st i1 hr (fun x hx => hg x (Or.inr hx)) hok.2
    refine ⟨d2, ?_, by simpa [Stmts.sees] using i2⟩
    simp only [Stmts.before, Stmts.firsts, known_append]
    cases hdf : s.defined with
    | none =>
      simp only [hdf] at h1 ⊢
      simp only [h1, h2]
    | some q =>
      obtain ⟨x, id⟩ := q
      simp only [hdf] at h1 ⊢
      simp only [h1, h2]

/-! ### What a body binds -/

mutual
theorem Exp.ok_walrus : ∀ (e : Exp) (c : List Seen), e.ok c = true → e.walrus = []
  | .name _ _, _, _ => by simp only [Exp.walrus]
  | .many es, c, h => by simp only [Exp.walrus, Exp.ok] at *; exact es.ok_walrus c h
  | .skipped es, c, h => by
    simp only [Exp.walrus, Exp.ok] at *
    cases es with
    | nil => simp only [Exps.walrus]
    | cons _ _ => simp [Exps.isNil] at h
  | .lam _ _ _, _, _ => by simp only [Exp.walrus]
  | .comp s gens ws es, c, h => by
    simp only [Exp.ok, Bool.and_eq_true, List.isEmpty_iff] at h
    simp only [Exp.walrus, h.1.1, gens.ok_walrus _ _ _ _ _ h.1.2, es.ok_walrus _ h.2, List.map_nil, List.append_nil]
theorem Exps.ok_walrus : ∀ (e : Exps) (c : List Seen), e.ok c = true → e.walrus = []
  | .nil, _, _ => by simp only [Exps.walrus]
  | .cons e rest, c, h => by
    simp only [Exps.ok, Bool.and_eq_true] at h
    simp only [Exps.walrus, e.ok_walrus c h.1, rest.ok_walrus c h.2, List.append_nil]
theorem Gens.ok_walrus : ∀ (g : Gens) (s : Nat) (f : Frame) (first : Bool) (seen : List Str) (c : List Seen),
    g.ok s f first seen c = true → g.walrus = []
  | .nil, _, _, _, _, _, _ => by simp only [Gens.walrus]
  | .cons ts it ifs rest, s, f, first, seen, c, h => by
    simp only [Gens.ok, Bool.and_eq_true] at h
    have hit : it.walrus = [] := by
      cases first with
      | true =>
        have := h.1.1
        simp only [if_true, Bool.and_eq_true] at this
        exact it.ok_walrus _ this.1
      | false =>
        have := h.1.1
        simp only [Bool.false_eq_true, if_false] at this
        exact it.ok_walrus _ this
    simp only [Gens.walrus, hit, ifs.ok_walrus _ h.1.2, rest.ok_walrus _ _ _ _ _ h.2, List.append_nil]
end

/-- All that is bound or declared -/
def Stmts.declared (b : Stmts) : List Str := b.globs ++ b.nonlocs ++ b.binds

mutual
theorem Stmt.sees_ok : ∀ (s : Stmt) (f : Frame) (seen : List Str) (c : List Seen), s.ok f seen c = true →
    ∀ x, x ∈ s.globs ∨ x ∈ s.nonlocs ∨ x ∈ s.binds → x ∈ s.sees
  | .expr e, f, seen, c, h, x, hx => by
    simp only [Stmt.ok] at h
    simp [Stmt.globs, Stmt.nonlocs, Stmt.binds, e.ok_walrus _ h] at hx
  | .bind y _, f, seen, c, h, x, hx => by simpa [Stmt.globs, Stmt.nonlocs, Stmt.binds, Stmt.sees] using hx
  | .imp m a _, f, seen, c, h, x, hx => by simpa [Stmt.globs, Stmt.nonlocs, Stmt.binds, Stmt.sees] using hx
  | .del _ _, f, seen, c, h, x, hx => by simp [Stmt.ok] at h
  | .glob xs, f, seen, c, h, x, hx => by simpa [Stmt.globs, Stmt.nonlocs, Stmt.binds, Stmt.sees] using hx
  | .nonloc xs, f, seen, c, h, x, hx => by simpa [Stmt.globs, Stmt.nonlocs, Stmt.binds, Stmt.sees] using hx
  | .block ss, f, seen, c, h, x, hx => by
    simp only [Stmt.ok] at h
    simp only [Stmt.globs, Stmt.nonlocs, Stmt.binds, Stmt.sees] at *
    exact ss.sees_ok f seen c h x hx
  | .def_ .., f, seen, c, h, x, hx => by simp [Stmt.ok] at h
  | .class_ .., f, seen, c, h, x, hx => by simp [Stmt.ok] at h
theorem Stmts.sees_ok : ∀ (s : Stmts) (f : Frame) (seen : List Str) (c : List Seen), s.ok f seen c = true →
    ∀ x, x ∈ s.globs ∨ x ∈ s.nonlocs ∨ x ∈ s.binds → x ∈ s.sees
  | .nil, f, seen, c, h, x, hx => by simp [Stmts.globs, Stmts.nonlocs, Stmts.binds] at hx
  | .cons s rest, f, seen, c, h, x, hx => by
    simp only [Stmts.ok, Bool.and_eq_true] at h
    simp only [Stmts.globs, Stmts.nonlocs, Stmts.binds, Stmts.sees, List.mem_append] at *
    have h1 := s.sees_ok f seen c h.1 x
    have h2 := rest.sees_ok f _ c h.2 x
    rcases hx with (hx | hx) | (hx | hx) | (hx | hx)
    · exact Or.inr (h1 (Or.inl hx))
    · exact Or.inl (h2 (Or.inl hx))
    · exact Or.inr (h1 (Or.inr (Or.inl hx)))
    · exact Or.inl (h2 (Or.inr (Or.inl hx)))
    · exact Or.inr (h1 (Or.inr (Or.inr hx)))
    · exact Or.inl (h2 (Or.inr (Or.inr hx)))
end

theorem Stmts.sees_body : ∀ (ss : Stmts) (f : Frame) (seen : List Str) (c : List Seen), ss.okBody f seen c = true →
    ss.okDefs f c = true → ∀ x, x ∈ ss.globs ∨ x ∈ ss.nonlocs ∨ x ∈ ss.binds → x ∈ ss.sees
  | .nil, f, seen, c, h, _, x, hx => by simp [Stmts.globs, Stmts.nonlocs, Stmts.binds] at hx
  | .cons s rest, f, seen, c, h, hd, x, hx => by
    simp only [Stmts.okBody, Bool.and_eq_true] at h
    simp only [Stmts.okDefs, Bool.and_eq_true] at hd
    simp only [Stmts.globs, Stmts.nonlocs, Stmts.binds, Stmts.sees, List.mem_append] at *
    have h1 : x ∈ s.globs ∨ x ∈ s.nonlocs ∨ x ∈ s.binds → x ∈ s.sees := by
      have h1 := h.1
      have hd1 := hd.1
      cases s with
      | def_ y id sc ann ps ds b =>
        simp only [Stmt.okDef, Bool.and_eq_true] at hd1
        intro hx
        simpa [Stmt.globs, Stmt.nonlocs, Stmt.binds, Stmt.sees, ann.ok_walrus _ hd1.1.1.1.1.1, ds.ok_walrus _ hd1.1.1.1.1.2] using hx
      | class_ y id sc b =>
        intro hx
        simpa [Stmt.globs, Stmt.nonlocs, Stmt.binds, Stmt.sees] using hx
      | _ =>
        simp only [Stmt.defined] at h1
        exact Stmt.sees_ok _ f seen c h1 x
    have h2 := rest.sees_body f _ c h.2 hd.2 x
    rcases hx with (hx | hx) | (hx | hx) | (hx | hx)
    · exact Or.inr (h1 (Or.inl hx))
    · exact Or.inl (h2 (Or.inl hx))
    · exact Or.inr (h1 (Or.inr (Or.inl hx)))
    · exact Or.inl (h2 (Or.inr (Or.inl hx)))
    · exact Or.inr (h1 (Or.inr (Or.inr hx)))
    · exact Or.inl (h2 (Or.inr (Or.inr hx)))

/-- After the first pass, everything that the scope declares is there. -/
theorem Inv.complete {d : Dict} {f : Frame} {seen : List Str} (h : Inv d f seen) (hd : ∀ x, x ∈ f.decl.map (·.1) → x ∈ seen) :
    Inv d f (f.decl.map (·.1)) := by
  apply h.congr
  intro x
  by_cases hx : x ∈ f.decl.map (·.1)
  · have h1 : (f.decl.map (·.1)).contains x = true := by simpa using hx
    have h2 : seen.contains x = true := by simpa using hd x hx
    rw [h1, h2]
  · have h1 : (f.decl.map (·.1)).contains x = false := by simpa using hx
    rw [h1]
    cases hs : seen.contains x with
    | false => rfl
    | true =>
      obtain ⟨v, hv⟩ := h.decl x hs
      have := lookup_isSome f.decl x
      rw [hv, h1] at this
      cases this

theorem frameOf_keys (k : Kind) (s : Nat) (ps : List Occ) (b : Stmts) (fs : List Frame) (x : Str)
    (h : x ∈ (frameOf k s ps b fs).decl.map (·.1)) : x ∈ ps.map (·.1) ∨ x ∈ b.globs ∨ x ∈ b.nonlocs ∨ x ∈ b.binds := by
  have e1 : ∀ l : List Str, (l.map (fun x => (x, (outer fs.dropLast x).getD s))).map (·.1) = l := fun l => map_keys l _
  have e2 : ∀ (l : List Str) (v : Nat), (l.map (fun x => (x, v))).map (·.1) = l := fun l _ => map_keys l _
  have e3 : (here s ps).map (·.1) = ps.map (·.1) := by simp [here]
  simp only [frameOf, List.map_append, e1, e2, e3, List.mem_append] at h
  rcases h with ((h | h) | h) | h
  · exact Or.inr (Or.inl h)
  · exact Or.inr (Or.inr (Or.inl h))
  · exact Or.inl h
  · exact Or.inr (Or.inr (Or.inr h))

theorem frameOf_globs (k : Kind) (s : Nat) (ps : List Occ) (b : Stmts) (fs : List Frame) (x : Str) (h : x ∈ b.globs) :
    (frameOf k s ps b fs).decl.lookup x = some 0 := by
  simp only [frameOf, lookup_append, lookup_const]
  have : b.globs.contains x = true := by simpa using h
  simp only [this, if_true]

theorem Inv.params (s : Nat) (ps : List Occ) (f : Frame) (h : ∀ p ∈ ps, f.decl.lookup p.1 = some s) :
    Inv (here s ps) f (ps.map (·.1)) := by
  have h0 : Inv [] f [] := ⟨fun x => by simp, fun x hx => by simp at hx⟩
  have := h0.more (ps.map (·.1)) s (fun x hx => by
    rw [List.mem_map] at hx
    obtain ⟨p, hp, rfl⟩ := hx
    exact h p hp)
  rw [List.append_nil, List.append_nil] at this
  rw [here_eq]
  exact this

/-! ### Definitions -/

mutual
theorem Stmt.def_ok : ∀ (s : Stmt) (f : Frame) (c : List Seen) (d : Dict) (st : Stack) (pr : Nat), s.defined.isSome = true →
    Inv d f (f.decl.map (·.1)) → Rel st c → s.okDef f c = true →
    ∃ es, s.collect f.id pr (d :: st) = (es, d :: st) ∧ es.Perm (known ((s.means (f :: c.map (·.1))).drop 1))
  | .def_ x id s ann ps ds b, f, c, d, st, pr, _, hi, hr, hok => by
    simp only [Stmt.okDef, Bool.and_eq_true, List.all_eq_true, beq_iff_eq] at hok
    obtain ⟨⟨⟨⟨⟨ha, hd⟩, hav⟩, hps⟩, hb⟩, hdf⟩ := hok
    have hrel : Rel (d :: st) ((f, f.decl.map (·.1)) :: c) := .cons hi hr
    obtain ⟨d1, h1, i1⟩ := b.body_ok (frameOf .fn s ps b (f :: c.map (·.1))) (ps.map (·.1)) ((f, f.decl.map (·.1)) :: c) (here s ps) (d :: st)
      (Inv.params s ps _ hps) hrel (fun x hx => frameOf_globs _ _ _ _ _ x hx) hb
    have i2 := i1.complete (fun x hx => by
      rw [List.mem_append]
      rcases frameOf_keys _ _ _ _ _ x hx with h | h
      · exact Or.inr h
      · exact Or.inl (b.sees_body _ _ _ hb hdf x h))
    obtain ⟨es, h2, p2⟩ := b.defs_ok _ _ d1 (d :: st) f.id i2 hrel hdf
    have hid : (frameOf .fn s ps b (f :: c.map (·.1))).id = s := rfl
    have hpar : parentOf ((f, f.decl.map (·.1)) :: c) = f.id := rfl
    rw [hid, hpar] at h1
    rw [hid] at h2
    have hann : ann.collect ([] :: d :: st) = known (ann.means (f :: c.map (·.1))) := by
      rw [ann.collect_agree [] _ _ (agree_nil [] _) ann.avoids_nil]
      exact ann.collect_eq _ _ hrel ha
    have hds : ds.collect (here s ps :: d :: st) = known (ds.means (f :: c.map (·.1))) := by
      rw [ds.collect_agree _ _ _ (agree_here s ps (d :: st)) hav]
      exact ds.collect_eq _ _ hrel hd
    simp only [Stmt.collect, h1, h2, List.tail_cons]
    refine ⟨_, rfl, ?_⟩
    simp only [Stmt.means, List.drop_succ_cons, List.drop_zero, known_append, known_here, hann, hds]
    rw [List.append_assoc]
    apply List.Perm.append_left
    refine (List.Perm.append_left _ p2).trans ?_
    rw [← known_append]
    exact (b.firsts_seconds _).filterMap _
  | .class_ x id s b, f, c, d, st, pr, _, hi, hr, hok => by
    simp only [Stmt.okDef, Bool.and_eq_true] at hok
    obtain ⟨hb, hdf⟩ := hok
    have hrel : Rel (d :: st) ((f, f.decl.map (·.1)) :: c) := .cons hi hr
    obtain ⟨d1, h1, i1⟩ := b.body_ok (frameOf .cls s [] b (f :: c.map (·.1))) [] ((f, f.decl.map (·.1)) :: c) [] (d :: st)
      ⟨fun x => by simp, fun x hx => by simp at hx⟩ hrel (fun x hx => frameOf_globs _ _ _ _ _ x hx) hb
    have i2 := i1.complete (fun x hx => by
      rw [List.mem_append]
      rcases frameOf_keys _ _ _ _ _ x hx with h | h
      · simp at h
      · exact Or.inl (b.sees_body _ _ _ hb hdf x h))
    obtain ⟨es, h2, p2⟩ := b.defs_ok _ _ d1 (d :: st) f.id i2 hrel hdf
    have hid : (frameOf .cls s [] b (f :: c.map (·.1))).id = s := rfl
    have hpar : parentOf ((f, f.decl.map (·.1)) :: c) = f.id := rfl
    rw [hid, hpar] at h1
    rw [hid] at h2
    simp only [Stmt.collect, h1, h2, List.tail_cons]
    refine ⟨_, rfl, ?_⟩
    simp only [Stmt.means, List.drop_succ_cons, List.drop_zero]
    refine (List.Perm.append_left _ p2).trans ?_
    rw [← known_append]
    exact (b.firsts_seconds _).filterMap _
  | .expr .., _, _, _, _, _, h, _, _, _ => by simp [Stmt.defined] at h
  | .bind .., _, _, _, _, _, h, _, _, _ => by simp [Stmt.defined] at h
  | .imp .., _, _, _, _, _, h, _, _, _ => by simp [Stmt.defined] at h
  | .del .., _, _, _, _, _, h, _, _, _ => by simp [Stmt.defined] at h
  | .glob .., _, _, _, _, _, h, _, _, _ => by simp [Stmt.defined] at h
  | .nonloc .., _, _, _, _, _, h, _, _, _ => by simp [Stmt.defined] at h
  | .block .., _, _, _, _, _, h, _, _, _ => by simp [Stmt.defined] at h
theorem Stmts.defs_ok : ∀ (ss : Stmts) (f : Frame) (c : List Seen) (d : Dict) (st : Stack) (pr : Nat),
    Inv d f (f.decl.map (·.1)) → Rel st c → ss.okDefs f c = true →
    ∃ es, ss.later f.id pr (d :: st) = (es, d :: st) ∧ es.Perm (known (ss.seconds (f :: c.map (·.1))))
  | .nil, _, _, _, _, _, _, _, _ => by simp [Stmts.later, Stmts.seconds, known]
  | .cons s rest, f, c, d, st, pr, hi, hr, hok => by
    simp only [Stmts.okDefs, Bool.and_eq_true] at hok
    obtain ⟨e2, h2, p2⟩ := rest.defs_ok f c d st pr hi hr hok.2
    by_cases hd : s.defined.isSome = true
    · obtain ⟨e1, h1, p1⟩ := s.def_ok f c d st pr hd hi hr hok.1
      refine ⟨e1 ++ e2, ?_, ?_⟩
      · simp only [Stmts.later, hd, if_true, h1, h2]
      · simp only [Stmts.seconds, hd, if_true, known_append]
        exact p1.append p2
    · refine ⟨e2, ?_, ?_⟩
      · simp only [Stmts.later, hd, Bool.false_eq_true, if_false, h2, List.nil_append]
      · simp only [Stmts.seconds, hd, Bool.false_eq_true, if_false, List.nil_append]
        exact p2
end

mutual
theorem Stmt.globs_all : ∀ (s : Stmt) (x : Str), x ∈ s.globs → x ∈ s.allGlobs
  | .glob xs, x, h => by simpa [Stmt.globs, Stmt.allGlobs] using h
  | .block ss, x, h => by
    simp only [Stmt.globs, Stmt.allGlobs] at *
    exact ss.globs_all x h
  | .expr .., _, h => by simp [Stmt.globs] at h
  | .bind .., _, h => by simp [Stmt.globs] at h
  | .imp .., _, h => by simp [Stmt.globs] at h
  | .del .., _, h => by simp [Stmt.globs] at h
  | .nonloc .., _, h => by simp [Stmt.globs] at h
  | .def_ .., _, h => by simp [Stmt.globs] at h
  | .class_ .., _, h => by simp [Stmt.globs] at h
theorem Stmts.globs_all : ∀ (s : Stmts) (x : Str), x ∈ s.globs → x ∈ s.allGlobs
  | .nil, _, h => by simp [Stmts.globs] at h
  | .cons s rest, x, h => by
    simp only [Stmts.globs, Stmts.allGlobs, List.mem_append] at *
    rcases h with h | h
    · exact Or.inl (s.globs_all x h)
    · exact Or.inr (rest.globs_all x h)
end

/-- In such programs each name stands for what it does in Python. -/
theorem collect_perm (p : Stmts) (h : ok p = true) : (collect p).Perm (known (meaning p)) := by
  simp only [ok, Bool.and_eq_true, List.all_eq_true] at h
  obtain ⟨⟨hb, hd⟩, hg⟩ := h
  have hmap : ∀ l : List Str, (l.map (fun x => (x, (0 : Nat)))).map (·.1) = l := fun l => map_keys l _
  obtain ⟨d1, h1, i1⟩ := p.body_ok (moduleFrame p) [] [] [] [] ⟨fun x => by simp, fun x hx => by simp at hx⟩ .nil
    (fun x hx => by
      simp only [moduleFrame, lookup_const]
      have : (p.binds ++ p.allGlobs).contains x = true := by
        simp only [List.contains_iff_mem, List.mem_append]
        exact Or.inr (p.globs_all x hx)
      simp only [this, if_true]) hb
  have i2 := i1.complete (fun x hx => by
    rw [List.append_nil]
    simp only [moduleFrame, hmap, List.mem_append] at hx
    apply p.sees_body _ _ _ hb hd x
    rcases hx with hx | hx
    · exact Or.inr (Or.inr hx)
    · exact Or.inr (Or.inr (by simpa using hg x hx)))
  obtain ⟨es, h2, p2⟩ := p.defs_ok (moduleFrame p) [] d1 [] 0 i2 .nil hd
  have hid : (moduleFrame p).id = 0 := rfl
  have hpar : parentOf [] = 0 := rfl
  rw [hid, hpar] at h1
  rw [hid] at h2
  simp only [collect, h1, h2, meaning]
  refine (List.Perm.append_left _ p2).trans ?_
  rw [← known_append]
  exact (p.firsts_seconds _).filterMap _

end Verif.Scope

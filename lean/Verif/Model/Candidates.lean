import Verif.Base.Dict
import Verif.Base.Str

/-!
Which blocks of code are compared in search of duplication, `edulint/linting/checkers/duplication/checker.py:28-132`, `168-266` and
`373-410`.

A statement is what is asked about it. That a statement is like a repetition, that an `if` has duplicate code, and that blocks are similar is
given, as is which statements are within others.
-/

namespace Verif.Candidates

/-- A statement. -/
structure Node where
  id : Nat
  /-- its type -/
  cls : Nat
  /-- `fromlineno` -/
  first : Nat
  /-- `tolineno` -/
  last : Nat
  /-- `break_on_stmt`, `edulint/linting/checkers/duplication/checker.py:95-96` -/
  breaks : Bool
  /-- `skip_stmt`, `edulint/linting/checkers/duplication/checker.py:99-108` -/
  skips : Bool
  /-- `isinstance(node, NO_ONE_LINE_CANDIDATE_NODE)`, `edulint/linting/checkers/duplication/checker.py:157-165` -/
  small : Bool
  isModule : Bool
  isFunction : Bool
deriving DecidableEq

/-- The sequences of siblings: blocks, clauses of `try`s. -/
abbrev Prog := List (List Node)

/-- The statement and its next siblings. -/
def rest (P : Prog) (n : Node) : List Node :=
  match P.find? (·.contains n) with
  | none => [n]
  | some b => b.dropWhile (· ≠ n)

/-- `node.previous_sibling()` -/
def previous (P : Prog) (n : Node) : Option Node :=
  match P.find? (·.contains n) with
  | none => none
  | some b => (b.takeWhile (· ≠ n)).getLast?

/-- `node.next_sibling()` -/
def next (P : Prog) (n : Node) : Option Node := (rest P n)[1]?

/-! ### Siblings -/

/-- The loop of `get_siblings`, `edulint/linting/checkers/duplication/checker.py:46-51`. -/
def siblingsFrom : List Node → List Node
  | [] => []
  | n :: l => if n.breaks then [] else if n.skips then siblingsFrom l else n :: siblingsFrom l

/-- `get_siblings`, `edulint/linting/checkers/duplication/checker.py:43-54` -/
def getSiblings (P : Prog) (n : Node) : Except PyErr (List Node) :=
  if (siblingsFrom (rest P n)).length > 0 then .ok (siblingsFrom (rest P n)) else .error .assertionError

abbrev Memo := Dict Node (List Node)

/-- `get_memoized_siblings`, `edulint/linting/checkers/duplication/checker.py:57-72` -/
def memoized (P : Prog) (m : Memo) (n : Node) : Except PyErr (Memo × List Node) :=
  match Dict.get? m n with
  | some s => .ok (m, s)
  | none =>
    match (previous P n).bind (Dict.get? m) with
    | some s => .ok (Dict.set m n (s.drop 1), s.drop 1)
    | none =>
      match getSiblings P n with
      | .error e => .error e
      | .ok s => .ok (Dict.set m n s, s)

/-! ### Pairs of blocks -/

/-- A block and its range in the list of all statements. -/
structure Candidate where
  start : Nat
  stop : Nat
  block : List Node
deriving DecidableEq

/-- `include_in_stmts`, `edulint/linting/checkers/duplication/checker.py:111-112` -/
def included (n : Node) : Bool := !n.breaks && !n.skips

/-- `candidate_snd`, `edulint/linting/checkers/duplication/checker.py:32-40` -/
def candidateSnd (all : List Node) (i : Nat) (fst : Node) : List (Nat × Node) :=
  ((all.zipIdx.map fun x => (x.2, x.1)).drop (i + 1)).dropWhile fun x => decide (fst.last ≥ x.2.first)

/-- `max_length`, `edulint/linting/checkers/duplication/checker.py:186-191`; `inst c d` says that the class `c` is `d` or one derived from it. -/
def maxLength (inst : Nat → Nat → Bool) : List Node → List Node → Nat → Nat
  | a :: as, b :: bs, k + 1 => if inst a.cls b.cls then maxLength inst as bs k + 1 else 0
  | _, _, _ => 0

/-- `get_stmt_range`, `edulint/linting/checkers/duplication/checker.py:75-79` -/
def stmtRange (all : List Node) (ns : List Node) : Except PyErr (Nat × Option Nat) :=
  match ns.head?, ns.getLast? with
  | some a, some b =>
    if a ∈ all then .ok (all.idxOf a, if b ∈ all then some (all.idxOf b + 1) else none) else .error .keyError
  | _, _ => .error .indexError

/-- `overlap`, `edulint/linting/checkers/duplication/checker.py:82-92` -/
def overlap (all : List Node) (r1 r2 : Nat × Option Nat) : Except PyErr Bool :=
  match r1.2, r2.2 with
  | some l1, some _ =>
    match all[l1 - 1]?, all[r2.1]? with
    | some a, some b => .ok (decide (a.last ≥ b.first))
    | _, _ => .error .indexError
  | _, _ => .ok true

/-- `is_duplication_candidate`, `edulint/linting/checkers/duplication/utils.py:63-67`, for two lists -/
def isCandidate (inst : Nat → Nat → Bool) (as bs : List Node) : Bool := (as.zip bs).all fun x => inst x.2.cls x.1.cls

/-- `stmt_nodes[r1:r2]` -/
def slice (all : List Node) (i j : Nat) : List Node := (all.take j).drop i

/-- The loop over lengths, `edulint/linting/checkers/duplication/checker.py:193-211` -/
def tryLengths (inst : Nat → Nat → Bool) (all : List Node) (fst snd : Node) (as bs : List Node) : Nat → Except PyErr (Option (Candidate × Candidate))
  | 0 => .ok none
  | n + 1 =>
    if n = 0 ∧ (fst.small ∨ snd.small) then .ok none
    else
      match stmtRange all (as.take (n + 1)), stmtRange all (bs.take (n + 1)) with
      | .ok r1, .ok r2 =>
        match overlap all r1 r2, r1.2, r2.2 with
        | .error e, _, _ => .error e
        | .ok false, some l1, some l2 =>
          if isCandidate inst (slice all r1.1 l1) (slice all r2.1 l2) then
            .ok (some (⟨r1.1, l1, as.take (n + 1)⟩, ⟨r2.1, l2, bs.take (n + 1)⟩))
          else tryLengths inst all fst snd as bs n
        | _, _, _ => tryLengths inst all fst snd as bs n
      | .error e, _ => .error e
      | _, .error e => .error e

/-- The loop over second statements, `edulint/linting/checkers/duplication/checker.py:183-211` -/
def pairsWith (P : Prog) (inst : Nat → Nat → Bool) (all : List Node) (i : Nat) (fst : Node) (as : List Node) :
    Memo → List (Nat × Node) → Except PyErr (Memo × List (Candidate × Candidate))
  | m, [] => .ok (m, [])
  | m, (j, snd) :: js =>
    match memoized P m snd with
    | .error e => .error e
    | .ok (m, bs) =>
      match tryLengths inst all fst snd as bs (maxLength inst as bs (j - i)) with
      | .error e => .error e
      | .ok c =>
        match pairsWith P inst all i fst as m js with
        | .error e => .error e
        | .ok (m, cs) => .ok (m, c.toList ++ cs)

/-- `get_similar_to_block_candidates`, `edulint/linting/checkers/duplication/checker.py:168-211`, with one of the messages enabled -/
def pairs (P : Prog) (inst : Nat → Nat → Bool) (all : List Node) (m : Memo) (i : Nat) (fst : Node) :
    Except PyErr (Memo × List (Candidate × Candidate)) :=
  match memoized P m fst with
  | .error e => .error e
  | .ok (m, as) => pairsWith P inst all i fst as m (candidateSnd all i fst)

/-! ### Groups of blocks -/

/-- The numbers of the groups. -/
abbrev Ids := Dict Candidate Nat

/-- `edulint/linting/checkers/duplication/checker.py:405-408` -/
def addPair (ids : Ids) (c : Candidate × Candidate) : Ids :=
  let id := (Dict.get? ids c.1).getD ids.length
  Dict.set (Dict.set ids c.1 id) c.2 id

/-- What the checks that come before answer: `isLoop` is `is_similar_to_loop` and `isIf` is `is_duplicate_in_if` with the statements that are then
left out; `inside` is `get_duplicate_nodes`. -/
structure Checks where
  isLoop : List Node → Bool
  isIf : Node → Option (List Node)
  inside : List Node → List Node

/-- The loop of `visit_module`, `edulint/linting/checkers/duplication/checker.py:384-408`: the statements that count as duplicate and the
groups. -/
def collect (P : Prog) (inst : Nat → Nat → Bool) (K : Checks) (all : List Node) :
    List (Nat × Node) → Memo → List Node → Ids → Except PyErr (List Node × Ids)
  | [], _, dup, ids => .ok (dup, ids)
  | (i, fst) :: ns, m, dup, ids =>
    if dup.contains fst then collect P inst K all ns m dup ids
    else
      match memoized P m fst with
      | .error e => .error e
      | .ok (m, s) =>
        if K.isLoop s then collect P inst K all ns m (dup ++ K.inside s) ids
        else
          match K.isIf fst with
          | some l => collect P inst K all ns m (dup ++ l) ids
          | none =>
            match pairs P inst all m i fst with
            | .error e => .error e
            | .ok (m, cs) => collect P inst K all ns m dup (cs.foldl addPair ids)

/-- The loop that turns the dictionary around, `edulint/linting/checkers/duplication/checker.py:219-224` -/
def flipped (ids : Ids) : Dict Nat (List Candidate) :=
  ids.foldl (fun d c => Dict.set d c.2 ((Dict.get? d c.2).getD [] ++ [c.1])) []

/-- Ranges are compared as tuples. -/
def before (a b : Candidate) : Bool := decide (a.start < b.start ∨ a.start = b.start ∧ a.stop ≤ b.stop)

/-- `lambda candidate: (candidate[0][0][0], -candidate[0][0][1])`: what starts first is first, and of what starts together the longest. -/
def earlier (a b : List Candidate) : Bool :=
  match a, b with
  | x :: _, y :: _ => decide (x.start < y.start ∨ x.start = y.start ∧ y.stop ≤ x.stop)
  | _, _ => true

/-- An element is put before the first one that it is not after. -/
def insertBy {α : Type} (le : α → α → Bool) (x : α) : List α → List α
  | [] => [x]
  | y :: l => if le x y then x :: y :: l else y :: insertBy le x l

/-- `sorted` -/
def sortBy {α : Type} (le : α → α → Bool) (l : List α) : List α := l.foldr (insertBy le) []

/-- `get_ordered_candidates`, `edulint/linting/checkers/duplication/checker.py:218-232` -/
def ordered (ids : Ids) : List (List Candidate) := sortBy earlier ((flipped ids).map fun g => sortBy before g.2)

/-- `may_be_similar_to_loop`, `edulint/linting/checkers/duplication/checker.py:215-216` -/
def mayBeLoop (P : Prog) (g : List Candidate) : Bool :=
  (g.zip (g.drop 1)).all fun x => decide (x.1.block.getLast?.bind (next P) = x.2.block.head?)

/-- The last of the siblings after a statement that are of the same type, `edulint/linting/checkers/duplication/checker.py:238-242` -/
def lastSame (P : Prog) (inst : Nat → Nat → Bool) (p : Node) : Node :=
  if p.isFunction then p
  else (((rest P p).drop 1).takeWhile fun n => inst n.cls p.cls).getLastD p

/-- `all_children_of_one_statement`, `edulint/linting/checkers/duplication/checker.py:234-250`; `above` is `node_ancestors`. -/
def ofOne (P : Prog) (inst : Nat → Nat → Bool) (above : Node → List Node) (bs : List (List Node)) : Bool :=
  match bs.head?.bind List.head?, bs.head?.bind List.getLast? with
  | some a, some b =>
    (above a).any fun p => !p.isModule && (above b).contains p &&
      bs.all fun c => decide (c.head?.any (fun x => p.first ≤ x.first) ∧ c.getLast?.any fun x => x.last ≤ (lastSame P inst p).last)
  | _, _ => false

/-- The groups for which a message may be given, `edulint/linting/checkers/duplication/checker.py:252-266`; `similar` says for which
`similar_to_block` gives one. -/
def report (P : Prog) (inst : Nat → Nat → Bool) (above : Node → List Node) (inside : List Node → List Node)
    (similar : List (List Node) → Bool) : List Node → List (List Candidate) → List (List (List Node))
  | _, [] => []
  | dup, g :: gs =>
    let bs := g.map (·.block)
    if mayBeLoop P g then report P inst above inside similar dup gs
    else if (bs.head?.bind List.head?).any dup.contains then report P inst above inside similar dup gs
    else if ofOne P inst above bs then report P inst above inside similar dup gs
    else if similar bs then bs :: report P inst above inside similar (dup ++ bs.flatMap inside) gs
    else report P inst above inside similar dup gs

/-- `visit_module`, `edulint/linting/checkers/duplication/checker.py:373-410`: the groups for which similar-block-to-function or similar-block-to-call
is reported. -/
def visit (P : Prog) (inst : Nat → Nat → Bool) (above : Node → List Node) (K : Checks) (similar : List (List Node) → Bool) (all : List Node) :
    Except PyErr (List (List (List Node))) :=
  match collect P inst K all (all.zipIdx.map fun x => (x.2, x.1)) [] [] [] with
  | .error e => .error e
  | .ok (dup, ids) => .ok (report P inst above K.inside similar dup (ordered ids))

end Verif.Candidates

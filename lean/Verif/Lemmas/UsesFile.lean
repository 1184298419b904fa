import Verif.Lemmas.Uses
import Verif.Lemmas.FlowStart

/-! The graphs of a file. -/

namespace Verif.Uses

open Verif.Flow (Sane Begun)
open Verif.Cfg (Event Item Prog Reach Ever Reaching Graphs)

variable {F : File} {items : Nat → List Item} {vars : Nat}

theorem graphs_length (F : File) : F.graphs.length = F.functions.length + 1 := by simp [File.graphs]

theorem graphs_pos (F : File) : 0 < F.graphs.length := by rw [graphs_length]; omega

theorem which_num {i : Nat} (hi : i < F.graphs.length) (b : Nat) : F.which (F.num i b) = i := by
  unfold File.which File.num
  rw [Nat.mul_comm, Nat.mul_add_mod, Nat.mod_eq_of_lt hi]

theorem block_num {i : Nat} (hi : i < F.graphs.length) (b : Nat) : F.block (F.num i b) = b := by
  unfold File.block File.num
  rw [Nat.mul_comm, Nat.mul_add_div (graphs_pos F), Nat.div_eq_of_lt hi, Nat.add_zero]

theorem which_lt (F : File) (n : Nat) : F.which n < F.graphs.length := Nat.mod_lt _ (graphs_pos F)

theorem num_block (F : File) (n : Nat) : F.num (F.which n) (F.block n) = n := by
  unfold File.num File.which File.block
  exact Nat.div_add_mod' n _

/-- What a graph of the file is the graph of. -/
theorem graph_of {i : Nat} (hi : i < F.graphs.length) :
    (∃ f ∈ F.functions, F.graph i = Flow.functionGraph f.1 f.2) ∨ F.graph i = Flow.moduleGraph F.body := by
  have h : F.graphs[i]? = some (F.graph i) := by
    unfold File.graph
    rw [List.getElem?_eq_getElem hi]
    rfl
  have := List.mem_of_getElem? h
  unfold File.graphs at this
  rcases List.mem_append.1 this with h | h
  · obtain ⟨f, hf, h⟩ := List.mem_map.1 h
    exact .inl ⟨f, hf, h.symm⟩
  · exact .inr (List.mem_singleton.1 h)

theorem function_at {f : Nat × Flow.Body} (hf : f ∈ F.functions) : ∃ i, i < F.graphs.length ∧ F.graph i = Flow.functionGraph f.1 f.2 := by
  obtain ⟨i, hi, h⟩ := List.mem_iff_getElem.1 hf
  refine ⟨i, by rw [graphs_length]; omega, ?_⟩
  unfold File.graph File.graphs
  rw [List.getElem?_append_left (by simpa using hi), List.getElem?_map, List.getElem?_eq_getElem hi, h]
  rfl

theorem module_at (F : File) : ∃ i, i < F.graphs.length ∧ F.graph i = Flow.moduleGraph F.body := by
  refine ⟨F.functions.length, by rw [graphs_length]; omega, ?_⟩
  unfold File.graph File.graphs
  rw [List.getElem?_append_right (by simp)]
  simp

theorem graph_sane {i : Nat} (hi : i < F.graphs.length) : Sane (F.graph i) := by
  rcases graph_of hi with ⟨f, _, h⟩ | h
  · rw [h]; exact Flow.function_sane f.1 f.2
  · rw [h]; exact Flow.module_sane F.body

theorem graph_begun (hne : F.body.isNil = false) {i : Nat} (hi : i < F.graphs.length) : (F.graph i).locs (F.graph i).start ≠ [] := by
  have key : ∀ {g : Flow.Graph} {x : Nat}, Begun x g → g.locs g.start ≠ [] := by
    intro g x h e
    unfold Begun at h
    rw [e] at h
    cases h
  rcases graph_of hi with ⟨f, _, h⟩ | h
  · rw [h]; exact key (Flow.function_begun f.1 f.2)
  · rw [h]
    cases hb : F.body with
    | nil => rw [hb] at hne; cases hne
    | cons s rest => exact key (Flow.module_begun s rest)

/-- Each graph is in the file. -/
theorem inFile {i : Nat} (hi : i < F.graphs.length) : InFile (F.prog items vars) F.starts (F.graph i) items (F.num i) where
  start := List.mem_map.2 ⟨i, List.mem_range.2 hi, rfl⟩
  locs b _ := by
    show ((F.graph (F.which (F.num i b))).locs (F.block (F.num i b))).map items = _
    rw [which_num hi, block_num hi]
  succ b _ := by
    show ((F.graph (F.which (F.num i b))).succs (F.block (F.num i b))).map (F.num (F.which (F.num i b))) = _
    rw [which_num hi, block_num hi]

/-- What is reached from the beginning of a graph is one of its blocks, and can be reached in the graph. -/
theorem reach_in {i : Nat} (hi : i < F.graphs.length) {n : Nat} (h : Reach (F.prog items vars).succ (F.num i (F.graph i).start) n) :
    ∃ b, n = F.num i b ∧ b < (F.graph i).count ∧ (F.graph i).Gets b := by
  have hg := graph_sane hi
  refine h.mem (P := fun n => ∃ b, n = F.num i b ∧ b < (F.graph i).count ∧ (F.graph i).Gets b) ⟨_, rfl, hg.start, Flow.Gets.start _⟩ ?_
  rintro n ⟨b, rfl, hb, hget⟩ m hm
  rw [(inFile hi).succ b hb] at hm
  obtain ⟨c, hc, rfl⟩ := List.mem_map.1 hm
  have hc' := Flow.mem_succs.1 hc
  exact ⟨c, rfl, hg.tgt _ _ hc', Flow.Gets.next hget hc'⟩

theorem reach_out {i : Nat} (hi : i < F.graphs.length) {b : Nat} (h : (F.graph i).Gets b) :
    Reach (F.prog items vars).succ (F.num i (F.graph i).start) (F.num i b) := by
  have hg := graph_sane hi
  refine (Flow.gets_closed (S := fun b => b < (F.graph i).count ∧ Reach (F.prog items vars).succ (F.num i (F.graph i).start) (F.num i b))
    ⟨hg.start, .start⟩ ?_ h).2
  rintro b n ⟨hb, hr⟩ hn
  refine ⟨hg.tgt _ _ hn, hr.next ?_⟩
  rw [(inFile hi).succ b hb]
  exact List.mem_map.2 ⟨n, Flow.mem_succs.2 hn, rfl⟩

theorem mem_starts {s : Nat} : s ∈ F.starts ↔ ∃ i, i < F.graphs.length ∧ s = F.num i (F.graph i).start := by
  unfold File.starts
  rw [List.mem_map]
  constructor
  · rintro ⟨i, hi, rfl⟩; exact ⟨i, List.mem_range.1 hi, rfl⟩
  · rintro ⟨i, hi, rfl⟩; exact ⟨i, List.mem_range.2 hi, rfl⟩

theorem only {i : Nat} (hi : i < F.graphs.length) {b : Nat} {s : Nat} (hs : s ∈ F.starts)
    (h : Reach (F.prog items vars).succ s (F.num i b)) : s = F.num i (F.graph i).start := by
  obtain ⟨j, hj, rfl⟩ := mem_starts.1 hs
  obtain ⟨c, h1, -⟩ := reach_in hj h
  have : i = j := by
    have := congrArg F.which h1
    rwa [which_num hi, which_num hj] at this
  rw [this]

/-- What C30 asks of graphs holds for those of a file. -/
theorem file_graphs (hne : F.body.isNil = false) : Graphs (F.prog items vars) F.reachable F.starts where
  locs s hs := by
    obtain ⟨i, hi, rfl⟩ := mem_starts.1 hs
    rw [(inFile hi).locs _ (graph_sane hi).start]
    intro h
    exact graph_begun hne hi (List.map_eq_nil_iff.1 h)
  empty n h := by
    have h1 : (F.graph (F.which n)).locs (F.block n) = [] := List.map_eq_nil_iff.1 h
    show ((F.graph (F.which n)).succs (F.block n)).map _ = []
    rw [List.map_eq_nil_iff]
    apply List.eq_nil_iff_forall_not_mem.2
    intro c hc
    exact (graph_sane (which_lt F n)).src _ _ (Flow.mem_succs.1 hc) h1
  reach n := by
    have hi := which_lt F n
    have hg := graph_sane hi
    unfold File.reachable
    rw [decide_eq_true_eq, (Flow.blocks_spec hg.tgt hg.start).2]
    constructor
    · intro h
      refine ⟨_, mem_starts.2 ⟨_, hi, rfl⟩, ?_⟩
      have := reach_out (items := items) (vars := vars) hi h
      rwa [num_block] at this
    · rintro ⟨s, hs, h⟩
      obtain ⟨j, hj, rfl⟩ := mem_starts.1 hs
      obtain ⟨b, rfl, hb, hget⟩ := reach_in hj h
      rw [which_num hj, block_num hj]
      exact hget
  nodes n h := by
    obtain ⟨s, hs, h⟩ := h
    obtain ⟨j, hj, rfl⟩ := mem_starts.1 hs
    obtain ⟨b, rfl, hb, hget⟩ := reach_in hj h
    exact List.mem_flatMap.2 ⟨j, List.mem_range.2 hj, List.mem_map.2 ⟨b, List.mem_range.2 hb, rfl⟩⟩
  apart s hs s' hs' n h h' := by
    obtain ⟨j, hj, rfl⟩ := mem_starts.1 hs
    obtain ⟨b, rfl, hb, hget⟩ := reach_in hj h
    exact (only hj hs' h').symm

end Verif.Uses

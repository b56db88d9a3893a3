import Verif.Plug.TokenProps
import Verif.Plug.InfoExamples

/-! Concrete histories for the blocks of an account with a token, and two ways in which pages are not what they should be. -/

namespace Verif.Plug

/-- The changes one after the other. -/
def runT (n : TNode) : List TOp → Option TNode
  | [] => some n
  | op :: ops =>
    match n.step op with
    | none => none
    | some n' => runT n' ops

/-- The account 1 sends the token 0 twice; each block is confirmed by a snapshot of its own. -/
def exOld : Blk := ⟨1, 1, 1, .send 2 0 5, false, []⟩
def exYoung : Blk := ⟨2, 1, 2, .send 2 0 6, false, []⟩

theorem step_get {n : TNode} {op : TOp} (h : (n.step op).isSome = true) : n.step op = some ((n.step op).get h) := by simp

/-- After the rollback of the second snapshot: the younger block is unconfirmed again. -/
def exBack : TNode := ((runT TNode.start [.insert exOld, .snapshot [exOld], .insert exYoung, .snapshot [exYoung], .rollback 0 true])).getD TNode.start

theorem reach_step {n : TNode} {back : List Nat} (h : ReachT n back) (op : TOp) (hm : MayT n back op) {n' : TNode} (hs : n.step op = some n') : ReachT n' (backAfter back n' op) := .step h hm hs

theorem exBack_reach : ReachT exBack [2] := by
  have h1 := reach_step .start (.insert exOld) ⟨valid_of (by decide +kernel), by decide +kernel, by decide +kernel⟩ rfl
  have h2 := reach_step h1 (.snapshot [exOld]) ⟨by decide +kernel, valid_of (by decide +kernel)⟩ rfl
  have h3 := reach_step h2 (.insert exYoung) ⟨valid_of (by decide +kernel), by decide +kernel, by decide +kernel⟩ rfl
  have h4 := reach_step h3 (.snapshot [exYoung]) ⟨by decide +kernel, valid_of (by decide +kernel)⟩ rfl
  have h5 := reach_step h4 (.rollback 0 true) (show 0 < 2 by omega) rfl
  exact h5

example : exBack.chunks = [[exOld]] ∧ exBack.unconf = [exYoung] ∧ exBack.getBlocks 1 0 none 2 = some [exYoung, exOld] ∧ exBack.getBlocks 1 0 (some 1) 2 = some [exOld] :=
  ⟨by decide +kernel, by decide +kernel, by simp [exBack, runT, TNode.step, TNode.getBlocks, TNode.walk, TNode.start, exOld, exYoung, TNode.blocks, lookIn, Blk.keys, Blk.token, keysOf, Tab.puts, Tab.put, Tab.dels, without, blockOf, maxUint64, List.mergeSort, List.MergeSort.Internal.splitInTwo], by
    simp [exBack, runT, TNode.step, TNode.getBlocks, TNode.walk, TNode.start, exOld, exYoung, TNode.blocks, lookIn, Blk.keys, Blk.token, keysOf, Tab.puts, Tab.put, Tab.dels, without, blockOf, maxUint64, List.mergeSort, List.MergeSort.Internal.splitInTwo]⟩

/-- **A page can be too short.** A block that a rollback had made unconfirmed is deleted, and the store is flushed: its entry is back, takes a place on the page, and the block that is there is left out. -/
theorem stale_entry_takes_a_place : ∃ n back n1 n2, ReachT n back ∧ MayT n [] (.delete [exYoung]) ∧ n.step (.delete [exYoung]) = some n1 ∧ n1.step .flush = some n2 ∧
    n2.blocks = [exOld] ∧ n1.getBlocks 1 0 none 1 = some [exOld] ∧ n2.getBlocks 1 0 none 1 = some [] := by
  refine ⟨exBack, [2], _, _, exBack_reach, ⟨by decide +kernel, valid_of (by decide +kernel)⟩, rfl, rfl, by decide +kernel, ?_, ?_⟩
  · simp [exBack, runT, TNode.step, TNode.getBlocks, TNode.walk, TNode.start, exOld, exYoung, TNode.blocks, lookIn, Blk.keys, Blk.token, keysOf, Tab.puts, Tab.put, Tab.dels, without, blockOf, maxUint64, List.mergeSort]
  · simp [exBack, runT, TNode.step, TNode.getBlocks, TNode.walk, TNode.start, exOld, exYoung, TNode.blocks, lookIn, Blk.keys, Blk.token, keysOf, Tab.puts, Tab.put, Tab.dels, without, blockOf, maxUint64, List.mergeSort, List.MergeSort.Internal.splitInTwo]

/-- The contract 9 receives the token 0 and sends the token 5 within; before that it did the same. -/
def exAsk1 : Blk := ⟨1, 1, 1, .send 9 0 5, false, []⟩
def exDo1 : Blk := ⟨2, 9, 1, .recv 1, true, [⟨3, 1, 5, 4⟩]⟩
def exAsk2 : Blk := ⟨4, 1, 2, .send 9 0 5, false, []⟩
def exDo2 : Blk := ⟨5, 9, 2, .recv 4, true, [⟨6, 1, 5, 4⟩]⟩

def exMix : TNode := ((runT TNode.start [.insert exAsk1, .insert exDo1, .insert exAsk2, .insert exDo2])).getD TNode.start

theorem exMix_reach : ReachT exMix [] := by
  have h1 := reach_step .start (.insert exAsk1) ⟨valid_of (by decide +kernel), by decide +kernel, by decide +kernel⟩ rfl
  have h2 := reach_step h1 (.insert exDo1) ⟨valid_of (by decide +kernel), by decide +kernel, by decide +kernel⟩ rfl
  have h3 := reach_step h2 (.insert exAsk2) ⟨valid_of (by decide +kernel), by decide +kernel, by decide +kernel⟩ rfl
  exact reach_step h3 (.insert exDo2) ⟨valid_of (by decide +kernel), by decide +kernel, by decide +kernel⟩ rfl

/-- **Going on from a page can end too early.** The last block of a page moves the token in its send list only: the page from it on is empty, although there are more blocks. -/
theorem cursor_ends_too_early : ∃ n, ReachT n [] ∧ n.getBlocks 9 5 none 1 = some [exDo2] ∧ n.getBlocks 9 5 (some exDo2.hash) 2 = some [] ∧ exDo1 ∈ n.blocks ∧ exDo1.addr = 9 ∧ Moves n.blocks exDo1 5 ∧
    exDo1.height < exDo2.height := by
  refine ⟨exMix, exMix_reach, ?_, ?_, by decide +kernel, rfl, Or.inl ⟨⟨3, 1, 5, 4⟩, by decide +kernel, rfl⟩, by decide +kernel⟩
  · simp [exMix, runT, TNode.step, TNode.getBlocks, TNode.walk, TNode.start, exAsk1, exAsk2, exDo1, exDo2, TNode.blocks, lookIn, Blk.sends, Blk.keys, Blk.token, Tab.puts, Tab.put, blockOf, maxUint64, List.mergeSort, List.MergeSort.Internal.splitInTwo]
  · decide +kernel

end Verif.Plug

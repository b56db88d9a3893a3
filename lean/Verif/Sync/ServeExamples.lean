import Verif.Sync.ServeProps

/-!
# Cases of requests

Property C85. -/

namespace Verif.Sync

def ledger0 : Ledger := [101, 102, 103, 104, 105, 106, 107, 108, 109, 110, 111, 112]

example : (12, 112) ∈ blocksOf ledger0 ∧ (3, 103) ∈ blocksOf ledger0 ∧ (9, 999) ∉ blocksOf ledger0 := by decide +kernel
example : hashList ledger0 [(9, 999), (3, 103), (1, 101)] 4 11 = .points [(4, 104), (8, 108), (11, 111)] := by
  simp [hashList, startBlock, atHeight, ledger0, collect]
example : hashList ledger0 [(3, 103)] 4 40 = .points [(4, 104), (8, 108), (12, 112)] := by simp [hashList, startBlock, atHeight, ledger0, collect]
example : hashList ledger0 [(12, 112)] 4 40 = .missing := by simp [hashList, startBlock, atHeight, ledger0, collect]
/-- The peer is on another fork from block 3 on, the node answers all the same. -/
example : hashList ledger0 [(5, 905), (3, 903)] 4 11 = .points [(4, 104), (8, 108), (11, 111)] := by simp [hashList, startBlock, atHeight, ledger0, collect]
example : pieces 5 250 = [(5, 104), (105, 204), (205, 250)] := by simp [pieces, taskSize]
example : serve (fetchRange ledger0) (some 5) 3 false = .blocks [[(3, 103), (4, 104), (5, 105)]] false := by
  simp [serve, askedRange, splitChunk, taskSize, makeMax, pieces, sendAll, fetchRange, List.range_succ, atHeight, ledger0]
example : serve (fetchRange ledger0) (some 5) 9 false = .blocks [[(1, 101), (2, 102), (3, 103), (4, 104), (5, 105)]] false := by
  simp [serve, askedRange, splitChunk, taskSize, makeMax, pieces, sendAll, fetchRange, List.range_succ, atHeight, ledger0]
example : serve (fetchDown ledger0) (some 11) 4 true = .blocks [[(12, 112), (11, 111)]] false := by
  simp [serve, askedRange, pred64, splitChunk, taskSize, makeMax, pieces, sendAll, fetchDown, fetchRange, List.range_succ, atHeight, ledger0]

end Verif.Sync

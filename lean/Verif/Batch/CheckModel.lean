import Verif.Tactics

/-!
# Whether a chunk joins the chain

Models `insertChunks` (`ledger/pool/pool_batch_chunk.go:25-78`) and the tests it makes (`pool_batch_chunk.go:178-217`). A hash stands for its block: `ht` is the height in the block. -/

namespace Verif.Batch

/-- `ChainState` (`pool_batch_chunk.go:14-23`). -/
inductive Joint where
  | disconnect
  | connected
  | forked
deriving Repr, DecidableEq

/-- `checkInsert` (`pool_batch_chunk.go:195-217`): `chain` has the hashes of the current chain from the first block on, `head` is the last block of the chunk, `tail` and `tailHeight` are what its first
block follows, `hashes` are the hashes of all blocks of the chunk. A chain without blocks is one with the zero hash at height 0. -/
def checkInsert (ht : Nat → Nat) (chain : List Nat) (head tail tailHeight : Nat) (hashes : List Nat) : Joint :=
  let cur := chain.getLastD 0
  if tailHeight = ht cur then (if tail = cur then .connected else .forked)
  else if tailHeight < ht cur then
    if ht head ≤ ht cur then (if head ∈ chain then .connected else .forked)
    else if cur ∈ hashes then .connected else .forked
  else .disconnect

/-- The first answer that is not `connected` (`checkAccountsInsert`, `pool_batch_chunk.go:184-193`, in the order in which the map is gone through). -/
def checkAll : List Joint → Joint
  | [] => .connected
  | .connected :: js => checkAll js
  | j :: _ => j

/-- What becomes of a chunk: its blocks were inserted into the chain, were given to the pool one by one, and the chunk was taken off the reader. -/
structure Fate where
  inserted : Bool
  pooled : Bool
  popped : Bool
deriving Repr, DecidableEq

/-- `insertChunks` (`pool_batch_chunk.go:25-78`): `s` and `a` are the states of the snapshot chain and of the account chains before the lock, `s'` and `a'` under the lock, `works` says whether the
blocks can be inserted. -/
def chunkFate (s : Joint) (a : List Joint) (s' : Joint) (a' : List Joint) (works : Bool) : Fate :=
  if s = .forked then ⟨false, true, true⟩
  else if s = .disconnect then ⟨false, false, false⟩
  else if checkAll a = .forked then ⟨false, true, true⟩
  else if checkAll a = .disconnect then ⟨false, false, false⟩
  else if s' ≠ .connected then ⟨false, false, false⟩
  else if checkAll a' ≠ .connected then ⟨false, false, false⟩
  else if works then ⟨true, false, true⟩ else ⟨false, true, true⟩

end Verif.Batch

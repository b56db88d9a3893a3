import Verif.Batch.BatchModel
import Verif.Batch.TopoModel

/-!
# Inserting chunks, and queueing a snapshot block

Models `insertChunksToChain` (`ledger/pool/pool_batch_chunk.go:93-176`) and `makeQueueFromSnapshotBlock` (`ledger/pool/pool_batch.go:151-185`). -/

namespace Verif.Batch

/-- The items of a batch, level by level. -/
def St.items (s : St) : List Item := s.ls.flatMap fun l => l.bs.flatMap (·.2)

/-- The ledger after these items were inserted. -/
def Ledger.after (L : Ledger) (xs : List Item) : Ledger :=
  ⟨fun k => L.acc k || xs.any fun x => x.owner.isSome && decide (k ∈ x.keys), fun k => L.snap k || xs.any fun x => x.owner.isNone && decide (k ∈ x.keys)⟩

/-- Whether a block is in the ledger (`accountHHExists` and `snapshotHHExists`, `pool_batch.go:293-342`). The test of the height only saves a look at the disk. -/
def Ledger.has (L : Ledger) (x : Item) : Bool := if x.owner.isNone then L.snap x.hash else L.acc x.hash

/-- What inserting chunks comes to: the batches that were inserted, or the same with what went wrong: a batch could not be inserted, a block was refused, or the program panicked. -/
inductive FeedOut where
  | done (bs : List St)
  | failed (bs : List St)
  | refused (bs : List St)
  | panic
deriving Repr, DecidableEq

/-- The loop over the blocks of the chunks, account blocks before their snapshot block (`pool_batch_chunk.go:95-175`). A block that exists is skipped. A block for which there is no level
left starts a new batch. `fine` says which batches can be inserted. -/
def feed (fine : St → Bool) (cap : Nat) : Ledger → St → List Item → List St → FeedOut
  | _, s, [], acc => if s.items.isEmpty then .done acc else if fine s then .done (acc ++ [s]) else .failed acc
  | L, s, x :: xs, acc =>
    if L.has x then feed fine cap L s xs acc
    else match s.add L x with
      | (s', .ok) => feed fine cap L s' xs acc
      | (_, .full) =>
        if fine s then
          match (newBatch cap).add (L.after s.items) x with
          | (s', .ok) => feed fine cap (L.after s.items) s' xs (acc ++ [s])
          | (_, .panic) => .panic
          | _ => .refused (acc ++ [s])
        else .failed acc
      | (_, .panic) => .panic
      | _ => .refused acc

/-- What the sort sees of an account block (`face.go:13-39`): its hash is the first of the names others refer to it by. -/
def nodeOf (x : Item) : Node := ⟨x.hash, x.keys, x.refs⟩

/-- The order in which the account blocks of a chunk are taken (`pool_batch_chunk.go:104-110`): the sorted one, or when sorting fails the one in which they came. -/
def sortBlocks (xs : List Item) : Sorted (List Item) :=
  match rounds xs.length ([], graphOf (xs.map nodeOf)) with
  | .done l => .done (xs.insertionSort fun a b => indexIn l (nodeOf a) ≤ indexIn l (nodeOf b))
  | .cycle => .done xs
  | .panic => .panic

/-- A chunk: the account blocks and the snapshot block, if there is one. -/
structure Piece where
  accs : List Item
  snap : Option Item
deriving Repr, DecidableEq

/-- The blocks of chunks in the order in which they are taken. -/
def line : List Piece → Sorted (List Item)
  | [] => .done []
  | p :: ps =>
    match sortBlocks p.accs, line ps with
    | .done xs, .done ys => .done (xs ++ p.snap.toList ++ ys)
    | .panic, _ => .panic
    | _, r => r

/-- `insertChunksToChain` (`pool_batch_chunk.go:93-176`); `50` is the number of levels of a batch. Sorting a chunk comes after the earlier chunks were taken; that it does not fail later than this is not
modelled. -/
def insertChunks (fine : St → Bool) (L : Ledger) (ps : List Piece) : FeedOut :=
  match line ps with
  | .done xs => feed fine 50 L (newBatch 50) xs []
  | _ => .panic

/-- The blocks of one account that a snapshot block needs, from the lowest on (`pool_batch.go:157-169`): they are taken until one is refused. -/
def drain (L : Ledger) : St → List Item → St × List Item × Out
  | s, [] => (s, [], .ok)
  | s, x :: st =>
    match s.add L x with
    | (s', .ok) => drain L s' st
    | (s', o) => (s', x :: st, o)

/-- One pass over the accounts (`pool_batch.go:156-172`); it ends when there is no level left. -/
def sweep (L : Ledger) : St → List (List Item) → St × List (List Item) × Out
  | s, [] => (s, [], .ok)
  | s, st :: sts =>
    match drain L s st with
    | (s', r, .full) => (s', r :: sts, .full)
    | (s', r, .panic) => (s', r :: sts, .panic)
    | (s', r, _) => ((sweep L s' sts).1, r :: (sweep L s' sts).2.1, (sweep L s' sts).2.2)

/-- Passes until one takes nothing (`pool_batch.go:154-178`). `order` is the order in which the map of accounts is gone through, which may differ from pass to pass. -/
def sweeps (L : Ledger) (order : Nat → List (List Item) → List (List Item)) : Nat → St → List (List Item) → St × List (List Item) × Out
  | 0, s, sts => (s, sts, .ok)
  | f + 1, s, sts =>
    match sweep L s (order f sts) with
    | (s', sts', .ok) => if sts'.flatten.length = sts.flatten.length then (s', sts', .ok) else sweeps L order f s' sts'
    | r => r

/-- `makeQueueFromSnapshotBlock` (`pool_batch.go:151-185`). Every pass but the last takes a block, so there are no more passes than blocks and one. -/
def queueSnapshot (L : Ledger) (order : Nat → List (List Item) → List (List Item)) (s : St) (sts : List (List Item)) (z : Item) : St × Out :=
  match sweeps L order (sts.flatten.length + 1) s sts with
  | (s', sts', .ok) => if sts'.all (·.isEmpty) then s'.add L z else (s', .noRef)
  | (s', _, o) => (s', o)

end Verif.Batch

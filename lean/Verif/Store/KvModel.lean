import Verif.Store.BatchModel

/-!
# The key-value stores

Model of `ledger/chain/db`: the index and the state of the ledger are kept in key-value stores. What is written is held in memory
until a flush; the changes of account blocks that no snapshot confirms yet are kept apart and never reach the disk.
-/

namespace Verif.Store
open Verif.Bytes

/-- The content of a store. LevelDB itself is taken to be a map from keys to values whose writes are atomic. -/
abbrev KMap := Bytes → Option Bytes

/-- One record replayed on a map. -/
def Rec.apply (m : KMap) (r : Rec) : KMap := fun k => if k = r.key then r.val else m k

/-- `Replay` (batch.go:147-158), and `db.Write`. -/
def Batch.apply (m : KMap) (b : Batch) : KMap := b.foldl Rec.apply m

/-- The unconfirmed batches (db/unconfirmed_batch.go): the list in order; an entry has a hash if the map of hashes points to it. -/
abbrev Pending := List (Option Bytes × Batch)

/-- `Put` (unconfirmed_batch.go:44-50): the map then points to the new entry only. -/
def Pending.put (h : Bytes) (b : Batch) (p : Pending) : Pending :=
  p.map (fun e => if e.1 = some h then (none, e.2) else e) ++ [(some h, b)]

/-- `Get` (unconfirmed_batch.go:34-42). -/
def Pending.get (h : Bytes) (p : Pending) : Option Batch := (p.find? (fun e => e.1 == some h)).map (·.2)

/-- `Remove` (unconfirmed_batch.go:52-60). -/
def Pending.remove (h : Bytes) (p : Pending) : Pending := p.filter (fun e => e.1 != some h)

/-- All batches one after the other (`All`, unconfirmed_batch.go:70-78). -/
def Pending.all (p : Pending) : Batch := (p.map (·.2)).flatten

/-- `Store` (db/store.go:16-33). `mem` is `memDb`: all records put in it since it was made. `snap`, `fly`, `pend` are
`snapshotBatch`, `flushingBatch`, `unconfirmedBatchs`. -/
structure Kv where
  disk : KMap
  mem : Batch
  snap : Batch
  fly : Option Batch
  pend : Pending

/-- `Get` (db/store.go:76-88): the newest record in memory counts, otherwise the disk. -/
def Kv.get (kv : Kv) (k : Bytes) : Option Bytes :=
  match kv.mem.reverse.find? (fun r => r.key == k) with
  | some r => r.val
  | none => kv.disk k

/-- `NewStore` (db/store.go:35-66): a store as it is found on disk. -/
def Kv.fresh (disk : KMap) : Kv := ⟨disk, [], [], none, []⟩

/-- The changes of a store. -/
inductive KvOp where
  /-- `WriteDirectly` (db/write.go:11-15). -/
  | direct (b : Batch)
  /-- `WriteAccountBlock` (db/write.go:17-28). -/
  | block (h : Bytes) (b : Batch)
  /-- `WriteSnapshot` (db/write.go:30-63) with the hashes of the blocks that the snapshot confirms. -/
  | snapshot (b : Batch) (hs : List Bytes)
  /-- `RollbackAccountBlocks` (db/rollback.go:9-31). -/
  | rollbackBlocks (b : Batch) (hs : List Bytes)
  /-- `RollbackSnapshot` (db/rollback.go:33-45). -/
  | rollbackSnapshot (b : Batch)

/-- The batches with these hashes, taken out of the unconfirmed ones. `none`: the panic when one is missing
(db/write.go:46-58). -/
def Pending.takeOut : List Bytes → Pending → Option (Batch × Pending)
  | [], p => some ([], p)
  | h :: hs, p =>
    match p.get h with
    | none => none
    | some b => (Pending.takeOut hs (p.remove h)).map (fun r => (b ++ r.1, r.2))

/-- A change of the store. `none`: a panic. -/
def Kv.step (kv : Kv) : KvOp → Option Kv
  | .direct b => some { kv with mem := kv.mem ++ b, snap := kv.snap ++ b }
  | .block h b => some { kv with mem := kv.mem ++ b, pend := kv.pend.put h b }
  | .snapshot b hs => (kv.pend.takeOut hs).map (fun r => { kv with mem := kv.mem ++ b, snap := kv.snap ++ r.1 ++ b, pend := r.2 })
  | .rollbackBlocks b hs => some { kv with mem := kv.mem ++ b, pend := hs.foldl (fun p h => p.remove h) kv.pend }
  | .rollbackSnapshot b => some { kv with mem := kv.mem ++ b, snap := kv.snap ++ kv.pend.all ++ b, pend := [] }

/-- `Prepare` (db/flush.go:22-30). `none`: the panic "prepare repeatedly". -/
def Kv.prepare (kv : Kv) : Option Kv :=
  match kv.fly with
  | some _ => none
  | none => some { kv with fly := some kv.snap, snap := [] }

/-- `CancelPrepare` (db/flush.go:33-43). -/
def Kv.cancel (kv : Kv) : Kv := { kv with snap := kv.fly.getD [] ++ kv.snap, fly := none }

/-- `Commit` (db/flush.go:49-54). -/
def Kv.commit (kv : Kv) : Kv := { kv with disk := (kv.fly.getD []).apply kv.disk }

/-- `AfterCommit` (db/flush.go:71-89). -/
def Kv.afterCommit (kv : Kv) : Kv := { kv with fly := none, mem := kv.snap ++ kv.pend.all }

end Verif.Store

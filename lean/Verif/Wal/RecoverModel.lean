import Verif.Wal.JournalModel
import Verif.Store.BatchModel

/-!
# Coming up after a crash

Models the way of a write through the journal (`writeLocked`, `common/db/xleveldb/db_write.go:129-221`) and `recoverJournal` (`db.go:472-637`) for one journal, with the coding of batches (`batch.go`, modelled in `Verif.Store.BatchModel`).
Not modelled: the tables and the manifest (a journal is the one that belongs to the table in memory), the write of a batch larger than the write buffer, which does not go through the journal (`db_write.go:237-248`), and that flushing the memory table in the middle of the recovery moves entries into a table. -/

namespace Verif.Wal
open Verif.Bytes Verif.Store

/-- An entry of the table in memory: the sequence number that is part of its key, and the record (`batch.go:225-234`, `MakeInternalKey`). -/
structure Entry where
  seq : Nat
  rec_ : Rec
deriving DecidableEq

/-- The entries of a batch from a sequence number on (`putMem`, `batch.go:225-234`; the same in `decodeBatchToMem`, `:296-308`). -/
def entries (seq : Nat) : Batch → List Entry
  | [] => []
  | r :: rs => ⟨seq, r⟩ :: entries (seq + 1) rs

/-- `binary.LittleEndian.PutUint64`. -/
def le8 (v : Nat) : List Nat := (List.range 8).map fun i => v / 256 ^ i % 256
/-- `binary.LittleEndian.Uint64`. -/
def un8 (l : List Nat) : Nat := ((List.range 8).map fun i => 256 ^ i * l.getD i 0).sum

/-- Bytes as numbers and back. -/
def nums (b : Bytes) : List Nat := b.map (·.toNat)
def bytes (l : List Nat) : Bytes := l.map UInt8.ofNat

/-- What is written to the journal for a group of batches (`writeBatchesWithHeader`, `batch.go:337-347`; `encodeBatchHeader`, `:313-318`), in its parts. -/
def groupParts (seq : Nat) (bs : List Batch) : List (List Nat) := (le8 (seq % 2 ^ 64) ++ le4 (bs.flatten.length % 2 ^ 32)) :: bs.map fun b => nums b.encode

/-- The database: the sequence number last used, the table in memory and the writer of its journal. -/
structure DB where
  seq : Nat
  mem : List Entry
  w : WSt

/-- `writeLocked` (`db_write.go:196-215`) for a group of batches that were merged: the journal, then the table in memory, then the sequence number. -/
def DB.write (B : Nat) (crc : List Nat → Nat) (db : DB) (bs : List Batch) : DB :=
  { seq := db.seq + bs.flatten.length, mem := db.mem ++ entries (db.seq + 1) bs.flatten, w := putRec B crc db.w (groupParts (db.seq + 1) bs) }

/-- `decodeBatchToMem` (`batch.go:280-311`): sequence number, number of records and entries; `none` for a damaged record. The code has then put some of the records into the table already, which is left out here. -/
def decodeToMem (data : List Nat) (expect : Nat) : Option (Nat × Nat × List Entry) :=
  if data.length < 12 then none
  else if un8 data < expect then none
  else
    match decodeBatch (bytes (data.drop 12)) with
    | none => none
    | some b => if b.length = un4 (data.drop 8) then some (un8 data, b.length, entries (un8 data) b) else none

/-- The loop of `recoverJournal` over the records (`db.go:551-596`), with `strict` off: a damaged record is passed over. -/
def replay : Nat → List Entry → List (List Nat) → Nat × List Entry
  | seq, mem, [] => (seq, mem)
  | seq, mem, r :: rs =>
    match decodeToMem r seq with
    | none => replay seq mem rs
    | some (bseq, blen, es) => replay (bseq + blen) (mem ++ es) rs

/-- `recoverJournal` (`db.go:472-637`) of one file, with the default options (`opt/options.go:134`): the checksum is tested, `strict` is off. `seq` is the number in the manifest (`stSeqNum`). -/
def recoverDB (B : Nat) (crc : List Nat → Nat) (seq : Nat) (file : List Nat) : Nat × List Entry := replay seq [] (readFile B crc false true file).1

/-- `Get` in the table in memory (`memGet`, `db.go:720-735`): the entry of the key with the greatest sequence number. The inner value is `none` for a deletion. -/
def lookup (key : Bytes) : List Entry → Option Entry
  | [] => none
  | e :: es =>
    match lookup key es with
    | none => if e.rec_.key = key then some e else none
    | some e' => if e.rec_.key = key ∧ e'.seq < e.seq then some e else some e'

end Verif.Wal

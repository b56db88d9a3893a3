import Verif.Base.Bytes

/-!
# Batches of changes, and the redo log of a flush

Model of the batches of the key-value stores (`common/db/xleveldb/batch.go`) with their coding in bytes, and of the file that a
flush writes before it changes any store (`ledger/chain/flusher/flusher.go`).
-/

namespace Verif.Store
open Verif.Bytes

/-- A record of a batch: a key and its new value, `none` for a deletion (batch.go:117-129). -/
structure Rec where
  key : Bytes
  val : Option Bytes
deriving DecidableEq, Repr

/-- `Batch`: the records in order. The index of positions that the code keeps beside the bytes is not modelled; the bytes are
`encode`. `Append` (batch.go:173-175) is `++`. -/
abbrev Batch := List Rec

/-- `binary.PutUvarint` of the Go library. -/
def uvarint (n : Nat) : Bytes :=
  if n < 128 then [UInt8.ofNat n] else UInt8.ofNat (n % 128 + 128) :: uvarint (n / 128)
termination_by n
decreasing_by omega

/-- `binary.Uvarint` of the Go library: at most ten bytes, of which the last is 0 or 1. `i` bytes have been read, with value `x`.
`none`: the bytes end, or the value does not fit. -/
def readUvarint : Nat → Nat → Bytes → Option (Nat × Bytes)
  | _, _, [] => none
  | i, x, b :: bs =>
    if i = 10 then none
    else if b.toNat < 128 then
      if i = 9 ∧ 1 < b.toNat then none else some (x + b.toNat * 128 ^ i, bs)
    else readUvarint (i + 1) (x + (b.toNat - 128) * 128 ^ i) bs

/-- `appendRec` (batch.go:91-115): the type (1 put, 0 delete: key.go:46-47), the length of the key, the key, and for a put the
length of the value and the value. -/
def Rec.encode (r : Rec) : Bytes :=
  match r.val with
  | some v => 1 :: (uvarint r.key.length ++ r.key ++ uvarint v.length ++ v)
  | none => 0 :: (uvarint r.key.length ++ r.key)

/-- `Dump` (batch.go:131-137). -/
def Batch.encode (b : Batch) : Bytes := (b.map Rec.encode).flatten

/-- A length and that many bytes (batch.go:247-255). A length of 2^63 and more, where the code would compute a negative number,
is an error here. -/
def readField (bs : Bytes) : Option (Bytes × Bytes) :=
  match readUvarint 0 0 bs with
  | none => none
  | some (n, rest) => if rest.length < n then none else some (rest.take n, rest.drop n)

/-- `decodeBatch` (batch.go:236-278); one round per record. -/
def decodeLoop : Nat → Bytes → Option Batch
  | 0, bs => if bs = [] then some [] else none
  | _ + 1, [] => some []
  | n + 1, t :: bs =>
    if 1 < t.toNat then none
    else
      match readField bs with
      | none => none
      | some (k, rest) =>
        if t.toNat = 1 then
          match readField rest with
          | none => none
          | some (v, rest') => (decodeLoop n rest').map (fun b => ⟨k, some v⟩ :: b)
        else (decodeLoop n rest).map (fun b => ⟨k, none⟩ :: b)

/-- `Load` (batch.go:139-145). -/
def decodeBatch (bs : Bytes) : Option Batch := decodeLoop bs.length bs

/-! ### The redo log -/

/-- What `writeRedoLog` writes for one store (flusher.go:384-420): the id, the length in four bytes and the log; nothing for an
empty log. -/
def logEntry (e : Bytes × Bytes) : Bytes := if e.2 = [] then [] else e.1 ++ be 4 e.2.length ++ e.2

/-- `writeRedoLog` (flusher.go:376-428): the entries of all stores in their order, and the flag. -/
def writeLog (flag : Bytes) (es : List (Bytes × Bytes)) : Bytes := (es.map logEntry).flatten ++ flag

/-- The status of the reader (flusher.go:286-288, 304-335): before an id, before a length, before a log. -/
inductive Reading where
  | id
  | len (id : Bytes)
  | log (id : Bytes) (n : Nat)

/-- The loop of `loadRedo` (flusher.go:294-338). `known` says whether a store with that id exists. The result is the logs read so
far, with their ids, and whether the flag was met; `none`: the error "id is not existed". -/
def loadLoop (flag : Bytes) (known : Bytes → Bool) : Nat → Reading → Bytes → List (Bytes × Bytes) → Bool → Option (List (Bytes × Bytes) × Bool)
  | 0, _, _, acc, f => some (acc, f)
  | n + 1, .id, bs, acc, f =>
    if bs.length < 32 then some (acc, f)
    else if bs.take 32 = flag then loadLoop flag known n .id (bs.drop 32) acc true
    else if known (bs.take 32) then loadLoop flag known n (.len (bs.take 32)) (bs.drop 32) acc f
    else none
  | n + 1, .len id, bs, acc, f =>
    if bs.length < 4 then some (acc, f) else loadLoop flag known n (.log id (num (bs.take 4))) (bs.drop 4) acc f
  | n + 1, .log id k, bs, acc, f =>
    if bs.length < k then some (acc, f) else loadLoop flag known n .id (bs.drop k) (acc ++ [(id, bs.take k)]) f

/-- `loadRedo` (flusher.go:269-344): nothing without the flag. A round that takes no bytes follows two that take 36, so the
rounds are at most as many as the bytes, and one. -/
def loadLog (flag : Bytes) (known : Bytes → Bool) (bs : Bytes) : Option (List (Bytes × Bytes)) :=
  (loadLoop flag known (bs.length + 1) .id bs [] false).map (fun r => if r.2 then r.1 else [])

end Verif.Store

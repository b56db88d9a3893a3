import Verif.Base.Bytes
import Verif.Base.Table

/-!
# The state database and its redo log

Models `ledger/chain/state` (`write.go`, `delete.go`, `redo.go`, `redo_cache.go`, `state_db.go`, `cache.go`) and the calls of it in
`ledger/chain/insert.go` and `ledger/chain/delete.go`.

Simplifications, for the whole file.

* A key of the store is a value of `Key`, not its bytes; `KeyProps.lean` shows that the bytes of two keys differ if the keys do, and
  that the history entries of one slot are in the order of their heights and next to each other.
* The store is the one of `Verif.Store.Kv` after C38 and C52: what a reader sees (`view`), what snapshots have confirmed (`conf`) and
  the changes of each unconfirmed block (`pend`). A flush changes none of the three, so it does not occur.
* Code, contract meta, VM logs and call depths are `once` entries: keys written by one block only.
* The index from a consensus group to its contracts is in `GidModel.lean`, the cache of consensus rounds is not modelled.
* Go panics are `none`. Encoding and decoding of a redo log (`gob`) gives the log back.
-/

namespace Verif.State
open Verif.Bytes

/-- An address. `common/types/address.go` -/
abbrev Addr := Bytes

/-- What a block can change again and again: a storage slot of its account, or its balance of a token.
`ledger/chain/utils/keys_state_db.go:52-142`. A balance is the bytes of the number. -/
inductive Field where
  | stor (key : Bytes)
  | bal (token : Bytes)
  deriving DecidableEq, Repr

/-- Keys of the store. `ledger/chain/utils/keys_state_db.go` -/
inductive Key where
  /-- `StorageKey`, `BalanceKey`: the latest value -/
  | latest (a : Addr) (f : Field)
  /-- `StorageHistoryKey`, `BalanceHistoryKey`: the value set by the snapshot at a height -/
  | hist (a : Addr) (f : Field) (h : Nat)
  /-- `CodeKey`, `ContractMetaKey`, `VmLogListKey`, `CallDepthKey` -/
  | once (i : Bytes)
  deriving DecidableEq, Repr

/-- What a key holds. -/
abbrev KMap := Key → Option Bytes

/-- One record of a batch: write or, with `none`, delete. -/
structure Rec where
  key : Key
  val : Option Bytes
  deriving DecidableEq, Repr

abbrev Batch := List Rec

/-- Applying a batch, in order. -/
def Batch.apply (b : Batch) (m : KMap) : KMap := b.foldl (fun m r k => if k = r.key then r.val else m k) m

/-- An account block with the changes of its execution. `interfaces/vm_db.go` (`VmAccountBlock`), `write.go:16-124` -/
structure Blk where
  addr : Addr
  height : Nat
  hash : Nat
  /-- `GetUnsavedStorage` in its order, then `GetUnsavedBalanceMap` -/
  writes : List (Field × Bytes)
  /-- code, contract meta, VM log, call depths -/
  once : List (Bytes × Bytes)
  deriving DecidableEq, Repr

/-- `redo.go:18-26` -/
structure LogItem where
  writes : List (Field × Bytes)
  once : List (Bytes × Bytes)
  height : Nat
  deriving DecidableEq, Repr

/-- `redo.go:28`. A Go map: no address occurs twice. -/
abbrev SnapLog := Table Addr (List LogItem)

/-- The value to store for the latest value of a field: an empty storage value is a deletion. `write.go:33-37`, `261-265` -/
def latestVal : Field → Bytes → Option Bytes
  | .stor _, v => if v = [] then none else some v
  | .bal _, v => some v

/-- The records of a block's changes. `write.go:28-114` (`Write`) and `write.go:130-185` (`WriteByRedo`), which are equal but for the
index of contracts by group. -/
def writeBatch (a : Addr) (writes : List (Field × Bytes)) (once : List (Bytes × Bytes)) : Batch :=
  writes.map (fun w => ⟨.latest a w.1, latestVal w.1 w.2⟩) ++ once.map (fun o => ⟨.once o.1, some o.2⟩)

/-- The state database. -/
structure Db where
  view : KMap
  conf : KMap
  /-- unconfirmed blocks by hash -/
  pend : List (Nat × Batch)
  /-- `RedoCache.snapshotLogMap`, `redo_cache.go:9-15` -/
  cache : Table Nat SnapLog
  /-- `RedoCache.currentHeight` -/
  cur : Nat
  /-- the store of redo logs, `redo.go:61-71` -/
  logs : Table Nat SnapLog
  /-- cached balances, prefix `c`, `cache.go:14` -/
  balc : Addr → Bytes → Option Bytes
  /-- cached storage as of the latest snapshot, prefix `a`, `cache.go:12` -/
  snapc : Addr → Bytes → Option Bytes
  /-- All slots that ever got a history entry: stands in for iterating over the store. -/
  dom : List (Addr × Field)

/-! ### The redo log -/

/-- `redoCache.retainHeightGap`, `redo_cache.go:19` -/
def gap : Nat := 12

/-- `redo.retainHeight`, `redo.go:78` -/
def retain : Nat := 1200

/-- Removing a key of a Go map. -/
def rm {K V : Type} [DecidableEq K] (k : K) (t : Table K V) : Table K V := t.filter (fun e => decide (e.1 ≠ k))

/-- `redo_cache.go:64-80` -/
def Db.setCurrent (d : Db) (h : Nat) (l : SnapLog) : Db :=
  let c := d.cache.put h l
  { d with cur := h, cache := if c.length > gap ∧ h > gap then c.filter (fun e => decide (e.1 > h - gap)) else c }

/-- `redo_cache.go:82-87`. `none`: the current log is missing, a write to a nil map. -/
def Db.addLog (d : Db) (a : Addr) (i : LogItem) : Option Db :=
  match d.cache.get d.cur with
  | none => none
  | some l => some { d with cache := d.cache.put d.cur (l.put a ((l.get a).getD [] ++ [i])) }

/-- `redo.go:199-223`: the log of a height, and whether there is one. An absent log at the height after an existing one counts as
there. -/
def Db.queryLog (d : Db) (h : Nat) : SnapLog × Bool :=
  match d.cache.get h with
  | some l => (l, true)
  | none =>
    match d.logs.get h with
    | some l => (l, true)
    | none => ([], (d.logs.get (h - 1)).isSome)

/-- `redo.go:180-197` -/
def Db.hasRedo (d : Db) (h : Nat) : Bool :=
  (d.cache.get h).isSome || (d.logs.get h).isSome || (d.logs.get (h - 1)).isSome

/-- `redo.go:138-148`: the number of items to confirm: all up to the last one whose height is at most that of the block. -/
def splitAt (l : List LogItem) (h : Nat) : Nat := (l.reverse.dropWhile (fun i => decide (i.height > h))).length

/-- `redo.go:127-149`: the loop over the confirmed blocks, from the last to the first (given in that order), moving items from the
log of the next snapshot to that of this one. `none`: panic, no log for the address. -/
def splitLog : List Blk → SnapLog → SnapLog → Option (SnapLog × SnapLog)
  | [], this, next => some (this, next)
  | b :: bs, this, next =>
    if (this.get b.addr).isSome then splitLog bs this next
    else match next.get b.addr with
      | none => none
      | some l =>
        let n := splitAt l b.height
        if n = 0 then splitLog bs this next
        else splitLog bs (this.put b.addr (l.take n)) (if n ≥ l.length then rm b.addr next else next.put b.addr (l.drop n))

/-- `redo.go:120-178`. Also gives the log of the new snapshot. -/
def Db.redoInsert (d : Db) (h : Nat) (confirmed : List Blk) : Option (SnapLog × Db) :=
  match d.cache.get d.cur with
  | none => none
  | some next =>
    match (if next.length > 0 then splitLog confirmed.reverse [] next else some ([], next)) with
    | none => none
    | some (this, next) =>
      let logs := d.logs.put h this
      let logs := if h > retain then rm (h - retain) logs else logs
      let d := { d with logs := logs, cache := d.cache.put h this }
      some (this, d.setCurrent (h + 1) next)

/-- `redo.go:234-247`, `redo_cache.go:47-55` for the heights of the deleted snapshots -/
def Db.redoRollback (d : Db) : List Nat → Db
  | [] => d
  | h :: hs => Db.redoRollback { d with cache := rm h d.cache, cur := if d.cur ≥ h then d.cur - 1 else d.cur, logs := rm h d.logs } hs

/-- `redo.go:249-284`: drop the items of an address from a height on; gives them and the new log. -/
def deleteRedoLog (log : SnapLog) (a : Addr) (h : Nat) : List LogItem × SnapLog :=
  match log.get a with
  | none => ([], log)
  | some [] => ([], log)
  | some (i :: l) =>
    if h ≤ i.height then (i :: l, rm a log)
    else if h > ((i :: l).getLast (by simp)).height then ([], log)
    else
      let n := ((i :: l).reverse.dropWhile (fun j => decide (¬ j.height < h))).length
      ((i :: l).drop n, log.put a ((i :: l).take n))

/-! ### The caches

Every batch that writes or deletes a latest balance does the same to the cache (`writeBalance`, `write.go:261-265`; `deleteBalance`,
`delete.go:638-642`), and every batch that writes or deletes a history entry of storage does it to the cache of snapshot values of the
cached contracts (`writeHistoryKey`, `write.go:267-280`; `deleteHistoryKey`, `delete.go:644-655`). -/

/-- Balance cache after a batch. -/
def balUpd (b : Batch) (c : Addr → Bytes → Option Bytes) : Addr → Bytes → Option Bytes :=
  b.foldl (fun c r a t => if r.key = .latest a (.bal t) then r.val else c a t) c

/-- The height of a history entry of this storage slot. -/
def isHist (a : Addr) (k : Bytes) : Key → Bool
  | .hist a' (.stor k') _ => a' = a ∧ k' = k
  | _ => false

/-- Snapshot cache after a batch; `cached` are the contracts whose values are kept, `shouldCacheContractData`, `state_db.go:370-372`. -/
def snapUpd (cached : Addr → Bool) (b : Batch) (c : Addr → Bytes → Option Bytes) : Addr → Bytes → Option Bytes :=
  b.foldl (fun c r a k => if cached a && isHist a k r.key then r.val else c a k) c

/-- Building a batch changes the caches. -/
def Db.caches (d : Db) (cached : Addr → Bool) (b : Batch) : Db :=
  { d with balc := balUpd b d.balc, snapc := snapUpd cached b d.snapc }

/-- `cache.go:49-68`: the latest storage of the built-in contracts. Taken for the cached contracts only: entries of the others are
never read. -/
def Db.initSnapCache (d : Db) (cached : Addr → Bool) : Db :=
  { d with snapc := fun a k => if cached a then (match d.view (.latest a (.stor k)) with | some v => some v | none => d.snapc a k) else d.snapc a k }

/-! ### Reading -/

/-- The last history entry of a slot up to a height: what `iter.Last()` finds in the range `[0, h + 1)` (`state_db.go:317-325`), and
`Seek` to `h + 1` followed by `Prev` (`state_db.go:402-413`, `delete.go:359-364`). -/
def histAt (m : KMap) (a : Addr) (f : Field) : Nat → Option Bytes
  | 0 => m (.hist a f 0)
  | h + 1 => match m (.hist a f (h + 1)) with | some v => some v | none => histAt m a f h

/-- `GetStorageValue`, `state_db.go:128-134`; an absent value is empty -/
def Db.getStorage (d : Db) (a : Addr) (k : Bytes) : Bytes := (d.view (.latest a (.stor k))).getD []

/-- `GetBalance`, `state_db.go:136-145`, `cache.go:84-98`: the bytes of the number -/
def Db.getBalance (d : Db) (a : Addr) (t : Bytes) : Bytes :=
  match d.balc a t with
  | some v => v
  | none => (d.view (.latest a (.bal t))).getD []

/-- `GetSnapshotValue`, `state_db.go:311-332`, with the cache in use or not; `latest` is the height of the latest snapshot -/
def Db.getSnapshotValue (d : Db) (cached : Addr → Bool) (useCache : Bool) (latest h : Nat) (a : Addr) (k : Bytes) : Option Bytes :=
  if useCache && cached a && decide (h = latest) then d.snapc a k
  else histAt d.view a (.stor k) h

/-- `getSnapshotBalanceList` for one address, `state_db.go:374-420`: no entry if there is none -/
def Db.getSnapshotBalance (d : Db) (h : Nat) (a : Addr) (t : Bytes) : Option Bytes := histAt d.view a (.bal t) h

/-- `GetCode`, `GetVmLogList`, `GetCallDepth`, `state_db.go:168-175`, `251-276`; `GetContractMeta` reads a cache of the same values -/
def Db.getOnce (d : Db) (i : Bytes) : Option Bytes := d.view (.once i)

/-! ### Changes -/

/-- `Write`, `write.go:16-125` -/
def Db.write (d : Db) (cached : Addr → Bool) (b : Blk) : Option Db :=
  let bt := writeBatch b.addr b.writes b.once
  match (d.caches cached bt).addLog b.addr ⟨b.writes, b.once, b.height⟩ with
  | none => none
  | some d => some { d with pend := d.pend ++ [(b.hash, bt)], view := bt.apply d.view }

/-- The unconfirmed batches of these blocks, in their order, and the other ones. `Store.WriteSnapshot`; `none`: a block is not there. -/
def takeOut : List Blk → List (Nat × Batch) → Option (Batch × List (Nat × Batch))
  | [], p => some ([], p)
  | b :: bs, p =>
    match Table.get b.hash p with
    | none => none
    | some bt =>
      match takeOut bs (rm b.hash p) with
      | none => none
      | some (done, rest) => some (bt ++ done, rest)

/-- The history entries of a snapshot. `write.go:203-243`. The code keeps the last value of each key (`parseRedoLog`, `redo.go:286-309`)
and writes it once; here every value is written, in order, so that the last one stays. -/
def histBatch (h : Nat) (log : SnapLog) : Batch :=
  log.flatMap (fun e => e.2.flatMap (fun i => i.writes.map (fun w => ⟨.hist e.1 w.1 h, some w.2⟩)))

/-- The slots written by a log: the key and token sets of a rollback, `delete.go:241,258` -/
def slots (log : SnapLog) : List (Addr × Field) :=
  log.flatMap (fun e => e.2.flatMap (fun i => i.writes.map (fun w => (e.1, w.1))))

/-- `InsertSnapshotBlock`, `write.go:189-253` -/
def Db.insertSnapshot (d : Db) (cached : Addr → Bool) (h : Nat) (confirmed : List Blk) : Option Db :=
  match d.redoInsert h confirmed with
  | none => none
  | some (_, d) =>
    let log := (d.queryLog h).1
    let bt := histBatch h log
    let d := d.caches cached bt
    match takeOut confirmed d.pend with
    | none => none
    | some (done, rest) =>
      some { d with conf := bt.apply (done.apply d.conf), pend := rest, view := bt.apply d.view, dom := d.dom ++ slots log }

/-- `rollbackByRedo`, `delete.go:197-305`: with a height, delete the history entries of that snapshot; without, the latest values; and
the entries written once. -/
def rollbackByRedo (h : Option Nat) (log : SnapLog) : Batch :=
  log.flatMap (fun e => e.2.flatMap (fun i =>
    i.writes.map (fun w => ⟨match h with | some h => .hist e.1 w.1 h | none => .latest e.1 w.1, none⟩) ++
    i.once.map (fun o => ⟨.once o.1, none⟩)))

/-- `recoverLatestIndexToSnapshot`, `delete.go:307-374`, for the slots given: storage is read as `GetSnapshotValue` does, balances from
the history entries. -/
def Db.recoverLatest (d : Db) (cached : Addr → Bool) (useCache : Bool) (latest h : Nat) (s : List (Addr × Field)) : Batch :=
  s.map (fun x => match x.2 with
    | .stor k => ⟨.latest x.1 (.stor k), latestVal (.stor k) ((d.getSnapshotValue cached useCache latest h x.1 k).getD [])⟩
    | .bal t => ⟨.latest x.1 (.bal t), d.getSnapshotBalance h x.1 t⟩)

/-- `recoverLatestIndexByRedo`, `delete.go:376-401`: the latest values from the items that stay. -/
def recoverByRedo (addrs : List Addr) (log : SnapLog) : Batch :=
  addrs.flatMap (fun a => ((log.get a).getD []).flatMap (fun i => i.writes.map (fun w => ⟨.latest a w.1, latestVal w.1 w.2⟩)))

/-- The slots that are left to recover, `delete.go:386-396`. -/
def leftSlots (addrs : List Addr) (log : SnapLog) (s : List (Addr × Field)) : List (Addr × Field) :=
  s.filter (fun x => ¬ (x.1 ∈ addrs ∧ ((log.get x.1).getD []).any (fun i => i.writes.any (fun w => w.1 = x.2))))

/-- The loop over the blocks to delete, `delete.go:161-171`: the items deleted by address, and the log that stays. -/
def deleteLogs : List Blk → SnapLog → SnapLog → SnapLog × SnapLog
  | [], del, log => (del, log)
  | b :: bs, del, log =>
    if (del.get b.addr).isSome then deleteLogs bs del log
    else
      let (l, log') := deleteRedoLog log b.addr b.height
      deleteLogs bs (del.put b.addr l) log'

/-- Removing the batches of these blocks. `Store.RollbackAccountBlocks` -/
def removeAll (bs : List Blk) (p : List (Nat × Batch)) : List (Nat × Batch) := bs.foldl (fun p b => rm b.hash p) p

/-- `RollbackAccountBlocks`, `delete.go:142-195`. `none`: there is no redo log of the unconfirmed blocks, an error that stops the node
(`ledger/chain/delete.go:299-302`). -/
def Db.rollbackBlocks (d : Db) (cached : Addr → Bool) (latest : Nat) (bs : List Blk) : Option Db :=
  match d.queryLog (latest + 1) with
  | (_, false) => none
  | (log, true) =>
    let (del, log) := deleteLogs bs [] log
    let addrs := del.map (·.1)
    let bt := rollbackByRedo none del ++ recoverByRedo addrs log ++
      d.recoverLatest cached true latest latest (leftSlots addrs log (slots del))
    let d := (d.caches cached bt).setCurrent (latest + 1) log
    some { d with pend := removeAll bs d.pend, view := bt.apply d.view }

/-- A snapshot to delete with the blocks it confirms; without a height: the unconfirmed blocks. `interfaces/core/snapshot_chunk.go` -/
structure Chunk where
  height : Option Nat
  blocks : List Blk

/-- `delete.go:43-66`: the logs of the chunks; the first is that of the height after the target, then one height each. -/
def Db.chunkLogs (d : Db) (h : Nat) : List Chunk → List (Option Nat × SnapLog)
  | [] => []
  | c :: cs => (c.height, (d.queryLog h).1) :: Db.chunkLogs d (h + 1) cs

/-! #### Rollback without redo log -/

/-- The order of two storage keys in the store: padded with zeros to 32 bytes, then the length. `keys_state_db.go:66-69` -/
def keyBytes (k : Bytes) : Bytes := k ++ List.replicate (32 - k.length) 0 ++ [UInt8.ofNat k.length]

/-- Byte order. -/
def bytesLt : Bytes → Bytes → Bool
  | _, [] => false
  | [], _ :: _ => true
  | x :: xs, y :: ys => if x < y then true else if y < x then false else bytesLt xs ys

/-- The least of some keys. -/
def leastKey : List Bytes → Option Bytes
  | [] => none
  | k :: ks => match leastKey ks with
    | none => some k
    | some k' => if bytesLt (keyBytes k') (keyBytes k) then some k' else some k

/-- The storage keys of an address that have a history entry. -/
def Db.histKeys (d : Db) (top : Nat) (a : Addr) : List Bytes :=
  d.dom.filterMap (fun x => match x.2 with
    | .stor k => if x.1 = a ∧ (histAt d.view a (.stor k) top).isSome then some k else none
    | .bal _ => none)

/-- The tokens of an address that have a history entry. -/
def Db.histTokens (d : Db) (top : Nat) (a : Addr) : List Bytes :=
  d.dom.filterMap (fun x => match x.2 with
    | .stor _ => none
    | .bal t => if x.1 = a ∧ (histAt d.view a (.bal t) top).isSome then some t else none)

/-- Deleting the history entries of a slot above a height. `delete.go:502-521`, `590-603` -/
def dropHist (m : KMap) (a : Addr) (f : Field) (h top : Nat) : Batch :=
  ((List.range (top - h)).map (fun i => h + 1 + i)).filterMap
    (fun j => if (m (.hist a f j)).isSome then some ⟨.hist a f j, none⟩ else none)

/-- `recoverStorageToSnapshot`, `delete.go:451-537`, `top` a height no entry is above. The iterator stands on the first entry of the
address. It seeks the first key at the height after `h` and goes back by one entry: if that key has no entry up to `h` there is no
entry before it, the code finds no key and leaves the loop (`delete.go:481-486`). Otherwise no later key can end the loop, and every
key is restored. `unconf` are the unconfirmed keys; those without history are deleted. -/
def Db.recoverStorage (d : Db) (h top : Nat) (a : Addr) (unconf : List Bytes) : Batch :=
  let ks := d.histKeys top a
  match leastKey ks with
  | none => unconf.map (fun k => ⟨.latest a (.stor k), none⟩)
  | some k0 =>
    if (histAt d.view a (.stor k0) h).isNone then
      (unconf.filter (fun k => decide (k ≠ k0))).map (fun k => ⟨.latest a (.stor k), none⟩)
    else
      ks.flatMap (fun k => ⟨.latest a (.stor k), latestVal (.stor k) ((histAt d.view a (.stor k) h).getD [])⟩ :: dropHist d.view a (.stor k) h top) ++
      (unconf.filter (fun k => decide (k ∉ ks))).map (fun k => ⟨.latest a (.stor k), none⟩)

/-- `recoverBalanceToSnapshot`, `delete.go:539-619`: as for storage, but the loop is not left. -/
def Db.recoverBalance (d : Db) (h top : Nat) (a : Addr) (unconf : List Bytes) : Batch :=
  let ks := d.histTokens top a
  ks.flatMap (fun t => ⟨.latest a (.bal t), histAt d.view a (.bal t) h⟩ :: dropHist d.view a (.bal t) h top) ++
  (unconf.filter (fun t => decide (t ∉ ks))).map (fun t => ⟨.latest a (.bal t), none⟩)

/-- The unconfirmed storage keys of an address, `redo.go:286-309`. -/
def unconfKeys (log : SnapLog) (a : Addr) : List Bytes :=
  ((log.get a).getD []).flatMap (fun i => i.writes.filterMap (fun w => match w.1 with | .stor k => some k | .bal _ => none))

/-- The unconfirmed tokens of an address, `redo.go:286-309`. -/
def unconfTokens (log : SnapLog) (a : Addr) : List Bytes :=
  ((log.get a).getD []).flatMap (fun i => i.writes.filterMap (fun w => match w.1 with | .stor _ => none | .bal t => some t))

/-- The unconfirmed log of a rollback without redo log, `delete.go:84-89`. -/
def Db.oldUnconfirmed (d : Db) (h : Nat) (cs : List Chunk) : SnapLog :=
  match cs.getLast? with
  | some c => if c.height.isNone then (d.queryLog (h + cs.length)).1 else []
  | none => []

/-- The batch of a rollback without redo log, `delete.go:77-107`, `403-449`. `rollbackAccountBlock` finds the entries written once from
the block; here they are taken to be those the block wrote. An address is gone through once per block, not once. -/
def Db.deepBatch (d : Db) (h : Nat) (cs : List Chunk) : Batch :=
  let log := d.oldUnconfirmed h cs
  let bs := cs.flatMap (·.blocks)
  bs.flatMap (fun b => b.once.map (fun o => ⟨.once o.1, none⟩)) ++
  bs.flatMap (fun b => d.recoverStorage h (h + cs.length) b.addr (unconfKeys log b.addr) ++
    d.recoverBalance h (h + cs.length) b.addr (unconfTokens log b.addr))

/-- The batch of a rollback with redo log, `delete.go:40-74`. -/
def Db.redoBatch (d : Db) (cached : Addr → Bool) (h : Nat) (cs : List Chunk) : Batch :=
  let ls := d.chunkLogs (h + 1) cs
  ls.flatMap (fun l => rollbackByRedo l.1 l.2) ++ d.recoverLatest cached false h h (ls.flatMap (fun l => slots l.2))

/-- `delete.go:127-135`, `WriteByRedo`: the blocks of the first deleted snapshot are unconfirmed again. `none`: index out of range. -/
def Db.writeByRedo (d : Db) (cached : Addr → Bool) (log : SnapLog) : List Blk → Option Db
  | [] => some d
  | b :: bs =>
    match (log.get b.addr).getD [] with
    | [] => none
    | i :: l =>
      if b.height < i.height then none
      else match (i :: l)[b.height - i.height]? with
        | none => none
        | some j =>
          let bt := writeBatch b.addr j.writes j.once
          let d := d.caches cached bt
          Db.writeByRedo { d with pend := d.pend ++ [(b.hash, bt)], view := bt.apply d.view } cached log bs

/-- All unconfirmed changes. -/
def pendAll (p : List (Nat × Batch)) : Batch := p.flatMap (·.2)

/-- `RollbackSnapshotBlocks`, `delete.go:19-140`: back to the snapshot of height `h`; `again` are the blocks to be unconfirmed again. -/
def Db.rollbackSnapshots (d : Db) (cached : Addr → Bool) (h : Nat) (cs : List Chunk) (again : List Blk) : Option Db :=
  let log := (d.queryLog (h + 1)).1
  let bt := if (d.queryLog (h + 1)).2 then d.redoBatch cached h cs else d.deepBatch h cs
  let d := d.caches cached bt
  let d := { d with conf := bt.apply ((pendAll d.pend).apply d.conf), pend := [], view := bt.apply d.view }
  let d := d.redoRollback (cs.filterMap (·.height))
  let d := d.setCurrent (h + 1) log
  (d.initSnapCache cached).writeByRedo cached log again

/-- A node that starts on the data of its disk, `redo.go:96-110`, `state_db.go:90-100`: unconfirmed blocks are gone, caches are empty
or filled from the store. -/
def Db.restart (d : Db) (cached : Addr → Bool) (latest : Nat) : Db :=
  Db.initSnapCache { d with view := d.conf, pend := [], cache := [(latest + 1, [])], cur := latest + 1, balc := fun _ _ => none, snapc := fun _ _ => none } cached

/-- The database of a new node. -/
def Db.empty : Db :=
  { view := fun _ => none, conf := fun _ => none, pend := [], cache := [(1, [])], cur := 1, logs := [], balc := fun _ _ => none,
    snapc := fun _ _ => none, dom := [] }

/-! ### The chain's calls -/

/-- The ledger as the chain keeps it in its index and its cache of unconfirmed blocks: for each snapshot, from height 1, the blocks it
confirms; and the unconfirmed blocks. -/
structure Ledger where
  snaps : List (List Blk)
  unconf : List Blk

structure Node where
  led : Ledger
  db : Db

/-- `getBlocksToBeConfirmed`, `ledger/chain/insert.go:69-95`; `sc` is a Go map, `left` the number of its entries not met yet. -/
def toConfirm (sc : Table Addr Nat) : Nat → List Blk → Option (List Blk)
  | 0, _ => some []
  | _ + 1, [] => none
  | left + 1, b :: bs =>
    match sc.get b.addr with
    | none => toConfirm sc (left + 1) bs
    | some h =>
      if b.height < h then (toConfirm sc (left + 1) bs).map (b :: ·)
      else if b.height = h then (toConfirm sc left bs).map (b :: ·)
      else toConfirm sc (left + 1) bs

/-- `blockDB.PrepareRollback` and `delete.go:134-140`: the snapshots above a height, and the unconfirmed blocks if there are any. -/
def Ledger.chunks (l : Ledger) (h : Nat) : List Chunk :=
  ((l.snaps.drop h).mapIdx (fun i bs => ⟨some (h + 1 + i), bs⟩)) ++ (if l.unconf = [] then [] else [⟨none, l.unconf⟩])

/-- What the chain does. -/
inductive Op where
  /-- `InsertAccountBlock`, `ledger/chain/insert.go:13-46` -/
  | insert (b : Blk)
  /-- `insertSnapshotBlock`, `ledger/chain/insert.go:98-170` -/
  | snapshot (sc : Table Addr Nat)
  /-- `deleteAccountBlocks`, `ledger/chain/delete.go:267-309` -/
  | delete (bs : List Blk)
  /-- `deleteSnapshotBlocksToHeight (h + 1)`, `ledger/chain/delete.go:75-211` -/
  | rollback (h : Nat)
  /-- the process ends, and starts again -/
  | restart

/-- One step of the chain. `none`: the process ends in a panic. -/
def Node.step (cached : Addr → Bool) (n : Node) : Op → Option Node
  | .insert b =>
    (n.db.write cached b).map (fun d => ⟨⟨n.led.snaps, n.led.unconf ++ [b]⟩, d⟩)
  | .snapshot sc =>
    match toConfirm sc sc.length n.led.unconf with
    | none => some n
    | some bs =>
      (n.db.insertSnapshot cached (n.led.snaps.length + 1) bs).map
        (fun d => ⟨⟨n.led.snaps ++ [bs], n.led.unconf.filter (fun b => decide (b ∉ bs))⟩, d⟩)
  | .delete bs =>
    (n.db.rollbackBlocks cached n.led.snaps.length bs).map
      (fun d => ⟨⟨n.led.snaps, n.led.unconf.filter (fun b => decide (b ∉ bs))⟩, d⟩)
  | .rollback h =>
    let again := if n.db.hasRedo (h + 1) then (n.led.snaps.drop h).headD [] else []
    (n.db.rollbackSnapshots cached h (n.led.chunks h) again).map (fun d => ⟨⟨n.led.snaps.take h, again⟩, d⟩)
  | .restart => some ⟨⟨n.led.snaps, []⟩, n.db.restart cached n.led.snaps.length⟩

/-- A new node. -/
def Node.start : Node := ⟨⟨[], []⟩, Db.empty⟩

end Verif.State

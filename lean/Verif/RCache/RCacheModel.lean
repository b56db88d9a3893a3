import Verif.Iter.IterModel
import Verif.Block.BlockModel

/-!
# The round cache

Models `ledger/chain/state/round_cache.go`: the balances of the base token and the storage of the governance contract at the last snapshot block
of each of the last rounds, kept in memory for the election, and the queries that read it (`state_db.go:278-308`, `storage_database.go:47-66`).

Simplifications: a block carries the number of its round (`Time2Index` of its time, see area `Consensus`) and the redo log that the state
database made for it. Reads of the databases do not fail. Operations are atomic: the locks and the reuse of memory by `MemPool` are not
modelled. The database is not a table of its own: what it answers is given by the logs of the chain's blocks (`RCacheSpec`). -/

namespace Verif.RCache

open Verif.Bytes Verif.Iter
open Verif.Block (bigBytes)

/-- An address; its bytes. -/
abbrev Addr := Bytes

/-- `types.AddressGovernance`. -/
def governance : Addr := [0, 0, 0, 0, 0, 0, 0, 0, 0, 0, 0, 0, 0, 0, 0, 0, 0, 0, 0, 4, 1]

/-- What a block of an account did: `LogItem` (`redo.go:18-26`), the storage it wrote in order and the balances it left, by token. Other
parts of the log are not used here. `vite` is the balance of the base token, if it is in the map. -/
structure Item where
  storage : List Entry
  vite : Option Nat
deriving Repr, DecidableEq

/-- `SnapshotLog` (`redo.go:28`): a map from addresses. -/
abbrev Log := List (Addr × List Item)

/-- A snapshot block with the redo log of the account blocks it confirms. -/
structure Blk where
  hash : Nat
  height : Nat
  round : Nat
  log : Log
deriving Repr, DecidableEq

/-- A chain, the oldest block first. -/
abbrev Chain := List Blk

/-- `memdb.DB`: entries in key order. -/
abbrev Mem := List Entry

/-- `makeStorageKey` (`round_cache.go:828-830`, `chain/utils/key_prefix.go:34`). -/
def storageKey (k : Bytes) : Bytes := 1 :: k

/-- `makeBalanceKey` (`round_cache.go:832-834`, `key_prefix.go:38`). -/
def balanceKey (a : Addr) : Bytes := 3 :: a

/-- `memdb.DB.Get`. -/
def Mem.get (m : Mem) (k : Bytes) : Option Bytes := (m.find? (fun e => decide (e.1 = k))).map (·.2)

/-- A snapshot block's log as the cache keeps it: `RoundCacheSnapshotLog` (`round_cache.go:104-108`). -/
structure Redo where
  height : Nat
  log : Log
deriving Repr, DecidableEq

/-- The filter of `RoundCacheRedoLogs.Add` (`round_cache.go:125-153`): storage is kept for the governance contract only. -/
def redoOf (height : Nat) (log : Log) : Redo :=
  ⟨height, log.map (fun (a, items) => (a, items.map (fun i => { i with storage := if a = governance then i.storage else [] })))⟩

/-- `RedoCacheData` (`round_cache.go:155-165`). -/
structure Slot where
  round : Nat
  last : Option Blk
  cur : Option Mem
  logs : Option (List Redo)
deriving Repr, DecidableEq

/-- The chain and its cache. `latest` is `latestRoundIndex`. -/
structure St where
  chain : Chain
  inited : Bool
  latest : Nat
  slots : List Slot
deriving Repr, DecidableEq

/-- What does not change: the number of rounds kept (`roundCount`, 3 in `state_db.go:86`); the order in which a map is gone through; the
accounts that `IterateAccounts` lists; for which heights the redo database still has a log (`redo.go:163-166`); whether
`GetSnapshotHeadersAfterOrEqualTime` gives the highest block first, as it does (`snapshot_block.go:399`, `749-784`, see `headersDown` in
`Snap/TimeModel.lean`) or the lowest, as the comment in `round_cache.go:652` assumes. -/
structure Cfg where
  count : Nat
  order : Log → Log
  accounts : List Addr
  kept : Nat → Bool
  down : Bool

/-! ## What the database answers -/

/-- What a log writes to the storage of the governance contract, in order. -/
def Log.writes (l : Log) : List Entry := ((l.find? (fun p => decide (p.1 = governance))).map (fun p => p.2.flatMap (·.storage))).getD []

/-- The balances of the base token that a log gives to an account, in order. -/
def Log.credits (l : Log) (a : Addr) : List Nat := ((l.find? (fun p => decide (p.1 = a))).map (fun p => p.2.filterMap (·.vite))).getD []

/-- The value of a slot of the governance contract at a snapshot height, as the database has it: that of the last write at or before the height. -/
def storageAt (c : Chain) (h : Nat) (k : Bytes) : Option Bytes :=
  (((c.take h).flatMap (·.log.writes)).filter (fun e => decide (e.1 = k))).getLast?.map (·.2)

/-- The balance of an account at a snapshot height, as the database has it. -/
def balanceAt (c : Chain) (h : Nat) (a : Addr) : Option Nat := ((c.take h).flatMap (·.log.credits a)).getLast?

/-- The slots that were ever written up to a height, as the database lists them. -/
def listStorage (c : Chain) (h : Nat) : List Entry :=
  ((c.take h).flatMap (·.log.writes)).foldl (fun m e => put e.1 e.2 m) []

/-! ## Building data -/

/-- `buildCurrentData`: one log item of an account (`round_cache.go:675-687`). -/
def applyItem (a : Addr) (m : Mem) (i : Item) : Mem :=
  let m := i.storage.foldl (fun m e => put (storageKey e.1) e.2 m) m
  match i.vite with
  | none => m
  | some b => put (balanceKey a) (bigBytes b) m

/-- One snapshot block's log (`round_cache.go:673-691`); the order in which the map is gone through is not fixed. -/
def applyRedo (g : Cfg) (m : Mem) (r : Redo) : Mem :=
  (g.order r.log).foldl (fun m p => p.2.foldl (applyItem p.1) m) m

/-- `buildCurrentData` (`round_cache.go:669-694`). -/
def build (g : Cfg) (m : Mem) (logs : List Redo) : Mem := logs.foldl (applyRedo g) m

/-- `roundToLastSnapshotBlock` (`round_cache.go:696-714`): the last block before the next round, if it is of this round. -/
def lastOfRound (c : Chain) (r : Nat) : Option Blk :=
  match (c.filter (fun b => decide (b.round ≤ r))).getLast? with
  | none => none
  | some b => if b.round = r then some b else none

/-- `queryCurrentData` (`round_cache.go:613-636`, `745-819`). -/
def queryCurrent (g : Cfg) (c : Chain) (r : Nat) : Option (Mem × Blk) :=
  match lastOfRound c r with
  | none => none
  | some b =>
    let m := (listStorage c b.height).foldl (fun m e => put (storageKey e.1) e.2 m) []
    let m := g.accounts.foldl (fun m a => match balanceAt c b.height a with | none => m | some x => put (balanceKey a) (bigBytes x) m) m
    some (m, b)

/-- `getRoundSnapshotBlocks` (`round_cache.go:716-743`). -/
def roundBlocks (g : Cfg) (c : Chain) (r : Nat) : List Blk :=
  let l := c.filter (fun b => decide (b.round = r))
  if g.down then l.reverse else l

/-- `queryRedoLogs` (`round_cache.go:638-666`); the flag says whether all logs are stored. -/
def queryRedo (g : Cfg) (c : Chain) (r : Nat) : Option (List Redo) × Bool :=
  let bs := roundBlocks g c r
  if bs = [] then (none, true)
  else if bs.all (fun b => g.kept b.height) then (some (bs.map (fun b => redoOf b.height b.log)), true)
  else (none, false)

/-- The loop of `initRounds` (`round_cache.go:574-608`); `n` rounds are left, `index` is the first of them. `none` says that the redo logs
of a round are not stored, with the round, from which to begin again; an error is not distinguished from nothing. -/
def initLoop (g : Cfg) (c : Chain) : (n index : Nat) → Mem → List Slot → Except Nat (List Slot)
  | 0, _, _, acc => .ok acc
  | n + 1, index, prev, acc =>
    match queryRedo g c index with
    | (_, false) => .error index
    | (none, true) => initLoop g c n (index + 1) prev acc
    | (some logs, true) =>
      if n = 0 then .ok (acc ++ [⟨index, none, none, some logs⟩])
      else
        match lastOfRound c index with
        | none => .ok []
        | some b =>
          let m := build g prev logs
          initLoop g c n (index + 1) m (acc ++ [⟨index, some b, some m, some logs⟩])

/-- `initRounds` (`round_cache.go:547-611`); the first argument bounds the new beginnings. -/
def initRounds (g : Cfg) (c : Chain) : (fuel start stop : Nat) → List Slot
  | 0, _, _ => []
  | fuel + 1, start, stop =>
    if start ≥ stop then []
    else
      match queryCurrent g c start with
      | none => []
      | some (m, b) =>
        match initLoop g c (stop - start) (start + 1) m [⟨start, some b, some m, (queryRedo g c start).1⟩] with
        | .ok slots => slots
        | .error index => initRounds g c fuel index stop

/-- `Init` (`round_cache.go:209-262`). -/
def init (g : Cfg) (s : St) : St :=
  if s.inited then s
  else
    match s.chain.getLast? with
    | none => s
    | some b =>
      { s with inited := true, latest := b.round
               slots := if b.round ≤ g.count then [] else initRounds g s.chain (b.round + 1) (b.round - g.count + 1) b.round }

/-! ## Blocks come and go -/

/-- `append` and the removal of the head (`round_cache.go:351-364`). -/
def push (g : Cfg) (slots : List Slot) (d : Slot) : List Slot :=
  let l := slots ++ [d]
  if l.length > g.count then l.tail else l

/-- `InsertSnapshotBlock` (`round_cache.go:265-367`), with the chain growing by the block; `none` is an error. The data of the round before is
queried before the block counts as part of the chain: it is of a later round. -/
def insert (g : Cfg) (s : St) (b : Blk) : Option St :=
  let s' := { s with chain := s.chain ++ [b] }
  if !s.inited then some s'
  else if b.round < s.latest then none
  else if b.round = s.latest then
    match s.slots.getLast? with
    | none => some { s' with latest := b.round }
    | some d =>
      match d.logs with
      | none => none
      | some logs => some { s' with latest := b.round, slots := s.slots.dropLast ++ [{ d with logs := some (logs ++ [redoOf b.height b.log]) }] }
  else
    let d : Slot := ⟨b.round, none, none, some [redoOf b.height b.log]⟩
    match s.slots.length with
    | 0 =>
      match queryCurrent g s.chain s.latest with
      | none => none
      | some (m, l) => some { s' with latest := b.round, slots := push g [⟨s.latest, some l, some m, none⟩] d }
    | 1 => none
    | n + 2 =>
      match s.slots[n + 1]?, s.slots[n]?, s.chain[b.height - 2]? with
      | some p, some q, some l =>
        match p.logs, q.cur with
        | some logs, some m =>
          if logs = [] then none
          else
            some { s' with latest := b.round
                           slots := push g (s.slots.dropLast ++ [{ p with cur := some (build g m logs), last := some l }]) d }
        | _, _ => none
      | _, _, _ => none

/-- The logs that stay when the blocks from a height on are deleted (`round_cache.go:402-416`): from the end, as long as they are not below
the height, they go. -/
def trim (h : Nat) (logs : List Redo) : List Redo := (logs.reverse.dropWhile (fun r => decide (h ≤ r.height))).reverse

/-- The loop of `DeleteSnapshotBlocks` (`round_cache.go:384-422`): `i` slots are left to look at, `stop` is `end`. -/
def deleteLoop (round height : Nat) : (i : Nat) → List Slot → (stop : Nat) → List Slot × Nat
  | 0, slots, stop => (slots, stop)
  | i + 1, slots, stop =>
    match slots[i]? with
    | none => (slots, stop)
    | some d =>
      if d.round > round then deleteLoop round height i slots i
      else if d.round = round then
        match d.logs with
        | none => deleteLoop round height i (slots.set i { d with cur := none, last := none }) i
        | some logs =>
          if trim height logs = [] then deleteLoop round height i (slots.set i { d with cur := none, last := none }) i
          else deleteLoop round height i (slots.set i { d with cur := none, last := none, logs := some (trim height logs) }) stop
      else (slots, stop)

/-- The end of `DeleteSnapshotBlocks` (`round_cache.go:424-447`): what is kept, the last of it without its data. -/
def keep (slots : List Slot) (stop : Nat) : List Slot :=
  let l := slots.take (if stop ≤ 1 then 0 else stop)
  match l.getLast? with
  | none => l
  | some d => l.dropLast ++ [{ d with cur := none, last := none }]

/-- `DeleteSnapshotBlocks` (`round_cache.go:370-461`), with the chain losing the blocks from height `h` on; `none` is an error. -/
def delete (s : St) (h : Nat) : Option St :=
  let s' := { s with chain := s.chain.take (h - 1) }
  if !s.inited then some s'
  else
    match s.chain[h - 1]?, s.chain[h - 2]? with
    | some first, some before =>
      let r := deleteLoop first.round first.height s.slots.length s.slots s.slots.length
      some { s' with slots := keep r.1 r.2, latest := before.round }
    | _, _ => none

/-! ## Reading -/

/-- `getCurrentData` (`round_cache.go:507-539`). -/
def current (hash : Nat) : List Slot → Option Mem
  | [] => none
  | d :: l =>
    match d.last with
    | none => none
    | some b => if b.hash = hash then d.cur else current hash l

/-- `StorageIterator` (`round_cache.go:492-505`) read to its end; `none` if the cache has no data for the block. -/
def cachedStorage (s : St) (hash : Nat) : Option (List Entry) :=
  if !s.inited then none
  else (current hash s.slots).map (fun m => (m.filter (fun e => inRange (storageKey []) e.1)).map (fun e => (e.1.drop 1, e.2)))

/-- The height of a block, `GetSnapshotHeightByHash`; 0 if there is none. -/
def heightOf (c : Chain) (hash : Nat) : Nat := ((c.find? (fun b => decide (b.hash = hash))).map (·.height)).getD 0

/-- `getSnapshotBalanceList` (`state_db.go:374-420`) for one address. -/
def dbBalance (s : St) (hash : Nat) (a : Addr) : Option Nat :=
  if heightOf s.chain hash = 0 then none else balanceAt s.chain (heightOf s.chain hash) a

/-- `GetSnapshotBalanceList` with the cache switched on (`state_db.go:278-308`, `round_cache.go:464-490`): what it puts into the map for an
address of the list. -/
def balance (s : St) (hash : Nat) (a : Addr) : Option Nat :=
  if !s.inited then dbBalance s hash a
  else
    match current hash s.slots with
    | none => dbBalance s hash a
    | some m =>
      match m.get (balanceKey a) with
      | some v => some (num v)
      | none => dbBalance s hash a

/-- `NewStorageIterator` of the storage database of the governance contract with the cache switched on, without a prefix
(`storage_database.go:47-66`), read to its end: the cache's entries if it has them, else those of the database. -/
def storage (s : St) (hash : Nat) : List Entry := (cachedStorage s hash).getD (listStorage s.chain (heightOf s.chain hash))

/-- What can happen. -/
inductive Op
  | init
  | insert (b : Blk)
  | delete (h : Nat)
deriving Repr, DecidableEq

/-- One operation; `none` is an error. -/
def step (g : Cfg) (s : St) : Op → Option St
  | .init => some (init g s)
  | .insert b => insert g s b
  | .delete h => delete s h

end Verif.RCache

import Verif.Base.Table

/-!
The account ledger: every account has a chain of blocks, receive blocks refer to send blocks of other chains, and snapshot
blocks confirm blocks of all chains. Modelled: acceptance of account blocks (ledger/verifier), insertion, snapshots with
the clean-up of unconfirmed blocks, deletion and rollback (ledger/chain), the index database with its cache
(ledger/chain/index) and the caches of blocks (ledger/chain/cache).

Simplifications: hashes, addresses and heights are natural numbers; the content of block files is the content of the
chunks (files: Verif.Store.Files*); the outcome of signature, work, quota and VM checks is an oracle; every operation is
atomic; keys of accounts and of snapshot blocks in the index are left out.
-/

namespace Verif.Lattice

/-- A send block inside the receive block of a contract (interfaces/core/account_block.go:62, SendBlockList). -/
structure Snd where
  hash : Nat
  dest : Nat
deriving DecidableEq, Repr

/-- Block types (interfaces/core/account_block.go:20-31). The sends SendCall, SendReward, SendRefund are one kind. -/
inductive Kind
  | send | create | recv | error | genesis
deriving DecidableEq, Repr

/-- An account block (interfaces/core/account_block.go:33-65): the fields that tie it to other blocks. -/
structure Blk where
  hash : Nat
  addr : Nat
  height : Nat
  prev : Nat
  kind : Kind
  dest : Nat
  src : Nat
  sends : List Snd
deriving DecidableEq, Repr

/-- interfaces/core/account_block.go:411-420: IsSendBlock. -/
def Blk.isSend (b : Blk) : Bool := b.kind = .send || b.kind = .create

/-- interfaces/core/account_block.go: IsReceiveBlock. -/
def Blk.isRecv (b : Blk) : Bool := !b.isSend

/-- The block receives the send with this hash. A genesis block receives none (ledger/chain/index/insert.go:78-86). -/
def Blk.takes (b : Blk) (h : Nat) : Bool := b.isRecv && b.kind ≠ .genesis && b.src = h

/-- The hashes under which a block is found: its own and those of its send list (ledger/chain/index/insert.go:72-105). -/
def Blk.ids (b : Blk) : List Nat := b.hash :: b.sends.map (·.hash)

/-- The sends a block makes: itself, and its send list. -/
def Blk.outs (b : Blk) : List Snd := (if b.isSend then [⟨b.hash, b.dest⟩] else []) ++ b.sends

/-! ### The index -/

/-- Keys of the index (ledger/chain/utils/db_keys.go): block hash, account height, receive, on-road, confirmation. -/
inductive Key
  | hash (h : Nat)
  | height (a n : Nat)
  | recv (h : Nat)
  | road (a h : Nat)
  | conf (a n : Nat)
deriving DecidableEq, Repr

/-- Values: account and height of a block; hash of a block and whether its place in the files is known; the receiving
block; the flag of a send not received; the height of a snapshot. -/
inductive Val
  | at (a n : Nat)
  | place (h : Nat) (known : Bool)
  | by (h : Nat)
  | flag
  | num (n : Nat)
deriving DecidableEq, Repr

abbrev Tbl := Table Key Val

/-- One change. `set k v true` is written to the cache of the index as well (ledger/chain/index/insert.go:124-175). -/
inductive Chg
  | set (k : Key) (v : Val) (cached : Bool)
  | del (k : Key)
deriving DecidableEq, Repr

abbrev Batch := List Chg

/-- Deleting a key. -/
def erase (k : Key) (t : Tbl) : Tbl := t.filter (fun x => x.1 ≠ k)

/-- Effect of a change on a store. -/
def Chg.run (t : Tbl) : Chg → Tbl
  | .set k v _ => Table.put k v t
  | .del k => erase k t

/-- Effect of a change on the cache of the index. -/
def Chg.warm (t : Tbl) : Chg → Tbl
  | .set k v true => Table.put k v t
  | .set _ _ false => t
  | .del k => erase k t

def run (bs : Batch) (t : Tbl) : Tbl := bs.foldl Chg.run t
def warm (bs : Batch) (t : Tbl) : Tbl := bs.foldl Chg.warm t

/-- ledger/chain/index/insert.go:58-118: the changes of an account block. -/
def insertBatch (b : Blk) : Batch :=
  [.set (.hash b.hash) (.at b.addr b.height) true, .set (.height b.addr b.height) (.place b.hash false) false]
  ++ (if b.isRecv then
        (if b.kind ≠ .genesis then [.set (.recv b.src) (.by b.hash) true, .del (.road b.addr b.src)] else [])
      else [.set (.recv b.hash) .flag true, .set (.road b.dest b.hash) .flag false])
  ++ b.sends.flatMap (fun s =>
        [.set (.recv s.hash) .flag true, .set (.hash s.hash) (.at b.addr b.height) true, .set (.road s.dest s.hash) .flag false])

/-- A snapshot block: height and content, for each account the height and hash of the last block confirmed. -/
structure Snap where
  height : Nat
  content : List (Nat × Nat × Nat)
deriving DecidableEq, Repr

/-- A snapshot block with the account blocks it confirms (interfaces/core/snapshot_chunk.go). -/
structure Chunk where
  snap : Snap
  blocks : List Blk
deriving DecidableEq, Repr

/-- ledger/chain/index/insert.go:25-54: the changes of a snapshot block. -/
def snapBatch (s : Snap) (bs : List Blk) : Batch :=
  s.content.map (fun e => .set (.conf e.1 e.2.1) (.num s.height) false)
  ++ bs.map (fun b => .set (.height b.addr b.height) (.place b.hash true) true)

/-- ledger/chain/index/delete.go:75-127: deleting blocks; `opens` are the sends deleted whose receive was not met. -/
def dropBlocks : List Blk → List Snd → Batch × List Snd
  | [], opens => ([], opens)
  | b :: bs, opens =>
    let head : Batch := [.del (.hash b.hash), .del (.height b.addr b.height)]
    if b.isRecv then
      let mine : Batch × List Snd :=
        if opens.any (fun s => s.hash = b.src) then
          ([.del (.recv b.src)], opens.filter (fun s => s.hash ≠ b.src))
        else ([.set (.road b.addr b.src) .flag false, .set (.recv b.src) .flag true], opens)
      let rest := dropBlocks bs (b.sends ++ mine.2)
      (head ++ mine.1 ++ b.sends.map (fun s => .del (.hash s.hash)) ++ rest.1, rest.2)
    else
      let rest := dropBlocks bs (⟨b.hash, b.dest⟩ :: opens)
      (head ++ rest.1, rest.2)

/-- ledger/chain/index/delete.go:62-73: a snapshot block is deleted with its confirmations. -/
def dropSnap (s : Snap) : Batch := s.content.map (fun e => .del (.conf e.1 e.2.1))

/-- ledger/chain/index/delete.go:57-60: sends deleted and not received. -/
def dropOpens (opens : List Snd) : Batch := opens.flatMap (fun s => [.del (.road s.dest s.hash), .del (.recv s.hash)])

/-- ledger/chain/index/delete.go:45-61: the changes of a rollback of chunks, the last of which may lack a snapshot. The
code goes chunk by chunk; the keys of snapshots and of blocks are different, so the order between them has no effect. -/
def rollBatch (chunks : List Chunk) (bs : List Blk) : Batch :=
  let d := dropBlocks (chunks.flatMap (·.blocks) ++ bs) []
  d.1 ++ chunks.flatMap (fun c => dropSnap c.snap) ++ dropOpens d.2

/-! ### The chain -/

/-- The ledger with the index and the caches. `chunks` is what is in the block files, oldest first; `unconf` the pool of
unconfirmed blocks (cache/unconfirmed_pool.go); `ds` the cache of blocks (cache/dataset.go); `hot` the latest block of an
account (cache/hot_data.go); `mem` what the index reads, `disk` what is or will be flushed, `pend` the changes of
unconfirmed blocks (db/unconfirmed_batch.go); `lru` the cache of index values; `made` the cache of the heights that
confirmed contract creations (index/insert.go:133-135). -/
structure Chain where
  chunks : List Chunk
  unconf : List Blk
  ds : List Blk
  hot : Table Nat Nat
  mem : Tbl
  disk : Tbl
  pend : List (Nat × Batch)
  lru : Tbl
  made : Table Nat Nat
deriving DecidableEq

/-- The confirmed blocks. -/
def Chain.confirmed (c : Chain) : List Blk := c.chunks.flatMap (·.blocks)

/-- All blocks of the ledger. -/
def Chain.all (c : Chain) : List Blk := c.confirmed ++ c.unconf

/-- Height of the latest snapshot (cache/hot_data.go:27-33). -/
def Chain.top (c : Chain) : Nat := (c.chunks.getLast?.map (·.snap.height)).getD 0

/-- ledger/chain/index/cache.go: getValue: from the cache, or else from the store. -/
def Chain.value (c : Chain) (k : Key) : Option Val := (Table.get k c.lru).or (Table.get k c.mem)

/-- A block in the block files (ledger/chain/block/read.go: GetAccountBlock). -/
def Chain.file (c : Chain) (a n : Nat) : Option Blk := c.confirmed.find? (fun b => b.addr = a && b.height = n)

/-- ledger/chain/index/account_block.go:55-67 and ledger/chain/account_block.go:49-66: through the index to the files. -/
def Chain.fromFile (c : Chain) (a n : Nat) : Option Blk :=
  match c.value (.height a n) with
  | some (.place _ true) => c.file a n
  | _ => none

/-- ledger/chain/account_block.go:36-67: GetAccountBlockByHeight. -/
def Chain.byHeight (c : Chain) (a n : Nat) : Option Blk :=
  (c.ds.find? (fun b => b.addr = a && b.height = n)).or (c.fromFile a n)

/-- ledger/chain/account_block.go:87-117: GetCompleteBlockByHash. -/
def Chain.complete (c : Chain) (h : Nat) : Option Blk :=
  (c.ds.find? (fun b => h ∈ b.ids)).or
    (match c.value (.hash h) with
     | some (.at a n) => c.fromFile a n
     | _ => none)

/-- A send of a send list as a block. -/
def inner (b : Blk) (s : Snd) : Blk :=
  { hash := s.hash, addr := b.addr, height := 0, prev := 0, kind := .send, dest := s.dest, src := 0, sends := [] }

/-- ledger/chain/account_block.go:372-384: rsBlockToSBlock. -/
def pick (b : Blk) (h : Nat) : Option Blk :=
  if b.hash = h then some b else (b.sends.find? (fun s => s.hash = h)).map (inner b)

/-- ledger/chain/account_block.go:119-131: GetAccountBlockByHash. -/
def Chain.byHash (c : Chain) (h : Nat) : Option Blk :=
  match c.complete h with
  | some b => if b.isRecv then pick b h else some b
  | none => none

/-- ledger/chain/index/account_block.go:17-41: the last height of an account in the index. -/
def lastHeight (t : Tbl) (a : Nat) : Option Nat :=
  t.foldl (fun m x => match x.1 with
    | .height a' n => if a' = a then some (max n (m.getD 0)) else m
    | _ => m) none

/-- cache/hot_data.go:45-52 and ledger/chain/account_block.go:289-321: GetLatestAccountBlock. The cache is asked for the
block with the hash, then the index. -/
def Chain.latest (c : Chain) (a : Nat) : Option Blk :=
  match (Table.get a c.hot).bind (fun h => c.ds.find? (fun b => h ∈ b.ids)) with
  | some b => some b
  | none =>
    match lastHeight c.mem a with
    | none => none
    | some n =>
      match Table.get (.height a n) c.mem with
      | some (.place _ true) => c.file a n
      | _ => c.byHeight a n

/-- ledger/chain/index/account_block.go:192-223: IsReceived. -/
def Chain.isReceived (c : Chain) (h : Nat) : Bool :=
  match c.value (.recv h) with
  | some (.by _) => true
  | _ => false

/-- ledger/chain/account_block.go:134-158: GetReceiveAbBySendAb. -/
def Chain.receiver (c : Chain) (h : Nat) : Option Blk :=
  match c.value (.recv h) with
  | some (.by r) => c.byHash r
  | _ => none

/-- ledger/chain/index/onroad.go:82-112: the sends on the way to an account (all pages together). -/
def Chain.onRoad (c : Chain) (a : Nat) : List Nat :=
  c.mem.filterMap (fun x => match x.1 with
    | .road a' h => if a' = a then some h else none
    | _ => none)

/-- ledger/chain/index/account_block.go:166-186: the first confirmation of the account at this height or above. -/
def firstConf (t : Tbl) (a n : Nat) : Option Nat :=
  (t.foldl (fun m x => match x.1, x.2 with
    | .conf a' n', .num s =>
      if a' = a ∧ n ≤ n' then
        (match m with
         | none => some (n', s)
         | some (k, v) => if n' < k then some (n', s) else some (k, v))
      else m
    | _, _ => m) (none : Option (Nat × Nat))).map (·.2)

/-- ledger/chain/index/account_block.go:152-190: GetConfirmHeightByHash; 0 if not confirmed. -/
def Chain.confirmHeight (c : Chain) (h : Nat) : Nat :=
  match Table.get h c.made with
  | some s => s
  | none =>
    match c.value (.hash h) with
    | some (.at a n) => (firstConf c.mem a n).getD 0
    | _ => 0

/-- ledger/chain/account_block.go:226-243: GetConfirmedTimes. -/
def Chain.confirmedTimes (c : Chain) (h : Nat) : Nat :=
  let s := c.confirmHeight h
  if s = 0 then 0 else if c.top < s then 0 else c.top + 1 - s

/-! ### Acceptance -/

/-- What is left open: which addresses are contracts, and the outcome of the remaining checks of a block — signature,
owner or producer, work, contract meta, order and confirmations of a contract's receives, and its execution by the VM,
which must reproduce the hash (ledger/verifier/account_verifier.go:286-330, 380-411). -/
structure Cfg where
  contract : Nat → Bool
  legal : Blk → Bool

/-- ledger/verifier/account_verifier.go:201-252: integrity of a send block. Nothing is asked about its send list. -/
def sendOk (g : Cfg) (b : Blk) : Bool :=
  b.src = 0 && (if g.contract b.addr then b.height = 0 else 1 < b.height)

/-- ledger/verifier/account_verifier.go:254-284: integrity of a receive block. -/
def recvOk (g : Cfg) (b : Blk) : Bool :=
  b.dest = 0 && 0 < b.height && (b.sends.isEmpty || g.contract b.addr)

/-- ledger/verifier/account_verifier.go:147-158: the block continues the chain of its account. -/
def Chain.follows (c : Chain) (b : Blk) : Bool :=
  match c.latest b.addr with
  | none => b.height = 1 && b.prev = 0
  | some l => b.height = l.height + 1 && b.prev = l.hash

/-- ledger/verifier/account_verifier.go:160-188 and 342-352: what a receive block needs: the block it names exists, is
addressed to this account and is not received. -/
def Chain.sendFits (c : Chain) (b : Blk) : Bool :=
  b.src ≠ 0 &&
  (match c.byHash b.src with
   | none => false
   | some s => s.dest = b.addr) && !c.isReceived b.src

/-- ledger/verifier/verifier.go:81-110: VerifyPoolAccountBlock. A block of genesis type is not reproduced by the VM
(vm/vm.go:830-837). -/
def Chain.accepts (g : Cfg) (c : Chain) (b : Blk) : Bool :=
  b.kind ≠ .genesis && (if b.isSend then sendOk g b else recvOk g b && c.sendFits b) && c.follows b && g.legal b

/-- cache/account_block.go:57-70 and index/insert.go:14-23: the block is written. -/
def Chain.write (c : Chain) (b : Blk) : Chain :=
  { c with
    unconf := c.unconf ++ [b]
    ds := b :: c.ds
    hot := Table.put b.addr b.hash c.hot
    mem := run (insertBatch b) c.mem
    pend := c.pend ++ [(b.hash, insertBatch b)]
    lru := warm (insertBatch b) c.lru
    made := if b.kind = .create then Table.put b.hash 0 c.made else c.made }

/-- ledger/pool/account_pool.go:382-428 with ledger/chain/insert.go:13-49: a block is verified and inserted, or refused. -/
def Chain.insert (g : Cfg) (c : Chain) (b : Blk) : Chain := if c.accepts g b then c.write b else c

/-! ### Deletion of unconfirmed blocks -/

def hashes (bs : List Blk) : List Nat := bs.map (·.hash)

/-- The blocks not in a list, by hash. -/
def without (l bs : List Blk) : List Blk := l.filter (fun b => b.hash ∉ hashes bs)

/-- Removing the entries of these creations from the cache of confirmed creations (index/delete.go:115-125). -/
def forget (bs : List Blk) (t : Table Nat Nat) : Table Nat Nat :=
  t.filter (fun x => x.1 ∉ hashes (bs.filter (fun b => b.kind = .create)))

/-- index/delete.go:11-22, db/rollback.go:10-18, cache/account_block.go:17-36, ledger/chain/delete.go:266-315:
deleteAccountBlocks. -/
def Chain.remove (c : Chain) (bs : List Blk) : Chain :=
  { c with
    unconf := without c.unconf bs
    ds := without c.ds bs
    hot := c.hot.filter (fun x => x.1 ∉ bs.map (·.addr))
    mem := run (rollBatch [] bs) c.mem
    pend := c.pend.filter (fun p => p.1 ∉ hashes bs)
    lru := warm (rollBatch [] bs) c.lru
    made := forget bs c.made }

/-- The loop of ledger/chain/unconfirmed.go:211-234, with the accounts and sends found so far. -/
def spread : List Blk → List Nat → List Nat → List Blk
  | [], _, _ => []
  | b :: bs, addrs, sends =>
    if b.addr ∈ addrs then
      b :: spread bs addrs ((if b.isSend then [b.hash] else []) ++ b.sends.map (·.hash) ++ sends)
    else if b.isRecv ∧ b.src ∈ sends then
      b :: spread bs (b.addr :: addrs) (b.sends.map (·.hash) ++ sends)
    else spread bs addrs sends

/-- ledger/chain/unconfirmed.go:194-237: computeDependencies: the first block and what depends on it. -/
def dependents : List Blk → List Blk
  | [] => []
  | b :: bs => b :: spread bs [b.addr] (b.hash :: b.sends.map (·.hash))

/-- ledger/chain/delete.go:219-264: DeleteAccountBlocks (by hash). `none`: refused. -/
def Chain.deleteHash (c : Chain) (h : Nat) : Option Chain :=
  match c.unconf.dropWhile (fun b => b.hash ≠ h) with
  | [] => none
  | b :: bs => some (c.remove (dependents (b :: bs)))

/-- ledger/chain/delete.go:211-264: DeleteAccountBlocksToHeight. -/
def Chain.deleteHeight (c : Chain) (a n : Nat) : Option Chain :=
  match c.unconf.dropWhile (fun b => ¬ (b.addr = a ∧ b.height = n)) with
  | [] => none
  | b :: bs => some (c.remove (dependents (b :: bs)))

/-! ### Snapshots -/

/-- ledger/chain/unconfirmed.go:23-43: the content of a new snapshot: the last heights among a prefix of the
unconfirmed blocks (at most 40000). -/
def contentOf : List Blk → List (Nat × Nat × Nat)
  | [] => []
  | b :: bs => if bs.any (fun x => x.addr = b.addr) then contentOf bs else (b.addr, b.height, b.hash) :: contentOf bs

def maxSnapshotLength : Nat := 40000

def Chain.needSnapshot (c : Chain) : List (Nat × Nat × Nat) := contentOf (c.unconf.take maxSnapshotLength)

/-- The height an account is confirmed to. -/
def upTo (content : List (Nat × Nat × Nat)) (a : Nat) : Option Nat :=
  (content.find? (fun e => e.1 = a)).map (·.2.1)

/-- ledger/chain/insert.go:76-101: getBlocksToBeConfirmed; `none` is the error "lack block". -/
def toConfirm (content : List (Nat × Nat × Nat)) : List Blk → Nat → Option (List Blk)
  | [], _ => none
  | b :: bs, done =>
    let take : Bool := (upTo content b.addr).any (fun n => b.height ≤ n)
    let done' : Nat := if upTo content b.addr = some b.height then done + 1 else done
    let rest : Option (List Blk) := if content.length ≤ done' then some [] else toConfirm content bs done'
    rest.map (fun r => if take then b :: r else r)

def toBeConfirmed (content : List (Nat × Nat × Nat)) (bs : List Blk) : Option (List Blk) :=
  if content.isEmpty then some [] else toConfirm content bs 0

/-- ledger/verifier/snapshot_verifier.go:75-128: next height, and every block named in the content is in the ledger.
Content is a map from accounts. The checks of time and producer are those of Verif.Snap and Verif.Consensus. -/
def Chain.snapOk (c : Chain) (s : Snap) : Bool :=
  s.height = c.top + 1 && (s.content.map (·.1)).Nodup &&
  s.content.all (fun e => (c.byHeight e.1 e.2.1).any (fun b => b.hash = e.2.2))

/-- db/write.go:45-66: the changes of confirmed blocks go to the disk; it panics if a block has none. -/
def confirmPend : List Blk → List (Nat × Batch) → Tbl → Option (List (Nat × Batch) × Tbl)
  | [], p, t => some (p, t)
  | b :: bs, p, t =>
    match Table.get b.hash p with
    | none => none
    | some x => confirmPend bs (p.filter (fun q => q.1 ≠ b.hash)) (run x t)

/-- index/insert.go:46-50: creations confirmed. -/
def confirmMade (s : Nat) (bs : List Blk) (t : Table Nat Nat) : Table Nat Nat :=
  bs.foldl (fun t b => if b.kind = .create then Table.put b.hash s t else t) t

/-- ledger/chain/insert.go:103-160: the snapshot is written. `none`: the node stops. -/
def Chain.confirm (c : Chain) (s : Snap) (bs : List Blk) : Option Chain :=
  match confirmPend bs c.pend c.disk with
  | none => none
  | some (p, t) =>
    some { c with
      chunks := c.chunks ++ [⟨s, bs⟩]
      unconf := without c.unconf bs
      mem := run (snapBatch s bs) c.mem
      disk := run (snapBatch s bs) t
      pend := p
      lru := warm (snapBatch s bs) c.lru
      made := confirmMade s.height bs c.made }

/-- The loop of ledger/chain/unconfirmed.go:101-165, with the accounts and sends found invalid so far. `bad` says that a
block's producer is no longer right or its quota does not suffice. -/
def invalid (bad : Blk → Bool) : List Blk → List Nat → List Nat → List Blk
  | [], _, _ => []
  | b :: bs, addrs, sends =>
    if b.addr ∈ addrs ∨ (b.isRecv ∧ (b.kind = .error ∨ b.src ∈ sends)) ∨ bad b then
      b :: invalid bad bs (b.addr :: addrs) ((if b.isSend then [b.hash] else []) ++ b.sends.map (·.hash) ++ sends)
    else invalid bad bs addrs sends

/-- ledger/chain/unconfirmed.go:64-167: filterUnconfirmedBlocks. `everything`: an upgrade point, or producers could not be
looked up. -/
def toDrop (everything : Bool) (bad : Blk → Bool) (bs : List Blk) : List Blk :=
  if everything then bs else invalid bad bs [] []

/-- ledger/chain/insert.go:51-74: InsertSnapshotBlock after the verifier; then invalid unconfirmed blocks are deleted. -/
def Chain.snapshot (c : Chain) (s : Snap) (everything : Bool) (bad : Blk → Bool) : Option Chain :=
  if c.snapOk s then
    match toBeConfirmed s.content c.unconf with
    | none => some c
    | some bs => (c.confirm s bs).map (fun c' =>
        let d := toDrop everything bad c'.unconf
        if d.isEmpty then c' else c'.remove d)
  else some c

/-! ### Rollback of snapshots -/

/-- index/delete.go:25-43: the index after unconfirmed blocks are inserted again. -/
def Chain.rewrite (c : Chain) (bs : List Blk) : Chain := bs.foldl Chain.write c

/-- ledger/chain/delete.go:77-209: deleteSnapshotBlocksToHeight: snapshots from this height on are deleted; if the redo
log is at hand the blocks of the first of them become unconfirmed. cache/snapshot_block.go:45-95, db/rollback.go:32-45. -/
def Chain.rollbackOnce (c : Chain) (toHeight : Nat) (redo : Bool) : Chain :=
  let keep := c.chunks.filter (fun k => k.snap.height < toHeight)
  let gone := c.chunks.filter (fun k => ¬ k.snap.height < toHeight)
  let bs := gone.flatMap (·.blocks) ++ c.unconf
  let batch := rollBatch gone c.unconf
  let c' : Chain :=
    { chunks := keep
      unconf := []
      ds := without c.ds bs
      hot := c.hot.filter (fun x => x.1 ∉ bs.map (·.addr))
      mem := run batch c.mem
      disk := run batch (run (c.pend.flatMap (·.2)) c.disk)
      pend := []
      lru := warm batch c.lru
      made := forget bs c.made }
  c'.rewrite (if redo then (gone.head?.map (·.blocks)).getD [] else [])

/-- ledger/chain/delete.go:33-75: DeleteSnapshotBlocksToHeight goes down 120 snapshots at a time. `redo` tells for each
height whether the redo log is at hand. -/
def Chain.rollbackFrom (redo : Nat → Bool) (toHeight : Nat) : Nat → Nat → Chain → Chain
  | 0, _, c => c
  | fuel + 1, target, c =>
    if toHeight < target then
      let next := if 120 < target then max (target - 120) toHeight else toHeight
      rollbackFrom redo toHeight fuel next (c.rollbackOnce next (redo next))
    else c

/-- `none`: refused. -/
def Chain.rollback (c : Chain) (redo : Nat → Bool) (toHeight : Nat) : Option Chain :=
  if c.top < toHeight ∨ toHeight ≤ 1 then none
  else some (c.rollbackFrom redo toHeight (c.top + 1) (c.top + 1))

/-! ### Flush, restart, caches -/

/-- db/flush.go: after a flush memory holds the changes of the unconfirmed blocks only. -/
def Chain.flush (c : Chain) : Chain := { c with mem := run (c.pend.flatMap (·.2)) c.disk }

/-- A restart: what is in memory is lost. -/
def Chain.restart (c : Chain) : Chain :=
  { c with unconf := [], ds := [], hot := [], mem := c.disk, pend := [], lru := [], made := [] }

/-- Which keys are read through the cache of the index. -/
def Key.cached : Key → Bool
  | .hash _ | .height _ _ | .recv _ => true
  | _ => false

/-- Operations. -/
inductive Op
  | insert (b : Blk)
  | snapshot (s : Snap) (everything : Bool) (bad : Blk → Bool)
  | deleteHash (h : Nat)
  | deleteHeight (a n : Nat)
  | rollback (redo : Nat → Bool) (toHeight : Nat)
  | flush
  | restart
  | touch (k : Key)
  | evict (k : Key)
  | expire (h : Nat)
  | forgetMade (h : Nat)

/-- One operation; `none`: the node stops. -/
def step (g : Cfg) (c : Chain) : Op → Option Chain
  | .insert b => some (c.insert g b)
  | .snapshot s e bad => c.snapshot s e bad
  | .deleteHash h => some ((c.deleteHash h).getD c)
  | .deleteHeight a n => some ((c.deleteHeight a n).getD c)
  | .rollback redo n => some ((c.rollback redo n).getD c)
  | .flush => some c.flush
  | .restart => some c.restart
  | .touch k =>
    match Table.get k c.mem with
    | some v => some (if k.cached then { c with lru := Table.put k v c.lru } else c)
    | none => some c
  | .evict k => some { c with lru := erase k c.lru }
  -- cache/snapshot_block.go:29-34: confirmed blocks leave the cache of blocks
  | .expire h => some { c with ds := c.ds.filter (fun b => b.hash ≠ h ∨ b ∈ c.unconf) }
  | .forgetMade h => some { c with made := c.made.filter (fun x => x.1 ≠ h) }

/-- A history. -/
def steps (g : Cfg) : Chain → List Op → Option Chain
  | c, [] => some c
  | c, o :: os => (step g c o).bind (fun c' => steps g c' os)

/-- The chain that starts with the genesis blocks (ledger/chain/genesis.go), confirmed by snapshot 1. -/
def genesis (bs : List Blk) : Chain :=
  let s : Snap := ⟨1, contentOf bs⟩
  let t := run (snapBatch s bs) (run (bs.flatMap insertBatch) [])
  { chunks := [⟨s, bs⟩], unconf := [], ds := [], hot := [], mem := t, disk := t, pend := [], lru := [], made := [] }

end Verif.Lattice

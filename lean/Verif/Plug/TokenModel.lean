import Verif.Plug.InfoModel

/-!
# The blocks of an account with a token

Models the plugin `FilterToken` (`ledger/chain/plugins/filter_token.go`), which lists the blocks of an account in which a token is moved, and the store under it (`ledger/chain/db`, area `Store`) as far as
it matters here. Hashes, addresses, tokens and heights are numbers; the receives of the genesis are not modelled. -/

namespace Verif.Plug

/-- `createDiffTokenKey` (`filter_token.go:184-191`): address, token, height. -/
abbrev Key := Nat × Nat × Nat

/-- A store: keys with the hash of the block. -/
abbrev Tab := List (Key × Nat)

/-- `Put`. -/
def Tab.put (v : Tab) (r : Key × Nat) : Tab := v.filter (fun e => decide (e.1 ≠ r.1)) ++ [r]

/-- `Put` for all. -/
def Tab.puts (v : Tab) (rs : List (Key × Nat)) : Tab := rs.foldl Tab.put v

/-- `Delete` for all keys. -/
def Tab.dels (v : Tab) (ks : List Key) : Tab := v.filter fun e => !ks.contains e.1

/-- The token of a block (`filter_token.go:39-60`, `:98-112`, `:158-179`): its own, or that of the send it receives; `none` when that is not found. -/
def Blk.token (look : Nat → Option Send) (b : Blk) : Option Nat :=
  match b.kind with
  | .send _ t _ => some t
  | .recv h => (look h).map (·.token)
  | .genesis => none

/-- The keys of a block (`filter_token.go:62-67`, `:151-181`). -/
def Blk.keys (look : Nat → Option Send) (b : Blk) : Option (List Key) :=
  (b.token look).map fun t => (b.addr, t, b.height) :: b.inner.map fun s => (b.addr, s.token, b.height)

/-- The keys of blocks; `none` when a send is not found. The code keeps the sends among them in a map and looks for the others in the ledger; here all are looked for in the ledger, which still has them. -/
def keysOf (look : Nat → Option Send) : List Blk → Option (List Key)
  | [] => some []
  | b :: bs =>
    match b.keys look, keysOf look bs with
    | some x, some y => some (x ++ y)
    | _, _ => none

/-- The store under the plugin: `base` is what the disk has once the flush is through (the disk, then `flushingBatch` and `snapshotBatch`), `pend` is `unconfirmedBatchs`, `view` is what is read. -/
structure Idx where
  base : Tab
  pend : List (Nat × List (Key × Nat))
  view : Tab

/-- A node: the account blocks that each snapshot confirmed, the unconfirmed blocks, and the index. -/
structure TNode where
  chunks : List (List Blk)
  unconf : List Blk
  idx : Idx

/-- All blocks of the ledger. -/
def TNode.blocks (n : TNode) : List Blk := n.chunks.flatten ++ n.unconf

/-- The changes: those of the ledger, and a flush of the store. -/
inductive TOp where
  | insert (b : Blk)
  | snapshot (bs : List Blk)
  | delete (bs : List Blk)
  /-- The last `k + 1` snapshots are rolled back; with `keep` the blocks of the first of them become unconfirmed. -/
  | rollback (k : Nat) (keep : Bool)
  | flush

/-- What is left of a list of blocks without others. -/
def without (bs gone : List Blk) : List Blk := bs.filter fun b => !gone.any fun v => decide (v.hash = b.hash)

/-- One change; `none` is an error.

* A block: `filter_token.go:33-67`, `plugins.go:195-210`, `db/write.go:17-28`.
* A snapshot: `filter_token.go:69-71`, `plugins.go:212-228`, `db/write.go:30-63`: the batches of the blocks go to `snapshotBatch`.
* A deletion: `filter_token.go:73-78`, `plugins.go:230-244`, `db/rollback.go:9-31`: the batches of the blocks go; the deletion itself is written to memory only.
* A rollback: `filter_token.go:80-90`, `plugins.go:246-293`, `db/rollback.go:33-45`: the deletion goes to `snapshotBatch` after all unconfirmed batches. The blocks that become unconfirmed again are
  entered into a batch that was applied before, and what is written for them is empty (`plugins.go:281-291`; once for each plugin, here once).
* A flush: `db/flush.go:22-89`, without changes between its steps. -/
def TNode.step (n : TNode) : TOp → Option TNode
  | .insert b =>
    match b.keys (lookIn n.blocks) with
    | none => none
    | some ks =>
      let rs := ks.map fun k => (k, b.hash)
      some ⟨n.chunks, n.unconf ++ [b], ⟨n.idx.base, n.idx.pend ++ [(b.hash, rs)], n.idx.view.puts rs⟩⟩
  | .snapshot bs =>
    some ⟨n.chunks ++ [bs], without n.unconf bs,
      ⟨n.idx.base.puts (bs.flatMap fun b => ((n.idx.pend.find? fun e => decide (e.1 = b.hash)).map (·.2)).getD []), n.idx.pend.filter (fun e => !bs.any fun b => decide (b.hash = e.1)), n.idx.view⟩⟩
  | .delete bs =>
    match keysOf (lookIn n.blocks) bs with
    | none => none
    | some ks => some ⟨n.chunks, without n.unconf bs, ⟨n.idx.base, n.idx.pend.filter (fun e => !bs.any fun b => decide (b.hash = e.1)), n.idx.view.dels ks⟩⟩
  | .rollback k keep =>
    let left := n.chunks.take (n.chunks.length - (k + 1))
    let gone := n.chunks.drop (n.chunks.length - (k + 1))
    let new := if keep then gone.headD [] else []
    match keysOf (lookIn n.blocks) ((if keep then gone.tail.flatten else gone.flatten) ++ n.unconf) with
    | none => none
    | some ks => some ⟨left, new, ⟨(n.idx.base.puts (n.idx.pend.flatMap (·.2))).dels ks, new.map fun b => (b.hash, []), n.idx.view.dels ks⟩⟩
  | .flush => some { n with idx := { n.idx with view := n.idx.base.puts (n.idx.pend.flatMap (·.2)) } }

/-- `GetAccountBlockByHash` for the hash of a block. -/
def blockOf (bs : List Blk) (h : Nat) : Option Blk := bs.find? fun b => decide (b.hash = h)

/-- `helper.MaxUint64` (`common/helper/common.go`). -/
def maxUint64 : Nat := 2 ^ 64 - 1

/-- The entries the iterator of `GetBlocks` goes through, from the last on (`filter_token.go:118-145`). -/
def TNode.walk (n : TNode) (a t max : Nat) : List (Key × Nat) :=
  (n.idx.view.filter fun e => decide (e.1.1 = a) && decide (e.1.2.1 = t) && decide (e.1.2.2 < max)).mergeSort fun x y => decide (y.1.2.2 ≤ x.1.2.2)

/-- `GetBlocks` (`filter_token.go:93-148`); `none` is an error. -/
def TNode.getBlocks (n : TNode) (a t : Nat) (cursor : Option Nat) (count : Nat) : Option (List Blk) :=
  let page := fun max => ((n.walk a t max).take count).filterMap fun e => blockOf n.blocks e.2
  match cursor with
  | none => some (page maxUint64)
  | some h =>
    match blockOf n.blocks h with
    | none => none
    | some b =>
      match b.token (lookIn n.blocks) with
      | none => none
      | some u => if u ≠ t then some [] else some (page (b.height + 1))

/-- A node at its start. -/
def TNode.start : TNode := ⟨[], [], ⟨[], [], []⟩⟩

end Verif.Plug

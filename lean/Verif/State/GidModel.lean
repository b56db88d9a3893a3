import Verif.Base.Bytes

/-!
# The contracts of a consensus group

`ledger/chain/state`: the index from a consensus group to its contracts, `write.go:63-82` (`Write`), `write.go:156-169` (`WriteByRedo`),
`state_db.go:231-249` (`GetContractList`); nothing in `delete.go` removes an entry of the index. The store is as in `Verif.Store.Kv`
(C52): what a reader sees, what is confirmed, and the changes of each unconfirmed block.
-/

namespace Verif.State.Gid
open Verif.Bytes

/-- `CreateGidContractKey`, `generate_key.go`, `keys_state_db.go:237-252` -/
def rightKey (g a : Bytes) : Bytes := 9 :: (g ++ a)

/-- The key written by `WriteByRedo`, `write.go:161-164`: address first. -/
def redoKey (g a : Bytes) : Bytes := 9 :: (a ++ g)

/-- A block with the contracts it creates: consensus group and address. -/
structure Blk where
  hash : Nat
  metas : List (Bytes × Bytes)
  deriving DecidableEq, Repr

structure Node where
  snaps : List (List Blk)
  unconf : List Blk
  conf : List Bytes
  pend : List (Nat × List Bytes)
  view : List Bytes
  deriving DecidableEq, Repr

/-- What the chain and the store do. -/
inductive Op where
  /-- `Write`, `write.go:63-82` -/
  | insert (b : Blk)
  /-- `InsertSnapshotBlock`: these unconfirmed blocks are confirmed -/
  | snapshot (bs : List Blk)
  /-- `RollbackAccountBlocks`, `delete.go:142-195`: the batch of a deleted block is dropped, and the batch of the rollback has no
  record for the index -/
  | delete (bs : List Blk)
  /-- `RollbackSnapshotBlocks`, `delete.go:19-140`, then `WriteByRedo` of the blocks of the first deleted snapshot if there was a redo log -/
  | rollback (h : Nat) (redo : Bool)
  /-- a flush: afterwards a reader sees what is confirmed and what is pending -/
  | flush
  /-- unconfirmed blocks are gone -/
  | restart

def Blk.keys (b : Blk) : List Bytes := b.metas.map (fun m => rightKey m.1 m.2)

def Blk.redoKeys (b : Blk) : List Bytes := b.metas.map (fun m => redoKey m.1 m.2)

def Node.step (n : Node) : Op → Node
  | .insert b => { n with unconf := n.unconf ++ [b], pend := n.pend ++ [(b.hash, b.keys)], view := n.view ++ b.keys }
  | .snapshot bs =>
    { n with
      snaps := n.snaps ++ [bs], unconf := n.unconf.filter (fun b => decide (b ∉ bs)),
      conf := n.conf ++ (n.pend.filter (fun p => decide (p.1 ∈ bs.map (·.hash)))).flatMap (·.2),
      pend := n.pend.filter (fun p => decide (p.1 ∉ bs.map (·.hash))) }
  | .delete bs =>
    { n with unconf := n.unconf.filter (fun b => decide (b ∉ bs)), pend := n.pend.filter (fun p => decide (p.1 ∉ bs.map (·.hash))) }
  | .rollback h redo =>
    let again := if redo then n.snaps.getD h [] else []
    { snaps := n.snaps.take h, unconf := again, conf := n.conf ++ n.pend.flatMap (·.2),
      pend := again.map (fun b => (b.hash, b.redoKeys)), view := n.view ++ again.flatMap Blk.redoKeys }
  | .flush => { n with view := n.conf ++ n.pend.flatMap (·.2) }
  | .restart => { n with unconf := [], pend := [], view := n.conf }

def Node.start : Node := ⟨[], [], [], [], []⟩

/-- `GetContractList`, `state_db.go:231-249`: the last 21 bytes of each key that starts with the group. -/
def Node.list (n : Node) (g : Bytes) : List Bytes :=
  (n.view.filter (fun k => decide ((9 :: g) <+: k))).map (fun k => k.drop (k.length - 21))

def Node.run (n : Node) (ops : List Op) : Node := ops.foldl Node.step n

/-- All blocks. -/
def Node.all (n : Node) : List Blk := n.snaps.flatten ++ n.unconf

/-- What callers keep to: hashes are new; a snapshot confirms and a deletion takes unconfirmed blocks. -/
def Node.Allows (n : Node) : Op → Prop
  | .insert b => (∀ c ∈ n.all, c.hash ≠ b.hash) ∧ ∀ m ∈ b.metas, m.1.length = 10 ∧ m.2.length = 21
  | .snapshot bs => ∀ b ∈ bs, b ∈ n.unconf
  | .delete bs => ∀ b ∈ bs, b ∈ n.unconf
  | _ => True

inductive Hist : Node → Prop
  | start : Hist Node.start
  | step {n : Node} {op : Op} : Hist n → n.Allows op → Hist (n.step op)

/-- A history in which nothing is taken back. -/
inductive Forward : Node → Prop
  | start : Forward Node.start
  | step {n : Node} {op : Op} : Forward n → n.Allows op → (∀ bs, op ≠ .delete bs) → (∀ h r, op ≠ .rollback h r) → op ≠ .restart → Forward (n.step op)

end Verif.State.Gid

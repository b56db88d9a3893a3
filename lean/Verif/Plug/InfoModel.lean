import Verif.Tactics

/-!
# What is on the road to an account

Models the plugin `onRoadInfo` (`ledger/chain/plugins/onroad_info.go`), which answers how many sends wait for an account and how much they carry, and the way it is told of changes (`ledger/chain/plugins/plugins.go:188-300`,
`ledger/chain/delete.go:70-190`). Hashes, addresses and tokens are numbers. The store of the plugin is a map (area `Store`); counts are numbers without an upper bound. -/

namespace Verif.Plug

/-- A send: a block of its own, or one in the send list of a receive. -/
structure Send where
  hash : Nat
  dest : Nat
  token : Nat
  amount : Nat
deriving Repr, DecidableEq

/-- What a block is: a send, a receive of the send with that hash, or a receive of the genesis. -/
inductive Kind where
  | send (dest token amount : Nat)
  | recv (src : Nat)
  | genesis
deriving Repr, DecidableEq

/-- `AccountBlock` (`interfaces/core/account_block.go`), as far as it matters here: `contract` says whether the address is that of a contract, `inner` is the send list. -/
structure Blk where
  hash : Nat
  addr : Nat
  height : Nat
  kind : Kind
  contract : Bool
  inner : List Send
deriving Repr, DecidableEq

/-- All sends of a block. -/
def Blk.sends (b : Blk) : List Send :=
  (match b.kind with
    | .send d t a => [⟨b.hash, d, t, a⟩]
    | _ => []) ++ b.inner

/-- The hash of the send a block receives. -/
def Blk.src (b : Blk) : Option Nat :=
  match b.kind with
  | .recv h => some h
  | _ => none

/-- `GetAccountBlockByHash` for the hash of a send (`ledger/chain/account_block.go:115-126`, `:373-384`). -/
def lookIn (bs : List Blk) (h : Nat) : Option Send := (bs.flatMap Blk.sends).find? fun s => decide (s.hash = h)

/-- What is counted: a send counts up, a receive counts down. -/
inductive Ent where
  | out (s : Send)
  | inn (addr src : Nat)
deriving Repr, DecidableEq

/-- The key in `cutMap`. -/
def Ent.key : Ent → Nat
  | .out s => s.hash
  | .inn _ h => h

/-- The account whose count changes (`onroad_info.go:685-690`). -/
def Ent.addr : Ent → Nat
  | .out s => s.dest
  | .inn a _ => a

def Ent.isOut : Ent → Bool
  | .out _ => true
  | .inn _ _ => false

/-- What `excludePairTrades` goes through for a block (`onroad_info.go:638-677`): the send list counts only for a receive of a contract. -/
def Blk.ents (b : Blk) : List Ent :=
  match b.kind with
  | .send d t a => [.out ⟨b.hash, d, t, a⟩]
  | .genesis => []
  | .recv h => .inn b.addr h :: if b.contract then b.inner.map .out else []

/-- One step of `excludePairTrades` (`onroad_info.go:639-676`): an entry of the other kind under the key goes, otherwise the entry is set. -/
def cutStep (m : List Ent) (e : Ent) : List Ent :=
  match m.find? fun v => decide (v.key = e.key) with
  | some v => if v.isOut ≠ e.isOut then m.filter fun v => decide (v.key ≠ e.key) else (m.filter fun v => decide (v.key ≠ e.key)) ++ [e]
  | none => m ++ [e]

/-- `excludePairTrades` (`onroad_info.go:636-700`), before it is sorted by account. -/
def cut (bs : List Blk) : List Ent := (bs.flatMap Blk.ents).foldl cutStep []

/-- Adding to the sums of a token. -/
def addTo (g : List (Nat × Int × Int)) (t : Nat) (n a : Int) : List (Nat × Int × Int) :=
  match g with
  | [] => [(t, n, a)]
  | (u, m, b) :: g => if u = t then (u, m + n, b + a) :: g else (u, m, b) :: addTo g t n a

/-- `aggregateBlocks` (`onroad_info.go:546-594`): for every token the change of the number and of the amount; `none` when the send of a receive is not found. -/
def aggregate (look : Nat → Option Send) : List Ent → List (Nat × Int × Int) → Option (List (Nat × Int × Int))
  | [], g => some g
  | .out s :: es, g => aggregate look es (addTo g s.token 1 s.amount)
  | .inn _ h :: es, g =>
    match look h with
    | none => none
    | some s => aggregate look es (addTo g s.token (-1) (-(s.amount : Int)))

/-- An entry of the store, `onroadMeta` (`onroad_info.go:596-599`): number and amount. -/
abbrev Meta := Nat × Nat

/-- The new entry (`onroad_info.go:416-441`, `:467-493`); `none` is a conflict. -/
def change (old : Option Meta) (dn da : Int) : Option (Option Meta) :=
  let n := ((old.getD (0, 0)).1 : Int) + dn
  let a := ((old.getD (0, 0)).2 : Int) + da
  if a < 0 ∨ n < 0 ∨ (a > 0 ∧ n = 0) then none
  else if n = 0 then some none
  else some (some (n.toNat, a.toNat))

/-- The sums of a token, when there are any. -/
def sumsOf (g : List (Nat × Int × Int)) (t : Nat) : Option (Int × Int) := (g.find? fun e => decide (e.1 = t)).map (·.2)

/-- `flushWriteBySnapshotLine` and, with `sign = -1`, `flushDeleteBySnapshotLine` (`onroad_info.go:398-496`). Every key is read from the store and written to the batch at most once, so the order
does not matter. What is in conflict stays as it is. -/
def flush (look : Nat → Option Send) (sign : Int) (es : List Ent) (db : Nat → Nat → Option Meta) : Nat → Nat → Option Meta := fun a t =>
  match aggregate look (es.filter fun e => decide (e.addr = a)) [] with
  | none => db a t
  | some g =>
    match sumsOf g t with
    | none => db a t
    | some (dn, da) => (change (db a t) (sign * dn) (sign * da)).getD (db a t)

/-- `OnRoadInfo` (`onroad_info.go:29-35`): the store by address and token, and `unconfirmedCache`. -/
structure Plug where
  db : Nat → Nat → Option Meta
  cache : Nat → List Blk

/-- The account under which a block is cached (`onroad_info.go:349-354`). -/
def Blk.cacheAddr (b : Blk) : Nat :=
  match b.kind with
  | .send d _ _ => d
  | _ => b.addr

/-- `addUnconfirmed` (`onroad_info.go:344-365`). -/
def addUnconfirmed (c : Nat → List Blk) (b : Blk) : Nat → List Blk := fun a =>
  if a = b.cacheAddr then (if (c a).any (fun v => decide (v.hash = b.hash)) then c a else c a ++ [b]) else c a

/-- `removeUnconfirmed` (`onroad_info.go:367-388`). -/
def removeUnconfirmed (c : Nat → List Blk) (b : Blk) : Nat → List Blk := fun a =>
  if a = b.cacheAddr then (c a).filter fun v => decide (v.hash ≠ b.hash) else c a

/-- `InsertAccountBlock` (`onroad_info.go:172-181`). -/
def Plug.insertBlock (p : Plug) (b : Blk) : Plug := { p with cache := addUnconfirmed p.cache b }

/-- `DeleteAccountBlocks` (`onroad_info.go:183-190`). -/
def Plug.deleteBlocks (p : Plug) (bs : List Blk) : Plug := { p with cache := bs.foldl removeUnconfirmed p.cache }

/-- `InsertSnapshotBlock` (`onroad_info.go:92-103`). -/
def Plug.insertSnapshot (look : Nat → Option Send) (p : Plug) (bs : List Blk) : Plug :=
  ⟨flush look 1 (cut bs) p.db, bs.foldl removeUnconfirmed p.cache⟩

/-- `DeleteSnapshotBlocks` (`onroad_info.go:105-142`), given the confirmed blocks of the chunks. -/
def Plug.deleteSnapshots (look : Nat → Option Send) (p : Plug) (bs : List Blk) : Plug := { p with db := flush look (-1) (cut bs) p.db }

/-- `RemoveNewUnconfirmed` (`onroad_info.go:144-170`): blocks in the cache are left out. They are looked for under the address of the account, where sends are not. -/
def Plug.removeNew (look : Nat → Option Send) (p : Plug) (bs : List Blk) : Plug :=
  ⟨flush look (-1) (cut (bs.filter fun b => !(p.cache b.addr).any fun v => decide (v.hash = b.hash))) p.db, fun _ => []⟩

/-- What a block stands for in `aggregateBlocks` when it comes from the cache: its send list does not count. -/
def Blk.top (b : Blk) : Ent :=
  match b.kind with
  | .send d t a => .out ⟨b.hash, d, t, a⟩
  | .recv h => .inn b.addr h
  | .genesis => .inn b.addr 0

/-- `GetAccountInfo` (`onroad_info.go:290-342`): for every token what the store has with the changes of the cache; `none` is an error. The total number is the sum over the tokens and is not modelled. -/
def Plug.info (look : Nat → Option Send) (p : Plug) (a : Nat) : Option (Nat → Option Meta) :=
  match aggregate look ((p.cache a).map Blk.top) [] with
  | none => none
  | some g =>
    if g.any fun e => (change (p.db a e.1) e.2.1 e.2.2).isNone then none
    else some fun t =>
      match sumsOf g t with
      | none => p.db a t
      | some (dn, da) => (change (p.db a t) dn da).getD none

/-- A node: the account blocks that each snapshot confirmed, the unconfirmed blocks, and the plugin. -/
structure Node where
  chunks : List (List Blk)
  unconf : List Blk
  plug : Plug

/-- All blocks of the ledger. -/
def Node.blocks (n : Node) : List Blk := n.chunks.flatten ++ n.unconf

/-- The changes of the ledger. -/
inductive Op where
  /-- An account block is inserted. -/
  | insert (b : Blk)
  /-- A snapshot confirms these blocks. -/
  | snapshot (bs : List Blk)
  /-- Unconfirmed blocks are deleted. -/
  | delete (bs : List Blk)
  /-- The last `k + 1` snapshots are rolled back; with `keep` the blocks of the first of them become unconfirmed (`delete.go:129-141`). -/
  | rollback (k : Nat) (keep : Bool)

/-- One change (`plugins.go:188-300`). The plugin looks blocks up in the ledger before the change, only `removeNew` after it. -/
def Node.step (n : Node) : Op → Node
  | .insert b => ⟨n.chunks, n.unconf ++ [b], n.plug.insertBlock b⟩
  | .snapshot bs => ⟨n.chunks ++ [bs], n.unconf.filter fun b => !bs.any fun v => decide (v.hash = b.hash), n.plug.insertSnapshot (lookIn n.blocks) bs⟩
  | .delete bs => ⟨n.chunks, n.unconf.filter fun b => !bs.any fun v => decide (v.hash = b.hash), n.plug.deleteBlocks bs⟩
  | .rollback k keep =>
    let left := n.chunks.take (n.chunks.length - (k + 1))
    let gone := n.chunks.drop (n.chunks.length - (k + 1))
    let new := if keep then gone.headD [] else []
    let p := n.plug.deleteSnapshots (lookIn n.blocks) (if keep then gone.tail.flatten else gone.flatten)
    let p := p.removeNew (lookIn (left.flatten ++ new)) new
    ⟨left, new, new.foldl Plug.insertBlock p⟩

/-- A node at its start. -/
def Node.start : Node := ⟨[], [], ⟨fun _ _ => none, fun _ => []⟩⟩

end Verif.Plug

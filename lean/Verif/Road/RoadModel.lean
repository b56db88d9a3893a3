import Verif.Lattice.LatticeModel

/-!
The on-road pool (ledger/onroad): for every contract and every caller, the sends of the caller that the contract has not
received yet, kept beside the ledger by its events; the front of a caller is the only send the contract may receive next.

Built on the model of the account ledger (Verif.Lattice). Simplifications: one consensus group, to which every contract
belongs, so there is one pool; contract metas are left out; keys of the pool's database are tuples of numbers
(their byte form sorts the same way: address, caller, height as 8 bytes big endian, hash); heights are never 0; an event
handler runs together with the change of the ledger.
-/

namespace Verif.Road

open Verif.Lattice

/-- Key of a send in the pool's database: receiver, caller, height, hash (ledger/onroad/pool/storage.go:166-168). For a
send of a contract the height is that of the receive block it is part of. -/
structure RKey where
  dest : Nat
  caller : Nat
  height : Nat
  hash : Nat
deriving DecidableEq, Repr

/-- The pool: the database (the index within the send list may be missing), the set of callers, and the contracts for
which a `callerCache` exists (ledger/onroad/pool/contract_pool.go:18-25, storage.go:39-44). The set of callers is one for
all contracts. -/
structure Pool where
  txs : Table RKey (Option Nat)
  callers : List Nat
  known : List Nat
deriving DecidableEq, Repr

/-- What an event does to the pool. -/
inductive Ev
  | add (k : RKey) (i : Option Nat)
  | rm (k : RKey)
deriving DecidableEq, Repr

/-- ledger/onroad/pool/storage.go:129-158: getFirstOnroadTx: the entries of the lowest height. -/
def Pool.first (p : Pool) (a x : Nat) : List (RKey × Option Nat) :=
  let mine := p.txs.filter (fun t => t.1.dest = a && t.1.caller = x)
  mine.filter (fun t => mine.all (fun u => t.1.height ≤ u.1.height))

/-- ledger/onroad/pool/storage.go:53-66, contract_pool.go:180-190, 383-387: insertOnRoad. -/
def Pool.add (p : Pool) (k : RKey) (i : Option Nat) : Pool :=
  { txs := Table.put k i p.txs
    callers := if k.caller ∈ p.callers then p.callers else k.caller :: p.callers
    known := if k.dest ∈ p.known then p.known else k.dest :: p.known }

/-- ledger/onroad/pool/storage.go:69-89, contract_pool.go:192-203: deleteOnRoad; `none`: the handler panics. -/
def Pool.rm (p : Pool) (k : RKey) : Option Pool :=
  if k.dest ∈ p.known then
    let p' : Pool := { p with txs := p.txs.filter (fun t => t.1 ≠ k) }
    some (if (p'.first k.dest k.caller).isEmpty then { p' with callers := p'.callers.filter (fun x => x ≠ k.caller) } else p')
  else none

/-- An event. -/
def Pool.play1 (p : Pool) : Ev → Option Pool
  | .add k i => some (p.add k i)
  | .rm k => p.rm k

/-- Events one after the other. -/
def Pool.play (p : Pool) : List Ev → Option Pool
  | [] => some p
  | e :: es => (p.play1 e).bind (fun p' => p'.play es)

/-! ### From blocks to events -/

/-- ledger/onroad/utils.go:17-24, 43-51: a send meets the map of blocks not yet paired off. -/
def meet (t : Table Nat Blk) (v : Blk) : Table Nat Blk :=
  match Table.get v.hash t with
  | some r => if r.isRecv then Table.del v.hash t else Table.put v.hash v t
  | none => Table.put v.hash v t

/-- ledger/onroad/utils.go:30-36: a receive meets the map. -/
def meetRecv (t : Table Nat Blk) (b : Blk) : Table Nat Blk :=
  match Table.get b.src t with
  | some s => if s.isSend then Table.del b.src t else Table.put b.src b t
  | none => Table.put b.src b t

/-- ledger/onroad/utils.go:15-52: one block of ExcludePairTrades. The code knows genesis blocks by their hashes. -/
def cutStep (g : Cfg) (t : Table Nat Blk) (b : Blk) : Table Nat Blk :=
  if b.isSend then meet t b
  else if b.kind = .genesis then t
  else if g.contract b.addr then b.sends.foldl (fun t s => meet t (inner b s)) (meetRecv t b)
  else meetRecv t b

/-- ledger/onroad/utils.go:14-52: sends and receives of the list that are not paired with each other. -/
def cut (g : Cfg) (bs : List Blk) : Table Nat Blk := bs.foldl (cutStep g) []

/-- ledger/onroad/utils.go:54-69: the account whose queue the block changes. -/
def target (v : Blk) : Nat := if v.isSend then v.dest else v.addr

/-- ledger/onroad/pool/types.go:131-180: LedgerBlockToOnRoad; `none`: an error. -/
def locate (g : Cfg) (c : Chain) (v : Blk) : Option (RKey × Option Nat) :=
  match (if v.isSend then some v else c.byHash v.src) with
  | none => none
  | some s =>
    if g.contract s.addr then
      match c.complete s.hash with
      | none => none
      | some d =>
        some (⟨s.dest, s.addr, d.height, s.hash⟩,
          ((d.sends.findIdx? (fun e => e.hash = s.hash))).or (if v.isSend then some 0 else none))
    else some (⟨s.dest, s.addr, s.height, s.hash⟩, some 0)

/-- The event of one block: contract_pool.go:125-178. -/
def eventOf (g : Cfg) (c : Chain) (write : Bool) (v : Blk) : Option Ev :=
  (locate g c v).map (fun l => if v.isSend = write then .add l.1 l.2 else .rm l.1)

/-- ledger/onroad/chain_events.go:19-69 and 73-107: the events of blocks inserted (`write`) or about to be deleted, for
contracts. `none`: the handler panics. -/
def events (g : Cfg) (c : Chain) (write : Bool) (bs : List Blk) : Option (List Ev) :=
  let l := ((cut g bs).filter (fun e => g.contract (target e.2))).map (·.2)
  if l.all (fun v => (eventOf g c write v).isSome) then some (l.filterMap (eventOf g c write)) else none

/-! ### Start -/

/-- ledger/chain/index/onroad.go:14-52 and contract_pool.go:40-72, 263-276: the pool is emptied at start
(ledger/chain/chain.go:233-243) and filled from the index. The index within a send list is left out for contracts. -/
def load (g : Cfg) (c : Chain) : Pool :=
  c.mem.foldl (fun p e =>
    match e.1 with
    | .road a h =>
      if g.contract a then
        (match c.value (.hash h) with
         | some (.at x n) => p.add ⟨a, x, n, h⟩ (if g.contract x then none else some 0)
         | _ => p)
      else p
    | _ => p) ⟨[], [], []⟩

/-! ### Fronts -/

/-- The index of an entry, looked up in the send list of a block if it is missing (contract_pool.go:344-359). -/
def fill (d : Blk) (t : RKey × Option Nat) : RKey × Option Nat :=
  (t.1, t.2.or (d.sends.findIdx? (fun e => e.hash = t.1.hash)))

/-- contract_pool.go:331-366: the missing indexes of entries of one height; `none`: an error, or no block is found. -/
def resolve (g : Cfg) (c : Chain) (l : List (RKey × Option Nat)) : Option (List (RKey × Option Nat)) :=
  match l.find? (fun t => t.2.isNone) with
  | none => some l
  | some t =>
    match c.complete t.1.hash with
    | none => none
    | some d =>
      if g.contract d.addr then
        (if (l.map (fill d)).all (fun t => t.2.isSome) then some (l.map (fill d)) else none)
      else none

/-- ledger/onroad/pool/types.go:38-60: minTx: the entry with the lowest index, the first of them. -/
def minTx : List (RKey × Option Nat) → Option (RKey × Option Nat)
  | [] => none
  | t :: ts => some (ts.foldl (fun m s => if s.2.getD 0 < m.2.getD 0 then s else m) t)

/-- contract_pool.go:298-313, 331-375: the front of a caller. -/
def front (g : Cfg) (c : Chain) (p : Pool) (a x : Nat) : Option RKey :=
  ((resolve g c (p.first a x)).bind minTx).map (·.1)

/-- contract_pool.go:74-92: IsFrontOnRoadOfCaller. -/
def isFront (g : Cfg) (c : Chain) (p : Pool) (a x h : Nat) : Bool :=
  a ∈ p.known && (front g c p a x).any (fun k => k.hash = h)

/-- contract_pool.go:94-123, 277-297 and storage.go:107-127: GetFrontOnRoadBlocksByAddr (GetAllCallersFrontOnRoad): the
fronts of the callers in the set. -/
def fronts (g : Cfg) (c : Chain) (p : Pool) (a : Nat) : List RKey :=
  if a ∈ p.known then p.callers.filterMap (fun x => front g c p a x) else []

/-- contract_pool.go:344-359: a look at a front keeps the indexes found. -/
def Pool.look (p : Pool) (g : Cfg) (c : Chain) (a x : Nat) : Pool :=
  match resolve g c (p.first a x) with
  | some l => { p with txs := l.foldl (fun t e => Table.put e.1 e.2 t) p.txs }
  | none => p

/-! ### The node -/

structure Node where
  chain : Chain
  pool : Pool

/-- ledger/verifier/account_verifier.go:190-211: a contract receives only the front of the caller. -/
def Node.inTurn (g : Cfg) (n : Node) (b : Blk) : Bool :=
  if b.isRecv ∧ g.contract b.addr then
    match n.chain.byHash b.src with
    | some s => isFront g n.chain n.pool s.dest s.addr s.hash
    | none => false
  else true

/-- The checks of a block, with the order of receives. -/
def Node.cfg (g : Cfg) (n : Node) : Cfg := { g with legal := fun b => g.legal b && n.inTurn g b }

/-- A call of the event handlers: the ledger at that time, insertion or deletion, the blocks. -/
structure Call where
  chain : Chain
  write : Bool
  blocks : List Blk

/-- ledger/chain/delete.go:110-152, 176: blocks about to be deleted by a rollback. -/
def rollCall (c : Chain) (n : Nat) (redo : Bool) : Call :=
  let gone := c.chunks.filter (fun k => ¬ k.snap.height < n)
  ⟨c, false, (if redo then gone.tail else gone).flatMap (·.blocks) ++ c.unconf⟩

/-- The calls of a rollback that goes down in steps. -/
def rollCalls (redo : Nat → Bool) (toHeight : Nat) : Nat → Nat → Chain → List Call
  | 0, _, _ => []
  | fuel + 1, target, c =>
    if toHeight < target then
      let next := if 120 < target then max (target - 120) toHeight else toHeight
      rollCall c next (redo next) :: rollCalls redo toHeight fuel next (c.rollbackOnce next (redo next))
    else []

/-- The calls an operation makes (ledger/chain/insert.go:40-47, delete.go:283, 176; insert.go:66-72). -/
def calls (g : Cfg) (n : Node) : Op → List Call
  | .insert b => if n.chain.accepts (n.cfg g) b then [⟨n.chain.write b, true, [b]⟩] else []
  | .snapshot s e bad =>
    if n.chain.snapOk s then
      match (toBeConfirmed s.content n.chain.unconf).bind (n.chain.confirm s) with
      | some c' => [⟨c', false, toDrop e bad c'.unconf⟩]
      | none => []
    else []
  | .deleteHash h =>
    match n.chain.unconf.dropWhile (fun b => b.hash ≠ h) with
    | [] => []
    | b :: bs => [⟨n.chain, false, dependents (b :: bs)⟩]
  | .deleteHeight a m =>
    match n.chain.unconf.dropWhile (fun b => ¬ (b.addr = a ∧ b.height = m)) with
    | [] => []
    | b :: bs => [⟨n.chain, false, dependents (b :: bs)⟩]
  | .rollback redo m =>
    if n.chain.top < m ∨ m ≤ 1 then [] else rollCalls redo m (n.chain.top + 1) (n.chain.top + 1) n.chain
  | _ => []

/-- What calls may do to the pool: the events of a call come in an order the code does not fix (maps). `none`: the node
stops. -/
def Outcome (g : Cfg) : List Call → Pool → Option Pool → Prop
  | [], p, r => r = some p
  | k :: ks, p, r =>
    match events g k.chain k.write k.blocks with
    | none => r = none
    | some es => ∃ es', es'.Perm es ∧
        match p.play es' with
        | none => r = none
        | some p' => Outcome g ks p' r

/-- Operations of the node. -/
inductive NOp
  | ledger (o : Op)
  | look (a x : Nat)

/-- What the node may do. -/
def NStep (g : Cfg) (n : Node) : NOp → Option Node → Prop
  | .look a x, r => r = some ⟨n.chain, n.pool.look g n.chain a x⟩
  | .ledger .restart, r => r = some ⟨n.chain.restart, load g n.chain.restart⟩
  | .ledger o, r =>
    match Lattice.step (n.cfg g) n.chain o with
    | none => r = none
    | some c' => ∃ q, Outcome g (calls g n o) n.pool q ∧ r = q.map (fun p => ⟨c', p⟩)

end Verif.Road

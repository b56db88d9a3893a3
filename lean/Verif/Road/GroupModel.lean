import Verif.Road.RoadModel

/-!
The on-road pool when contracts may belong to consensus groups that have no pool.

A contract names its group when it is created; any group but the snapshot group is accepted, whether it exists or not
(vm/vm.go:299-302). There is one pool, for the global delegate group (ledger/onroad/manager.go:25-26, 74-79). The handlers of
the manager go through the contracts a list of blocks is about, in the order of a map, and return at the first contract
whose group has no pool (ledger/onroad/chain_events.go:54-57, 86-89, 148-151).

Built on Verif.Road: the pool and its events are those of Verif.Road.RoadModel; only the manager differs. Simplification:
the events of one contract may come in any order (the code orders those of one caller).
-/

namespace Verif.Road

open Verif.Lattice

/-- ledger/onroad/utils.go:14-70, chain_events.go:35-40: the blocks of contracts that the list is about. -/
def relevant (g : Cfg) (bs : List Blk) : List Blk := ((cut g bs).filter (fun e => g.contract (target e.2))).map (·.2)

/-- One turn of the loop over the map: a contract and its blocks. -/
structure Visit where
  addr : Nat
  blocks : List Blk

/-- ledger/onroad/utils.go:54-69: the map, in an order in which a loop may go through it. -/
def Grouping (vs : List Visit) (l : List Blk) : Prop :=
  (vs.map (·.addr)).Nodup ∧ (∀ v ∈ vs, v.blocks ≠ [] ∧ ∀ b ∈ v.blocks, target b = v.addr) ∧ (vs.flatMap (·.blocks)).Perm l

/-- ledger/onroad/pool/contract_pool.go:135-190: the blocks of one contract; `none`: the node stops
(chain_events.go:59-61). -/
def visit (g : Cfg) (c : Chain) (write : Bool) (bs : List Blk) (p : Pool) : Option Pool :=
  if bs.all (fun v => (eventOf g c write v).isSome) then p.play (bs.filterMap (eventOf g c write)) else none

/-- ledger/onroad/chain_events.go:36-69, 75-102, 137-164: the loop. It returns at the first contract without a pool. -/
def visits (g : Cfg) (pooled : Nat → Bool) (c : Chain) (write : Bool) : List Visit → Pool → Option Pool
  | [], p => some p
  | v :: vs, p => if pooled v.addr then (visit g c write v.blocks p).bind (visits g pooled c write vs) else some p

/-- What calls of the handlers may do to the pool. -/
def GOutcome (g : Cfg) (pooled : Nat → Bool) : List Call → Pool → Option Pool → Prop
  | [], p, r => r = some p
  | k :: ks, p, r => ∃ vs, Grouping vs (relevant g k.blocks) ∧
      match visits g pooled k.chain k.write vs p with
      | none => r = none
      | some p' => GOutcome g pooled ks p' r

/-- ledger/verifier/account_verifier.go:203-211, ledger/onroad/access.go:41-48: without a pool the answer is an error, and the
receive is refused. -/
def Node.gInTurn (g : Cfg) (pooled : Nat → Bool) (n : Node) (b : Blk) : Bool :=
  if b.isRecv ∧ g.contract b.addr then
    match n.chain.byHash b.src with
    | some s => pooled s.dest && isFront g n.chain n.pool s.dest s.addr s.hash
    | none => false
  else true

/-- The checks of a block. -/
def Node.gcfg (g : Cfg) (pooled : Nat → Bool) (n : Node) : Cfg := { g with legal := fun b => g.legal b && n.gInTurn g pooled b }

/-- The calls an operation makes: as in Verif.Road, with these checks. -/
def gcalls (g : Cfg) (pooled : Nat → Bool) (n : Node) : Op → List Call
  | .insert b => if n.chain.accepts (n.gcfg g pooled) b then [⟨n.chain.write b, true, [b]⟩] else []
  | o => calls g n o

/-- ledger/chain/index/onroad.go:14-52, ledger/chain/onroad.go: the pool at start holds the sends to contracts of its group. -/
def gload (g : Cfg) (pooled : Nat → Bool) (c : Chain) : Pool :=
  c.mem.foldl (fun p e =>
    match e.1 with
    | .road a h =>
      if g.contract a && pooled a then
        (match c.value (.hash h) with
         | some (.at x n) => p.add ⟨a, x, n, h⟩ (if g.contract x then none else some 0)
         | _ => p)
      else p
    | _ => p) ⟨[], [], []⟩

/-- What the node may do. -/
def GStep (g : Cfg) (pooled : Nat → Bool) (n : Node) : NOp → Option Node → Prop
  | .look a x, r => r = some ⟨n.chain, if pooled a then n.pool.look g n.chain a x else n.pool⟩
  | .ledger .restart, r => r = some ⟨n.chain.restart, gload g pooled n.chain.restart⟩
  | .ledger o, r =>
    match Lattice.step (n.gcfg g pooled) n.chain o with
    | none => r = none
    | some c' => ∃ q, GOutcome g pooled (gcalls g pooled n o) n.pool q ∧ r = q.map (fun p => ⟨c', p⟩)

end Verif.Road

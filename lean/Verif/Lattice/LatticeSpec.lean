import Verif.Lattice.LatticeModel

/-!
What is claimed of the account ledger, stated on the list of its blocks.
-/

namespace Verif.Lattice

/-- `b` rests on `d`: it comes later in the same account, or receives a send of `d`. -/
def Dep (b d : Blk) : Prop := (b.addr = d.addr ∧ d.height < b.height) ∨ ∃ s ∈ d.outs, b.takes s.hash = true

/-- Blocks that may occur in a history: hashes do not collide (two blocks that share one are at the same place of the same
account), nobody owns the zero address — and send blocks carry no send list. -/
structure Sound (U : Blk → Prop) : Prop where
  plain : ∀ b, U b → b.isSend = true → b.sends = []
  distinct : ∀ b, U b → b.ids.Nodup
  place : ∀ b d h, U b → U d → h ∈ b.ids → h ∈ d.ids → b.addr = d.addr ∧ b.height = d.height
  owner : ∀ b, U b → b.addr ≠ 0

/-- A sound ledger: account chains without gaps and forks, linked by hashes; every receive has its send, addressed to the
account, made by another block; no send is received twice; the order of the list respects what rests on what. -/
structure Ledger (U : Blk → Prop) (L : List Blk) : Prop where
  known : ∀ b ∈ L, U b
  order : L.Pairwise (fun x y => ¬ Dep x y)
  nodup : L.Nodup
  place : ∀ x ∈ L, ∀ y ∈ L, x.addr = y.addr → x.height = y.height → x = y
  linked : ∀ b ∈ L, (b.height = 1 ∧ b.prev = 0) ∨ ∃ p ∈ L, p.addr = b.addr ∧ p.height + 1 = b.height ∧ p.hash = b.prev
  backed : ∀ b ∈ L, ∀ h, b.takes h = true → ∃ d ∈ L, ∃ s ∈ d.outs, s.hash = h ∧ s.dest = b.addr
  own : ∀ b ∈ L, ∀ s ∈ b.outs, b.takes s.hash = false
  once : ∀ x ∈ L, ∀ y ∈ L, ∀ h, x.takes h = true → y.takes h = true → x = y

/-- What the index must hold for confirmed chunks `K` and all blocks `L`. -/
def Wants (K : List Chunk) (L : List Blk) : Key → Val → Prop
  | .hash h, .at a n => ∃ b ∈ L, h ∈ b.ids ∧ b.addr = a ∧ b.height = n
  | .height a n, .place h f =>
      ∃ b ∈ L, b.addr = a ∧ b.height = n ∧ b.hash = h ∧ (f = true ↔ b ∈ K.flatMap (·.blocks))
  | .recv h, .by r => ∃ b ∈ L, b.takes h = true ∧ b.hash = r
  | .recv h, .flag => (∃ d ∈ L, ∃ s ∈ d.outs, s.hash = h) ∧ ∀ b ∈ L, b.takes h = false
  | .road a h, .flag => (∃ d ∈ L, ∃ s ∈ d.outs, s.hash = h ∧ s.dest = a) ∧ ∀ b ∈ L, b.takes h = false
  | .conf a n, .num s => ∃ k ∈ K, k.snap.height = s ∧ ∃ h, (a, n, h) ∈ k.snap.content
  | _, _ => False

/-- The store is exactly that. -/
def Exact (K : List Chunk) (L : List Blk) (t : Tbl) : Prop := ∀ k v, Table.get k t = some v ↔ Wants K L k v

/-- The blocks of a list that rest, directly or not, on blocks singled out. -/
inductive Tainted (seed : Blk → Prop) (L : List Blk) : Blk → Prop
  | base {b : Blk} : b ∈ L → seed b → Tainted seed L b
  | step {b d : Blk} : b ∈ L → Tainted seed L d → Dep b d → Tainted seed L b

/-- The content of a snapshot takes in a block. -/
def Covers (content : List (Nat × Nat × Nat)) (b : Blk) : Prop := ∃ n, upTo content b.addr = some n ∧ b.height ≤ n

/-- The content takes in, with a receive, its send. -/
def Closed (c : Chain) (content : List (Nat × Nat × Nat)) : Prop :=
  ∀ b ∈ c.unconf, Covers content b → ∀ d ∈ c.unconf, Dep b d → Covers content d

/-- The genesis blocks: the first blocks of different accounts, without send lists. -/
structure Start (U : Blk → Prop) (bs : List Blk) : Prop where
  known : ∀ b ∈ bs, U b
  kind : ∀ b ∈ bs, b.kind = .genesis ∧ b.height = 1 ∧ b.prev = 0 ∧ b.sends = [] ∧ b.dest = 0
  accounts : (bs.map (·.addr)).Nodup

/-- What a history may contain: known blocks; snapshots whose content is closed. -/
def Allowed (U : Blk → Prop) (c : Chain) : Op → Prop
  | .insert b => U b
  | .snapshot s _ _ => Closed c s.content
  | _ => True

/-- The states of a node. -/
inductive Reach (g : Cfg) (U : Blk → Prop) : Chain → Prop
  | start {bs : List Blk} : Start U bs → Reach g U (genesis bs)
  | step {c c' : Chain} {o : Op} : Reach g U c → Allowed U c o → Lattice.step g c o = some c' → Reach g U c'

end Verif.Lattice

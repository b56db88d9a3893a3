import Verif.Lattice.LatticeSpec
import Verif.Road.RoadModel

/-!
What is claimed of the on-road pool, stated on the blocks of the ledger.
-/

namespace Verif.Road

open Verif.Lattice

/-- The block of account `x` at height `n` makes, as its `i`-th send, the send `h` to `a`. -/
def Sent (L : List Blk) (a x n i h : Nat) : Prop := ∃ d ∈ L, d.addr = x ∧ d.height = n ∧ d.outs[i]? = some ⟨h, a⟩

/-- ... and nobody has received it. -/
def Waiting (L : List Blk) (a x n i h : Nat) : Prop := Sent L a x n i h ∧ ∀ b ∈ L, b.takes h = false

/-- The first of the sends waiting from `x` to `a`. -/
def Front (L : List Blk) (a x n i h : Nat) : Prop :=
  Waiting L a x n i h ∧ ∀ m j k, Waiting L a x m j k → n < m ∨ (n = m ∧ i ≤ j)

/-- Contracts receive the sends of one account in the order in which they were made. -/
def InOrder (g : Cfg) (L : List Blk) : Prop :=
  ∀ a x n i h m j k, g.contract a = true → Sent L a x n i h → Sent L a x m j k → (n < m ∨ (n = m ∧ i < j)) →
    ∀ r ∈ L, r.takes k = true → ∃ q ∈ L, q.takes h = true ∧ q.addr = r.addr ∧ q.height < r.height

/-- The pool holds, for contracts, exactly what waits. An index that is given is right; it may be missing for sends of
contracts only. -/
structure PoolOk (g : Cfg) (L : List Blk) (p : Pool) : Prop where
  proper : Table.Proper p.txs
  right : ∀ k v, Table.get k p.txs = some v → g.contract k.dest = true ∧
    ∃ i, Waiting L k.dest k.caller k.height i k.hash ∧ (v = some i ∨ (v = none ∧ g.contract k.caller = true))
  full : ∀ a x n i h, g.contract a = true → Waiting L a x n i h → ∃ v, Table.get ⟨a, x, n, h⟩ p.txs = some v
  known : ∀ k v, Table.get k p.txs = some v → k.dest ∈ p.known

/-- Contracts make sends in send lists only, other accounts by send blocks only. -/
def Shaped (g : Cfg) (L : List Blk) : Prop :=
  ∀ b ∈ L, (b.isSend = true → g.contract b.addr = false) ∧ (b.isRecv = true → b.sends ≠ [] → g.contract b.addr = true) ∧
    (b.kind = .genesis → b.sends = [])

/-- The states of a node. -/
inductive Reach (g : Cfg) (U : Blk → Prop) : Node → Prop
  | start {bs : List Blk} : Start U bs → Reach g U ⟨genesis bs, load g (genesis bs)⟩
  | look {n n' : Node} {a x : Nat} : Reach g U n → NStep g n (.look a x) (some n') → Reach g U n'
  | step {n n' : Node} {o : Op} : Reach g U n → Allowed U n.chain o → NStep g n (.ledger o) (some n') → Reach g U n'

end Verif.Road

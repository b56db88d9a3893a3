import Verif.Settle.SettleModel
import Verif.Snap.TimeProps
import Verif.Consensus.SlotProps

/-!
# Irreversible snapshot blocks: what is claimed

A round is final on a chain if enough different producers made blocks in it. Its first block is then a final block.
-/

namespace Verif.Settle
open Verif.Consensus Verif.Snap

/-- The different producers of the blocks of a round. -/
def producersOf (g : Cfg) (c : Chain) (r : Nat) : Finset Addr := ((c.filter (fun b => decide (g.round b = r))).map (·.producer)).toFinset

/-- A block is final on a chain: it is the first of its round, it is not the genesis block, and at least `2 * (n / 3) + 1` different producers made
blocks in the round. -/
structure Final (g : Cfg) (c : Chain) (p : Snap) : Prop where
  mem : p ∈ c
  above : 2 ≤ p.height
  first : ∀ b ∈ c, g.round b = g.round p → p.height ≤ b.height
  quorum : 2 * (g.nodes / 3) + 1 ≤ (producersOf g c (g.round p)).card

/-- The highest final block, if there is any. -/
def Highest (g : Cfg) (c : Chain) : Option Snap → Prop
  | some p => Final g c p ∧ ∀ q, Final g c q → q.height ≤ p.height
  | none => ∀ q, ¬ Final g c q

/-- A chain of the ledger. Times are whole seconds and within what an `uint64` holds; rounds are counted from the time of the genesis block.
`block` gives the block of a hash: no two blocks ever seen have the same. -/
structure Ok (g : Cfg) (block : Hash → Snap) (c : Chain) : Prop where
  good : Good c
  whole : Whole c
  genesis : ∀ b, c.head? = some b → b.time = g.start 0
  inRange : ∀ b ∈ c, b.time < g.start 0 + 2 ^ 64 * 1000000000
  known : ∀ b ∈ c, block b.hash = b
  linked : ∀ i a b, c[i]? = some a → c[i + 1]? = some b → b.prev = a.hash

/-- The first round has no more blocks than make a quorum. -/
def Calm (g : Cfg) (c : Chain) : Prop := ∀ b ∈ c, g.round b = 0 → b.height ≤ 2 * (g.nodes / 3) + 1

/-- What may happen: a block that continues the chain is inserted, and a fork never reaches the genesis block. -/
def Allowed (g : Cfg) (block : Hash → Snap) (s : St) : Op → Prop
  | .grow b => Ok g block (s.chain ++ [b])
  | .update => True
  | .fork key => 2 ≤ key

/-- The states that are reached from a chain with nothing kept. -/
inductive Reach (g : Cfg) (block : Hash → Snap) : St → Prop where
  | start {c : Chain} (h : Ok g block c) : Reach g block ⟨c, none⟩
  | step {s s' : St} {o : Op} (h : Reach g block s) (ho : Allowed g block s o) (e : step g s o = some s') : Reach g block s'

end Verif.Settle

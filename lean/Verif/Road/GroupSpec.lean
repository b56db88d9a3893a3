import Verif.Road.RoadSpec
import Verif.Road.GroupModel

/-!
What is claimed of the on-road pool when some contracts have no pool.
-/

namespace Verif.Road

open Verif.Lattice

/-- The block sends to the account, or is a receive of the account. -/
def Touches (b : Blk) (a : Nat) : Prop := (∃ s ∈ b.outs, s.dest = a) ∨ (b.isRecv = true ∧ b.addr = a)

/-- The blocks do not bring together contracts with a pool and contracts without one. -/
def Unmixed (g : Cfg) (pooled : Nat → Bool) (bs : List Blk) : Prop :=
  (∀ b ∈ bs, ∀ a, Touches b a → g.contract a = true → pooled a = true) ∨
  (∀ b ∈ bs, ∀ a, Touches b a → g.contract a = true → pooled a = false)

/-- The lists of blocks that an operation reports are unmixed. -/
def Plain (g : Cfg) (pooled : Nat → Bool) (n : Node) (o : Op) : Prop := ∀ k ∈ gcalls g pooled n o, Unmixed g pooled k.blocks

/-- The states of a node all of whose operations satisfy `P`. -/
inductive GReach (g : Cfg) (pooled : Nat → Bool) (U : Blk → Prop) (P : Node → Op → Prop) : Node → Prop
  | start {bs : List Blk} : Start U bs → GReach g pooled U P ⟨genesis bs, gload g pooled (genesis bs)⟩
  | look {n n' : Node} {a x : Nat} : GReach g pooled U P n → GStep g pooled n (.look a x) (some n') → GReach g pooled U P n'
  | step {n n' : Node} {o : Op} : GReach g pooled U P n → Allowed U n.chain o → P n o → GStep g pooled n (.ledger o) (some n') →
      GReach g pooled U P n'

end Verif.Road

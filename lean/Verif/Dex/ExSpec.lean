import Verif.Dex.ExModel
import Verif.Dex.FundSpec
import Verif.Dex.ShareSpec
import Verif.Dex.PeriodSpec

/-!
# What the exchange owes and has promised, for C28, C29, C30 and C47

Nothing here is used by the model.
-/

namespace Verif.Dex.Spec
open Verif.Dex

/-- What is free to use for an address. -/
def free (s : Ex) (a t : Nat) : Nat := (getAcct a t s.core.funds).available

/-- All the exchange has to answer for in a token: what it owes the users (free, in orders, locked, being unlocked, stake being
cancelled), the fees collected for dividends, the operators' fees, and for VX the pool to be mined and the makers' pools. -/
def liabilities (s : Ex) (t : Nat) : Nat :=
  held owes t s.core.funds + feesHeld s.now t s.fees + opSum t s.opFees +
    if t = vxToken then s.vxPool + Table.total (fun _ n => n) s.maker else 0

/-- The requests of an address in a log, with period `T` and `P < T + 7`: not due at period `P`. -/
def notDue (P a : Nat) (log : List (Nat × Nat × Nat)) : Nat :=
  (log.map (fun x => if x.1 = a ∧ P < x.2.1 + 7 then x.2.2 else 0)).sum

/-- The requests of an address in a log that become due after period `P` and not after `Q`: seven periods after the request. -/
def dueBetween (P Q a : Nat) (log : List (Nat × Nat × Nat)) : Nat :=
  (log.map (fun x => if x.1 = a ∧ P < x.2.1 + 7 ∧ x.2.1 + 7 ≤ Q then x.2.2 else 0)).sum

/-- What a fee pool gives to the dividend of its period: everything of VITE that is no longer rolled, one percent of the rest
(`percent_err`). The sum over all records up to period `P` that were not divided yet. -/
def pot (P t : Nat) (fees : Table Nat FeeRec) : Nat :=
  ((fees.filter (fun x => decide (x.1 ≤ P) && !x.2.finishDividend)).map (fun x => poolSum Pool.part t x.2.pools)).sum

/-- Who takes part, given what everybody held: those with at least `thr`, each once. -/
def IsHolders (thr : Nat) (amt : Nat → Nat) (hs : List Nat) : Prop := hs.Nodup ∧ ∀ a, a ∈ hs ↔ thr ≤ amt a

/-- What the participants hold together. -/
def sumOver (amt : Nat → Nat) (hs : List Nat) : Nat := (hs.map amt).sum

/-- VX of an address, free or locked for dividends. -/
def ownVx (s : Ex) (a : Nat) : Nat := (getAcct a vxToken s.core.funds).available + (getAcct a vxToken s.core.funds).vxLocked

/-- The stakes of an address for mining that the quota contract holds. -/
def stakesOf (a : Nat) (t : Table Nat Deleg) : Nat :=
  Table.total (fun _ d => if d.kind = .mining ∧ d.confirmed = true ∧ d.owner = a then d.amount else 0) t

end Verif.Dex.Spec

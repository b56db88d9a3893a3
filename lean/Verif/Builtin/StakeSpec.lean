import Verif.Builtin.StakeModel

/-! What C14 and C15 talk about: who paid for a stake record, and sums over the records. -/

namespace Verif.Builtin.Stake.Spec
open Verif.Vm

/-- Who put the money of a stake record in: the delegate for a delegated stake, otherwise the stake address. -/
def payer (r : Rec) : Nat := r.delegate.getD r.owner

/-- Sum of a quantity over records. -/
def sumOf (f : Rec → Nat) (l : List Rec) : Nat := (l.map f).sum

/-- All staked money. -/
def staked (l : List Rec) : Nat := sumOf (·.amount) l

/-- The money staked for the beneficiary `b`. -/
def stakedFor (b : Nat) (l : List Rec) : Nat := sumOf (fun r => if r.beneficiary = b then r.amount else 0) l

/-- The staked money `p` put in. -/
def stakedBy (p : Nat) (l : List Rec) : Nat := sumOf (fun r => if payer r = p then r.amount else 0) l

/-- The quota contract's storage inside a ledger. -/
def storage {E : Type} (L : Ledger (State × E)) : State := (L.data quotaAddr).1

/-- The VITE the quota contract has. -/
def funds {E : Type} (L : Ledger (State × E)) : Int := getBal quotaAddr vite L.bal

/-- What a list of sends pays to `p` in VITE. -/
def paidTo (p : Nat) (rs : List Request) : Nat :=
  (rs.map (fun r => if r.dest = p ∧ r.token = vite then r.amount else 0)).sum

/-- The storage is in order: records are in key order; a stake id leads to the record that carries it; the table of
amounts per beneficiary is the sum of the records; and nothing has an index above the contract's last block. -/
structure Ok (st : State) : Prop where
  sorted : st.recs.Pairwise (fun x y => keyLt x.key y.key)
  indexes : ∀ r ∈ st.recs, r.index ≤ st.seen
  keys : ∀ id k, st.ids id = some k → k.2 ≤ st.seen
  own : ∀ id k r, st.ids id = some k → r ∈ st.recs → r.key = k → r.delegate = none
  mapped : ∀ r ∈ st.recs, ∀ x, r.id = some x → st.ids x = some r.key
  sums : ∀ b, st.beneficial b = stakedFor b st.recs

end Verif.Builtin.Stake.Spec

import Verif.Vm.LedgerModel

/-! Vocabulary for the value statements C01-C04. Nothing here is used by the model. -/

namespace Verif.Vm.Spec
open Verif.Vm

/-- The sum of all balances of token `t`. -/
def total (t : Nat) (b : Bal) : Int := (b.map (fun e => if e.1.2 = t then e.2 else 0)).sum

/-- What an open send carries of token `t`: its amount, and its fee, which is in VITE. -/
def carried (t : Nat) (s : Send) : Int := (if s.token = t then (s.amount : Int) else 0) + (if t = vite then (s.fee : Int) else 0)

/-- The same for all open sends. -/
def inFlight (t : Nat) (ss : List Send) : Int := (ss.map (carried t)).sum

/-- Everything there is of token `t`. -/
def wealth {D : Type} (t : Nat) (L : Ledger D) : Int := total t L.bal + inFlight t L.flight

/-- What a send of `amount` of `token` with a VITE fee costs the sender in token `t`. -/
def cost (token amount fee t : Nat) : Int := (if token = t then (amount : Int) else 0) + (if t = vite then (fee : Int) else 0)

/-- The fee that applies to a user's request, if it is acceptable at all: the creation fee, what a built-in contract asks
for, nothing otherwise. -/
def feeFor (e : Env) (r : Request) : Option Nat :=
  match r.kind with
  | .create => some createContractFee
  | .call => if e.builtin r.dest then r.fee else some 0
  | _ => none

/-- The sender can pay. -/
def Affordable (b : Bal) (a token amount fee : Nat) : Prop := ∀ t, cost token amount fee t ≤ getBal a t b

end Verif.Vm.Spec

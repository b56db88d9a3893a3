import Verif.Builtin.GovModel
import Verif.Builtin.NameListProps

/-! What C18, C19 and the other properties of the governance contract talk about. -/

namespace Verif.Builtin.Gov.Spec
open Verif.Vm Verif.Builtin.Reward Verif.Builtin.NameList

/-- The registration of a name in a group. -/
def reg (st : State) (gid : Nat) (name : Name) : Option Reg := Table.get (gid, name) st.regs

/-- The stake a name holds in a group. -/
def locked (gid : Nat) (name : Name) (st : State) : Nat := (reg st gid name).elim 0 (·.amount)

/-- All registration stakes. -/
def allLocked (st : State) : Nat := Table.total (fun _ r => r.amount) st.regs

/-- A call pays a registration of the name. -/
def isRegister (gid : Nat) (name : Name) : Method → Bool
  | .register g n _ => decide (g = gid) && decide (n = name)
  | .registerV3 n _ _ => decide (snapshotGid = gid) && decide (n = name)
  | _ => false

/-- A call asks the stake of the name back. -/
def isRevoke (gid : Nat) (name : Name) : Method → Bool
  | .revoke g n => decide (g = gid) && decide (n = name)
  | _ => false

/-- A call asks for the reward of the name. -/
def isReward (name : Name) : Method → Bool
  | .withdrawReward _ n _ => decide (n = name)
  | _ => false

/-- The VITE in a list of sends. -/
def sent (rs : List Request) : Nat := (rs.map (fun r => if r.token = vite then r.amount else 0)).sum

/-- The VITE in a list of sends to `p`. -/
def sentTo (p : Nat) (rs : List Request) : Nat :=
  (rs.map (fun r => if r.dest = p ∧ r.token = vite then r.amount else 0)).sum

/-- Sum over a history: `f` of every call that succeeds, with its result. -/
def sumCalls (f : Call → Result → Nat) : State → List Call → Nat
  | _, [] => 0
  | st, x :: xs => (x.result st).elim 0 (f x) + sumCalls f (apply st x) xs

/-- The stakes paid for a name in a history. -/
def paidIn (gid : Nat) (name : Name) : State → List Call → Nat :=
  sumCalls (fun x _ => if isRegister gid name x.method then x.amount else 0)

/-- The stakes sent back for a name in a history. -/
def paidBack (gid : Nat) (name : Name) : State → List Call → Nat :=
  sumCalls (fun x res => if isRevoke gid name x.method then sent res.sends else 0)

/-- The rewards of a name in a history. -/
def rewarded (name : Name) : State → List Call → Nat :=
  sumCalls (fun x res => if isReward name x.method then (res.mints.map (·.2)).sum else 0)

/-- All rewards in a history. -/
def allRewarded : State → List Call → Nat := sumCalls (fun _ res => (res.mints.map (·.2)).sum)

/-- The contract's storage inside a ledger, and its VITE. -/
def storage {E : Type} (L : Ledger (State × E)) : State := (L.data governanceAddr).1
def funds {E : Type} (L : Ledger (State × E)) : Int := getBal governanceAddr vite L.bal

/-- Producing addresses are bound to names: the table of addresses says exactly which name has an address in its list, and
the present producing address of a name is in its list. -/
structure Bound (st : State) : Prop where
  table : ∀ a g n, st.hisName a g = some n ↔ ∃ r, reg st g n = some r ∧ a ∈ r.his
  present : ∀ g n r, reg st g n = some r → r.producing ∈ r.his

/-- A revoked registration holds no stake, and no key is stored twice. -/
structure Sound (st : State) : Prop where
  proper : Table.Proper st.regs
  idle : ∀ g n r, reg st g n = some r → r.active = false → r.amount = 0

/-- What a name has earned on a day. -/
def earned (src : Source) (name : Name) (i : Nat) : Nat :=
  match src.day i with
  | none => 0
  | some d => dayReward d name (src.stake i)

/-- The withdraw lists name exactly the producers that have chosen another address than their owner's. -/
structure ListsOk (st : State) : Prop where
  lists : ∀ a, ∃ names : List Name, st.lists a = NameList.Spec.stored names ∧ names.Nodup ∧
    ∀ n, n ∈ names ↔ ∃ r, reg st snapshotGid n = some r ∧ r.withdraw = a ∧ r.owner ≠ a
  valid : ∀ g n r, reg st g n = some r → NameList.Spec.ValidName n
  others : ∀ g n r, reg st g n = some r → g ≠ snapshotGid → r.withdraw = r.owner

end Verif.Builtin.Gov.Spec

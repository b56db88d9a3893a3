import Verif.Base.Table
import Verif.Builtin.NameListModel
import Verif.Builtin.RewardModel
import Verif.Vm.LedgerModel

/-!
# Model of the governance contract: block producers, their rewards, and votes

Source: `/repo/vm/contracts/contracts_governance.go`, `/repo/vm/contracts/abi/abi_gonvernance.go`,
`/repo/vm/contracts/contracts.go:141-224`.

The contract of the Earth upgrade offers the methods of all versions, so any mix of old and new calls is a history of it.

Simplifications.
* Storage is five tables, told apart by the length of the key: groups (11 bytes), withdraw lists (21), registrations (30),
  names of producing addresses (31), votes (32); abi_gonvernance.go:75-80, 120-148. Nothing writes groups; they are a
  parameter.
* The key of a registration holds the first 20 bytes of the hash of the name; two names with the same 20 bytes are not
  considered.
* A registration in the old format, which has no withdraw address, is read with the stake address in its place
  (abi_gonvernance.go:374-378): it is that record here.
* Times are `int64` seconds, heights `uint64`; both far from their limits.
* The data of the call to the asset contract is in `mints`.
-/

namespace Verif.Builtin.Gov
open Verif.Vm Verif.Builtin.Reward Verif.Builtin.NameList

/-- `types.SNAPSHOT_GID`, `types.DELEGATE_GID`: common/types/gid.go:18-19. -/
def snapshotGid : Nat := 1
def delegateGid : Nat := 2

/-- `registrationNameLengthMax`: vm/contracts/params.go:19. -/
def nameLengthMax : Nat := 40

/-- `types.Registration`: common/types/contracts.go:35-49; the name is in the key. -/
structure Reg where
  producing : Nat
  withdraw : Nat
  owner : Nat
  amount : Nat
  expiry : Nat
  rewardTime : Int
  revokeTime : Int
  his : List Nat
  deriving DecidableEq, Repr

/-- `IsActive`: common/types/contracts.go:47-49. -/
def Reg.active (r : Reg) : Bool := r.revokeTime == 0

/-- The contract's storage. -/
structure State where
  /-- registrations by group and name -/
  regs : Table (Nat × Name) Reg
  /-- `GetHisNameKey`: the name an address has been used for in a group -/
  hisName : Nat → Nat → Option Name
  /-- `addr.Bytes()`: the names whose reward an address may withdraw -/
  lists : Nat → Str
  /-- `GetVoteInfoKey`: the vote of an address in a group -/
  votes : Nat → Nat → Option Name

/-- Digits, letters, "_" and ".". -/
def plainChar (c : Nat) : Bool :=
  (48 ≤ c && c ≤ 57) || (97 ≤ c && c ≤ 122) || (65 ≤ c && c ≤ 90) || c == 95 || c == 46

/-- The regular expression `^([0-9a-zA-Z_.]+[ ]?)*[0-9a-zA-Z_.]$`: contracts_governance.go:61. `prev` says that the byte
before was a plain character. -/
def matchName (prev : Bool) : Name → Bool
  | [] => prev
  | c :: cs => if plainChar c then matchName true cs else if c = 32 ∧ prev then matchName false cs else false

/-- `checkRegisterAndVoteParam`: contracts_governance.go:55-65. -/
def checkParam (gid : Nat) (name : Name) : Bool :=
  !(gid == delegateGid) && !(name.length == 0) && !(decide (name.length > nameLengthMax)) && matchName false name

/-- What a receive block knows: height and time of the snapshot block it refers to, the price of a registration
(`SbpStakeAmountPreMainnet`, `SbpStakeAmountMainnet`: params.go:32-34), the groups with their lock time, and the
consensus' statistics, the reading of which may panic. -/
structure Ctx where
  height : Nat
  now : Int
  price : Nat
  group : Nat → Option Nat
  src : Source
  panics : Bool

/-- Calls, with their arguments. -/
inductive Method
  /-- `Register`, `RegisterV2` -/
  | register (gid : Nat) (name : Name) (producing : Nat)
  /-- `RegisterSBP` -/
  | registerV3 (name : Name) (producing withdraw : Nat)
  /-- `Revoke`, `CancelRegister`; `RevokeSBP` with the snapshot group -/
  | revoke (gid : Nat) (name : Name)
  /-- `WithdrawReward`, `Reward`; `WithdrawSBPReward` -/
  | withdrawReward (gid : Nat) (name : Name) (receive : Nat)
  /-- `UpdateBlockProducingAddress`, `UpdateRegistration`; `UpdateSBPBlockProducingAddress` -/
  | updateProducing (gid : Nat) (name : Name) (producing : Nat)
  /-- `UpdateSBPRewardWithdrawAddress` -/
  | updateWithdraw (name : Name) (withdraw : Nat)
  /-- `Vote`; `VoteForSBP` -/
  | vote (gid : Nat) (name : Name)
  /-- `CancelVote`; `CancelSBPVoting` -/
  | cancelVote (gid : Nat)

/-- `DoSend`: contracts_governance.go:36-53, 227-247, 327-347, 665-685, 761-775, 821-843, 885-903. -/
def doSend (amount : Nat) : Method → Bool
  | .register g n _ => checkParam g n
  | .registerV3 n _ _ => checkParam snapshotGid n
  | .revoke g n => decide (amount = 0) && checkParam g n
  | .withdrawReward g _ _ => decide (amount = 0) && decide (g = snapshotGid)
  | .updateProducing g n _ => decide (amount = 0) && checkParam g n
  | .updateWithdraw n _ => decide (amount = 0) && checkParam snapshotGid n
  | .vote g n => decide (amount = 0) && checkParam g n
  | .cancelVote g => decide (amount = 0) && !(g == delegateGid)

/-- New storage, sends, and rewards asked of the asset contract: (receiver, amount). -/
structure Result where
  st : State
  sends : List Request
  mints : List (Nat × Nat)

/-- Writing a two-key table entry. -/
def upd2 {β : Type} (f : Nat → Nat → Option β) (a b : Nat) (v : Option β) : Nat → Nat → Option β :=
  fun x y => if x = a ∧ y = b then v else f x y

/-- Writing a withdraw list. -/
def updList (f : Nat → Str) (a : Nat) (v : Str) : Nat → Str := fun x => if x = a then v else f x

def addList (l : Nat → Str) (a : Nat) (name : Name) : Nat → Str := updList l a (addName (l a) name)
def deleteList (l : Nat → Str) (a : Nat) (name : Name) : Nat → Str := updList l a (deleteName (l a) name)

/-- `saveWithdrawRewardAddress`: contracts_governance.go:163-184. -/
def saveWithdraw (l : Nat → Str) (old : Option Nat) (new owner : Nat) (name : Name) : Nat → Str :=
  match old with
  | none => if new = owner then l else addList l new name
  | some o =>
    if o = new then l
    else if o = owner then addList l new name
    else if new = owner then deleteList l o name
    else addList (deleteList l o name) new name

/-- Claiming a producing address for a name: contracts_governance.go:106-122, 699-713. The result is the new table and the
new list of addresses of the name; `none` is the error. -/
def claim (st : State) (gid : Nat) (name : Name) (addr : Nat) (his : List Nat) :
    Option ((Nat → Nat → Option Name) × List Nat) :=
  match st.hisName addr gid with
  | none => some (upd2 st.hisName addr gid (some name), his ++ [addr])
  | some n => if n = name then some (st.hisName, his) else none

/-- What the reward calculation reads of a registration. -/
def Reg.times (r : Reg) : Times := ⟨r.rewardTime, r.revokeTime⟩

/-- `checkRewardDrained`: contracts_governance.go:420-426. -/
def drained (c : Ctx) (name : Name) (r : Reg) : Bool :=
  rewardDrained (calcReward c.panics c.src name r.times c.now)

/-- What a registration takes over from an inactive one of the same name: the addresses and the withdraw address;
contracts_governance.go:90-105. `none` is the error. -/
def takeOver (c : Ctx) (name : Name) (sender : Nat) : Option Reg → Option (List Nat × Option Nat)
  | none => some ([], none)
  | some old =>
    if old.active = true ∨ old.owner ≠ sender then none
    else if drained c name old = false then none
    else some (old.his, some old.withdraw)

/-- `MethodRegister.DoReceive`: contracts_governance.go:67-161. -/
def register (c : Ctx) (st : State) (sender token amount gid : Nat) (name : Name) (producing withdraw : Nat) :
    Option Result :=
  if amount ≠ c.price ∨ token ≠ vite then none
  else (takeOver c name sender (Table.get (gid, name) st.regs)).bind fun o =>
    (claim st gid name producing o.1).bind fun h =>
      (c.group gid).map fun lock =>
        { st := { st with
            regs := Table.put (gid, name) ⟨producing, withdraw, sender, amount, c.height + lock,
              if gid = snapshotGid then c.now else 0, 0, h.2⟩ st.regs
            hisName := h.1
            lists := saveWithdraw st.lists o.2 withdraw sender name }
          sends := []
          mints := [] }

/-- `MethodRevoke.DoReceive`: contracts_governance.go:248-307. -/
def revoke (c : Ctx) (st : State) (sender gid : Nat) (name : Name) (fee : Option Nat) : Option Result :=
  match Table.get (gid, name) st.regs with
  | none => none
  | some old =>
    if old.active = false ∨ old.owner ≠ sender ∨ old.expiry > c.height then none
    else some
      { st := { st with
          regs := Table.put (gid, name) { old with
            amount := 0, expiry := 0, rewardTime := if drained c name old then -1 else old.rewardTime, revokeTime := c.now } st.regs }
        sends := if old.amount > 0 then [⟨.call, sender, vite, old.amount, fee⟩] else []
        mints := [] }

/-- The new reward time: contracts_governance.go:367-370. -/
def newRewardTime (a : Answer) : Int := if a.drained then -1 else a.endTime

/-- `MethodWithdrawReward.DoReceive`: contracts_governance.go:348-418. -/
def withdrawReward (c : Ctx) (st : State) (sender gid : Nat) (name : Name) (receive : Nat) (fee : Option Nat) :
    Option Result :=
  match Table.get (gid, name) st.regs with
  | none => none
  | some old =>
    if old.rewardTime = -1 ∨ (sender ≠ old.owner ∧ sender ≠ old.withdraw) then none
    else
      let a := calcReward c.panics c.src name old.times c.now
      if newRewardTime a ≠ old.rewardTime then
        some
          { st := { st with regs := Table.put (gid, name) { old with rewardTime := newRewardTime a } st.regs }
            sends := if a.reward.getD 0 > 0 then [⟨.call, assetAddr, vite, 0, fee⟩] else []
            mints := if a.reward.getD 0 > 0 then [(receive, a.reward.getD 0)] else [] }
      else some ⟨st, [], []⟩

/-- `MethodUpdateBlockProducingAddress.DoReceive`: contracts_governance.go:686-742. -/
def updateProducing (st : State) (sender gid : Nat) (name : Name) (producing : Nat) : Option Result :=
  match Table.get (gid, name) st.regs with
  | none => none
  | some old =>
    if old.active = false ∨ old.owner ≠ sender ∨ old.producing = producing then none
    else (claim st gid name producing old.his).map fun h =>
      { st := { st with
          regs := Table.put (gid, name) { old with producing := producing, his := h.2 } st.regs
          hisName := h.1 }
        sends := []
        mints := [] }

/-- `MethodUpdateRewardWithdrawAddress.DoReceive`: contracts_governance.go:776-803. -/
def updateWithdraw (st : State) (sender : Nat) (name : Name) (withdraw : Nat) : Option Result :=
  match Table.get (snapshotGid, name) st.regs with
  | none => none
  | some old =>
    if old.active = false ∨ old.owner ≠ sender ∨ old.withdraw = withdraw then none
    else some
      { st := { st with
          regs := Table.put (snapshotGid, name) { old with withdraw := withdraw } st.regs
          lists := saveWithdraw st.lists (some old.withdraw) withdraw old.owner name }
        sends := []
        mints := [] }

/-- `IsActiveRegistration`: abi_gonvernance.go:227-241. -/
def isActive (st : State) (gid : Nat) (name : Name) : Bool := (Table.get (gid, name) st.regs).elim false (·.active)

/-- `MethodVote.DoReceive`: contracts_governance.go:845-867. -/
def vote (c : Ctx) (st : State) (sender gid : Nat) (name : Name) : Option Result :=
  if c.group gid = none then none
  else if isActive st gid name = false then none
  else some ⟨{ st with votes := upd2 st.votes sender gid (some name) }, [], []⟩

/-- `MethodCancelVote.DoReceive`: contracts_governance.go:905-913. -/
def cancelVote (st : State) (sender gid : Nat) : Option Result :=
  some ⟨{ st with votes := upd2 st.votes sender gid none }, [], []⟩

/-- `DoReceive` of a method on a received send; `none` is the error return. -/
def doReceive (c : Ctx) (st : State) (sender token amount : Nat) (fee : Option Nat) : Method → Option Result
  | .register g n p => register c st sender token amount g n p sender
  | .registerV3 n p w => register c st sender token amount snapshotGid n p w
  | .revoke g n => revoke c st sender g n fee
  | .withdrawReward g n r => withdrawReward c st sender g n r fee
  | .updateProducing g n p => updateProducing st sender g n p
  | .updateWithdraw n w => updateWithdraw st sender n w
  | .vote g n => vote c st sender g n
  | .cancelVote g => cancelVote st sender g

/-! ### Histories of the contract -/

/-- A call that the contract receives. -/
structure Call where
  ctx : Ctx
  sender : Nat
  token : Nat
  amount : Nat
  fee : Option Nat
  method : Method

/-- A call succeeds: it passed `DoSend` and `DoReceive` gave no error. -/
def Call.result (x : Call) (st : State) : Option Result :=
  if doSend x.amount x.method then doReceive x.ctx st x.sender x.token x.amount x.fee x.method else none

/-- One call; a failed one changes nothing. -/
def apply (st : State) (x : Call) : State := (x.result st).elim st (·.st)

/-- A list of calls. -/
def runAll (st : State) (xs : List Call) : State := xs.foldl apply st

variable {E : Type}

/-- A step of the ledger in which a finished run at the contract's address is a run of one of its methods. -/
def Genuine (L : Ledger (State × E)) : Step (State × E) → Prop
  | .send _ _ => True
  | .recv i o => ∀ s, L.flight[i]? = some s → s.dest = governanceAddr →
      ∀ data burn sends fee callback, o = .done data burn sends fee callback →
      ∃ (x : Call) (res : Result), x.sender = s.from_ ∧ x.token = s.token ∧ x.amount = s.amount ∧
        x.result (L.data governanceAddr).1 = some res ∧ data.1 = res.st ∧ sends = res.sends

end Verif.Builtin.Gov

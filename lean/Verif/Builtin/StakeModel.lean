import Verif.Vm.LedgerModel

/-!
# Model of the quota contract: staking for quota

Source: `/repo/vm/contracts/contracts_quota.go`, `/repo/vm/contracts/abi/abi_quota.go`,
`/repo/vm/contracts/contracts.go:141-224`.

The contract of the Earth upgrade offers the methods of all versions (contracts.go:201-224), so all of them are in one
model: any mix of old and new calls is a history of it.

Simplifications.
* A pair `IsDelegated`, `DelegateAddress` is `Option` of the address: it is `(false, zero)` or `(true, sender)`.
* Storage is three tables, told apart by the length of the key: 29 bytes (address and index), 21 bytes (address), 32 bytes
  (hash); abi_quota.go:64, 103-122.
* Heights and indexes do not reach `2^64`. Amounts are below `2^256` (they are parts of the VITE supply).
* Decoding of the call data is part of whether the step is taken: methods come with their arguments.
-/

namespace Verif.Builtin.Stake
open Verif.Vm

/-- `types.AddressQuota`. -/
def quotaAddr : Nat := 3

/-- `stakeAmountMin`: 134 VITE, vm/contracts/params.go:37. -/
def stakeAmountMin : Nat := 134 * 10 ^ 18

/-- `stakeHeightMax`: one year of snapshot blocks, vm/contracts/params.go:27. -/
def stakeHeightMax : Nat := 3600 * 24 * 365

/-- A stake record: key (`owner`, `index`) and value: `VariableStakeInfo`, `VariableStakeInfoV2`, abi_quota.go:38-60. -/
structure Rec where
  owner : Nat
  index : Nat
  amount : Nat
  expiry : Nat
  beneficiary : Nat
  delegate : Option Nat
  bid : Nat
  id : Option Nat
  deriving DecidableEq, Repr

/-- `GetStakeInfoKey`: abi_quota.go:108-110. -/
def Rec.key (r : Rec) : Nat × Nat := (r.owner, r.index)

/-- Byte order of the keys: equal lengths, the index big-endian. -/
def keyLt (a b : Nat × Nat) : Prop := a.1 < b.1 ∨ (a.1 = b.1 ∧ a.2 < b.2)

instance (a b : Nat × Nat) : Decidable (keyLt a b) := by unfold keyLt; infer_instance

/-- The contract's storage: stake records in key order, the amount staked for each beneficiary, and the record key of
each stake id. `seen` is the height of the contract's last receive block (not storage: the height of its chain). -/
structure State where
  recs : List Rec
  beneficial : Nat → Nat
  ids : Nat → Option (Nat × Nat)
  seen : Nat

/-- `util.SetValue` of a stake record. -/
def putRec (r : Rec) : List Rec → List Rec
  | [] => [r]
  | x :: xs => if x.key = r.key then r :: xs else if keyLt r.key x.key then r :: x :: xs else x :: putRec r xs

/-- `util.SetValue(db, key, nil)` of a stake record. -/
def delRec (k : Nat × Nat) : List Rec → List Rec
  | [] => []
  | x :: xs => if x.key = k then xs else x :: delRec k xs

/-- `util.GetValue` of a stake record: `GetStakeInfoByKey`, abi_quota.go:236-246. -/
def getRec (k : Nat × Nat) : List Rec → Option Rec
  | [] => none
  | x :: xs => if x.key = k then some x else getRec k xs

/-- The search in `getStakeInfo`: contracts_quota.go:82-104. -/
def findRec (owner beneficiary : Nat) (delegate : Option Nat) (bid : Nat) (l : List Rec) : Option Rec :=
  l.find? (fun r => r.owner = owner ∧ r.beneficiary = beneficiary ∧ r.delegate = delegate ∧ r.bid = bid)

/-- `maxIndex`: contracts_quota.go:86, 103, 547, 557. -/
def maxIndex (owner : Nat) (l : List Rec) : Nat :=
  l.foldl (fun m r => if r.owner = owner then max m r.index else m) 0

/-- `getNextStakeInfoKey`, and the end of `getStakeInfo`: contracts_quota.go:105-108, 543-565. -/
def nextIndex (owner current : Nat) (l : List Rec) : Nat :=
  if maxIndex owner l < current then current else maxIndex owner l + 1

/-- What a receive block knows: its height, the height of the snapshot block it refers to, the node's lock time
(`nodeConfig.params.StakeHeight`) and the hash of the send block. -/
structure Ctx where
  height : Nat
  now : Nat
  lock : Nat
  hash : Nat

/-- Calls, with their arguments. -/
inductive Method
  /-- `Stake`, `Pledge`. -/
  | stake (beneficiary : Nat)
  /-- `CancelStake`, `CancelPledge`. -/
  | cancelStake (beneficiary amount : Nat)
  /-- `DelegateStake`, `AgentPledge`. -/
  | delegateStake (stakeAddr beneficiary bid stakeHeight : Nat)
  /-- `CancelDelegateStake`, `AgentCancelPledge`. -/
  | cancelDelegateStake (stakeAddr beneficiary amount bid : Nat)
  /-- `StakeForQuota` (`none`) and `StakeWithCallback` (with the lock time asked for). -/
  | stakeV3 (beneficiary : Nat) (stakeHeight : Option Nat)
  /-- `CancelQuotaStaking` and `CancelStakeWithCallback`: they differ in the data of the send only. -/
  | cancelStakeV3 (id : Nat)

/-- `DoSend`: contracts_quota.go:41-52, 135-148, 219-233, 303-316, 397-415, 492-502. -/
def doSend (lock token amount : Nat) : Method → Bool
  | .stake _ => decide (token = vite) && decide (amount ≥ stakeAmountMin)
  | .cancelStake _ n => decide (amount = 0) && decide (n ≥ stakeAmountMin)
  | .delegateStake _ _ _ h =>
    decide (token = vite) && decide (amount ≥ stakeAmountMin) && decide (lock ≤ h) && decide (h ≤ stakeHeightMax)
  | .cancelDelegateStake _ _ n _ => decide (amount = 0) && decide (n ≥ stakeAmountMin)
  | .stakeV3 _ h =>
    decide (token = vite) && decide (amount ≥ stakeAmountMin) &&
      match h with
      | none => true
      | some h => decide (lock ≤ h) && decide (h ≤ stakeHeightMax)
  | .cancelStakeV3 _ => decide (amount = 0)

/-- Writing a table entry. -/
def upd {β : Type} (f : Nat → β) (k : Nat) (v : β) : Nat → β := fun x => if x = k then v else f x

/-- The new storage and the sends. -/
structure Result where
  st : State
  sends : List Request

/-- Adding to the beneficiary's amount: contracts_quota.go:66-78, 252-264, 437-449. A missing entry is zero. -/
def addBeneficial (st : State) (b n : Nat) : Nat → Nat := upd st.beneficial b (st.beneficial b + n)

/-- `MethodStake.DoReceive`: contracts_quota.go:53-80. -/
def stake (c : Ctx) (st : State) (sender amount beneficiary : Nat) : Result :=
  let old := findRec sender beneficiary none 0 st.recs
  let index := match old with
    | some r => r.index
    | none => nextIndex sender c.height st.recs
  let before := match old with
    | some r => r.amount
    | none => 0
  { st := { st with
      recs := putRec ⟨sender, index, before + amount, c.now + c.lock, beneficiary, none, 0, none⟩ st.recs
      beneficial := addBeneficial st beneficiary amount
      seen := c.height }
    sends := [] }

/-- `MethodDelegateStake.DoReceive`: contracts_quota.go:234-279. -/
def delegateStake (c : Ctx) (st : State) (sender amount stakeAddr beneficiary bid stakeHeight : Nat) (fee : Option Nat) :
    Result :=
  let old := findRec stakeAddr beneficiary (some sender) bid st.recs
  let index := match old with
    | some r => r.index
    | none => nextIndex stakeAddr c.height st.recs
  let before := match old with
    | some r => r.amount
    | none => 0
  let expiry := match old with
    | some r => r.expiry
    | none => 0
  { st := { st with
      recs := putRec ⟨stakeAddr, index, before + amount, max expiry (c.now + stakeHeight), beneficiary, some sender, bid, none⟩ st.recs
      beneficial := addBeneficial st beneficiary amount
      seen := c.height }
    sends := [⟨.call, sender, vite, 0, fee⟩] }

/-- The common part of `MethodCancelStake.DoReceive` and `MethodCancelDelegateStake.DoReceive` once the record is found:
contracts_quota.go:154-195, 322-365. -/
def takeOut (c : Ctx) (st : State) (sender : Nat) (r : Rec) (n : Nat) (fee : Option Nat) : Option Result :=
  if r.expiry > c.now ∨ r.amount < n ∨ r.id ≠ none then none
  else if r.amount - n ≠ 0 ∧ r.amount - n < stakeAmountMin then none
  else if st.beneficial r.beneficiary < n then none
  else some
    { st := { st with
        recs := if r.amount - n = 0 then delRec r.key st.recs else putRec { r with amount := r.amount - n } st.recs
        beneficial := upd st.beneficial r.beneficiary (st.beneficial r.beneficiary - n)
        seen := c.height }
      sends := [⟨.call, sender, vite, n, fee⟩] }

/-- `MethodCancelStake.DoReceive`: contracts_quota.go:150-195. -/
def cancelStake (c : Ctx) (st : State) (sender beneficiary n : Nat) (fee : Option Nat) : Option Result :=
  (findRec sender beneficiary none 0 st.recs).bind (fun r => takeOut c st sender r n fee)

/-- `MethodCancelDelegateStake.DoReceive`: contracts_quota.go:318-366. -/
def cancelDelegateStake (c : Ctx) (st : State) (sender stakeAddr beneficiary n bid : Nat) (fee : Option Nat) :
    Option Result :=
  (findRec stakeAddr beneficiary (some sender) bid st.recs).bind (fun r => takeOut c st sender r n fee)

/-- `MethodStakeV3.DoReceive`: contracts_quota.go:416-463. -/
def stakeV3 (c : Ctx) (st : State) (sender amount beneficiary : Nat) (stakeHeight : Option Nat) (fee : Option Nat) :
    Result :=
  let index := nextIndex sender c.height st.recs
  { st :=
      { recs := putRec ⟨sender, index, amount, c.now + stakeHeight.getD c.lock, beneficiary, none, 0, some c.hash⟩ st.recs
        ids := upd st.ids c.hash (some (sender, index))
        beneficial := addBeneficial st beneficiary amount
        seen := c.height }
    sends := if stakeHeight.isSome then [⟨.call, sender, vite, 0, fee⟩] else [] }

/-- `MethodCancelStakeV3.DoReceive`: contracts_quota.go:503-541. -/
def cancelStakeV3 (c : Ctx) (st : State) (sender id : Nat) (fee : Option Nat) : Option Result :=
  match st.ids id with
  | none => none
  | some k =>
    match getRec k st.recs with
    | none => none
    | some r =>
      if k.1 ≠ sender ∨ r.expiry > c.now then none
      else if st.beneficial r.beneficiary < r.amount then none
      else some
        { st :=
            { recs := delRec k st.recs
              ids := upd st.ids id none
              beneficial := upd st.beneficial r.beneficiary (st.beneficial r.beneficiary - r.amount)
              seen := c.height }
          sends := [⟨.call, sender, vite, r.amount, fee⟩] }

/-- `DoReceive` of a method on a received send: `none` is the error return. `fee` is the caller's answer to the call back
if the caller is a built-in contract. -/
def doReceive (c : Ctx) (st : State) (sender amount : Nat) (fee : Option Nat) : Method → Option Result
  | .stake b => some (stake c st sender amount b)
  | .cancelStake b n => cancelStake c st sender b n fee
  | .delegateStake a b bid h => some (delegateStake c st sender amount a b bid h fee)
  | .cancelDelegateStake a b n bid => cancelDelegateStake c st sender a b n bid fee
  | .stakeV3 b h => some (stakeV3 c st sender amount b h fee)
  | .cancelStakeV3 id => cancelStakeV3 c st sender id fee

/-! ### The contract inside the ledger -/

variable {E : Type}

/-- A step in which the quota contract runs its code: a finished run at its address is the run of one of its methods on a
request that passed `DoSend`, in a block above the contract's last one, and the hash of a send has not been used as a
stake id before. What everybody else does is left open. -/
def Genuine (lock : Nat) (L : Ledger (State × E)) : Step (State × E) → Prop
  | .send _ _ => True
  | .recv i o => ∀ s, L.flight[i]? = some s → s.dest = quotaAddr →
      ∀ data burn sends fee callback, o = .done data burn sends fee callback →
      ∃ c m feeAnswer res, doSend lock s.token s.amount m = true ∧ c.lock = lock ∧ (L.data quotaAddr).1.seen < c.height ∧
        (L.data quotaAddr).1.ids c.hash = none ∧
        doReceive c (L.data quotaAddr).1 s.from_ s.amount feeAnswer m = some res ∧
        data.1 = res.st ∧ sends = res.sends

end Verif.Builtin.Stake

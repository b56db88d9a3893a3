import Verif.Vm.QuotaTables

/-!
# Model of the quota calculation

Source: `/repo/vm/quota/quota.go`, `/repo/vm/quota/params.go`, `/repo/vm/util/quota.go:18-107`.

Simplifications.
* `big.Int` values are natural numbers: a negative stake or difficulty counts as zero in the code too.
* `uint64` sums are natural numbers; `total_fits` and its companions show that the sums of `calcTotal` stay below 2^64.
* The configuration for tests (`isTest`), which replaces the whole calculation by a constant, is not modelled.
* Errors of the database are not modelled.
-/

namespace Verif.Vm.Quota

/-- `quotaForSection`, `sectionLen`, `quotaLimitForBlock`, `outOfQuotaBlockTime`, `qcGap`, `qcDivision`: params.go:11-25. -/
def quotaForSection : Nat := 280
def sectionLen : Nat := 3571
def quotaLimitForBlock : Nat := 1000000
def outOfQuotaBlockTime : Nat := 75
def qcGap : Nat := 21000 * 74
def qcDivision : Nat := 10 ^ 18

/-- `quotaConfigParams`: quota.go:13-20. `qc i` is the entry `i` of the map. -/
structure Config where
  stakes : List Nat
  difficulties : List Nat
  qcMin : Nat
  qcMax : Nat
  qc : Nat → Nat

/-- `InitQuotaConfig`: quota.go:26-58. -/
def mainnet : Config := ⟨stakesMainnet, difficultiesMainnet, 51, 500, fun i => qcMainnet.getD (i - 51) 0⟩
def testnet : Config := ⟨stakesTestnet, difficultiesTestnet, 51, 500, fun i => qcMainnet.getD (i - 51) 0⟩

/-- `getExactIndex`: quota.go:261-266. -/
def getExactIndex (x : Nat) (l : List Nat) (index : Nat) : Nat :=
  if index = 0 ∨ l.getD index 0 ≤ x then index else index - 1

/-- `getIndexInBigIntList`: quota.go:246-259. `fuel` bounds the depth; `right - left` is enough since every call shrinks
the interval. -/
def getIndex (x : Nat) (l : List Nat) : Nat → Nat → Nat → Nat
  | 0, left, _ => getExactIndex x l left
  | fuel + 1, left, right =>
    if left = right then getExactIndex x l left
    else
      let mid := (left + right + 1) / 2
      if l.getD mid 0 = x then mid
      else if l.getD mid 0 > x then getIndex x l fuel left (mid - 1)
      else getIndex x l fuel mid right

/-- The search as it is called: quota.go:212, 220, 228. -/
def indexOf (x : Nat) (l : List Nat) : Nat := getIndex x l sectionLen 0 sectionLen

/-- `calcQuotaByIndex`: quota.go:231-236. -/
def calcQuotaByIndex (index : Nat) : Nat := if index ≤ sectionLen then index * quotaForSection else 0

/-- `getIndexByQuota`: quota.go:238-244; `none` is the error. -/
def getIndexByQuota (q : Nat) : Option Nat :=
  let index := (q + quotaForSection - 1) / quotaForSection
  if index > sectionLen ∨ index * quotaForSection < q then none else some index

/-- `CalcQc`: quota.go:351-363. `dex` is `upgrade.IsDexUpgrade`, `globalQuota` the quota used by everybody in the last 75
snapshots. The answer is the ratio and whether there is congestion. -/
def calcQc (cfg : Config) (dex : Bool) (globalQuota : Nat) : Nat × Bool :=
  if dex = false then (0, false)
  else
    let i := (globalQuota + qcGap - 1) / qcGap
    if i < cfg.qcMin then (qcDivision, false)
    else if i ≥ cfg.qcMax then (cfg.qc cfg.qcMax, true)
    else (cfg.qc i, true)

/-- `calcStakeParam`: quota.go:341-348. -/
def calcStakeParam (qc : Nat × Bool) (param : Nat) : Nat := if qc.2 then param * qc.1 / qcDivision else param

/-- `calcStakeQuota`: quota.go:207-213. -/
def calcStakeQuota (cfg : Config) (qc : Nat × Bool) (stake : Nat) : Nat :=
  if stake = 0 then 0 else calcQuotaByIndex (indexOf (calcStakeParam qc stake) cfg.stakes)

/-- `calcPoWQuota`: quota.go:223-229; `calcPoWQuotaByQc`: quota.go:215-221. -/
def calcPoWQuota (cfg : Config) (qc : Nat × Bool) (difficulty : Nat) : Nat :=
  if difficulty = 0 then 0 else calcQuotaByIndex (indexOf (calcStakeParam qc difficulty) cfg.difficulties)

/-- `CalcStakeAmountByQuota`: quota.go:297-305; `none` is the error. -/
def calcStakeAmountByQuota (cfg : Config) (q : Nat) : Option Nat :=
  if q > sectionLen * quotaForSection then none
  else if q = 0 then some 0
  else some (cfg.stakes.getD ((q + quotaForSection - 1) / quotaForSection) 0)

/-- The loop of `calcStakeTargetParam`: quota.go:318-325, at most `fuel` rounds; `none` is "still running". -/
def targetLoop (qc : Nat × Bool) (target : Nat) : Nat → Nat → Option Nat
  | 0, _ => none
  | fuel + 1, n => if calcStakeParam qc n ≥ target then some n else targetLoop qc target fuel (n + 1)

/-- `calcStakeTargetParamByQc`, `calcStakeTargetParam`: quota.go:307-330, with a bound on the loop; `none` is an error. -/
def calcTarget (fuel : Nat) (qc : Nat × Bool) (target : Nat) : Option Nat :=
  if qc.2 = false then some target
  else (targetLoop qc target fuel (target * qcDivision / qc.1)).bind (fun n => if n < 2 ^ 256 then some n else none)

/-- `CalcPoWDifficulty`: quota.go:280-294; `current` is the quota the account has without PoW. -/
def calcPoWDifficulty (fuel : Nat) (cfg : Config) (qc : Nat × Bool) (required current : Nat) : Option Nat :=
  if required > quotaLimitForBlock then none
  else if current ≥ required then some 0
  else (getIndexByQuota required).bind (fun i => calcTarget fuel qc (cfg.difficulties.getD i 0))

/-- `types.QuotaInfo`: common/types/quota.go: per snapshot: number of blocks, stake
quota used, all quota used (with PoW). -/
structure Info where
  blockCount : Nat
  quotaTotal : Nat
  quotaUsedTotal : Nat
  deriving DecidableEq, Repr

/-- One round of the loop of `calcQuotaTotal`: quota.go:168-177. -/
def accumulate (stakeQuota : Nat) (have_ : Nat) (used : Nat) : Nat := have_ + stakeQuota - used

/-- The stake quota left after the confirmed snapshots of the window: quota.go:163-178. -/
def confirmedQuota (stakeQuota : Nat) (used : List Nat) : Nat := used.foldl (accumulate stakeQuota) 0

/-- The answer of `calcQuotaTotal`. -/
structure Answer where
  total : Nat
  stake : Nat
  addition : Nat
  snapshotCurrent : Nat
  avg : Nat
  blocked : Bool
  release : Nat
  /-- `ErrInvalidUnconfirmedQuota` -/
  invalid : Bool
  deriving DecidableEq, Repr

/-- `isBlocked`: quota.go:132-154: `isContract`, and the last block if there is one: whether it is a failed receive and
how often it is confirmed. -/
def isBlocked (isContract : Bool) (last : Option (Bool × Nat)) : Bool × Nat :=
  if isContract = false then (false, 0)
  else match last with
    | none => (false, 0)
    | some (failed, confirmed) =>
      if failed = true ∧ confirmed < outOfQuotaBlockTime then (true, outOfQuotaBlockTime - confirmed) else (false, 0)

/-- The quota before the unconfirmed blocks: quota.go:163-190. -/
def snapshotCurrent (stakeQuota : Nat) (list : List Info) : Nat :=
  if list = [] then 0 else confirmedQuota stakeQuota (list.dropLast.map (·.quotaTotal)) + stakeQuota

/-- The stake quota used by the unconfirmed blocks: quota.go:179-190. -/
def unconfirmedQuota (list : List Info) : Nat := (list.getLast?.map (·.quotaTotal)).getD 0

/-- The mean use of a block: quota.go:191-195. -/
def average (list : List Info) : Nat :=
  if (list.map (·.blockCount)).sum > 0 then (list.map (·.quotaUsedTotal)).sum / (list.map (·.blockCount)).sum else 0

/-- `calcQuotaTotal`: quota.go:155-205. `list` is the window: one entry for each of the last snapshots and one, the last, for
the unconfirmed blocks. -/
def calcTotal (stakeQuota powQuota : Nat) (list : List Info) (blocked : Bool × Nat) : Answer :=
  if snapshotCurrent stakeQuota list < unconfirmedQuota list then
    ⟨0, stakeQuota, 0, snapshotCurrent stakeQuota list, average list, blocked.1, blocked.2, true⟩
  else if blocked.1 then ⟨0, stakeQuota, 0, snapshotCurrent stakeQuota list, average list, blocked.1, blocked.2, false⟩
  else ⟨snapshotCurrent stakeQuota list - unconfirmedQuota list + powQuota, stakeQuota, powQuota,
    snapshotCurrent stakeQuota list, average list, blocked.1, blocked.2, false⟩

/-- What the calculation reads of the database for an account. -/
structure View where
  dex : Bool
  globalQuota : Nat
  isContract : Bool
  /-- the last block: a failed receive? and its confirmations -/
  last : Option (Bool × Nat)
  list : List Info
  /-- the unconfirmed blocks: has it a nonce? -/
  unconfirmed : List Bool

/-- `CanPoW`: quota.go:269-277. -/
def canPoW (v : View) : Bool := v.unconfirmed.all (fun pow => !pow)

/-- `calcQuotaV3`: quota.go:122-131; `none` is `ErrCalcPoWTwice`. -/
def calcQuota (cfg : Config) (v : View) (stake difficulty : Nat) : Option Answer :=
  if difficulty > 0 ∧ canPoW v = false then none
  else
    some (calcTotal (calcStakeQuota cfg (calcQc cfg v.dex v.globalQuota) stake)
      (calcPoWQuota cfg (calcQc cfg v.dex v.globalQuota) difficulty) v.list (isBlocked v.isContract v.last))

/-- `GetQuotaForBlock`: quota.go:96-108: total and the part of PoW. -/
def getQuotaForBlock (cfg : Config) (v : View) (stake difficulty : Nat) : Option (Nat × Nat) :=
  match calcQuota cfg v stake difficulty with
  | none => none
  | some a =>
    if a.invalid then none
    else if a.total > quotaLimitForBlock then
      if a.addition > quotaLimitForBlock then some (quotaLimitForBlock, quotaLimitForBlock)
      else some (quotaLimitForBlock, a.addition)
    else some (a.total, a.addition)

/-- `CheckQuota`: quota.go:111-120. -/
def checkQuota (a : Answer) : Bool × Nat :=
  if a.blocked then (false, a.release) else if a.total ≥ a.avg then (true, 0) else (false, 1)

/-- `CalcBlockQuotaUsed`: quota.go:69-78. -/
def calcBlockQuotaUsed (cfg : Config) (qc : Nat × Bool) (pow : Bool) (used difficulty : Nat) : Nat :=
  if pow = false then used else used - calcPoWQuota cfg qc difficulty

/-- `util.CalcQuotaUsed`: vm/util/quota.go:94-107: stake quota used and all quota used, when the block is not out of
quota. -/
def calcQuotaUsed (total addition left : Nat) : Nat × Nat := (total - left - addition, total - left)

end Verif.Vm.Quota

import Verif.Dex.FundModel
import Verif.Dex.ShareModel
import Verif.Dex.PeriodModel

/-!
# Model of the exchange with periods: time, fee records, dividends, VX locking, mining, stakes

Source: `/repo/vm/contracts/contracts_dex_fund.go`, `dex/fund_dividend.go`, `dex/fund_mine.go`, `dex/fund_settle.go`,
`dex/fund_stake.go`, `dex/fund_finish_pendings.go`, `dex/fund_storage.go`.

The state wraps `Sys` (accounts, orders, matching, settlement). A step is one block received by the fund or the trade
contract. Answers of the quota contract to stake requests are steps of their own.

Simplifications.
* The rules after the Earth upgrade apply, and stakes are those made with a callback and an id.
* The state begins after the first time notice, in a period `n ≥ 1` (before it, `GetTimestampInt64` panics:
  fund_storage.go:2159-2166).
* What a user paid in fees in a period (`UserFees`) is an input of the fee mining job: any list of users and parts.
* How much VX is to be mined in a period (`GetVxToMineByPeriodId` and the rate, fund_mine.go:338-369) is an input of the
  mining jobs.
* `BurnExtraVx`, an operation of the administrator, is left out.
-/

namespace Verif.Dex

/-! ### Small functions on the fund table -/

/-- `StakeForMiningThreshold`, `StakeForVIPAmount`, `StakeForSuperVIPAmount`, `vxMineDust`, `SchedulePeriods`,
`VxLockThreshold`: fund_storage.go:107-113, 237. -/
def miningThreshold : Nat := 134 * 10 ^ 18
def vipAmount : Nat := 10000 * 10 ^ 18
def superVipAmount : Nat := 1000000 * 10 ^ 18
def vxMineDust : Nat := 100 * 10 ^ 18
def schedulePeriods : Nat := 7
def vxLockThreshold : Nat := 10 ^ 18

/-- Whether the fund of an address has an account of the token: `updateFund` fails without it (fund_storage.go:961-982). -/
def hasAcct (a t : Nat) (fs : List Acct) : Bool := fs.any (fun x => decide (x.address = a ∧ x.token = t))

/-- `LockMinedVx`: fund_storage.go:1028-1048. -/
def lockMinedVx (fs : List Acct) (a n : Nat) : List Acct :=
  setAcct { getAcct a vxToken fs with vxLocked := (getAcct a vxToken fs).vxLocked + n } fs

/-- `ScheduleCancelStake`: fund_storage.go:941-946. Its error is not looked at (contracts_dex_fund.go:991), so a missing
account is no change. -/
def scheduleCancel (fs : List Acct) (a n : Nat) : List Acct :=
  if hasAcct a viteToken fs then
    setAcct { getAcct a viteToken fs with cancellingStake := (getAcct a viteToken fs).cancellingStake + n } fs
  else fs

/-- `FinishCancelStake`: fund_storage.go:948-959. -/
def finishCancel (fs : List Acct) (a n : Nat) : Option (List Acct) :=
  if (getAcct a viteToken fs).cancellingStake < n then none
  else some (setAcct { getAcct a viteToken fs with
    cancellingStake := (getAcct a viteToken fs).cancellingStake - n, available := (getAcct a viteToken fs).available + n } fs)

/-- `BatchUpdateFund` for a list of payments (holder, token, amount): fund_storage.go:984-1005. -/
def payAll (fs : List Acct) (l : List (Nat × Nat × Nat)) : List Acct := l.foldl (fun fs x => depositAccount fs x.1 x.2.1 x.2.2) fs

/-! ### Scheduled releases -/

/-- `AddVxUnlock`, `AddCancelStake` on the list of one address: fund_storage.go:2371-2389, 2409-2427. -/
def addEntry (now n : Nat) (h : Hist) : Hist :=
  match h.getLast? with
  | none => [⟨now, n⟩]
  | some e => if e.period = now then h.dropLast ++ [⟨now, e.amount + n⟩] else h ++ [⟨now, n⟩]

/-- The same on the table. -/
def schedule (now a n : Nat) (t : Table Nat Hist) : Table Nat Hist := Table.put a (addEntry now n ((Table.get a t).getD [])) t

/-- The entries that are due at a period: fund_finish_pendings.go:43-50, 95-102. -/
def due (P : Nat) (h : Hist) : Hist := h.takeWhile (fun e => e.period + schedulePeriods ≤ P)

/-- Their sum. -/
def dueSum (P : Nat) (h : Hist) : Nat := ((due P h).map (·.amount)).sum

/-- What is left of a list; an empty one is removed: fund_finish_pendings.go:52-53, fund_storage.go:2391-2397. -/
def keepEntries (a : Nat) (h : Hist) : Table Nat Hist := if h = [] then [] else [(a, h)]

/-- `DoFinishVxUnlock`, `DoFinishCancelMiningStake`: fund_finish_pendings.go:12-61, 64-113. `fin` moves the money of one
address; `none` is its error, which ends the job. -/
def releaseAll (fin : List Acct → Nat → Nat → Option (List Acct)) (P : Nat) :
    Table Nat Hist → List Acct → Option (Table Nat Hist × List Acct)
  | [], fs => some ([], fs)
  | (a, h) :: rest, fs =>
    if due P h = [] then (releaseAll fin P rest fs).map (fun r => ((a, h) :: r.1, r.2))
    else (fin fs a (dueSum P h)).bind (fun fs' =>
      (releaseAll fin P rest fs').map (fun r => (keepEntries a (h.drop (due P h).length) ++ r.1, r.2)))

/-! ### What a mining job takes from the pool -/

/-- `GetVxAmountToMine`: fund_mine.go:305-322. `want` is the planned amount. Amount and rest. -/
def amountToMine (want pool : Nat) : Nat × Nat :=
  if pool - min want pool ≤ vxMineDust then (pool, 0) else (min want pool, pool - min want pool)

/-- The items in turn: fund_mine.go:287-295. -/
def takeItems (unit : Nat) : List Nat → Nat → List Nat × Nat
  | [], left => ([], left)
  | r :: rs, left =>
    let x := takeItems unit rs (left - min left (unit * r))
    (min left (unit * r) :: x.1, x.2)

/-- `GetVxAmountsForEqualItems`: fund_mine.go:271-303. The first item (rate `r0`), the others, and the rest. -/
def amountsForItems (want pool total r0 : Nat) (rates : List Nat) : Nat × List Nat × Nat :=
  let unit := min want pool / total
  let first := min pool (unit * r0)
  let x := takeItems unit rates (pool - first)
  if pool < want ∨ x.2 ≤ vxMineDust then (first + x.2, x.1, 0) else (first, x.1, x.2)

/-- A part of a pot, left out when zero: fund_mine.go:99-117 (a pot that is done is no longer in `feeSumMap`). -/
def Pot.payPart (total part : Nat) (q : Pot) : Pot × Nat := if part = 0 then (q, 0) else q.pay total part

/-- Base fee and invite bonus of a user for one kind of quote token: fund_mine.go:84-118. `total` is the sum of all parts. -/
def payFeeItem (total kind base invite : Nat) : List Pot → List Pot × Nat
  | [] => ([], 0)
  | q :: qs =>
    if q.token = kind then
      let r1 := q.payPart total base
      let r2 := r1.1.payPart total invite
      (r2.1 :: qs, r1.2 + r2.2)
    else
      let r := payFeeItem total kind base invite qs
      (q :: r.1, r.2)

/-- All items of a user: fund_mine.go:81-119. An item is (kind, sum over all users, base fee, invite bonus). -/
def payFeeItems : List (Nat × Nat × Nat × Nat) → List Pot → List Pot × Nat
  | [], pots => (pots, 0)
  | x :: xs, pots =>
    let r := payFeeItem x.2.1 x.1 x.2.2.1 x.2.2.2 pots
    let r' := payFeeItems xs r.1
    (r'.1, r.2 + r'.2)

/-- All users: fund_mine.go:52-133. The pots and what each user mined. -/
def mineForFees : List (Nat × List (Nat × Nat × Nat × Nat)) → List Pot → List Pot × List (Nat × Nat)
  | [], pots => (pots, [])
  | u :: us, pots =>
    let r := payFeeItems u.2 pots
    let r' := mineForFees us r.1
    (r'.1, (u.1, r.2) :: r'.2)

/-! ### Stakes -/

/-- `StakeForMining`, `StakeForVIP`, `StakeForSuperVIP`, `StakeForPrincipalSuperVIP`. -/
inductive Kind
  | mining
  | vip
  | superVip
  | principal (p : Nat)
  deriving DecidableEq, Repr

/-- `dexproto.DelegateStakeInfo`. -/
structure Deleg where
  kind : Kind
  owner : Nat
  amount : Nat
  confirmed : Bool
  deriving DecidableEq, Repr

/-- Whose VIP record a stake is for (`true` is super VIP): contracts_dex_fund.go:847-884. -/
def Deleg.vipKey (d : Deleg) : Option (Bool × Nat) :=
  match d.kind with
  | .mining => none
  | .vip => some (false, d.owner)
  | .superVip => some (true, d.owner)
  | .principal p => some (true, p)

/-- The amount of a VIP stake is fixed: contracts_dex_fund.go:492, 536, 580. -/
def Kind.amountOk (k : Kind) (n : Nat) : Bool :=
  match k with
  | .mining => decide (miningThreshold ≤ n)
  | .vip => decide (n = vipAmount)
  | .superVip => decide (n = superVipAmount)
  | .principal _ => decide (n = superVipAmount)

/-- The check of the returned amount when a stake failed; `true` is the error: contracts_dex_fund.go:888-901. The check for
mining stakes is inverted. -/
def Deleg.refused (d : Deleg) (value : Nat) : Bool :=
  match d.kind with
  | .mining => decide (d.amount = value)
  | .vip => decide (vipAmount ≠ value)
  | .superVip => decide (superVipAmount ≠ value)
  | .principal _ => decide (superVipAmount ≠ value)

/-! ### The state -/

/-- The periodical jobs: fund_storage.go:316-324. -/
inductive Biz
  | dividend
  | operator
  | mineFee
  | mineStaking
  | mineMaker
  | finishUnlock
  | finishCancel
  deriving DecidableEq, Repr

structure OpFee where
  period : Nat
  owner : Nat
  token : Nat
  amount : Nat
  deriving DecidableEq, Repr

/-- The exchange with its periods. `opFees` are the operators' fees (`OperatorFeesByPeriod`), one entry per settlement.
`unlocks` and `cancels` are the scheduled releases, `stakes` the stakes by id, `vips` the ids of the stakes behind a VIP
record, `staked` is `GetMiningStakedV2Amount`, `jobs` is `GetLastJobPeriodIdByBizType`. `received` and `sent` are what blocks
brought to the fund contract and took from it, per token: their difference is its balance.

The last four fields are history, read by no step: the VX locked and the amounts staked at the end of past periods, and the
requests to unlock and to cancel, with period and amount. -/
structure Ex where
  core : Sys
  now : Nat
  fees : Table Nat FeeRec
  lastRoll : Nat
  opFees : List OpFee
  vx : Table Nat Hist
  vxSum : Hist
  unlocks : Table Nat Hist
  auto : Nat → Bool
  stk : Table Nat Hist
  stkSum : Hist
  staked : Nat → Nat
  cancels : Table Nat Hist
  stakes : Table Nat Deleg
  vips : Table (Bool × Nat) (List Nat)
  vxPool : Nat
  maker : Table Nat Nat
  settledMaker : Nat
  settledPage : Nat
  jobs : Biz → Nat
  received : Nat → Nat
  sent : Nat → Nat
  pastVx : Nat → Nat → Nat
  pastStk : Nat → Nat → Nat
  unlockLog : List (Nat × Nat × Nat)
  cancelLog : List (Nat × Nat × Nat)

/-- After the first time notice, in period `n`: fund_storage.go:2168-2189. -/
def Ex.init (n : Nat) : Ex where
  core := Sys.init
  now := n
  fees := [(n, ⟨[⟨viteToken, 0, false⟩], false, false, 0⟩)]
  lastRoll := n
  opFees := []
  vx := []
  vxSum := []
  unlocks := []
  auto := fun _ => false
  stk := []
  stkSum := []
  staked := fun _ => 0
  cancels := []
  stakes := []
  vips := []
  vxPool := 0
  maker := []
  settledMaker := 0
  settledPage := 0
  jobs := fun _ => 0
  received := fun _ => 0
  sent := fun _ => 0
  pastVx := fun _ _ => 0
  pastStk := fun _ _ => 0
  unlockLog := []
  cancelLog := []

/-- The VX an address has locked: `getUserNewVxAmtWithForkCheck` (fund_settle.go:398-404). -/
def Ex.vxOf (s : Ex) (a : Nat) : Nat := (getAcct a vxToken s.core.funds).vxLocked

/-! ### Steps -/

/-- A fee is added to the record of the current period. `none` is the panic of the roll. -/
def Ex.addFee (s : Ex) (t n : Nat) : Option Ex :=
  (Verif.Dex.addFee s.fees s.lastRoll s.now t n).map (fun r => { s with fees := r.1, lastRoll := r.2 })

/-- `DoSettleVxFunds` for the account as it is now: fund_settle.go:308-396. -/
def Ex.settleVx (s : Ex) (a : Nat) (chg : Int) : Option Ex :=
  (settleShares vxDividendThreshold s.now s.vx s.vxSum a chg (s.vxOf a)).map (fun r => { s with vx := r.1, vxSum := r.2 })

/-- `OnVxMined`: fund_settle.go:292-305. The accounts' own counter `deposited` counts it as coming in. -/
def Ex.onVxMined (s : Ex) (a n : Nat) : Option Ex :=
  if s.auto a then
    Ex.settleVx { s with core := { s.core with funds := lockMinedVx s.core.funds a n, deposited := bump s.core.deposited vxToken n } } a n
  else some { s with core := { s.core with funds := depositAccount s.core.funds a vxToken n, deposited := bump s.core.deposited vxToken n } }

/-- `OnVxMined` in turn, for positive amounts: fund_mine.go:120-125, 199-204. -/
def Ex.mineTo (s : Ex) : List (Nat × Nat) → Option Ex
  | [] => some s
  | x :: xs => if x.2 = 0 then s.mineTo xs else (s.onVxMined x.1 x.2).bind (fun s' => s'.mineTo xs)

/-- The blocks that the contracts of `Sys` receive: contracts_dex_fund.go:274-298 for the fees of a settlement. `owner` is the
owner of the market at the time of settlement. Locking of VX is below. -/
def Ex.coreStep (f : Forks) (mk : Nat → Option MarketInfo) (s : Ex) (owner : Nat) : Op → Ex
  | .lockVx _ _ => s
  | .unlockVx _ _ => s
  | .finishUnlock _ _ => s
  | .deposit a t n => { s with core := step f mk s.core (.deposit a t n), received := bump s.received t n }
  | .withdraw a t n =>
    match reduceAccount s.core.funds a t n with
    | none => s
    | some _ => { s with core := step f mk s.core (.withdraw a t n), sent := bump s.sent t n }
  | .payFee a n =>
    match reduceAccount s.core.funds a viteToken n with
    | none => s
    | some _ => (Ex.addFee { s with core := step f mk s.core (.payFee a n) } viteToken n).getD s
  | .settle i =>
    match s.core.msgs[i]? with
    | none => s
    | some m =>
      if m.fees = [] then { s with core := step f mk s.core (.settle i) }
      else
        (Ex.addFee { s with
          core := step f mk s.core (.settle i)
          opFees := s.opFees ++ [⟨s.now, owner, m.market.quoteToken, operatorFees m.fees⟩] } m.market.quoteToken (baseFees m.fees)).getD s
  | .transfer a b t n => { s with core := step f mk s.core (.transfer a b t n) }
  | .place p => { s with core := step f mk s.core (.place p) }
  | .receiveOrder i now => { s with core := step f mk s.core (.receiveOrder i now) }
  | .placeFailed i => { s with core := step f mk s.core (.placeFailed i) }
  | .cancel o id => { s with core := step f mk s.core (.cancel o id) }
  | .clearExpired now ids => { s with core := step f mk s.core (.clearExpired now ids) }

/-- `SetDexTimestamp` when the period changes: fund_storage.go:2168-2189. -/
def Ex.tick (s : Ex) (n : Nat) : Ex :=
  if n ≤ s.now then s
  else ((rollPeriod s.fees s.lastRoll n).map (fun r => { s with
    fees := r.1, lastRoll := r.2, now := n
    pastVx := fun p a => if s.now ≤ p then s.vxOf a else s.pastVx p a
    pastStk := fun p a => if s.now ≤ p then s.staked a else s.pastStk p a })).getD s

/-- `LockVx`: contracts_dex_fund.go:1740-1770. The error of the settlement is not looked at. -/
def Ex.lockVx (s : Ex) (a n : Nat) : Ex :=
  if n < vxLockThreshold then s
  else match lockVxForDividend s.core.funds a n with
    | none => s
    | some fs =>
      let s' := { s with core := { s.core with funds := fs } }
      (s'.settleVx a n).getD s'

/-- `UnlockVx`: contracts_dex_fund.go:1740-1770. -/
def Ex.unlockVx (s : Ex) (a n : Nat) : Ex :=
  if n < vxLockThreshold then s
  else match scheduleVxUnlock s.core.funds a n with
    | none => s
    | some fs =>
      let s' := { s with
        core := { s.core with funds := fs }, unlocks := schedule s.now a n s.unlocks
        unlockLog := s.unlockLog ++ [(a, s.now, n)] }
      (s'.settleVx a (-(n : Int))).getD s'

/-- `MethodDexFundStakeForMining`, `...VIP`, `...SuperVIP`, `...PrincipalSuperVIP`: contracts_dex_fund.go:423-600,
fund_stake.go:16-39, 96-133. The VITE goes to the quota contract. Ids are hashes of send blocks: new ones. -/
def Ex.stake (s : Ex) (id a : Nat) (k : Kind) (n : Nat) : Ex :=
  let d : Deleg := ⟨k, a, n, false⟩
  if k.amountOk n = false ∨ (Table.get id s.stakes).isSome = true then s
  else if (d.vipKey.bind (fun key => Table.get key s.vips)).isSome = true then s
  else match reduceAccount s.core.funds a viteToken n with
    | none => s
    | some fs => { s with
      core := { s.core with funds := fs, withdrawn := bump s.core.withdrawn viteToken n }
      sent := bump s.sent viteToken n
      stakes := Table.put id d s.stakes }

/-- `doChangeMiningStakedAmount`: fund_stake.go:179-269. -/
def Ex.settleStk (s : Ex) (a : Nat) (chg : Int) (new : Nat) : Option Ex :=
  (settleShares miningThreshold s.now s.stk s.stkSum a chg new).map (fun r => { s with
    stk := r.1, stkSum := r.2, staked := fun b => if b = a then new else s.staked b })

/-- The VIP record after a stake succeeded: contracts_dex_fund.go:832-881. A second stake for the same record is kept and
cancelled by a message. -/
def addVip (id : Nat) (d : Deleg) (vips : Table (Bool × Nat) (List Nat)) : Table (Bool × Nat) (List Nat) :=
  match d.vipKey with
  | none => vips
  | some key => Table.put key ((Table.get key vips).getD [] ++ [id]) vips

/-- The quota contract took the stake: contracts_dex_fund.go:823-886. -/
def Ex.stakeOk (s : Ex) (id : Nat) : Ex :=
  match Table.get id s.stakes with
  | none => s
  | some d =>
    if d.confirmed then s
    else
      let s' := { s with stakes := Table.put id { d with confirmed := true } s.stakes, vips := addVip id d s.vips }
      if d.kind = .mining then (s'.settleStk d.owner d.amount (s.staked d.owner + d.amount)).getD s else s'

/-- The quota contract refused the stake and sent `value` back: contracts_dex_fund.go:887-904. When the exchange refuses the
callback, the value goes back to the quota contract. -/
def Ex.stakeFail (s : Ex) (id value : Nat) : Ex :=
  match Table.get id s.stakes with
  | none => s
  | some d =>
    if d.confirmed ∨ d.refused value = true then s
    else { s with
      core := { s.core with funds := depositAccount s.core.funds d.owner viteToken value, deposited := bump s.core.deposited viteToken value }
      received := bump s.received viteToken value
      stakes := Table.del id s.stakes }

/-- The VIP record after a stake was cancelled: contracts_dex_fund.go:948-984. `none` is an error or a panic. -/
def dropVip (id : Nat) (d : Deleg) (vips : Table (Bool × Nat) (List Nat)) : Option (Table (Bool × Nat) (List Nat)) :=
  match d.vipKey with
  | none => some vips
  | some key =>
    match Table.get key vips with
    | none => none
    | some ids =>
      if ids.length ≤ 1 then some (Table.del key vips)
      else if id ∈ ids then some (Table.put key (ids.erase id) vips) else none

/-- The quota contract gave a stake back: contracts_dex_fund.go:930-1003. -/
def Ex.cancelOk (s : Ex) (id : Nat) : Ex :=
  match Table.get id s.stakes with
  | none => s
  | some d =>
    if d.confirmed = false then s
    else
      match dropVip id d s.vips with
      | none => s
      | some vips =>
        let s1 := { s with
          vips := vips, stakes := Table.del id s.stakes, received := bump s.received viteToken d.amount
          core := { s.core with deposited := bump s.core.deposited viteToken d.amount } }
        if d.kind = .mining then
          if s.staked d.owner < d.amount then s
          else
            let s2 := { s1 with
              core := { s1.core with funds := scheduleCancel s1.core.funds d.owner d.amount }
              cancels := schedule s.now d.owner d.amount s.cancels
              cancelLog := s.cancelLog ++ [(d.owner, s.now, d.amount)] }
            (s2.settleStk d.owner (-(d.amount : Int)) (s.staked d.owner - d.amount)).getD s
        else { s1 with core := { s1.core with funds := depositAccount s1.core.funds d.owner viteToken d.amount } }

/-- `EndorseVx`: contracts_dex_fund.go:1515-1520. -/
def Ex.endorse (s : Ex) (n : Nat) : Ex := { s with vxPool := s.vxPool + n, received := bump s.received vxToken n }

/-- The settlement of maker mining, one action after the other: contracts_dex_fund.go:1580-1596. The state and what is left
in the pool. -/
def Ex.payMakers (s : Ex) (pool : Nat) : List (Nat × Nat) → Option (Ex × Nat)
  | [] => some (s, pool)
  | x :: xs => (s.onVxMined x.1 (min x.2 pool)).bind (fun s' =>
      if pool - min x.2 pool = 0 then some (s', 0) else s'.payMakers (pool - min x.2 pool) xs)

/-- `SettleMakerMinedVx`: contracts_dex_fund.go:1555-1611. -/
def Ex.settleMaker (s : Ex) (P page : Nat) (acts : List (Nat × Nat)) : Ex :=
  if acts = [] ∨ (0 < s.settledMaker ∧ P ≠ s.settledMaker + 1) ∨ (0 < s.settledPage ∧ page ≠ s.settledPage + 1) then s
  else
    let pool := (Table.get P s.maker).getD 0
    if pool = 0 then s
    else match s.payMakers pool acts with
      | none => s
      | some r =>
        if r.2 = 0 then { r.1 with maker := Table.del P s.maker, settledMaker := P, settledPage := 0 }
        else { r.1 with maker := Table.put P r.2 s.maker, settledPage := page }

/-! ### The jobs -/

/-- When a job may run: contracts_dex_fund.go:338-343. -/
def Ex.jobOk (s : Ex) (b : Biz) (P : Nat) : Bool := decide (P < s.now ∧ (s.jobs b = 0 ∨ P = s.jobs b + 1))

/-- `SaveLastJobPeriodIdByBizType`: contracts_dex_fund.go:405. -/
def Ex.jobDone (s : Ex) (b : Biz) (P : Nat) : Ex := { s with jobs := fun b' => if b' = b then P else s.jobs b' }

/-- What is divided: fund_dividend.go:40-58. -/
def Ex.potsOf (s : Ex) (P : Nat) : Table Nat Nat := allPots (notDivided s.fees P) []

/-- `tryBurnVite`: fund_dividend.go:210-235. What is burnt. -/
def burnt (m : Table Nat Nat) : Nat := (Table.get viteToken m).getD 0

/-- The pots that are left: fund_dividend.go:58-72. -/
def freshPots (m : Table Nat Nat) : List Pot :=
  (if burnt m = 0 then m else Table.del viteToken m).map (fun x => Pot.new x.1 x.2)

/-- `DoFeesDividend`: fund_dividend.go:14-141. The payments are made as the division goes on; they do not change what is
divided. -/
def Ex.dividend (s : Ex) (P : Nat) : Ex :=
  if notDivided s.fees P = [] then s
  else match matchByPeriod s.vxSum P with
    | none => s
    | some (total, sum') =>
      let m := s.potsOf P
      let r := divide vxDividendThreshold P total s.vx (freshPots m)
      { s with
        fees := (notDivided s.fees P).foldl markDivided s.fees
        vx := r.1, vxSum := sum'
        sent := bump s.sent viteToken (burnt m)
        core := { s.core with
          funds := payAll s.core.funds r.2.2
          withdrawn := bump s.core.withdrawn viteToken (burnt m)
          dividendPool := fun t => s.core.dividendPool t - (Table.get t m).getD 0 } }

/-- The operators' fees of a period, as payments. -/
def opPays (P : Nat) (l : List OpFee) : List (Nat × Nat × Nat) :=
  (l.filter (fun x => decide (x.period = P))).map (fun x => (x.owner, x.token, x.amount))

/-- What a list of operators' fees holds of a token. -/
def opSum (t : Nat) (l : List OpFee) : Nat := (l.map (fun x => if x.token = t then x.amount else 0)).sum

/-- `DoOperatorFeesDividend`: fund_dividend.go:143-192. -/
def Ex.payOperators (s : Ex) (P : Nat) : Ex :=
  { s with
    opFees := s.opFees.filter (fun x => decide (x.period ≠ P))
    core := { s.core with
      funds := payAll s.core.funds (opPays P s.opFees)
      operatorPool := fun t => s.core.operatorPool t - opSum t (s.opFees.filter (fun x => decide (x.period = P))) } }

/-- `DoFinishVxUnlock`: fund_finish_pendings.go:12-61. -/
def Ex.finishUnlock (s : Ex) (P : Nat) : Option Ex :=
  (releaseAll finishVxUnlock P s.unlocks s.core.funds).map (fun r => { s with unlocks := r.1, core := { s.core with funds := r.2 } })

/-- `DoFinishCancelMiningStake`: fund_finish_pendings.go:64-113. -/
def Ex.finishCancels (s : Ex) (P : Nat) : Option Ex :=
  (releaseAll finishCancel P s.cancels s.core.funds).map (fun r => { s with cancels := r.1, core := { s.core with funds := r.2 } })

/-- `MineVxForStakingJob`: contracts_dex_fund.go:380-388, fund_mine.go:136-208. -/
def Ex.mineStaking (s : Ex) (P want : Nat) : Option Ex :=
  if s.vxPool = 0 then none
  else match matchByPeriod s.stkSum P with
    | none => some s
    | some (total, sum') =>
      let am := amountToMine want s.vxPool
      let r := divide miningThreshold P total s.stk [Pot.new vxToken am.1]
      Ex.mineTo { s with stk := r.1, stkSum := sum', vxPool := am.2 + (r.2.1.map Pot.left).sum } (r.2.2.map (fun x => (x.1, x.2.2)))

/-- `MineVxForFeeJob`: contracts_dex_fund.go:371-379, fund_mine.go:15-134. Kinds of quote tokens are numbered from zero. -/
def Ex.mineFee (s : Ex) (P want total r0 : Nat) (rates : List Nat) (users : List (Nat × List (Nat × Nat × Nat × Nat))) : Option Ex :=
  if s.vxPool = 0 then none
  else if (Table.get P s.fees).isNone = true then some s
  else
    let am := amountsForItems want s.vxPool total r0 rates
    let r := mineForFees users ((am.1 :: am.2.1).zipIdx.map (fun x => Pot.new x.2 x.1))
    Ex.mineTo { s with fees := markMined (P + 1) P s.fees, vxPool := am.2.2 + (r.1.map Pot.left).sum } r.2

/-- `MineVxForMakerAndMaintainerJob`: contracts_dex_fund.go:389-398, fund_mine.go:210-239. Two items: makers (rate `r0`) and
maintainer. The makers' part is written over what was stored for the period. -/
def Ex.mineMaker (s : Ex) (P want total r0 r1 maintainer : Nat) : Option Ex :=
  if s.vxPool = 0 then none
  else
    let am := amountsForItems want s.vxPool total r0 [r1]
    Ex.mineTo { s with vxPool := am.2.2, maker := if am.1 = 0 then s.maker else Table.put P am.1 s.maker } (am.2.1.map (fun x => (maintainer, x)))

/-- What a job is asked to do. -/
inductive Job
  | dividend
  | operator
  | mineFee (want total r0 : Nat) (rates : List Nat) (users : List (Nat × List (Nat × Nat × Nat × Nat)))
  | mineStaking (want : Nat)
  | mineMaker (want total r0 r1 maintainer : Nat)
  | finishUnlock
  | finishCancel

/-- Its kind. -/
def Job.biz : Job → Biz
  | .dividend => .dividend
  | .operator => .operator
  | .mineFee .. => .mineFee
  | .mineStaking _ => .mineStaking
  | .mineMaker .. => .mineMaker
  | .finishUnlock => .finishUnlock
  | .finishCancel => .finishCancel

/-- The work of a job; `none` is an error. -/
def Ex.work (s : Ex) (P : Nat) : Job → Option Ex
  | .dividend => some (s.dividend P)
  | .operator => some (s.payOperators P)
  | .mineFee want total r0 rates users => s.mineFee P want total r0 rates users
  | .mineStaking want => s.mineStaking P want
  | .mineMaker want total r0 r1 m => s.mineMaker P want total r0 r1 m
  | .finishUnlock => s.finishUnlock P
  | .finishCancel => s.finishCancels P

/-- `TriggerPeriodJob`: contracts_dex_fund.go:325-407. -/
def Ex.job (s : Ex) (j : Job) (P : Nat) : Ex :=
  if s.jobOk j.biz P then ((s.work P j).map (fun s' => s'.jobDone j.biz P)).getD s else s

/-! ### Histories -/

inductive ExOp
  | core (owner : Nat) (op : Op)
  | tick (n : Nat)
  | lockVx (a n : Nat)
  | unlockVx (a n : Nat)
  | setAuto (a : Nat) (b : Bool)
  | stake (id a : Nat) (k : Kind) (n : Nat)
  | stakeOk (id : Nat)
  | stakeFail (id value : Nat)
  | cancelOk (id : Nat)
  | endorse (n : Nat)
  | settleMaker (P page : Nat) (acts : List (Nat × Nat))
  | job (j : Job) (P : Nat)

/-- One received block; a refused one leaves the state as it is. -/
def Ex.step (f : Forks) (mk : Nat → Option MarketInfo) (s : Ex) : ExOp → Ex
  | .core owner op => s.coreStep f mk owner op
  | .tick n => s.tick n
  | .lockVx a n => s.lockVx a n
  | .unlockVx a n => s.unlockVx a n
  -- `SwitchConfig`: contracts_dex_fund.go:1802-1816
  | .setAuto a b => { s with auto := fun x => if x = a then b else s.auto x }
  | .stake id a k n => s.stake id a k n
  | .stakeOk id => s.stakeOk id
  | .stakeFail id value => s.stakeFail id value
  | .cancelOk id => s.cancelOk id
  | .endorse n => s.endorse n
  | .settleMaker P page acts => s.settleMaker P page acts
  | .job j P => s.job j P

def Ex.run (f : Forks) (mk : Nat → Option MarketInfo) (n : Nat) (ops : List ExOp) : Ex := ops.foldl (Ex.step f mk) (Ex.init n)

end Verif.Dex

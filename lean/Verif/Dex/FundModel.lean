import Verif.Dex.MatcherModel

/-!
# Model of the exchange as a whole: the fund contract, the trade contract and the messages between them

Source: `/repo/vm/contracts/contracts_dex_fund.go`, `contracts_dex_trade.go`, `dex/fund_helper.go`, `dex/fund_storage.go`,
`dex/fund_settle.go`, `dex/trade_helper.go`.

The two contracts run on different account chains; they talk by send blocks that the other side receives later. A state
holds both contracts' tables and the messages on their way; a step is one received block. Messages are received in any
order, which covers every schedule of the two chains.

Simplifications.
* The rules after the Earth upgrade (VX balances no longer feed the dividend table on deposit, withdrawal and settlement:
  fund_settle.go:261-288) apply.
* The market table is the same on both sides and does not change during a run: markets are announced to the trade
  contract (`SyncNewMarket`) before any order for them, and tokens and decimals of a market never change. A market that
  is stopped or an agent without a grant makes the placement fail (`RenderOrder`, fund_helper.go:333-339), which is the
  step not being taken.
* A failed step leaves the tables as they were: the VM reverts (vm.go:869-872).
-/

namespace Verif.Dex

/-- `proto.Account` of one address and token (fund table, fund_storage.go:857-884). -/
structure Acct where
  address : Nat
  token : Nat
  available : Nat
  locked : Nat
  vxLocked : Nat
  vxUnlocking : Nat
  cancellingStake : Nat
  deriving DecidableEq, Repr

/-- `ledger.ViteTokenId` and `VxTokenId`: two different tokens. -/
def viteToken : Nat := 0
def vxToken : Nat := 1

/-- `VxDividendThreshold`: fund_storage.go:98 (10 VX with 18 decimals). -/
def vxDividendThreshold : Nat := 10 * 10 ^ 18

/-- `GetAccountByToken` (fund_helper.go:485-497): the first record of the key, or an empty account. -/
def getAcct (a t : Nat) : List Acct → Acct
  | [] => ⟨a, t, 0, 0, 0, 0, 0⟩
  | x :: xs => if x.address = a ∧ x.token = t then x else getAcct a t xs

/-- `SaveFund` of one account, appended when missing (fund_storage.go:1007-1026, fund_settle.go:57-59). -/
def setAcct (v : Acct) : List Acct → List Acct
  | [] => [v]
  | x :: xs => if x.address = v.address ∧ x.token = v.token then v :: xs else x :: setAcct v xs

/-- `DepositAccount`: fund_storage.go:1007-1026. -/
def depositAccount (fs : List Acct) (a t amount : Nat) : List Acct :=
  let x := getAcct a t fs
  setAcct { x with available := x.available + amount } fs

/-- `ReduceAccount`: fund_storage.go:886-896, 961-982. A missing account has nothing available. -/
def reduceAccount (fs : List Acct) (a t amount : Nat) : Option (List Acct) :=
  let x := getAcct a t fs
  if x.available < amount then none else some (setAcct { x with available := x.available - amount } fs)

/-- `LockVxForDividend`: fund_storage.go:898-909. -/
def lockVxForDividend (fs : List Acct) (a amount : Nat) : Option (List Acct) :=
  let x := getAcct a vxToken fs
  if x.available < amount then none
  else some (setAcct { x with available := x.available - amount, vxLocked := x.vxLocked + amount } fs)

/-- `ScheduleVxUnlockForDividend`: fund_storage.go:911-926. -/
def scheduleVxUnlock (fs : List Acct) (a amount : Nat) : Option (List Acct) :=
  let x := getAcct a vxToken fs
  if x.vxLocked < amount then none
  else if x.vxLocked - amount ≠ 0 ∧ x.vxLocked - amount < vxDividendThreshold then none
  else some (setAcct { x with vxLocked := x.vxLocked - amount, vxUnlocking := x.vxUnlocking + amount } fs)

/-- `FinishVxUnlockForDividend`: fund_storage.go:928-939. -/
def finishVxUnlock (fs : List Acct) (a amount : Nat) : Option (List Acct) :=
  let x := getAcct a vxToken fs
  if x.vxUnlocking < amount then none
  else some (setAcct { x with vxUnlocking := x.vxUnlocking - amount, available := x.available + amount } fs)

/-- `SafeSubBigInt`: calculator.go:17-27: what is left, what was taken, whether more was asked than there was. -/
def safeSub (amt sub : Nat) : Nat × Nat × Bool := if sub > amt then (0, amt, true) else (amt - sub, sub, false)

/-- The body of `DoSettleFund` for one account: fund_settle.go:20-71, with the flag telling whether more was to be
taken from `Locked` than it held (logged and clamped after the fee upgrade, a panic before). -/
def settleAccount (x : Acct) (s : Settle) : Acct × Bool :=
  let r1 := safeSub x.locked s.reduceLocked
  let r2 := safeSub r1.1 s.releaseLocked
  ({ x with locked := r2.1, available := x.available + r2.2.1 + s.incAvailable }, r1.2.2 || r2.2.2)

/-- The token a settlement is about: fund_settle.go:21-26. -/
def settleToken (mi : MarketInfo) (s : Settle) : Nat := if s.isTradeToken then mi.tradeToken else mi.quoteToken

/-- `DoSettleFund` over all accounts: contracts_dex_fund.go:286-290. -/
def settleFunds (mi : MarketInfo) : List Settle → List Acct × Bool → List Acct × Bool
  | [], fs => fs
  | s :: ss, fs =>
    let r := settleAccount (getAcct s.address (settleToken mi s) fs.1) s
    settleFunds mi ss (setAcct r.1 fs.1, fs.2 || r.2)

/-- A settlement message from the trade to the fund contract: contracts_dex_trade.go:340-399. -/
structure SettleMsg where
  market : MarketInfo
  funds : List Settle
  fees : List FeeSettle
  deriving Repr

/-- Rounding to `float32`: 24 bits, to nearest, ties to even. The exponent range of `float32` is not left here. -/
def rnd24 (x : ℚ) : ℚ :=
  if x ≤ 0 then 0
  else
    let u : ℚ := (2 : ℚ) ^ (expo x - 23)
    (halfEven (x / u) : ℚ) * u

/-- `MaxTotalFeeRate`: fund_helper.go:562-570. -/
def maxTotalFeeRate (o : Order) : Nat :=
  if o.takerFeeRate + o.takerOperatorFeeRate > o.makerFeeRate + o.makerOperatorFeeRate then
    o.takerFeeRate + o.takerOperatorFeeRate
  else o.makerFeeRate + o.makerOperatorFeeRate

/-- The adjusted fee rate of a market buy order: fund_helper.go:472 (`float32` arithmetic; both operands of the quotient
are small integers and exact). -/
def adjustedFeeRate (r : Nat) : Nat := ⌊rnd24 (rnd24 ((r : ℚ) / (100000 + r)) * 100000)⌋.toNat + 1

/-- `RenderMarketBuyOrderAmountAndFee`: fund_helper.go:469-477. -/
def renderMarketBuy (o : Order) : Order :=
  if maxTotalFeeRate o > 0 then
    let fee := calculateAmountForRate o.amount (adjustedFeeRate (maxTotalFeeRate o))
    { o with lockedBuyFee := fee, amount := subAbs o.amount fee }
  else o

/-- What a user asks for: `ParamPlaceOrder`, with what `RenderOrder` looks up (order id, market, fee rates, time). -/
structure OrderReq where
  id : Nat
  marketId : Nat
  address : Nat
  side : Bool
  type : OType
  price : Nat
  quantity : Nat
  takerFeeRate : Nat
  makerFeeRate : Nat
  takerOperatorFeeRate : Nat
  makerOperatorFeeRate : Nat
  timestamp : Nat
  /-- `GetMarketOrderAmtThreshold` adjusted to the quote token's decimals. -/
  marketOrderAmtThreshold : Nat
  /-- The smallest accepted amount (`GetTradeThreshold`), already in units of the quote token: fund_helper.go:373-381. -/
  minAmount : Nat
  deriving DecidableEq, Repr

/-- The fee allowance of a limit order: fund_helper.go:349-351. -/
def limitFee (o : Order) (amount : Nat) : Nat :=
  if o.side = false then calculateAmountForRate amount (maxTotalFeeRate o) else 0

/-- `RenderOrder` for the amounts: fund_helper.go:340-370; `none` when the amount is too small. -/
def renderOrder (mi : MarketInfo) (p : OrderReq) : Option Order :=
  let o : Order :=
    { id := p.id, marketId := mi.marketId, address := p.address, side := p.side, type := p.type, price := p.price,
      takerFeeRate := p.takerFeeRate, makerFeeRate := p.makerFeeRate,
      takerOperatorFeeRate := p.takerOperatorFeeRate, makerOperatorFeeRate := p.makerOperatorFeeRate,
      quantity := p.quantity, amount := 0, lockedBuyFee := 0, status := .pending, cancelReason := .cancelledByUser,
      executedQuantity := 0, executedAmount := 0, executedBaseFee := 0, executedOperatorFee := 0, refundQuantity := 0,
      timestamp := p.timestamp, marketOrderAmtThreshold := 0 }
  if p.type ≠ .market then
    let amount := calculateRawAmount p.quantity p.price (mi.tradeTokenDecimals - mi.quoteTokenDecimals)
    let fee := limitFee o amount
    if amount + fee < p.minAmount then none
    else some { o with amount := amount, lockedBuyFee := fee }
  else some o

/-- The token an order locks: fund_helper.go:427-436. -/
def lockToken (mi : MarketInfo) (side : Bool) : Nat := if side then mi.tradeToken else mi.quoteToken

/-- What an order other than a market buy locks: fund_helper.go:427-436. -/
def lockAmount (o : Order) : Nat := if o.side then o.quantity else o.amount + o.lockedBuyFee

/-- `CheckAndLockFundForNewOrder` and the market-buy split of `DoPlaceOrder`: fund_helper.go:420-466, 298-304. -/
def lockForOrder (fs : List Acct) (mi : MarketInfo) (p : OrderReq) (o : Order) : Option (List Acct × Order) :=
  let x := getAcct o.address (lockToken mi o.side) fs
  let o := if o.type = .market then { o with marketOrderAmtThreshold := p.marketOrderAmtThreshold } else o
  if o.side = true ∨ o.type ≠ .market then
    if x.available < lockAmount o then none
    else some (setAcct { x with available := x.available - lockAmount o, locked := x.locked + lockAmount o } fs, o)
  else if x.available < p.minAmount then none
  else
    some (setAcct { x with available := 0, locked := x.locked + x.available } fs,
      renderMarketBuy { o with amount := x.available })

/-- The state of the exchange. `markets` is the market table; `orders` are placed orders on their way to the trade
contract, `msgs` settlements on their way back; `events` are the logged order records; `exceeded` is raised when a
settlement asks for more than is locked. `deposited` and `withdrawn` count what came in and went out per token. -/
structure Sys where
  funds : List Acct
  store : List Order
  orders : List Order
  msgs : List SettleMsg
  dividendPool : Nat → Nat
  operatorPool : Nat → Nat
  deposited : Nat → Nat
  withdrawn : Nat → Nat
  events : List Event
  exceeded : Bool

def Sys.init : Sys := ⟨[], [], [], [], fun _ => 0, fun _ => 0, fun _ => 0, fun _ => 0, [], false⟩

/-- One received block. -/
inductive Op
  | deposit (a t amount : Nat)
  | withdraw (a t amount : Nat)
  | transfer (a b t amount : Nat)
  | payFee (a amount : Nat)
  | lockVx (a amount : Nat)
  | unlockVx (a amount : Nat)
  | finishUnlock (a amount : Nat)
  | place (p : OrderReq)
  | receiveOrder (i now : Nat)
  | placeFailed (i : Nat)
  | cancel (operator id : Nat)
  | clearExpired (now : Nat) (ids : List Nat)
  | settle (i : Nat)

/-- Counters per token. -/
def bump (f : Nat → Nat) (t amount : Nat) : Nat → Nat := fun x => if x = t then f x + amount else f x

/-- Fee rates an order can carry: `RenderFeeRate` (fund_helper.go:383-403) starts from `BaseFeeRate = 200` and the
market's operator rates, bounded by `MaxOperatorFeeRate = 200`, and only lowers them. -/
def ratesOkB (p : OrderReq) : Bool :=
  p.takerFeeRate ≤ 200 && p.makerFeeRate ≤ 200 && p.takerOperatorFeeRate ≤ 200 && p.makerOperatorFeeRate ≤ 200

/-- The settlement message of a matcher run: `handleSettleActions`, contracts_dex_trade.go:340-399 (none when empty). -/
def settleMsgOf (mi : MarketInfo) (mc : Mc) : List SettleMsg :=
  if mc.settles = [] ∧ mc.fees = [] then [] else [⟨mi, mc.settles, mc.fees⟩]

/-- `OnPlaceOrderFailed`: contracts_dex_trade.go:264-303: give back what was locked. -/
def placeFailedMsg (mi : MarketInfo) (o : Order) : SettleMsg :=
  ⟨mi, [⟨o.address, o.side, 0, lockAmount o, 0⟩], []⟩

/-- `GetOrderById`: matcher.go:92-104. -/
def orderById (store : List Order) (id : Nat) : Option Order := store.find? (fun o => o.id = id)

/-- The expired orders among the listed ids, in the order listed, repeated when listed twice: trade_helper.go:37-68. -/
def expiredOf (f : Forks) (now : Nat) (store : List Order) (ids : List Nat) : List Order :=
  ids.filterMap (fun i => (orderById store i).bind (filterTimeout f now))

/-- All listed ids are of one market, the first id's: trade_helper.go:46-54. Ids without an order are left out here;
the code reads their market too and refuses the call more often. -/
def oneMarket (store : List Order) (ids : List Nat) : Option Nat :=
  match ids.filterMap (fun i => (orderById store i).map Order.marketId) with
  | [] => none
  | m :: ms => if ms.all (· = m) then some m else none

/-- `SettleFees` (base fees into the dividend pool of the quote token, fund_settle.go:82-128) and `SettleOperatorFees`
(fund_settle.go:223-259), summed over periods and market owners. -/
def baseFees (fs : List FeeSettle) : Nat := (fs.map FeeSettle.baseFee).sum
def operatorFees (fs : List FeeSettle) : Nat := (fs.map FeeSettle.operatorFee).sum

/-- Trade contract, `PlaceOrder`: contracts_dex_trade.go:50-71. -/
def receiveOrder (f : Forks) (mi : MarketInfo) (now : Nat) (s : Sys) (rest : List Order) (o : Order) : Sys :=
  let r := matchOrder f mi now s.store o
  { s with store := r.1.store, orders := rest, msgs := s.msgs ++ settleMsgOf mi r.1, events := s.events ++ r.1.events }

/-- Trade contract, cancel: contracts_dex_trade.go:305-338 (the agent recorded in old orders is left out). -/
def cancelById (mi : MarketInfo) (s : Sys) (o : Order) : Sys :=
  let r := cancelOrder s.store o
  { s with store := r.1.store, msgs := s.msgs ++ settleMsgOf mi r.1, events := s.events ++ r.1.events }

/-- Trade contract, `ClearExpiredOrders`: contracts_dex_trade.go:165-188, trade_helper.go:28-76. -/
def clearExpired (f : Forks) (mi : MarketInfo) (now : Nat) (s : Sys) (ids : List Nat) : Sys :=
  let mc := handleModifiedMakers ⟨s.store, [], [], []⟩ (expiredOf f now s.store ids)
  { s with store := mc.store, msgs := s.msgs ++ settleMsgOf mi mc, events := s.events ++ mc.events }

/-- Fund contract, `SettleOrders`: contracts_dex_fund.go:274-298. -/
def settleMsg (s : Sys) (rest : List SettleMsg) (m : SettleMsg) : Sys :=
  let r := settleFunds m.market m.funds (s.funds, s.exceeded)
  { s with
    funds := r.1, exceeded := r.2, msgs := rest
    dividendPool := bump s.dividendPool m.market.quoteToken (baseFees m.fees)
    operatorPool := bump s.operatorPool m.market.quoteToken (operatorFees m.fees) }

/-- One step. A step that is refused leaves the state as it is. -/
def step (f : Forks) (mk : Nat → Option MarketInfo) (s : Sys) : Op → Sys
  -- `Deposit`, `AgentDeposit`: contracts_dex_fund.go:49-61, 1996-2002
  | .deposit a t amount => { s with funds := depositAccount s.funds a t amount, deposited := bump s.deposited t amount }
  -- `Withdraw`, `AssignedWithdraw`: contracts_dex_fund.go:95-126, 2035-2052
  | .withdraw a t amount =>
    match reduceAccount s.funds a t amount with
    | none => s
    | some fs => { s with funds := fs, withdrawn := bump s.withdrawn t amount }
  -- `Transfer`: contracts_dex_fund.go:1954-1964
  | .transfer a b t amount =>
    match reduceAccount s.funds a t amount with
    | none => s
    | some fs => { s with funds := depositAccount fs b t amount }
  -- the fee for a new market and for an invite code: fund_helper.go:70-84, contracts_dex_fund.go:1423-1426
  | .payFee a amount =>
    match reduceAccount s.funds a viteToken amount with
    | none => s
    | some fs => { s with funds := fs, dividendPool := bump s.dividendPool viteToken amount }
  -- `LockVxForDividend`: contracts_dex_fund.go:1745-1771
  | .lockVx a amount =>
    match lockVxForDividend s.funds a amount with
    | none => s
    | some fs => { s with funds := fs }
  | .unlockVx a amount =>
    match scheduleVxUnlock s.funds a amount with
    | none => s
    | some fs => { s with funds := fs }
  | .finishUnlock a amount =>
    match finishVxUnlock s.funds a amount with
    | none => s
    | some fs => { s with funds := fs }
  -- `PlaceOrder`: contracts_dex_fund.go:225-233, fund_helper.go:270-323; ids are new (C22)
  | .place p =>
    match mk p.marketId with
    | none => s
    | some mi =>
      if p.quantity = 0 ∨ ratesOkB p = false ∨ p.id ∈ (s.store ++ s.orders).map Order.id then s
      else match (renderOrder mi p).bind (lockForOrder s.funds mi p) with
        | none => s
        | some r => { s with funds := r.1, orders := s.orders ++ [r.2] }
  | .receiveOrder i now =>
    match s.orders[i]? with
    | none => s
    | some o =>
      match mk o.marketId with
      | none => s
      | some mi => receiveOrder f mi now s (s.orders.eraseIdx i) o
  -- contracts_dex_trade.go:64-69
  | .placeFailed i =>
    match s.orders[i]? with
    | none => s
    | some o =>
      match mk o.marketId with
      | none => s
      | some mi => { s with orders := s.orders.eraseIdx i, msgs := s.msgs ++ [placeFailedMsg mi o] }
  | .cancel operator id =>
    match orderById s.store id with
    | none => s
    | some o =>
      match mk o.marketId with
      | none => s
      | some mi =>
        if operator = o.address ∧ (o.status = .pending ∨ o.status = .partialExecuted) then cancelById mi s o else s
  | .clearExpired now ids =>
    if f.v11 = true ∨ ids.length > 200 then s else
    match oneMarket s.store ids with
    | none => s
    | some m =>
      match mk m with
      | none => s
      | some mi => clearExpired f mi now s ids
  | .settle i =>
    match s.msgs[i]? with
    | none => s
    | some m => settleMsg s (s.msgs.eraseIdx i) m

/-- A history of the exchange. -/
def run (f : Forks) (mk : Nat → Option MarketInfo) (ops : List Op) : Sys := ops.foldl (step f mk) Sys.init

end Verif.Dex

import Verif.Dex.BigFloat

/-!
# Model of the DEX matching engine

Source: `/repo/vm/contracts/dex/matcher.go`, `calculator.go`, `leveldb_book.go`, `trade_helper.go`.

Conventions and simplifications.
* Big-endian byte strings that hold amounts are natural numbers (`big.Int.SetBytes` / `Bytes`, both canonical).
* An order id is the number its 22 bytes denote; comparing ids as numbers is comparing them byte by byte
  (`Bytes.bcmp_eq_compare`). Market, side, price and time, which the code re-reads from the id
  (`RenderOrderById`, order.go:78-88), are fields; `decompose_compose` (C22) shows re-reading them changes nothing.
* A price is the number of `10^-12` units it denotes; comparing them is comparing the stored bytes (`price_order`, C22).
* Addresses and tokens are opaque numbers. The id of a transaction event (a hash) is left out.
* Upgrade switches are the flags of `Forks`.
-/

namespace Verif.Dex

/-- Order types: order.go:32-38. -/
inductive OType
  | limited | market | postOnly | fillOrKill | immediateOrCancel
  deriving DecidableEq, Repr

/-- Order status: order.go:11-17 (`NewFailed` is never assigned). -/
inductive Status
  | pending | partialExecuted | fullyExecuted | cancelled
  deriving DecidableEq, Repr

/-- Cancel reasons: order.go:19-30. -/
inductive Reason
  | cancelledByUser | cancelledByMarket | cancelledOnTimeout | partialExecutedUserCancelled
  | partialExecutedCancelledByMarket | partialExecutedCancelledOnTimeout | unknownCancelledOnTimeout
  | cancelledByPostOnlyMatched | cancelledByFillOrKillNotFilled | cancelledByExceedMarketOrderAmtThreshold
  deriving DecidableEq, Repr

/-- `Order`: order.go:42-44 and the protobuf record it wraps. `refundQuantity = 0` stands for a nil refund. -/
structure Order where
  id : Nat
  marketId : Nat
  address : Nat
  /-- `false` is buy, `true` is sell. -/
  side : Bool
  type : OType
  price : Nat
  takerFeeRate : Nat
  makerFeeRate : Nat
  takerOperatorFeeRate : Nat
  makerOperatorFeeRate : Nat
  quantity : Nat
  amount : Nat
  lockedBuyFee : Nat
  status : Status
  cancelReason : Reason
  executedQuantity : Nat
  executedAmount : Nat
  executedBaseFee : Nat
  executedOperatorFee : Nat
  refundQuantity : Nat
  timestamp : Nat
  marketOrderAmtThreshold : Nat
  deriving DecidableEq, Repr

/-- The part of `MarketInfo` the matcher uses. -/
structure MarketInfo where
  marketId : Nat
  tradeToken : Nat
  quoteToken : Nat
  tradeTokenDecimals : Int
  quoteTokenDecimals : Int
  deriving DecidableEq, Repr

/-- Upgrades: `IsVersion12Upgrade`, `IsDexFeeUpgrade`, `IsVersion11Upgrade` at the latest snapshot height. -/
structure Forks where
  v12 : Bool
  dexFee : Bool
  v11 : Bool
  deriving DecidableEq, Repr

/-- `OrderTx` (matcher.go:28-34) with the protobuf `Transaction` it wraps. -/
structure Tx where
  takerSide : Bool
  takerId : Nat
  makerId : Nat
  price : Nat
  quantity : Nat
  amount : Nat
  takerAddress : Nat
  makerAddress : Nat
  takerFee : Nat
  takerOperatorFee : Nat
  makerFee : Nat
  makerOperatorFee : Nat
  timestamp : Nat
  deriving DecidableEq, Repr

/-- `maxTxsCountPerTaker`, `timeoutSecond`: matcher.go:14-15. -/
def maxTxsCountPerTaker : Nat := 100
def timeoutSecond : Nat := 30 * 24 * 3600

/-- `SubBigIntAbs`: calculator.go:13-15: the absolute value of the difference. -/
def subAbs (a b : Nat) : Nat := ((a : Int) - (b : Int)).natAbs

/-- `filterTimeout`: matcher.go:660-677; `none` means not timed out. `now` is `GetTradeTimestamp(db)`. -/
def filterTimeout (f : Forks) (now : Nat) (maker : Order) : Option Order :=
  if now = 0 then none
  else if now > maker.timestamp + timeoutSecond ∧ f.v11 = false then
    some { maker with
      cancelReason := match maker.status with
        | .pending => .cancelledOnTimeout
        | .partialExecuted => .partialExecutedCancelledOnTimeout
        | _ => .unknownCancelledOnTimeout
      status := .cancelled }
  else none

/-- `matchPrice`: matcher.go:644-658. -/
def matchPrice (taker maker : Order) : Bool :=
  if taker.type = .market ∨ taker.price = maker.price then true
  else match taker.side with
    | false => decide (taker.price ≥ maker.price)
    | true => decide (taker.price ≤ maker.price)

/-- `calculateOrderAmount`: matcher.go:483-489. -/
def calculateOrderAmount (o : Order) (quantity price : Nat) (d : Int) : Nat :=
  let amount := calculateRawAmount quantity price d
  if o.side = false ∧ o.amount < o.executedAmount + amount then subAbs o.amount o.executedAmount else amount

/-- `calculateExecutedFee`: matcher.go:607-635; `used` is the sum of `usedAmounts`. Result: incFee, newExecutedFee, leaved. -/
def calculateExecutedFee (amount feeRate : Nat) (side : Bool) (origin locked used : Nat) : Nat × Nat × Bool :=
  if feeRate = 0 then (0, origin, true)
  else
    let inc := calculateAmountForRate amount feeRate
    match side with
    | false =>
      if locked ≤ used then (0, origin, false)
      else if locked ≤ used + inc then
        let inc := subAbs locked used
        (inc, origin + inc, false)
      else (inc, origin + inc, true)
    | true => (inc, origin + inc, true)

/-- `CalculateFeeAndExecutedFee`: matcher.go:597-605. Result: incBaseFee, executedBaseFee, incOperatorFee,
executedOperatorFee. -/
def calculateFeeAndExecutedFee (f : Forks) (o : Order) (amount feeRate operatorFeeRate : Nat) : Nat × Nat × Nat × Nat :=
  let b := calculateExecutedFee amount feeRate o.side o.executedBaseFee o.lockedBuyFee
    (o.executedBaseFee + o.executedOperatorFee)
  if b.2.2 then
    let p := calculateExecutedFee amount operatorFeeRate o.side o.executedOperatorFee o.lockedBuyFee
      (b.2.1 + o.executedOperatorFee)
    (b.1, b.2.1, p.1, p.2.1)
  else (b.1, b.2.1, 0, if f.dexFee then o.executedOperatorFee else 0)

/-- `IsOrderDustForPrice`: matcher.go:559-561. -/
def isOrderDustForPrice (o : Order) (quantity : Nat) (d : Int) (price : Nat) : Bool :=
  decide (calculateRawAmountF (subAbs (subAbs o.quantity o.executedQuantity) quantity) price d < 1)

/-- `IsOrderDustForAmount`: matcher.go:563-565. -/
def isOrderDustForAmount (o : Order) (amount : Nat) (d : Int) (price : Nat) : Bool :=
  decide (calculateRawQuantityF (subAbs (subAbs o.amount o.executedAmount) amount) price d < 1)

/-- `IsDustOrder`: matcher.go:534-540. -/
def isDustOrder (o : Order) (quantity : Nat) (d : Int) (executedPrice : Nat) : Bool :=
  if o.type ≠ .market then isOrderDustForPrice o quantity d o.price
  else isOrderDustForPrice o quantity d executedPrice

/-- `IsDustOrderAfterUpgrade12` with `IsDustMarketBuyOrder`: matcher.go:543-557. -/
def isDustOrderAfterUpgrade12 (o : Order) (quantity amount : Nat) (d : Int) (executedPrice : Nat) : Bool :=
  if o.type ≠ .market then isOrderDustForPrice o quantity d o.price
  else if o.side = false then isOrderDustForAmount o amount (-d) executedPrice
  else false

/-- `updateOrderAfterUpgrade12`: matcher.go:504-517. -/
def updateOrderAfterUpgrade12 (o : Order) (quantity amount executedBaseFee executedOperatorFee : Nat) (d : Int)
    (executedPrice : Nat) : Order :=
  { o with
    status := if subAbs o.quantity o.executedQuantity = quantity ∨
        (o.type = .market ∧ o.side = false ∧ subAbs o.amount o.executedAmount = amount) ∨
        isDustOrderAfterUpgrade12 o quantity amount d executedPrice = true
      then .fullyExecuted else .partialExecuted
    executedAmount := o.executedAmount + amount
    executedBaseFee := executedBaseFee
    executedOperatorFee := executedOperatorFee
    executedQuantity := o.executedQuantity + quantity }

/-- `updateOrderBeforeUpgrade12`: matcher.go:518-531: `ExecutedAmount` is raised before it is compared. -/
def updateOrderBeforeUpgrade12 (o : Order) (quantity amount executedBaseFee executedOperatorFee : Nat) (d : Int)
    (executedPrice : Nat) : Order :=
  { o with
    executedAmount := o.executedAmount + amount
    status := if subAbs o.quantity o.executedQuantity = quantity ∨
        (o.type = .market ∧ o.side = false ∧ subAbs o.amount (o.executedAmount + amount) = amount) ∨
        isDustOrder o quantity d executedPrice = true
      then .fullyExecuted else .partialExecuted
    executedBaseFee := executedBaseFee
    executedOperatorFee := executedOperatorFee
    executedQuantity := o.executedQuantity + quantity }

/-- `calculateOrderAndTxAfterUpgrade12` / `calculateOrderAndTxBeforeUpgrade12`: matcher.go:409-481. Result: taker, maker
and transaction. -/
def calculateOrderAndTx (f : Forks) (mi : MarketInfo) (taker maker : Order) : Order × Order × Tx :=
  let d := mi.tradeTokenDecimals - mi.quoteTokenDecimals
  let takerQuantity0 := subAbs taker.quantity taker.executedQuantity
  let takerQuantity :=
    if f.v12 ∧ taker.type = .market ∧ taker.side = false then
      min takerQuantity0 (calculateRawQuantity (subAbs taker.amount taker.executedAmount) maker.price (-d))
    else takerQuantity0
  let executeQuantity := min takerQuantity (subAbs maker.quantity maker.executedQuantity)
  let takerAmount := calculateOrderAmount taker executeQuantity maker.price d
  let makerAmount := calculateOrderAmount maker executeQuantity maker.price d
  let executeAmount := min takerAmount makerAmount
  let tf := calculateFeeAndExecutedFee f taker executeAmount taker.takerFeeRate taker.takerOperatorFeeRate
  let mf := calculateFeeAndExecutedFee f maker executeAmount maker.makerFeeRate maker.makerOperatorFeeRate
  let upd := if f.v12 then updateOrderAfterUpgrade12 else updateOrderBeforeUpgrade12
  (upd taker executeQuantity executeAmount tf.2.1 tf.2.2.2 d maker.price,
   upd maker executeQuantity executeAmount mf.2.1 mf.2.2.2 d maker.price,
   { takerSide := taker.side, takerId := taker.id, makerId := maker.id, price := maker.price,
     quantity := executeQuantity, amount := executeAmount,
     takerAddress := taker.address, makerAddress := maker.address,
     takerFee := tf.1, takerOperatorFee := tf.2.2.1, makerFee := mf.1, makerOperatorFee := mf.2.2.1,
     timestamp := taker.timestamp })

/-- `recursiveTakeOrder`: matcher.go:166-197, over the remaining makers of the iterator. `mods` and `txs` are the
accumulated `modifiedMakers` and `txs`. -/
def takeLoop (f : Forks) (mi : MarketInfo) (now : Nat) :
    Order → List Order → List Order → List Tx → Order × List Order × List Tx
  | taker, [], mods, txs => (taker, mods, txs)
  | taker, maker :: rest, mods, txs =>
    match filterTimeout f now maker with
    | some maker' =>
      if taker.status = .fullyExecuted ∨ taker.status = .cancelled then (taker, mods ++ [maker'], txs)
      else takeLoop f mi now taker rest (mods ++ [maker']) txs
    | none =>
      if matchPrice taker maker then
        if taker.type = .postOnly then
          ({ taker with status := .cancelled, cancelReason := .cancelledByPostOnlyMatched }, mods, txs)
        else
          let r := calculateOrderAndTx f mi taker maker
          let txs := txs ++ [r.2.2]
          let taker :=
            if r.1.status = .partialExecuted ∧ txs.length ≥ maxTxsCountPerTaker then
              { r.1 with status := .cancelled, cancelReason := .partialExecutedCancelledByMarket }
            else r.1
          let mods := mods ++ [r.2.1]
          if taker.status = .fullyExecuted ∨ taker.status = .cancelled then (taker, mods, txs)
          else takeLoop f mi now taker rest mods txs
      else (taker, mods, txs)

/-- One `proto.AccountSettle` of one address. -/
structure Settle where
  address : Nat
  isTradeToken : Bool
  incAvailable : Nat
  releaseLocked : Nat
  reduceLocked : Nat
  deriving DecidableEq, Repr

/-- One `proto.FeeSettle`. -/
structure FeeSettle where
  address : Nat
  baseFee : Nat
  operatorFee : Nat
  deriving DecidableEq, Repr

/-- Logged events. -/
inductive Event
  | newOrder (o : Order)
  | orderUpdate (o : Order)
  | transaction (t : Tx)
  deriving DecidableEq, Repr

/-- The matcher's working state: the contract's order records (sorted by id, as the storage iterator yields them), the
settlements collected so far and the logged events. -/
structure Mc where
  store : List Order
  settles : List Settle
  fees : List FeeSettle
  events : List Event
  deriving Repr

/-- Storage write of one order record (`setValueToDb`) keeping key order. -/
def put (o : Order) : List Order → List Order
  | [] => [o]
  | x :: xs => if o.id < x.id then o :: x :: xs else if o.id = x.id then o :: xs else x :: put o xs

/-- Storage delete of one order record. -/
def del (id : Nat) (l : List Order) : List Order := l.filter (fun x => x.id ≠ id)

/-- `updateFundSettle`: matcher.go:349-368. -/
def updateFundSettle (s : Settle) : List Settle → List Settle
  | [] => [s]
  | x :: xs =>
    if x.address = s.address ∧ x.isTradeToken = s.isTradeToken then
      { x with
        incAvailable := x.incAvailable + s.incAvailable
        releaseLocked := x.releaseLocked + s.releaseLocked
        reduceLocked := x.reduceLocked + s.reduceLocked } :: xs
    else x :: updateFundSettle s xs

/-- `updateFee`: matcher.go:370-384. -/
def updateFee (s : FeeSettle) : List FeeSettle → List FeeSettle
  | [] => [s]
  | x :: xs =>
    if x.address = s.address then
      { x with baseFee := x.baseFee + s.baseFee, operatorFee := x.operatorFee + s.operatorFee } :: xs
    else x :: updateFee s xs

/-- `RefundQuantity` of a finished order: matcher.go:257-263. -/
def refundOf (o : Order) : Nat :=
  match o.side with
  | false => subAbs o.amount o.executedAmount +
      subAbs (subAbs o.lockedBuyFee o.executedBaseFee) o.executedOperatorFee
  | true => subAbs o.quantity o.executedQuantity

/-- `handleRefund`: matcher.go:255-274. -/
def handleRefund (mc : Mc) (o : Order) : Mc × Order :=
  if o.status = .fullyExecuted ∨ o.status = .cancelled then
    let o' := { o with refundQuantity := refundOf o }
    if refundOf o > 0 then
      ({ mc with settles := updateFundSettle ⟨o.address, o.side, 0, refundOf o, 0⟩ mc.settles }, o')
    else (mc, o')
  else (mc, o)

/-- `checkMarketOrderAmtThreshold`: matcher.go:225-241; `some` is the reset taker. -/
def checkMarketOrderAmtThreshold (taker : Order) : Option Order :=
  if taker.type = .market ∧
      taker.executedAmount + taker.executedBaseFee + taker.executedOperatorFee > taker.marketOrderAmtThreshold then
    some { taker with
      status := .cancelled, cancelReason := .cancelledByExceedMarketOrderAmtThreshold
      executedAmount := 0, executedBaseFee := 0, executedOperatorFee := 0, executedQuantity := 0 }
  else none

/-- The orders that do not rest in the book: matcher.go:203-213. -/
def killUnfilled (taker : Order) : Order :=
  if taker.type = .market ∨ taker.type = .immediateOrCancel then
    { taker with status := .cancelled, cancelReason := .cancelledByMarket }
  else if taker.type = .fillOrKill then
    { taker with
      status := .cancelled, cancelReason := .cancelledByFillOrKillNotFilled
      executedAmount := 0, executedBaseFee := 0, executedOperatorFee := 0, executedQuantity := 0 }
  else taker

/-- `handleTakerRes` without the final event: matcher.go:199-221. -/
def settleTaker (mc : Mc) (taker : Order) : Mc × Order :=
  match checkMarketOrderAmtThreshold taker with
  | some t => handleRefund mc t
  | none =>
    if taker.status = .partialExecuted ∨ taker.status = .pending then
      if (killUnfilled taker).status = .cancelled then handleRefund mc (killUnfilled taker)
      else ({ mc with store := put (killUnfilled taker) mc.store }, killUnfilled taker)
    else handleRefund mc taker

/-- `handleTakerRes`: matcher.go:199-223. -/
def handleTakerRes (mc : Mc) (taker : Order) : Mc × Order :=
  let r := settleTaker mc taker
  ({ r.1 with events := r.1.events ++ [.newOrder r.2] }, r.2)

/-- `handleModifiedMakers`: matcher.go:243-253. -/
def handleModifiedMaker (mc : Mc) (maker : Order) : Mc :=
  if maker.status = .fullyExecuted ∨ maker.status = .cancelled then
    let r := handleRefund mc maker
    { r.1 with store := del maker.id r.1.store, events := r.1.events ++ [.orderUpdate r.2] }
  else { mc with store := put maker mc.store, events := mc.events ++ [.orderUpdate maker] }
def handleModifiedMakers (mc : Mc) (makers : List Order) : Mc := makers.foldl handleModifiedMaker mc

/-- The four settlements of `handleTxFundSettle`: matcher.go:312-342: taker in, taker out, maker in, maker out. -/
def txSettles (tx : Tx) : List Settle :=
  match tx.takerSide with
  | false =>
    [⟨tx.takerAddress, true, tx.quantity, 0, 0⟩,
     ⟨tx.takerAddress, false, 0, 0, tx.amount + (tx.takerFee + tx.takerOperatorFee)⟩,
     ⟨tx.makerAddress, false, subAbs tx.amount (tx.makerFee + tx.makerOperatorFee), 0, 0⟩,
     ⟨tx.makerAddress, true, 0, 0, tx.quantity⟩]
  | true =>
    [⟨tx.takerAddress, false, subAbs tx.amount (tx.takerFee + tx.takerOperatorFee), 0, 0⟩,
     ⟨tx.takerAddress, true, 0, 0, tx.quantity⟩,
     ⟨tx.makerAddress, true, tx.quantity, 0, 0⟩,
     ⟨tx.makerAddress, false, 0, 0, tx.amount + (tx.makerFee + tx.makerOperatorFee)⟩]

/-- `handleTxs` with `handleTxFundSettle`: matcher.go:302-347. -/
def handleTx (mc : Mc) (tx : Tx) : Mc :=
  { mc with
    settles := (txSettles tx).foldl (fun l s => updateFundSettle s l) mc.settles
    fees := updateFee ⟨tx.makerAddress, tx.makerFee, tx.makerOperatorFee⟩
      (updateFee ⟨tx.takerAddress, tx.takerFee, tx.takerOperatorFee⟩ mc.fees)
    events := mc.events ++ [.transaction tx] }
def handleTxs (mc : Mc) (txs : List Tx) : Mc := txs.foldl handleTx mc

/-- `getMakerBook` for the other side of the taker: leveldb_book.go:14-20, matcher.go:386-388. The iterator yields the
records whose key starts with market and side, in key order (C22). -/
def makerBook (store : List Order) (marketId : Nat) (side : Bool) : List Order :=
  store.filter (fun o => o.marketId = marketId ∧ o.side = side)

/-- `MatchOrder` / `doMatchTaker`: matcher.go:71-82, 144-163, on a fresh matcher. Writing the trade timestamp
(`TryUpdateTimestamp`, trade_helper.go:123-128) is left to the caller. -/
def matchOrder (f : Forks) (mi : MarketInfo) (now : Nat) (store : List Order) (taker : Order) : Mc × Order :=
  let mc : Mc := ⟨store, [], [], []⟩
  match makerBook store mi.marketId (!taker.side) with
  | [] => handleTakerRes mc taker
  | makers =>
    let r := takeLoop f mi now taker makers [] []
    let h := handleTakerRes mc r.1
    if h.2.cancelReason ≠ .cancelledByFillOrKillNotFilled ∧
        h.2.cancelReason ≠ .cancelledByExceedMarketOrderAmtThreshold then
      (handleTxs (handleModifiedMakers h.1 r.2.1) r.2.2, h.2)
    else h

/-- The cancel reason of a user's cancel: matcher.go:132-137. -/
def userCancelReason (o : Order) : Reason :=
  match o.status with
  | .pending => .cancelledByUser
  | .partialExecuted => .partialExecutedUserCancelled
  | _ => o.cancelReason

/-- `CancelOrderById`: matcher.go:131-142. -/
def cancelOrder (store : List Order) (o : Order) : Mc × Order :=
  let r := handleRefund ⟨store, [], [], []⟩ { o with status := .cancelled, cancelReason := userCancelReason o }
  ({ r.1 with store := del o.id r.1.store, events := r.1.events ++ [.orderUpdate r.2] }, r.2)

end Verif.Dex

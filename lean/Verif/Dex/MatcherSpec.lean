import Verif.Dex.MatcherModel

/-!
# Specification vocabulary for matching (C23–C26)

Nothing here is used by the model: these are the quantities the properties talk about.
-/

namespace Verif.Dex.Spec
open Verif.Dex

/-- What an order still ties up of its owner's money: a buyer's unspent amount plus unspent fee allowance (quote token),
a seller's unsold quantity (trade token). -/
def tiedUp (o : Order) : Nat :=
  if o.side = false then (o.amount - o.executedAmount) + (o.lockedBuyFee - (o.executedBaseFee + o.executedOperatorFee))
  else o.quantity - o.executedQuantity

/-- What the orders in `os` of market `m` tie up for account `a`; `trade` tells the trade token from the quote token.
A sell order ties up the trade token. -/
def tiedUpFor (m a : Nat) (trade : Bool) (os : List Order) : Nat :=
  (os.map (fun o => if o.marketId = m ∧ o.address = a ∧ o.side = trade then tiedUp o else 0)).sum

/-- What the settlements say about account `a` and one token: `g` selects the column. -/
def settled (g : Settle → Nat) (a : Nat) (trade : Bool) (ss : List Settle) : Nat :=
  (ss.map (fun s => if s.address = a ∧ s.isTradeToken = trade then g s else 0)).sum

/-- The same, over all accounts. -/
def settledAll (g : Settle → Nat) (trade : Bool) (ss : List Settle) : Nat :=
  (ss.map (fun s => if s.isTradeToken = trade then g s else 0)).sum

/-- All fees collected. -/
def feesAll (fs : List FeeSettle) : Nat := (fs.map (fun s => s.baseFee + s.operatorFee)).sum

/-- An order has not been filled beyond its size nor charged beyond what its owner locked. -/
structure WithinLimits (o : Order) : Prop where
  quantity : o.executedQuantity ≤ o.quantity
  amount : o.side = false → o.executedAmount ≤ o.amount
  fee : o.side = false → o.executedBaseFee + o.executedOperatorFee ≤ o.lockedBuyFee

/-- Fee rates the exchange can set: at most 0.2% each (fund_helper.go:32-34 and `MaxOperatorFeeRate`). -/
structure RatesOk (o : Order) : Prop where
  tb : o.takerFeeRate ≤ 200
  mb : o.makerFeeRate ≤ 200
  tp : o.takerOperatorFeeRate ≤ 200
  mp : o.makerOperatorFeeRate ≤ 200

/-- An order as it arrives: nothing executed yet. -/
structure Fresh (o : Order) : Prop where
  status : o.status = .pending
  reason : o.cancelReason = .cancelledByUser
  quantity : o.executedQuantity = 0
  amount : o.executedAmount = 0
  base : o.executedBaseFee = 0
  operator : o.executedOperatorFee = 0

/-- The order table: keys in order and distinct, every order within its limits and open. -/
structure BookOk (store : List Order) : Prop where
  sorted : store.Pairwise (fun x y => x.id < y.id)
  limits : ∀ o ∈ store, WithinLimits o
  rates : ∀ o ∈ store, RatesOk o
  isOpen : ∀ o ∈ store, o.status = .pending ∨ o.status = .partialExecuted
  kept : ∀ o ∈ store, o.type = .limited ∨ o.type = .postOnly

end Verif.Dex.Spec

namespace Verif.Dex.Spec
open Verif.Dex

/-- A price the order accepts: market orders take any price, a buyer nothing dearer and a seller nothing cheaper than
its limit. -/
def Accepts (o : Order) (price : Nat) : Prop :=
  o.type = .market ∨ (o.side = false ∧ price ≤ o.price) ∨ (o.side = true ∧ o.price ≤ price)

/-- Completely executed: nothing is left, or what is left is worth less than one unit of the quote token at the order's
own price. -/
def Filled (d : Int) (o : Order) : Prop :=
  o.executedQuantity = o.quantity ∨ calculateRawAmountF (o.quantity - o.executedQuantity) o.price d < 1

/-- The order with this id rests in the table. -/
def Resting (store : List Order) (id : Nat) : Prop := ∃ o ∈ store, o.id = id

end Verif.Dex.Spec

import Verif.Dex.MatcherProps

/-!
# Concrete matches: the hypotheses of the theorems are met, and the claims that fail

The negative results are theorems too: each exhibits a book and a taker.
-/

namespace Verif.Dex
open Spec

deriving instance DecidableEq for Mc

instance (o : Order) : Decidable (WithinLimits o) :=
  decidable_of_iff (o.executedQuantity ≤ o.quantity ∧ (o.side = false → o.executedAmount ≤ o.amount) ∧
    (o.side = false → o.executedBaseFee + o.executedOperatorFee ≤ o.lockedBuyFee))
    ⟨fun ⟨a, b, c⟩ => ⟨a, b, c⟩, fun ⟨a, b, c⟩ => ⟨a, b, c⟩⟩

instance (o : Order) : Decidable (RatesOk o) :=
  decidable_of_iff (o.takerFeeRate ≤ 200 ∧ o.makerFeeRate ≤ 200 ∧ o.takerOperatorFeeRate ≤ 200 ∧ o.makerOperatorFeeRate ≤ 200)
    ⟨fun ⟨a, b, c, d⟩ => ⟨a, b, c, d⟩, fun ⟨a, b, c, d⟩ => ⟨a, b, c, d⟩⟩

instance (o : Order) : Decidable (Fresh o) :=
  decidable_of_iff (o.status = .pending ∧ o.cancelReason = .cancelledByUser ∧ o.executedQuantity = 0 ∧
      o.executedAmount = 0 ∧ o.executedBaseFee = 0 ∧ o.executedOperatorFee = 0)
    ⟨fun ⟨a, b, c, d, e, f⟩ => ⟨a, b, c, d, e, f⟩, fun ⟨a, b, c, d, e, f⟩ => ⟨a, b, c, d, e, f⟩⟩

instance (l : List Order) : Decidable (BookOk l) :=
  decidable_of_iff (l.Pairwise (fun x y => x.id < y.id) ∧ (∀ o ∈ l, WithinLimits o) ∧ (∀ o ∈ l, RatesOk o) ∧
      (∀ o ∈ l, o.status = .pending ∨ o.status = .partialExecuted) ∧ (∀ o ∈ l, o.type = .limited ∨ o.type = .postOnly))
    ⟨fun ⟨a, b, c, d, e⟩ => ⟨a, b, c, d, e⟩, fun ⟨a, b, c, d, e⟩ => ⟨a, b, c, d, e⟩⟩

instance (l : List Order) (i : Nat) : Decidable (Resting l i) := by unfold Resting; infer_instance

/-- A fresh order without fees. -/
def exOrder (id : Nat) (addr : Nat) (side : Bool) (ty : OType) (price quantity amount : Nat) : Order :=
  { id := id, marketId := 1, address := addr, side := side, type := ty, price := price,
    takerFeeRate := 0, makerFeeRate := 0, takerOperatorFeeRate := 0, makerOperatorFeeRate := 0,
    quantity := quantity, amount := amount, lockedBuyFee := 0, status := .pending, cancelReason := .cancelledByUser,
    executedQuantity := 0, executedAmount := 0, executedBaseFee := 0, executedOperatorFee := 0, refundQuantity := 0,
    timestamp := 5, marketOrderAmtThreshold := 10 ^ 30 }

def exMarket : MarketInfo := ⟨1, 7, 8, 2, 2⟩
def allForks : Forks := ⟨true, true, true⟩

/-- A book with sells at 1.5 and 2 and a buy at 1; the taker buys 700 at up to 2 with fees of 0.2% and 0.1%. -/
def exBook : List Order :=
  [exOrder 10 1 true .limited 1500000000000 400 600, exOrder 11 2 true .limited 2000000000000 500 1000,
   exOrder 20 3 false .limited 1000000000000 50 50]
def exTaker : Order :=
  { exOrder 30 4 false .limited 2000000000000 700 1400 with takerFeeRate := 200, takerOperatorFeeRate := 100, lockedBuyFee := 5 }

/-- The hypotheses of the theorems of `MatcherProps` are met by a case in which two trades happen. -/
example : BookOk exBook ∧ Fresh exTaker ∧ RatesOk exTaker ∧ exTaker.marketId = exMarket.marketId ∧
    ¬ Resting exBook exTaker.id := by decide +kernel

example : (matchOrder allForks exMarket 9 exBook exTaker).2.status = .fullyExecuted ∧
    (matchOrder allForks exMarket 9 exBook exTaker).1.store.map Order.id = [11, 20] ∧
    settledAll Settle.incAvailable true (matchOrder allForks exMarket 9 exBook exTaker).1.settles = 700 ∧
    settledAll Settle.reduceLocked false (matchOrder allForks exMarket 9 exBook exTaker).1.settles = 1204 ∧
    feesAll (matchOrder allForks exMarket 9 exBook exTaker).1.fees = 4 := by decide +kernel

/-- **C25 fails for market buys.** With sells of 100 at 0.7 and 100 at 0.9 resting, a market buy of amount 2 takes 2 from
the better order for 1 (1.4 rounded) and then, although the better order still rests, trades with the worse one. -/
theorem market_buy_skips : ∃ (f : Forks) (mi : MarketInfo) (store : List Order) (taker better : Order) (tx : Tx),
    f.dexFee = true ∧ BookOk store ∧ Fresh taker ∧ RatesOk taker ∧ taker.marketId = mi.marketId ∧
    ¬ Resting store taker.id ∧ better ∈ store ∧ better.marketId = mi.marketId ∧ better.side = !taker.side ∧
    better.price < tx.price ∧ .transaction tx ∈ (matchOrder f mi 9 store taker).1.events ∧
    Resting (matchOrder f mi 9 store taker).1.store better.id := by
  refine ⟨allForks, exMarket,
    [exOrder 10 1 true .limited 700000000000 100 70, exOrder 11 2 true .limited 900000000000 100 90],
    exOrder 30 4 false .market 0 1000 2, exOrder 10 1 true .limited 700000000000 100 70,
    { takerSide := false, takerId := 30, makerId := 11, price := 900000000000, quantity := 1, amount := 1,
      takerAddress := 4, makerAddress := 2, takerFee := 0, takerOperatorFee := 0, makerFee := 0, makerOperatorFee := 0,
      timestamp := 5 }, ?_⟩
  decide +kernel

/-- **C26 fails at the trade limit.** Against 101 sells of 1, a fill-or-kill buy of 101 executes 100 and is then cancelled:
neither everything nor nothing. -/
theorem fill_or_kill_partially_filled : ∃ (f : Forks) (mi : MarketInfo) (store : List Order) (taker : Order),
    f.dexFee = true ∧ BookOk store ∧ Fresh taker ∧ RatesOk taker ∧ taker.marketId = mi.marketId ∧
    ¬ Resting store taker.id ∧ taker.type = .fillOrKill ∧
    (matchOrder f mi 9 store taker).2.status = .cancelled ∧
    (matchOrder f mi 9 store taker).2.executedQuantity = 100 ∧
    (matchOrder f mi 9 store taker).2.quantity = 101 ∧
    settledAll Settle.incAvailable true (matchOrder f mi 9 store taker).1.settles = 100 := by
  refine ⟨allForks, exMarket, (List.range 101).map (fun i => exOrder i 1 true .limited 1000000000000 1 1),
    exOrder 1000 4 false .fillOrKill 1000000000000 101 101, ?_⟩
  decide +kernel

/-- **C24 failed before the fee upgrade.** A buyer locks 602 and is charged 602, yet is also given back 1: when the base
fee exhausts the allowance the operator fee already paid is forgotten. -/
theorem over_refund_before_fee_upgrade : ∃ (f : Forks) (mi : MarketInfo) (store : List Order) (taker : Order),
    f.dexFee = false ∧ BookOk store ∧ Fresh taker ∧ RatesOk taker ∧ taker.marketId = mi.marketId ∧
    ¬ Resting store taker.id ∧
    tiedUp taker = 602 ∧
    settled Settle.reduceLocked taker.address false (matchOrder f mi 9 store taker).1.settles = 602 ∧
    settled Settle.releaseLocked taker.address false (matchOrder f mi 9 store taker).1.settles = 1 := by
  refine ⟨⟨true, false, true⟩, exMarket,
    [exOrder 10 1 true .limited 1000000000000 300 300, exOrder 11 2 true .limited 1000000000000 300 300],
    { exOrder 30 4 false .limited 1000000000000 600 600 with
      takerFeeRate := 200, takerOperatorFeeRate := 200, lockedBuyFee := 2 }, ?_⟩
  decide +kernel

/-- **C25.** The same in terms of price and time: if resting orders carry the ids the exchange gives them, an order with a
better price (or the same price and an earlier time or serial number) than the one traded with is gone afterwards. -/
theorem price_time_priority_partial (f : Forks) (mi : MarketInfo) (now : Nat) (store : List Order) (taker : Order)
    (hb : BookOk store) (hfresh : Fresh taker) (hr : RatesOk taker) (hid : ¬ Resting store taker.id)
    (htype : ¬ (f.v12 = true ∧ taker.type = .market ∧ taker.side = false)) (tx : Tx)
    (htx : .transaction tx ∈ (matchOrder f mi now store taker).1.events) (better : Order) (hbs : better ∈ store)
    (hbm : better.marketId = mi.marketId) (hbside : better.side = !taker.side)
    {p p' : List Char} {v v' t n t' n' : Nat} (h : PriceText p v) (h' : PriceText p' v')
    (ht : t < 2 ^ 40) (ht' : t' < 2 ^ 40) (hn : n < 2 ^ 24) (hn' : n' < 2 ^ 24)
    (hid1 : better.id = Bytes.num (composeOrderId mi.marketId (!taker.side) p t n))
    (hid2 : tx.makerId = Bytes.num (composeOrderId mi.marketId (!taker.side) p' t' n'))
    (hbetter : priority (!taker.side) v t n v' t' n' = .lt) :
    ¬ Resting (matchOrder f mi now store taker).1.store better.id := by
  refine better_orders_consumed_partial f mi now store taker hb hfresh hr hid htype tx htx better hbs hbm hbside ?_
  have := id_order_is_priority mi.marketId (!taker.side) t n t' n' h h' ht ht' hn hn'
  rw [Bytes.bcmp_eq_compare (by
    have l1 := priceToBytes_length p; have l2 := priceToBytes_length p'
    unfold composeOrderId; cases taker.side <;> simp [l1, l2]), hbetter, ← hid1, ← hid2] at this
  exact Nat.compare_eq_lt.1 this

end Verif.Dex

import Verif.Dex.OwnerProps

/-! Concrete histories: the hypotheses of the C24/C27 theorems are met by non-trivial runs, and one history that breaks
them while expired orders could still be cleared. -/

namespace Verif.Dex
open Spec

def exMk : Nat → Option MarketInfo := fun m => if m = 7 then some ⟨7, 10, 11, 8, 8⟩ else none

theorem exMk_ok : MarketsOk exMk := by
  intro m mi h
  unfold exMk at h
  split at h
  · obtain rfl := Option.some.inj h; simp [*]
  · simp at h

/-- A limit order of `address` at price 1 (in units of 10^-12) with the full fee rates. -/
def exReq (id address : Nat) (side : Bool) (quantity timestamp : Nat) : OrderReq :=
  ⟨id, 7, address, side, .limited, 10 ^ 12, quantity, 200, 200, 100, 100, timestamp, 0, 1⟩

def now3 : Forks := ⟨true, true, true⟩

/-- Ann sells 100000, Bob buys 250000 and rests with the remainder, then cancels; settlements arrive in reverse. -/
def exHistory : List Op :=
  [.deposit 1 10 100000, .deposit 2 11 400000, .place (exReq 50 1 true 100000 5), .place (exReq 60 2 false 250000 6),
   .receiveOrder 0 0, .receiveOrder 0 0, .cancel 2 60, .settle 1, .settle 0, .withdraw 1 11 99000, .transfer 2 1 10 40000]

example :
    let s := run now3 exMk exHistory
    heldBy Acct.available 1 11 s.funds = 700 ∧ heldBy Acct.available 2 10 s.funds = 60000 ∧
    heldBy Acct.available 2 11 s.funds = 299700 ∧ heldBy Acct.locked 2 11 s.funds = 0 ∧
    s.dividendPool 11 = 400 ∧ s.operatorPool 11 = 200 ∧ s.withdrawn 11 = 99000 ∧ s.events.length = 5 := by
  decide +kernel

/-- Between the match and the settlements something is locked, and it is accounted for. -/
example :
    let s := run now3 exMk (exHistory.take 6)
    heldBy Acct.locked 2 11 s.funds = 250750 ∧ promised exMk 2 11 s.store = 150450 ∧ debits 2 11 s.msgs = 100300 := by
  decide +kernel

/-- A market buy locks the whole balance. -/
example :
    let s := run now3 exMk [.deposit 1 10 100000, .deposit 2 11 400000, .place (exReq 50 1 true 100000 5),
      .receiveOrder 0 0, .place { exReq 60 2 false 10 6 with type := .market, marketOrderAmtThreshold := 10 ^ 9 }]
    heldBy Acct.locked 2 11 s.funds = 400000 ∧ heldBy Acct.available 2 11 s.funds = 0 ∧
    s.orders.map (fun o => (o.amount, o.lockedBuyFee)) = [(398800, 1200)] := by
  decide +kernel

/-- C39: the hypotheses hold in this history: a transfer spends, a trade and a cancellation take orders away, somebody else's
cancellation does not. -/
example :
    let s := run now3 exMk exHistory
    (getAcct 2 10 (run now3 exMk (exHistory.take 10)).funds).available = 100000 ∧ (getAcct 2 10 s.funds).available = 60000 ∧
    (run now3 exMk (exHistory.take 5)).store.map Order.id = [50] ∧ (run now3 exMk (exHistory.take 6)).store.map Order.id = [60] ∧
    (run now3 exMk (exHistory.take 6 ++ [.cancel 1 60])).store.map Order.id = [60] ∧
    (run now3 exMk (exHistory.take 7)).store.map Order.id = [] := by
  decide +kernel

/-- **C24, C27 fail while expired orders can be cleared** (fee upgrade active, version 11 not yet): an id listed twice is
released twice, out of the money locked for another order of the same user. Ann withdraws it, her other order is filled
out of thin air, and the exchange owes more than it holds. -/
theorem clear_expired_twice_breaks_solvency :
    let f : Forks := ⟨true, true, false⟩
    let s := run f exMk
      [.deposit 1 10 200000, .deposit 2 11 400000, .place (exReq 50 1 true 100000 5), .place (exReq 51 1 true 100000 3000000),
       .receiveOrder 0 0, .receiveOrder 0 0, .clearExpired 2700000 [50, 50], .settle 0, .withdraw 1 10 200000,
       .place (exReq 60 2 false 100000 3000000), .receiveOrder 0 0, .settle 0]
    s.exceeded = true ∧ s.deposited 10 = 200000 ∧ s.withdrawn 10 = 200000 ∧ heldBy Acct.available 2 10 s.funds = 100000 ∧
    held owes 10 s.funds + s.dividendPool 10 + s.operatorPool 10 + s.withdrawn 10 = s.deposited 10 + 100000 := by
  decide +kernel

end Verif.Dex

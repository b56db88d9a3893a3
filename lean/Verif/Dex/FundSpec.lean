import Verif.Dex.FundModel
import Verif.Dex.MatcherSpec

/-!
# Specification vocabulary for the exchange's money (C24 over histories, C27)

Nothing here is used by the model.
-/

namespace Verif.Dex.Spec
open Verif.Dex

/-- Everything the exchange owes one account: free, locked by orders, locked for dividends, being unlocked, and stake
being cancelled. -/
def owes (x : Acct) : Nat := x.available + x.locked + x.vxLocked + x.vxUnlocking + x.cancellingStake

/-- A column of the fund table summed over all accounts of token `t`. -/
def held (g : Acct → Nat) (t : Nat) (fs : List Acct) : Nat := (fs.map (fun x => if x.token = t then g x else 0)).sum

/-- The same for one address. -/
def heldBy (g : Acct → Nat) (a t : Nat) (fs : List Acct) : Nat :=
  (fs.map (fun x => if x.address = a ∧ x.token = t then g x else 0)).sum

/-- The token an order pays with: sellers pay the market's trade token, buyers its quote token. -/
def paysWith (mk : Nat → Option MarketInfo) (o : Order) : Option Nat :=
  (mk o.marketId).map (fun mi => if o.side then mi.tradeToken else mi.quoteToken)

/-- What the orders `os` of address `a` still tie up of token `t`. -/
def promised (mk : Nat → Option MarketInfo) (a t : Nat) (os : List Order) : Nat :=
  (os.map (fun o => if o.address = a ∧ paysWith mk o = some t then tiedUp o else 0)).sum

/-- What a settlement message takes out of the locked balance of address `a` in token `t`. -/
def msgDebit (a t : Nat) (m : SettleMsg) : Nat :=
  (m.funds.map (fun s =>
    if s.address = a ∧ (if s.isTradeToken then m.market.tradeToken else m.market.quoteToken) = t
    then s.reduceLocked + s.releaseLocked else 0)).sum

/-- The same for all messages that have not been received yet. -/
def debits (a t : Nat) (ms : List SettleMsg) : Nat := (ms.map (msgDebit a t)).sum

/-- The market table is keyed by market id. -/
def MarketsOk (mk : Nat → Option MarketInfo) : Prop := ∀ m mi, mk m = some mi → mi.marketId = m

/-- A list of expired ids handed to the exchange names no order twice. -/
def NoRepeats : Op → Prop
  | .clearExpired _ ids => ids.Nodup
  | _ => True

/-- The order record of an event, if it has one, is within the order's limits. -/
def EventOk : Event → Prop
  | .newOrder o => WithinLimits o
  | .orderUpdate o => WithinLimits o
  | .transaction _ => True

end Verif.Dex.Spec

import Verif.Dex.PeriodModel

/-!
# What the fee records hold
-/

namespace Verif.Dex

/-- The fees of a token in a list of pools. -/
def poolSum (f : Pool → Nat) (t : Nat) (qs : List Pool) : Nat := (qs.map (fun q => if q.token = t then f q else 0)).sum

/-- What a record still holds of a token: the whole pool in the current period; later only the part to be divided, because the
rest went on to the next record; nothing once divided. -/
def recHolds (now t p : Nat) (r : FeeRec) : Nat :=
  if r.finishDividend then 0 else if p = now then poolSum Pool.amount t r.pools else poolSum Pool.part t r.pools

/-- All fees of a token that the exchange holds for dividends (`accumulateFeeDividendPool`, fund_verifier.go:122-164). -/
def feesHeld (now t : Nat) (fees : Table Nat FeeRec) : Nat := Table.total (recHolds now t) fees

end Verif.Dex

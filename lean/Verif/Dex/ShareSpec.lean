import Verif.Dex.ShareModel

/-!
# What the share records mean
-/

namespace Verif.Dex

/-- The amount a record says was held in a period: that of the last change up to it. -/
def recorded (h : Hist) (p : Nat) : Nat := ((h.filter (fun e => decide (e.period ≤ p))).getLast?.map (·.amount)).getD 0

/-- What counts of an amount: nothing below the threshold. -/
def worth (thr x : Nat) : Nat := if thr ≤ x then x else 0

/-- The record of a holder. -/
def histOf (a : Nat) (t : Table Nat Hist) : Hist := (Table.get a t).getD []

/-- The sum of what counts for all holders in a period. -/
def allWorth (thr p : Nat) (t : Table Nat Hist) : Nat := Table.total (fun _ h => worth thr (recorded h p)) t

/-- The exact share of a part. -/
def exactShare (total part pool : Nat) : ℚ := (pool : ℚ) * part / total

end Verif.Dex

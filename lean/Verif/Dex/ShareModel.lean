import Verif.Base.Table
import Verif.Dex.BigFloat

/-!
# Model of the share records: how much each holder had in each period, the sum over all holders, and division in proportion

Source: `/repo/vm/contracts/dex/fund_settle.go` (`DoSettleVxFunds`), `fund_stake.go` (`doChangeMiningStakedAmount`),
`fund_storage.go` (`MatchVxFundsByPeriod`, `MatchMiningStakingByPeriod`), `fund_dividend.go` (`DivideByProportion`).

The code exists twice, once for locked VX (threshold 10 VX) and once for stakes (threshold 134 VITE); both copies are this model
with their threshold. Records hold a change of the amount per period; a period without a record has the amount of the last
record before it.

Simplification: amounts are natural numbers; the code stores them as big endian bytes, where zero is the empty string.
-/

namespace Verif.Dex

/-- `dexproto.VxFundByPeriod` and `dexproto.MiningStakingByPeriod`. -/
structure Entry where
  period : Nat
  amount : Nat
  deriving DecidableEq, Repr

/-- `VxFunds.Funds` and `MiningStakings.Stakings`. An empty list is a missing record. -/
abbrev Hist := List Entry

/-- The change of the holder's record, and the change of the sum (`nil` is zero): fund_settle.go:317-366,
fund_stake.go:189-238. `chg` is the change of the amount, `new` the amount after it. -/
def settleUser (thr period : Nat) (h : Hist) (chg : Int) (new : Nat) : Hist × Int :=
  match h.getLast? with
  | none => if thr ≤ new then ([⟨period, new⟩], new) else (h, 0)
  | some last =>
    if last.period = period then
      if thr ≤ new then (h.dropLast ++ [⟨period, new⟩], if thr ≤ last.amount then chg else new)
      else (if 1 < h.length then h.dropLast ++ [⟨period, new⟩] else [], if thr ≤ last.amount then -(last.amount : Int) else 0)
    else if thr ≤ new then (h ++ [⟨period, new⟩], if thr ≤ last.amount then chg else new)
    else if thr ≤ last.amount then (h ++ [⟨period, new⟩], -(last.amount : Int)) else (h, 0)

/-- The change of the sum record; `none` is the error: fund_settle.go:374-396, fund_stake.go:246-267. -/
def settleSum (period : Nat) (s : Hist) (chg : Int) : Option Hist :=
  if chg = 0 then some s
  else match s.getLast? with
    | none => if 0 < chg then some [⟨period, chg.natAbs⟩] else none
    | some last =>
      if (last.amount : Int) + chg < 0 then none
      else if last.period = period then some (s.dropLast ++ [⟨period, ((last.amount : Int) + chg).natAbs⟩])
      else some (s ++ [⟨period, ((last.amount : Int) + chg).natAbs⟩])

/-- The record is trimmed to what later periods need: fund_storage.go:1335-1342, 2080-2087. -/
def trimTo (h : Hist) (k period : Nat) : Hist :=
  match h.drop k with
  | e :: e1 :: rest => if e1.period = period + 1 then e1 :: rest else e :: e1 :: rest
  | l => l

/-- `MatchVxFundsByPeriod`, `MatchMiningStakingByPeriod`: fund_storage.go:1317-1344, 2063-2089. The amount in force in the
period and the trimmed record; `none` if there is none or it is zero. -/
def matchByPeriod (h : Hist) (period : Nat) : Option (Nat × Hist) :=
  match (h.takeWhile (fun e => e.period ≤ period)).getLast? with
  | none => none
  | some e =>
    if e.amount = 0 then none
    else some (e.amount, trimTo h ((h.takeWhile (fun e => e.period ≤ period)).length - 1) period)

/-- `CheckUserVxFundsCanBeDelete`, `CheckMiningStakingsCanBeDelete`: fund_storage.go:1346-1348, 2091-2093. -/
def canDelete (thr : Nat) (h : Hist) : Bool :=
  match h with
  | [e] => decide (e.amount < thr)
  | _ => false

/-- The holder's record after a change: an empty one is removed (fund_settle.go:368-372, fund_stake.go:240-244). -/
def saveHist (a : Nat) (h : Hist) (t : Table Nat Hist) : Table Nat Hist := if h = [] then Table.del a t else Table.put a h t

/-- `DoSettleVxFunds`, `doChangeMiningStakedAmount`: fund_settle.go:308-398, fund_stake.go:179-269. `none` is the error. -/
def settleShares (thr period : Nat) (t : Table Nat Hist) (sum : Hist) (a : Nat) (chg : Int) (new : Nat) :
    Option (Table Nat Hist × Hist) :=
  let r := settleUser thr period ((Table.get a t).getD []) chg new
  (settleSum period sum r.2).map (fun s => (saveHist a r.1 t, s))

/-- The amount for a part: fund_dividend.go:196-197. -/
def proportion (total part pool : Nat) : Nat :=
  roundAmount (rnd (rnd pool * rnd (rnd part / rnd total)))

/-- What is divided among the holders: the amount of one token, the parts served so far, what is left, and whether it is done. -/
structure Pot where
  token : Nat
  pool : Nat
  divided : Nat
  left : Nat
  done : Bool
  deriving DecidableEq, Repr

/-- A fresh pot: fund_dividend.go:124-127. -/
def Pot.new (token pool : Nat) : Pot := ⟨token, pool, 0, pool, false⟩

/-- `DivideByProportion`, for a pot that is not done: fund_dividend.go:194-208 with 119-133. -/
def Pot.pay (total part : Nat) (q : Pot) : Pot × Nat :=
  if q.done then (q, 0)
  else if q.left ≤ proportion total part q.pool ∨ total ≤ q.divided + part then
    ({ q with divided := q.divided + part, left := 0, done := true }, q.left)
  else ({ q with divided := q.divided + part, left := q.left - proportion total part q.pool }, proportion total part q.pool)

/-- One holder is paid from every pot that is not done: fund_dividend.go:119-138. -/
def payPots (total part a : Nat) (pots : List Pot) : List (Nat × Nat × Nat) :=
  (pots.filter (fun q => !q.done)).map (fun q => (a, q.token, (q.pay total part).2))

/-- The holder's record after matching: fund_dividend.go:108-112, fund_mine.go:184-188. -/
def keepHist (thr a : Nat) (h : Hist) : Table Nat Hist := if canDelete thr h then [] else [(a, h)]

/-- The holders in turn: fund_dividend.go:74-139, fund_mine.go:160-206. The table after trimming, the pots and the payments
(holder, token, amount). The loop ends when all pots are done. -/
def divide (thr period total : Nat) : Table Nat Hist → List Pot → Table Nat Hist × List Pot × List (Nat × Nat × Nat)
  | [], pots => ([], pots, [])
  | (a, h) :: rest, pots =>
    if pots.all (·.done) then ((a, h) :: rest, pots, [])
    else match matchByPeriod h period with
      | none =>
        let r := divide thr period total rest pots
        ((a, h) :: r.1, r.2.1, r.2.2)
      | some (x, h') =>
        if x < thr then
          let r := divide thr period total rest pots
          (keepHist thr a h' ++ r.1, r.2.1, r.2.2)
        else
          let r := divide thr period total rest (pots.map (fun q => (q.pay total x).1))
          (keepHist thr a h' ++ r.1, r.2.1, payPots total x a pots ++ r.2.2)

end Verif.Dex

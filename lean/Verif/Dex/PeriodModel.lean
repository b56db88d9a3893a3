import Verif.Base.Table
import Verif.Dex.MatcherModel
import Verif.Dex.FundModel

/-!
# Model of the fee records: one per period, with the pool of every token, rolled from period to period

Source: `/repo/vm/contracts/dex/fund_storage.go:1093-1201, 2168-2189`, `fund_settle.go:77-151, 406-458`,
`fund_dividend.go:13-57`.

Simplifications: the rules after the Earth upgrade apply. The per-user fee sums that decide how mined VX is divided
(`FeesForMine`) are not part of the record here.
-/

namespace Verif.Dex

/-- `dexproto.FeeForDividend`. -/
structure Pool where
  token : Nat
  amount : Nat
  notRoll : Bool
  deriving DecidableEq, Repr

/-- `dexproto.DexFeesByPeriod`. -/
structure FeeRec where
  pools : List Pool
  finishDividend : Bool
  finishMine : Bool
  last : Nat
  deriving DecidableEq, Repr

/-- `PerPeriodDividendRate`: fund_storage.go:118 (1%). -/
def perPeriodDividendRate : Nat := 1000

/-- `splitDividendPool`, what is divided: fund_settle.go:406-415. -/
def Pool.part (q : Pool) : Nat := if q.notRoll then q.amount else calculateAmountForRate q.amount perPeriodDividendRate

/-- `splitDividendPool`, what is rolled to the next period: fund_settle.go:406-415; stored without its sign (`Bytes`). -/
def Pool.rolled (q : Pool) : Nat := if q.notRoll then 0 else subAbs q.amount q.part

/-- The pool of a token in the next record: fund_storage.go:1161-1169. VITE is not rolled any more from there. -/
def Pool.roll (q : Pool) : Pool := ⟨q.token, q.rolled, decide (q.token = viteToken)⟩

/-- `RollAndGentNewDexFeesByPeriod` without the saving: fund_storage.go:1152-1179. `none` is the panic. -/
def rollRec (fees : Table Nat FeeRec) (lastRoll : Nat) : Option FeeRec :=
  if lastRoll = 0 then some ⟨[⟨viteToken, 0, false⟩], false, false, 0⟩
  else (Table.get lastRoll fees).map (fun r => ⟨r.pools.map Pool.roll, false, false, lastRoll⟩)

/-- A fee is added to the pool of its token: fund_settle.go:113-128, 450-458. -/
def addPool (t amount : Nat) : List Pool → List Pool
  | [] => [⟨t, amount, false⟩]
  | q :: qs => if q.token = t then { q with amount := q.amount + amount } :: qs else q :: addPool t amount qs

/-- `SettleFeesWithTokenId`, the dividend side: fund_settle.go:82-151. Fees go to the record of the current period, which is
made when missing. -/
def addFee (fees : Table Nat FeeRec) (lastRoll now t amount : Nat) : Option (Table Nat FeeRec × Nat) :=
  match Table.get now fees with
  | some r => some (Table.put now { r with pools := addPool t amount r.pools } fees, lastRoll)
  | none => (rollRec fees lastRoll).map (fun r => (Table.put now { r with pools := addPool t amount r.pools } fees, now))

/-- `doRollPeriod`: fund_storage.go:2186-2189. -/
def rollPeriod (fees : Table Nat FeeRec) (lastRoll new : Nat) : Option (Table Nat FeeRec × Nat) :=
  (rollRec fees lastRoll).map (fun r => (Table.put new r fees, new))

/-- The latest record not after a period: fund_storage.go:1115-1121. -/
def firstRec (fees : Table Nat FeeRec) : Nat → Option Nat
  | 0 => if (Table.get 0 fees).isSome then some 0 else none
  | p + 1 => if (Table.get (p + 1) fees).isSome then some (p + 1) else firstRec fees p

/-- The records from there back, until one is missing or was divided before: fund_storage.go:1114-1136. The recursion is
bounded by `fuel`; links go back in time, so the period itself is enough (`chain_fuel`). -/
def chain (fees : Table Nat FeeRec) : Nat → Nat → List (Nat × FeeRec)
  | 0, _ => []
  | fuel + 1, p =>
    match Table.get p fees with
    | none => []
    | some r =>
      if r.finishDividend then []
      else (p, r) :: (if r.last = 0 then [] else chain fees fuel r.last)

/-- `GetNotFinishDividendDexFeesByPeriodMap`: fund_storage.go:1107-1136. -/
def notDivided (fees : Table Nat FeeRec) (p : Nat) : List (Nat × FeeRec) :=
  match firstRec fees p with
  | none => []
  | some q => chain fees (q + 1) q

/-- `MarkDexFeesFinishDividend`: fund_storage.go:1143-1150. -/
def markDivided (fees : Table Nat FeeRec) (x : Nat × FeeRec) : Table Nat FeeRec :=
  if x.2.finishMine then Table.del x.1 fees else Table.put x.1 { x.2 with finishDividend := true } fees

/-- `MarkDexFeesFinishMine` with `markFormerDexFeesFinishMine`: fund_storage.go:1181-1197. -/
def markMined : Nat → Nat → Table Nat FeeRec → Table Nat FeeRec
  | 0, _, fees => fees
  | fuel + 1, p, fees =>
    match Table.get p fees with
    | none => fees
    | some r =>
      let fees' := if r.finishDividend then Table.del p fees else Table.put p { r with finishMine := true } fees
      if 0 < r.last then markMined fuel r.last fees' else fees'

/-- The amounts to divide, per token: fund_dividend.go:40-56. -/
def addPots : List Pool → Table Nat Nat → Table Nat Nat
  | [], m => m
  | q :: qs, m => addPots qs (Table.put q.token ((Table.get q.token m).getD 0 + q.part) m)

/-- The same over all records. -/
def allPots : List (Nat × FeeRec) → Table Nat Nat → Table Nat Nat
  | [], m => m
  | x :: xs, m => allPots xs (addPots x.2.pools m)

end Verif.Dex

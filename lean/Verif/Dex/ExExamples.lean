import Verif.Dex.ExProps
import Verif.Dex.FundExamples

/-! Concrete histories for C28, C29, C30, C47, C48 and C49, and two histories outside `Allowed`. -/

namespace Verif.Dex
open Spec

def E18 : Nat := 10 ^ 18

/-- Two trades leave fees of token 11, one user pays a fee in VITE; three users lock VX, one of them too little to take part;
two users stake; periods pass and all jobs run. -/
def exDays : List ExOp :=
  [.endorse (100000 * E18),
   .core 9 (.deposit 4 vxToken (40 * E18)), .core 9 (.deposit 5 vxToken (60 * E18)),
   .lockVx 4 (20 * E18), .lockVx 5 (60 * E18),
   .core 9 (.deposit 6 viteToken (2000000 * E18)), .core 9 (.payFee 6 (1000 * E18)),
   .stake 70 6 .mining (200 * E18), .stakeOk 70, .stake 71 6 .superVip (1000000 * E18), .stakeOk 71,
   .stake 72 6 .vip (10000 * E18), .stake 73 6 .mining (300 * E18), .setAuto 6 true,
   .core 9 (.deposit 1 10 100000), .core 9 (.deposit 2 11 400000),
   .core 9 (.place (exReq 50 1 true 100000 5)), .core 9 (.place (exReq 60 2 false 250000 6)),
   .core 9 (.receiveOrder 0 0), .core 9 (.receiveOrder 0 0), .core 9 (.settle 0),
   .tick 3, .unlockVx 4 (5 * E18), .unlockVx 4 (8 * E18), .tick 4,
   .job .dividend 3, .job .operator 1, .job (.mineStaking (400 * E18)) 3,
   .stakeFail 72 (10000 * E18), .stakeFail 73 (300 * E18), .cancelOk 70, .cancelOk 71,
   .tick 20, .job .finishUnlock 9, .job .finishUnlock 10, .job .finishCancel 11]

theorem exDays_allowed : ∀ op ∈ exDays, Allowed now3 op := by
  intro op h
  simp only [exDays, List.mem_cons, List.not_mem_nil, or_false] at h
  rcases h with rfl | rfl | rfl | rfl | rfl | rfl | rfl | rfl | rfl | rfl | rfl | rfl | rfl | rfl | rfl | rfl | rfl | rfl | rfl | rfl | rfl | rfl | rfl |
    rfl | rfl | rfl | rfl | rfl | rfl | rfl | rfl | rfl | rfl | rfl | rfl | rfl <;> simp [Allowed, now3]

/-- C47: the hypotheses hold for this history, in which money came in, went out and is owed, in three tokens. -/
example (t : Nat) : (Ex.run now3 exMk 1 exDays).received t = (Ex.run now3 exMk 1 exDays).sent t + liabilities (Ex.run now3 exMk 1 exDays) t :=
  exchange_solvent rfl exMk_ok (le_refl _) exDays exDays_allowed t

example :
    let s := Ex.run now3 exMk 1 exDays
    s.received viteToken = 3010200 * E18 ∧ s.sent viteToken = 1011500 * E18 ∧ liabilities s viteToken = 1998700 * E18 ∧
    liabilities s vxToken = 100100 * E18 ∧ s.vxPool = 99600 * E18 ∧ liabilities s 11 = 400000 ∧ feesHeld s.now 11 s.fees = 392 := by
  decide +kernel

/-- C28: two holders with 15 and 60 VX at the end of period 3 share a pot of 8 units of token 11; 1000 VITE are burnt. -/
example :
    let s := Ex.run now3 exMk 1 (exDays.take 25)
    let s' := s.step now3 exMk (.job .dividend 3)
    s.jobOk .dividend 3 = true ∧ pot 3 11 s.fees = 8 ∧ pot 3 viteToken s.fees = 1000 * E18 ∧ feesHeld s.now 11 s.fees = 400 ∧
    s.pastVx 3 4 = 15 * E18 ∧ s.pastVx 3 5 = 60 * E18 ∧ free s' 4 11 = 2 ∧ free s' 5 11 = 6 ∧
    s'.sent viteToken = s.sent viteToken + 1000 * E18 ∧ feesHeld s'.now 11 s'.fees = 392 := by
  decide +kernel

/-- C29: 5 VX asked for in period 3 are free after the finish job for period 10, not after the one for period 9. -/
example :
    let s := Ex.run now3 exMk 1 (exDays.take 33)
    let s1 := s.step now3 exMk (.job .finishUnlock 9)
    let s2 := s1.step now3 exMk (.job .finishUnlock 10)
    s.unlockLog = [(4, 3, 5 * E18)] ∧ free s 4 vxToken = 20 * E18 ∧ free s1 4 vxToken = 20 * E18 ∧ s1.jobs .finishUnlock = 9 ∧
    free s2 4 vxToken = 25 * E18 ∧ (getAcct 4 vxToken s1.core.funds).vxUnlocking = 5 * E18 ∧
    (getAcct 4 vxToken s2.core.funds).vxUnlocking = 0 := by
  decide +kernel

/-- C49: the one who staked mines 400 VX, locked at once. -/
example :
    let s := Ex.run now3 exMk 1 (exDays.take 27)
    let s' := s.step now3 exMk (.job (.mineStaking (400 * E18)) 3)
    s.pastStk 3 6 = 200 * E18 ∧ ownVx s 6 = 0 ∧ ownVx s' 6 = 400 * E18 ∧ s'.vxOf 6 = 400 * E18 ∧
    s.vxPool = 100000 * E18 ∧ s'.vxPool = 99600 * E18 := by
  decide +kernel

/-- C48: stakes come back; the one for mining waits seven periods. -/
example :
    let s := Ex.run now3 exMk 1 (exDays.take 30)
    let s1 := Ex.run now3 exMk 1 (exDays.take 32)
    let s2 := Ex.run now3 exMk 1 exDays
    Table.get 70 s.stakes = some ⟨.mining, 6, 200 * E18, true⟩ ∧ free s1 6 viteToken = free s 6 viteToken + 1000000 * E18 ∧
    s1.cancelLog = [(6, 4, 200 * E18)] ∧ free s2 6 viteToken = free s1 6 viteToken + 200 * E18 := by
  decide +kernel

/-- **C30 fails for mining**: of two failed stakes the VIP one is refunded, the mining one is not; the exchange does not have the
money (it is refused and stays with the quota contract), and the stake stays on record for good. -/
theorem failed_mining_stake_not_refunded :
    let s := Ex.run now3 exMk 1 (exDays.take 28)
    let s1 := s.step now3 exMk (.stakeFail 72 (10000 * E18))
    let s2 := s1.step now3 exMk (.stakeFail 73 (300 * E18))
    Table.get 72 s.stakes = some ⟨.vip, 6, 10000 * E18, false⟩ ∧ free s1 6 viteToken = free s 6 viteToken + 10000 * E18 ∧
    Table.get 73 s.stakes = some ⟨.mining, 6, 300 * E18, false⟩ ∧ free s2 6 viteToken = free s1 6 viteToken ∧
    s2.received viteToken = s1.received viteToken ∧ Table.get 73 s2.stakes = some ⟨.mining, 6, 300 * E18, false⟩ := by
  decide +kernel

/-- **Outside `Allowed`**: the makers' job for period 0 may run again and again, because a last period of 0 means none; the second
run writes over the makers' pool of the first, and that VX is neither paid nor in any pool. -/
theorem period_zero_maker_job_repeats :
    let ops := [.endorse (1000 * E18), .job (.mineMaker (300 * E18) 3 2 1 9) 0, .job (.mineMaker (300 * E18) 3 2 1 9) 0]
    let s := Ex.run now3 exMk 1 ops
    s.received vxToken = 1000 * E18 ∧ s.sent vxToken = 0 ∧ liabilities s vxToken = 800 * E18 := by
  decide +kernel

/-- **Why histories begin in period 1**: a record of period 0 is taken for none when the next period begins, so its fees are not
rolled on: only one percent of them is ever divided. -/
theorem period_zero_fees_lost :
    let ops := [.core 9 (.deposit 6 viteToken 100000), .core 9 (.payFee 6 100000), .tick 1]
    let s := Ex.run now3 exMk 0 ops
    s.received viteToken = 100000 ∧ liabilities s viteToken = 1000 ∧
    (let s1 := Ex.run now3 exMk 1 [.core 9 (.deposit 6 viteToken 100000), .core 9 (.payFee 6 100000), .tick 2]
     liabilities s1 viteToken = 100000) := by
  decide +kernel

end Verif.Dex

import Verif.Builtin.GovListProps
import Verif.Builtin.GovOwedProps

/-! Concrete cases of the theorems about the governance contract, and two findings about rewards. -/

namespace Verif.Builtin.Gov
open Verif.Vm Verif.Builtin.Reward Verif.Builtin.NameList Spec

/-- The price of a registration. -/
abbrev price : Nat := 10 ^ 6 * 10 ^ 18

/-- An empty contract. -/
def st0 : State := ⟨[], fun _ _ => none, fun _ => [], fun _ _ => none⟩

theorem st0_reg (g : Nat) (n : Name) : reg st0 g n = none := rfl

theorem st0_bound : Bound st0 := ⟨fun a g n => by simp only [st0_reg]; simp [st0], fun g n r h => by simp [st0_reg] at h⟩
theorem st0_sound : Sound st0 := ⟨List.nodup_nil, fun g n r h => by simp [st0_reg] at h⟩
theorem st0_lists : ListsOk st0 :=
  ⟨fun a => ⟨[], rfl, List.nodup_nil, fun n => by simp [st0_reg]⟩, fun g n r h => by simp [st0_reg] at h, fun g n r h => by simp [st0_reg] at h⟩

/-- "sbp" and "b.1". -/
def sbp : Name := [115, 98, 112]
def b1 : Name := [98, 46, 49]

/-- A day on which `sbp` made 10 of 10 blocks. -/
def day : DayStats := ⟨[⟨sbp, 10, 10, 100⟩, ⟨b1, 5, 10, 50⟩], 150, 15⟩

example : GoodDay day := ⟨by decide, by decide, by decide, by decide⟩

def src : Source := ⟨⟨1000000, 86400⟩, fun _ => some day, fun _ => price⟩

def at_ (height : Nat) (now : Int) : Ctx := ⟨height, now, price, fun g => if g = snapshotGid then some 100 else none, src, false⟩

/-- Calls: 10 registers `sbp` with 11 producing and 12 withdrawing, 20 registers `b1` and then gives it the withdraw
address 12, and gets its stake back after the lock; 30 votes. The withdrawals come three days later. -/
def calls : List Call :=
  [⟨at_ 5 1000500, 10, vite, price, none, .registerV3 sbp 11 12⟩,
   ⟨at_ 6 1000600, 20, vite, price, none, .register snapshotGid b1 21⟩,
   ⟨at_ 7 1000700, 20, vite, 0, none, .updateWithdraw b1 12⟩,
   ⟨at_ 8 1000800, 30, vite, 0, none, .vote snapshotGid sbp⟩,
   ⟨at_ 9 1000900, 10, vite, 0, none, .updateProducing snapshotGid sbp 13⟩,
   ⟨at_ 200 1270000, 12, vite, 0, none, .withdrawReward snapshotGid sbp 77⟩,
   ⟨at_ 201 1270001, 20, vite, 0, none, .revoke snapshotGid b1⟩]

def end_ : State := runAll st0 calls

/-- All of them succeed and do what they say. -/
example : end_.regs = [((snapshotGid, sbp), ⟨13, 12, 10, price, 105, 1259200, 0, [11, 13]⟩),
      ((snapshotGid, b1), ⟨21, 12, 20, 0, 0, 1000600, 1270001, [21]⟩)] ∧
    listNames (end_.lists 12) = [sbp, b1] ∧ end_.votes 30 snapshotGid = some sbp ∧
    end_.hisName 11 snapshotGid = some sbp ∧ end_.hisName 13 snapshotGid = some sbp := by decide +kernel

/-- What was paid, is held, and was sent back. -/
example : paidIn snapshotGid b1 st0 calls = price ∧ paidBack snapshotGid b1 st0 calls = price ∧ locked snapshotGid b1 end_ = 0 ∧
    paidIn snapshotGid sbp st0 calls = price ∧ paidBack snapshotGid sbp st0 calls = 0 ∧ locked snapshotGid sbp end_ = price := by
  decide +kernel

/-- The reward of the two full days since the registration; the hypotheses of `cycles_paid_once` hold. -/
example : rewarded sbp st0 calls = 2 * earned src sbp 1 ∧ 0 < earned src sbp 1 := by decide +kernel
example : Timed src 1000000 calls := by
  repeat' (first | exact trivial | refine ⟨rfl, rfl, by decide, ?_⟩)

/-- A name already taken, an address already used, a revoke too early, a revoke by somebody else: all refused. -/
example : ((⟨at_ 300 1300000, 40, vite, price, none, .registerV3 sbp 41 41⟩ : Call).result end_).isNone = true ∧
    ((⟨at_ 300 1300000, 40, vite, price, none, .registerV3 [99] 11 41⟩ : Call).result end_).isNone = true ∧
    ((⟨at_ 104 1300000, 10, vite, 0, none, .revoke snapshotGid sbp⟩ : Call).result end_).isNone = true ∧
    ((⟨at_ 300 1300000, 12, vite, 0, none, .revoke snapshotGid sbp⟩ : Call).result end_).isNone = true ∧
    ((⟨at_ 105 1300000, 10, vite, 0, none, .revoke snapshotGid sbp⟩ : Call).result end_).isSome = true := by decide +kernel

/-- `nothing_lost` and `reregister_needs_all_paid`: 10 registers, withdraws, revokes, withdraws the rest, and registers anew.
Before the last withdrawal the name cannot be registered. -/
def tail : List Call :=
  [⟨at_ 200 1270000, 12, vite, 0, none, .withdrawReward snapshotGid sbp 77⟩,
   ⟨at_ 201 1360000, 10, vite, 0, none, .revoke snapshotGid sbp⟩,
   ⟨at_ 202 1370000, 10, vite, 0, none, .withdrawReward snapshotGid sbp 77⟩]
def again : Call := ⟨at_ 203 1380000, 10, vite, price, none, .registerV3 sbp 11 12⟩

example : Timed src 1000500 tail ∧ (∀ x ∈ tail, isRegister snapshotGid sbp x.method = false) ∧
    ((reg (runAll st0 (calls.take 1)) snapshotGid sbp).map (·.rewardTime) = some 1000500) ∧
    rewarded sbp (runAll st0 (calls.take 1)) tail = earnedWhere src sbp (fun i => 1000500 ≤ src.ti.start i ∧ src.ti.finish i ≤ 1360000) 10 ∧
    rewarded sbp (runAll st0 (calls.take 1)) tail = 3 * earned src sbp 1 ∧
    (again.result (runAll st0 (calls.take 1 ++ tail))).isSome = true ∧
    (again.result (runAll st0 (calls.take 1 ++ tail.take 2))).isSome = false := by
  refine ⟨?_, by decide +kernel, by decide +kernel, by decide +kernel, by decide +kernel, by decide +kernel, by decide +kernel⟩
  repeat' (first | exact trivial | refine ⟨rfl, rfl, by decide, ?_⟩)

/-! A history in the ledger. -/

def env : Env := ⟨fun a => a == governanceAddr || a == assetAddr, fun _ => false, true⟩
def L0 : Ledger (State × Unit) := ⟨[((10, vite), 2 * (price : Int))], fun _ => (st0, ()), [], fun _ => 0, fun _ => 0⟩
def first : Call := ⟨at_ 5 1000500, 10, vite, price, none, .registerV3 sbp 11 12⟩
def st1 : State := apply st0 first
def history : List (Step (State × Unit)) :=
  [.send 10 ⟨.call, governanceAddr, vite, price, some 0⟩, .recv 0 (.done (st1, ()) false [] none false)]

/-- The registration is in the storage, and the contract has the money. -/
example : GenuineRun env L0 history ∧ funds (run env L0 history) = price ∧ allLocked (storage (run env L0 history)) = price := by
  have hf : (step env L0 (.send 10 ⟨.call, governanceAddr, vite, price, some 0⟩)).flight[0]? =
      some ⟨10, governanceAddr, .call, vite, price, 0⟩ := by decide +kernel
  refine ⟨⟨⟨trivial, show (10 : Nat) ≠ governanceAddr by decide⟩, ⟨?_, ?_⟩, trivial⟩, by decide +kernel, by decide +kernel⟩
  · intro s hs hd data burn sends fee cb ho
    rw [hf] at hs
    obtain rfl := (Option.some.inj hs).symm
    cases ho
    have h : (first.result st0).isSome = true := by decide +kernel
    obtain ⟨res, hres⟩ := Option.isSome_iff_exists.mp h
    have hs2 : (first.result st0).map (·.sends) = some [] := by decide +kernel
    refine ⟨first, res, rfl, rfl, rfl, hres, (apply_some hres : apply st0 first = res.st), ?_⟩
    rw [hres] at hs2
    exact (Option.some.inj hs2).symm
  · intro s hs hd
    rw [hf] at hs
    obtain rfl := (Option.some.inj hs).symm
    exact ⟨by decide, rfl, by intro data burn sends fee cb ho; cases ho; simp⟩

/-! ### Findings -/

/-- The calls of `lost_panic_pays_twice`: the last but one fails inside the reading of statistics. -/
def panicCalls : List Call :=
  calls.take 6 ++ [⟨{ at_ 202 1400000 with panics := true }, 12, vite, 0, none, .withdrawReward snapshotGid sbp 77⟩,
    ⟨at_ 203 1400001, 12, vite, 0, none, .withdrawReward snapshotGid sbp 77⟩]

/-- `CalcReward` loses a panic of the statistics: the deferred function assigns `err` of its own scope
(contracts_governance.go:457-462), so the withdrawal goes on with end time 0 and stores it as the reward time. All cycles
since genesis become payable again: the name gets more than it has earned. So `panics = false` in `Timed` is needed. -/
theorem lost_panic_pays_twice : ∃ (xs : List Call) (K : Nat),
    (∀ i, src.ti.finish i ≤ lastTime 1000000 xs - rewardTimeLimit → i < K) ∧ earnedUpTo src sbp K < rewarded sbp st0 xs := by
  refine ⟨panicCalls, 4, fun i hi => ?_, by decide +kernel⟩
  have h : lastTime 1000000 panicCalls = 1400001 := by decide +kernel
  rw [h] at hi
  have : src.ti.finish i = 1000000 + (86400 * (i + 1) : Nat) := rfl
  unfold rewardTimeLimit at hi
  omega

/-- A withdrawal before the first payable cycle moves the reward time back, to the end of the last finished cycle, since
`calcReward` answers with an end time before the start time (contracts_governance.go:487-489). A name registered at
1200000, in cycle 2, whose first full cycle is 3, withdraws at once, and two days later is paid for cycle 2 as well;
without the early withdrawal it is not. -/
def early (withdraw : Bool) : List Call :=
  [⟨at_ 5 1200000, 10, vite, price, none, .registerV3 sbp 11 12⟩] ++
  (if withdraw then [⟨at_ 6 1200001, 12, vite, 0, none, .withdrawReward snapshotGid sbp 77⟩] else []) ++
  [⟨at_ 7 1360000, 12, vite, 0, none, .withdrawReward snapshotGid sbp 77⟩]

theorem early_withdrawal_gains_a_cycle : rewarded sbp st0 (early false) = earned src sbp 3 ∧
    rewarded sbp st0 (early true) = earned src sbp 2 + earned src sbp 3 ∧ src.ti.start 2 < 1200000 := by decide +kernel

end Verif.Builtin.Gov

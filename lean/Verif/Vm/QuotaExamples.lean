import Verif.Vm.QuotaProps

/-! Concrete cases of the quota theorems, and a finding about the table of the test net. -/

namespace Verif.Vm.Quota

/-- The hypotheses of the theorems of C11 and C12 hold of the main net's tables. -/
example : Ordered mainnet.stakes ∧ Ordered mainnet.difficulties := ⟨stakesMainnet_ordered, difficultiesMainnet_ordered⟩

/-- A transaction per snapshot costs 21000: 10,000 VITE give it, one unit less does not. -/
example : calcStakeAmountByQuota mainnet 21000 = some (10000 * 10 ^ 18) ∧ calcStakeQuota mainnet (10 ^ 18, false) (10000 * 10 ^ 18) = 21000 ∧
    calcStakeQuota mainnet (10 ^ 18, false) (10000 * 10 ^ 18 - 1) = 20720 := by decide +kernel

/-- The same transaction by work, without and with congestion (index 60). -/
example : calcPoWDifficulty 2 mainnet (10 ^ 18, false) 21000 0 = some 67108863 ∧
    calcQc mainnet true (60 * qcGap) = (863025511189862144, true) ∧
    calcPoWDifficulty 2 mainnet (863025511189862144, true) 21000 0 = some 77760000 ∧
    calcPoWQuota mainnet (863025511189862144, true) 77760000 = 21000 ∧
    calcPoWQuota mainnet (863025511189862144, true) 77759999 = 20720 := by decide +kernel

/-- A window of three snapshots and some unconfirmed use; with work on top; a contract in its waiting time. -/
def view : View := ⟨true, 0, false, none, [⟨0, 0, 0⟩, ⟨1, 21000, 21000⟩, ⟨0, 0, 0⟩, ⟨1, 21000, 21000⟩], [false]⟩
example : getQuotaForBlock mainnet view (10000 * 10 ^ 18) 0 = some (42000, 0) ∧
    getQuotaForBlock mainnet view (10000 * 10 ^ 18) 67108863 = some (63000, 21000) ∧
    getQuotaForBlock mainnet { view with unconfirmed := [true] } (10000 * 10 ^ 18) 67108863 = none ∧
    getQuotaForBlock mainnet { view with isContract := true, last := some (true, 74) } (10000 * 10 ^ 18) 0 = some (0, 0) ∧
    getQuotaForBlock mainnet { view with isContract := true, last := some (true, 75) } (10000 * 10 ^ 18) 0 = some (42000, 0) ∧
    getQuotaForBlock mainnet view (2313978 * 10 ^ 18) 0 = some (1000000, 0) := by decide +kernel

/-- Scheduling: a contract in its waiting time, one that has enough for its mean use, and one that has used its quota up. -/
example : ((calcQuota mainnet { view with isContract := true, last := some (true, 70) } (10000 * 10 ^ 18) 0).map checkQuota) = some (false, 5) ∧
    ((calcQuota mainnet { view with isContract := true, last := some (false, 70) } (10000 * 10 ^ 18) 0).map checkQuota) = some (true, 0) ∧
    ((calcQuota mainnet { view with isContract := true, list := [⟨0, 0, 0⟩, ⟨1, 63000, 63000⟩] } (10000 * 10 ^ 18) 0).map checkQuota) =
      some (false, 1) := by decide +kernel

/-- A use that empties a short window at once is within it. -/
example : Within 21000 [0, 0, 0] [84000, 21000, 0, 42000] := by
  refine ⟨by decide, by decide, by decide, by decide, trivial⟩

/-- The stakes of the test net have equal neighbours, and the binary search may stop at any of them: the stake that the node
names for 1960 gives 1680. So the order of the table is needed in `stake_for_quota_exact`, and C11 fails on that net. -/
theorem testnet_stake_too_small : ∃ q a, calcStakeAmountByQuota testnet q = some a ∧ calcStakeQuota testnet (10 ^ 18, false) a < q :=
  ⟨1960, 10 ^ 18, by decide +kernel, by decide +kernel⟩

theorem testnet_stakes_not_ordered : ¬ Ordered testnet.stakes := by
  intro h
  have := h.step 1 (by decide)
  revert this
  decide +kernel

end Verif.Vm.Quota

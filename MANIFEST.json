{
 "claims": [
  {
   "property": "C01",
   "status": "partial",
   "theorems": [
    "Verif.Vm.value_conserved_partial",
    "Verif.Vm.value_exact",
    "Verif.Vm.carrying_creates",
    "Verif.Vm.value_conserved",
    "Verif.Vm.burn_sources"
   ],
   "note": "Missing: the full statement is false. A user's send may carry a list of sends that nothing checks, and every hash of the list is one more open send of the same amount (carrying_creates: any multiple of an amount out of nothing). value_exact gives the exact change of value for every history of blocks of every kind; without such lists value is conserved, for all steps and all outcomes of contract code. burn_sources bounds what a block may burn."
  },
  {
   "property": "C02",
   "status": "proved",
   "theorems": [
    "Verif.Vm.unaffordable_send_rejected",
    "Verif.Vm.affordable_send_accepted",
    "Verif.Vm.balances_nonneg",
    "Verif.Vm.blkRun_nonneg"
   ],
   "note": ""
  },
  {
   "property": "C03",
   "status": "proved",
   "theorems": [
    "Verif.Vm.failed_call_refunded",
    "Verif.Vm.refund_delivered",
    "Verif.Vm.failed_creation_keeps_fee",
    "Verif.Vm.too_deep_call_keeps_value",
    "Verif.Vm.refused_refund_blocks"
   ],
   "note": "For calls of contracts. The last three theorems show where the claim does not hold: failed creations keep the fee, calls beyond the depth limit keep amount and fee, and a built-in caller that refuses the refund call blocks the receive."
  },
  {
   "property": "C04",
   "status": "proved",
   "theorems": [
    "Verif.Vm.only_reward_senders_mint",
    "Verif.Vm.reward_sends_are_official"
   ],
   "note": ""
  },
  {
   "property": "C05",
   "status": "proved",
   "theorems": [
    "Verif.Evm.run_terminates",
    "Verif.Evm.run_mono"
   ],
   "note": "Every run of every code with every quota q ends after at most 2q+1 rounds with at most q left; prices of all instructions are those of the three quota tables."
  },
  {
   "property": "C06",
   "status": "proved",
   "theorems": [
    "Verif.Evm.stack_limit",
    "Verif.Evm.underflow_aborts",
    "Verif.Evm.overflow_aborts",
    "Verif.Evm.step_stack",
    "Verif.Evm.stack_words",
    "Verif.Evm.crash_only_in_calls",
    "Verif.Evm.run_crash",
    "Verif.Evm.call_crashes"
   ],
   "note": "Stack length and word range in every reachable state. crash_only_in_calls: the interpreter panics only in a CALL/CALL2 whose input range leaves the memory; call_crashes shows that this defect is real."
  },
  {
   "property": "C07",
   "status": "proved",
   "theorems": [
    "Verif.Evm.hasDest_iff",
    "Verif.Evm.jump_lands",
    "Verif.Evm.jump_exact",
    "Verif.Evm.executed_are_instructions"
   ],
   "note": "The bitmap check accepts exactly the JUMPDEST instructions for every code below 2^62 bytes and every word; no immediate byte is ever executed (quota below 2^32; blocks have at most 10^6)."
  },
  {
   "property": "C08",
   "status": "partial",
   "theorems": [
    "Verif.Evm.Word.opAdd_spec",
    "Verif.Evm.Word.opMul_spec",
    "Verif.Evm.Word.opSub_spec",
    "Verif.Evm.Word.opDiv_spec",
    "Verif.Evm.Word.opMod_spec",
    "Verif.Evm.Word.opSdiv_spec",
    "Verif.Evm.Word.opSmod_spec",
    "Verif.Evm.Word.opAddmod_spec",
    "Verif.Evm.Word.opMulmod_spec",
    "Verif.Evm.Word.opExp_spec",
    "Verif.Evm.Word.opLt_spec",
    "Verif.Evm.Word.opGt_spec",
    "Verif.Evm.Word.opSlt_spec",
    "Verif.Evm.Word.opSgt_spec",
    "Verif.Evm.Word.opEq_spec",
    "Verif.Evm.Word.opIszero_spec",
    "Verif.Evm.Word.opAnd_spec",
    "Verif.Evm.Word.opOr_spec",
    "Verif.Evm.Word.opXor_spec",
    "Verif.Evm.Word.opNot_spec",
    "Verif.Evm.Word.opByte_spec",
    "Verif.Evm.Word.opSHL_spec",
    "Verif.Evm.Word.opSHR_spec",
    "Verif.Evm.Word.opSignExtend_spec",
    "Verif.Evm.Word.opSAR_spec_partial",
    "Verif.Evm.Word.opSAR_zero_wrong",
    "Verif.Evm.Word.opSAR_zero_wrong_all"
   ],
   "note": "All instructions proved against BitVec 256 except SAR, which the code gets wrong for value 0 and shift >= 256 (proved as a counterexample); missing: full SAR, false of the code."
  },
  {
   "property": "C09",
   "status": "partial",
   "theorems": [
    "Verif.Evm.memory_paid_partial",
    "Verif.Evm.memory_always_paid",
    "Verif.Evm.memory_frame",
    "Verif.Evm.call2_not_covered",
    "Verif.Evm.call2_unpaid",
    "Verif.Evm.call_data_free"
   ],
   "note": "Proved for every instruction except CALL2, for which it is false of the code (call2_not_covered, call2_unpaid); CALL also prices its data before growing the memory (call_data_free)."
  },
  {
   "property": "C10",
   "status": "proved",
   "theorems": [
    "Verif.Evm.refunds_le_charges",
    "Verif.Evm.quota_never_exceeds",
    "Verif.Evm.storage_write_limit"
   ],
   "note": "For all sequences of writes to all locations from all saved values, in each quota table; and in every state of every run the quota left is at most the initial one."
  },
  {
   "property": "C11",
   "status": "proved",
   "theorems": [
    "Verif.Vm.Quota.stake_quota_mono",
    "Verif.Vm.Quota.pow_quota_mono",
    "Verif.Vm.Quota.stake_quota_mono_qc",
    "Verif.Vm.Quota.stake_for_quota_exact",
    "Verif.Vm.Quota.stake_for_quota_exists",
    "Verif.Vm.Quota.target_loop_ends",
    "Verif.Vm.Quota.pow_difficulty_exact",
    "Verif.Vm.Quota.ratio_mainnet",
    "Verif.Vm.Quota.congestion_lowers_quota",
    "Verif.Vm.Quota.stakesMainnet_ordered",
    "Verif.Vm.Quota.difficultiesMainnet_ordered",
    "Verif.Vm.Quota.testnet_stake_too_small"
   ],
   "note": "For the main net's tables (generated from params.go) and any ordered table. testnet_stake_too_small: the test net's stake table has equal neighbours and there the property fails."
  },
  {
   "property": "C12",
   "status": "proved",
   "theorems": [
    "Verif.Vm.Quota.block_quota_limit",
    "Verif.Vm.Quota.no_second_pow",
    "Verif.Vm.Quota.failed_contract_waits",
    "Verif.Vm.Quota.block_quota_exact",
    "Verif.Vm.Quota.accumulation_le",
    "Verif.Vm.Quota.use_bounded",
    "Verif.Vm.Quota.total_fits",
    "Verif.Vm.Quota.used_split",
    "Verif.Vm.Quota.stake_use_le_grant"
   ],
   "note": "The accumulation is a bucket of 75 shares refilled by one share per snapshot (use_bounded, for a constant stake); total_fits shows that no uint64 sum overflows."
  },
  {
   "property": "C13",
   "status": "proved",
   "theorems": [
    "Verif.Evm.Word.safeAdd_spec",
    "Verif.Evm.Word.safeMul_spec"
   ],
   "note": "Overflow flag exact in both directions and result exact when clear."
  },
  {
   "property": "C14",
   "status": "proved",
   "theorems": [
    "Verif.Builtin.Stake.stakes_backed",
    "Verif.Builtin.Stake.beneficial_is_staked",
    "Verif.Builtin.Stake.backed_step",
    "Verif.Builtin.Stake.cancelled_stake_is_sent"
   ],
   "note": "All histories of the ledger in which the quota contract runs the code of the Earth upgrade (all old and new methods together). Start: storage in order and backed. genesis_index_reuse_loses_stake shows what goes wrong if a genesis block writes more records for one address than the contract chain has blocks."
  },
  {
   "property": "C15",
   "status": "proved",
   "theorems": [
    "Verif.Builtin.Stake.only_payer_gets_stake_back",
    "Verif.Builtin.Stake.only_due_stake_is_paid_out",
    "Verif.Builtin.Stake.due_stake_can_be_cancelled",
    "Verif.Builtin.Stake.due_old_stake_can_be_cancelled",
    "Verif.Builtin.Stake.new_stake_is_locked",
    "Verif.Builtin.Stake.lock_not_shortened"
   ],
   "note": "Finding: restake_shortens_lock (the old stake call brings the due height of a longer-locked stake forward; it stays the payer's own money)."
  },
  {
   "property": "C16",
   "status": "proved",
   "theorems": [
    "Verif.Builtin.Asset.supply_matches_ledger",
    "Verif.Builtin.Asset.records_ok",
    "Verif.Builtin.Asset.supply_in_range"
   ],
   "note": "recorded supply equals balances plus open sends for every token but VITE (fees of VITE are burned without a record, so there it is an upper bound); records in order, supplies within 2^256-1, re-issuable within max. Histories without sends that carry a list of sends: those create value outside the records (C01)."
  },
  {
   "property": "C17",
   "status": "proved",
   "theorems": [
    "Verif.Builtin.Asset.only_owner_changes_token",
    "Verif.Builtin.Asset.frozen_token_stays"
   ],
   "note": ""
  },
  {
   "property": "C18",
   "status": "proved",
   "theorems": [
    "Verif.Builtin.Gov.producing_address_has_one_name",
    "Verif.Builtin.Gov.ledger_producing_address_has_one_name"
   ],
   "note": "For every history of governance calls and every ledger history; past producing addresses included. Hypotheses (Bound, Sound, backing) hold of the empty contract and are invariants (bound_result, sound_result)."
  },
  {
   "property": "C19",
   "status": "proved",
   "theorems": [
    "Verif.Builtin.Gov.stakes_returned_once",
    "Verif.Builtin.Gov.revoke_needs",
    "Verif.Builtin.Gov.only_revoke_pays",
    "Verif.Builtin.Gov.expired_stake_can_be_revoked",
    "Verif.Builtin.Gov.second_revoke_fails",
    "Verif.Builtin.Gov.lock_is_set",
    "Verif.Builtin.Gov.lock_is_kept",
    "Verif.Builtin.Gov.registration_stakes_backed"
   ],
   "note": "Sum law over all histories, plus who, when, how much for a revoke, and backing of all stakes by the contract's VITE in every ledger history."
  },
  {
   "property": "C20",
   "status": "proved",
   "theorems": [
    "Verif.Builtin.Reward.day_rewards_bounded",
    "Verif.Builtin.Reward.rewards_of_point_bounded"
   ],
   "note": "For all vote and block statistics with at most as many produced as expected blocks per address (shown to be needed), the rewards of all producers of a day sum up to at most blocks times emission."
  },
  {
   "property": "C21",
   "status": "proved",
   "theorems": [
    "Verif.Builtin.NameList.list_stored",
    "Verif.Builtin.NameList.add_stored",
    "Verif.Builtin.NameList.delete_stored",
    "Verif.Builtin.NameList.delete_keeps_others"
   ],
   "note": "Strings are byte lists; the stored string of a list of valid names (no comma, not empty) under add, delete and list is list append, erase and enumeration."
  },
  {
   "property": "C22",
   "status": "proved",
   "theorems": [
    "Verif.Dex.price_order",
    "Verif.Dex.validPrice_text",
    "Verif.Dex.decompose_compose",
    "Verif.Dex.id_order_is_priority",
    "Verif.Dex.prefix_iff",
    "Verif.Dex.book_excludes_other_keys",
    "Verif.Dex.ids_unique",
    "Verif.Dex.price_text_roundtrip"
   ],
   "note": "Field widths (market id < 2^24, timestamp < 2^40, at most 2^24 orders per timestamp) are hypotheses: the id has exactly that many bytes for each field."
  },
  {
   "property": "C23",
   "status": "proved",
   "theorems": [
    "Verif.Dex.match_conserves_value"
   ],
   "note": "All books, takers, fee rates up to 0.2% each and all upgrade flags."
  },
  {
   "property": "C24",
   "status": "proved",
   "theorems": [
    "Verif.Dex.match_within_limits",
    "Verif.Dex.match_accounts_for_locked",
    "Verif.Dex.cancel_releases_locked",
    "Verif.Dex.orders_never_overfilled",
    "Verif.Dex.locked_backs_orders",
    "Verif.Dex.over_refund_before_fee_upgrade",
    "Verif.Dex.clear_expired_twice_breaks_solvency"
   ],
   "note": "Per match and for every history of the whole exchange under the current rules. The two negative theorems show the claim is false before the fee upgrade and, before version 11, when an expiry request repeats an id."
  },
  {
   "property": "C25",
   "status": "partial",
   "theorems": [
    "Verif.Dex.trades_at_acceptable_maker_price",
    "Verif.Dex.better_orders_consumed_partial",
    "Verif.Dex.price_time_priority_partial",
    "Verif.Dex.market_buy_priority",
    "Verif.Dex.market_buy_skips"
   ],
   "note": "Price part proved for all takers; strict priority is false for market buys (market_buy_skips) and proved for all others."
  },
  {
   "property": "C26",
   "status": "partial",
   "theorems": [
    "Verif.Dex.post_only_never_takes",
    "Verif.Dex.fill_or_kill_all_or_nothing_partial",
    "Verif.Dex.fill_or_kill_partially_filled"
   ],
   "note": "Post-only proved. Fill-or-kill is false at the 100-trade limit (fill_or_kill_partially_filled) and proved below it."
  },
  {
   "property": "C27",
   "status": "proved",
   "theorems": [
    "Verif.Dex.exchange_conserves_funds",
    "Verif.Dex.locked_backs_orders",
    "Verif.Dex.clear_expired_twice_breaks_solvency"
   ],
   "note": "Account components are naturals with checked subtraction in the model (no clamp reached: exceeded = false). The market table is fixed during a history. Negative theorem: repeated id in an expiry request before version 11 makes the exchange insolvent."
  },
  {
   "property": "C28",
   "status": "proved",
   "theorems": [
    "Verif.Dex.dividend_shares",
    "Verif.Dex.past_is_history",
    "Verif.Dex.percent_err"
   ],
   "note": "For every history with periods: the holders are those with the threshold at the end of the period; together they get exactly the pot, each the share up to one unit per holder; VITE is burnt. past_is_history ties the holders to what was locked when the period ended."
  },
  {
   "property": "C29",
   "status": "proved",
   "theorems": [
    "Verif.Dex.unlocking_promised",
    "Verif.Dex.unlock_released",
    "Verif.Dex.unlock_noted",
    "Verif.Dex.unlock_log_only"
   ],
   "note": "A finish job is never refused in its turn and pays exactly the requests that became due since the last one."
  },
  {
   "property": "C30",
   "status": "partial",
   "theorems": [
    "Verif.Dex.failed_stake_refunded_partial",
    "Verif.Dex.failed_mining_stake_lost",
    "Verif.Dex.failed_mining_stake_not_refunded"
   ],
   "note": "False of the code for mining stakes: the amount check is inverted (contracts_dex_fund.go:888-892), so the answer is refused and nothing is credited. Proved for VIP and super VIP stakes."
  },
  {
   "property": "C31",
   "status": "proved",
   "theorems": [
    "Verif.Text.meta_roundtrip",
    "Verif.Text.meta_legacy",
    "Verif.Text.meta_inj",
    "Verif.Text.meta_panics_iff"
   ],
   "note": "The legacy 44-byte form is read with seed-confirmed times equal to the send-confirmed times."
  },
  {
   "property": "C32",
   "status": "proved",
   "theorems": [
    "Verif.Text.address_accepted",
    "Verif.Text.address_roundtrip",
    "Verif.Text.address_texts_differ",
    "Verif.Text.other_kind_refused",
    "Verif.Text.token_accepted",
    "Verif.Text.token_roundtrip",
    "Verif.Text.token_texts_differ",
    "Verif.Text.bytes_accepted",
    "Verif.Text.bytes_roundtrip",
    "Verif.Text.address_json_roundtrip",
    "Verif.Text.token_json_roundtrip",
    "Verif.Text.text_not_read_back"
   ],
   "note": "For any checksum function. Finding: what MarshalText writes of a token id or address UnmarshalText never reads."
  },
  {
   "property": "C33",
   "status": "partial",
   "theorems": [
    "Verif.Abi.roundtrip_partial",
    "Verif.Abi.pack_inj",
    "Verif.Abi.method_roundtrip_partial",
    "Verif.Abi.event_roundtrip_partial",
    "Verif.Abi.unpack_no_panic",
    "Verif.Abi.unpack_typed",
    "Verif.Abi.other_method_refused",
    "Verif.Abi.negative_lost",
    "Verif.Abi.large_lost",
    "Verif.Abi.strings_lost",
    "Verif.Abi.after_strings_lost",
    "Verif.Abi.method_without_arguments",
    "Verif.Abi.missing_topic_panics",
    "Verif.Abi.long_fixed_panics",
    "Verif.Abi.readBool_strict"
   ],
   "note": "The property as stated is false of the code, and the counterexamples are proved: negative numbers of sizes other than 8, 16, 32, 64 bits, numbers of 2^256 and more, lists of strings or bytes, methods without arguments. For all other values of all non-nested types the round trip is proved with any bytes following. Missing: nested lists (the code allows one level of brackets only through NewType), reflection into structs."
  },
  {
   "property": "C34",
   "status": "proved",
   "theorems": [
    "Verif.Consensus.elected_all",
    "Verif.Consensus.elected_exact",
    "Verif.Consensus.elected_addresses",
    "Verif.Consensus.elected_mostly_top",
    "Verif.Consensus.elect_order_independent",
    "Verif.Consensus.exchanged_for_cause",
    "Verif.Consensus.bad_rate_demotes",
    "Verif.Consensus.unknown_rate_shields_bad",
    "Verif.Consensus.one_node_panics",
    "Verif.Consensus.rank_below_count_panics"
   ],
   "note": "For every list of candidates, table of rates, seed and generator. Needs a rank not below the number of nodes and at least two nodes; without either the code panics (rank_below_count_panics, one_node_panics). An unknown success rate shields a bad one (unknown_rate_shields_bad)."
  },
  {
   "property": "C35",
   "status": "proved",
   "theorems": [
    "Verif.Consensus.index_exact",
    "Verif.Consensus.index_of_start",
    "Verif.Consensus.rounds_contiguous",
    "Verif.Consensus.before_genesis_far",
    "Verif.Consensus.plan_exact",
    "Verif.Consensus.plan_within",
    "Verif.Consensus.slots_disjoint",
    "Verif.Consensus.slots_cover",
    "Verif.Consensus.slots_equal_share",
    "Verif.Consensus.producer_unique",
    "Verif.Consensus.producer_exact",
    "Verif.Consensus.slot_accepted"
   ],
   "note": "Times in whole seconds. Slots cover a round only if all places are taken, as the code leaves gaps otherwise; plan_exact gives every slot. A time before genesis is given a round of the far future (before_genesis_far)."
  },
  {
   "property": "C36",
   "status": "proved",
   "theorems": [
    "Verif.Stats.statistics_exact",
    "Verif.Stats.list_exact",
    "Verif.Stats.election_exact",
    "Verif.Stats.sum_of_rounds",
    "Verif.Stats.factual_le_expected",
    "Verif.Stats.rate_exact",
    "Verif.Stats.rate_in_range",
    "Verif.Stats.rate_wraps"
   ],
   "note": "After any history of queries, forks, rollbacks and evictions the point of a round, hour or day equals the counts taken from the chain alone (truthOf), the list of points has exactly the non-empty ones, and elections (which ask for success rates, which ask for elections of earlier rounds) use the true rates. Hour and day counts are sums over rounds. Rounds in which nobody produced add no expected blocks (that is what the code does, and what truth says). The success rate is exact up to 4294 blocks and wraps beyond (rate_wraps). Assumes an injective block hash and that a round divides an hour."
  },
  {
   "property": "C37",
   "status": "partial",
   "theorems": [
    "Verif.Chain.used_list_exact_partial",
    "Verif.Chain.used_list_exact_shallow_partial",
    "Verif.Chain.global_used_exact_partial",
    "Verif.Chain.global_used_exact_shallow_partial",
    "Verif.Chain.nodes_agree_partial",
    "Verif.Chain.snapshot_never_panics",
    "Verif.Chain.rollback_puts_twice",
    "Verif.Chain.rollback_counts_twice",
    "Verif.Chain.rollback_to_genesis_loses",
    "Verif.Chain.rollback_to_genesis_empties",
    "Verif.Chain.global_quota_total_drifts"
   ],
   "note": "False of the code without a condition on rollbacks: a rollback that leaves 1..74 cached snapshots counts one snapshot twice (proved in general and by example), a rollback to the genesis detaches the shown list, QuotaTotal drifts when a requoted block is thrown out. Proved for every history whose rollbacks avoid this, in particular for every node started at height 600 or more whose rollbacks end less than 525 below the highest snapshot since start."
  },
  {
   "property": "C38",
   "status": "proved",
   "theorems": [
    "Verif.Store.crash_atomic",
    "Verif.Store.commit_not_lost",
    "Verif.Store.recovery_succeeds_partial",
    "Verif.Store.log_read_back",
    "Verif.Store.log_cut",
    "Verif.Store.batch_read_back",
    "Verif.Store.node_never_fails",
    "Verif.Store.log_failure_panics",
    "Verif.Store.recovery_without_store_not_atomic",
    "Verif.Store.power_loss_not_atomic"
   ],
   "note": "All stores and the block files together, over all histories with any number of crashes, also during recovery. The process stops; the configuration stays the same. Findings: a store switched off between crash and restart breaks it (recovery_without_store_not_atomic), a loss of power can (power_loss_not_atomic), a failed write of the redo log makes the next flush panic (log_failure_panics), and recovery itself can panic (C51)."
  },
  {
   "property": "C39",
   "status": "proved",
   "theorems": [
    "Verif.Dex.available_spent_only_by_owner",
    "Verif.Dex.transfer_delivers",
    "Verif.Dex.order_touched_only_by_owner_or_trade"
   ],
   "note": "grants to agents are the step being taken in the holder's name"
  },
  {
   "property": "C40",
   "status": "proved",
   "theorems": [
    "Verif.Builtin.Gov.withdrawal_pays_payable",
    "Verif.Builtin.Gov.cycles_paid_once",
    "Verif.Builtin.Gov.emission_bounded",
    "Verif.Builtin.Gov.nothing_lost",
    "Verif.Builtin.Gov.reregister_needs_all_paid",
    "Verif.Builtin.Gov.lost_panic_pays_twice",
    "Verif.Builtin.Gov.early_withdrawal_gains_a_cycle"
   ],
   "note": "Assumes the statistics are read without a panic: lost_panic_pays_twice proves that a panic inside CalcReward is swallowed and makes all cycles payable again. early_withdrawal_gains_a_cycle: an early withdrawal moves the reward time back to the last cycle boundary (the cycle is still paid once)."
  },
  {
   "property": "C41",
   "status": "proved",
   "theorems": [
    "Verif.Builtin.Gov.owner_is_forever",
    "Verif.Builtin.Gov.only_owner_manages",
    "Verif.Builtin.Gov.only_voter_votes",
    "Verif.Builtin.Gov.vote_counts",
    "Verif.Builtin.Gov.vote_cancelled"
   ],
   "note": "For every state and call."
  },
  {
   "property": "C42",
   "status": "proved",
   "theorems": [
    "Verif.Builtin.Gov.withdraw_list_exact",
    "Verif.Builtin.Gov.names_are_valid"
   ],
   "note": "From the empty contract (ListsOk holds there) over every history."
  },
  {
   "property": "C43",
   "status": "partial",
   "theorems": [
    "Verif.Evm.step_refines",
    "Verif.Evm.stop_refines",
    "Verif.Evm.run_refines_partial",
    "Verif.Evm.run_refines",
    "Verif.Evm.eval_unique",
    "Verif.Evm.sar_differs",
    "Verif.Evm.call2_unpaid"
   ],
   "note": "False without exception: SAR of zero by 256 or more and CALL2 with input outside the memory in use differ (counterexamples proved). Proved for every run that meets neither, and without exception for code that lacks these two opcodes."
  },
  {
   "property": "C44",
   "status": "proved",
   "theorems": [
    "Verif.Evm.more_quota_same_run",
    "Verif.Evm.result_independent_of_quota"
   ],
   "note": "For all codes and quotas below 2^32."
  },
  {
   "property": "C45",
   "status": "proved",
   "theorems": [
    "Verif.Evm.price_exact"
   ],
   "note": "Storage writes are C10; the price of calls has two defects recorded under C09."
  },
  {
   "property": "C46",
   "status": "proved",
   "theorems": [
    "Verif.Vm.Quota.receive_scheduled_iff",
    "Verif.Vm.Quota.not_waiting_gets_quota",
    "Verif.Vm.Quota.work_pays_first",
    "Verif.Vm.Quota.quota_used_exact"
   ],
   "note": ""
  },
  {
   "property": "C47",
   "status": "proved",
   "theorems": [
    "Verif.Dex.exchange_solvent",
    "Verif.Dex.period_zero_maker_job_repeats"
   ],
   "note": "The exception of period 0 is proved to be needed."
  },
  {
   "property": "C48",
   "status": "proved",
   "theorems": [
    "Verif.Dex.stake_return_accepted",
    "Verif.Dex.cancelled_stake_released",
    "Verif.Dex.cancelling_promised"
   ],
   "note": "Over all histories."
  },
  {
   "property": "C49",
   "status": "proved",
   "theorems": [
    "Verif.Dex.staking_mining_shares",
    "Verif.Dex.past_is_history",
    "Verif.Dex.stake_amounts"
   ],
   "note": "Over all histories; who staked is what was staked when the period ended."
  },
  {
   "property": "C50",
   "status": "proved",
   "theorems": [
    "Verif.Store.write_location",
    "Verif.Store.read_raw_exact",
    "Verif.Store.entry_read_back",
    "Verif.Store.read_range_exact",
    "Verif.Store.restart_exact",
    "Verif.Store.recover_exact",
    "Verif.Store.evicted_flush_fails"
   ],
   "note": "Histories of steps that did not panic; while a flush is under way, less than ten files are written (otherwise evicted_flush_fails). The codec of blocks is C01."
  },
  {
   "property": "C51",
   "status": "partial",
   "theorems": [
    "Verif.Store.files_never_fail_partial",
    "Verif.Store.no_room_fails",
    "Verif.Store.small_flush_recovers",
    "Verif.Store.rollback_after_restart_panics",
    "Verif.Store.recovery_panics"
   ],
   "note": "False of the code: a rollback (or recovery) over two or more files that are not in memory panics; after a restart only one file is in memory. Proved with the exact condition."
  },
  {
   "property": "C52",
   "status": "proved",
   "theorems": [
    "Verif.Store.reads_exact",
    "Verif.Store.view_is_confirmed_and_pending",
    "Verif.Store.string_exact"
   ],
   "note": "Point reads. The order of confirmed and unconfirmed changes is free only where they do not touch the same key (KvSpec.Allowed), as the ledger guarantees."
  },
  {
   "property": "C53",
   "status": "proved",
   "theorems": [
    "Verif.State.never_panics",
    "Verif.State.redo_kept",
    "Verif.State.storage_exact",
    "Verif.State.balance_exact",
    "Verif.State.snapshot_storage_exact",
    "Verif.State.snapshot_balance_exact",
    "Verif.State.once_exact",
    "Verif.State.reads_by_ledger",
    "Verif.State.view_is_confirmed_and_pending",
    "Verif.State.Key.bytes_inj",
    "Verif.State.hist_order",
    "Verif.State.hist_contiguous",
    "Verif.State.seek_prev_exact",
    "Verif.State.seek_prev_none",
    "Verif.State.last_in_range_exact"
   ],
   "note": "Over all histories (Hist): inserts, snapshots, deletions, restarts, rollbacks covered by the redo log. view_is_confirmed_and_pending discharges for this database the condition under which C52 holds."
  },
  {
   "property": "C54",
   "status": "partial",
   "theorems": [
    "Verif.State.never_panics",
    "Verif.State.storage_exact",
    "Verif.State.balance_exact",
    "Verif.State.redo_dropped",
    "Verif.State.deep_rollback_leaves",
    "Verif.State.deep_rollback_wrong",
    "Verif.State.rollback_exact_partial"
   ],
   "note": "False of the code: deep_rollback_wrong is a history where a rollback below the redo log leaves a storage slot set. Proved where the first storage key of each account rolled back was set by the target height (DeepSafe, part of Hist)."
  },
  {
   "property": "C55",
   "status": "partial",
   "theorems": [
    "Verif.State.Gid.listed",
    "Verif.State.Gid.list_exact_partial",
    "Verif.State.Gid.deleted_stays_listed",
    "Verif.State.Gid.rolled_back_stays_listed",
    "Verif.State.Gid.redo_lists_a_stranger"
   ],
   "note": "No contract is ever missing (listed, all histories). Exact if nothing was taken back. False otherwise: entries are never removed, and a rollback writes one under a wrong key (three negations)."
  },
  {
   "property": "C56",
   "status": "partial",
   "theorems": [
    "Verif.Snap.seed_check_sound",
    "Verif.Snap.seed_unchecked",
    "Verif.Snap.any_seed_accepted",
    "Verif.Snap.uncommitted_accepted",
    "Verif.Snap.producer_controls_random",
    "Verif.Snap.random_of_choice"
   ],
   "note": "The code does not keep the property: the check exists but its result is dropped. Proved: the dropped check would suffice; the verdict does not depend on the seed; with any seed the block is accepted; the producer of a block chooses the random number at it."
  },
  {
   "property": "C57",
   "status": "partial",
   "theorems": [
    "Verif.Snap.before_exact",
    "Verif.Snap.lastBefore_unique",
    "Verif.Snap.before_ends",
    "Verif.Snap.before_answers",
    "Verif.Snap.before_hangs",
    "Verif.Snap.half_second_hangs",
    "Verif.Snap.from_exact",
    "Verif.Snap.producer_filter_empty"
   ],
   "note": "Whenever it answers it is exact; it answers for whole seconds. For some times within a second it never ends (before_hangs); with a producer filter the list is always empty (producer_filter_empty)."
  },
  {
   "property": "C58",
   "status": "proved",
   "theorems": [
    "Verif.Snap.accepted_iff",
    "Verif.Snap.chain_shape",
    "Verif.Snap.chain_elected",
    "Verif.Snap.round_share",
    "Verif.Snap.same_hash_same_history",
    "Verif.Snap.genesis_stays"
   ],
   "note": "For every hash function and election; the signature is left out."
  },
  {
   "property": "C59",
   "status": "proved",
   "theorems": [
    "Verif.Snap.random_exact",
    "Verif.Snap.random_agreed",
    "Verif.Snap.limit_exact",
    "Verif.Snap.limit_error",
    "Verif.Snap.limit_stays",
    "Verif.Snap.seed_stays",
    "Verif.Snap.seed_differs"
   ],
   "note": "After the seed fork."
  },
  {
   "property": "C60",
   "status": "proved",
   "theorems": [
    "Verif.Lattice.chains_linked",
    "Verif.Lattice.confirmed_closed",
    "Verif.Lattice.accepts_exact",
    "Verif.Lattice.insert_exact",
    "Verif.Lattice.latest_none",
    "Verif.Lattice.node_goes_on"
   ],
   "note": "For blocks whose hashes do not collide, sends without a send list, and snapshots with closed content (see C61 for what happens otherwise). Signature, work, quota and VM checks are an oracle (Cfg.legal)."
  },
  {
   "property": "C61",
   "status": "partial",
   "theorems": [
    "Verif.Lattice.received_once_partial",
    "Verif.Lattice.attached_send_received_twice",
    "Verif.Lattice.attached_send_stays",
    "Verif.Lattice.open_snapshot_orphan",
    "Verif.Lattice.open_snapshot_received_twice"
   ],
   "note": "Missing: the full statement is false. A user's send block may carry a send list that nothing checks, so that its amount can be received again under every attached hash; and a snapshot may confirm a receive without its send, after which the send can be lost and received again. Both are proved by witnesses; without them the property is proved over all histories."
  },
  {
   "property": "C62",
   "status": "proved",
   "theorems": [
    "Verif.Lattice.delete_exact",
    "Verif.Lattice.delete_height_exact",
    "Verif.Lattice.snapshot_exact",
    "Verif.Lattice.rollback_exact",
    "Verif.Lattice.snapshots_numbered",
    "Verif.Lattice.restart_confirmed"
   ],
   "note": "Under the hypotheses of C60. Rollback to height 1 or 0 dereferences a nil error in the code (ledger/chain/delete.go:38-44); the model refuses it."
  },
  {
   "property": "C63",
   "status": "proved",
   "theorems": [
    "Verif.Lattice.by_hash_exact",
    "Verif.Lattice.by_height_exact",
    "Verif.Lattice.latest_exact",
    "Verif.Lattice.is_received_exact",
    "Verif.Lattice.receiver_exact",
    "Verif.Lattice.on_road_exact",
    "Verif.Lattice.confirm_height_exact",
    "Verif.Lattice.confirmed_times_exact",
    "Verif.Lattice.answers_determined"
   ],
   "note": "Under the hypotheses of C60."
  },
  {
   "property": "C64",
   "status": "proved",
   "theorems": [
    "Verif.Lattice.need_covers",
    "Verif.Lattice.need_closed",
    "Verif.Lattice.own_snapshot_accepted"
   ],
   "note": "Under the hypotheses of C60; time and producer of the snapshot are C56/C57/C34."
  },
  {
   "property": "C65",
   "status": "proved",
   "theorems": [
    "Verif.Road.pool_never_panics",
    "Verif.Road.pool_exact",
    "Verif.Road.pool_contracts",
    "Verif.Road.front_exact",
    "Verif.Road.front_none",
    "Verif.Road.is_front_exact",
    "Verif.Road.pair_cancels"
   ],
   "note": "for blocks whose hashes do not collide and sends without send lists (Sound), as for C61"
  },
  {
   "property": "C66",
   "status": "proved",
   "theorems": [
    "Verif.Road.received_in_order",
    "Verif.Road.in_turn_exact",
    "Verif.Road.front_one"
   ],
   "note": "on the node model of C65: the check consults the pool"
  },
  {
   "property": "C67",
   "status": "partial",
   "theorems": [
    "Verif.Road.offered_front",
    "Verif.Road.offered_exact_partial",
    "Verif.Road.offered_after_restart",
    "Verif.Road.send_brings_back",
    "Verif.Road.hidden_caller",
    "Verif.Road.receive_hides_only_last"
   ],
   "note": "soundness holds; completeness is false of the code (hidden_caller): the set of callers is shared by all contracts; it holds after a restart and after a further send of the account"
  },
  {
   "property": "C68",
   "status": "partial",
   "theorems": [
    "Verif.Fork.never_panics_partial",
    "Verif.Fork.main_continues_chain",
    "Verif.Fork.all_stem_from_main",
    "Verif.Fork.stale_switch",
    "Verif.Fork.stale_brother"
   ],
   "note": "Proved for all operations but switches to a branch that adds nothing to the branches it stems from: the code makes such switches (stale_switch, stale_brother) and then the main branch is not among the branches of the tree. Hash uniqueness is a hypothesis (Uniq)."
  },
  {
   "property": "C69",
   "status": "proved",
   "theorems": [
    "Verif.Fork.branch_is_chain",
    "Verif.Fork.blocks_stay",
    "Verif.Fork.goes_only_if",
    "Verif.Fork.nothing_lost",
    "Verif.Fork.chain_changes"
   ],
   "note": "For the trees of Reach, that is without the switches of the finding under C68."
  },
  {
   "property": "C70",
   "status": "proved",
   "theorems": [
    "Verif.Fork.fork_point_exact",
    "Verif.Fork.guard_exact",
    "Verif.Fork.switch_makes_main",
    "Verif.Fork.switch_to_empty",
    "Verif.Fork.fork_to_branch"
   ],
   "note": "For a branch that has a block beyond the branches it stems from, or none of its own; for the others see stale_switch."
  },
  {
   "property": "C71",
   "status": "partial",
   "theorems": [
    "Verif.Settle.reported_exact",
    "Verif.Settle.highest_unique",
    "Verif.Settle.never_panics_partial",
    "Verif.Settle.long_first_round_panics"
   ],
   "note": "Exact for every reached state. Missing: the query panics on a chain whose first round has more blocks than make a quorum (long_first_round_panics)."
  },
  {
   "property": "C72",
   "status": "partial",
   "theorems": [
    "Verif.Settle.fork_exact",
    "Verif.Settle.final_not_removed",
    "Verif.Settle.final_lost_only_by",
    "Verif.Settle.reported_monotone",
    "Verif.Settle.quorums_meet",
    "Verif.Settle.quorums_of_five",
    "Verif.Settle.two_forks_remove"
   ],
   "note": "The decision is exact and no operation removes a block that is irreversible at the moment. The last sentence is false: two forks remove a block that was reported (two_forks_remove); a block ceases to be irreversible only by a fork within its own round."
  },
  {
   "property": "C73",
   "status": "partial",
   "theorems": [
    "Verif.Block.hash_fixes_head",
    "Verif.Block.hash_fixes_plain",
    "Verif.Block.hash_fixes_user_receive",
    "Verif.Block.hash_fixes_contract_receive",
    "Verif.Block.hash_fixes_same_shape",
    "Verif.Block.hash_of_same",
    "Verif.Block.send_hash_apart",
    "Verif.Block.send_hash_fixes",
    "Verif.Block.send_hash_wraps",
    "Verif.Block.verifyHash_sends",
    "Verif.Block.contract_sends_fixed",
    "Verif.Block.hash_ignores",
    "Verif.Block.accepted_parts",
    "Verif.Block.accepted_sends_agree",
    "Verif.Block.accepted_fee",
    "Verif.Block.two_sends_one_hash",
    "Verif.Block.two_accepted"
   ],
   "note": "Proved for sends without logs and lists, for users' receives, for contracts' receives, and for the sends of contracts. False in general: a user's send with a log hash and one with an attached send can have one hash, and both are accepted (two_sends_one_hash, two_accepted). Place of a contract's send only modulo 256 (send_hash_wraps); amounts without their sign; no nonce hashes like eight zeros."
  },
  {
   "property": "C74",
   "status": "proved",
   "theorems": [
    "Verif.Block.content_order",
    "Verif.Block.snapshot_hash_iff",
    "Verif.Block.snapshot_hash_ignores",
    "Verif.Block.seed_hash_fixes"
   ],
   "note": "Exact characterisation of equal hashes; sorting is shown not to depend on the order or on the sorting algorithm."
  },
  {
   "property": "C75",
   "status": "partial",
   "theorems": [
    "Verif.Block.delivered",
    "Verif.Block.delivered_eq",
    "Verif.Block.round_trip",
    "Verif.Block.delivered_hash",
    "Verif.Block.contentOf_items",
    "Verif.Block.snapshot_round_trip",
    "Verif.Block.faulty_unsigned",
    "Verif.Block.first_changed",
    "Verif.Block.fault_hidden",
    "Verif.Block.read_exact"
   ],
   "note": "Round trip proved for regular blocks, exact account of what is lost otherwise. The last sentence is false: Deserialize drops the error of DeProto, and a message with a faulty attached send is read as a block without signature (fault_hidden)."
  },
  {
   "property": "C76",
   "status": "partial",
   "theorems": [
    "Verif.Block.log_hash_fixes_partial",
    "Verif.Block.log_hash_fixes_bytes",
    "Verif.Block.logs_one_hash"
   ],
   "note": "The hash fixes the bytes of all logs, one after the other, and the logs if numbers of topics and lengths of data agree. The full statement is false (logs_one_hash): topics and data are hashed without any separation."
  },
  {
   "property": "C77",
   "status": "partial",
   "theorems": [
    "Verif.Iter.iterate_exact",
    "Verif.Iter.iterate_back",
    "Verif.Iter.iterate_from",
    "Verif.Iter.seek_decoded",
    "Verif.Iter.getValue_writes",
    "Verif.Iter.read_forward",
    "Verif.Iter.read_backward",
    "Verif.Iter.read_from",
    "Verif.Iter.Examples.turn_loses",
    "Verif.Iter.Examples.turn_loses_after_last",
    "Verif.Iter.Examples.empty_key_skipped",
    "Verif.Iter.Examples.zero_prefix"
   ],
   "note": "Proved for readings in one direction (Next from the start, Seek then Next, Last then Prev, also after any steps before), for any two sources and any writes of the block, for prefixes that do not end in a zero byte and slots whose key is not empty. The rest is false: a reader that turns round twice loses slots, a slot with the empty key is not listed, a prefix that ends in a zero byte lists shorter saved keys. Not modelled: writes while the iterator is open, read errors."
  },
  {
   "property": "C78",
   "status": "proved",
   "theorems": [
    "Verif.Iter.snapshot_iterate",
    "Verif.Iter.snapshot_iterate_back",
    "Verif.Iter.snapshot_iterate_from",
    "Verif.Iter.snapshot_step",
    "Verif.Iter.snapshot_first",
    "Verif.Iter.isAt_iff",
    "Verif.Iter.Examples.emptied_listed"
   ],
   "note": "Slots that were emptied are listed with the empty value (emptied_listed), as the statement says. Heights below 2^64-1. Read errors are not modelled."
  },
  {
   "property": "C79",
   "status": "partial",
   "theorems": [
    "Verif.RCache.balance_right",
    "Verif.RCache.balance_unknown",
    "Verif.RCache.storage_right",
    "Verif.RCache.cache_never_fails",
    "Verif.RCache.recorded_value",
    "Verif.RCache.recordOf_recorded",
    "Verif.RCache.database_list",
    "Verif.RCache.Examples.start_wrong",
    "Verif.RCache.Examples.deleted_stays"
   ],
   "note": "Proved for all histories in which the cache starts with few rounds or with rounds of one block, and for a node whose headers came in the order the code expects. False for the code as it is when it starts with a round of several blocks: the headers of a round come highest first (start_wrong, deleted_stays). Reading from a key on (Seek) and prefixes of the cached iterator, concurrency and MemPool are not modelled."
  },
  {
   "property": "C80",
   "status": "partial",
   "theorems": [
    "Verif.Net.read_write",
    "Verif.Net.readAll_writeAll",
    "Verif.Net.read_more",
    "Verif.Net.cut_short",
    "Verif.Net.read_bounds",
    "Verif.Net.large_misread",
    "Verif.Net.large_panics"
   ],
   "note": "Proved for ids below 2^32 and contents that take less than 2^24 bytes as sent, for every compression that gives back what it compressed. False for larger contents: WriteMsg does not test the size; the reader then sees a message without content and reads the content as messages (large_misread), or the sender panics (large_panics)."
  },
  {
   "property": "C81",
   "status": "partial",
   "theorems": [
    "Verif.Net.honest_pair",
    "Verif.Net.receive_iff",
    "Verif.Net.authorize_iff",
    "Verif.Net.accepted_knows",
    "Verif.Net.odd_key_panics",
    "Verif.Net.odd_key_panics_caller",
    "Verif.Net.echo_accepted",
    "Verif.Net.overheard_forges",
    "Verif.Net.replay",
    "Verif.Net.producer_impersonated"
   ],
   "note": "Honest parties and the exact conditions of acceptance are proved. The rest of the statement is false of the code: a message with a key of odd length stops the node, a caller accepts its own message back under any id, a message heard once can be repeated or altered, and with an id of small order anyone is taken for a producer."
  },
  {
   "property": "C82",
   "status": "partial",
   "theorems": [
    "Verif.Sync.plan_tiles",
    "Verif.Sync.plan_room_partial",
    "Verif.Sync.plan_deletes",
    "Verif.Sync.plan_small",
    "Verif.Sync.constructTasks_leads",
    "Verif.Sync.edge_refused"
   ],
   "note": "Tasks and kept chunks lead from the own block to the last point; deletions and sizes are as stated. Room in the cache is proved when no chunk begins at the last point; edge_refused shows that such a chunk is kept although a task asks for its first block, so the cache refuses the task."
  },
  {
   "property": "C83",
   "status": "partial",
   "theorems": [
    "Verif.Sync.cache_stored",
    "Verif.Sync.cache_takes_iff",
    "Verif.Sync.cache_refines_partial",
    "Verif.Sync.restart_unreadable",
    "Verif.Sync.restart_listed",
    "Verif.Sync.second_restart_empty"
   ],
   "note": "While the node runs the cache is a list of chunks with their contents (all interleavings). Over a restart the claim fails: the files are deleted, the chunks stay listed but cannot be read, and after two nothing is listed. Assumes that writers get distinct file names (FairAll)."
  },
  {
   "property": "C84",
   "status": "partial",
   "theorems": [
    "Verif.Sync.read_whole_partial",
    "Verif.Sync.black_cuts",
    "Verif.Sync.black_truncated",
    "Verif.Sync.second_end"
   ],
   "note": "Proved for files without black-listed blocks. A black-listed block ends the reading and what was read counts as the whole chunk; a second block of the last height replaces the first."
  },
  {
   "property": "C85",
   "status": "partial",
   "theorems": [
    "Verif.Sync.serve_back",
    "Verif.Sync.serve_forward_partial",
    "Verif.Sync.serve_account",
    "Verif.Sync.serve_unknown",
    "Verif.Sync.points_exact",
    "Verif.Sync.answer_covers",
    "Verif.Sync.large_count_panics",
    "Verif.Sync.zero_step_panics",
    "Verif.Sync.other_fork_answered"
   ],
   "note": "Proved for all requests with counts up to 2^50, steps above 0 and a common block. Larger counts and step 0 stop the node with a panic; a node without any common block answers as if it had one when it has another block at the last of the heights."
  },
  {
   "property": "C86",
   "status": "partial",
   "theorems": [
    "Verif.Sync.majority_leads",
    "Verif.Sync.target_height",
    "Verif.Sync.end_ahead",
    "Verif.Sync.one_extends",
    "Verif.Sync.first_sets_heights"
   ],
   "note": "The majority decides the hashes of the way as far as its list goes, for every order. Missing: one peer can lengthen the way after the end of that list (one_extends), and the first peer to answer sets the heights of the points (first_sets_heights)."
  },
  {
   "property": "C87",
   "status": "partial",
   "theorems": [
    "Verif.Sync.round_keeps",
    "Verif.Sync.round_first",
    "Verif.Sync.none_lost",
    "Verif.Sync.lowest_runs",
    "Verif.Sync.all_done",
    "Verif.Sync.limit_exceeded"
   ],
   "note": "Nothing is lost, the lowest unfinished task is always under way and all get done, for all histories. The limit on the number of downloads fails (limit_exceeded)."
  },
  {
   "property": "C88",
   "status": "partial",
   "theorems": [
    "Verif.Sync.choice_fits",
    "Verif.Sync.choice_found",
    "Verif.Sync.removed_exact",
    "Verif.Sync.pool_exact_partial",
    "Verif.Sync.second_removal",
    "Verif.Sync.refused_removes",
    "Verif.Sync.blocked_chosen",
    "Verif.Sync.ban_forever"
   ],
   "note": "Sources have the blocks and are idle, and one is found if there is one outside the black list. Removal is exact when the pool is sorted after each removal; two removals in a row remove a wrong connection. The black list works the wrong way round: blocked peers are chosen, and those whose time is over never again."
  },
  {
   "property": "C89",
   "status": "partial",
   "theorems": [
    "Verif.Sync.callback_once",
    "Verif.Sync.clean_removes",
    "Verif.Sync.fetch_asks",
    "Verif.Sync.silent_forever",
    "Verif.Sync.silent_start",
    "Verif.Sync.any_block_counts",
    "Verif.Sync.others_deny",
    "Verif.Sync.no_peers_suppress",
    "Verif.Sync.stale_hash_doubles"
   ],
   "note": "Questions are answered exactly once and who is asked is exactly characterised, for all histories. Fails: peers that do not answer once are never asked again for a block that is wanted steadily; any block counts as the answer; other peers can deny; a wish without peers suppresses the next; a reused record makes a block be asked for twice."
  },
  {
   "property": "C90",
   "status": "partial",
   "theorems": [
    "Verif.Batch.refs_first",
    "Verif.Batch.taken_inserted",
    "Verif.Batch.snapshots_cut",
    "Verif.Batch.one_worker_each",
    "Verif.Batch.refused_unchanged",
    "Verif.Batch.snapshot_ref_panics"
   ],
   "note": "The order, wholeness, separation of accounts and the effect of a refusal hold for every batch and every interleaving. Fails: an account block that receives from the hash of a snapshot block in the same batch stops the node."
  },
  {
   "property": "C91",
   "status": "partial",
   "theorems": [
    "Verif.Batch.topo_ordered",
    "Verif.Batch.topo_complete",
    "Verif.Batch.topo_twice_panics",
    "Verif.Batch.topo_twice_cycle"
   ],
   "note": "Order, completeness and absence of panics hold for all lists of blocks with distinct hashes; with the same block twice sorting can panic or report a cycle that is not there (the reader of chunks does not let such lists through)."
  },
  {
   "property": "C92",
   "status": "proved",
   "theorems": [
    "Verif.Batch.chunks_inserted"
   ],
   "note": "For every ledger and every list of chunks with a valid order. The insertion of one batch is a parameter (`fine`); that its blocks enter the ledger in a valid order is C90."
  },
  {
   "property": "C93",
   "status": "proved",
   "theorems": [
    "Verif.Batch.snapshot_queued"
   ],
   "note": "For every iteration order of every pass. Which blocks an account still has to deliver (genForSnapshotContents) is not modelled: the theorem is about the stacks it gives."
  },
  {
   "property": "C94",
   "status": "proved",
   "theorems": [
    "Verif.Batch.check_exact",
    "Verif.Batch.chunk_fate"
   ],
   "note": "A hash stands for its block (no collisions). The blocks of a chunk are linked, which the reader of chunks checks."
  },
  {
   "property": "C95",
   "status": "partial",
   "theorems": [
    "Verif.Plug.store_exact",
    "Verif.Plug.info_exact_partial",
    "Verif.Plug.fresh_answer_is_missing",
    "Verif.Plug.fresh_receive_fails"
   ],
   "note": "The stored part is exact for every history, and so is the answer for accounts to which no unconfirmed receive of a contract sends. Fails otherwise: such a send is missing from the answer, and once it is received the question is answered with an error."
  },
  {
   "property": "C96",
   "status": "partial",
   "theorems": [
    "Verif.Plug.first_page_partial",
    "Verif.Plug.next_page_partial",
    "Verif.Plug.stale_entry_takes_a_place",
    "Verif.Plug.cursor_ends_too_early"
   ],
   "note": "Exact for every history in which no block is deleted that a rollback had made unconfirmed, and for starting blocks that send or receive the token themselves. Fails otherwise: the entry of such a deleted block comes back with a flush and takes a place on the page; the page from a block that moves the token only in its send list is empty."
  },
  {
   "property": "C97",
   "status": "partial",
   "theorems": [
    "Verif.Road.group_never_panics_partial",
    "Verif.Road.group_exact_partial",
    "Verif.Road.group_front_exact_partial",
    "Verif.Road.group_order_partial",
    "Verif.Road.plain_of_all",
    "Verif.Road.mixed_call_loses_a_send",
    "Verif.Road.mixed_call_blocks_a_contract",
    "Verif.Road.mixed_call_stops_the_node"
   ],
   "note": "Holds as long as no list of blocks reported to the pool reaches both contracts with a pool and contracts without one, in particular if all contracts have one. Fails otherwise: the handlers return at the first contract without a pool, so sends to contracts visited later are lost; two nodes with the same blocks then disagree about a receive, a contract can be blocked, and a deletion can stop the node. The VM accepts any group but the snapshot group."
  },
  {
   "property": "C98",
   "status": "proved",
   "theorems": [
    "Verif.Work.one_at_a_time",
    "Verif.Work.stopped_is_idle",
    "Verif.Work.handled_is_listed",
    "Verif.Work.four_processors",
    "Verif.Work.stopped_run"
   ],
   "note": "Also shown: a Stop that overtakes the goroutines it should wait for leaves them to the next period, which then has more than two processors; the claims hold all the same."
  },
  {
   "property": "C99",
   "status": "proved",
   "theorems": [
    "Verif.Work.acquired_is_front",
    "Verif.Work.none_means_nothing",
    "Verif.Work.acquire_restricts_nobody",
    "Verif.Work.round_is_fair"
   ],
   "note": "The cache of one contract; a release by a snapshot block in the middle of an acquisition is left out."
  },
  {
   "property": "C100",
   "status": "proved",
   "theorems": [
    "Verif.Work.Heap.pop_is_max",
    "Verif.Work.Heap.pop_none",
    "Verif.Work.Heap.queue_is_table",
    "Verif.Work.Heap.equal_is_next",
    "Verif.Work.Heap.greatest_is_served_alone"
   ],
   "note": "The last two theorems say what the comparison with 'not smaller' costs."
  },
  {
   "property": "C101",
   "status": "partial",
   "theorems": [
    "Verif.Work.attended_partial",
    "Verif.Work.only_a_signal_helps",
    "Verif.Work.late_contract_stays_restricted",
    "Verif.Work.dropped_task_waits",
    "Verif.Work.late_contract_run",
    "Verif.Work.out_contract_is_handled"
   ],
   "note": "Holds for every contract for which no task was dropped since the last one was queued. Fails otherwise: a task is dropped when the contract is at work, although the processor at work may already have looked (`dropped_task_waits`), and only a new signal helps then; and a contract created after Start is never released by snapshot blocks."
  },
  {
   "property": "C102",
   "status": "partial",
   "theorems": [
    "Verif.Feed.logs_query_exact_partial",
    "Verif.Feed.logs_pages_join",
    "Verif.Feed.logs_query_many",
    "Verif.Feed.filterLog_iff",
    "Verif.Feed.logs_query_below_range",
    "Verif.Feed.logs_query_wrong_address",
    "Verif.Feed.logs_query_page_overflow",
    "Verif.Feed.logs_page_size_zero"
   ],
   "note": "Exact for one account whose range does not begin above its latest block; for several accounts the logs are right when no page is full, but not their address labels. Fails otherwise, see the last three theorems."
  },
  {
   "property": "C103",
   "status": "partial",
   "theorems": [
    "Verif.Feed.blocks_told_exact",
    "Verif.Feed.addr_blocks_told_exact",
    "Verif.Feed.snapshots_told_exact",
    "Verif.Feed.logs_told_exact_partial",
    "Verif.Feed.order_kept",
    "Verif.Feed.onroad_told_exact_partial",
    "Verif.Feed.told_out_of_order",
    "Verif.Feed.log_not_revoked"
   ],
   "note": "Counts are exact always; order is kept within additions and within removals, but not between them. Logs: only for contracts whose logs the node keeps."
  },
  {
   "property": "C104",
   "status": "partial",
   "theorems": [
    "Verif.Feed.Loop.filter_exact",
    "Verif.Feed.Loop.filter_complete",
    "Verif.Feed.Loop.no_deadlock_partial",
    "Verif.Feed.Loop.stuck_forever",
    "Verif.Feed.Loop.stuck_stops_ledger",
    "Verif.Feed.Loop.expiry_can_stop_node"
   ],
   "note": "The first part holds in full. The second holds while the expiry loop is not at work; with it, one expired filter can stop the node."
  },
  {
   "property": "C105",
   "status": "partial",
   "theorems": [
    "Verif.Feed.Listen.listeners_exact_partial",
    "Verif.Feed.Listen.unregister_eq",
    "Verif.Feed.Listen.unregister_wrong"
   ],
   "note": "Holds if whoever unregisters is the first in the list; fails in every other case."
  },
  {
   "property": "C106",
   "status": "proved",
   "theorems": [
    "Verif.Wal.journal_round_trip",
    "Verif.Wal.journal_crash",
    "Verif.Wal.journal_grows",
    "Verif.Wal.journal_then_anything",
    "Verif.Wal.journal_then_zeros",
    "Verif.Wal.journal_hole",
    "Verif.Wal.journal_checked"
   ],
   "note": "The block size is any number from 8 to 65535 (32768 in the code). `journal_hole` shows the limit named in the statement. Whatever bytes the file has, with checksums on everything that is read lies in the file under a header with its checksum (journal_checked)."
  },
  {
   "property": "C107",
   "status": "proved",
   "theorems": [
    "Verif.Wal.db_reads_last",
    "Verif.Wal.db_after_crash",
    "Verif.Wal.gap_not_noticed"
   ],
   "note": "For the writes of one journal; tables, the manifest and writes larger than the write buffer are not modelled. The third theorem shows that a record damaged in the middle is left out and the later ones are applied."
  },
  {
   "property": "C108",
   "status": "proved",
   "theorems": [
    "Verif.Disc.distance_is_tree",
    "Verif.Disc.distance_metric",
    "Verif.Disc.rand_has_distance"
   ],
   "note": "For identities of any length in bytes (32 in the code)."
  },
  {
   "property": "C109",
   "status": "partial",
   "theorems": [
    "Verif.Disc.table_placed",
    "Verif.Disc.table_exact_partial",
    "Verif.Disc.nodes_exact",
    "Verif.Disc.subTree_spec",
    "Verif.Disc.address_twice",
    "Verif.Disc.node_twice",
    "Verif.Disc.address_lost",
    "Verif.Disc.node_misplaced"
   ],
   "note": "The full statement fails: the last four theorems give histories with an address or a node twice, an address that can never enter again, and a node in a wrong bucket. Proved for all interleavings without an update in place: placement; for calm histories: exactness."
  },
  {
   "property": "C110",
   "status": "partial",
   "theorems": [
    "Verif.Disc.neighbors_partial",
    "Verif.Disc.neighbors_all",
    "Verif.Disc.neighbors_not_closest"
   ],
   "note": "That the closest nodes are given is false (last theorem)."
  },
  {
   "property": "C111",
   "status": "partial",
   "theorems": [
    "Verif.Disc.endpoint_round_trip",
    "Verif.Disc.serialize_refuses",
    "Verif.Disc.deserialize_complete",
    "Verif.Disc.truncated_refused",
    "Verif.Disc.answer_join",
    "Verif.Disc.answer_fits_partial",
    "Verif.Disc.answer_received",
    "Verif.Disc.received_first_packets",
    "Verif.Disc.endpoint_trailing_port",
    "Verif.Disc.answer_too_long",
    "Verif.Disc.answer_out_of_order"
   ],
   "note": "Missing: that packets of answers with more than 110 end points fit, which is false (`answer_too_long`), and answers out of order, which lose end points."
  },
  {
   "property": "C112",
   "status": "partial",
   "theorems": [
    "Verif.Disc.runs_end",
    "Verif.Disc.two_packets_safe_partial",
    "Verif.Disc.three_packets_deadlock"
   ],
   "note": "For three packets the statement is false (last theorem). One request at a time; the network is left out."
  },
  {
   "property": "C113",
   "status": "proved",
   "theorems": [
    "Verif.Wallet.derive_path",
    "Verif.Wallet.derive_index",
    "Verif.Wallet.index_paths_differ",
    "Verif.Wallet.find_address",
    "Verif.Wallet.find_address_none",
    "Verif.Wallet.leading_zeros"
   ],
   "note": "HMAC, ed25519 and the hash of addresses are arbitrary functions. The text of a path is not unique (`leading_zeros`), which the statement does not claim."
  },
  {
   "property": "C114",
   "status": "proved",
   "theorems": [
    "Verif.Wallet.stored_opens",
    "Verif.Wallet.store_succeeds",
    "Verif.Wallet.opened_is_named",
    "Verif.Wallet.other_passphrase",
    "Verif.Wallet.write_atomic",
    "Verif.Wallet.noncanonical_never_opens",
    "Verif.Wallet.file_can_panic"
   ],
   "note": "Mnemonics as the library writes them (`Canonical`); that the cipher refuses other keys is a hypothesis of `other_passphrase`. A crash of the process; a power failure is not covered, the code does not call Sync. The last two theorems show a mnemonic that is stored but never opens, and files that panic."
  },
  {
   "property": "C115",
   "status": "partial",
   "theorems": [
    "Verif.Wallet.unlocked_iff_opened",
    "Verif.Wallet.account_exactly",
    "Verif.Wallet.at_index",
    "Verif.Wallet.find_in_store",
    "Verif.Wallet.search_result",
    "Verif.Wallet.search_refused",
    "Verif.Wallet.remove_absolute",
    "Verif.Wallet.remove_relative_keeps",
    "Verif.Wallet.passphrase_search_partial",
    "Verif.Wallet.passphrase_search_order",
    "Verif.Wallet.search_leaves_unlocked",
    "Verif.Wallet.rpc_find_found",
    "Verif.Wallet.rpc_find_says_zero",
    "Verif.Wallet.recovered_limit",
    "Verif.Wallet.private_key_locked"
   ],
   "note": "Removal by a relative name and the search by passphrase do not do what is stated (`remove_relative_keeps`, `passphrase_search_order`); proved for absolute names and when all stores have the passphrase. Calls are atomic."
  },
  {
   "property": "C116",
   "status": "partial",
   "theorems": [
    "Verif.Wallet.listener_told_partial",
    "Verif.Wallet.one_listener",
    "Verif.Wallet.second_listener_replaces"
   ],
   "note": "The full statement is false (`second_listener_replaces`); proved for the one listener that is left."
  },
  {
   "property": "C117",
   "status": "proved",
   "theorems": [
    "Verif.Lsm.get_current",
    "Verif.Lsm.get_held",
    "Verif.Lsm.snapshot_isolated",
    "Verif.Lsm.background_silent",
    "Verif.Lsm.put_unseen",
    "Verif.Lsm.get_in_two_steps",
    "Verif.Lsm.get_above",
    "Verif.Lsm.levels_apart",
    "Verif.Lsm.unheld_read_loses"
   ],
   "note": "Tables and the memory table are sorted lists of entries (the skip list is modelled apart, in area `Mem`, and blocks, tables and bloom filters in area `Tab`); caches are left out. `unheld_read_loses` shows that the snapshot must be held."
  },
  {
   "property": "C118",
   "status": "partial",
   "theorems": [
    "Verif.Lsm.iterator_is_cursor",
    "Verif.Lsm.high_iterator_moves"
   ],
   "note": "Proved for iterators at a held snapshot or the present number. The merging of the iterators of the tables is taken as one sorted list; slices and read errors are left out. For the iterators of the chain's store the statement is false (`high_iterator_moves`)."
  },
  {
   "property": "C119",
   "status": "proved",
   "theorems": [
    "Verif.Gossip.added_found",
    "Verif.Gossip.addAll_found",
    "Verif.Gossip.remembered",
    "Verif.Gossip.not_added_not_found",
    "Verif.Gossip.testAndAdd_found",
    "Verif.Gossip.forgotten_next"
   ],
   "note": "The places of an element (its hashes) are arbitrary. `forgotten_next`: how long it remembers is sharp."
  },
  {
   "property": "C120",
   "status": "proved",
   "theorems": [
    "Verif.Gossip.cross_spec",
    "Verif.Gossip.full_spec",
    "Verif.Gossip.heartbeat_exact",
    "Verif.Gossip.patch_wrong"
   ],
   "note": "`patch_wrong`: the partial heartbeats that the code would send if it noted the time would go wrong; it never notes it."
  },
  {
   "property": "C121",
   "status": "partial",
   "theorems": [
    "Verif.Gossip.fed_valid_once",
    "Verif.Gossip.passed_on",
    "Verif.Gossip.handle_new",
    "Verif.Gossip.handle_old",
    "Verif.Gossip.forged_copy_blocks"
   ],
   "note": "The last sentence of the statement is false: a copy with a wrong signature that comes first keeps the right block out for ever (`forged_copy_blocks`). Filters are sets here."
  },
  {
   "property": "C122",
   "status": "partial",
   "theorems": [
    "Verif.Gossip.first_session",
    "Verif.Gossip.second_session",
    "Verif.Gossip.second_session_loses",
    "Verif.Gossip.sync_spec",
    "Verif.Gossip.subscribers",
    "Verif.Gossip.snapshot_subscriber_stays"
   ],
   "note": "True for the first session and for subscribers of account blocks; false for later sessions (`second_session_loses`) and for subscribers of snapshot blocks (`snapshot_subscriber_stays`)."
  },
  {
   "property": "C123",
   "status": "proved",
   "theorems": [
    "Verif.Gossip.reaches_all",
    "Verif.Gossip.traffic",
    "Verif.Gossip.line_too_long",
    "Verif.Gossip.stale_peers"
   ],
   "note": "Messages are not lost and nobody is syncing; filters are sets; nodes say truly who their peers are (`stale_peers` shows that this is needed) and the net has at most 34 nodes (`line_too_long` shows that this is sharp: the time to live is 32)."
  },
  {
   "property": "C124",
   "status": "proved",
   "theorems": [
    "Verif.Mem.table_is_map",
    "Verif.Mem.heights_hidden",
    "Verif.Mem.copy_same"
   ],
   "note": "The slices of integers and bytes in which nodes and keys lie are functions here; the comparer is a linear order; one operation at a time."
  },
  {
   "property": "C125",
   "status": "proved",
   "theorems": [
    "Verif.Mem.iterator_is_cursor",
    "Verif.Mem.moves_spec",
    "Verif.Mem.deleted_entry_shown"
   ],
   "note": "`deleted_entry_shown`: with deletes between the moves it is not so; the iterator can give an entry that was deleted."
  },
  {
   "property": "C126",
   "status": "proved",
   "theorems": [
    "Verif.Tab.block_iterator_is_cursor",
    "Verif.Tab.empty_block_error"
   ],
   "note": "For a block that is not empty and smaller than 4 GiB; `empty_block_error` shows what happens with an empty one, which the database does not write."
  },
  {
   "property": "C127",
   "status": "proved",
   "theorems": [
    "Verif.Tab.table_answers",
    "Verif.Tab.table_refuses",
    "Verif.Tab.dbOpts_good",
    "Verif.Tab.bytes_good"
   ],
   "note": "Compression and checksum are functions with the laws that are needed; caches, pools and locks are left out; blocks smaller than 4 GiB, files smaller than 2^63 bytes."
  },
  {
   "property": "C128",
   "status": "proved",
   "theorems": [
    "Verif.Tab.table_gives_newest",
    "Verif.Tab.bloom_no_false_negative",
    "Verif.Tab.newest_is_greatest",
    "Verif.Tab.table_answers"
   ],
   "note": "The number of bits of one filter is taken not to wrap around at 2^32. One table: the walk over tables is in area `Lsm`."
  },
  {
   "property": "C129",
   "status": "proved",
   "theorems": [
    "Verif.Tab.table_iterator_is_cursor"
   ],
   "note": "For a table that is not empty; blocks smaller than 4 GiB, files smaller than 2^63 bytes. Release and callbacks are left out."
  },
  {
   "property": "C130",
   "status": "proved",
   "theorems": [
    "Verif.Tab.merged_iterator_is_cursor",
    "Verif.Tab.merged_tables",
    "Verif.Tab.tabKind_cursor",
    "Verif.Tab.listKind_cursor"
   ],
   "note": "The iterators merged are cursors without errors; `tabKind_cursor` shows this for iterators over tables. Keys of different iterators differ, as the keys of the database carry sequence numbers."
  },
  {
   "property": "C131",
   "status": "proved",
   "theorems": [
    "Verif.Tab.raw_iterator_is_cursor",
    "Verif.Tab.level_iterator_is_cursor",
    "Verif.Tab.written_holds",
    "Verif.Tab.inverted_range_panics",
    "Verif.Tab.exLevel_inverted",
    "Verif.Tab.inverted_range_panics_raw"
   ],
   "note": "The iterators of memory tables are taken to be cursors, as C125 shows, over contents that do not change meanwhile; C118 deals with writes under an open iterator, over a list. Tables hold what was written to them (written_holds), those of a level do not overlap. Release, and errors of opening a file, are left out. inverted_range_panics shows what happens when the bounds are not in order."
  },
  {
   "property": "C132",
   "status": "proved",
   "theorems": [
    "Verif.Man.reopen_restores",
    "Verif.Man.commit_exact",
    "Verif.Man.record_round_trip",
    "Verif.Man.first_commit_keeps_pointer",
    "Verif.Man.later_commit_moves_pointer",
    "Verif.Man.Ex.hist",
    "Verif.Man.Ex.end_state"
   ],
   "note": "The journal is taken as a list of byte strings, which area `Wal` shows it gives back, and the file that names the manifest is switched in one step. A crash between the writing of a record and the answer is a commit followed by a restart. Errors of writing after which the process goes on, the skipping of records that cannot be read, reference counts and the removal of files are left out. Numbers are below 2^63 and keys below 4 GiB. `first_commit_keeps_pointer` is a finding: the first commit after a start does not move a compaction pointer."
  },
  {
   "property": "C133",
   "status": "proved",
   "theorems": [
    "Verif.Upgrade.init_iff",
    "Verif.Upgrade.active_iff",
    "Verif.Upgrade.active_mono",
    "Verif.Upgrade.current_iff",
    "Verif.Upgrade.latest_iff",
    "Verif.Upgrade.activePoints_iff",
    "Verif.Upgrade.isPoint_iff",
    "Verif.Upgrade.order_irrelevant",
    "Verif.Upgrade.node_box",
    "Verif.Upgrade.addPoint_exact",
    "Verif.Upgrade.mainnet_valid",
    "Verif.Upgrade.addPoint_unchecked",
    "Verif.Upgrade.addPoint_unnamed",
    "Verif.Upgrade.replaced_height_stays"
   ],
   "note": "The points of the main net meet the hypotheses (`mainnet_valid`). Points that are added to the box of a running node, as an interface for tests on one machine allows, are not checked (`addPoint_unchecked`) and have no name (`addPoint_unnamed`)."
  },
  {
   "property": "C134",
   "status": "proved",
   "theorems": [
    "Verif.Text.decodeUint64_iff",
    "Verif.Text.uint64Text_iff",
    "Verif.Text.decodeBig_iff",
    "Verif.Text.bigText_iff",
    "Verif.Text.spells_iff",
    "Verif.Text.spells_encode",
    "Verif.Text.number_roundtrip",
    "Verif.Text.decode0x_iff",
    "Verif.Text.bytesText_iff",
    "Verif.Text.fixedText_iff",
    "Verif.Text.fixedUnprefixed_iff",
    "Verif.Text.bytes0x_roundtrip",
    "Verif.Text.negative_lost"
   ],
   "note": "Which error is given is left out, and the functions of the language that are called are modelled as they are documented. `negative_lost`: a negative number is written with its sign before the prefix and not read back, against the comment that the sign is ignored."
  },
  {
   "property": "C135",
   "status": "partial",
   "theorems": [
    "Verif.Ndb.store_retrieve",
    "Verif.Ndb.active_stored",
    "Verif.Ndb.check_stored",
    "Verif.Ndb.mark_stored",
    "Verif.Ndb.kinds_apart",
    "Verif.Ndb.readNodes_exact",
    "Verif.Ndb.readNodes_once",
    "Verif.Ndb.readNodes_store",
    "Verif.Ndb.clean_exact",
    "Verif.Ndb.readMarkNodes_exact",
    "Verif.Ndb.retrieveMark_zero",
    "Verif.Ndb.readMarkNodes_short"
   ],
   "note": "Partial: the mark is stored, and used when marked nodes are read, but the function that reads a single mark expects another form and gives zero for every mark from 0 to 2^56 (`retrieveMark_zero`). Times are between -2^62 and 2^62. That the store has every key once (`Uniq`) is kept by every change (`uniq_put`, `uniq_del`)."
  },
  {
   "property": "C136",
   "status": "partial",
   "theorems": [
    "Verif.Evm.containsCertain_exact",
    "Verif.Evm.containsStatus_exact",
    "Verif.Evm.run_reads_nothing_partial",
    "Verif.Evm.hidden_read"
   ],
   "note": "Partial: what is found is shown exactly, but the last sentence is false of the code: what follows the first trailer of the compiler is not looked at, though a run may jump there; `hidden_read` is a code in which nothing is found and that reads the time when it is run. `run_reads_nothing_partial` is the claim for runs that stay before the first trailer. The code that is looked through is the one that makes the contract, and is taken to be the one that is run."
  },
  {
   "property": "C137",
   "status": "partial",
   "theorems": [
    "Verif.Evm.data_form",
    "Verif.Evm.data_parts",
    "Verif.Evm.data_inj",
    "Verif.Evm.short_refused",
    "Verif.Evm.create_exact",
    "Verif.Evm.create_old_exact",
    "Verif.Evm.unconfirmed_reads_nothing_partial",
    "Verif.Evm.hidden_made",
    "Verif.Evm.fork_shifts_code"
   ],
   "note": "Partial: the last two sentences are false of the code in part. A code that jumps over what looks like a trailer of the compiler is accepted without confirmations and reads the time (`hidden_made`, `hidden_read`); `unconfirmed_reads_nothing_partial` is the claim for runs before the first trailer. A request sent before the fork and received after it is run without the first byte of its code (`fork_shifts_code`). Quota, balance and fee are not part of this model."
  },
  {
   "property": "C138",
   "status": "proved",
   "theorems": [
    "Verif.Ndb.banned_iff",
    "Verif.Ndb.lastBan_unique",
    "Verif.Ndb.clock_back",
    "Verif.Ndb.ban_shortens"
   ],
   "note": "The lock makes every call one step. If the clock is set back, a ban may be over early, since asking about it after its end forgets it (`clock_back`); a shorter ban takes the place of a longer one (`ban_shortens`)."
  }
 ]
}
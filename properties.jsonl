{"id": "C01", "title": "Tokens are neither created nor destroyed by transfers and calls", "statement": "For every token, the sum of all account balances plus the amounts and fees of sent-but-not-yet-received blocks plus the fees burned so far changes only by an explicit mint (a reward send of the governance/asset contracts) or an explicit burn; ordinary sends, receives, contract calls, failed calls and refunds preserve it.", "quantifier": "every token, every initial ledger, every finite sequence of account blocks of every type and every outcome of contract execution", "why_tests_cant": "a sum over all accounts of all interleavings of sends and receives; tests sample a handful of transfers", "anchors": ["vm/vm.go: sendCall, receiveCall, sendCreate, receiveCreate, doRefund, sendRefund, receiveRefund, sendReward, receiveReward", "vm/util/db_helper.go: AddBalance, SubBalance"]}
{"id": "C02", "title": "Balances never go negative and an unaffordable send is rejected without effect", "statement": "A send block whose amount plus fee exceeds the sender's balance is rejected with an insufficient-balance error and leaves every balance unchanged; in every reachable ledger every balance is non-negative.", "quantifier": "all ledgers, senders, tokens, amounts, fees, and all histories", "why_tests_cant": "needs all orders of operations and all amounts including amount token = fee token", "anchors": ["vm/vm.go: canTransfer, sendCall, sendCreate"]}
{"id": "C03", "title": "A failed run of a called contract gives the caller back exactly what it sent", "statement": "When a contract receive fails (revert or error) its storage and balance changes are discarded and the only value effect is a refund send of exactly the original amount (and fee) to the caller; the contract ends with the balances it had before the call.", "quantifier": "every state, every call of a built-in or deployed contract with every value and fee, every failing run (creations and calls beyond the depth limit are not refunded in full: proved limits)", "why_tests_cant": "contract bodies are arbitrary programs; tests run a few contracts", "anchors": ["vm/vm.go: receiveCall, doRefund, revert"]}
{"id": "C04", "title": "Only built-in reward senders can mint", "statement": "A block that adds value to the system (reward send) is accepted only from the asset and governance contract addresses.", "quantifier": "all blocks and senders", "why_tests_cant": "all senders", "anchors": ["vm/vm.go: sendReward, RunV2"]}
{"id": "C05", "title": "Contract execution always terminates within its quota", "statement": "Running any byte string as contract code with quota q stops after finitely many steps and never charges more than q.", "quantifier": "all byte strings as code, all inputs, all quotas", "why_tests_cant": "the space of programs is infinite", "anchors": ["vm/interpreter.go: runLoop", "vm/quota_table.go / gas functions", "vm/util/quota.go: UseQuota"]}
{"id": "C06", "title": "Machine stack stays between 0 and 1024 entries", "statement": "In every execution the operand stack never underflows and never exceeds 1024 entries; an instruction that would do so aborts the call instead.", "quantifier": "all programs, inputs and steps", "why_tests_cant": "all programs", "anchors": ["vm/stack.go", "vm/stack_table.go", "vm/interpreter.go: runLoop"]}
{"id": "C07", "title": "Jumps only land on real JUMPDEST instructions", "statement": "Control is transferred only to a position whose byte is JUMPDEST and which is not inside the immediate data of a PUSH.", "quantifier": "all byte strings as code and all jump targets up to 2^256", "why_tests_cant": "all code layouts", "anchors": ["vm/analysis.go: codeBitmap, destinations.has", "vm/instructions.go: opJump, opJumpi"]}
{"id": "C08", "title": "Arithmetic and bit instructions compute the 256-bit functions they name", "statement": "ADD MUL SUB DIV SDIV MOD SMOD ADDMOD MULMOD EXP SIGNEXTEND LT GT SLT SGT EQ ISZERO AND OR XOR NOT BYTE SHL SHR SAR push the result of the corresponding function on 256-bit words.", "quantifier": "all operand values", "why_tests_cant": "2^512 operand pairs", "anchors": ["vm/instructions.go", "common/helper/math_big.go: U256, S256, Exp, Byte"]}
{"id": "C09", "title": "Memory accesses are paid for", "statement": "Every instruction that reads or writes memory touches only the region whose expansion was charged before it ran.", "quantifier": "all instructions and operands", "why_tests_cant": "all offsets and sizes including overflowing ones", "anchors": ["vm/memory_table.go", "vm/instruction_table.go", "vm/interpreter.go: runLoop"]}
{"id": "C10", "title": "Storage refunds never exceed storage charges", "statement": "Over any sequence of SSTOREs in one call, the accumulated refund is never larger than the accumulated charge, so a call never ends with negative net quota.", "quantifier": "all sequences of writes to all slots from all original values", "why_tests_cant": "unbounded sequences", "anchors": ["vm/quota_table.go: gasSStore / sstore quota", "vm/util/quota.go: CalcQuotaUsed"]}
{"id": "C11", "title": "Stake needed for a quota and quota given by a stake are inverse", "statement": "The utilization obtained from the stake computed for a target quota is at least the target, and no smaller stake gives it; more stake never gives less quota.", "quantifier": "all stakes and quota targets", "why_tests_cant": "all amounts up to total supply", "anchors": ["vm/quota/quota.go: calcQuotaByStake..., GetQuota, getIndexInBigIntList"]}
{"id": "C12", "title": "A block is never granted more than the per-block quota ceiling", "statement": "For every account state, stake, PoW difficulty and history the quota granted to one block is at most 1,000,000 and the quota available is never more than the accumulated quota minus what was used.", "quantifier": "all stakes, difficulties and usage histories", "why_tests_cant": "all histories", "anchors": ["vm/quota/quota.go: calcQuotaTotal, CalcQuotaForBlock"]}
{"id": "C13", "title": "Overflow-checked arithmetic is exact", "statement": "SafeAdd/SafeMul report overflow exactly when the mathematical result does not fit in 64 bits and otherwise return it.", "quantifier": "all pairs of uint64", "why_tests_cant": "2^128 pairs", "anchors": ["common/helper/math_integer.go: SafeAdd, SafeMul"]}
{"id": "C14", "title": "Stake contract: recorded stakes are backed by its balance", "statement": "After any sequence of stake / cancel / delegate operations, for each beneficiary the credited stake equals the sum of the live stake entries naming it and the contract's VITE balance is at least the sum of all live entries.", "quantifier": "all operation histories of all users and all contract versions", "why_tests_cant": "unbounded histories, index reuse and merges", "anchors": ["vm/contracts/contracts_quota.go", "vm/contracts/abi/abi_quota.go"]}
{"id": "C15", "title": "Only the staker can cancel a stake, only when due, and gets back exactly the cancelled amount", "statement": "A cancel succeeds only if called by the address that staked (or its delegate), after the expiration height; the amount refunded equals the amount removed from the entry and from the beneficiary's credited stake.", "quantifier": "all histories and callers", "why_tests_cant": "all histories", "anchors": ["vm/contracts/contracts_quota.go: MethodCancelStake, MethodCancelStakeV3, MethodCancelDelegateStake"]}
{"id": "C16", "title": "Token supply accounting", "statement": "For every token the recorded total supply equals everything minted minus everything burned, never exceeds the maximum supply of a re-issuable token, and a non-re-issuable token is never minted again.", "quantifier": "all histories of issue / re-issue / burn / transfer ownership / disable", "why_tests_cant": "all histories", "anchors": ["vm/contracts/contracts_asset.go"]}
{"id": "C17", "title": "Only the token owner can re-issue, disable re-issue or transfer ownership", "statement": "A successful re-issue, disable or ownership transfer was sent by the recorded owner at that time; after a transfer the old owner can no longer do so.", "quantifier": "all callers and histories", "why_tests_cant": "all histories", "anchors": ["vm/contracts/contracts_asset.go"]}
{"id": "C18", "title": "A block-producing address is never shared by two registered names", "statement": "In every reachable state of the governance contract each block-producing address of a group is bound to at most one registration name, and all names that use it are that name.", "quantifier": "all register / update / revoke histories", "why_tests_cant": "all histories", "anchors": ["vm/contracts/contracts_governance.go: MethodRegister, MethodUpdateBlockProducingAddress", "vm/contracts/abi/abi_gonvernance.go"]}
{"id": "C19", "title": "Registration stake is returned once, to the owner, after expiry", "statement": "The sum of refunds for a name never exceeds the stakes deposited for it; a revoke needs an active registration, the owner and an expired lock; a second revoke fails.", "quantifier": "all histories", "why_tests_cant": "all histories", "anchors": ["vm/contracts/contracts_governance.go: MethodRevoke"]}
{"id": "C20", "title": "Block rewards are bounded by the emission of the cycle", "statement": "The sum of rewards of all producers for one cycle never exceeds the number of snapshot blocks of the cycle times the per-block emission.", "quantifier": "all block counts, vote counts and numbers of producers", "why_tests_cant": "all statistics vectors", "anchors": ["vm/contracts/abi/abi_gonvernance.go or contracts_governance.go: calcRewardByDayDetail"]}
{"id": "C21", "title": "Reward withdraw list behaves as a set of names", "statement": "Adding, deleting and listing names in the comma separated withdraw list acts as list insertion, deletion and enumeration; deleting one name never removes or alters another, even if it is a prefix or suffix of it.", "quantifier": "all lists of valid names", "why_tests_cant": "all name sets, prefixes included", "anchors": ["vm/contracts/contracts_governance.go: addWithdrawRewardAddress, deleteWithdrawRewardAddress"]}
{"id": "C22", "title": "Order identifiers sort by price-time priority and can be decoded", "statement": "The 22-byte order id decodes to the market, side, price and time it was made from, and bytewise order of ids of one market side is: better price first, then earlier time, then smaller serial.", "quantifier": "all markets, sides, valid prices, times and serial numbers", "why_tests_cant": "10^24 prices", "anchors": ["vm/contracts/dex/utils.go: ComposeOrderId, DeComposeOrderId, PriceToBytes, BytesToPrice"]}
{"id": "C23", "title": "Matching conserves value", "statement": "In every match of a taker against any book, per token the amounts released from buyers' and sellers' locked funds equal the amounts credited to counterparties plus fees; nothing is created or lost.", "quantifier": "all books, takers and fee rates", "why_tests_cant": "all books", "anchors": ["vm/contracts/dex/matcher.go"]}
{"id": "C24", "title": "Orders are never overfilled and never cost more than was locked", "statement": "For every order executed quantity ≤ quantity, for buys executed amount ≤ amount and executed fees ≤ locked fee, at every point of every match sequence; on completion or cancel the locked funds released plus used equal the funds locked.", "quantifier": "all histories of deposits, placements, matches, cancels, expiries and settlements under the rules in force since the fee upgrade; before version 11, histories whose expiry requests name no id twice (the repeated-id case is a proved defect)", "why_tests_cant": "all sequences", "anchors": ["vm/contracts/dex/matcher.go: calculateOrderAndTx, updateOrder, handleRefund"]}
{"id": "C25", "title": "Trades respect limit prices and price-time priority", "statement": "A limit taker only trades with makers whose price is acceptable to it, at the maker's price, and makers are consumed in book order: a maker is touched only if all better makers were fully consumed.", "quantifier": "all books and takers", "why_tests_cant": "all books", "anchors": ["vm/contracts/dex/matcher.go: doMatchTaker, recursiveTakeOrder, matchPrice"]}
{"id": "C26", "title": "Fill-or-kill is all or nothing; post-only never takes", "statement": "A fill-or-kill order either is executed completely or changes nothing; a post-only order never trades as a taker.", "quantifier": "all books and takers", "why_tests_cant": "all books, including more than 100 counter orders", "anchors": ["vm/contracts/dex/matcher.go: doMatchTaker, handleTakerRes"]}
{"id": "C27", "title": "DEX user funds are conserved", "statement": "For every token, deposits minus withdrawals equals the sum over users of available and locked (and vx-locked, unlocking, cancelling) funds plus fee pools, under any history of deposit, withdraw, transfer, order lock/settle; no account component becomes negative.", "quantifier": "all histories, users, tokens, all delivery orders of the messages between the fund and trade contracts; rules since the fee upgrade, and before version 11 no expiry request naming an id twice (proved defect otherwise)", "why_tests_cant": "all histories", "anchors": ["vm/contracts/dex/fund_storage.go", "vm/contracts/dex/fund_settle.go", "vm/contracts/contracts_dex_fund.go"]}
{"id": "C28", "title": "Dividends never pay more than the pool", "statement": "Distributing a fee pool over VX holders pays out in total at most the pool, for every holder list and every rounding; the last holder completes it.", "quantifier": "all pools, holders, roundings", "why_tests_cant": "all holder lists", "anchors": ["vm/contracts/dex/fund_dividend.go: DivideByProportion, DoFeesDividend", "vm/contracts/dex/fund_mine.go"]}
{"id": "C29", "title": "VX unlocking pays each scheduled amount exactly once, not before 7 periods", "statement": "Every scheduled unlock is released in the first finish job at least 7 periods later, exactly once.", "quantifier": "all schedules and job histories", "why_tests_cant": "all histories", "anchors": ["vm/contracts/dex/fund_finish_pendings.go", "vm/contracts/dex/fund_storage.go: AddVxUnlock"]}
{"id": "C30", "title": "Failed mining stake returns the stake to the user", "statement": "When the stake request of a user's mining stake fails, the VITE that was taken from the user's exchange balance is credited back.", "quantifier": "all stake requests and amounts", "why_tests_cant": "needs the failing callback path", "anchors": ["vm/contracts/contracts_dex_fund.go: MethodDexFundDelegateStakeCallbackV2"]}
{"id": "C31", "title": "Contract metadata survives storage", "statement": "Serializing contract metadata and reading it back yields the same metadata; the legacy 44-byte form is read with the documented default.", "quantifier": "all metadata values", "why_tests_cant": "all values", "anchors": ["interfaces/core/contract_meta.go"]}
{"id": "C32", "title": "Address and token text forms are faithful", "statement": "Printing an address (token id) and parsing it returns the same value; a text is accepted only if its checksum matches, and accepted texts denote one value.", "quantifier": "all addresses, token ids and strings", "why_tests_cant": "all strings", "anchors": ["common/types/address.go", "common/types/token_type_id.go"]}
{"id": "C33", "title": "ABI encoding round trip", "statement": "Packing arguments and unpacking them with the same signature returns the arguments.", "quantifier": "all signatures of supported types and all values", "why_tests_cant": "unbounded arrays and strings", "anchors": ["vm/abi"]}
{"id": "C34", "title": "An election returns exactly the configured number of distinct producers, all of them candidates", "statement": "With at least NodeCount candidates, the elected list has exactly NodeCount members, no duplicates, all from the top RandRank by votes; with fewer, all candidates are elected.", "quantifier": "all candidate lists, seeds and success rates", "why_tests_cant": "all vote distributions and seeds", "anchors": ["ledger/consensus/core/vote_algo.go"]}
{"id": "C35", "title": "Production slots partition time", "statement": "Plans of consecutive rounds are contiguous, non-overlapping intervals that cover the round; every instant belongs to exactly one slot, and index/time conversions are inverse.", "quantifier": "all times after genesis and all group parameters", "why_tests_cant": "all times", "anchors": ["ledger/consensus/core/group.go", "ledger/consensus/core/time_index.go"]}
{"id": "C36", "title": "Producer statistics of a day equal the sum over its periods", "statement": "The aggregated point of an hour/day contains for each producer the sum of produced and expected block counts of its sub-periods, independent of cache contents, for every chain and after every rollback.", "quantifier": "all chains, caches and rollbacks", "why_tests_cant": "all cache states", "anchors": ["ledger/consensus/consensus_point_array.go", "ledger/consensus/cdb/point.go"]}
{"id": "C37", "title": "Cached quota usage equals the ledger's last 75 snapshots", "statement": "After every history of block insertions, snapshots, deletions and rollbacks the quota-used list of an address equals the per-snapshot sums of the last 75 snapshots of the real ledger (plus unconfirmed), and the global totals equal their sum.", "quantifier": "all histories", "why_tests_cant": "rollback-dependent cache state", "anchors": ["ledger/chain/cache/quota_list.go"]}
{"id": "C38", "title": "A flush is atomic across stores at every crash point", "statement": "If the process stops at any point of a flush, then after restart and recovery either all stores contain the flushed data or none do.", "quantifier": "all crash points, store contents and batches", "why_tests_cant": "all crash points", "anchors": ["ledger/chain/flusher/flusher.go", "ledger/chain/db"]}
{"id": "C39", "title": "Only its holder spends an exchange account", "statement": "The available funds of an exchange account go down only in a block of that account's holder (withdrawal, transfer, fee, lock or order); a transfer takes the amount from the sender and gives it to the named receiver; a resting order is touched only by its holder's cancellation, by a trade with it, or (before version 11) by its expiry.", "quantifier": "all reachable states, all next blocks by anybody", "why_tests_cant": "ranges over all callers, states and blocks", "anchors": ["vm/contracts/contracts_dex_fund.go", "vm/contracts/contracts_dex_trade.go", "vm/contracts/dex/matcher.go: recursiveTakeOrder, filterTimeout"]}
{"id": "C40", "title": "A producer is paid once for a cycle and all rewards stay within the emission", "statement": "Over every history of registrations, revokes, re-registrations and withdrawals, a withdrawal pays exactly the cycles that start at or after the reward time and finished an hour ago; the rewards of a name sum to at most what it earned in the finished cycles, each counted once; and the rewards of all names together are at most the block reward times the number of blocks of those cycles.", "quantifier": "all histories of calls with times that do not go back, all day statistics", "why_tests_cant": "double payment depends on the order of withdrawals, revokes and new registrations", "anchors": ["vm/contracts/contracts_governance.go: calcReward, MethodWithdrawReward, MethodRevoke", "vm/util/consensus_reader.go"]}
{"id": "C41", "title": "Only the owner manages a block producer and only the voter a vote", "statement": "The owner of a producer name is whoever registered it first, forever; a call by anybody but the owner and the reward withdraw address leaves the registration as it is, and a call of the withdraw address changes at most the time up to which rewards are paid; the vote of an address changes only in its own blocks, and only to a name that is active at that time.", "quantifier": "all reachable states, all calls by anybody", "why_tests_cant": "ranges over all callers, states and calls", "anchors": ["vm/contracts/contracts_governance.go"]}
{"id": "C42", "title": "The withdraw lists name exactly the producers that chose an address", "statement": "Over every history of calls, the list of names stored for an address contains each name whose reward withdraw address it is, other than for its own owner, exactly once, and no other name; every accepted name is 1 to 40 bytes long and contains no comma.", "quantifier": "all histories of calls, all addresses", "why_tests_cant": "stateful string editing over arbitrary histories", "anchors": ["vm/contracts/contracts_governance.go: saveWithdrawRewardAddress, checkRegisterAndVoteParam"]}
{"id": "C43", "title": "Contract code does what the instruction set says", "statement": "Running contract bytecode to a normal end or a revert yields exactly the returned bytes, storage, logs and outgoing requests of a simple reference machine: 256-bit words, memory that is zero beyond what was written, one instruction at a time. The machine has one outcome for each code and input.", "quantifier": "all bytecodes, inputs, chain environments, quotas and all three instruction sets", "why_tests_cant": "Programs of any length interleave about 150 instructions over any stack, memory and storage; tests run a few programs.", "anchors": ["vm/interpreter.go:runLoop", "vm/instructions.go", "vm/jump_table.go", "vm/memory.go", "vm/stack.go"]}
{"id": "C44", "title": "The quota offered does not change what a contract does", "statement": "A contract call that did not run out of quota returns the same bytes, storage, logs and requests, and consumes the same quota, with any larger quota. Two calls of the same code on the same state with different quotas that both did not run out agree.", "quantifier": "all bytecodes, inputs, environments and pairs of quotas", "why_tests_cant": "It compares two executions of every program for every pair of quotas.", "anchors": ["vm/interpreter.go:runLoop", "vm/contract.go", "vm/gas_table.go"]}
{"id": "C45", "title": "Exact instruction prices", "statement": "Each instruction other than a storage write or a call consumes exactly its published price: a constant, plus a rate for each byte or 32-byte word of its operand, plus the increase of the memory price. It is never charged more or less, whatever the operands and the memory before it.", "quantifier": "all reachable interpreter states, instructions and operands", "why_tests_cant": "Operand sizes and memory histories are unbounded, and the price is computed with 64-bit arithmetic that may overflow.", "anchors": ["vm/gas_table.go", "vm/memory.go", "vm/interpreter.go:runLoop"]}
{"id": "C46", "title": "Contract receive scheduling", "statement": "A contract is scheduled to receive exactly when its last block is not a failed receive with fewer than 75 confirmations and its available quota reaches the mean quota of its recent blocks; otherwise the node names the exact wait. Of the quota of a block its work pays first and the stake pays the rest.", "quantifier": "all stakes, windows of used quota, confirmation counts and difficulties", "why_tests_cant": "It ranges over every history of use and every height.", "anchors": ["vm/quota/quota.go:CheckQuota", "vm/quota/quota.go:CalcBlockQuotaUsed", "vm/quota/quota.go:calcQuota", "ledger/onroad/taskprocessor.go"]}
{"id": "C47", "title": "The exchange can always pay what it owes", "statement": "At every moment, for every token, the balance of the exchange's fund contract (everything received minus everything sent) equals what it has to answer for: users' free, ordered, locked, unlocking and cancelling balances, collected fees not yet divided or burnt, operators' fees not yet paid, and for VX the pool to be mined and the makers' pools.", "quantifier": "every history of deposits, withdrawals, orders, trades, settlements, fees, time notices, VX locks and unlocks, stakes and answers to them, and periodic jobs in any order (after the fee upgrade; no repeated id in expired-order clearing before upgrade V11; the makers' job not for period 0)", "why_tests_cant": "the identity sums over all accounts and all records and must survive every interleaving of users' blocks with jobs that move money between pools; tests see a handful of orders", "anchors": ["vm/contracts/dex/fund_verifier.go: VerifyDexFundBalance", "vm/contracts/contracts_dex_fund.go: MethodDexFundTriggerPeriodJob, MethodDexFundSettleOrders, MethodDexFundDelegateStakeCallbackV2", "vm/contracts/dex/fund_dividend.go, fund_mine.go, fund_settle.go, fund_finish_pendings.go"]}
{"id": "C48", "title": "A stake that comes back reaches its owner", "statement": "When the quota contract gives a confirmed stake back, the exchange accepts it: a VIP stake is free at once, a mining stake becomes free in the first finish job at least seven periods later; neither is ever refused or lost.", "quantifier": "every history and every confirmed stake, whatever other stakes and VIP records exist", "why_tests_cant": "acceptance depends on the bookkeeping of all other stakes and VIP records, built by the whole history", "anchors": ["vm/contracts/contracts_dex_fund.go: MethodDexFundDelegateCancelStakeCallbackV2, MethodDexFundTriggerPeriodJob", "vm/contracts/dex/fund_finish_pendings.go: DoFinishCancelMiningStake", "vm/contracts/dex/fund_stake.go"]}
{"id": "C49", "title": "Mining for stakes is shared in proportion", "statement": "A staking-mining job pays the addresses that had at least the threshold staked at the end of the period, in total exactly the amount taken from the pool, each the share of the stake up to one unit per staker; nobody else is paid, and the job is refused only when the pool is empty.", "quantifier": "every history and every period whose turn it is, every set of stakers and amounts (amount mined below 2^100)", "why_tests_cant": "rounding accumulates over any number of stakers, and who held what at the end of the period is rebuilt from records trimmed by earlier jobs", "anchors": ["vm/contracts/dex/fund_mine.go: DoMineVxForStaking, GetVxAmountToMine", "vm/contracts/dex/fund_stake.go: DoChangeMiningStakedAmount", "vm/contracts/dex/fund_dividend.go: DivideByProportion"]}
{"id": "C50", "title": "Block storage is one string of bytes", "statement": "Blocks are stored one after the other, across files of fixed size, partly in memory and partly on disk. At every moment, reading any number of bytes from any location returns exactly what was written there and not rolled back; a write starts at the location it returns; a rollback removes exactly what is after the location; a restart finds exactly what the last finished flush stored; a crash at any point of a flush followed by recovery from the redo log finds exactly what that flush was to store.", "quantifier": "every history of writes, rollbacks, flushes (prepared, cancelled, committed), restarts and crashes, every file size, every set of disk operations that survives a crash, whole or in part and in any order", "why_tests_cant": "file borders, the cache of files, rollbacks during a flush and partial writes combine without bound; a test sees single interleavings", "anchors": ["ledger/chain/file_manager/file_manager.go: Write, DeleteTo, Flush, ReadRaw, ReadRange", "ledger/chain/file_manager/fd_manager.go: resetWriteFd, DeleteTo, DiskDelete", "ledger/chain/block/flush.go: Prepare, CancelPrepare, Commit, BeforeRecover, PatchRedoLog"]}
{"id": "C51", "title": "No rollback and no recovery makes the node panic", "statement": "Rolling back to any earlier block, and recovering from any interrupted flush, succeeds, however many block files lie in between.", "quantifier": "every history of the block store, every rollback target, every crash point of a flush", "why_tests_cant": "the panic depends on how many files are in memory, which depends on the whole history since the last start", "anchors": ["ledger/chain/file_manager/fd_manager.go: DeleteTo", "ledger/chain/block/flush.go: BeforeRecover"]}
{"id": "C52", "title": "Nobody notices a flush", "statement": "At every moment, also while the stores are being flushed in the background and other threads go on writing, a reader of any store sees exactly what has been confirmed, with the changes of all blocks that are not confirmed yet on top, in their order; removing unconfirmed blocks removes exactly their changes.", "quantifier": "every history of writes, confirmations, rollbacks, flush steps, failures to sync, crashes and recoveries, every key", "why_tests_cant": "the answer is assembled from four layers (disk, flush under way, memory, unconfirmed) whose content depends on the interleaving of the flush with the writers", "anchors": ["ledger/chain/db/store.go: Get", "ledger/chain/db/flush.go: Prepare, CancelPrepare, Commit, AfterCommit", "ledger/chain/db/write.go: WriteDirectly, WriteAccountBlock, WriteSnapshot", "ledger/chain/db/rollback.go", "ledger/chain/flusher/flusher.go: flush"]}
{"id": "C53", "title": "Account state is that of the blocks in the ledger", "statement": "After any history of inserted blocks, snapshots, deletions of unconfirmed blocks, rollbacks of snapshots covered by the redo log and restarts, storage, balances, code, contract meta, VM logs and call depths read from the state database are exactly what the blocks now in the ledger wrote last; storage and balances as of any snapshot are those of the blocks confirmed up to it. None of these operations stops the node. Redo logs are kept for the last 1200 snapshots.", "quantifier": "every history of the chain, every account, storage key, token and snapshot height", "why_tests_cant": "the value read is put together from the store, unconfirmed changes, history entries, redo logs in memory and on disk and two caches, whose contents depend on the whole history", "anchors": ["ledger/chain/state/write.go: Write, WriteByRedo, InsertSnapshotBlock", "ledger/chain/state/delete.go: RollbackSnapshotBlocks, RollbackAccountBlocks", "ledger/chain/state/redo.go: InsertSnapshotBlock, AddLog, QueryLog, Rollback", "ledger/chain/state/redo_cache.go: SetCurrent", "ledger/chain/state/state_db.go: GetStorageValue, GetBalance, GetSnapshotValue", "ledger/chain/state/cache.go"]}
{"id": "C54", "title": "A rollback of any depth restores the state", "statement": "After the chain is rolled back to any earlier snapshot, however deep, storage, balances and everything else in the state database are what they were at that snapshot.", "quantifier": "every history of the chain, every target snapshot", "why_tests_cant": "below 1200 snapshots another way of rolling back is used, whose result depends on the order of the account's storage keys", "anchors": ["ledger/chain/state/delete.go: RollbackSnapshotBlocks, recoverToSnapshot, recoverStorageToSnapshot, recoverBalanceToSnapshot"]}
{"id": "C55", "title": "The contract list of a consensus group has exactly its contracts", "statement": "The contracts listed for a consensus group (from which pending calls are loaded) are those that blocks now in the ledger created in that group: none is missing, whatever was inserted, confirmed, deleted, rolled back or restarted, and none is listed that no block creates.", "quantifier": "every history of the chain, every group and address", "why_tests_cant": "entries are written on insertion and on rollback under different keys and never removed, so the list depends on the whole history", "anchors": ["ledger/chain/state/write.go: Write, WriteByRedo", "ledger/chain/state/state_db.go: GetContractList", "ledger/chain/state/delete.go", "ledger/chain/onroad.go: LoadOnRoadRange"]}
{"id": "C56", "title": "A published seed is the one its producer committed to", "statement": "When an accepted snapshot block publishes a random seed, an earlier block of the same producer on the chain contains the hash of that seed, so that a producer cannot choose its seed after seeing those of the others. (The code does not keep this: the verdict on a block does not depend on its seed; the producer of a block chooses the random number at it.)", "quantifier": "all chains, all producers, all seeds and committed hashes, all hash functions", "why_tests_cant": "whether some seed passes that was not committed to, on some chain, is a question about all seeds and chains; tests use producers that keep to the protocol", "anchors": ["/repo/ledger/consensus/consensus_impl.go:VerifySnapshotProducer", "/repo/ledger/consensus/consensus_snapshot.go:verifyProducerAndSeed", "/repo/ledger/verifier/snapshot_verifier.go:getLastSeedBlock", "/repo/ledger/chain/snapshot_block.go:GetLastUnpublishedSeedSnapshotHeader", "/repo/ledger/chain/snapshot_block.go:GetRandomSeed"]}
{"id": "C57", "title": "Lookups of snapshot blocks by time are exact", "statement": "Asked for the snapshot header before a time, the chain gives the last block whose time is before it, or none if genesis is not before it, and answers after finitely many steps; asked for the headers from a time up to a block, it gives exactly those.", "quantifier": "all chains of increasing times, all times in nanoseconds, all end blocks", "why_tests_cant": "the search guesses from the number of seconds and then halves; whether it ends at the right block for every distribution of block times is not settled by examples", "anchors": ["/repo/ledger/chain/snapshot_block.go:GetSnapshotHeaderBeforeTime", "/repo/ledger/chain/snapshot_block.go:binarySearchBeforeTime", "/repo/ledger/chain/snapshot_block.go:GetSnapshotHeadersAfterOrEqualTime"]}
{"id": "C58", "title": "The snapshot chain is linked, timed and made by the elected", "statement": "After every history of arriving snapshot blocks and rollbacks: heights count without gap, each block names the hash of the one below, times increase, every block but the first was made by a producer elected for its round at the start of one of its slots, as judged by the chain as it now is; no producer makes more blocks in a round than it has slots; two nodes that have a block of the same hash have the same chain below it.", "quantifier": "all histories of arriving blocks, valid or not, and rollbacks; all elections; all hash functions without collisions", "why_tests_cant": "the claim is about every sequence of arrivals and rollbacks, and about the interplay of the proof block of a round with later growth of the chain", "anchors": ["/repo/ledger/verifier/snapshot_verifier.go:VerifyReferred", "/repo/ledger/verifier/snapshot_verifier.go:verifySelf", "/repo/ledger/consensus/consensus_snapshot.go:VerifyProducer", "/repo/ledger/consensus/consensus_snapshot.go:ElectionIndex", "/repo/ledger/chain/delete.go:DeleteSnapshotBlocksToHeight"]}
{"id": "C59", "title": "The random number of a contract is fixed by the chain", "statement": "The random number that a contract gets when it receives a send is determined by the first snapshot block that gives the send the confirmations and the seeds that the contract asks for, and is the sum of the latest seeds of the most recent 25 producers in the 601 blocks up to it; it is the same on every node that has the block, and does not change as the chain grows.", "quantifier": "all chains, all confirmation heights, all numbers of confirmations and seeds asked for (the latter below 256), all pairs of nodes", "why_tests_cant": "agreement of nodes and stability under growth range over all pairs of histories", "anchors": ["/repo/ledger/chain/snapshot_block.go:GetRandomSeed", "/repo/ledger/chain/snapshot_block.go:GetSeedConfirmedSnapshotBlock", "/repo/ledger/chain/snapshot_block.go:GetSeed", "/repo/ledger/generator/generator.go"]}
{"id": "C60", "title": "Account chains have no gaps and no forks", "statement": "After every history of block insertions, snapshots, deletions, rollbacks, flushes, cache evictions and restarts, every account has at most one block per height, every block names the hash of the block just below it, and all heights from 1 up to the latest are present. A block is added exactly if it continues the chain of its account and, for a receive, if the send it names is in the ledger, addressed to this account and not received; otherwise nothing changes.", "quantifier": "all histories of operations over any number of accounts, all blocks offered", "why_tests_cant": "The order of inserts, snapshots, clean-ups, rollbacks and cache evictions is unbounded and each path updates five stores separately.", "anchors": ["ledger/verifier/account_verifier.go: verifySelfPrev, verifyReceiveBlock", "ledger/verifier/verifier.go: VerifyPoolAccountBlock", "ledger/chain/insert.go: InsertAccountBlock", "ledger/chain/account_block.go: GetLatestAccountBlock"]}
{"id": "C61", "title": "A send is received at most once, by its addressee", "statement": "No two receive blocks of the ledger name the same send; a receive block's send is in the ledger and addressed to its account, and it stays so as long as the receive stays.", "quantifier": "all histories of inserts, snapshots, deletions, rollbacks and restarts", "why_tests_cant": "A second receive may become possible only after a particular interleaving of snapshot, crash and re-insertion.", "anchors": ["ledger/verifier/account_verifier.go: verifySendBlockIntegrity, verifyReceiveBlock", "ledger/chain/index/insert.go: InsertAccountBlock", "ledger/chain/index/account_block.go: IsReceived", "ledger/verifier/snapshot_verifier.go: verifyAccounts"]}
{"id": "C62", "title": "Deletion and rollback take away exactly what rests on what is deleted", "statement": "Deleting an unconfirmed block removes it, the later blocks of its account, the receives of its sends, and so on, and nothing else; it is refused exactly for blocks that are not unconfirmed. A snapshot confirms exactly the blocks its content covers, and its clean-up removes exactly the unconfirmed blocks that are not valid any more and what rests on them. A rollback to a height keeps exactly the snapshots below it, and the blocks of the first deleted snapshot become unconfirmed again if the redo log is there. A restart leaves the confirmed ledger.", "quantifier": "all histories, all blocks deleted, all heights rolled back to, all outcomes of the validity checks", "why_tests_cant": "The dependency closure ranges over arbitrarily deep cascades over many accounts.", "anchors": ["ledger/chain/delete.go: DeleteSnapshotBlocksToHeight, DeleteAccountBlocks", "ledger/chain/unconfirmed.go: computeDependencies, filterUnconfirmedBlocks", "ledger/chain/insert.go: InsertSnapshotBlock, getBlocksToBeConfirmed", "ledger/chain/index/delete.go: rollback"]}
{"id": "C63", "title": "Ledger queries answer from the blocks of the ledger, whatever is cached", "statement": "Looking a block up by its hash (also the hash of a send inside a contract's receive) or by account and height, asking for the latest block of an account, whether and by whom a send was received, which sends wait for an account, by which snapshot a block is confirmed and how many times: all answers are exactly those that follow from the list of blocks in the ledger. They do not depend on caches, on flushes or on the order of operations that led there.", "quantifier": "all histories including evictions of any cache entry at any time, all queries", "why_tests_cant": "Stale or missing entries of one of the caches or index tables show only after particular sequences of eviction, deletion and re-insertion.", "anchors": ["ledger/chain/account_block.go: GetAccountBlockByHash, GetAccountBlockByHeight, GetReceiveAbBySendAb, GetConfirmedTimes, GetLatestAccountBlock", "ledger/chain/index/account_block.go: GetConfirmHeightByHash, IsReceived", "ledger/chain/index/onroad.go: GetOnRoadHashList", "ledger/chain/cache/unconfirmed_pool.go", "ledger/chain/cache/dataset.go"]}
{"id": "C64", "title": "A node's own snapshot is accepted and complete", "statement": "The content a node proposes for its next snapshot covers exactly its first 40000 unconfirmed blocks, is closed under what they rest on, passes the checks of the node, and confirms exactly these blocks, in order.", "quantifier": "all reachable states, any number of unconfirmed blocks", "why_tests_cant": "The content keeps only the last height of each account; that this stands for exactly a prefix must hold for every interleaving of accounts.", "anchors": ["ledger/chain/unconfirmed.go: GetContentNeedSnapshot", "ledger/chain/insert.go: getBlocksToBeConfirmed", "ledger/verifier/snapshot_verifier.go: verifyAccounts"]}
{"id": "C65", "title": "The pool of contract sends holds exactly what waits", "statement": "The in-memory pool a node uses to serve contracts holds, for every contract, exactly the sends addressed to it that are in the ledger and not received; the first one of a caller that it reports is the one made first by that caller (by block height and then by position in the send list). This stays true through insertions, snapshots with clean-ups, deletions, rollbacks and restarts, in whatever order the node handles the blocks of one call, and no such call stops the node.", "quantifier": "all histories of a node; all orders in which the events of a call are handled; all contracts, callers and sends", "why_tests_cant": "The pool is kept in step by events that are cut, sorted and cancelled against each other; a missed case shows only after a particular mix of sends and receives in one deletion or rollback.", "anchors": ["ledger/onroad/chain_events.go: InsertAccountBlocks, PrepareDeleteAccountBlocks, DeleteSnapshotBlocks", "ledger/onroad/pool/contract_pool.go: InsertBlock, DeleteBlock, loadOnRoad, IsFrontOnRoadOfCaller", "ledger/onroad/pool/storage.go", "ledger/onroad/pool/types.go"]}
{"id": "C66", "title": "Contracts receive the sends of each account in order", "statement": "If a contract has received a send of an account, it has received every earlier send of that account to it, in an earlier block of its chain; a receive out of order is refused.", "quantifier": "all histories of a node that checks blocks, all contracts and accounts", "why_tests_cant": "The check asks the pool and not the ledger; order must hold for every state of the pool after any deletion, rollback or restart.", "anchors": ["ledger/verifier/account_verifier.go: verifySequenceOfContractReceive", "ledger/onroad/pool/contract_pool.go: IsFrontOnRoadOfCaller"]}
{"id": "C67", "title": "What waits first for a contract is offered to its producer", "statement": "The list of sends offered to the producer of a contract has the first waiting send of every account that has sends waiting for the contract, and nothing else.", "quantifier": "all histories of a node, all contracts and accounts", "why_tests_cant": "A send that is never offered is never received although it waits; whether it is offered depends on what happened to other contracts.", "anchors": ["ledger/onroad/pool/contract_pool.go: GetFrontOnRoadBlocksByAddr", "ledger/onroad/pool/storage.go: getFirstOnroadTxList, callers"]}
{"id": "C68", "title": "The fork tree never panics and always passes its own check", "statement": "However blocks arrive, are written to the chain, rolled back, and however the main branch is switched and the tree pruned, no operation on the tree of unconfirmed blocks panics, and the check the pool makes of it (main branch linked to the chain, every other branch linked to its root) passes after each. The main branch is one of the branches of the tree and continues the chain on disk, and every other branch stems from it.", "quantifier": "all sequences of operations the pool makes on its tree, all blocks with distinct hashes, all orders in which the branches are met", "why_tests_cant": "The node dies on a failed link; whether links hold depends on how roots were exchanged, moved and pruned in every earlier operation.", "anchors": ["ledger/pool/tree/tree_impl.go", "ledger/pool/tree/branch.go: exchangeRoot, updateRoot, prune", "ledger/pool/tree/checker.go: CheckTree", "ledger/pool/bc_pool.go: checkCurrent"]}
{"id": "C69", "title": "A branch of unconfirmed blocks is a chain, and operations keep its blocks", "statement": "Reading a branch through the branches it stems from gives one block per height, each naming the one before as its parent, up to the head of the branch. Switching, writing, rolling back and pruning change no block of a branch that stays. A branch goes only if its blocks are blocks of a branch it stems from, or if it is empty or old when the tree is pruned, and unless old branches are pruned no block is lost. Only writing a block and rolling back change the chain on disk.", "quantifier": "all sequences of operations on the tree, all branches and heights", "why_tests_cant": "Branches share blocks by pointers to roots that each operation rearranges; a lost or doubled block shows only for some shapes of the tree.", "anchors": ["ledger/pool/tree/branch.go: GetKnotAndBranch, getKnot, prune, exchangeRoot, updateRoot, destroy", "ledger/pool/tree/tree_impl.go: RootHeadAdd, PruneTree, removeBranch", "ledger/pool/bc_pool.go: rollbackCurrent"]}
{"id": "C70", "title": "The fork point is exact and a fork gives up no more of the chain than it must", "statement": "The fork point of a branch is the highest block it shares with the main branch. The test made before a switch says exactly whether the branch has the block the main branch stands on. Rolling the chain back to the fork point and switching makes the branch the main branch with all its blocks; switching to an empty branch leaves the chain as it is.", "quantifier": "all trees that operations can give, all branches", "why_tests_cant": "A wrong fork point rolls back confirmed blocks or leaves a main branch that does not continue the chain, for some shapes of the tree only.", "anchors": ["ledger/pool/tree/tree_impl.go: FindForkPointFromMain, SwitchMainTo, SwitchMainToEmpty, Brothers", "ledger/pool/account_pool.go: pendingAccountTo", "ledger/pool/pool.go: ForkAccountTo", "ledger/pool/snapshot_pool.go: snapshotFork"]}
{"id": "C71", "title": "The block reported as irreversible is exactly the highest one that qualifies", "statement": "Whenever the node is asked for the irreversible snapshot block it answers with the first block of the last round in which at least 2*(n/3)+1 different producers made blocks, and with none only if there is no such round; what was found earlier is used again only where it gives the same answer. Asking never brings the node down.", "quantifier": "all chains, all histories of insertions, queries and forks, all numbers of nodes from 3 on", "why_tests_cant": "The search goes back over rounds of varying length and stops early at what was found before, which a fork may have made wrong; only some histories show a difference.", "anchors": ["ledger/pool/pool_fork_checker.go: updateIrreversibleBlock, getLatestIrreversibleBlock, getLatestIrreversible, checkIrreversible, GetIrreversibleBlock", "ledger/consensus/consensus_snapshot.go: GetNodeCount, GetPeriodTimeIndex"]}
{"id": "C72", "title": "A fork does not delete irreversible snapshot blocks", "statement": "A fork goes on exactly if it deletes nothing or if all irreversible blocks are below the first block it deletes, and then deletes that block and those above it only. So no operation removes a block that is irreversible at that moment, nor any below it, and the block reported does not go back while the chain only grows. A block once reported as irreversible stays on the chain for ever.", "quantifier": "all chains, all histories of insertions, queries and forks, all fork points", "why_tests_cant": "The guard compares with a block that was found for an earlier chain; whether it protects depends on the order of forks and insertions.", "anchors": ["ledger/pool/pool_fork_checker.go: snapshotFork, checkIrreversiblePrinciple, snapshotRollback"]}
{"id": "C73", "title": "The hash of an account block fixes its content", "statement": "Two account blocks with one hash agree on type, account, height, previous block and, for a send, on addressee, token and amount, for a receive on what is received; and on data, fee, logs, nonce and the sends they carry. A signature therefore covers the whole transfer: of one signed block nobody can make another that nodes accept. The hash of a send made by a contract is never that of a block of an account, and names its place in the contract's block.", "quantifier": "all pairs of blocks of all types, all data, amounts, nonces and lists of sends; any hash function without a collision on the strings hashed", "why_tests_cant": "Whether the hashed string determines the fields depends on which optional parts are present in either block; a test compares a few pairs of blocks.", "anchors": ["interfaces/core/account_block.go: ComputeHash, hashSource, ComputeSendHash", "ledger/verifier/account_verifier.go: verifyHash, verifySendBlockIntegrity, verifyReceiveBlockIntegrity, verifyNonce", "vm/vm.go: the block built for a send"]}
{"id": "C74", "title": "The hash of a snapshot block fixes its content, in any order of the map", "statement": "The hash of a snapshot block does not depend on the order in which its map of accounts is gone through. Two snapshot blocks have one hash exactly if they agree on the previous block, the height, the time in seconds, the seed revealed, the seed committed to, the accounts snapshotted with their hash and height, and, from the leaf upgrade on, the version. A committed seed hash fixes the seed.", "quantifier": "all pairs of snapshot blocks, all sizes of content, all orders of iteration, all upgrade points", "why_tests_cant": "The order of a Go map changes from run to run, and equal hashes of different contents would need every pair of contents to be tried.", "anchors": ["interfaces/core/snapshot_block.go: ComputeHash, bytesList, scItemToBytes, ComputeSeedHash"]}
{"id": "C75", "title": "Blocks arrive as they were sent and are stored as they were", "statement": "A block turned into a message and read back is the same block, with the same hash, if it is one that nodes make: nothing is lost, changed or reordered in the list of sends or in the content of a snapshot block. What is lost of an irregular block is stated. A message that cannot be read is reported as such.", "quantifier": "all account blocks with lists of sends nested to any depth, all snapshot blocks with content of any size, all messages", "why_tests_cant": "The conversion goes by type, height and presence of optional fields, recursively through the list of sends; a test converts a few blocks.", "anchors": ["interfaces/core/account_block.go: Proto, DeProto, Deserialize", "interfaces/core/snapshot_block.go: Proto, DeProto, SnapshotContent.proto, SnapshotContent.deProto"]}
{"id": "C76", "title": "The hash of logs fixes the logs", "statement": "The hash of the logs that a block contains fixes the list of logs: how many there are, the topics of each and the data of each; and from the seed upgrade on also the account and the block before.", "quantifier": "all pairs of lists of logs, any number of logs, topics and bytes of data; any hash function without a collision on the strings hashed", "why_tests_cant": "It is about all pairs of lists; logs that a test compares differ in their bytes.", "anchors": ["interfaces/core/vm_log_list.go: Hash"]}
{"id": "C77", "title": "A contract that iterates over its storage sees what it would read", "statement": "While a block is executed, an iterator over a contract's storage gives every slot that reading would give a value and whose key begins with the prefix, once, in key order, with that value: writes of the block count, slots it emptied are left out, saved slots that it did not touch are in. This holds for reading forwards, from a key on, and backwards, and for any mixture of steps.", "quantifier": "all saved storages, all sequences of writes of the block, all prefixes, all sequences of steps", "why_tests_cant": "The iterator merges two sources with caches, statuses and skipped keys; the cases are the relative orders of any number of keys in both and the turns of the reader.", "anchors": ["common/db/merged_iterator.go: MergedIterator", "vm_db/storage_iterator.go: NewStorageIterator", "vm_db/unsaved.go: SetValue, GetValue, IsDelete, NewStorageIterator", "vm_db/storage.go: GetValue, SetValue", "ledger/chain/state/iteration.go: NewStorageIterator, stateStorageIterator"]}
{"id": "C78", "title": "Iterating over storage at a snapshot gives the storage of that snapshot", "statement": "An iterator over a contract's storage at a snapshot height gives every slot with the prefix that was written at or before that height, once, in key order, with the value written last at or before it, and no other; forwards, backwards, from a key on, and in any mixture of steps from a slot on.", "quantifier": "all histories of all slots of all contracts, all heights, all prefixes that do not end in a zero byte, all sequences of steps", "why_tests_cant": "Each slot has any number of values at any heights before and after the snapshot; the iterator jumps in the raw order and steps back, and the cases are all interleavings of heights and keys.", "anchors": ["ledger/chain/state/iteration.go: snapshotStorageIterator, NewRawSnapshotStorageIteratorByHeight, stateStorageIterator", "ledger/chain/utils/generate_key.go: CreateHistoryStorageValueKey"]}
{"id": "C79", "title": "The election's cache answers as the database does", "statement": "With the cache for the election switched on, the balances of the base token at a snapshot block and the storage of the governance contract at it are those of the database: given by the writes of the blocks up to it. This holds however blocks came and were deleted and whenever the cache was started; no update of the cache fails.", "quantifier": "all chains of snapshot blocks in all rounds with all logs, all orders of starting, adding and deleting blocks, all orders in which maps are gone through, all blocks, accounts and slots", "why_tests_cant": "What the cache holds depends on the whole history of rounds, of deletions inside and across rounds, and on when it was started; elections go wrong only for histories in which a round has several blocks.", "anchors": ["ledger/chain/state/round_cache.go: Init, InsertSnapshotBlock, DeleteSnapshotBlocks, GetSnapshotViteBalanceList, StorageIterator", "ledger/chain/state/state_db.go: GetSnapshotBalanceList", "ledger/chain/state/storage_database.go: NewStorageIterator", "ledger/chain/snapshot_block.go: GetSnapshotHeadersAfterOrEqualTime"]}
{"id": "C80", "title": "Messages between nodes arrive as they were sent", "statement": "A message written to a connection is read from it with the same code, id and content, compressed or not, and messages written one after the other are read as these messages in this order. A message that is cut off is not read as another. Reading takes no more than the largest message off the connection, whatever the other side sends.", "quantifier": "all messages, all thresholds for compression, all sequences of messages, all bytes that follow, all points at which a connection may break", "why_tests_cant": "The sizes of id and length vary with their values and are packed in a few bits; a wrong size for some value shifts all that follows on the connection.", "anchors": ["net/codec.go: ReadMsg, WriteMsg, putId, storeMeta, retrieveMeta, PutVarint, Varint"]}
{"id": "C81", "title": "A handshake tells who the peer is", "statement": "Nodes of the same network that admit each other accept each other and each learns the other's id. A node accepts exactly the messages of its network and genesis block that its lists and limits admit and that carry the token of the secret it shares with the named id; peers are listed under the id of a key they hold, are superior only if they hold the key of a producer, and no message from outside stops the node.", "quantifier": "all nodes, keys, lists and limits, all times and all messages that an adversary sends or repeats", "why_tests_cant": "An adversary sends arbitrary messages, repeats and alters those of others; tests only run honest parties.", "anchors": ["net/handshaker.go: ReceiveHandshake, InitiateHandshake, verifyHandshake, makeHandshake, doHandshake, getSecret", "net/net.go: authorize, onConnection", "crypto/ed25519/ed25519.go: Verify, ToX25519Pk", "crypto/crypto.go: X25519ComputeSecret"]}
{"id": "C82", "title": "Download tasks and cached chunks cover the way to the target", "statement": "From the points a peer names and the chunks in the cache a node makes tasks such that tasks and kept chunks together lead, block after block, from its own block to the last point, by height and hash, without overlap. Only chunks that do not fit the points are deleted, every task finds room in the cache, and no task asks for more than 2000 blocks unless two points are farther apart.", "quantifier": "all lists of ascending points, all contents of the cache", "why_tests_cant": "The cuts depend on how the chunks lie among the points: before, across and after them, adjacent or apart; a case that is missed leaves a hole that stops synchronisation for ever.", "anchors": ["net/sync_cache_reader.go: compareCache, constructTasks", "net/sync_downloader.go: download"]}
{"id": "C83", "title": "The cache of chunks keeps what was put into it", "statement": "Chunks of the cache never overlap; a chunk is taken exactly if no other has a block in common with it; a chunk that was written and closed is listed and read as it was written until it is deleted, also after the node restarts; one that was not finished leaves nothing behind.", "quantifier": "all sequences of opening, writing, closing with and without success, deleting, verifying and restarting, with several writers at a time", "why_tests_cant": "Writers, deletions and restarts interleave; names of files and records in the index get out of step only in some orders.", "anchors": ["ledger/chain/sync_cache/: NewWriter, Close, Delete, Verify, NewReader, Chunks, loadFromDB, checkOverlap"]}
{"id": "C84", "title": "A chunk that is read is whole", "statement": "A chunk given to the node for insertion has all snapshot blocks from the one after its declared begin to its declared end, linked by hash and height, and all account blocks of its file in order, linked for every account; every block was verified unless the chunk was before. A file that lacks a block, ends elsewhere or has a gap is refused.", "quantifier": "all contents of files, all verifiers and black lists, all declared begins and ends", "why_tests_cant": "Files come from other nodes, which may leave out, repeat or reorder blocks at any place.", "anchors": ["net/interface.go: Chunk, newChunk, addSnapshotBlock, addAccountBlock, done", "net/sync_cache_reader.go: read"]}
{"id": "C85", "title": "Peers get the blocks and the points they ask for", "statement": "A peer that asks for a number of blocks before or after a block this node has gets exactly those of them that the node has, in messages of at most 100 blocks, and is told that blocks are missing only if some are. A peer that asks for points of the chain gets the block after the first of its blocks that this node has, every block whose height is a multiple of the step, and the block of the last height, in ascending order; a peer that has no block of this node is told so.", "quantifier": "all ledgers, all requests a peer can send, all counts, steps and heights", "why_tests_cant": "Requests come from other nodes with any numbers in them; boundaries of parts and of the number type cannot be enumerated.", "anchors": ["net/msghandler.go: getSnapshotBlocksHandler.handle, getAccountBlocksHandler.handle, checkHandler.handleGetHashHeightList, splitChunk"]}
{"id": "C86", "title": "A majority of peers decides where a syncing node goes", "statement": "If the peers that sent one list of points, and no other list, are more than all other peers that sent lists, the node goes along the hashes of that list, whatever the others sent and in whatever order. The height it wants to reach is not above what some honest peer has as long as at most a third of the peers lie. A minority can neither lengthen that way nor change its heights.", "quantifier": "all sets of peers, all lists of points, all orders of arrival and all orders in which a map is iterated", "why_tests_cant": "What other peers send and the order of arrival and of map iteration are open; a test has one of each.", "anchors": ["net/skeleton.go: hashHeightNode.addBranch, hashHeightNode.bestBranch, skeleton.receiveHashList", "net/peer.go: peerSet.syncPeer", "net/syncer.go: getEnd"]}
{"id": "C87", "title": "No download task is lost and the lowest one is always under way", "statement": "Every task given to the downloader stays in its queue until its download succeeds or it is cancelled. In every turn with at least one peer the unfinished task of lowest height is under way, so all tasks get done when downloads succeed. Not more downloads run at once than the limit.", "quantifier": "all sequences of added tasks, turns of the loop, clocks, numbers of peers and outcomes of downloads", "why_tests_cant": "The loop steps over tasks depending on how many run; which are reached depends on the history of outcomes.", "anchors": ["net/sync_downloader.go: runTasks, executor.loop, executor.run, executor.do, addTasks"]}
{"id": "C88", "title": "Downloads go to suitable peers, and the set of connections is right", "statement": "A source chosen for a task is idle, not blocked and has all blocks of the task; a source is found if there is one. A peer that was blocked can be chosen again when its time is over. Removing a connection removes it and no other, and refusing a second connection to a peer leaves the first in place.", "quantifier": "all sets of peers and connections, all sequences of additions and removals, all times, all orders of maps and throws of the dice", "why_tests_cant": "The result depends on the order of removals between sorts, on times and on map order.", "anchors": ["net/sync_conn.go: downloadConnPool.chooseSource, addConn, delConn, sortLocked, blocked", "net/sync_downloader.go: executor.createConn"]}
{"id": "C89", "title": "Missing blocks are asked for, not too often, and questions are answered once", "statement": "When a block is wanted, up to three reliable peers that are tall enough are asked; it is asked for again only when all of them have nothing, or some time and some calls later, and never at a peer that has not answered yet. A peer counts as being on this node's chain only if it sent the block it was asked for. Every question is answered exactly once, at the latest after its time is over. A block whose requests got lost is asked for again.", "quantifier": "all sequences of wishes, questions, answers of any peers, failures to send and clean-ups, all times", "why_tests_cant": "The records depend on the interleaving of wishes, answers and clean-ups over time, and on what arbitrary peers send.", "anchors": ["net/fetcher.go: hold, pickTargets, done, clean, FetchSnapshotBlocks, fetchSnapshotBlock, handle", "net/net.go: checkPeer"]}
{"id": "C90", "title": "Batched parallel insertion respects the references between blocks", "statement": "When blocks are gathered into a batch and the batch is inserted by parallel workers, every block is inserted after all blocks it refers to (or they were in the ledger); nothing that was taken is lost or inserted twice; a snapshot block comes after exactly the blocks taken before it; no two workers insert for the same account at a time; a block that is refused leaves the batch as it was.", "quantifier": "every ledger, every sequence of offered blocks, every number of levels, every order of the buckets, every interleaving of the workers, every failure of an insertion", "why_tests_cant": "the interleavings of the workers and the ways in which blocks can refer to each other are unbounded", "anchors": ["ledger/pool/batch/batch_impl.go: addAccountItem, addSnapshotItem", "ledger/pool/batch/level_account.go: accountLevel", "ledger/pool/batch/level_snapshot.go: snapshotLevel", "ledger/pool/batch/batch_executor_impl.go: execute, insertAccountLevel"]}
{"id": "C91", "title": "The account blocks of a downloaded chunk are put in an order in which they can be inserted", "statement": "Sorting the account blocks of a chunk gives the same blocks, each after all blocks of the chunk it refers to; it never fails when such an order exists, and never stops the node.", "quantifier": "every list of blocks with whatever references and whatever sends inside them", "why_tests_cant": "the shapes of reference graphs are unbounded", "anchors": ["tools/toposort/sort.go: TopoSort", "tools/toposort/topsort.go: tpSort", "ledger/pool/face.go: accBlocksSort", "ledger/pool/pool_batch_chunk.go: insertChunksToChain"]}
{"id": "C92", "title": "Downloaded chunks whose blocks can be inserted are inserted in full", "statement": "When the new blocks of downloaded chunks can be inserted chunk by chunk in some order, inserting the chunks takes every new block exactly once, refuses none and never stops the node, however the blocks of a chunk are ordered on arrival and however many batches are needed; whatever the workers' interleaving, every block comes after those it refers to. The only possible failure is that a batch itself cannot be inserted.", "quantifier": "every ledger, every list of chunks that has a valid order, every arrival order inside a chunk, any number of blocks and batches", "why_tests_cant": "chunk shapes, arrival orders and batch boundaries are unbounded", "anchors": ["ledger/pool/pool_batch_chunk.go: insertChunksToChain", "ledger/pool/batch/batch_impl.go: AddAItem, AddSItem", "ledger/pool/face.go: accBlocksSort"]}
{"id": "C93", "title": "A snapshot block is queued with all account blocks it confirms, whatever the iteration order", "statement": "When the account blocks a snapshot block still needs, and the snapshot block after them, can be inserted in some order after what the batch holds, queueing takes all of them and the snapshot block, whatever the order in which the map of accounts is iterated in each pass, unless the levels of the batch run out.", "quantifier": "every ledger, every history of the batch, every set of needed blocks with a valid order, every iteration order of every pass", "why_tests_cant": "Go randomises map iteration, and the references across accounts are arbitrary", "anchors": ["ledger/pool/pool_batch.go: makeQueueFromSnapshotBlock", "ledger/pool/batch/batch_impl.go: AddAItem, AddSItem"]}
{"id": "C94", "title": "Whether a chunk joins the chain is told exactly, and a chunk is never lost", "statement": "A chunk is found disconnected exactly when it begins above the head of the chain, connected exactly when its blocks up to the head are on the chain and the higher ones follow the head, and forked otherwise. Its blocks go into the chain only when it joins the snapshot chain and every account chain under the lock; it is taken off the reader exactly when its blocks went into the chain or the pool.", "quantifier": "every chain and every linked chunk of any length, every position of the chunk relative to the head, every outcome of the tests before and under the lock", "why_tests_cant": "the relative positions of chunk and chain, and what changes between the two tests, are unbounded", "anchors": ["ledger/pool/pool_batch_chunk.go: insertChunks, checkInsert, checkAccountsInsert"]}
{"id": "C95", "title": "The on-road summary of an account is exact", "statement": "Asked what is on the road to an account, the node answers for every token with the number and the total amount of the sends in its ledger that are addressed to the account and that no block has received, and with no entry when there are none; what it stores of this for the confirmed part of the ledger stays exact through every sequence of new blocks, snapshots, deletions and rollbacks.", "quantifier": "every history of insertions, snapshots, deletions and rollbacks (with or without blocks that become unconfirmed again), every account and every token", "why_tests_cant": "the summary is kept by increments and decrements that cancel in pairs; whether they stay exact depends on the whole history", "anchors": ["ledger/chain/plugins/onroad_info.go: GetAccountInfo, excludePairTrades, aggregateBlocks, flushWriteBySnapshotLine, flushDeleteBySnapshotLine, RemoveNewUnconfirmed", "ledger/chain/plugins/plugins.go", "ledger/chain/delete.go"]}
{"id": "C96", "title": "Pages of an account's blocks with a token are complete and in order", "statement": "Asked for the blocks of an account that move a token, the node gives the highest ones first, at most as many as asked for, leaves none out as long as there is room, and names no block that is not in the ledger or does not move the token; going on from the last block of a page gives the blocks from there downwards.", "quantifier": "every history of insertions, snapshots, deletions, rollbacks and flushes of the store, every account, token, page size and starting block", "why_tests_cant": "the index is written through batches that are applied, dropped or confirmed at different times; what is left in it depends on the whole history", "anchors": ["ledger/chain/plugins/filter_token.go: GetBlocks, InsertAccountBlock, deleteAccountBlocks", "ledger/chain/plugins/plugins.go: PrepareDeleteAccountBlocks, DeleteSnapshotBlocks", "ledger/chain/db/rollback.go", "ledger/chain/db/flush.go"]}
{"id": "C97", "title": "A contract created in a group without a pool does not disturb other contracts", "statement": "Whatever group a contract names at its creation, the queues of waiting sends of all other contracts stay exact: each holds the sends addressed to the contract and not received, the first of a caller is known, nodes with the same blocks accept the same receives, and no event stops the node.", "quantifier": "every history of insertions, snapshots, deletions, rollbacks and restarts, every group of every contract, every order in which the contracts of one event are visited", "why_tests_cant": "the order of the visits is that of a map and differs between runs and nodes; the fault needs one block that reaches contracts of different groups", "anchors": ["ledger/onroad/chain_events.go: InsertAccountBlocks, PrepareDeleteAccountBlocks, PrepareDeleteSnapshotBlocks", "ledger/onroad/manager.go: defaultContractGidList, prepareOnRoadPool", "ledger/onroad/access.go: IsFrontOnRoadOfCaller", "vm/vm.go: sendCreate", "ledger/verifier/account_verifier.go: verifySequenceOfContractReceive"]}
{"id": "C98", "title": "No two receive blocks for one contract are made at the same time", "statement": "Of the goroutines that make receive blocks for contracts, at most one handles a contract at any moment, across starts and stops of the worker and with goroutines left over from earlier periods; and once Stop has returned none handles anything until the next Start.", "quantifier": "every interleaving of any number of processors with starts, stops, signals of the chain and snapshot events", "why_tests_cant": "two blocks on one contract chain fork it, and the window depends on the schedule", "anchors": ["ledger/onroad/contract.go: Start, Stop, addContractIntoWorkingList, removeContractFromWorkingList", "ledger/onroad/taskprocessor.go: work"]}
{"id": "C99", "title": "The worker takes the first send of a caller, and callers in turn", "statement": "A send the worker takes for a contract is the first that waits from its sender, whose sends are not restricted; the worker takes none only if no unrestricted sender has one waiting; and while a sender is in line no other sender is served twice.", "quantifier": "every history of acquisitions, restrictions and releases, every change of the chain between and during acquisitions, every order of map iteration", "why_tests_cant": "Go's map order is random, and the cache may be stale in any combination", "anchors": ["ledger/onroad/contract.go: acquireOnRoadBlocks, restrictContractCaller, releaseContractCallers", "ledger/onroad/pending_cache.go"]}
{"id": "C100", "title": "Contracts are served by quota", "statement": "The queue of contracts holds each contract at most once with its last quota, and what is taken from it is a contract with the greatest quota; nothing is lost or invented. (Contracts of equal quota are not served in turn: the one just served comes first again.)", "quantifier": "every start, and every sequence of pushes and pops", "why_tests_cant": "a heap has unboundedly many shapes", "anchors": ["ledger/onroad/task_pqueue.go", "ledger/onroad/contract.go: getAndSortAllAddrQuota, pushContractTask, popContractTask"]}
{"id": "C101", "title": "A send that can be received is seen to while the node produces", "statement": "While the worker runs, every contract for which a send waits that may be handled is in the queue, with a processor that will look at it, or has a task on its way; and what was put off to the next snapshot block is taken up then.", "quantifier": "every interleaving of processors, chain events and snapshot events", "why_tests_cant": "a lost wake-up needs one particular interleaving", "anchors": ["ledger/onroad/contract.go: Start, releaseContract", "ledger/onroad/taskprocessor.go: work, processOneAddress", "ledger/onroad/chain_events.go: newContractSignalToWorker"]}
{"id": "C102", "title": "A query for logs answers with the matching logs of the range", "statement": "GetLogs returns exactly the logs of the asked accounts whose blocks lie in the asked ranges of heights and whose topics match, in order of height, cut into pages that join without gap or overlap. (Fails for several accounts with pages, and for a range that begins above the account's latest block.)", "quantifier": "every chain of blocks, every range, topic filter, page index and page size, every set of accounts in every order of iteration", "why_tests_cant": "ranges are scanned in pages of ten heights with boundary cases at both ends, for histories of any length", "anchors": ["rpcapi/api/ledger_v2.go: GetLogs, getHeightPage, FilterLog, ToFilterParam"]}
{"id": "C103", "title": "Subscribers are told what happened to the ledger", "statement": "A subscriber is told of each block (each log, each change of what waits for an account) that is added, and of each removal, exactly as often as it happens and in this order, so that a client who applies what it is told knows the state of the ledger. (Fails when the event loop takes a removal before the addition it undoes, and for logs the node does not keep.)", "quantifier": "every history of insertions and deletions, every choice of the event loop, every filter", "why_tests_cant": "Go's select picks among ready channels at random", "anchors": ["rpcapi/api/filters/event_system.go: eventLoop, handleAcEvent, handleSbEvent, filterLogs", "rpcapi/api/filters/chain_subscribe.go"]}
{"id": "C104", "title": "A filter misses nothing and stops nobody", "statement": "A client that polls a filter gets all events that concern it since it was made, each once and in order, until it is uninstalled or expires; and the event loop, the filters and their removal never block one another or the ledger. (The second part fails when a filter expires.)", "quantifier": "every interleaving of the event loop, the filters' goroutines, clients, the expiry loop and the ledger, any number of filters and events", "why_tests_cant": "a deadlock needs one particular interleaving within an expiry that happens every five minutes", "anchors": ["rpcapi/api/filters/subscribe.go: timeoutLoop, NewAccountBlocksFilter, UninstallFilter, getChangesByFilterId", "rpcapi/api/filters/event_system.go: eventLoop, Unsubscribe"]}
{"id": "C105", "title": "Who listens to the ledger is told, and who has stopped is not", "statement": "After any calls of Register and UnRegister, the listeners that are told of changes of the ledger are those that registered and did not unregister. (Fails: UnRegister removes whoever registered first.)", "quantifier": "every sequence of registrations and unregistrations", "why_tests_cant": "with one listener, as in a test, the wrong removal is the right one", "anchors": ["ledger/chain/event_manager.go: Register, UnRegister"]}
{"id": "C106", "title": "The journal of the database gives back what was written, after a crash at any byte", "statement": "Reading the journal gives exactly the records that were written, in order. If a crash leaves any first part of the file, with or without zeros after it, the reading does not fail and gives exactly the records whose last byte is there; whatever else follows whole records, they are all read. (Damage in the middle is not noticed: records are left out and later ones are read.)", "quantifier": "every sequence of records of every length, written in any parts; every byte at which the file may end; every checksum function and block size", "why_tests_cant": "records of any length meet block ends at any offset, and a crash can cut anywhere", "anchors": ["common/db/xleveldb/journal/journal.go: Writer.Next, singleWriter.Write, Flush, fillHeader, writeBlock, Reader.Next, nextChunk, singleReader.Read", "common/db/xleveldb/db.go: recoverJournal"]}
{"id": "C107", "title": "After a crash the database holds a first part of the writes, each whole", "statement": "When the database is opened after a crash that leaves any first part of the journal, every key has the value that the first m writes gave it, where m counts all writes whose bytes were in the file; no write is applied in part, and new writes get greater sequence numbers than all of them.", "quantifier": "every sequence of groups of batches, every crash point, every key", "why_tests_cant": "the crash point ranges over every byte of every history", "anchors": ["common/db/xleveldb/db_write.go: writeLocked, writeJournal", "common/db/xleveldb/batch.go: writeBatchesWithHeader, decodeBatchToMem, decodeBatch, putMem", "common/db/xleveldb/db.go: recoverJournal, memGet"]}
{"id": "C108", "title": "The distance between nodes is a metric on the tree of identities", "statement": "The distance of two identities is the number of their bits from the first one in which they differ to the end; it is 0 only for equal identities, is symmetric, and of the three distances between three identities none exceeds the larger of the other two. An identity made at random for a distance has exactly that distance.", "quantifier": "all identities of any length in bytes, all distances, all random bytes", "why_tests_cant": "2^512 pairs; the random bytes are not controlled", "anchors": ["net/vnode/node.go: Distance, commonBits, commonNBits, RandFromDistance"]}
{"id": "C109", "title": "The table of known nodes is consistent: every node in its bucket, once, and found by identity and address", "statement": "Each node is in the bucket of its distance, buckets do not exceed their size and hold an identity once. If the steps of an addition do not interleave with other changes, every address belongs to at most one node, and looking up an identity or an address finds exactly the nodes that were added and not removed or replaced. (Interleaved additions, late answers and updates in place break this.)", "quantifier": "every table size, every history of additions, checks, removals and answers, in any order of their steps", "why_tests_cant": "the order in which goroutines take the locks ranges over all histories", "anchors": ["net/discovery/table.go: table.add, remove, removeLocked, bubble, checkReplace, checkRemove, resolve, resolveAddr, nodes, subTree, getBucket; bucket.go"]}
{"id": "C110", "title": "A search in the table answers with known nodes, and with all of them when they are few", "statement": "The nodes given for a target are different nodes of the table, at most as many as asked for, in the order of their distance to the target; when the table holds no more than asked for, all are given. (They need not be the closest ones.)", "quantifier": "all tables, targets and counts", "why_tests_cant": "ranges over all tables and targets", "anchors": ["net/discovery/table.go: findNeighbors, findSource, closet.push"]}
{"id": "C111", "title": "End points and answers of the discovery survive the way through packets", "statement": "Every valid end point is read back from its bytes as it was written. An answer's packets hold all its end points in order; with at most 110 of them every packet fits the size that peers read; and when they arrive in order all end points are received up to the number asked for. (Longer answers may make packets that are lost; a last packet that overtakes others makes them dropped.)", "quantifier": "all end points, all answers of any length", "why_tests_cant": "lengths of hosts and answers vary without bound", "anchors": ["net/vnode/endpoint.go: Serialize, Deserialize, Length", "net/discovery/socket.go: sendNodes, splitEndPoints", "net/discovery/pool.go: findNodeRequest.handle"]}
{"id": "C112", "title": "An answer to a search for nodes is worked off", "statement": "Every run of reader, searcher and workers on an answer ends, and for an answer of at most two packets it ends with all packets read, all end points handled and no lock held. (With a third packet the node can stop for ever.)", "quantifier": "every order of the steps of all goroutines, every number of end points in each packet, every number asked for", "why_tests_cant": "the deadlock needs a certain order of steps", "anchors": ["net/discovery/pool.go: add, rec, clean, findNodeRequest.handle", "net/discovery/discovery.go: findNode, receiveEndPointCurr, receiveEndPoint, ping", "net/discovery/socket.go: readLoop, findNode"]}
{"id": "C113", "title": "A path or an index of a wallet leads to one key, and a search finds the account of an address", "statement": "A key is derived for a path exactly if the path is m followed by one or more numbers below 2^31, each between a slash and a quote, and it is the key that the hardened children with these numbers lead to. The account with an index is there for indices below 2^31, indices have different paths, and the search for an address gives the first account with that address below the limit, or says that there is none.", "quantifier": "all texts as paths, all indices, seeds, addresses and limits up to 2^31", "why_tests_cant": "the texts and the indices are unbounded or 2^32", "anchors": ["wallet/hd-bip/derivation/main.go: DeriveForPath, DeriveWithIndex, Derive, isValidPath, NewMasterKey", "wallet/entropystore/manager.go: FindAddrFromSeed"]}
{"id": "C114", "title": "A stored wallet opens with its passphrase, to its own account, and survives a crash while it is written", "statement": "A mnemonic that was stored is given back for its passphrase. Whatever the file and the passphrase, what opens has the primary account that the file names. No passphrase that gives another key opens a stored wallet. At every moment while a file is written, it holds its old content or the whole new one.", "quantifier": "all mnemonics, passphrases, salts, nonces, contents of files, and moments of a crash of the process", "why_tests_cant": "ranges over all files and passphrases and all crash points", "anchors": ["wallet/entropystore/crypto_store.go: EncryptEntropy, DecryptEntropy, parseJson, writeKeyFile, ExtractSeed", "wallet/entropystore/manager.go: StoreNewEntropy, ExtractMnemonic"]}
{"id": "C115", "title": "Keys are given exactly from the unlocked stores", "statement": "A store is unlocked exactly if a passphrase that opens its file was given while the wallet knew it and nothing has locked it since. The search for the account of an address gives the key of that address exactly if some unlocked store has it, in whatever order the stores are gone through. Removing a store makes it unknown, and the search with a passphrase finds the address if some store with that passphrase has it. (The last two fail: a store removed by a relative name stays, and the first store with another passphrase ends the search.)", "quantifier": "every history of operations and of changes of the files, every order of iteration, every address", "why_tests_cant": "the order of a Go map is random; histories are unbounded", "anchors": ["wallet/manager.go: Unlock, Lock, Account, AccountAtIndex, AccountSearch, GlobalFindAddr, GlobalFindAddrWithPassphrase, AddEntropyStore, RemoveEntropyStore, RefreshCache, RecoverEntropyStoreFromMnemonic, Start, Stop", "wallet/entropystore/manager.go: Unlock, Lock, FindAddr, GetPrivateKey", "rpcapi/api/wallet.go: FindAddr"]}
{"id": "C116", "title": "Listeners of a wallet are told of every lock and unlock", "statement": "Every listener that was added and not removed is told, once each, of the unlockings that succeed and of the locks of the stores. (It holds for one listener only: a second one replaces the first.)", "quantifier": "every history of operations", "why_tests_cant": "histories are unbounded", "anchors": ["wallet/manager.go: AddLockEventListener, RemoveUnlockChangeChannel, AddEntropyStore", "wallet/entropystore/manager.go: Unlock, Lock"]}
{"id": "C117", "title": "A read of the database gives the last write, whatever has been moved, flushed and compacted", "statement": "Reading a key gives the value of the last write to it that was made before the number read at: all complete batches for a read of the present, those before the snapshot for a read through one. Turning the memory table into a frozen one, flushing it to a table, picking, building, committing or giving up compactions changes no read, and neither does a compaction that falls between the look into the memory tables and the look into the tables. A snapshot reads the same for as long as it is held. Records of an unfinished batch are not seen.", "quantifier": "every history of writes, batches, snapshots, flushes and compactions (any level, any tables picked, any cut of the output into tables, trivial moves included), every key", "why_tests_cant": "the histories and the ways in which compactions fall between them are unbounded; an entry dropped wrongly shows only much later", "anchors": ["common/db/xleveldb/db.go: get, Get", "common/db/xleveldb/version.go: get, walkOverlapping, versionStaging", "common/db/xleveldb/db_compaction.go: memCompaction, tableCompactionBuilder.run, tableCompaction", "common/db/xleveldb/session_compaction.go: pickCompaction, newCompaction, expand, baseLevelForKey", "common/db/xleveldb/table.go: getOverlaps, getRange, sortByKey, searchMax", "common/db/xleveldb/db_snapshot.go: acquireSnapshot, releaseSnapshot, minSeq", "common/db/xleveldb/db_write.go: writeLocked, rotateMem", "common/db/xleveldb/memdb/memdb.go: Put, Find"]}
{"id": "C118", "title": "An iterator is a cursor over the database as it was", "statement": "First, Last, Seek, Next and Prev, in any order, go through the keys that had a value when the iterator was made, in order, each once, none left out, with the values of then; Seek goes to the first key not below the one asked for; turning round goes to the neighbour. Writes that come in meanwhile change none of it. (For iterators made at a snapshot or the present number. The iterators of the store of the chain read at a number above all others and see later writes.)", "quantifier": "every history of the database, every list of calls, every entry written between the calls", "why_tests_cant": "call sequences and the versions of keys hidden between them are unbounded; turning round is where such iterators go wrong", "anchors": ["common/db/xleveldb/db_iter.go: newIterator, First, Last, Seek, next, Next, prev, Prev", "common/db/xleveldb/iterator/merged_iter.go", "common/db/xleveldb/db.go: NewIterator, NewIterator2", "ledger/chain/db/store.go: NewIterator"]}
{"id": "C119", "title": "The filter of seen blocks remembers what is added, long enough", "statement": "What has been added to the filter is found at once, and after as many later additions as the filter is made for, it is still found, even when the filter turns over in between. When nothing added covers one of an element's places, it is not found. TestAndAdd answers as Test and then adds.", "quantifier": "every filter state, every sequence of additions, every element and its places", "why_tests_cant": "when the filter turns over depends on the whole history and on the places of all elements", "anchors": ["common/bloom/bloom.go: New, Add, Test, TestAndAdd"]}
{"id": "C120", "title": "Whom a block is forwarded to", "statement": "A block that comes from a peer is forwarded to peers only and not back to the sender; every peer that the sender has not told of gets it; of the peers that the sender has told of, exactly the share given by the limits (a tenth, at least one, at most three); if nothing is known of the sender's peers, all get it. What is known of a peer's peers is what it last said.", "quantifier": "every list of peers in any order, every list told, every sender and limits; every heartbeat", "why_tests_cant": "lists and orders are unbounded; a peer left out shows only as a block that comes late", "anchors": ["net/broadcaster.go: choosePeers, commonPeers", "net/peer.go: setPeers", "net/net.go: heartBeater.state"]}
{"id": "C121", "title": "Only right blocks pass, and each once", "statement": "Whatever messages come, from whomever and in whatever order, the subscribers of a node are told only of blocks whose hash and signature are right, of none twice, and of no black one; a block is passed on only if it is right and new, to none twice, with a shorter time to live. A right block that a peer sends is passed on and given to the subscribers.", "quantifier": "every sequence of messages, own blocks, changes of the state of synchronisation, heartbeats and chain heights", "why_tests_cant": "the messages of strangers are arbitrary", "anchors": ["net/broadcaster.go: handle, forwardSnapshotBlock, forwardAccountBlock, BroadcastSnapshotBlock, BroadcastAccountBlock, subSyncState", "net/block_feed.go: notifySnapshotBlock, notifyAccountBlock"]}
{"id": "C122", "title": "Blocks that come while syncing are given out afterwards; subscribers come and go", "statement": "Blocks that come while the node is syncing are kept, up to a thousand of each kind, and given to the subscribers in order when synchronisation ends. A subscriber is told until it asks not to be, and then no more, and the others are not affected.", "quantifier": "every sequence of sessions of synchronisation and blocks in them; every sequence of subscriptions", "why_tests_cant": "it takes several sessions in a row", "anchors": ["net/broadcaster.go: memBlockStore, subSyncState", "net/block_feed.go: SubscribeAccountBlock, UnsubscribeAccountBlock, SubscribeSnapshotBlock, UnsubscribeSnapshotBlock"]}
{"id": "C123", "title": "A block that a node sends reaches every node linked with it", "statement": "In a net with fixed links, whatever else is sent and in whatever order messages arrive: once a block is on its way no more, every node linked with one that sent it has given it to its subscribers; and it is carried by no more messages than there are links, so it comes to rest.", "quantifier": "every net of at most 34 nodes with any links, either way of forwarding at each node, every interleaving of broadcasts, arrivals, heartbeats and chain heights", "why_tests_cant": "nets and interleavings are unbounded; leaving out common peers makes it depend on what the others do", "anchors": ["net/broadcaster.go: handle, forwardSnapshotBlock, forwardAccountBlock, commonPeers, defaultBroadcastTTL"]}
{"id": "C124", "title": "The memory table is a sorted map", "statement": "Whatever is put, deleted, got, looked for, counted and measured, in whatever order, a memory table answers as a sorted list with one entry for a key: Get gives the last value put and not deleted, Find the first entry at the key or after it, Contains and Delete whether the key is there, Len and Size the number of entries and their bytes; every search ends. The heights drawn at random do not show. A copy answers as the table it was made of.", "quantifier": "every sequence of operations, every linear order of keys, all heights that can be drawn, both ways of copying", "why_tests_cant": "the shape of the skip list depends on the whole history and on the heights drawn", "anchors": ["common/db/xleveldb/memdb/memdb.go: New, Put, Delete, Get, Find, Contains, Len, Size, Copy, Copy2"]}
{"id": "C125", "title": "The iterator of a memory table is a cursor, also while entries are put", "statement": "An iterator over a memory table, with or without bounds, gives at First, Last, Seek, Next and Prev what a cursor gives over the entries between the bounds that the table holds at that time, also when entries are put between the moves; past an end, it comes back to the entry at that end.", "quantifier": "every history of the table, all bounds, every sequence of moves and puts", "why_tests_cant": "moves, turns at the ends and new entries combine without bound", "anchors": ["common/db/xleveldb/memdb/memdb.go: NewIterator, dbIter"]}
{"id": "C126", "title": "The iterator of a table block is a cursor over the entries written", "statement": "Whatever entries with growing keys are written into a block, with whatever spacing of restart points, an iterator over the block, with or without bounds, gives at First, Last, Seek, Next and Prev, in whatever order they are called, what a cursor gives over the entries between the bounds, and reports no error.", "quantifier": "every list of entries with growing keys, every restart interval, all bounds, every sequence of moves", "why_tests_cant": "prefix compression, restart points, the stack for going backwards and the turns combine without bound", "anchors": ["common/db/xleveldb/table/writer.go: blockWriter", "common/db/xleveldb/table/reader.go: block, blockIter, newBlockIter"]}
{"id": "C127", "title": "A table written to a file can be read back and searched", "statement": "Entries whose keys grow are taken by the table writer; a key that does not grow is refused. The file written can be opened. A search for a key gives the first entry that is not smaller, a lookup gives the entry of the key or says that there is none; no answer is an error. This holds for every size of blocks, every spacing of restart points, with and without compression, and for the comparer of the database, which shortens the keys of the index.", "quantifier": "every list of entries with growing keys, every key sought, all block sizes, intervals, codecs and checksums", "why_tests_cant": "where blocks are cut and how index keys are shortened depends on all the entries", "anchors": ["common/db/xleveldb/table/writer.go: Writer", "common/db/xleveldb/table/reader.go: NewReader, find, Get", "common/db/xleveldb/comparer.go: Separator, Successor", "common/db/xleveldb/comparer/bytes_comparer.go: Separator, Successor"]}
{"id": "C128", "title": "Filters hide no key: a reader of a table gets the newest version it may see", "statement": "With a bloom filter of any size and any hash, or without one, a search in a table for a key at a sequence number gives the newest record of the key at or below that number, a value or a deletion, and gives none only if there is none. A bloom filter never says no to a key it was made of.", "quantifier": "every list of records, every key and sequence number, every hash, every number of bits for a key", "why_tests_cant": "a filter that hides a key does so only for some sets of keys and some places of blocks in the file", "anchors": ["common/db/xleveldb/filter/bloom.go: Contains, Generate", "common/db/xleveldb/filter.go: iFilter", "common/db/xleveldb/table/writer.go: filterWriter", "common/db/xleveldb/table/reader.go: filterBlock, find", "common/db/xleveldb/version.go: get", "common/db/xleveldb/key.go"]}
{"id": "C129", "title": "The iterator over a table is a cursor over the entries written", "statement": "Whatever entries with growing keys are written to a table, an iterator over the table, with or without bounds, gives at First, Last, Seek, Next and Prev, in whatever order they are called, what a cursor gives over the entries between the bounds, and reports no error.", "quantifier": "every list of entries with growing keys, every block size and restart interval, all bounds, every sequence of moves", "why_tests_cant": "the index iterator, the data iterators, the blocks cut by the bounds and the turns combine without bound", "anchors": ["common/db/xleveldb/iterator/indexed_iter.go: indexedIterator", "common/db/xleveldb/table/reader.go: NewIterator, indexIter"]}
{"id": "C130", "title": "A merged iterator is a cursor over all the entries, in order", "statement": "However entries with different keys are spread over the iterators merged, and wherever these stand at the start, the merged iterator gives at First, Last, Seek, Next and Prev, in whatever order they are called, what a cursor gives over all the entries in order, and reports no error: none is left out, none comes twice, also when it turns. In particular over tables that were written.", "quantifier": "every number of iterators, every spread of the entries, all bounds, every sequence of moves", "why_tests_cant": "which iterator comes next, and where the others stand after a turn, depends on the whole history of moves", "anchors": ["common/db/xleveldb/iterator/merged_iter.go: mergedIterator"]}
{"id": "C131", "title": "The iterator over all sources of the database is a cursor over all they hold", "statement": "However the versions are spread over memory tables, tables of level zero and tables of the other levels, the iterator over all of them gives at First, Last, Seek, Next and Prev, in whatever order they are called, what a cursor gives over all the versions between the bounds in order, and reports no error, while nothing is written. It is asked that the bounds are in order; if they are the wrong way round and a table of a level lies between them, making the iterator panics.", "quantifier": "every number of memory tables, tables and levels, every spread of the entries over them, all bounds, every sequence of moves", "why_tests_cant": "which tables of a level are left out, which are read with the bounds and which without, and how the sources are merged depends on where the keys of all tables lie", "anchors": ["common/db/xleveldb/db_iter.go: newRawIterator", "common/db/xleveldb/table.go: newIndexIterator, tFilesArrayIndexer, searchMin, searchMax", "common/db/xleveldb/iterator/array_iter.go: basicArrayIterator", "common/db/xleveldb/version.go: getIterators"]}
{"id": "C132", "title": "A database that is opened again has the tables and numbers of its last commit", "statement": "After any sequence of commits of flushes and compactions, handing out of file numbers and restarts, opening the database from its manifest succeeds and gives every level the tables, in order, that it had at the last commit, and the same journal number, sequence number and compaction pointers. The file number it goes on with is greater than the numbers of all tables and of the manifest. Each commit changes exactly the tables that its record deletes and adds.", "quantifier": "every sequence of commits with any records of tables, pointers and numbers, file numbers taken and given back, and restarts at any point between", "why_tests_cant": "what is restored depends on all records since the manifest was begun, on whether it was begun anew after a restart, and on how deletions and additions of the same table on several levels follow one another", "anchors": ["common/db/xleveldb/session.go: create, recover, commit", "common/db/xleveldb/session_util.go: fillRecord, recordCommited, newManifest, flushManifest, setCompPtr", "common/db/xleveldb/session_record.go: encode, decode", "common/db/xleveldb/version.go: spawn, fillRecord, versionStaging"]}
{"id": "C133", "title": "Which rules hold at a height is consistent", "statement": "A list of upgrade points is accepted exactly if the versions are those from 1 to some number and the heights do not fall with the version. Then a version is active exactly from its height on, with it all versions before it, and it stays active; the current point is that of the greatest active version, the active points are those up to it in order, and the latest point is the greatest that has a height to begin at. The order in which points are given does not matter. A node that begins with a box has its points, and a height is an upgrade point exactly if a version begins there.", "quantifier": "every list of points, every height, every version, every sequence of additions before the node begins", "why_tests_cant": "the tests look at a few heights of fixed lists; the answers have to agree for all lists and all heights, as the hash of snapshot blocks and the rules of contracts follow them", "anchors": ["common/upgrade/upgrade.go: newUpgradeBox, initFromArray, checkBox, AddPoint, currentPoint, latestPoint, activePoints, isActive, isPoint", "common/upgrade/face.go: InitUpgradeBox, AddUpgradePoint", "common/upgrade/upgrade_init.go: NewMainnetUpgradeBox, NewCustomUpgradeBox"]}
{"id": "C134", "title": "Numbers and bytes as hexadecimal text are read as they are written, and have one spelling", "statement": "A text with the prefix 0x is read as a number of 64 or of 256 bits exactly if its digits, of either case, without a leading zero, stand for that number and it is in range; a number has one such spelling but for the case of letters, and it is the one written. Bytes, also of a fixed number, are read exactly from what is written for them, but for the case of letters. In JSON the empty text stands for zero and for no bytes.", "quantifier": "every text, every number, every string of bytes", "why_tests_cant": "the digits are gathered in words of sixteen with arithmetic that wraps around, and the texts to be refused are without number", "anchors": ["common/hexutil/hexutil.go: Encode, Decode, EncodeUint64, DecodeUint64, EncodeBig, DecodeBig, checkNumber", "common/hexutil/json.go: Bytes.UnmarshalText, Uint64.UnmarshalText, Big.UnmarshalText, UnmarshalFixedText, UnmarshalFixedUnprefixedText, checkText, checkNumberText"]}
{"id": "C135", "title": "The database of known nodes gives back what was stored and forgets what is old", "statement": "A node, the time it was active, the time it was checked and its mark are read back as they were stored last, and storing one of them changes nothing else. Reading the nodes gives each node once that is stored and was active not longer ago than asked for, and no other; it forgets all entries of a node that was active too long ago or cannot be read, and no entry of any other. Cleaning forgets exactly the nodes that were active too long ago. Reading the marked nodes gives, of all nodes marked in the last seven days, those with the highest marks, highest first, as far as they are stored, and forgets no stored node.", "quantifier": "every content of the store, every identity, every time and expiration, every number of nodes asked for, every way to put nodes into bytes", "why_tests_cant": "the tests store a few nodes in an empty database; the entries of all nodes share one store and are removed while it is gone through, so the claim is about every content", "anchors": ["net/database/database.go: StoreNode, RetrieveNode, RemoveNode, StoreActiveAt, RetrieveActiveAt, StoreCheckAt, RetrieveCheckAt, StoreMark, RetrieveMark, ReadNodes, Clean, ReadMarkNodes"]}
{"id": "C136", "title": "A contract that reads the state of the chain is found when it is made", "statement": "When a contract is made, its code is looked through for instructions that read the height, the time or the code of other contracts, or that take random numbers; with one of them the maker has to ask for calls to wait for snapshot blocks. What is looked through are the instructions of the code, not the data of PUSH, up to where the compiler has put the hash of the source; nothing is read out of range. A code in which nothing is found does not come to such an instruction when it is run.", "quantifier": "every code, every run of it in every environment with every quota", "why_tests_cant": "the tests look through a few compiled contracts; code is chosen by whoever makes the contract, so the claim is about all byte strings and all runs of them", "anchors": ["vm/destination.go: ContainsStatusCode, containsAuxCode, ContainsCertainStatusCode, getCodeWithoutAuxCodeAndParams, codeBitmap", "vm/vm.go: sendCreate"]}
{"id": "C137", "title": "A contract is made exactly under allowed terms, and they are kept as asked for", "statement": "The data of a request to make a contract give back the group, the type, the numbers of confirmations, the quota multiplier and the code that were put into them; data that are too short are refused and nothing is read out of range. A request is accepted exactly if the group is not that of the snapshot chain, the type is known, the confirmations are at most 75 and those with a seed not more than those, the multiplier is from 10 to 100, and the confirmations are not zero where the code is found to need them; the terms kept are those of the request. A contract accepted without confirmations does not read the state of the chain in its code. The code that is run is the code of the request.", "quantifier": "all data of requests, before and after the fork that added random numbers, all code, all runs", "why_tests_cant": "the tests make a few contracts with allowed terms; the checks are made on data that anyone may send, and the claim is about all of them", "anchors": ["vm/util/common.go: GetCreateContractData, GetGidFromCreateContractData, GetContractTypeFromCreateContractData, GetSnapshotCountFromCreateContractData, GetSnapshotWithSeedCountCountFromCreateContractData, GetQuotaMultiplierFromCreateContractData, GetCodeFromCreateContractData", "vm/vm.go: sendCreate, receiveCreate", "vm/params.go: snapshotCountMax, snapshotWithSeedCountMax"]}
{"id": "C138", "title": "A peer is banned for as long as was asked for last", "statement": "A peer is reported as banned exactly if the last call that banned or unbanned it was one that banned it until a time later than now, whatever calls about this or other peers were made before or in between and however often it was asked about. A peer with an empty name is never banned.", "quantifier": "every history of calls, every peer, every time that is not before one of the calls", "why_tests_cant": "the tests ban one or two names and wait; asking changes the list, so the claim is about every order of calls", "anchors": ["net/netool/blacklist.go: NewBlackList, Ban, UnBan, Banned", "net/net.go: New (the rule given to NewBlackList)"]}

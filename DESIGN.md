# Formal model of vitelabs/go-vite in Lean 4

## Layout

`/verif/lean/Verif/<Area>/` holds, per area of the code:

* `…Model.lean`  – executable model; every definition cites the file and lines it models and lists simplifications;
* `…Spec.lean`   – the small independent specification the property is stated with (where it is not plain arithmetic or list equality);
* `…Lemmas.lean` and similar – helper lemmas and invariants;
* `…Props.lean`  – the property theorems;
* `…Examples.lean`, or the end of `…Props.lean` – concrete cases that meet the hypotheses, and counterexamples.

`properties.jsonl` lists the properties, `MANIFEST.json` maps each to theorem names, `seeded/LOG.jsonl` records the
mutation experiments.

## Trusted base

* Lean 4.33.0's kernel. Every theorem depends on no axioms but `propext`, `Classical.choice` and `Quot.sound`; there is no
  `sorry`, no `native_decide`, no `bv_decide` and no axiom of our own.
* The hand translation of the Go text into Lean definitions: the code is not run. Each definition cites what it models.
* Modelling conventions used everywhere: `*big.Int` is `Int` or `Nat` (stated per definition), `uint64`
  is `Nat` with explicit modulus where wrap-around matters, error returns are values (`Option`/`Except`),
  `nil` is an explicit case, Go panics are an explicit outcome where a property needs them,
  hash functions are uninterpreted functions (parameters), storage is a finite map keyed by
  byte-string keys (or by the abstract key when the key encoding is proved injective separately).
* Not modelled anywhere: goroutine scheduling inside a single function, the network layer (`net/`) beyond the parts listed under `Net` and `Sync`, the RPC layer (`rpcapi/`), the
  wallet, LevelDB's internals, cryptographic strength, floating point rounding (`big.Float`) except as an arbitrary function with the
  stated bounds.

## What is modelled, area by area

| area | code | left out or left open |
|------|------|-----------------------|
| `Evm` | `vm/interpreter.go`, `instructions.go`, `destination.go`, the checks of `sendCreate` in `vm.go`, `vm/util/common.go`, `stack.go`, `memory.go`, `analysis.go`, `gas/quota` tables, `common/helper` words | logs are lists; the chain seen by a contract is an environment; 256-bit words are bounded integers |
| `Vm` | `vm/vm.go` (send, receive, refund, calls between contracts), `vm/util`, `vm/quota` | contract bodies are arbitrary functions in `Ledger*`; the interpreter is `Evm`, the built-in contracts are `Builtin` and `Dex` |
| `Builtin` | stake, asset and governance contracts, rewards, name lists | storage encoding through ABI is abstract records (the codec is `Abi`) |
| `Dex` | order ids, matcher, fund contract, dividends, mining, periods | protobuf encoding; order of map iteration is any order |
| `Consensus` | election, group plans, time index | `math/rand` is an arbitrary generator with its stated range |
| `Stats` | point caches and producer statistics | LRU capacity is arbitrary eviction |
| `Snap` | snapshot verification, time lookups, seeds | signature; hash functions are parameters |
| `Lattice` | account block verification, insertion, snapshots, clean-up, deletion, rollback, the index database, block caches, queries | signature, work, quota and VM checks are an oracle; operations are atomic (the pool holds a lock) |
| `Road` | the on-road pool of contracts (ledger/onroad/pool, the event handlers of chain_events.go), the check of the receive order | one pool for all contract groups, except in `Group*`, where contracts may belong to groups without a pool; events of a call in any order |
| `Fork` | the tree of unconfirmed blocks (ledger/pool/tree), how the pools grow it, write to the chain, roll back, switch and prune (chain_pool.go, bc_pool.go) | branches by number; operations atomic; the search for rings in the check and the times by which a branch is old are left out (any branch may be old) |
| `Settle` | irreversible snapshot blocks: the search, what is kept, the check before a fork deletes blocks (pool_fork_checker.go) | reads do not fail; no two blocks with one hash; choice of the branch and insertion of its blocks are separate operations |
| `State` | state database, its keys, storage redo log, contract lists | values are opaque |
| `Store` | chain stores, flusher, redo log, block files, recovery | file system: a write is atomic unless stated; power loss is separate |
| `Chain` | quota list cache | — |
| `Text`, `Abi` | address and token text, hexadecimal text with a prefix (common/hexutil), contract meta, ABI packing | nested lists, which error is given |
| `Block` | hashes and messages of account blocks, snapshot blocks and logs (interfaces/core), the verifier's tests of hashes and integrity | protobuf's own encoding (a message is the record of its fields); hash, signature and work are parameters |
| `Iter` | the merged iterator (common/db), the unsaved storage of a block (vm_db/unsaved.go), iterators over saved storage and over storage at a snapshot (ledger/chain/state/iteration.go) | writes while an iterator is open; read errors; the two in-memory layers below the state database are one ordered table |
| `RCache` | the round cache of the election (ledger/chain/state/round_cache.go) with the queries that read it (state_db.go:278-308, storage_database.go:47-66) | the times of rounds (a block carries its round); locks and the reuse of memory; failing reads; `Seek` of the cached iterator |
| `Net` | messages on a connection (net/codec.go), the handshake (net/handshaker.go) and `authorize` (net/net.go:177-238) | time limits; memory taken while reading; the compression and the cryptographic functions (parameters); the protobuf form of the handshake; bans of addresses |
| `Sync` | plans of download tasks (net/sync_cache_reader.go:264-432, 493-521), the cache of chunks (ledger/chain/sync_cache) and reading a chunk (net/interface.go:93-227, net/sync_cache_reader.go:623-699); the answers to requests for blocks and points (net/msghandler.go:211-282, 307-365, 383-448, 544-567); the tree of points and the height to reach (net/skeleton.go:36-100, 203-228, net/peer.go:588-603, 692-715, net/syncer.go:409-426); the queue of tasks (net/sync_downloader.go:31-88, 208-290, 323-432, 485-522) and the connections they run on (net/sync_conn.go:548-712); asking for single blocks (net/fetcher.go) | waiting for answers and for room in the queue; what is sent over a connection; the bytes of the blocks in a file (frames); what other goroutines do within one call |
| `Plug` | the plugins of the ledger: the on-road summary (ledger/chain/plugins/onroad_info.go, plugins.go, ledger/chain/delete.go:70-190), the blocks of an account with a token (ledger/chain/plugins/filter_token.go) | the store under them as a map; rebuilding the plugins; receives of the genesis |
| `Batch` | batches of blocks and their parallel insertion (ledger/pool/batch), sorting the blocks of a chunk (tools/toposort, ledger/pool/face.go), testing and inserting chunks (ledger/pool/pool_batch_chunk.go), queueing a snapshot block (ledger/pool/pool_batch.go:151-185) | inserting one block (it may fail at any time); feeding the channel of buckets |
| `Work` | the worker that makes receive blocks of contracts (ledger/onroad/contract.go, taskprocessor.go, pending_cache.go, task_pqueue.go) with Go's container/heap | the generator and the quota tests, of which only the outcome is modelled; the manager's timers; misuse of the WaitGroup by a late `Add`; the unlocked write of the queue at Start |
| `Feed` | queries for logs (rpcapi/api/ledger_v2.go), events and polled filters (rpcapi/api/filters), listeners of the ledger (ledger/chain/event_manager.go) | conversion of blocks to RPC form; subscriptions over a connection and its buffers; the end of the event system; the index of received sends, of which only the answer is modelled |
| `Wal` | the journal of the database (common/db/xleveldb/journal), the way of a write through it and the recovery from one journal (db_write.go, db.go, batch.go) | the CRC, of which nothing is assumed; tables, manifest, compaction, transactions; errors of the file system |
| `Disc` | node discovery: distances (net/vnode/node.go), end points (net/vnode/endpoint.go), the table (net/discovery/table.go), answers (socket.go) and the pool of requests (pool.go, discovery.go) | signatures, message packing, the database of nodes, timers; UDP |
| `Wallet` | paths and keys (wallet/hd-bip/derivation), files of entropy (wallet/entropystore) and the wallet's manager (wallet/manager.go, rpcapi/api/wallet.go FindAddr) | HMAC, ed25519, scrypt, AES-GCM, BIP-39 and JSON are parameters or records; concurrent calls |
| `Lsm` | the levelled database (common/db/xleveldb): memory tables, levels, look-up, picking, expanding, building and committing compactions, snapshots, the iterator | blocks, their encoding and bloom filters (see `Tab`), caches, the manifest, seek compactions as such (any tables may be picked), transactions |
| `Gossip` | passing blocks on (net/broadcaster.go, net/block_feed.go, common/bloom), what is known of peers' peers (net/peer.go setPeers, net/net.go heartBeater), a net of such nodes | the encoding of messages, full write queues, peers that come and go, the statistics, false positives of the filters within the net |
| `Mem` | the memory table of the database, a skip list, with its iterator and copies (common/db/xleveldb/memdb) | how nodes and bytes lie in the slices, locks, `Reset`, the buffers handed back by `Destroy2` |
| `Tab` | the tables of the database: blocks with restart points, the writer, the filter and index blocks, opening, searching, the iterators over a block, a table and a level, the merged iterator and the one over all sources, the comparers, the bloom filter (common/db/xleveldb/table, iterator/indexed_iter.go, iterator/merged_iter.go, iterator/array_iter.go, `newIndexIterator` of table.go, `getIterators` of version.go, `newRawIterator` of db_iter.go, comparer, filter, key.go) | snappy and the checksum (functions with laws), caches, buffer pools, releasers, locks, alternative filters |
| `Man` | the manifest of the database: records and their bytes, the staging of a version, the session with create, commit and recover (common/db/xleveldb/session.go, session_util.go, session_record.go, `versionStaging`, `spawn`, `fillRecord` of version.go) | the journal (a list of byte strings; area `Wal`), errors of writing, non-strict skipping, reference counts, removal of files, scores of levels |
| `Upgrade` | the upgrade points: making a box, the check, adding points, the questions asked of it (common/upgrade) | the variable that holds the box of the node |
| `Ndb` | the database of known nodes: nodes, times and marks, reading all, cleaning, reading the marked (net/database/database.go); the list of banned peers (net/netool/blacklist.go) | errors of the store, its file and version; how a node is put into bytes is a parameter; the blocked addresses, `Iterate` and `Register` |
| `Base` | byte strings and finite tables used by the models | not a model of the code |

## Plan and state per property

For each property: how it is proved, and what is missing. The exact theorems are in `MANIFEST.json`.

| id | property | method | state | remarks |
|----|----------|--------|-------|---------|
| C01 | Tokens are neither created nor destroyed by transfers and calls | ledger of balances and sends in flight; contract bodies arbitrary; exact change of value by induction over blocks of every kind, also sends that carry a list; negation by a family of witnesses | partial | Missing: the full statement is false. A user's send may carry a list of sends that nothing checks, and every hash of the list is one more open send of the same amount (carrying_creates: any multiple of an amount out of nothing). value_exact gives the exact change of value for every history of blocks of every kind; without such lists value is conserved, for all steps and all outcomes of contract code. burn_sources bounds what a block may burn. |
| C02 | Balances never go negative and an unaffordable send is rejected without effect | ledger of balances and sends in flight; contract bodies arbitrary; invariant by induction over blocks | proved |  |
| C03 | A failed run of a called contract gives the caller back exactly what it sent | ledger of balances and sends in flight; contract bodies arbitrary; invariant by induction over blocks | proved | For calls of contracts. The last three theorems show where the claim does not hold: failed creations keep the fee, calls beyond the depth limit keep amount and fee, and a built-in caller that refuses the refund call blocks the receive. |
| C04 | Only built-in reward senders can mint | ledger of balances and sends in flight; contract bodies arbitrary; invariant by induction over blocks | proved |  |
| C05 | Contract execution always terminates within its quota | interpreter loop; measure; invariants over steps | proved | Every run of every code with every quota q ends after at most 2q+1 rounds with at most q left; prices of all instructions are those of the three quota tables. |
| C06 | Machine stack stays between 0 and 1024 entries | interpreter loop; measure; invariants over steps | proved | Stack length and word range in every reachable state. crash_only_in_calls: the interpreter panics only in a CALL/CALL2 whose input range leaves the memory; call_crashes shows that this defect is real. |
| C07 | Jumps only land on real JUMPDEST instructions | interpreter loop; measure; invariants over steps | proved | The bitmap check accepts exactly the JUMPDEST instructions for every code below 2^62 bytes and every word; no immediate byte is ever executed (quota below 2^32; blocks have at most 10^6). |
| C08 | Arithmetic and bit instructions compute the 256-bit functions they name | each instruction against `BitVec 256` | partial | All instructions proved against BitVec 256 except SAR, which the code gets wrong for value 0 and shift >= 256 (proved as a counterexample); missing: full SAR, false of the code. |
| C09 | Memory accesses are paid for | case analysis over the instruction table | partial | Proved for every instruction except CALL2, for which it is false of the code (call2_not_covered, call2_unpaid); CALL also prices its data before growing the memory (call_data_free). |
| C10 | Storage refunds never exceed storage charges | potential function, induction over writes | proved | For all sequences of writes to all locations from all saved values, in each quota table; and in every state of every run the quota left is at most the initial one. |
| C100 | Contracts are served by quota | Area `Work` (Heap*). container/heap function by function; refinement to a table of quotas, with the heap order, the indices and the absence of duplicates as invariant. | proved | The last two theorems say what the comparison with 'not smaller' costs. |
| C101 | A send that can be received is seen to while the node produces | Area `Work` (Sched*). Invariant over all interleavings, with a ghost list of the contracts whose task was dropped; counterexamples as explicit runs. | partial | Holds for every contract for which no task was dropped since the last one was queued. Fails otherwise: a task is dropped when the contract is at work, although the processor at work may already have looked (`dropped_task_waits`), and only a new signal helps then; and a contract created after Start is never released by snapshot blocks. |
| C102 | A query for logs answers with the matching logs of the range | Area `Feed` (Query*). The scan function by function, with the chain as a list of blocks per account; induction over the pages of heights, compared with `filter` and `drop`/`take` of the whole chain. | partial | Exact for one account whose range does not begin above its latest block; for several accounts the logs are right when no page is full, but not their address labels. Fails otherwise, see the last three theorems. |
| C103 | Subscribers are told what happened to the ledger | Area `Feed` (Event*). Ledger, four queues and a loop that takes from any; counting invariant for every history, and a fold of the messages compared with the sends that wait. | partial | Counts are exact always; order is kept within additions and within removals, but not between them. Logs: only for contracts whose logs the node keeps. |
| C104 | A filter misses nothing and stops nobody | Area `Feed` (Loop*). Transition system of the threads; invariant that accounts for every event of every filter; enabledness of a step by cases; the deadlock as an explicit run and an invariant of every continuation. | partial | The first part holds in full. The second holds while the expiry loop is not at work; with it, one expired filter can stop the node. |
| C105 | Who listens to the ledger is told, and who has stopped is not | Area `Feed` (Listen*). Induction over the calls. | partial | Holds if whoever unregisters is the first in the list; fails in every other case. |
| C106 | The journal of the database gives back what was written, after a crash at any byte | Area `Wal` (Journal*). Writer and reader function by function; the writer refined to a layout of chunks by a function of the state that every step keeps (`future`), the reader by induction over the layout, whole and cut. | proved | The block size is any number from 8 to 65535 (32768 in the code). `journal_hole` shows the limit named in the statement. Whatever bytes the file has, with checksums on everything that is read lies in the file under a header with its checksum (journal_checked). |
| C107 | After a crash the database holds a first part of the writes, each whole | Area `Wal` (Recover*). Composition of C106 with the coding of batches (area `Store`) and the replay; lookup by greatest sequence number compared with the last change. | proved | For the writes of one journal; tables, the manifest and writes larger than the write buffer are not modelled. The third theorem shows that a record damaged in the middle is left out and the later ones are applied. |
| C108 | The distance between nodes is a metric on the tree of identities | Area `Disc` (Dist*). The byte-wise functions against the length of the common first part of two lists of bits; bytes by a check of all 256 values, the rest by induction. | proved | For identities of any length in bytes (32 in the code). |
| C109 | The table of known nodes is consistent: every node in its bucket, once, and found by identity and address | Area `Disc` (Table*). A system of steps (the parts of `add`, the checks and the answers); invariants by induction over histories; counterexamples as concrete histories. | partial | The full statement fails: the last four theorems give histories with an address or a node twice, an address that can never enter again, and a node in a wrong bucket. Proved for all interleavings without an update in place: placement; for calm histories: exactness. |
| C11 | Stake needed for a quota and quota given by a stake are inverse | order lemmas, induction on the search interval, checked arithmetic | proved | For the main net's tables (generated from params.go) and any ordered table. testnet_stake_too_small: the test net's stake table has equal neighbours and there the property fails. |
| C110 | A search in the table answers with known nodes, and with all of them when they are few | Area `Disc` (TableViews). The list of `closet.push` kept sorted and a sublist of what was pushed, by induction. | partial | That the closest nodes are given is false (last theorem). |
| C111 | End points and answers of the discovery survive the way through packets | Area `Disc` (EndPoint*). Writer and reader of end points composed; the splitting by induction with the bound on bytes; the size of the protobuf coding computed. | partial | Missing: that packets of answers with more than 110 end points fit, which is false (`answer_too_long`), and answers out of order, which lose end points. |
| C112 | An answer to a search for nodes is worked off | Area `Disc` (Pool*). A step relation of reader, searcher, workers and cleaner; a measure that every step lowers, an invariant for two packets, and a run into the deadlock for three. | partial | For three packets the statement is false (last theorem). One request at a time; the network is left out. |
| C113 | A path or an index of a wallet leads to one key, and a search finds the account of an address | Area `Wallet` (Derive*). The regular expression as an automaton, splitting and parsing by induction over the text; against a specification of paths as lists of numbers. | proved | HMAC, ed25519 and the hash of addresses are arbitrary functions. The text of a path is not unique (`leading_zeros`), which the statement does not claim. |
| C114 | A stored wallet opens with its passphrase, to its own account, and survives a crash while it is written | Area `Wallet` (Store*). Writer and reader of the file composed; the libraries as parameters with the laws that are used; the states of the directory one after the other for crashes. | proved | Mnemonics as the library writes them (`Canonical`); that the cipher refuses other keys is a hypothesis of `other_passphrase`. A crash of the process; a power failure is not covered, the code does not call Sync. The last two theorems show a mnemonic that is stored but never opens, and files that panic. |
| C115 | Keys are given exactly from the unlocked stores | Area `Wallet` (Manager*). A state machine of the operations; the seed of a file after a history by induction; the search by induction over the order of iteration. | partial | Removal by a relative name and the search by passphrase do not do what is stated (`remove_relative_keeps`, `passphrase_search_order`); proved for absolute names and when all stores have the passphrase. Calls are atomic. |
| C116 | Listeners of a wallet are told of every lock and unlock | Area `Wallet` (Manager*). Invariant by induction over histories; counterexample for two listeners after every history. | partial | The full statement is false (`second_listener_replaces`); proved for the one listener that is left. |
| C117 | A read of the database gives the last write, whatever has been moved, flushed and compacted | Area `Lsm`. A state machine of writes, flushes, snapshots and compactions; an invariant (entries of a key get older from the memory table down the levels, tables of a level lie apart, every entry needed at or above the oldest snapshot is kept) by induction over histories; reads against the fold of the writes. | proved | Tables and the memory table are sorted lists of entries (the skip list is modelled apart, in area `Mem`, and blocks, tables and bloom filters in area `Tab`); caches are left out. `unheld_read_loses` shows that the snapshot must be held. |
| C118 | An iterator is a cursor over the database as it was | Area `Lsm` (Iter*). Loop invariants for the two loops with the set of keys dealt with as a ghost; an invariant that relates the iterator's place to that of a cursor, by induction over the calls. | partial | Proved for iterators at a held snapshot or the present number. The merging of the iterators of the tables is taken as one sorted list; slices and read errors are left out. For the iterators of the chain's store the statement is false (`high_iterator_moves`). |
| C119 | The filter of seen blocks remembers what is added, long enough | Area `Gossip` (Filter*). The two bit sets with arbitrary places; induction over additions with the count of the set in use. | proved | The places of an element (its hashes) are arbitrary. `forgotten_next`: how long it remembers is sharp. |
| C12 | A block is never granted more than the per-block quota ceiling | order lemmas, induction on the search interval, checked arithmetic | proved | The accumulation is a bucket of 75 shares refilled by one share per snapshot (use_bounded, for a constant stake); total_fits shows that no uint64 sum overflows. |
| C120 | Whom a block is forwarded to | Area `Gossip` (Choose*). The two passes over the slots as in the code; loop invariants that count the common peers left in and the place of the last one. | proved | `patch_wrong`: the partial heartbeats that the code would send if it noted the time would go wrong; it never notes it. |
| C121 | Only right blocks pass, and each once | Area `Gossip` (NodeProps). An invariant over all events: blocks given out and kept back are right, distinct and noted as seen. The forged copy: noted but not held, for all later events. | partial | The last sentence of the statement is false: a copy with a wrong signature that comes first keeps the right block out for ever (`forged_copy_blocks`). Filters are sets here. |
| C122 | Blocks that come while syncing are given out afterwards; subscribers come and go | Area `Gossip` (NodeProps). The queue with its index; exact results of one and two sessions. | partial | True for the first session and for subscribers of account blocks; false for later sessions (`second_session_loses`) and for subscribers of snapshot blocks (`snapshot_subscriber_stays`). |
| C123 | A block that a node sends reaches every node linked with it | Area `Gossip` (NetProps, Traffic). An invariant over all interleavings: each peer of a node that has the block has it or a message with it is on its way; each message came over distinct nodes, as many as its time to live says. A potential bounds the number of messages. | proved | Messages are not lost and nobody is syncing; filters are sets; nodes say truly who their peers are (`stale_peers` shows that this is needed) and the net has at most 34 nodes (`line_too_long` shows that this is sharp: the time to live is 32). |
| C124 | The memory table is a sorted map | Area `Mem`. The skip list with its lists per level; the invariant says that the list of each level is made of the nodes that are higher, in the order of keys. The searches are shown to stop at the last node below the key on each level. Refinement to a sorted list. | proved | The slices of integers and bytes in which nodes and keys lie are functions here; the comparer is a linear order; one operation at a time. |
| C125 | The iterator of a memory table is a cursor, also while entries are put | Area `Mem` (IterProps). The iterator stands on a node of the list; each move is shown to be that of the cursor; puts keep nodes and keys. | proved | `deleted_entry_shown`: with deletes between the moves it is not so; the iterator can give an entry that was deleted. |
| C126 | The iterator of a table block is a cursor over the entries written | Area `Tab` (Block*). Bytes of the block, restart points and prefix compression as written. A representation relation ties the bytes to functions of the index of an entry (key, value, offset, start of a restart section) and is shown for what the writer wrote; each move of the iterator, with its stack of decoded entries for going back, is shown to keep a relation to a place of the cursor. | proved | For a block that is not empty and smaller than 4 GiB; `empty_block_error` shows what happens with an empty one, which the database does not write. |
| C127 | A table written to a file can be read back and searched | Area `Tab` (Table*, Comparer). Invariant of the writer over the entries taken: blocks in the file, a block that waits for its index key, the current block. Closing and opening are shown to be inverse; the search uses the theorem on blocks for the index and for the data. | proved | Compression and checksum are functions with the laws that are needed; caches, pools and locks are left out; blocks smaller than 4 GiB, files smaller than 2^63 bytes. |
| C128 | Filters hide no key: a reader of a table gets the newest version it may see | Area `Tab` (TableLemmas, Comparer, Records). The filter writer's sections are tied to the offsets of the blocks; a block that the index points to knows a key with the same user key if the answer has it. The bits set by the bloom filter only grow. Then the order of internal keys. | proved | The number of bits of one filter is taken not to wrap around at 2^32. One table: the walk over tables is in area `Lsm`. |
| C129 | The iterator over a table is a cursor over the entries written | Area `Tab` (Iter*). The place of the index iterator and that of the data iterator give the place of the cursor in the list of all entries; each call is shown to keep this, using the theorem on blocks for both. Blocks at the bounds are cut, those between are shown to lie within the bounds. | proved | For a table that is not empty; blocks smaller than 4 GiB, files smaller than 2^63 bytes. Release and callbacks are left out. |
| C13 | Overflow-checked arithmetic is exact | order lemmas, induction on the search interval, checked arithmetic | proved | Overflow flag exact in both directions and result exact when clear. |
| C130 | A merged iterator is a cursor over all the entries, in order | Area `Tab` (Merge*). Going forwards, all iterators stand at the first entry at or after the entry shown; going backwards, at the last at or before it. The invariant is stated with cuts of sorted lists and kept by each call; the choice of the smallest or greatest key is shown to give the neighbour in the merged list. | proved | The iterators merged are cursors without errors; `tabKind_cursor` shows this for iterators over tables. Keys of different iterators differ, as the keys of the database carry sequence numbers. |
| C131 | The iterator over all sources of the database is a cursor over all they hold | Area `Tab` (Level*). The theorem on an iterator over iterators (C129) is used again, with an array iterator as index and iterators over tables as data: the binary searches are shown to keep the tables that can hold an entry between the bounds, and the tables in the middle to hold no others, so that leaving the bounds out there is right. The sources are merged by C130. | proved | The iterators of memory tables are taken to be cursors, as C125 shows, over contents that do not change meanwhile; C118 deals with writes under an open iterator, over a list. Tables hold what was written to them (written_holds), those of a level do not overlap. Release, and errors of opening a file, are left out. inverted_range_panics shows what happens when the bounds are not in order. |
| C132 | A database that is opened again has the tables and numbers of its last commit | Area `Man`. The records are shown to read back as written, also into a record that holds something. A staging is related to the map from level and number to table that it stands for; deletions and additions act on that map, and a version is the one sorted list of it. The invariant says that replaying what is on disk gives a staging of the tables of the session, with its numbers; it is kept by every step, whether the manifest is begun anew or added to. | proved | The journal is taken as a list of byte strings, which area `Wal` shows it gives back, and the file that names the manifest is switched in one step. A crash between the writing of a record and the answer is a commit followed by a restart. Errors of writing after which the process goes on, the skipping of records that cannot be read, reference counts and the removal of files are left out. Numbers are below 2^63 and keys below 4 GiB. `first_commit_keeps_pointer` is a finding: the first commit after a start does not move a compaction pointer. |
| C133 | Which rules hold at a height is consistent | Area `Upgrade`. The sorted list of a box is shown to hold the last point given for each version, strictly sorted; the check is shown to say that versions are consecutive and heights do not fall, so that the loops that stop at the first point that is too high find all that are not. | proved | The points of the main net meet the hypotheses (`mainnet_valid`). Points that are added to the box of a running node, as an interface for tests on one machine allows, are not checked (`addPoint_unchecked`) and have no name (`addPoint_unnamed`). |
| C134 | Numbers and bytes as hexadecimal text are read as they are written, and have one spelling | Area `Text` (Hex*). The loops are shown by induction to give the number the digits stand for, as it is or modulo 2^64; the words of a large number are put together by the law for the numeral of two parts. Digits without a leading zero are those of the number, so that their count says whether it is in range. | proved | Which error is given is left out, and the functions of the language that are called are modelled as they are documented. `negative_lost`: a negative number is written with its sign before the prefix and not read back, against the comment that the sign is ignored. |
| C135 | The database of known nodes gives back what was stored and forgets what is old | Area `Ndb`. The store is a map seen through `get`; the prefixes are shown to keep the kinds of entries apart. The loops that remove entries while they go on are shown by induction to decide about each entry as the store at the start does, since what one entry removes does not concern another. The sorted marks are a permutation of the fresh ones, cut in two. | partial | Partial: the mark is stored, and used when marked nodes are read, but the function that reads a single mark expects another form and gives zero for every mark from 0 to 2^56 (`retrieveMark_zero`). Times are between -2^62 and 2^62. That the store has every key once (`Uniq`) is kept by every change (`uniq_put`, `uniq_del`). |
| C136 | A contract that reads the state of the chain is found when it is made | Area `Evm`. The bitmap is known to mark exactly what is not an instruction (C07). The loop that drops the trailer is shown by induction to give the code up to the first trailer in the place of an instruction, as its bytes cannot overlap with themselves; the instructions of a beginning of the code are those of the code. Runs are at instructions only (C07). | partial | Partial: what is found is shown exactly, but the last sentence is false of the code: what follows the first trailer of the compiler is not looked at, though a run may jump there; `hidden_read` is a code in which nothing is found and that reads the time when it is run. `run_reads_nothing_partial` is the claim for runs that stay before the first trailer. The code that is looked through is the one that makes the contract, and is taken to be the one that is run. |
| C137 | A contract is made exactly under allowed terms, and they are kept as asked for | Area `Evm`. The data are a concatenation, so that the parts are read back; all data of sufficient length are shown to be of that form. The checks are gone through one by one and compared with a list of conditions that uses the instructions of the code (C136). | partial | Partial: the last two sentences are false of the code in part. A code that jumps over what looks like a trailer of the compiler is accepted without confirmations and reads the time (`hidden_made`, `hidden_read`); `unconfirmed_reads_nothing_partial` is the claim for runs before the first trailer. A request sent before the fork and received after it is run without the first byte of its code (`fork_shifts_code`). Quota, balance and fee are not part of this model. |
| C138 | A peer is banned for as long as was asked for last | Area `Ndb`. By induction over the history from its end: a record is that of the last call that concerns the peer, and where it is missing the ban was over at the time of some call. | proved | The lock makes every call one step. If the clock is set back, a ban may be over early, since asking about it after its end forgets it (`clock_back`); a shorter ban takes the place of a longer one (`ban_shortens`). |
| C14 | Stake contract: recorded stakes are backed by its balance | storage of the stake contract; invariant over histories of the whole ledger | proved | All histories of the ledger in which the quota contract runs the code of the Earth upgrade (all old and new methods together). Start: storage in order and backed. genesis_index_reuse_loses_stake shows what goes wrong if a genesis block writes more records for one address than the contract chain has blocks. |
| C15 | Only the staker can cancel a stake, only when due, and gets back exactly the cancelled amount | storage of the stake contract; invariant over histories of the whole ledger | proved | Finding: restake_shortens_lock (the old stake call brings the due height of a longer-locked stake forward; it stays the payer's own money). |
| C16 | Token supply accounting | invariant over histories of the whole ledger | proved | recorded supply equals balances plus open sends for every token but VITE (fees of VITE are burned without a record, so there it is an upper bound); records in order, supplies within 2^256-1, re-issuable within max. Histories without sends that carry a list of sends: those create value outside the records (C01). |
| C17 | Only the token owner can re-issue, disable re-issue or transfer ownership | invariant over histories of the whole ledger | proved |  |
| C18 | A block-producing address is never shared by two registered names | invariant over governance calls and ledger histories | proved | For every history of governance calls and every ledger history; past producing addresses included. Hypotheses (Bound, Sound, backing) hold of the empty contract and are invariants (bound_result, sound_result). |
| C19 | Registration stake is returned once, to the owner, after expiry | invariant over governance calls and ledger histories | proved | Sum law over all histories, plus who, when, how much for a revoke, and backing of all stakes by the contract's VITE in every ledger history. |
| C20 | Block rewards are bounded by the emission of the cycle | arithmetic over all statistics | proved | For all vote and block statistics with at most as many produced as expected blocks per address (shown to be needed), the rewards of all producers of a day sum up to at most blocks times emission. |
| C21 | Reward withdraw list behaves as a set of names | refinement of a stored string to a list of names | proved | Strings are byte lists; the stored string of a list of valid names (no comma, not empty) under add, delete and list is list append, erase and enumeration. |
| C22 | Order identifiers sort by price-time priority and can be decoded | round trip and order of a fixed-width codec | proved | Field widths (market id < 2^24, timestamp < 2^40, at most 2^24 orders per timestamp) are hypotheses: the id has exactly that many bytes for each field. |
| C23 | Matching conserves value | matcher loop; invariants by induction over the book | proved | All books, takers, fee rates up to 0.2% each and all upgrade flags. |
| C24 | Orders are never overfilled and never cost more than was locked | matcher loop; invariants by induction over the book | proved | Per match and for every history of the whole exchange under the current rules. The two negative theorems show the claim is false before the fee upgrade and, before version 11, when an expiry request repeats an id. |
| C25 | Trades respect limit prices and price-time priority | matcher loop; invariants by induction over the book | partial | Price part proved for all takers; strict priority is false for market buys (market_buy_skips) and proved for all others. |
| C26 | Fill-or-kill is all or nothing; post-only never takes | matcher loop; invariants by induction over the book | partial | Post-only proved. Fill-or-kill is false at the 100-trade limit (fill_or_kill_partially_filled) and proved below it. |
| C27 | DEX user funds are conserved | fund ledger; invariants over histories | proved | Account components are naturals with checked subtraction in the model (no clamp reached: exceeded = false). The market table is fixed during a history. Negative theorem: repeated id in an expiry request before version 11 makes the exchange insolvent. |
| C28 | Dividends never pay more than the pool | fund ledger; invariants over histories | proved | For every history with periods: the holders are those with the threshold at the end of the period; together they get exactly the pot, each the share up to one unit per holder; VITE is burnt. past_is_history ties the holders to what was locked when the period ended. |
| C29 | VX unlocking pays each scheduled amount exactly once, not before 7 periods | fund ledger; invariants over histories | proved | A finish job is never refused in its turn and pays exactly the requests that became due since the last one. |
| C30 | Failed mining stake returns the stake to the user | fund ledger; invariants over histories | partial | False of the code for mining stakes: the amount check is inverted (contracts_dex_fund.go:888-892), so the answer is refused and nothing is credited. Proved for VIP and super VIP stakes. |
| C31 | Contract metadata survives storage | round trips | proved | The legacy 44-byte form is read with seed-confirmed times equal to the send-confirmed times. |
| C32 | Address and token text forms are faithful | round trips | proved | For any checksum function. Finding: what MarshalText writes of a token id or address UnmarshalText never reads. |
| C33 | ABI encoding round trip | round trips | partial | The property as stated is false of the code, and the counterexamples are proved: negative numbers of sizes other than 8, 16, 32, 64 bits, numbers of 2^256 and more, lists of strings or bytes, methods without arguments. For all other values of all non-nested types the round trip is proved with any bytes following. Missing: nested lists (the code allows one level of brackets only through NewType), reflection into structs. |
| C34 | An election returns exactly the configured number of distinct producers, all of them candidates | election and slots as functions; permutation and interval facts | proved | For every list of candidates, table of rates, seed and generator. Needs a rank not below the number of nodes and at least two nodes; without either the code panics (rank_below_count_panics, one_node_panics). An unknown success rate shields a bad one (unknown_rate_shields_bad). |
| C35 | Production slots partition time | election and slots as functions; permutation and interval facts | proved | Times in whole seconds. Slots cover a round only if all places are taken, as the code leaves gaps otherwise; plan_exact gives every slot. A time before genesis is given a round of the far future (before_genesis_far). |
| C36 | Producer statistics of a day equal the sum over its periods | caches refined to counts from the chain | proved | After any history of queries, forks, rollbacks and evictions the point of a round, hour or day equals the counts taken from the chain alone (truthOf), the list of points has exactly the non-empty ones, and elections (which ask for success rates, which ask for elections of earlier rounds) use the true rates. Hour and day counts are sums over rounds. Rounds in which nobody produced add no expected blocks (that is what the code does, and what truth says). The success rate is exact up to 4294 blocks and wraps beyond (rate_wraps). Assumes an injective block hash and that a round divides an hour. |
| C37 | Cached quota usage equals the ledger's last 75 snapshots | linked-list cache refined to the history | partial | False of the code without a condition on rollbacks: a rollback that leaves 1..74 cached snapshots counts one snapshot twice (proved in general and by example), a rollback to the genesis detaches the shown list, QuotaTotal drifts when a requoted block is thrown out. Proved for every history whose rollbacks avoid this, in particular for every node started at height 600 or more whose rollbacks end less than 525 below the highest snapshot since start. |
| C38 | A flush is atomic across stores at every crash point | crash points; idempotence of the redo log; induction over crashes | proved | All stores and the block files together, over all histories with any number of crashes, also during recovery. The process stops; the configuration stays the same. Findings: a store switched off between crash and restart breaks it (recovery_without_store_not_atomic), a loss of power can (power_loss_not_atomic), a failed write of the redo log makes the next flush panic (log_failure_panics), and recovery itself can panic (C51). |
| C39 | Only its holder spends an exchange account | frame property of every step | proved | grants to agents are the step being taken in the holder's name |
| C40 | A producer is paid once for a cycle and all rewards stay within the emission | cycle ledger; sum over histories | proved | Assumes the statistics are read without a panic: lost_panic_pays_twice proves that a panic inside CalcReward is swallowed and makes all cycles payable again. early_withdrawal_gains_a_cycle: an early withdrawal moves the reward time back to the last cycle boundary (the cycle is still paid once). |
| C41 | Only the owner manages a block producer and only the voter a vote | frame properties, refinement of lists | proved | For every state and call. |
| C42 | The withdraw lists name exactly the producers that chose an address | frame properties, refinement of lists | proved | From the empty contract (ListsOk holds there) over every history. |
| C43 | Contract code does what the instruction set says | simulation of the interpreter by an independent semantics | partial | False without exception: SAR of zero by 256 or more and CALL2 with input outside the memory in use differ (counterexamples proved). Proved for every run that meets neither, and without exception for code that lacks these two opcodes. |
| C44 | The quota offered does not change what a contract does | two runs in lock step | proved | For all codes and quotas below 2^32. |
| C45 | Exact instruction prices | table of prices | proved | Storage writes are C10; the price of calls has two defects recorded under C09. |
| C46 | Contract receive scheduling | decision logic | proved |  |
| C47 | The exchange can always pay what it owes | invariants over histories of the exchange | proved | The exception of period 0 is proved to be needed. |
| C48 | A stake that comes back reaches its owner | invariants over histories of the exchange | proved | Over all histories. |
| C49 | Mining for stakes is shared in proportion | invariants over histories of the exchange | proved | Over all histories; who staked is what was staked when the period ended. |
| C50 | Block storage is one string of bytes | files as one byte string; refinement; exact condition of panics | proved | Histories of steps that did not panic; while a flush is under way, less than ten files are written (otherwise evicted_flush_fails). The codec of blocks is C01. |
| C51 | No rollback and no recovery makes the node panic | files as one byte string; refinement; exact condition of panics | partial | False of the code: a rollback (or recovery) over two or more files that are not in memory panics; after a restart only one file is in memory. Proved with the exact condition. |
| C52 | Nobody notices a flush | store with pending changes refined to a map | proved | Point reads. The order of confirmed and unconfirmed changes is free only where they do not touch the same key (KvSpec.Allowed), as the ledger guarantees. |
| C53 | Account state is that of the blocks in the ledger | state database refined to the blocks' effects over histories | proved | Over all histories (Hist): inserts, snapshots, deletions, restarts, rollbacks covered by the redo log. view_is_confirmed_and_pending discharges for this database the condition under which C52 holds. |
| C54 | A rollback of any depth restores the state | state database refined to the blocks' effects over histories | partial | False of the code: deep_rollback_wrong is a history where a rollback below the redo log leaves a storage slot set. Proved where the first storage key of each account rolled back was set by the target height (DeepSafe, part of Hist). |
| C55 | The contract list of a consensus group has exactly its contracts | state database refined to the blocks' effects over histories | partial | No contract is ever missing (listed, all histories). Exact if nothing was taken back. False otherwise: entries are never removed, and a rollback writes one under a wrong key (three negations). |
| C56 | A published seed is the one its producer committed to | chain invariant; exactness of searches; counterexamples | partial | The code does not keep the property: the check exists but its result is dropped. Proved: the dropped check would suffice; the verdict does not depend on the seed; with any seed the block is accepted; the producer of a block chooses the random number at it. |
| C57 | Lookups of snapshot blocks by time are exact | chain invariant; exactness of searches; counterexamples | partial | Whenever it answers it is exact; it answers for whole seconds. For some times within a second it never ends (before_hangs); with a producer filter the list is always empty (producer_filter_empty). |
| C58 | The snapshot chain is linked, timed and made by the elected | chain invariant; exactness of searches; counterexamples | proved | For every hash function and election; the signature is left out. |
| C59 | The random number of a contract is fixed by the chain | chain invariant; exactness of searches; counterexamples | proved | After the seed fork. |
| C60 | Account chains have no gaps and no forks | one invariant (every store exact for the list of blocks) kept by every operation; queries derived from it | proved | For blocks whose hashes do not collide, sends without a send list, and snapshots with closed content (see C61 for what happens otherwise). Signature, work, quota and VM checks are an oracle (Cfg.legal). |
| C61 | A send is received at most once, by its addressee | one invariant (every store exact for the list of blocks) kept by every operation; queries derived from it | partial | Missing: the full statement is false. A user's send block may carry a send list that nothing checks, so that its amount can be received again under every attached hash; and a snapshot may confirm a receive without its send, after which the send can be lost and received again. Both are proved by witnesses; without them the property is proved over all histories. |
| C62 | Deletion and rollback take away exactly what rests on what is deleted | one invariant (every store exact for the list of blocks) kept by every operation; queries derived from it | proved | Under the hypotheses of C60. Rollback to height 1 or 0 dereferences a nil error in the code (ledger/chain/delete.go:38-44); the model refuses it. |
| C63 | Ledger queries answer from the blocks of the ledger, whatever is cached | one invariant (every store exact for the list of blocks) kept by every operation; queries derived from it | proved | Under the hypotheses of C60. |
| C64 | A node's own snapshot is accepted and complete | one invariant (every store exact for the list of blocks) kept by every operation; queries derived from it | proved | Under the hypotheses of C60; time and producer of the snapshot are C56/C57/C34. |
| C65 | The pool of contract sends holds exactly what waits | pool and ledger in one state; relation of the events of a call to the change of the ledger; invariant kept for every permutation of the events | proved | for blocks whose hashes do not collide and sends without send lists (Sound), as for C61 |
| C66 | Contracts receive the sends of each account in order | the check consults the pool, the pool is exact (C65): order is an invariant of the ledger, kept by insertion and by taking away dependents | proved | on the node model of C65: the check consults the pool |
| C67 | What waits first for a contract is offered to its producer | from C65; the missing half is refuted by a history of three blocks | partial | soundness holds; completeness is false of the code (hidden_caller): the set of callers is shared by all contracts; it holds after a restart and after a further send of the account |
| C68 | The fork tree never panics and always passes its own check | one invariant (every branch linked list, tail held by its root, ranks, children exact) kept by each operation, with a weaker form while roots are exchanged | partial | Proved for all operations but switches to a branch that adds nothing to the branches it stems from: the code makes such switches (stale_switch, stale_brother) and then the main branch is not among the branches of the tree. Hash uniqueness is a hypothesis (Uniq). |
| C69 | A branch of unconfirmed blocks is a chain, and operations keep its blocks | the invariant gives one linked chain per branch; equal heads give equal readings; each operation keeps heads | proved | For the trees of Reach, that is without the switches of the finding under C68. |
| C70 | The fork point is exact and a fork gives up no more of the chain than it must | loop invariant of the search from the shorter head down; the guard from it; rollback keeps readings, then the switch theorem | proved | For a branch that has a block beyond the branches it stems from, or none of its own; for the others see stale_switch. |
| C71 | The block reported as irreversible is exactly the highest one that qualifies | invariant of the search (the block looked at is the last of its round, no later round is final); what is kept was exact for a chain that ended with its proof point | partial | Exact for every reached state. Missing: the query panics on a chain whose first round has more blocks than make a quorum (long_first_round_panics). |
| C72 | A fork does not delete irreversible snapshot blocks | from C71 the guard compares with the highest final block; the last sentence refuted by a history of two forks | partial | The decision is exact and no operation removes a block that is irreversible at the moment. The last sentence is false: two forks remove a block that was reported (two_forks_remove); a block ceases to be irreversible only by a fork within its own round. |
| C73 | The hash of an account block fixes its content | Area `Block`. The hashed strings of ComputeHash and ComputeSendHash as functions on bytes; the fixed-size head is read off by lengths, the rest case by case from which optional parts are present. The hash function is a parameter, assumed to have no collision on the strings in question. The verifier's tests on a user's send and the block that the machine rebuilds are modelled, so that the counterexample is one of accepted blocks. | partial | Proved for sends without logs and lists, for users' receives, for contracts' receives, and for the sends of contracts. False in general: a user's send with a log hash and one with an attached send can have one hash, and both are accepted (two_sends_one_hash, two_accepted). Place of a contract's send only modulo 256 (send_hash_wraps); amounts without their sign; no nonce hashes like eight zeros. |
| C74 | The hash of a snapshot block fixes its content, in any order of the map | Area `Block`. Sorting is insertion sort; a theorem shows that any sorted permutation is the same list. The string hashed is split by lengths. | proved | Exact characterisation of equal hashes; sorting is shown not to depend on the order or on the sorting algorithm. |
| C75 | Blocks arrive as they were sent and are stored as they were | Area `Block`. Proto and DeProto field by field, with the recursion through the attached sends (fuel = depth); the bytes of the protobuf message itself are not modelled: a message is the record of its fields. Snapshot content is modelled in bytes. | partial | Round trip proved for regular blocks, exact account of what is lost otherwise. The last sentence is false: Deserialize drops the error of DeProto, and a message with a faulty attached send is read as a block without signature (fault_hidden). |
| C76 | The hash of logs fixes the logs | Area `Block`. The hashed string of a list of logs; injectivity under equal shapes by induction over the list; the negation for every hash function. | partial | The hash fixes the bytes of all logs, one after the other, and the logs if numbers of topics and lengths of data agree. The full statement is false (logs_one_hash): topics and data are hashed without any separation. |
| C77 | A contract that iterates over its storage sees what it would read | Area `Iter`. The merged iterator is modelled with its caches and statuses. An invariant says which keys each source has still to give; one step gives the least of them; readings follow by induction. Storage: the order of padded keys is the order of keys. Counterexamples for the rest. | partial | Proved for readings in one direction (Next from the start, Seek then Next, Last then Prev, also after any steps before), for any two sources and any writes of the block, for prefixes that do not end in a zero byte and slots whose key is not empty. The rest is false: a reader that turns round twice loses slots, a slot with the empty key is not listed, a prefix that ends in a zero byte lists shorter saved keys. Not modelled: writes while the iterator is open, read errors. |
| C78 | Iterating over storage at a snapshot gives the storage of that snapshot | Area `Iter`. One step of the iterator gives the nearest key in its direction that has an entry not above the height, and the last such entry; by induction over the rounds of the loop. Readings by induction over the steps. | proved | Slots that were emptied are listed with the empty value (emptied_listed), as the statement says. Heights below 2^64-1. Read errors are not modelled. |
| C79 | The election's cache answers as the database does | Area `RCache`. Invariant over the operations: the slots are consecutive rounds of the chain, each with the data of its last block (equal to folding the logs of all blocks up to it) and the logs between the ends, the last one open. Folding a map's entries in any order gives the same because each account has one entry. The database's listing is tied to the snapshot iterator of area `Iter` for histories that recorded the logs. | partial | Proved for all histories in which the cache starts with few rounds or with rounds of one block, and for a node whose headers came in the order the code expects. False for the code as it is when it starts with a round of several blocks: the headers of a round come highest first (start_wrong, deleted_stays). Reading from a key on (Seek) and prefixes of the cached iterator, concurrency and MemPool are not modelled. |
| C80 | Messages between nodes arrive as they were sent | Area `Net`. Round trip of the writer and the reader with any bytes after; sequences by induction; a proper prefix cannot be read because reading is monotone in what follows. Counterexamples for every content of 2^24 bytes and more. | partial | Proved for ids below 2^32 and contents that take less than 2^24 bytes as sent, for every compression that gives back what it compressed. False for larger contents: WriteMsg does not test the size; the reader then sees a message without content and reads the content as messages (large_misread), or the sender panics (large_panics). |
| C81 | A handshake tells who the peer is | Area `Net`. Decision logic with the cryptographic functions as parameters with laws (lengths, same secret at both ends, signatures verify): exact conditions of acceptance, and attacks as theorems for all nodes. | partial | Honest parties and the exact conditions of acceptance are proved. The rest of the statement is false of the code: a message with a key of odd length stops the node, a caller accepts its own message back under any id, a message heard once can be repeated or altered, and with an id of small order anyone is taken for a producer. |
| C82 | Download tasks and cached chunks cover the way to the target | Area `Sync`. Tiling as a path of segments by height and hash (`Leads`); induction over the points for the tasks and over the chunks for the cuts; deletions exactly characterised by `Fits`. | partial | Tasks and kept chunks lead from the own block to the last point; deletions and sizes are as stated. Room in the cache is proved when no chunk begins at the last point; edge_refused shows that such a chunk is kept although a task asks for its first block, so the cache refuses the task. |
| C83 | The cache of chunks keeps what was put into it | Area `Sync`. Refinement of a shelf of chunks with contents, by an invariant over all sequences of operations on list, index and files; restarts by what loading keeps. | partial | While the node runs the cache is a list of chunks with their contents (all interleavings). Over a restart the claim fails: the files are deleted, the chunks stay listed but cannot be read, and after two nothing is listed. Assumes that writers get distinct file names (FairAll). |
| C84 | A chunk that is read is whole | Area `Sync`. Invariant over the frames of the file: linked snapshot blocks in all slots but the last, account blocks linked for every account. Counterexamples for the rest. | partial | Proved for files without black-listed blocks. A black-listed block ends the reading and what was read counts as the whole chunk; a second block of the last height replaces the first. |
| C85 | Peers get the blocks and the points they ask for | Area `Sync`. Exact characterisation of the parts a range is cut into and of the collected points; concatenation of the answers is the range of the ledger. Panics and the answer for another fork as theorems. | partial | Proved for all requests with counts up to 2^50, steps above 0 and a common block. Larger counts and step 0 stop the node with a panic; a node without any common block answers as if it had one when it has another block at the last of the heights. |
| C86 | A majority of peers decides where a syncing node goes | Area `Sync`. Invariant of the tree: a node exists for a path exactly if a list with that prefix arrived, with exactly its senders; then counting. Heights by sorting and counting. | partial | The majority decides the hashes of the way as far as its list goes, for every order. Missing: one peer can lengthen the way after the end of that list (one_extends), and the first peer to answer sets the heights of the points (first_sets_heights). |
| C87 | No download task is lost and the lowest one is always under way | Area `Sync`. The loop as a recursion that skips; invariant over all sequences of operations for what is kept, measure (number of unfinished tasks) for progress. Counterexample for the limit. | partial | Nothing is lost, the lowest unfinished task is always under way and all get done, for all histories. The limit on the number of downloads fails (limit_exceeded). |
| C88 | Downloads go to suitable peers, and the set of connections is right | Area `Sync`. Exact characterisation of the choice; invariant that the index of connections is right between sorts; induction over the events for the black list; counterexamples. | partial | Sources have the blocks and are idle, and one is found if there is one outside the black list. Removal is exact when the pool is sorted after each removal; two removals in a row remove a wrong connection. The black list works the wrong way round: blocked peers are chosen, and those whose time is over never again. |
| C89 | Missing blocks are asked for, not too often, and questions are answered once | Area `Sync`. Invariant over all events that ties records to the number of callbacks; exact characterisation of one wish; an invariant of time for the endless silence; counterexamples. | partial | Questions are answered exactly once and who is asked is exactly characterised, for all histories. Fails: peers that do not answer once are never asked again for a block that is wanted steadily; any block counts as the answer; other peers can deny; a wish without peers suppresses the next; a reused record makes a block be asked for twice. |
| C90 | Batched parallel insertion respects the references between blocks | Area `Batch`. Invariant over all additions (`Core`, `Shape`) that places every item above what it refers to; induction over the runs of the levels, with the steps of the workers as a relation; permutation arguments for wholeness; a general theorem for the panic. | partial | The order, wholeness, separation of accounts and the effect of a refusal hold for every batch and every interleaving. Fails: an account block that receives from the hash of a snapshot block in the same batch stops the node. |
| C91 | The account blocks of a downloaded chunk are put in an order in which they can be inserted | Area `Batch`. Invariant of the rounds (`Moving`): counts equal the inputs not yet moved; a stuck set contradicts any valid order; counterexamples for doubled blocks. | partial | Order, completeness and absence of panics hold for all lists of blocks with distinct hashes; with the same block twice sorting can panic or report a cycle that is not there (the reader of chunks does not let such lists through). |
| C92 | Downloaded chunks whose blocks can be inserted are inserted in full | Area `Batch`. Induction over the blocks with the invariant `Good` (what the batch holds, linked to the ledger grown so far), each block that fits is taken or starts a new batch; the sort gives a valid order (C91). | proved | For every ledger and every list of chunks with a valid order. The insertion of one batch is a parameter (`fine`); that its blocks enter the ledger in a valid order is C90. |
| C93 | A snapshot block is queued with all account blocks it confirms, whatever the iteration order | Area `Batch`. Invariant of the passes: what is taken is a prefix of every account's blocks; a pass that takes nothing contradicts the first block of the valid order that is left. | proved | For every iteration order of every pass. Which blocks an account still has to deliver (genForSnapshotContents) is not modelled: the theorem is about the stacks it gives. |
| C94 | Whether a chunk joins the chain is told exactly, and a chunk is never lost | Area `Batch`. Linked lists of hashes; going down from a common block (`next_down`), case analysis on the position of the head; decision table for the fate of a chunk. | proved | A hash stands for its block (no collisions). The blocks of a chunk are linked, which the reader of chunks checks. |
| C95 | The on-road summary of an account is exact | Area `Plug`. The entries of a valid ledger add up to what waits (linear sums with any weight, permutation of received sends and sources); leaving out pairs changes no sum; invariant over all histories (`Inv`). | partial | The stored part is exact for every history, and so is the answer for accounts to which no unconfirmed receive of a contract sends. Fails otherwise: such a send is missing from the answer, and once it is received the question is answered with an error. |
| C96 | Pages of an account's blocks with a token are complete and in order | Area `Plug`. Invariant over all histories: what is read has exactly the keys of the blocks of the ledger, the disk those of the confirmed blocks and of those that came back, each batch the keys of its block; pages from the sorted entries; counterexamples by evaluation. | partial | Exact for every history in which no block is deleted that a rollback had made unconfirmed, and for starting blocks that send or receive the token themselves. Fails otherwise: the entry of such a deleted block comes back with a flush and takes a place on the page; the page from a block that moves the token only in its send list is empty. |
| C97 | A contract created in a group without a pool does not disturb other contracts | Area `Road` (Group*). Simulation: the node runs beside a node all of whose contracts have a pool and keeps the part of its pool that belongs to contracts with one; the theorems of C65 and C66 carry over. Counterexamples by evaluation, with reachability proofs for both orders. | partial | Holds as long as no list of blocks reported to the pool reaches both contracts with a pool and contracts without one, in particular if all contracts have one. Fails otherwise: the handlers return at the first contract without a pool, so sends to contracts visited later are lost; two nodes with the same blocks then disagree about a receive, a contract can be blocked, and a deletion can stop the node. The VM accepts any group but the snapshot group. |
| C98 | No two receive blocks for one contract are made at the same time | Area `Work` (Sched*). Steps of goroutines, one per access to shared state; invariant: whoever handles a contract has it in the working list, and no two do; when Stop has waited, all goroutines are before their first check of the flag or ended. | proved | Also shown: a Stop that overtakes the goroutines it should wait for leaves them to the next period, which then has more than two processors; the claims hold all the same. |
| C99 | The worker takes the first send of a caller, and callers in turn | Area `Work` (Acquire*). The cache as maps, map iteration as a free choice; invariant: at most one send per caller waits in the cache, it is the caller's, and the caller is not restricted. | proved | The cache of one contract; a release by a snapshot block in the middle of an acquisition is left out. |

## Findings: where the code does not keep a property

Every line is a theorem in the development (a concrete execution of the model, or a general negative statement).

* C03: a failed contract creation keeps the fee; a call beyond the depth limit keeps amount and fee; a built-in caller that refuses
  the refund call blocks the receive.
* C06/C43: `CALL`/`CALL2` with an input range outside the memory in use make the interpreter panic (`call_crashes`); `SAR` of a zero
  word by 256 or more gives all ones (`sar_differs`).
* C09: `CALL2` memory is not paid for; `CALL` prices its data before it grows the memory.
* C11: the test net's stake table has equal neighbours, the two functions are not inverse there.
* C14/C15: index reuse of genesis stakes loses a stake; the old stake call shortens the lock of a longer-locked stake.
* C24/C27: before the fee upgrade a cancelled order is refunded too much; before version 11 an expiry request that repeats an id makes
  the exchange insolvent.
* C25: a market buy skips orders it could take. C26: fill-or-kill is filled in part at the limit of 100 trades.
* C30: a mining stake that fails is lost (inverted check). C47: the jobs of period 0 can be repeated, its fees are lost.
* C32: what `MarshalText` writes `UnmarshalText` does not read. C33: several classes of values do not survive packing.
* C34/C35: an unknown success rate shields a bad one; one node only, or a rank below the count, panics; times before genesis.
* C36: rates wrap; rounds without blocks add no expected blocks.
* C37: the cached quota list counts one snapshot twice after some rollbacks, loses its list at a rollback to genesis.
* C38: a store switched off, a loss of power, or a failed write of the redo log break atomicity or panic.
* C40: a panic while rewards are computed is swallowed, and all cycles become payable again; an early withdrawal moves the reward time.
* C50/C51: a rollback or recovery over two or more files not in memory panics; a file evicted during a flush fails the flush.
* C54: a rollback below the redo log leaves storage set. C55: contract lists keep entries that were taken back.
* C56: seeds are not checked against commitments: the producer of a block chooses the random number.
* C57: a lookup by time within a second does not end; the producer filter gives the empty list.
* C01: a user's send may carry a list of sends (`SendBlockList`), which neither the verifier nor the virtual machine looks at. The index takes every hash of the
  list in as an open send, and a look-up by such a hash gives the carrying block. So one transfer to oneself with n attached hashes, received n + 1 times,
  multiplies the amount (`Verif.Vm.carrying_creates`, for every n).
* C61: a user's send that carries a send list can be received once per attached hash; a snapshot that confirms a receive and not its
  send lets the send be received twice after a restart.
* C67: the set of callers is one for all contracts of a pool; when one contract has received all of an account's sends, the account's
  sends to other contracts are not offered any more until it sends again or the node restarts.
* On-road, not stated as theorems: the handlers return from the whole call when one contract has no pool (chain_events.go), so other
  contracts' events of that call are lost; the total of waiting sends is always 0 (storage.go); a contract without meta makes
  verifySequenceOfContractReceive dereference a nil error (account_verifier.go:206-208).
* C68: `SwitchMainTo` prunes the branch before it becomes the main branch. If all its blocks are blocks of the branch it stems from,
  pruning removes it from the tree, and then it becomes the main branch all the same: the main branch is none of the branches of the tree, so
  new blocks are never added to it (fork2 goes over the branches of the tree). The test before a switch (fork point not below the
  tail) and the random choice among brothers both let such a branch through (`stale_switch`, `stale_brother`).
* `exchangeRoot` (branch.go:173-178): the loop that was to remove the blocks taken over from the old root runs over no height, so the old
  root keeps copies of them until it is pruned. Readings are not affected (C69), but this is what makes the branches of the finding above.
* C71: the query for the irreversible block panics (nil block) if the first round of the chain has more than `2*(n/3)+1` blocks and no later
  round is final: there is no block before the first round.
* C72: a block reported as irreversible can be deleted by two forks: the first deletes the other blocks of its round, the second finds an
  earlier irreversible block. With `n = 3k+2` nodes a quorum is less than two thirds.
* C73: the verifier asks nothing about the log hash and the list of sends of a user's send, and the hashed string has no lengths: a signed send with a
  log hash that begins with eight zeros is also the signature of a send with an attached send (`two_accepted`).
* C75: `AccountBlock.Deserialize` (account_block.go) returns nil when `DeProto` fails; a message with a faulty attached send is taken as
  a block that has its hash and no signature (`fault_hidden`).
* C76: topics and data of logs are hashed without separation (`logs_one_hash`): a contract can make logs with one hash that say different things.
* C77: `MergedIterator.step` (merged_iterator.go) compares the direction with `directionToNext`, which it never sets, so every step against the first
  direction drops the keys read ahead: `Next`, `Next`, `Next`, `Prev`, `Prev` misses a slot (`turn_loses`, `turn_loses_after_last`). A slot with
  the empty key is not listed (`empty_key_skipped`). A prefix that ends in a zero byte lists shorter saved keys, because saved keys are padded
  with zeros (`zero_prefix`).
* C78: slots that were emptied are listed with the empty value at later snapshots (`emptied_listed`).
* C79: `queryRedoLogs` (round_cache.go:638-666) takes the headers of `GetSnapshotHeadersAfterOrEqualTime` to come lowest first; they come highest first
  (snapshot_block.go:399, 749-784). After a start with a round of several blocks the older values overwrite the newer (`start_wrong`), and deleting blocks
  leaves their logs in the cache (`deleted_stays`), so a node that was started lately can elect other producers than one that was not.
* C80: `WriteMsg` (net/codec.go:256-314) does not test the size of a message. From 2^24 bytes on, the size of the length field does not fit its two bits;
  the reader sees an empty message and takes the content for further messages (`large_misread`), or the sender panics (`large_panics`).
* C81: `verifyHandshake` (net/handshaker.go:211-229) calls `ed25519.Verify` with the key of the message, which panics unless it has 32 bytes; nothing
  recovers, so a message that needs no key and no permission stops any node (`odd_key_panics`).
* C81: `InitiateHandshake` does not compare the id of the answer with the one it called, and a token is the same in both directions: a caller accepts its
  own message back under any id (`echo_accepted`).
* C81: the token is the secret xor a hash of the time in the message, sent in the clear and with no test of the time: a message heard once gives the secret
  (`overheard_forges`) and can be repeated for ever (`replay`).
* C81: ids of small order are not refused; for them all keys give the same secret. Whoever calls a producer as such an id gets an answer that every node
  accepts as coming from that producer (`producer_impersonated`).
* C82: a cached chunk whose first block has the height of the last point is kept although a task asks for that block too; the cache then refuses the writer of that task whenever it is tried
  (`edge_refused`).
* C83: at a start the files of all cached chunks are deleted, because the names to keep have the directory in them and the names found have not. The chunks stay listed, so nobody downloads
  them again, but none can be read (`restart_unreadable`, `restart_listed`); after a second start nothing is listed (`second_restart_empty`).
* C84: a block of the black list ends the reading of a chunk without an error: the blocks before it are given as the whole chunk and it is marked verified (`black_cuts`, `black_truncated`).
  A second block of the last height replaces the first, and account blocks after the last snapshot block count to it (`second_end`).
* C85: a request for 2^51 or more blocks from a block on stops the node: it makes a slice of that capacity and nothing recovers (`large_count_panics`). So does a request for points with step 0, by
  division (`zero_step_panics`). A node that has none of the peer's blocks but another one at the last of their heights answers as if it had it (`other_fork_answered`).
* C86: one peer can lengthen the way after the end of the list that all others sent (`one_extends`), and the peer that answers first sets the heights of the points, because points are told apart by
  hash only (`first_sets_heights`).
* C87: the loop over the tasks steps over some of them, so later ones start while earlier ones wait, and more downloads run than the limit allows (`limit_exceeded`).
* C88: the test of the black list is the wrong way round: a blocked peer is chosen (and then refused, which costs the task a turn), and when its time is over no connection to it is ever made again
  (`blocked_chosen`, `ban_forever`). After a removal the index of the later connections is wrong until the next sort, so a second removal takes away another connection and leaves the closed one
  (`second_removal`). A refused second connection takes the first one out of the pool (`refused_removes`).
* C89: a peer that was asked for a block and has not answered is not asked again for it while the record lives, and the record lives as long as the block is wanted steadily: so a block whose requests
  got lost is never asked for again (`silent_forever`). A peer is taken to be on the same chain when it answers with any block (`any_block_counts`), and any other peer can answer in its place that there is nothing
  (`others_deny`). A wish while no peer is there suppresses the next ones (`no_peers_suppress`). Records from the pool keep an old hash, so cleaning one can drop the record of another block (`stale_hash_doubles`).
* C90: an account block whose `FromBlockHash` is the hash of a snapshot block in the same batch makes the node dereference a nil owner (`batch_impl.go:192`, `snapshot_ref_panics`). The tests a block from a peer passes
  before that (hash and signature) do not rule it out, and the goroutine's recovery panics again, so a peer can stop a node that syncs from it.
* C91: two equal blocks in a list make the sort panic (`topo_twice_panics`) or report a cycle (`topo_twice_cycle`). When a sort fails for a chunk without a snapshot block the warning itself dereferences nil
  (`pool_batch_chunk.go:107`).
* C95: sends from within a receive of a contract are not counted while the receive is unconfirmed (`onroad_info.go:344-365`), so the answer lacks them (`fresh_answer_is_missing`); when the account receives such a send
  before the confirmation, the question fails with "conflict" until then (`fresh_receive_fails`).
* C96: deleting an account block that a rollback had made unconfirmed removes its entry from memory only (`db/rollback.go:9-31`; the re-insertion in `plugins.go:281-291` goes to a batch that was applied before), so
  the next flush brings it back and a page has fewer blocks than there are (`stale_entry_takes_a_place`; `index++` in `filter_token.go:143` also counts entries without a block). A starting block that moves the token only
  in its send list gives an empty page (`filter_token.go:109-111`, `cursor_ends_too_early`), so going through the pages ends early.
* C97: a contract may be created in any group but the snapshot group (`vm/vm.go:299-302`), and only the delegate group has an on-road pool (`onroad/manager.go:25-26`). The handlers of the pool `return nil` inside
  their loop over a map of contracts when a group has no pool (`onroad/chain_events.go:54-57, 86-89, 148-151`), so one block that sends to such a contract and to others loses, depending on the order of the map, the sends
  to the others. Nodes with the same blocks then disagree about a receive (`mixed_call_loses_a_send`), a received send can stay first for good (`mixed_call_blocks_a_contract`), and a deletion can panic
  (`mixed_call_stops_the_node`). `continue` in place of `return nil` would do.
* C101: a processor that pops a contract which is in the working list drops the task (`onroad/taskprocessor.go:46-48`). If the processor at work has already found nothing, the send that caused the task waits until another
  signal (`dropped_task_waits`). The snapshot listener releases only contracts of the list made at Start (`onroad/contract.go:135`), so a contract created later that is put off "to the next snapshot block" is put off for the whole
  period (`late_contract_stays_restricted`). The test of the blacklist and the entry in the working list are two steps, so a contract that is OUT for the period can be handled again (`out_contract_is_handled`).
* C100: `Less` of the task queue is true for equal quotas (`onroad/task_pqueue.go:32-37`), so a contract that is pushed again comes before all contracts of the same quota; built-in contracts without quota (all with the
  greatest quota) that always have work starve the others of their kind (`Heap.greatest_is_served_alone`).
* C98, not proved: `stopAllWorks` captures the loop variable in its goroutines (`onroad/manager.go:149-157`), so with several workers one may be stopped twice and another not at all; `wg.Add(1)` inside the goroutine
  (`onroad/taskprocessor.go:33`) lets Stop overtake it (`four_processors`).
* C102: `GetLogs` with several addresses takes the address of the loop variable (`rpcapi/api/ledger_v2.go`, `&addr`), so all logs carry the last address (`logs_query_wrong_address`); a full page does not leave the loop over
  addresses, so pages overflow and repeat (`logs_query_page_overflow`), and the order of the map changes between pages. A range that begins above the latest block answers with the latest block's logs (`logs_query_below_range`).
* C103: insertions and deletions go through different channels and `select` picks at random, so a client may be told of a removal before the addition, and is left with a block that does not exist (`told_out_of_order`). A node that
  does not keep a contract's logs announces them but never revokes them (`log_not_revoked`).
* C104: `timeoutLoop` holds `filterMapMu` while it unsubscribes an expired filter (`rpcapi/api/filters/subscribe.go:60-71`), and that waits for the event loop, which may be waiting for a filter's goroutine that waits for the lock.
  The event loop then stands still for ever, its channels fill, and the ledger stops inserting (`expiry_can_stop_node`). Anybody who may make a filter can bring this about by not asking for it again.
* C105: `UnRegister` compares a variable with itself (the loop variable shadows the parameter) and removes the first listener (`unregister_wrong`). At shutdown the pool's printer unregisters and so, on a node with plugins, removes the
  plugins while blocks can still be inserted; `Es.Stop` after a failed start of RPC does the same.
* C106, C107: with the default options a damaged part of the journal is passed over (`journal_hole`), and the recovery refuses only sequence numbers that are too small (`batch.go:285-287`), so a write can be missing in the middle of
  those that are applied (`gap_not_noticed`). The ledger's stores write without `Sync` (`ledger/chain/db`, write options nil), so after a power failure this depends on the order in which the system wrote the pages.
* C110: `closet.push` on a full list overwrites the node at the place of insertion instead of dropping the last one (`net/discovery/table.go`), so `findNeighbors` need not give the closest nodes (`neighbors_not_closest`). The number asked
  for comes from the packet and is used as the capacity of a slice (`make([]*Node, 0, count)`), so one packet of a stranger can ask for gigabytes.
* C109: an answer to a ping is accepted from any identity (`requestPool.rec` never looks at `expectID`), and `Discovery.ping` writes it into the node while that is in the table, so the node is then in the bucket of another identity and cannot
  be removed (`node_misplaced`). The look-up and the insertion of `table.add` are not one critical section (`address_twice`), and a late answer to `checkReplace` inserts a node that is already there (`node_twice`) or leaves a
  stale address that can never enter again (`address_lost`).
* C111: `splitEndPoints` counts neither the two bytes of framing per end point nor the first end point of a packet, so a long answer has a packet over the 1200 bytes that peers read (`answer_too_long`); `Deserialize` takes the port from the
  end of the buffer; and a last packet that arrives first makes the receiver drop the others (`answer_out_of_order`).
* C112: `findNodeRequest.handle` sends on a channel with room for one while it holds the pool's lock; the workers that would make the searcher come back need that lock, and so does the cleaner that would end the request. An answer of three
  packets, the first with more than ten end points, can stop discovery for ever (`three_packets_deadlock`). Any peer that is asked can send it.
* C116: `AddLockEventListener` and `RemoveUnlockChangeChannel` have value receivers (`wallet/manager.go:340-353`), so the counter is raised in a copy: every listener gets the number 1 and replaces the one before (`second_listener_replaces`). The
  mutex they lock is a copy too.
* C115: `RemoveEntropyStore` looks a store up by its absolute path and deletes it by the name as given (`wallet/manager.go:266-277`), so by a relative name it is only locked (`remove_relative_keeps`). `GlobalFindAddrWithPassphrase` stops at the
  first store with another passphrase (`passphrase_search_order`). `AccountSearch` leaves the store unlocked (`search_leaves_unlocked`). The RPC calls `FindAddr`, `FindAddrWithPassphrase` and `FindAddressInEntropyFile` drop the error
  and answer with index 0 (`rpc_find_says_zero`). A recovered store searches 100 accounts whatever is configured (`recovered_limit`). `entropystore.Manager.GetPrivateKey` of a locked store uses the empty seed (`private_key_locked`).
* C114: a mnemonic with more spaces than the library writes is accepted (the library splits at any white space), hashed as it is to the primary address, and stored as entropy; the file then never opens, for no passphrase
  (`noncanonical_never_opens`). A file with a nonce that is not 12 bytes long, or with a key length of 0, panics (`file_can_panic`).
* C118: the iterators of the chain's store (`ledger/chain/db/store.go:109-113`, `NewIterator2`) read the database at a number that starts at `KeyMaxSeq - 10^8`, above all numbers of the database, and take no snapshot. So what is
  flushed into the database while such an iterator runs shows in it: it is not a view of one moment (`high_iterator_moves`). `Get2` reads in the same way. More than 10^8 writes into one memory table between two flushes make
  `MakeInternalKey` panic. `MemDB.Put` (`common/db/memdb.go:39-54`) raises the number atomically and then reads it again, so two writers may use the same one.
* C121: a block is noted as seen before its signature is looked at, and the hash does not cover the signature (`net/broadcaster.go:463-476`), so a copy with a wrong signature, sent by any peer before the right one arrives, keeps the right block
  from the node's subscribers and from being passed on (`forged_copy_blocks`). The same holds for a snapshot block that is refused because the node's clock is behind.
* C122: the index of the queue of blocks kept back is never set back (`net/broadcaster.go:60-97`), so in every later synchronisation as many blocks are lost at the beginning as were given out before (`second_session_loses`).
  `UnsubscribeSnapshotBlock` deletes from the map of account subscribers (`net/block_feed.go:63-65`), so a snapshot subscriber can never leave (`snapshot_subscriber_stays`).
* C120: `setPeers` removes the entry that was added last and not the one that left (`net/peer.go:423-434`), and `heartBeater.state` forgets the peers that stay; both are hidden because the time of the last full heartbeat is never
  noted, so all are full (`patch_wrong`).
* C123: with a time to live of 32 a block does not come to the end of a line of 35 nodes (`line_too_long`).
* C125: an iterator of a memory table that stands on an entry that is deleted goes on by the links that entry had, and can give an entry that was deleted after it (`deleted_entry_shown`). `Copy` and `Copy2` take the read lock
  again while they hold it (`memdb.go:274-277`, `291-305`), which Go's lock does not allow when a writer may be waiting.
* C126: an iterator with both bounds over an empty block takes the number of restart points for an offset and reports a corrupt block (`empty_block_error`). Closing an empty table with the comparer of the database panics, as the
  key of the last entry is empty. `Reader.Get` takes the read lock and calls `find`, which takes it again; `readRawBlock` passes over `io.EOF`, so that a short file leaves what was in the buffer of the pool, to be caught by the checksum only.
* C131: an iterator over a range whose start is after its limit panics with slice bounds out of range (`table.go:242`), if a table of level one or more lies between them (`inverted_range_panics`); with only memory tables and level zero it is empty.
* C132: the first commit after a start begins a manifest anew, and adds the old compaction pointers to the record after the new one (`session_util.go:160-164`), so that the compaction that is the first after a start does not move its pointer (`first_commit_keeps_pointer`, `Ex.end_state`); the next compaction of that level starts at the same place again.
* C133: `AddUpgradePoint` does not check the heights: with a lower height than the version before it, the new version is active, but the current point is an older one or none (`addPoint_unchecked`). It also leaves the name empty where the same point given at the start is named after its version, and the name goes into the hash of snapshot blocks (`addPoint_unnamed`). If a version is given twice, the height of the first is still told to be an upgrade point (`replaced_height_stays`).
* C134: `EncodeBig` says that the sign is ignored, but writes a negative number as `-0x..`, which no function of the package reads (`negative_lost`).
* C135: `RetrieveMark` reads a number of variable length, whereas `StoreMark` writes the mark and the time in eight bytes each; so it gives zero for every mark from 0 to 2^56 (`retrieveMark_zero`). `ReadMarkNodes(n)` takes the `n` highest marks before it looks whether their nodes are stored, so it may give none though others are there (`readMarkNodes_short`). `Iterate` ignores the prefix it is given and always goes through the marks (not modelled).
* C136: `getCodeWithoutAuxCodeAndParams` drops all that follows the first ten bytes that look like the trailer of the compiler, if at least 34 bytes follow them. A contract may jump over these bytes and read the time, the height or a random number behind them; it is then accepted with no waiting for snapshot blocks (`hidden_read`).
* C137: `receiveCreate` takes the code out of the data by the height at which the request is received. A request sent before the seed fork and received after it is run without the first byte of its code (`fork_shifts_code`). With C136, a contract that reads the time can be made with no confirmations (`hidden_made`).

{"id": "C01", "title": "Update connects exactly when the first invalidated block is represented", "statement": "SparseChain::determine_changeset / apply_update reports NotConnected(h) if and only if the update has checkpoints, its highest checkpoint is not one that the chain already has with the same hash, h is the lowest checkpoint of the chain above the highest checkpoint both agree on (or the lowest of all when they agree on none), and the update has no checkpoint at height h.", "quantifier": "every chain, every update, any number of checkpoints, all heights below u32::MAX", "why_tests_cant": "The outcome depends on arbitrary sparse sets of heights in two chains; tests cover a dozen shapes.", "anchors": ["bdk_chain/src/sparse_chain.rs#SparseChain::determine_changeset", "bdk_chain/src/sparse_chain.rs#UpdateError"]}
{"id": "C02", "title": "Accepted updates never move a transaction that was confirmed below the point of reorganisation", "statement": "apply_update fails with TxInconsistent if and only if it connects and some txid of the update is confirmed in the chain below the invalidated range at a different position; consequently after a successful update every transaction that was confirmed at or below the agreement point keeps its position. (The module documentation further says a displaced transaction may not re-confirm below the reorg height; the code does not enforce that.)", "quantifier": "every chain, every update, every HashMap iteration order", "why_tests_cant": "Requires ranging over all pairs of chains; a single missed comparison (< vs <=) only shows on boundary heights.", "anchors": ["bdk_chain/src/sparse_chain.rs#SparseChain::determine_changeset", "bdk_chain/src/sparse_chain.rs#module docs"]}
{"id": "C03", "title": "Exact effect of a successful update", "statement": "After a successful apply_update on a chain without checkpoint limit the checkpoint at each height is: the update's hash if the update has one; nothing if the height is in the invalidated range; otherwise the old one. With a limit n the same holds before all but the newest n blocks are forgotten. The position of each txid (limit or not) is: the update's position if the update has one; unconfirmed if it was confirmed in the invalidated range; otherwise the old position.", "quantifier": "every chain, every update accepted by the chain, every height and txid", "why_tests_cant": "Functional correctness over unbounded maps; reorgs interact with updates at each height.", "anchors": ["bdk_chain/src/sparse_chain.rs#SparseChain::apply_update", "bdk_chain/src/sparse_chain.rs#SparseChain::apply_changeset"]}
{"id": "C04", "title": "Position listing and position lookup always agree", "statement": "After any sequence of SparseChain calls starting from an empty chain, txids() yields exactly the pairs (tx_position(txid), txid), strictly sorted by position then txid, each txid exactly once.", "quantifier": "every finite history of public SparseChain operations, including failing ones", "why_tests_cant": "Two redundant indexes are maintained incrementally; a missed removal appears only after certain move sequences.", "anchors": ["bdk_chain/src/sparse_chain.rs#SparseChain::apply_changeset", "bdk_chain/src/sparse_chain.rs#SparseChain::txids", "bdk_chain/src/sparse_chain.rs#SparseChain::tx_position"]}
{"id": "C05", "title": "Failed operations leave the chain unchanged and preview+apply equals the direct call", "statement": "For apply_update, insert_tx, insert_checkpoint, invalidate_checkpoints and clear_mempool the direct call leaves exactly the state that applying the previewed changeset leaves; if the call returns an error the chain is unchanged.", "quantifier": "every chain state and argument", "why_tests_cant": "A property of all states and all error paths.", "anchors": ["bdk_chain/src/sparse_chain.rs#apply_update", "bdk_chain/src/sparse_chain.rs#insert_tx", "bdk_chain/src/sparse_chain.rs#insert_checkpoint"]}
{"id": "C06", "title": "Re-applying an update is a no-op", "statement": "If apply_update succeeds on a chain without checkpoint limit, applying the same update again succeeds, returns the empty changeset and leaves the chain unchanged. With a non-zero limit it also succeeds, leaves the chain unchanged and changes no transaction; its changeset names exactly the update's blocks that the limit made the chain forget.", "quantifier": "every chain and every accepted update", "why_tests_cant": "Sync re-delivers the same data; must hold for every pair of chain and update.", "anchors": ["bdk_chain/src/sparse_chain.rs#SparseChain::determine_changeset"]}
{"id": "C07", "title": "Changesets compose: append equals sequential application", "statement": "For sparse_chain::ChangeSet, applying a.append(b) equals applying a then b, for every chain without a checkpoint limit. With a checkpoint limit this documented law fails in general; but the transactions and their positions are always the same, and the law holds if b removes no checkpoint, and for any number of changesets that remove none.", "quantifier": "all chains, all changesets a, b, and lists of changesets", "why_tests_cant": "The persistence layer depends on it for every changeset history.", "anchors": ["bdk_chain/src/sparse_chain.rs#ChangeSet::append", "bdk_chain/src/sparse_chain.rs#SparseChain::apply_changeset"]}
{"id": "C08", "title": "A chain can be rebuilt from its initial changeset and from its changeset log", "statement": "Applying initial_changeset() to an empty chain with the same limit yields the same chain; and, for any history of operations without checkpoint limit from the empty chain, applying the returned changesets in order (or their append-aggregate) to an empty chain yields the same state.", "quantifier": "every reachable chain and every history", "why_tests_cant": "Recovery must work from every history, not just sampled ones.", "anchors": ["bdk_chain/src/sparse_chain.rs#SparseChain::initial_changeset", "bdk_chain/src/sparse_chain.rs#ChangeSet::append"]}
{"id": "C09", "title": "Invalidation removes exactly the checkpoints at or above the height and unconfirms exactly the displaced transactions", "statement": "After invalidate_checkpoints(h), with or without a checkpoint limit: checkpoints below h are untouched and none at or above h remains; each tx confirmed at height >= h becomes unconfirmed, every other tx keeps its position, and no tx is lost.", "quantifier": "every chain satisfying the API invariants, every h", "why_tests_cant": "Boundary behaviour of range scans over (position, txid) keys with sentinel txids.", "anchors": ["bdk_chain/src/sparse_chain.rs#SparseChain::invalidate_checkpoints", "bdk_chain/src/sparse_chain.rs#SparseChain::range_txids_by_height"]}
{"id": "C10", "title": "Clearing the mempool removes exactly the unconfirmed transactions", "statement": "clear_mempool removes every unconfirmed tx, keeps each confirmed one at its position and leaves the checkpoints alone.", "quantifier": "every reachable chain", "why_tests_cant": "Range scan over ordered keys with sentinel bounds.", "anchors": ["bdk_chain/src/sparse_chain.rs#SparseChain::clear_mempool"]}
{"id": "C11", "title": "Checkpoint limit keeps exactly the newest checkpoints", "statement": "With limit n set, after set_checkpoint_limit or any later operation at most n checkpoints are kept; those kept by an operation are exactly the n highest of those present before pruning, and transactions are unaffected.", "quantifier": "every n, every history", "why_tests_cant": "Off-by-one errors in nth(limit) only show at particular sizes.", "anchors": ["bdk_chain/src/sparse_chain.rs#SparseChain::prune_checkpoints", "bdk_chain/src/sparse_chain.rs#SparseChain::set_checkpoint_limit"]}
{"id": "C12", "title": "insert_tx outcome", "statement": "insert_tx never panics; it fails TxTooHigh iff the position is confirmed above the tip (or there is no tip), TxMovedUnexpectedly iff not too high and the txid is already confirmed at a different position; otherwise the txid gets exactly that position and nothing else changes.", "quantifier": "every reachable chain, every txid, every position", "why_tests_cant": "Includes absence of the panic!(\"should always connect\") path for all states.", "anchors": ["bdk_chain/src/sparse_chain.rs#SparseChain::insert_tx_preview"]}
{"id": "C13", "title": "insert_checkpoint outcome", "statement": "insert_checkpoint never panics and never changes transactions; it fails iff the tip is at the same height with a different hash; a success puts the block at its height and leaves every other block alone, except that with a limit n all but the newest n are then forgotten. The documentation says that a change of hash at any height fails: the code instead silently replaces hashes below the tip.", "quantifier": "every reachable chain and block id", "why_tests_cant": "Includes absence of two panic paths for all states.", "anchors": ["bdk_chain/src/sparse_chain.rs#SparseChain::insert_checkpoint_preview"]}
{"id": "C14", "title": "Confirmed transactions never lie above the tip", "statement": "In every state reachable by updates that are themselves well formed and by insert_tx/insert_checkpoint/clear_mempool, each confirmed transaction's height is at most the height of the latest checkpoint. invalidate_checkpoints(f) keeps this exactly when every transaction confirmed below f has a checkpoint at or above its height and below f; limit 0 breaks it.", "quantifier": "every history", "why_tests_cant": "Invariant over unbounded histories.", "anchors": ["bdk_chain/src/sparse_chain.rs#SparseChain"]}
{"id": "C15", "title": "Height and position ranges are exact", "statement": "range_txids_by_height(r) yields exactly the stored (position, txid) pairs whose height is in r, and range_txids_by_position(r) exactly those whose position is in r, in order, for inclusive, exclusive and unbounded bounds.", "quantifier": "every chain, every bound pair that does not make the underlying BTree range panic", "why_tests_cant": "Sentinel keys (min/max txid, min/max position of a height) must bracket every key.", "anchors": ["bdk_chain/src/sparse_chain.rs#SparseChain::range_txids_by_height", "bdk_chain/src/sparse_chain.rs#SparseChain::range_txids_by_position"]}
{"id": "C16", "title": "Chain positions are ordered by height first", "statement": "For TxHeight and ConfirmationTime: ordering refines the height ordering, min_ord_of_height(h) and max_ord_of_height(h) are the least and greatest positions of height h, unconfirmed is above every confirmed position.", "quantifier": "all positions", "why_tests_cant": "Law over an infinite type; all range queries rely on it.", "anchors": ["bdk_chain/src/sparse_chain.rs#ChainPosition", "bdk_chain/src/chain_data.rs#TxHeight", "bdk_chain/src/chain_data.rs#ConfirmationTime"]}
{"id": "C17", "title": "The transaction graph only grows and merging is union", "statement": "TxGraph::apply_update/insert_tx/insert_txout never drop a transaction; after apply_update(u) get_tx(txid) is Some iff it was in either graph, with the graph's own version winning. A known txout stays known unless a full transaction arrives for that txid that does not have that output.", "quantifier": "all graphs and updates", "why_tests_cant": "Monotonicity over every history of merges.", "anchors": ["bdk_chain/src/tx_graph.rs#TxGraph::apply_update", "bdk_chain/src/tx_graph.rs#TxGraph::apply_additions"]}
{"id": "C18", "title": "Graph merging is idempotent, commutative and associative", "statement": "If a txid determines the transaction, the graph obtained by applying a set of updates does not depend on their order or multiplicity.", "quantifier": "all graphs, all lists of updates and permutations", "why_tests_cant": "Order independence ranges over all permutations.", "anchors": ["bdk_chain/src/tx_graph.rs#TxGraph::determine_additions", "bdk_chain/src/tx_graph.rs#TxGraph::apply_additions"]}
{"id": "C19", "title": "Additions are exact", "statement": "determine_additions(u) contains only transactions/txouts that the graph does not have (or has with other content); applying them equals apply_update(u); after that determine_additions(u) is empty; Additions::append composes when no txid comes in two witness variants.", "quantifier": "all graphs and updates", "why_tests_cant": "Law over all pairs of graphs.", "anchors": ["bdk_chain/src/tx_graph.rs#TxGraph::determine_additions", "bdk_chain/src/tx_graph.rs#Additions::append"]}
{"id": "C20", "title": "The spend index is exact", "statement": "In every reachable graph outspends(op) is exactly the set of full transactions in the graph having op as an input (coinbase/null inputs excluded), and tx_outspends(txid) lists exactly the spent outpoints of txid with their spenders.", "quantifier": "every history of graph operations", "why_tests_cant": "An incrementally maintained index.", "anchors": ["bdk_chain/src/tx_graph.rs#TxGraph::outspends", "bdk_chain/src/tx_graph.rs#TxGraph::tx_outspends", "bdk_chain/src/tx_graph.rs#TxGraph::apply_additions"]}
{"id": "C21", "title": "Fee calculation", "statement": "calculate_fee(tx) is Some(f) iff tx is coinbase (0) or each input's previous output is known; then f = sum of input values - sum of output values, independent of what else is in the graph.", "quantifier": "all graphs and transactions", "why_tests_cant": "All graphs and partial knowledge.", "anchors": ["bdk_chain/src/tx_graph.rs#TxGraph::calculate_fee"]}
{"id": "C22", "title": "Descendant walk visits exactly the reachable transactions, once each, and terminates", "statement": "walk_descendants(txid, f) calls f at most once per txid, only on transactions reachable from txid through spends by visited transactions accepted by f, on all of them, and terminates on every graph, even a cyclic one, for every HashSet order.", "quantifier": "every graph (including malformed ones), every filter and iteration order", "why_tests_cant": "Termination and exactness over all graphs.", "anchors": ["bdk_chain/src/tx_graph.rs#TxDescendants", "bdk_chain/src/tx_graph.rs#TxGraph::walk_descendants"]}
{"id": "C23", "title": "Conflict walk is exact", "statement": "walk_conflicts(tx, f) yields all transactions in the graph other than tx that spend an input of tx and their descendants; direct_conflicts_of_tx yields exactly the (vin, txid) pairs.", "quantifier": "every graph and transaction", "why_tests_cant": "All graphs.", "anchors": ["bdk_chain/src/tx_graph.rs#TxGraph::walk_conflicts", "bdk_chain/src/tx_graph.rs#TxGraph::direct_conflicts_of_tx"]}
{"id": "C24", "title": "Every transaction in the chain is in the graph", "statement": "In every state reachable by ChainGraph operations get_tx_in_chain never panics: each txid in chain() has a full transaction in graph().", "quantifier": "every history of ChainGraph operations with arbitrary updates", "why_tests_cant": "Invariant over histories.", "anchors": ["bdk_chain/src/chain_graph.rs#ChainGraph", "bdk_chain/src/chain_graph.rs#ChainGraph::get_tx_in_chain"]}
{"id": "C25", "title": "No double spends in the chain", "statement": "In every state reachable by ChainGraph operations no two distinct transactions in the chain spend the same outpoint. (The documented stronger form, that no tx in the chain conflicts with an ancestor of one in the chain, is violated by the code.)", "quantifier": "every history of ChainGraph operations", "why_tests_cant": "Invariant over all histories, including reorgs.", "anchors": ["bdk_chain/src/chain_graph.rs#ChainGraph::fix_conflicts", "bdk_chain/src/chain_graph.rs#ChainGraph docs"]}
{"id": "C26", "title": "Conflict resolution: who is evicted, and when an update is refused", "statement": "A ChainGraph update that introduces a transaction conflicting with chain transactions evicts exactly the unconfirmed conflicting ones, and is refused with UnresolvableConflict iff some added transaction conflicts with one that stays confirmed; a refused update leaves the state unchanged.", "quantifier": "all ChainGraph states and updates", "why_tests_cant": "All combinations of conflicts, reorgs, iteration orders.", "anchors": ["bdk_chain/src/chain_graph.rs#ChainGraph::determine_changeset", "bdk_chain/src/chain_graph.rs#ChainGraph::fix_conflicts"]}
{"id": "C27", "title": "spent_by is unique and full_txout is accurate", "statement": "In every reachable ChainGraph, spent_by(op) is Some iff a chain tx spends op, the answer does not depend on HashSet order, and full_txout(op) is Some iff the tx is in chain and has that output, with the output, position, spender and coinbase flag of the actual transaction.", "quantifier": "every reachable state, every outpoint", "why_tests_cant": "Determinism under randomised hash order for all states.", "anchors": ["bdk_chain/src/chain_graph.rs#ChainGraph::full_txout", "bdk_chain/src/sparse_chain.rs#SparseChain::spent_by", "bdk_chain/src/sparse_chain.rs#SparseChain::full_txout"]}
{"id": "C28", "title": "Building ChainGraph updates is sound", "statement": "ChainGraph::new(chain, graph) fails iff a chain txid lacks a full transaction in the graph or two chain txs conflict; inflate_update fails iff the resulting new() would, and never reports a transaction missing that the existing graph already has.", "quantifier": "all chains and graphs", "why_tests_cant": "All pairs.", "anchors": ["bdk_chain/src/chain_graph.rs#ChainGraph::new", "bdk_chain/src/chain_graph.rs#ChainGraph::inflate_update"]}
{"id": "C29", "title": "ChainGraph changesets compose and replay", "statement": "Applying a.append(b) to a ChainGraph equals applying a then b (no checkpoint limit, or b removes no checkpoint); replaying the changesets returned in any history, with a checkpoint limit or without, reproduces the state.", "quantifier": "all histories", "why_tests_cant": "Persistence relies on it for all histories.", "anchors": ["bdk_chain/src/chain_graph.rs#ChangeSet::append", "bdk_chain/src/chain_graph.rs#ChainGraph::apply_changeset"]}
{"id": "C30", "title": "Script index finds exactly the outputs paying to known scripts", "statement": "After any sequence of insert_spk and scan calls, txouts() contains exactly the scanned outputs whose script was inserted before the scan, each with that script's index; is_used(i) for an inserted index iff some found output has it or it was marked; unused_spks yields the complement.", "quantifier": "every sequence of insert/scan/mark operations", "why_tests_cant": "Three redundant maps are maintained incrementally.", "anchors": ["bdk_chain/src/spk_txout_index.rs#SpkTxOutIndex"]}
{"id": "C31", "title": "sent_and_received and is_relevant", "statement": "sent_and_received(tx) is the pair (sum of values of indexed outputs spent by tx, sum of values of outputs of tx to inserted scripts); net_value is received - sent; is_relevant(tx) iff tx spends an indexed output or pays an inserted script.", "quantifier": "all index states and transactions", "why_tests_cant": "All states and transactions.", "anchors": ["bdk_chain/src/spk_txout_index.rs#SpkTxOutIndex::sent_and_received", "bdk_chain/src/spk_txout_index.rs#SpkTxOutIndex::is_relevant"]}
{"id": "C32", "title": "Re-scanning is idempotent and order does not matter", "statement": "With a fixed set of scripts, scanning transactions in any order and with repetitions gives the same index.", "quantifier": "all lists of transactions and permutations", "why_tests_cant": "All permutations.", "anchors": ["bdk_chain/src/spk_txout_index.rs#SpkTxOutIndex::scan"]}
{"id": "C33", "title": "Keychain scripts are stored contiguously and each index holds the descriptor's script", "statement": "After any sequence of KeychainTxOutIndex operations, for each keychain the stored indices are exactly 0..n for some n >= last revealed + 1, and the script stored at i is the descriptor's script at i (when the descriptors' scripts do not collide).", "quantifier": "every operation history, any number of keychains", "why_tests_cant": "Invariant over histories; collisions between descriptors break it.", "anchors": ["bdk_chain/src/keychain/txout_index.rs#KeychainTxOutIndex"]}
{"id": "C34", "title": "Revealing is monotone and exact", "statement": "No call ever lowers a last revealed index; reveal_to_target with a derivable target sets last_revealed = max(old, target) (target 0 for non-wildcard), the returned iterator yields exactly the newly revealed scripts in order, the additions record exactly the new index iff it changed; reveal_next_spk reveals and returns last_revealed+1, or repeats the last one when exhausted.", "quantifier": "all states and targets below the BIP32 bound", "why_tests_cant": "Off-by-one prone; all states.", "anchors": ["bdk_chain/src/keychain/txout_index.rs#reveal_to_target", "bdk_chain/src/keychain/txout_index.rs#reveal_next_spk", "bdk_chain/src/keychain/txout_index.rs#next_index"]}
{"id": "C35", "title": "Derivation indices recover from additions in any order", "statement": "DerivationAdditions::append takes the maximum: merging is commutative, associative, idempotent, and applying the log of returned additions to a fresh index yields the same last revealed indices.", "quantifier": "all logs and permutations", "why_tests_cant": "All logs.", "anchors": ["bdk_chain/src/keychain.rs#DerivationAdditions::append", "bdk_chain/src/keychain/txout_index.rs#apply_additions"]}
{"id": "C36", "title": "Lookahead completeness", "statement": "With lookahead n, every output paying to an index <= last_revealed + n of a wildcard descriptor is found by scan, under the right keychain and index, and then last_revealed becomes at least that index and the lookahead is replenished past it. lookahead_to_target(k, t) stores all scripts below t if nothing is stored past the last revealed one; if some lookahead is already stored it falls short of t by that amount.", "quantifier": "all states, lookaheads, transactions", "why_tests_cant": "Wallets miss funds otherwise; ranges over all gap sizes.", "anchors": ["bdk_chain/src/keychain/txout_index.rs#set_lookahead", "bdk_chain/src/keychain/txout_index.rs#replenish_lookahead", "bdk_chain/src/keychain/txout_index.rs#lookahead_to_target", "bdk_chain/src/keychain/txout_index.rs#scan"]}
{"id": "C37", "title": "Address reuse: next_unused_spk", "statement": "next_unused_spk returns the lowest revealed index that is unused, revealing a new one iff there is none; mark_used/unmark_used never makes an index with a found output unused.", "quantifier": "all states", "why_tests_cant": "All interleavings of reveal/scan/mark.", "anchors": ["bdk_chain/src/keychain/txout_index.rs#next_unused_spk", "bdk_chain/src/spk_txout_index.rs#unmark_used"]}
{"id": "C38", "title": "BIP32 index bound", "statement": "No stored derivation index exceeds the code's bound (2^30, not the non-hardened maximum 2^31-1), and no revealed index does as long as the caller's targets do not; a target above the bound combined with a lookahead past it reveals an underivable index, after which next_index panics.", "quantifier": "all histories", "why_tests_cant": "Boundary at 2^30/2^31 is out of reach for tests.", "anchors": ["bdk_chain/src/keychain/txout_index.rs#BIP32_MAX_INDEX", "bdk_chain/src/keychain/txout_index.rs#next_index"]}
{"id": "C39", "title": "Balance is a partition of the UTXOs", "statement": "KeychainTracker::balance: immature + trusted_pending + untrusted_pending + confirmed equals the sum of the values of the unspent outputs; each unspent output is counted in exactly one bucket, chosen by coinbase maturity, confirmation and trust of its keychain.", "quantifier": "all tracker states and trust predicates", "why_tests_cant": "All sets of outputs.", "anchors": ["bdk_chain/src/keychain/tracker.rs#KeychainTracker::balance", "bdk_chain/src/keychain.rs#Balance"]}
{"id": "C40", "title": "Spendability and maturity", "statement": "is_spendable_at(h) iff confirmed at or below h, not spent by a transaction confirmed at or below h and, if coinbase, at least 100 blocks deep counting its own; spendability of mature outputs is monotone in h until spent.", "quantifier": "all outputs and heights", "why_tests_cant": "All heights.", "anchors": ["bdk_chain/src/chain_data.rs#FullTxOut::is_spendable_at", "bdk_chain/src/chain_data.rs#FullTxOut::is_mature"]}
{"id": "C41", "title": "Staged changes are neither lost nor reordered nor written twice", "statement": "Persist: whatever interleaving of stage and commit with failing or succeeding backend writes, the sequence of successful writes followed by the staged remainder appends to the append of everything staged; after a failed commit nothing is lost; commit writes at most once per staged batch. The file store as backend confirms a write only when the whole entry is in the file (and synced when it reveals scripts).", "quantifier": "every interleaving of stage/commit and backend failures", "why_tests_cant": "All schedules.", "anchors": ["bdk_chain/src/keychain/persist.rs#Persist"]}
{"id": "C42", "title": "File store round trip", "statement": "After opening a valid file and reading it to the end, every appended changeset is read back, in order, by a later open; aggregate_changeset equals the append of all.", "quantifier": "every sequence of changesets", "why_tests_cant": "All sequences.", "anchors": ["bdk_file_store/src/file_store.rs#KeychainStore", "bdk_file_store/src/file_store.rs#EntryIter"]}
{"id": "C43", "title": "File store crash safety", "statement": "If a crash leaves any prefix of the bytes of an append to a fully read file, reopening yields exactly the earlier changesets and then an EOF error (nothing if no byte was written); after reading, whatever unreadable tail there is, a new append overwrites it and later reads yield the earlier ones and the new one. In any history of crashes at any byte every changeset whose append returned is read back, in order. (Not guaranteed, and refuted: that nothing else is read back after two crashes in a row; that a retry after a failed write is readable; that appending before reading keeps the entries.)", "quantifier": "every crash point", "why_tests_cant": "Every byte offset of every file.", "anchors": ["bdk_file_store/src/file_store.rs#KeychainStore::append_changeset", "bdk_file_store/src/file_store.rs#EntryIter::next"]}
{"id": "C44", "title": "Magic bytes protect the file", "statement": "new succeeds iff the first 12 bytes are the magic bytes; otherwise an error is returned and the file is unchanged; append never alters the first 12 bytes.", "quantifier": "every file content", "why_tests_cant": "All contents.", "anchors": ["bdk_file_store/src/file_store.rs#KeychainStore::new", "bdk_file_store/src/file_store.rs#MAGIC_BYTES"]}
{"id": "C45", "title": "Coin selection: finish is sound", "statement": "If finish returns Ok, it reports the selector's coins, and every strategy it offers splits their value exactly into recipients, change and fee, with a fee not below the one due at the target rate for the weight reported (the f32 product rounded up: for weights and fees up to 2^24 the target rate to within less than one satoshi, always to within one part in 2^23) nor below the absolute minimum, change not below min_drain_value, and recipients between the target and the leeway; to-fee is offered whenever there are recipients, to-recipient and to-drain exactly when they apply; best_strategy returns one of least waste. It returns an error exactly when the coins are worth less than required, and the error states the exact shortfall and a constraint short by it. With recipients it never panics; without, it panics exactly when the value is below min_absolute_fee + min_drain_value although all checked constraints hold. The split and the reported waste of every offered strategy are exactly those of its kind, and the constructors set the weights and the least change value they document. select and deselect report whether they changed anything and change exactly one coin, and the accessors (selected, unselected, is_selected, all selected, empty) agree with the calls made.", "quantifier": "all candidate sets, options", "why_tests_cant": "Arithmetic over all values.", "anchors": ["bdk_coin_select/src/coin_selector.rs#CoinSelector::finish", "bdk_coin_select/src/coin_selector.rs#SelectionError"]}
{"id": "C46", "title": "select_until_finished succeeds whenever any selection does", "statement": "select_until_finished adds the unselected coins one at a time in list order, stops at the first selection that suffices, and reports an error only after selecting everything; with recipients it never panics and succeeds iff one of these stages suffices. If every unselected coin pays for its own weight and headers and one satoshi of rounding (weights and fees up to 2^24; without the satoshi at a rate for which nothing is rounded, such as a quarter satoshi per weight unit) it succeeds whenever any selection containing the current one does; in general it does not.", "quantifier": "all candidates", "why_tests_cant": "All orders.", "anchors": ["bdk_coin_select/src/coin_selector.rs#CoinSelector::select_until_finished"]}
{"id": "C47", "title": "Branch and bound never panics, terminates and returns only valid selections", "statement": "coin_select_bnb never panics and its search ends by itself within 2^(n+1) rounds, whatever the limit and the order among coins of equal effective value; a returned selector keeps the coins selected at the start, adds only candidates of positive effective value, and meets both targets within the bounds. With recipients and everyday sizes (all candidates together weigh at most 2^24 and cost at most 2^24 satoshis) finish on it returns Ok or asks for exactly one satoshi more; it returns Ok at a rate k/2^j for which nothing is rounded. The search engine with any caller-supplied strategy that stops at the end of the pool never panics and terminates.", "quantifier": "all candidate pools, strategies, limits", "why_tests_cant": "Backtracking state machine over exponentially many states.", "anchors": ["bdk_coin_select/src/bnb.rs#Bnb", "bdk_coin_select/src/bnb.rs#BnbIter", "bdk_coin_select/src/bnb.rs#coin_select_bnb"]}
{"id": "C48", "title": "Branch and bound explores exhaustively and optimally", "statement": "Given enough rounds, coin_select_bnb returns None exactly when no selection made of the coins already selected and coins of positive effective value meets both targets within the bounds. When the long term rate is not above the target rate the result has the least waste of all such selections; whatever the rates, no such selection from which no added coin can be dropped has less waste.", "quantifier": "all pools", "why_tests_cant": "Exponentially many subsets.", "anchors": ["bdk_coin_select/src/bnb.rs#BnbIter", "bdk_coin_select/src/bnb.rs#coin_select_bnb"]}
{"id": "C49", "title": "Electrum: a prepared update always connects to the wallet's chain", "statement": "For every wallet checkpoint set and every (changing) server whose reported tip is never below a wallet checkpoint, the update a scan builds is one the wallet chain accepts as far as checkpoints go; with a server that does not change meanwhile, the wallet's chain (with any checkpoint limit other than 0) after applying it ends at the server's tip and agrees with the server's headers wherever both speak. When the server's tip falls below a wallet checkpoint, the update may fail to connect (witness).", "quantifier": "every wallet checkpoint set and every server chain", "why_tests_cant": "All reorg depths.", "anchors": ["bdk_electrum/src/lib.rs#prepare_update", "bdk_electrum/src/lib.rs#scan"]}
{"id": "C50", "title": "Electrum: stop-gap completeness", "statement": "While the server does not change, a scan reports every transaction of every script before the first run of stop_gap+1 consecutive unused scripts of each keychain, whatever the positive batch size; batch size 0 scans nothing. With any server, a reported last active index is the index of a script of that keychain which the server reported a history for; if no more scripts than the stop gap are given it did so after the last time it named its tip (otherwise the index may be stale, witness). If a reorganisation happens during the scan, keychains can be lost from the result (two witnesses).", "quantifier": "all server histories, keychains, stop gaps and batch sizes", "why_tests_cant": "All gap layouts.", "anchors": ["bdk_electrum/src/lib.rs#populate_with_spks", "bdk_esplora/src/lib.rs#scan"]}
{"id": "C51", "title": "Electrum: height mapping", "statement": "A raw height h is reported Confirmed(h) exactly when 0 < h <= scanned tip, otherwise Unconfirmed, without panic for any integer; for every server, honest or not and changing at any moment, every position in a scan's update was reported by the server after it named a block of the update as its tip and before it confirmed, last of all, the highest block of the update, and lies at or below that block.", "quantifier": "all raw heights and tips", "why_tests_cant": "All integers.", "anchors": ["bdk_electrum/src/lib.rs#determine_tx_height"]}
{"id": "C52", "title": "Spending plan: a plan is found exactly when some path is affordable, and its completed witness unlocks that path", "statement": "For a taproot descriptor and assets, plan_satisfaction returns a plan iff the internal key or some leaf is affordable with the assets (keys derivable, hash preimages, relative age, absolute lock time), provided the leaves use supported fragments, absolute locks lie within max_locktime and relative locks have no meaningless bits; the key path comes first, else the affordable leaf with the smallest expected witness. For leaves in which at most one side of every conjunction takes arguments and without pk_h, every completed witness makes the leaf script succeed in any transaction that meets the plan's required version, lock time and sequence. requirements() lists exactly what is missing: supplying it is necessary and sufficient for completion. Known defects, proved as such: max_locktime is ignored; conjunctions put their arguments in the wrong order; pk_h pushes the wrong key form; multi_a panics; meaningless older bits are compared; the chosen leaf is not the lightest one.", "quantifier": "all taproot descriptors (any miniscript tree), assets, signing material and spending transactions", "why_tests_cant": "Miniscript policies are unboundedly recursive and the assets, branches and transactions combine exponentially.", "anchors": ["bdk_tmp_plan/src/plan_impls.rs#plan_steps", "bdk_tmp_plan/src/plan_impls.rs#combine"]}
{"id": "C53", "title": "Spending plan: expected weight against actual weight", "statement": "Whenever a plan is completed, the weight of the resulting witness equals expected_weight plus one unit for each pk_h key in it plus one for each signature with a non-default sighash byte; hence it equals expected_weight for descriptors without pk_h signed with the default sighash type, and is underestimated otherwise.", "quantifier": "all plans, materials with 64-byte signatures and 32-byte preimages", "why_tests_cant": "All templates of unbounded size.", "anchors": ["bdk_tmp_plan/src/lib.rs#expected_weight", "bdk_tmp_plan/src/template.rs#expected_size"]}
{"id": "C54", "title": "Wallet commands: what was shown or broadcast survives crashes and failed writes", "statement": "For every interleaving of the wallet commands (address, send, sync) run by any number of threads, with crashes at any point: as long as no action changes the wallet without writing it, a new start finds exactly the chain, transactions, revealed scripts and outputs of the running program, and every address shown and every change script handed to the network was in the database before. The only actions that can change the wallet without writing it are those whose write failed (except in the electrum program) and a Send that ends without a transaction with change (never if the change keychain has a revealed unused script). A failed write shows no address and sends nothing. Pending transactions pay their change to distinct scripts, which no command shows; a failed broadcast gives the script back; a successful one is recorded with its change. The guarantees stop there: after a failed write, asking again shows an unwritten address; a failed Send makes a later Send pay its change to a script a restart does not know; inputs are not reserved. In every run, whatever is lost, an address that is shown is the one its descriptor derives at the index shown.", "quantifier": "all sequences of actions (all interleavings of threads at lock granularity), crash points, write and broadcast failures, scans, descriptors", "why_tests_cant": "All failure points.", "anchors": ["bdk_cli_lib/src/lib.rs#run_address_cmd", "bdk_cli_lib/src/lib.rs#handle_commands"]}
{"id": "C55", "title": "Tracker: persisted changesets rebuild the wallet", "statement": "Applying the changesets returned by KeychainTracker::apply_update/insert_tx/insert_checkpoint in order, one by one, to a fresh tracker with the same keychains and lookahead gives the same chain, graph, derivation indices, scanned outputs and balance (only mark_used flags, which no changeset carries, can differ). A single merged changeset does not suffice in general: outputs whose script was revealed by a later part may be missed.", "quantifier": "all histories", "why_tests_cant": "All histories.", "anchors": ["bdk_chain/src/keychain/tracker.rs#KeychainTracker"]}
{"id": "C56", "title": "Derivation hints lead to the right key", "statement": "If an asset key says it can derive a descriptor key and returns a hint, then following the hint from the key the asset stands for gives the secret key behind the descriptor key, provided the origin information in the keys is true; a hint exists iff fingerprints agree and the origin path extends the asset's path. The exception, proved as such: an extended key that is itself the descriptor key returns an empty hint although its own steps are still to be taken.", "quantifier": "all key sources, descriptor keys, derivation paths and lawful BIP32 derivations", "why_tests_cant": "Paths are arbitrarily long and origins arbitrary.", "anchors": ["bdk_tmp_plan/src/lib.rs#path_to_child", "bdk_tmp_plan/src/lib.rs#can_derive"]}
{"id": "C57", "title": "Signing with a key map completes the plan", "statement": "Calling sign_with_keymap on the requirements of a plan, with a key map knowing every required asset key, and supplying the required preimages, makes try_complete return a complete witness; signing only ever adds signatures (made by the derived secret of the mapped key, tweaked for key spends) and reports whether it added any. A plan needing no signature at all panics when signed (proved as such).", "quantifier": "all taproot plans, key maps, materials and sighash types", "why_tests_cant": "All plans and key maps; partial key maps and derivation failures combine freely.", "anchors": ["bdk_tmp_plan/src/requirements.rs#sign_with_keymap"]}
{"id": "C58", "title": "Read accessors are exact", "statement": "checkpoint_at, latest_checkpoint, range_checkpoints, from_checkpoints, is_empty (of chains, graphs, chain graphs and their changesets), changeset_additions, contains_eviction, full_transactions, partial_transactions, txouts, all_txouts, Additions::txouts, is_coin_base/is_null, ChainGraph::insert_txout and ChainGraph::set_checkpoint_limit report exactly what the basic observations (checkpoints, tx_position, get_tx, get_txout) say: no omission, no repetition, no invention, for every reachable value, every range and every hash order.", "quantifier": "all chains, reachable graphs, changesets, ranges (including panicking ones), heights, transactions and hash iteration orders", "why_tests_cant": "Off-by-one ranges, omitted partial transactions and wrong emptiness tests only show on particular contents; exactness is a statement about all contents.", "anchors": ["bdk_chain/src/sparse_chain.rs: from_checkpoints, latest_checkpoint, checkpoint_at, range_checkpoints, changeset_additions, is_empty", "bdk_chain/src/tx_graph.rs: all_txouts, full_transactions, partial_transactions, txouts, is_empty, Additions", "bdk_chain/src/chain_graph.rs: ChangeSet::is_empty, contains_eviction, is_empty, insert_txout, set_checkpoint_limit"]}
{"id": "C59", "title": "The keychain listings are exact", "statement": "spks_of_keychain yields the derivable indices 0..=cap in order with the descriptor's scripts and panics for an unknown keychain; revealed_spks_of_keychain lists exactly the stored scripts below the next index to reveal, ascending, and revealed_spks_of_all_keychains does so for exactly the known keychains; unused_spks_of_keychain exactly the revealed and not used ones, each with a script; txouts_of_keychain never panics and lists every recorded output of the keychain under its index, ordered; last_used_index is the greatest index that received an output, last_used_indices has it for exactly the keychains with one; lookaheads has the lookahead of known keychains only; set_lookahead_for_all gives each keychain the lookahead, stores the scripts it asks for and changes nothing else.", "quantifier": "all histories of the index, keychains, descriptors and lookahead values", "why_tests_cant": "The listings are range queries over a shared ordered map; that no bound is off by one and no entry of a neighbouring keychain leaks in must hold for every history and every index up to the u32 bounds.", "anchors": ["bdk_chain/src/keychain/txout_index.rs: spks_of_keychain, revealed_spks_of_keychain, unused_spks_of_keychain, txouts_of_keychain, last_used_index, set_lookahead_for_all"]}
{"id": "C61", "title": "Electrum updates are turned into wallet updates without loss", "statement": "missing_full_txs lists exactly the transactions of the update the wallet's graph does not have in full, each once; fetching them from a server that answers a txid with its transaction completes the update even if the wallet's graph grows meanwhile; into_keychain_scan keeps chain and last active indices and then fails only for a double spend, never for missing transactions. into_confirmation_time_update never panics on an update returned by scan, fails only if the server has no header for a confirmed height, and otherwise keeps checkpoints, heights and unconfirmed transactions and adds the header times. scan_without_keychain applies no stop gap.", "quantifier": "all updates, wallet graphs, servers (answers may change between requests) and iteration orders", "why_tests_cant": "The panics (unreachable!, missing map key, expect on insert) and the completeness of the fetched set depend on the shape of arbitrary updates and of the wallet at a later moment.", "anchors": ["bdk_electrum/src/lib.rs: ElectrumUpdate::missing_full_txs, into_keychain_scan, into_confirmation_time_update, ElectrumExt::scan_without_keychain", "bdk_electrum_example/src/main.rs: main"]}
{"id": "C60", "title": "Created transactions pay the recipient, the fee and the change correctly and are fully signed", "statement": "A transaction returned by create_tx spends distinct unspent outputs of the wallet, pays the recipient the requested amount as its first output and has at most one other output: change, not below the dust limit of the change descriptor, to the reported revealed script of the change keychain. Inputs minus outputs is a fee of at least half a satoshi per weight unit of the signed transaction, exactly the ceiling of that when there is change; change is made only if worth its cost and left out only if dust or not worth it. Every input carries a witness made with a key of the wallet over the returned transaction and the spent outputs: one tweaked signature, or arguments that unlock a leaf of the descriptor. No coin left out precedes a spent one in the requested order. With the means to sign it never panics and fails only if all coins together cannot pay, reporting exactly the shortfall. The option that chooses the algorithm accepts exactly the five names the algorithms print as.", "quantifier": "all wallets reachable through the API, amounts, recipients, algorithms, descriptors, key maps, sort tie breaks and iteration orders", "why_tests_cant": "Value conservation, the fee floor and the exactness of the weight estimate must hold for every combination of coins, descriptors and amounts; the weight of the signed transaction is only known after signing.", "anchors": ["bdk_cli_lib/src/lib.rs: create_tx, planned_utxos, CoinSelectionAlgo", "bdk_coin_select/src/lib.rs: CoinSelector, CoinSelectorOpt", "bdk_tmp_plan/src/lib.rs: Plan"]}
{"id": "C62", "title": "The esplora scan is sound against any server and complete against an honest one", "statement": "With any esplora server, honest or not and changing at any moment, EsploraExt::scan never panics and an update it returns is a consistent chain graph with all transactions in full and no double spends; every position in it was given by the server, for that transaction, between the moment it named height and hash of its tip and the moment it confirmed the update's highest block; reported last active indices belong to scripts the server listed transactions for. As long as the server's height is never below a wallet checkpoint, the update ends at the tip the server named and the wallet never refuses it for not connecting. Against a server that does not change the scan finishes in one pass and finds exactly the transactions of all scripts up to the stop gap (paging loses none), of the requested txids, and those containing or spending the requested outpoints, each at its position. A script is scanned if no stop_gap consecutive scripts before it are unused, whatever the number of parallel requests. If the chain is replaced once, after the lookups, the scan looks up again everything it had found and reports it exactly as the new chain has it. scan_without_keychain finds exactly the transactions of all its scripts, txids and outpoints, whatever gaps there are. (Found: the number of parallel requests changes what is found beyond that; a transaction that replaces a confirmed one in a reorganisation during the scan is lost although the comments say it is dealt with; a wallet ahead of the server cannot scan at all.)", "quantifier": "all servers (answers may change between any two requests, threads of a batch interleave arbitrarily), wallets' checkpoints, keychains and scripts, txids, outpoints, stop gaps, numbers of parallel requests and hash iteration orders", "why_tests_cant": "The server is remote, its answers can change between any two requests, and the requests of a batch are made by concurrent threads; panics sit behind expect/unreachable!/unwrap that only particular interleavings of a reorganisation could reach; completeness is about all histories and page boundaries.", "anchors": ["bdk_esplora/src/lib.rs: EsploraExt::scan, scan_without_keychain, map_confirmation_time", "bdk_chain/src/chain_graph.rs: insert_tx, insert_checkpoint"]}
{"id": "C63", "title": "Scan and Sync of the esplora example wallet show the money that exists", "statement": "Against an honest esplora server, the Scan and Sync commands of bdk_esplora_example always succeed for a wallet whose confirmed transactions are right up to its first stale block: no panic, the update is accepted, the wallet's tip becomes the server's, every block it has is of the best chain, and everything it has as confirmed is confirmed there at that position. Scan finds every transaction of the scripts up to the stop gap and reveals those scripts; an output that pays such a script is shown as unspent exactly if nothing in the world (and no transaction only the wallet knows) spends it; a wallet restored from its descriptors shows exactly the unspent outputs of the scripts that are asked for. Sync asks for exactly what its flags say, refreshes unconfirmed transactions and unspent outputs, and two Syncs in a row bring every transaction the server knows to the server's position. Over any life of commands, addresses asked for, transactions sent and a chain that grows or is reorganised (as long as the wallet has a block between the fork and what it had confirmed), commands never fail. (Found: an output whose script was stored only after its transaction arrived is never shown, by no Scan or Sync; a transaction dropped from the mempool stays for ever; a reorganisation deeper than the spacing of the wallet's blocks leaves vanished transactions confirmed, and if one was replaced every later Sync fails; one Sync after a reorganisation is not enough.)", "quantifier": "all wallets reachable through the API that are right up to their first stale block, all honest servers and worlds (any transactions, any reorganisation), all flags, stop gaps, numbers of parallel requests, hash iteration orders, and all lives (sequences of commands and owner's calls) of a wallet", "why_tests_cant": "It is a statement about the whole stack (scripts asked for, server scan, update, conflict resolution, index) for every state of the block chain and every history of the wallet; tests fix one chain.", "anchors": ["bdk_esplora_example/src/main.rs: main (Scan, Sync)", "bdk_electrum_example/src/main.rs: main (flags, requests)", "bdk_chain/src/keychain/tracker.rs: apply_update", "bdk_chain/src/keychain/txout_index.rs: spks_of_all_keychains", "bdk_chain/src/keychain.rs: From<ChainGraph> for KeychainScan"]}
{"id": "C64", "title": "Scan and Sync of the electrum example wallet show the money that exists", "statement": "Against an honest electrum server, the Scan command of bdk_electrum_example always succeeds for a wallet whose confirmed transactions are right up to its first stale block; Sync succeeds exactly if the server knows the transactions of all outputs the wallet shows as unspent (or they are not asked for). After a successful command the wallet's tip is the server's, every block it has is of the best chain, and everything it has as confirmed is confirmed there at that height. Scan finds every transaction in the histories of the scripts up to the stop gap, in full, and reveals those scripts; an output paying such a script is shown as unspent exactly if nothing the server knows (and no transaction only the wallet knows) spends it; a wallet restored from its descriptors shows exactly the unspent outputs of the scripts asked for. Sync refreshes the height of unconfirmed transactions and unspent outputs; two in a row bring every transaction the server knows to the server's height. Over any life of commands, addresses asked for, transactions sent and a chain that grows or is reorganised (as long as the wallet has a block between the fork and what it had confirmed) this goes on to hold. (Found: with any server, a transaction dropped from the mempool makes every Sync that asks for unspent outputs fail, while Scan succeeds.)", "quantifier": "all wallets reachable through the API that are right up to their first stale block, all honest servers (any view of the chain and mempool, any history listings with heights 0/-1 for unconfirmed), all flags, stop gaps, batch sizes above 0, hash iteration orders and all lives of a wallet; the failure of Sync for all servers whatsoever", "why_tests_cant": "It is a statement about the whole stack (scripts asked for, server scan, fetching the missing transactions, update, conflict resolution, index) for every state of the block chain and every history of the wallet; tests fix one chain.", "anchors": ["bdk_electrum_example/src/main.rs: main (Scan, Sync, batch_transaction_get)", "bdk_electrum/src/lib.rs: ElectrumExt::scan, ElectrumUpdate::missing_full_txs, into_keychain_scan", "bdk_chain/src/keychain/tracker.rs: apply_update", "bdk_chain/src/keychain/txout_index.rs: spks_of_all_keychains"]}
{"id": "C65", "title": "No server can break a wallet of the examples; what a lying server can do", "statement": "Whatever a server answers (lies, contradictions, a different chain with every answer), the Scan and Sync commands of both example wallets never panic; a refused update leaves the wallet exactly as it was; after an accepted one every position of a transaction in the wallet was reported by the server in this command, or is the old one, or is 'unconfirmed' in place of a confirmation at or above a block of the wallet that has left it; the full transactions the wallet has seen, the number of revealed addresses of every keychain and the descriptors are never lost; and the wallet stays in working order, so all this holds over any sequence of commands with any servers mixed with the owner's calls. (Found: a server that lies once about the height of its tip locks the wallet out: as long as the honest chain is shorter than the invented block, every Scan and Sync with an honest server fails. A transaction invented once as confirmed in a real block stays confirmed and is shown as money after a Sync with an honest server, and if the honest chain has a transaction that spends the same coin, Sync is refused.)", "quantifier": "all wallets in working order (reachable through the API, derivable scripts that do not collide, room for indices), all servers as functions of time whose tip height is below u32::MAX (and, with electrum, transactions with at least one output), all flags, stop gaps, batch sizes, numbers of rounds, hash iteration orders, and all lives; the lockout for all honest servers", "why_tests_cant": "Tests run against one well-behaved server; here every sequence of answers of an adversary and every history of the wallet is covered.", "anchors": ["bdk_esplora_example/src/main.rs: main (Scan, Sync)", "bdk_electrum_example/src/main.rs: main (Scan, Sync)", "bdk_esplora/src/lib.rs: EsploraExt::scan", "bdk_electrum/src/lib.rs: ElectrumExt::scan, prepare_update", "bdk_chain/src/sparse_chain.rs: determine_changeset", "bdk_chain/src/chain_graph.rs: apply_update", "bdk_chain/src/keychain/tracker.rs: apply_update"]}
{"id": "C66", "title": "Fees computed in single precision: how far from the exact fee", "statement": "The fee due for a weight at a rate is their f32 product rounded up to whole satoshis. For weights and fees up to 2^24 it is never above the exact product rounded up and never more than one satoshi below it; for all sizes it is the exact product to within one part in 2^22 and a satoshi; at rates k/2^j with k times the weight at most 2^24 it is exact; it grows with the weight and with the rate. A change output therefore costs the exact fee or one satoshi less, and the reported feerate is the rounded quotient, at least the target whenever the fee pays it in full. (Found: at 1.08 sat/vB a transaction of weight 1000 pays less than the target rate; branch and bound can return a selection that finish refuses for want of one satoshi.)", "quantifier": "all weights, all f32 rates, all selections", "why_tests_cant": "rounding errors depend on every bit of the rate and the weight; a test checks a few products", "anchors": ["bdk_coin_select/src/coin_selector.rs: WeightedValue::effective_value, CoinSelector::finish, effective_target, selected_waste, CoinSelectorOpt::drain_waste, ExcessStrategy::feerate", "bdk_coin_select/src/bnb.rs: coin_select_bnb"]}
{"id": "C67", "title": "Amounts on machine integers: exact while they fit, and what happens when they do not", "statement": "calculate_fee, sent_and_received, net_value, balance, balance_at and the sums of Balance, in a debug build (overflow panics) and in a release build (overflow wraps): any fee or net value returned fits in an i64 and differs from the exact one by a multiple of 2^64, so it is exact if that fits; a release build always answers; in either build calculate_fee gives the exact answer if the spent and the created outputs add up to less than 2^63 satoshis. sent_and_received, balance and balance_at are, in a release build, the exact sums modulo 2^64, category by category; a debug build panics on sums of 2^64 or more and is otherwise exact. (Found: for a transaction creating 2^64-1 satoshis calculate_fee reports a small positive fee instead of a negative one, and balance panics or reports zero after one unconfirmed transaction with absurd amounts.)", "quantifier": "all graphs, indexes, trackers and transactions with u64 amounts; both builds", "why_tests_cant": "the behaviour depends on the sizes of all amounts at once and on the build profile; tests run in one profile with small amounts", "anchors": ["bdk_chain/src/tx_graph.rs: TxGraph::calculate_fee", "bdk_chain/src/spk_txout_index.rs: sent_and_received, net_value", "bdk_chain/src/keychain/tracker.rs: balance, balance_at", "bdk_chain/src/keychain.rs: Balance"]}
{"id": "C68", "title": "Coin selection on machine integers: no overflow for anything a wallet can hold", "statement": "If the rates are between 0 and 2^20 satoshis per weight unit, all weights together stay below 2^32 and all amounts together below 2^60 satoshis (all bitcoins are less than 2^51), then in a debug and in a release build every quantity a selector reports is the exact one, finish, select_until_finished and coin_select_bnb return exactly what they return on unbounded integers: no sum overflows, no cast saturates, no score reaches i64::MAX. Where finish has no way to use the excess a debug build panics and a release build returns a selection without strategies, on which best_strategy panics. Whatever the sizes, a debug build reports the exact value and weight of the selected coins or panics, a release build reports them modulo 2^64 and 2^32. (Found: beyond the bounds a release build accepts a selection that does not suffice, with a fee of 0.)", "quantifier": "all selectors, candidates, options, sorts and round limits within the bounds; both builds", "why_tests_cant": "whether some intermediate sum of a search over exponentially many subsets overflows depends on all amounts, weights and rates", "anchors": ["bdk_coin_select/src/coin_selector.rs: CoinSelector::finish, select_until_finished, selected_effective_value, current_weight, effective_target, selected_waste", "bdk_coin_select/src/bnb.rs: Bnb, BnbIter, coin_select_bnb"]}
{"id": "C69", "title": "The example programs never forget a shown address or a change script, over any sequence of runs and crashes", "statement": "Over any number of runs of an example program on one database file, each of which may end normally, with an error, with a panic, or by dying at any point (also in the middle of a write to the file), a later start is not refused once anything was shown or broadcast, and if it comes up, it has revealed and watches every address that was ever shown and the script of every change output of every transaction that was ever handed to the network. The changesets found in the file at first and all those whose write succeeded stay in it, in order. Without two interrupted writes in a row, nothing else is ever read from the file, and if the servers only name indices that can be derived and the descriptors never derive a script twice, every start succeeds. After a command that ends normally with its writes done, the next start has the same chain and graph, and the same index but for reservation marks unless it was a Send without change. (Found: a program that dies while it creates the file leaves one that every later run refuses, for ever.)", "quantifier": "all histories: all numbers of runs, commands, scans received, outcomes of broadcasts, faults and crash points including every byte of a write; all descriptors and encodings that can be read back", "why_tests_cant": "crash points inside writes, combined over several runs, cannot be enumerated", "anchors": ["bdk_cli_lib/src/lib.rs: init, handle_commands, run_address_cmd, Commands::Send", "bdk_electrum_example/src/main.rs: main", "bdk_esplora_example/src/main.rs: main", "bdk_file_store/src/file_store.rs: KeychainStore::new_from_path, load_into_keychain_tracker, append_changeset"]}
{"id": "C70", "title": "Several stores or programs on one database file: what reading again guarantees, and what is lost without it", "statement": "Any number of stores may be open on one database file, with calls to open, read and append interleaved in any order. If every store appends only after it has read the file to its end with no append of another store since, then no call fails, a reading gives exactly what was in the file plus everything all of the stores have appended so far, in order, and so does the file at the end; also when a store was opened by a process that had not found the file yet. (Found: the file is not locked, and nothing detects a store that has not read again: its next append returns Ok, but destroys every changeset the others have appended since, which they had been told are written. Consequently a program that was started before some others and writes after them leaves the file as if those had never run, and an address which one of them had shown to the user is not known to later runs.)", "quantifier": "all interleavings of calls of any number of stores, all changesets, all files; for the programs, all histories of runs (with faults and crashes) during the run of another one, and all its commands", "why_tests_cant": "the interleavings of several stores cannot be enumerated, and a loss shows only in later runs", "anchors": ["bdk_file_store/src/file_store.rs: KeychainStore::new_from_path, KeychainStore::new, iter_changesets, append_changeset", "bdk_cli_lib/src/lib.rs: init, handle_commands"]}
{"id": "C71", "title": "Derivation indices and heights on machine integers: debug and release builds", "statement": "Any sequence of calls of the keychain index that a debug build completes gives the same states, additions and returned scripts in a release build. In both builds, after any history, overflowing or not, a stored script is the one its keychain's descriptor derives at its index, a script is found exactly where it is stored, and the first keychain that stores a script owns it forever. In a release build revealing and looking ahead panic for unknown keychains only and scanning never; revealing is exact while the sums with the lookahead are below 2^32. The same refinement holds of any calls on a keychain tracker and of loading its log; a release build applies every changeset, whatever it contains, unless it names an unknown keychain, and takes in any scan that names its keychains only. The height arithmetic of an update never overflows and that of pruning only for limit 0 and a checkpoint at u32::MAX. (Found: an update whose scan reports a last active index close to 2^32 makes a debug build panic, and a release build accepts it, reports the index in the changeset and reveals nothing; with a lookahead, reveal_to_target with a huge target, documented as best effort, panics in a debug build and silently reveals nothing in a release build; a lookahead that does not fit is accepted by a release build and makes the next reveal panic; with two keychains that derive a common script, the second reports it as revealed but never stores it, and revealing it as the next script panics; with limit 0 and a checkpoint at u32::MAX a release build prunes nothing.)", "quantifier": "both build profiles, all sequences of calls on an index or a tracker, all lookaheads and targets, all descriptors (derivable or not, sharing scripts or not), all chains with u32 heights", "why_tests_cant": "overflows need arguments near 2^32 and tests run in one profile only; that the two profiles agree is a statement about all histories", "anchors": ["bdk_chain/src/keychain/txout_index.rs: reveal_to_target, replenish_lookahead, set_lookahead, lookahead_to_target, reveal_next_spk, next_unused_spk, scan", "bdk_chain/src/sparse_chain.rs: determine_changeset, prune_checkpoints"]}
{"id": "C72", "title": "What the printing commands of the example wallets report", "statement": "Balance prints exactly the value of the unspent wallet outputs that are in a block and the value of the other unspent wallet outputs, whatever the hash order; a debug build panics when a sum exceeds u64, a release build prints it modulo 2^64. In terms of KeychainTracker::balance these are confirmed + immature and trusted + untrusted pending. Txout list prints one line for each wallet output that the flags ask for, each once, with its index, value, outpoint, address and spender, and its unspent lines add up to what Balance prints; it panics exactly at the first listed output whose script has no address. Address list prints exactly the revealed scripts of the asked keychain in order with their used flag, Address index the last revealed index of each keychain; an address that was ever shown by a program that loses nothing is listed. (Found: 'confirmed' includes immature coinbase outputs that cannot be spent.)", "quantifier": "all reachable trackers, all hash orders, all combinations of flags, all address encodings, both build profiles, all lossless histories of program runs", "why_tests_cant": "the examples have no tests; that nothing is listed twice or left out and that the sums agree is a claim about every wallet and every hash order", "anchors": ["bdk_cli_lib/src/lib.rs: run_balance_cmd, run_txo_cmd, run_address_cmd", "bdk_chain/src/keychain/txout_index.rs: revealed_spks_of_keychain, last_revealed_indices", "bdk_chain/src/keychain/tracker.rs: full_txouts, full_utxos"]}
{"id": "C73", "title": "Recording a transaction moves exactly its value", "statement": "After KeychainTracker::insert_tx succeeds, the unspent outputs are: the new outputs recorded for the wallet and the earlier wallet outputs whose transaction was not displaced, each unless the transaction spends it or some transaction that was not displaced does (so the coins of a replaced transaction come back). Without conflicts the value of the unspent outputs (the total of balance) changes by exactly the value of the outputs it creates for the wallet minus the value of the wallet outputs it spends. Recording a transaction that is already in the chain (a confirmation) changes neither the unspent outputs nor their value. For a transaction not seen before whose inputs the wallet knows only as unspent outputs the change is what sent_and_received and net_value report; for a payment from the wallet the fee is known and the change is minus the fee minus the outputs to others. For a whole KeychainTracker::apply_update: an output is unspent afterwards iff its transaction is in the wallet or the update and not displaced, no such surviving transaction spends it, and it was an output of the wallet before or is a recorded output of a transaction the update brings; if nothing is displaced the value changes by exactly the unspent outputs of the transactions the update brings minus the wallet's outputs they spend; an update that brings no transaction the wallet does not have (confirmations, reorgs, new blocks) changes neither the unspent outputs nor their value. Every output to a known script of a transaction the update brings is recorded.", "quantifier": "all reachable trackers, all transactions and positions, all hash orders, with or without replaced transactions", "why_tests_cant": "it relates four components (index, chain, graph, balance) over every history that can lead to a wallet, every set of conflicts and descendants and every iteration order", "anchors": ["bdk_chain/src/keychain/tracker.rs: insert_tx, full_utxos, balance", "bdk_chain/src/spk_txout_index.rs: sent_and_received, net_value", "bdk_chain/src/tx_graph.rs: calculate_fee", "bdk_chain/src/chain_graph.rs: insert_tx, fix_conflicts"]}
{"id": "C74", "title": "Two parties that exchange their states agree", "statement": "Suppose a chain (or chain graph) a accepts the state b of another party as an update and becomes a'. Then b accepts a' as an update, whatever hash order is used. For sparse chains both now hold exactly the same chain. For chain graphs b' has exactly the blocks of a', every transaction of a' at its position in a', and otherwise keeps only its own transactions that a evicted; both chains are the same iff a evicted nothing of b, which holds whenever b has the parents of the transactions they share; in every case a' then accepts b' and after that third exchange both chains are the same. Both graphs know the same transactions (up to witness data) and the same outputs, and are the same value if they started with the same versions of what they share. An orphan that only b keeps shows that one exchange is not enough without the condition.", "quantifier": "all reachable chains and chain graphs without a checkpoint limit and with heights below u32::MAX, all hash orders of all three updates", "why_tests_cant": "it ranges over every pair of histories, every set of conflicts between them and every iteration order of three updates", "anchors": ["bdk_chain/src/chain_graph.rs: apply_update, determine_changeset, fix_conflicts", "bdk_chain/src/sparse_chain.rs: apply_update, determine_changeset", "bdk_chain/src/tx_graph.rs: apply_update"]}
{"id": "C75", "title": "The order of insertions matters only for acceptance", "statement": "A caller inserts blocks and positioned transactions one at a time (insert_checkpoint, insert_tx) and stops at the first refusal. If the things inserted do not contradict each other (one block per height, one position per transaction) and all are accepted, then every block is at its height, every transaction at its position and nothing else has changed; so two callers that insert the same things in any order, with any repetitions and any hash orders, and are not refused, hold exactly the same chain. There is an accepted order iff no block contradicts the tip unless a higher block comes along, every confirmed transaction has a block at or above its height, and no transaction is already confirmed elsewhere; and then inserting the blocks from the highest down followed by the transactions in any order is accepted. The same holds of chain graphs for transactions that spend different outputs from each other and from those in the chain: nothing is displaced, every transaction is stored in full, and the resulting values are equal. Some orders are refused although others are not, contradicting insertions or conflicting spends make the last one win. With a checkpoint limit of at least one the same calls are accepted as without, and the result is that of the chain without the limit cut down to its newest blocks, so all of this holds there too; with a limit of zero no order of a block and a transaction confirmed in it is accepted.", "quantifier": "all chains and reachable chain graphs with or without a checkpoint limit of at least one and with heights below u32::MAX, all lists of insertions and all their orders, all hash orders", "why_tests_cant": "it ranges over every list of insertions and every permutation of it", "anchors": ["bdk_chain/src/sparse_chain.rs: insert_tx, insert_tx_preview, insert_checkpoint, insert_checkpoint_preview", "bdk_chain/src/chain_graph.rs: insert_tx, insert_checkpoint", "bdk_chain/src/tx_graph.rs: insert_tx"]}
{"id": "C76", "title": "Coin selection at every f32 fee rate", "statement": "The fee rates are any f32, infinities, NaN and negative numbers included, and a product too large for an f32 is infinite. (1) The arithmetic rounds to an infinity exactly from 2^128 - 2^103 on and otherwise to the nearest f32. (2) At finite rates that are not negative infinite intermediate results change nothing: finish, select_until_finished and coin_select_bnb return, in debug and release builds and at every size, what the model with rational rates returns, so within the bounds of C68 they return what C45 to C48 say. (3) In a debug build, at every rate and every size, each way to use the excess that finish offers balances to the satoshi, pays the specified fee for its exact weight and at least min_absolute_fee, gives the recipient what it is due and the change at least its minimum, and an error states exactly by how much which demand is missed. (4) Findings: a NaN rate is treated as a rate of 0 (and the long-term rate ignored), a negative rate asks for no fee, and a release build at an infinite rate accepts any coins that would do without fees, while a debug build panics or refuses unless nothing is sent and the coins are worth u64::MAX.", "quantifier": "all f32 rates (finite, infinite, NaN), all options, candidates and selections in range, both builds, all sort orders and round limits", "why_tests_cant": "it ranges over every f32, every set of coins and every overflow of the products and sums", "anchors": ["bdk_coin_select/src/coin_selector.rs: effective_value, drain_waste, selected_waste, finish, select_until_finished", "bdk_coin_select/src/bnb.rs: coin_select_bnb"]}
{"id": "C77", "title": "Two devices of one wallet that exchange their states agree", "statement": "Two trackers of the same keychains exchange states: each applies an update made of the other's chain graph and revealed indices. Suppose each has recorded exactly those outputs it has seen that pay a script of the keychains. (1) A script that received an output is revealed, after any calls. (2) The exchange succeeds whenever the first chain accepts the second, and then the second accepts the answer. (3) Afterwards both have revealed as many scripts of every keychain as the device that had revealed more, have recorded the same outputs, exactly those either had recorded, and their records are exact again; their lookaheads may differ. (4) With the same versions of common transactions and shared parents both hold the same chain and graph and report the same outputs, unspent outputs and balances (by trust or by height) after one exchange, without shared parents after a third message. (5) Records stay exact under insert_tx, revealing and reserving, and every update that tells how far its scripts go. (6) Finding: a device that saw a payment before it derived the script stays without the output, although the exchange reveals the script and the other device has the output.", "quantifier": "all pairs of reachable trackers with the same keychains, no checkpoint limit and room below the numeric limits, all lookaheads, all hash iteration orders", "why_tests_cant": "it ranges over every pair of histories of two devices, every chain, graph, reveal depth and lookahead", "anchors": ["bdk_chain/src/keychain/tracker.rs: KeychainTracker::{apply_update,determine_changeset,apply_changeset}", "bdk_chain/src/keychain/txout_index.rs: KeychainTxOutIndex::{scan,reveal_to_target_multi}", "bdk_chain/src/spk_txout_index.rs: SpkTxOutIndex::scan", "bdk_chain/src/chain_graph.rs: ChainGraph::apply_update", "bdk_chain/src/keychain.rs: KeychainScan"]}
{"id": "C78", "title": "A checkpoint limit changes nothing until a reorganisation goes deeper than what is remembered", "statement": "Compare a wallet with a checkpoint limit n >= 1 with the same wallet without one. (1) Setting the limit forgets old checkpoints only: transactions, their positions and the tip stay. (2) As long as every update is within reach (it has no checkpoints, or nothing was forgotten yet, or it shares with the limited wallet a checkpoint above which nothing was forgotten), every call (updates, insert_tx, insert_checkpoint, revealing, reserving, marking) in any history panics, fails (with the same error) or succeeds in both alike and reports changesets that differ in checkpoints only; both wallets then hold the same transactions at the same positions, the same tip, graph and script index, and report the same outputs, unspent outputs and balances. (3) After an update nothing is forgotten from the oldest checkpoint on that the limited wallet still has in the range where nothing had been forgotten. (4) Findings: an update that shares only a forgotten checkpoint is refused by the limited wallet though the other takes it, and a reorganisation deeper than what is remembered can be accepted by the limited wallet while a transaction it displaced stays confirmed.", "quantifier": "all trackers, limits n >= 1, histories of calls, heights up to u32::MAX, hash iteration orders", "why_tests_cant": "it compares two runs over every history of calls and every shape of chain and update", "anchors": ["bdk_chain/src/sparse_chain.rs: SparseChain::{set_checkpoint_limit,prune_checkpoints,determine_changeset,apply_changeset,insert_tx_preview,insert_checkpoint_preview}", "bdk_chain/src/chain_graph.rs: ChainGraph::{determine_changeset,fix_conflicts}", "bdk_chain/src/keychain/tracker.rs: KeychainTracker::{set_checkpoint_limit,apply_update,insert_tx,insert_checkpoint,full_utxos,balance}"]}
{"id": "C79", "title": "A wallet of an example program lives on its file, with honest servers, restarts and crashes", "statement": "Let a wallet of the esplora or electrum example start without a file and then go through any sequence of program runs: a run that dies while it creates the file, a start that goes no further, address / print / send commands, and Scan / Sync commands answered by an honest server that shows a later moment of one world (including reorganisations that leave a checkpoint of the wallet at or below what they displace). Any run may die between or inside of its writes, and writes may fail (but not the first write of a run that has just found a torn entry). Then (1) the program always starts again, unless its very first run died within the first 12 bytes; (2) the wallet it starts with has only blocks of the best chain of the moment of the last command that is in the file, and every transaction it has as confirmed is confirmed there at that position; (3) the next Scan or Sync against an honest server succeeds (electrum Sync: iff asked for it the server knows the unspent outputs) and does exactly what it does to a wallet that has never been restarted; (4) a Scan or Sync is atomic: wherever it dies, the next start has exactly the wallet before it or exactly the wallet after it, and after it if it ended; (5) without a file, after one Scan the next start shows exactly the unspent outputs of the scripts that were asked for.", "quantifier": "all histories of runs, crash points (byte positions) and write failures, honest servers, worlds, scan parameters, hash iteration orders, descriptors with distinct scripts, checkpoint limits", "why_tests_cant": "it ranges over every sequence of commands, every crash point in the file and every evolution of the world; a test covers single runs", "anchors": ["bdk_cli_lib/src/lib.rs: init, handle_commands", "bdk_esplora_example/src/main.rs: main", "bdk_electrum_example/src/main.rs: main", "bdk_file_store/src/file_store.rs: KeychainStore::new_from_path, load_into_keychain_tracker, append_changeset", "bdk_chain/src/keychain/tracker.rs: apply_update, apply_changeset"]}
{"id": "C80", "title": "Only transactions move money: no other call changes the reported outputs", "statement": "(1) No call of the keychain index other than scanning (adding a keychain, storing lookahead scripts, revealing scripts, reserving the next unused script, marking and unmarking scripts as used), nor any sequence of them, changes what full_txouts, full_utxos, balance or balance_at report. (2) insert_checkpoint never panics; it changes no reported output, whether it succeeds or not; with a checkpoint limit other than 0 the pending amounts of balance stay, immature can only shrink, and what leaves it goes to confirmed. (3) set_checkpoint_limit changes no reported output, and not the balance unless the limit is 0. (4) apply_update, insert_tx and insert_checkpoint leave the tracker exactly as it was when they return an error. (5) Any history of calls without insert_tx and apply_update leaves the reported outputs as they were.", "quantifier": "all reachable trackers whose heights are within u32, all keychains, descriptors, calls and histories of calls, blocks, limits, hash iteration orders, trust predicates", "why_tests_cant": "it ranges over all trackers and all sequences of calls; a test shows single calls on one wallet", "anchors": ["bdk_chain/src/keychain/txout_index.rs: add_keychain, store_up_to, reveal_to_target, next_unused, mark_used, unmark_used", "bdk_chain/src/keychain/tracker.rs: full_txouts, full_utxos, balance, balance_at, insert_checkpoint, insert_tx, apply_update", "bdk_chain/src/sparse_chain.rs: set_checkpoint_limit, insert_checkpoint, prune_checkpoints"]}
{"id": "C81", "title": "Scanning until nothing new is revealed finds everything that can be found, in any order", "statement": "Let the closure be the scripts that are stored in a KeychainTxOutIndex, plus, for every output of a given set that pays to a script of the closure, the scripts up to the lookahead past it. (1) However outputs of the set are scanned (any order, any pieces, repetitions), only scripts of the closure come to be stored, only outputs that pay to them are recorded (under the right keychain and index), and only scripts that an output pays to are newly revealed. (2) Once a scan of the whole set returns empty additions, the stored scripts are exactly the closure, and every output that pays to one of them is recorded at a revealed index. (3) So two users who scan the same set in different orders, each until the additions are empty, have the same scripts, outputs and revealed indices. (4) No scan panics (distinct scripts, lookahead up to 2^31), and at most as many scans as there are outputs return something. (5) One scan alone is not enough: its result depends on the order, and a wallet into which the same transactions are inserted in another order can show another balance; scanning the outputs of its graph again until nothing is revealed makes full_txouts list every output in the chain that pays to the closure.", "quantifier": "all reachable indices and wallets, descriptors, lookaheads, sets of outputs with one output per outpoint, orders and partitions of scans", "why_tests_cant": "it ranges over all orders and repetitions of scans; a test shows one order", "anchors": ["bdk_chain/src/keychain/txout_index.rs: scan, scan_txout, reveal_to_target, replenish_lookahead", "bdk_chain/src/spk_txout_index.rs: scan_txout", "bdk_chain/src/tx_graph.rs: all_txouts", "bdk_chain/src/keychain/tracker.rs: insert_tx, apply_changeset, full_txouts"]}
{"id": "C82", "title": "The transaction history adds up to the balance", "statement": "In every wallet whose records are complete (what is recorded for an output of a transaction of the chain is that output; every output of a transaction of the chain to a known script is recorded; a recorded output spent by a transaction of the chain belongs to a transaction of the chain; no transaction names an input twice), the value of the unspent outputs (the total of balance) is the sum over transactions_in_chain of what sent_and_received reports as received minus what it reports as sent, i.e. of net_value. Inserting a transaction not seen before, without conflicts and whose recorded inputs belong to the chain, keeps the records complete; scanning the outputs of the graph until nothing new is revealed makes them complete. The conditions are needed: after an unconfirmed parent was evicted and its child accepted, or after a script was revealed late, the history and the balance differ.", "quantifier": "all reachable trackers with any number of transactions, in any order, all hash orders", "why_tests_cant": "the sum runs over histories of any length with any pattern of spends; a test covers one", "anchors": ["bdk_chain/src/spk_txout_index.rs#SpkTxOutIndex::sent_and_received", "bdk_chain/src/spk_txout_index.rs#SpkTxOutIndex::net_value", "bdk_chain/src/chain_graph.rs#ChainGraph::transactions_in_chain", "bdk_chain/src/keychain/tracker.rs#KeychainTracker::full_utxos", "bdk_chain/src/keychain/tracker.rs#KeychainTracker::balance"]}
{"id": "C83", "title": "Appends that overlap in time never harm what was stored before; apart from that, two different ones may be mixed up", "statement": "Let several stores be open on one file and at or behind its end, and let the system calls of their appends (the writes of the encoder, in whatever pieces, and the final truncation) and of further readings come in any order, each store stopping at any call. Then everything the file held before can be read at the beginning of what it holds now. If they are all exactly at the end, then without further readings every byte behind the former end is one that some store wrote for exactly this place, or zero. If no call of another store comes in between, the calls do what append_changeset of C70 does, and a store that stops between them leaves the file of a crash in append_changeset. If all stores at the end append the same changeset, then from the moment one of them is done the file holds it, exactly once. Two different changesets that both are appended successfully can however leave a changeset that nobody wrote, or a file from which neither can be read.", "quantifier": "all encodings that are self-delimiting, all files, any number of stores, all divisions of the encodings into writes, all orders of the system calls, all points where a store stops", "why_tests_cant": "the number of interleavings grows exponentially, and a test does not control at which system call the scheduler switches", "anchors": ["bdk_file_store/src/file_store.rs#KeychainStore::append_changeset", "bdk_file_store/src/file_store.rs#KeychainStore::iter_changesets", "bdk_file_store/src/file_store.rs#KeychainStore::new_from_path"]}
{"id": "C84", "title": "Threads that share the tracker and the store never deadlock, and their critical sections never mix", "statement": "Any number of threads execute commands of the example programs (address, balance, txout, send, scan, sync) on one tracker and one store behind their mutexes. However their steps are interleaved, whatever the network answers and wherever a thread panics: as long as a thread is not done, some thread can go on; every command ends after a bounded number of steps, with every lock free; the tracker changes only by the thread that holds its lock, the database and the printed addresses only by a thread that holds both locks, and no request to the network is made while holding a lock. As long as no thread panicked inside a section, whenever no section is being executed the tracker, the writes, the printed addresses and the transactions handed to the network are those of some execution of the same program in which every section is one indivisible action, so everything proved of such executions holds of threads; and if the whole program is killed at any moment, a new start gives a state that such an execution can get into. If a thread did panic while it held the tracker, nothing behind the locks changes any more, and every thread that takes the lock panics. An address shown by a thread is the one the external descriptor derives at the index shown.", "quantifier": "all numbers of threads, all lists of commands for each of them, all interleavings of their steps, all answers of the network, all failures of writes, all points at which threads panic and at which the program is killed, all starting states of the program", "why_tests_cant": "the interleavings of threads cannot be enumerated and are not reproducible; a lock taken in another order or held over a request shows only under particular timing", "anchors": ["bdk_cli_lib/src/lib.rs#handle_commands", "bdk_cli_lib/src/lib.rs#run_address_cmd", "bdk_cli_lib/src/lib.rs#run_balance_cmd", "bdk_cli_lib/src/lib.rs#run_txo_cmd", "bdk_electrum_example/src/main.rs#main", "bdk_esplora_example/src/main.rs#main"]}

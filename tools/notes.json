{
 "C02": {
  "note": "The documented stronger rule (a displaced tx may not re-confirm below the reorg height) is refuted by C02_doc_move_below_reorg_not_enforced."
 },
 "C07": {
  "note": "C07_append_with_limit_fails refutes the law with a limit when the second changeset removes a block; C07_append_same_transactions and C07_append_only_adding are what holds with any limit."
 },
 "C13": {
  "note": "C13_doc_conflict_below_tip_accepted refutes the documented rule that any change of hash fails."
 },
 "C14": {
  "note": "C14_fails_for_invalidate and C14_fails_for_limit_zero show why invalidate_checkpoints and limit 0 are excluded."
 },
 "C17": {
  "note": "C17_false_txout_dropped: an output stored by insert_txout that the real transaction lacks or contradicts is superseded when the whole transaction arrives; C17_txout_kept excludes exactly that."
 },
 "C18": {
  "note": "Needs that equal txids mean equal transactions; C18_first_version_wins shows witness variants break commutativity."
 },
 "C19": {
  "note": "append law needs no two witness variants of one txid (C19_append_versions_differ); C19_doc_existing_outpoint_replaced refutes the documented emptiness for known outpoints."
 },
 "C22": {
  "note": "C22_doc_depth_not_distance: the depth argument is the length of the walked path, not the distance."
 },
 "C25": {
  "note": "C25_doc_conflicting_ancestors refutes the documented stronger form about ancestors."
 },
 "C30": {
  "note": "Needs each index given to one script only (C30_index_reuse_forgets shows why); C30_never_inserted_is_used documents the deviation of is_used."
 },
 "C32": {
  "note": "Needs one output per outpoint (C32_contradictory_outputs)."
 },
 "C33": {
  "note": "AllDerivable: descriptors derive every index up to the code's bound. C33_same_descriptor_panics: two keychains with one descriptor panic."
 },
 "C34": {
  "note": "C34_best_effort_fails refutes the documented best effort when the lookahead already reaches the last index."
 },
 "C36": {
  "note": "C36_lookahead_to_target_exact gives what lookahead_to_target really stores; C36_lookahead_to_target_misses refutes its documentation when lookahead is already stored."
 },
 "C38": {
  "note": "The code's constant is 2^30 (operator precedence). Revealed bound needs caller targets within it; C38_reveal_beyond_bound shows a panic otherwise."
 },
 "C39": {
  "note": "C39_limit_zero_panics: a checkpoint limit of 0 makes the balance panic; C39_late_reveal_not_counted: outputs inserted before their script was revealed and scanned are not counted. Sums are checked u64."
 },
 "C40": {
  "note": "C40_reorged_coinbase_panics: balance_at panics (debug assertion) on an unconfirmed coinbase; C40_panics_iff says exactly when."
 },
 "C55": {
  "note": "Replay of the emitted change sets one by one rebuilds the tracker up to mark_used flags, which are not in change sets. C55_append_loses_outputs refutes the documented equivalence for a merged change set. Keychains and lookahead fixed."
 },
 "C41": {
  "note": "C41_batches for an arbitrary backend; C41_file_store instantiates the file store. C43_retry_corrupts shows what the file store does to a commit retried after a failed write."
 },
 "C42": {
  "note": "For any lawful encoding; C42_bincode proves the model of bincode's format lawful. C42_wallet_survives joins C55 and the store. C42_doc_error_repeats refutes the documented behaviour of the iterator after an error."
 },
 "C43": {
  "note": "C43_phantom_entry, C43_retry_corrupts, C43_unread_append_loses document the limits, with proofs."
 },
 "C44": {
  "note": "C44_crash_in_create: a crash during creation leaves a file that cannot be opened."
 },
 "C45": {
  "note": "C45_panic_iff / C45_panic_reachable: the defect found (sweep with an absolute minimum fee). f32 arithmetic is modelled (C66); overflow of sums: C68; infinities and NaN: C76."
 },
 "C46": {
  "note": "C46_not_any: witness that a coin costing more than it is worth, listed first, makes it fail although a selection exists."
 },
 "C48": {
  "note": "Limits: C48_not_optimal (long term rate above target rate), C48_negative_coins_ignored (absolute minimum fee)."
 },
 "C49": {
  "note": "Server = an arbitrary time-indexed oracle; the retry loop of `scan` has a rounds bound with an explicit pending outcome."
 },
 "C50": {
  "note": "C50_reorg_loses_next_keychain and C50_reorg_loses_interrupted_keychain are the defects found: after a reorg the retry only covers scripts already taken from the iterators."
 },
 "C51": {
  "note": "Release build: debug_assert statements left out."
 },
 "C52": {
  "note": "Only taproot descriptors (all others are todo!() in the code). rust-miniscript / rust-bitcoin functions (script encoding, control block, key serialisation, signature check) are fields of `Lib` / `Ctx`; the witness is judged by an independent tapscript interpreter (Spec/Miniscript.lean) for the supported fragments. The exact statement is proved for plain leaves; the ways in which the unrestricted claim fails are separate theorems."
 },
 "C53": {
  "note": "Exact formula; the two underestimates are shown as theorems of their own."
 },
 "C56": {
  "note": "BIP32 is a structure `Spec.Secrets` whose only law is that deriving in two steps is deriving along the joined path."
 },
 "C57": {
  "note": "secp256k1 signing, tweaking and the sighash are fields of `Crypto`."
 },
 "C58": {
  "note": "All accessors of the chain, graph and chain graph not already covered by C04, C15, C20, C24, C27."
 },
 "C54": {
  "note": "Signatures and library functions are parameters; lock regions are atomic."
 },
 "C59": {
  "note": "An outpoint scanned several times with different outputs is listed under each index it matched; the recorded txout is the last (C30)."
 },
 "C60": {
  "note": "Weights are exact for 64-byte signatures and leaves without pk_h (PlainKeys); C53 shows pk_h is underestimated. The fee statements are for transactions of weight up to 2^24 (consensus allows 4 000 000): beyond, f32 rounds the weight. C60_spends_immature_coinbase: create_tx does not check coinbase maturity. C60_algo_option: the coin selection option accepts exactly the five printed names."
 },
 "C62": {
  "note": "Lean: Model/Esplora.lean, Spec/Esplora.lean, Props/Esplora.lean. Rounds of the unbounded loops (paging, starting over) are explicit parameters; running out of them is a separate outcome about which only the absence of panics is claimed, and for a server that does not change one pass and one page request per confirmed transaction suffice. C62_parallelism_matters, C62_reorg_loses_transaction and C62_behind_server_errors are findings."
 },
 "C63": {
  "note": "What the commands print is not modelled. The electrum example's flags and requests are the same definitions; its scan is covered by C49-C51 and C61."
 },
 "C64": {
  "note": "Servers that do not index some output scripts (OP_RETURN) do not satisfy `Mirrors.pays`; the server is taken not to change during one command (C49-C51 cover changing servers)."
 },
 "C65": {
  "note": "A tip at u32::MAX and electrum transactions without outputs (which make the code panic, C49/C51) are excluded by hypothesis."
 },
 "C47": {
  "note": "C66_bnb_one_short: a witness that finish can refuse the result for want of one satoshi, because f32 products are rounded part by part."
 },
 "C66": {
  "note": "C66_rounding: the model's rounding is the unique IEEE 754 binary32 round-to-nearest-even. C66_underpays and C66_bnb_one_short are findings with realistic rates."
 },
 "C67": {
  "note": "C67_fee_overflow and C67_balance_overflow are findings: amounts are never checked on insertion."
 },
 "C68": {
  "note": "C68_release_empty and C68_wraps are findings. Infinite and NaN rates: C76."
 },
 "C69": {
  "note": "C69_torn_creation is the finding (the magic bytes are written without a rename). C69_starts needs the absence of a double fault (Spec.CleanHistory): C43 shows that a torn write followed by another one can leave a phantom changeset. Argument and descriptor parsing and the network are outside of the model; what the server returns and the outcome of a broadcast are arbitrary."
 },
 "C70": {
  "note": "C70_reread and C70_results are the positive half, under the discipline of Spec.Disciplined; C70_stale, C70_same_place and C70_erased are universal statements of the loss, C70_forgotten_address is a concrete history of two programs in which C69_shown_known fails. Each call is one step here; C83 interleaves the system calls inside of appends.",
  "status": "proved"
 },
 "C71": {
  "note": "C71_debug ties the parametrised model to the one of C33-C38, C71_release_same and C71_release_same_returns lift those properties to release builds. C71_shared_script is the universal form of the shared script finding, C71_same_descriptor_release and C71_huge_lookahead are concrete histories.",
  "status": "proved"
 },
 "C72": {
  "note": "The content of the printed lines is modelled, their formatting is not; the address of a script is a parameter that may be missing. C72_confirmed_not_spendable is the finding.",
  "status": "proved"
 },
 "C73": {
  "note": "C73_unspent_after is the general form, with conflicts. The hypothesis of the net value theorems that no output pays a script derived only by this very call is needed: such an output is not recorded by a scan that reaches it first (C32). C73_update_unspent, C73_update_value and C73_update_no_news say the same of whole updates (apply_update), with any set of replaced transactions. C73_update_received: nothing paid to the wallet is missed.",
  "status": "proved"
 },
 "C74": {
  "note": "C74_chains_agree for sparse chains; C74_answer_accepted (the answer is always accepted, exact effect), C74_agree_iff, C74_nothing_evicted, C74_agree_after_three, C74_graphs_agree, C74_same_value for chain graphs; C74_orphan_survives is the counterexample that shows the condition on parents is needed for agreement after one exchange.",
  "status": "proved"
 },
 "C75": {
  "note": "C75_result, C75_order, C75_acceptable_iff and C75_blocks_first for sparse chains; C75_graph_result, C75_graph_order, C75_graph_blocks_first for chain graphs; C75_some_orders_refused, C75_incoherent_last_wins and C75_conflicts_last_wins show that the hypotheses are needed; C75_with_limit, C75_order_any_limit, C75_result_limit, C75_blocks_first_any_limit, C75_acceptable_any_limit, C75_graph_order_any_limit, C75_graph_blocks_first_any_limit with a checkpoint limit, C75_limit_zero for the limit zero",
  "status": "proved"
 },
 "C76": {
  "note": "Model/Ieee has the f32 operations on finite values, infinities and NaN (the two zeros are one value); Model/IeeeSelect the selector on them. Released-build soundness at infinite rates fails (C76_infinite_release); that is the behaviour of the code.",
  "status": "proved"
 },
 "C77": {
  "note": "C77_late_misses is the finding. The two devices without a checkpoint limit; exactness of the records is a hypothesis that C77_update_exact, C77_insert_tx_exact and C77_reveal_exact maintain from the empty wallet on."
 },
 "C78": {
  "note": "C78_deep_reorg and C78_refuses are the findings; WithinReach is stated on checkpoint_at of the two chains."
 },
 "C79": {
  "note": "Composition of C63/C64 (what Scan and Sync do against an honest server) with C69 (runs of the program on the bytes of the file). The server's honesty, and that it is not behind the wallet, are hypotheses (Later / Follows), as in C63/C64; what the program does with other servers is C65.",
  "status": "proved"
 },
 "C80": {
  "note": "Adding a keychain after transactions have been scanned reports nothing new by itself: the transactions have to be scanned again (C32).",
  "status": "proved"
 },
 "C81": {
  "note": "C81_one_scan_depends_on_order and C81_insertion_order_changes_balance are the findings that make the repeated scan necessary (compare C55_append_loses_outputs).",
  "status": "proved"
 },
 "C82": {
  "note": "C82_evicted_parent and C82_late_reveal are the findings. The records can also be made untrue by scanning invented outputs into the public txout_index.",
  "status": "proved"
 },
 "C83": {
  "note": "C83_mixed and C83_lost_both are concrete schedules with the bincode encoding of the examples' changesets."
 },
 "C84": {
  "note": "C84_no_deadlock, C84_finishes, C84_all_done, C84_protected about every interleaving; C84_atomic and C84_as_C54: every state between sections is one that the program of C54 gets into with its sections as single steps; C84_poisoned_frozen: one panic under the lock disables everything after it.",
  "status": "proved"
 }
}
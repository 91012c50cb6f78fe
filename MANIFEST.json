{
 "claims": [
  {
   "property": "C01",
   "status": "proved",
   "theorems": [
    "Verif.Props.C01_not_connected_iff",
    "Verif.Props.C01_empty_accepts_all"
   ],
   "note": ""
  },
  {
   "property": "C02",
   "status": "proved",
   "theorems": [
    "Verif.Props.C02_inconsistent_iff",
    "Verif.Props.C02_reported_is_real",
    "Verif.Props.C02_settled_kept",
    "Verif.Props.C02_doc_move_below_reorg_not_enforced"
   ],
   "note": "The documented stronger rule (a displaced tx may not re-confirm below the reorg height) is refuted by C02_doc_move_below_reorg_not_enforced."
  },
  {
   "property": "C03",
   "status": "proved",
   "theorems": [
    "Verif.Props.C03_checkpoints_with_limit",
    "Verif.Props.C03_checkpoints_after_update",
    "Verif.Props.C03_positions_after_update",
    "Verif.Props.C03_no_tx_lost"
   ],
   "note": ""
  },
  {
   "property": "C04",
   "status": "proved",
   "theorems": [
    "Verif.Props.C04_positions_agree",
    "Verif.Props.C04_positions_agree_from_checkpoints"
   ],
   "note": ""
  },
  {
   "property": "C05",
   "status": "proved",
   "theorems": [
    "Verif.Props.C05_apply_update",
    "Verif.Props.C05_insert",
    "Verif.Props.C05_preview"
   ],
   "note": ""
  },
  {
   "property": "C06",
   "status": "proved",
   "theorems": [
    "Verif.Props.C06_update_again_with_limit",
    "Verif.Props.C06_update_idempotent"
   ],
   "note": ""
  },
  {
   "property": "C07",
   "status": "proved",
   "theorems": [
    "Verif.Props.C07_append_same_transactions",
    "Verif.Props.C07_append_only_adding",
    "Verif.Props.C07_append_all_only_adding",
    "Verif.Props.C07_append_is_sequential",
    "Verif.Props.C07_append_all_is_sequential",
    "Verif.Props.C07_append_with_limit_fails"
   ],
   "note": "C07_append_with_limit_fails refutes the law with a limit when the second changeset removes a block; C07_append_same_transactions and C07_append_only_adding are what holds with any limit."
  },
  {
   "property": "C08",
   "status": "proved",
   "theorems": [
    "Verif.Props.C08_initial_changeset_rebuilds",
    "Verif.Props.C08_replay_log",
    "Verif.Props.C08_replay_aggregate"
   ],
   "note": ""
  },
  {
   "property": "C09",
   "status": "proved",
   "theorems": [
    "Verif.Props.C09_invalidate_with_limit",
    "Verif.Props.C09_invalidate",
    "Verif.Props.C09_invalidate_range_ok"
   ],
   "note": ""
  },
  {
   "property": "C10",
   "status": "proved",
   "theorems": [
    "Verif.Props.C10_clear_mempool"
   ],
   "note": ""
  },
  {
   "property": "C11",
   "status": "proved",
   "theorems": [
    "Verif.Props.C11_limit_respected",
    "Verif.Props.C11_set_limit_keeps_newest",
    "Verif.Props.C11_op_then_prune"
   ],
   "note": ""
  },
  {
   "property": "C12",
   "status": "proved",
   "theorems": [
    "Verif.Props.C12_insert_tx_no_panic",
    "Verif.Props.C12_too_high_iff",
    "Verif.Props.C12_moved_iff",
    "Verif.Props.C12_insert_tx_effect"
   ],
   "note": ""
  },
  {
   "property": "C13",
   "status": "proved",
   "theorems": [
    "Verif.Props.C13_insert_checkpoint_with_limit",
    "Verif.Props.C13_insert_checkpoint_outcome",
    "Verif.Props.C13_insert_checkpoint_effect",
    "Verif.Props.C13_doc_conflict_below_tip_accepted"
   ],
   "note": "C13_doc_conflict_below_tip_accepted refutes the documented rule that any change of hash fails."
  },
  {
   "property": "C14",
   "status": "proved",
   "theorems": [
    "Verif.Props.C14_invalidate_exact",
    "Verif.Props.C14_confirmed_below_tip",
    "Verif.Props.C14_fails_for_invalidate",
    "Verif.Props.C14_fails_for_limit_zero"
   ],
   "note": "C14_fails_for_invalidate and C14_fails_for_limit_zero show why invalidate_checkpoints and limit 0 are excluded."
  },
  {
   "property": "C15",
   "status": "proved",
   "theorems": [
    "Verif.Props.C15_range_by_height",
    "Verif.Props.C15_range_by_position"
   ],
   "note": ""
  },
  {
   "property": "C16",
   "status": "proved",
   "theorems": [
    "Verif.Props.C16_positions_ordered_by_height",
    "Verif.Props.C16_bounds_and_unconfirmed"
   ],
   "note": ""
  },
  {
   "property": "C17",
   "status": "proved",
   "theorems": [
    "Verif.Props.C17_update_is_union",
    "Verif.Props.C17_tx_kept",
    "Verif.Props.C17_insert_tx",
    "Verif.Props.C17_txout_after_update",
    "Verif.Props.C17_txout_kept",
    "Verif.Props.C17_false_txout_dropped"
   ],
   "note": "C17_false_txout_dropped: an output stored by insert_txout that the real transaction lacks or contradicts is superseded when the whole transaction arrives; C17_txout_kept excludes exactly that."
  },
  {
   "property": "C18",
   "status": "proved",
   "theorems": [
    "Verif.Props.C18_merge_order_irrelevant",
    "Verif.Props.C18_updates_commute",
    "Verif.Props.C18_first_version_wins"
   ],
   "note": "Needs that equal txids mean equal transactions; C18_first_version_wins shows witness variants break commutativity."
  },
  {
   "property": "C19",
   "status": "proved",
   "theorems": [
    "Verif.Props.C19_additions_exact",
    "Verif.Props.C19_preview",
    "Verif.Props.C19_order_irrelevant",
    "Verif.Props.C19_update_idempotent",
    "Verif.Props.C19_insert_existing",
    "Verif.Props.C19_doc_existing_outpoint_replaced",
    "Verif.Props.C19_append_is_sequential",
    "Verif.Props.C19_append_versions_differ"
   ],
   "note": "append law needs no two witness variants of one txid (C19_append_versions_differ); C19_doc_existing_outpoint_replaced refutes the documented emptiness for known outpoints."
  },
  {
   "property": "C20",
   "status": "proved",
   "theorems": [
    "Verif.Props.C20_outspends_exact",
    "Verif.Props.C20_tx_outspends_exact"
   ],
   "note": ""
  },
  {
   "property": "C21",
   "status": "proved",
   "theorems": [
    "Verif.Props.C21_fee_exact",
    "Verif.Props.C21_fee_depends_on_inputs_only"
   ],
   "note": ""
  },
  {
   "property": "C22",
   "status": "proved",
   "theorems": [
    "Verif.Props.C22_walk_terminates",
    "Verif.Props.C22_walk_exact",
    "Verif.Props.C22_walk_order_irrelevant",
    "Verif.Props.C22_child_iff",
    "Verif.Props.C22_doc_depth_not_distance"
   ],
   "note": "C22_doc_depth_not_distance: the depth argument is the length of the walked path, not the distance."
  },
  {
   "property": "C23",
   "status": "proved",
   "theorems": [
    "Verif.Props.C23_direct_conflicts_exact",
    "Verif.Props.C23_walk_conflicts_exact"
   ],
   "note": ""
  },
  {
   "property": "C24",
   "status": "proved",
   "theorems": [
    "Verif.Props.C24_get_tx_in_chain",
    "Verif.Props.C24_transactions_in_chain",
    "Verif.Props.C24_no_panic"
   ],
   "note": ""
  },
  {
   "property": "C25",
   "status": "proved",
   "theorems": [
    "Verif.Props.C25_no_double_spend",
    "Verif.Props.C25_doc_conflicting_ancestors"
   ],
   "note": "C25_doc_conflicting_ancestors refutes the documented stronger form about ancestors."
  },
  {
   "property": "C26",
   "status": "proved",
   "theorems": [
    "Verif.Props.C26_update",
    "Verif.Props.C26_insert_tx",
    "Verif.Props.C26_no_orphans"
   ],
   "note": ""
  },
  {
   "property": "C27",
   "status": "proved",
   "theorems": [
    "Verif.Props.C27_spent_by_exact",
    "Verif.Props.C27_spent_by_order_irrelevant",
    "Verif.Props.C27_full_txout_exact"
   ],
   "note": ""
  },
  {
   "property": "C28",
   "status": "proved",
   "theorems": [
    "Verif.Props.C28_new_ok_iff",
    "Verif.Props.C28_new_error",
    "Verif.Props.C28_inflated_content",
    "Verif.Props.C28_inflate_ok_iff",
    "Verif.Props.C28_inflate_missing"
   ],
   "note": ""
  },
  {
   "property": "C29",
   "status": "proved",
   "theorems": [
    "Verif.Props.C29_append_is_sequential",
    "Verif.Props.C29_replay_log",
    "Verif.Props.C29_replay_aggregate",
    "Verif.Props.C29_append_only_adding"
   ],
   "note": ""
  },
  {
   "property": "C30",
   "status": "proved",
   "theorems": [
    "Verif.Props.C30_index_of_spk",
    "Verif.Props.C30_insert_spk_result",
    "Verif.Props.C30_spk_at_index",
    "Verif.Props.C30_txout_exact",
    "Verif.Props.C30_txout_honest",
    "Verif.Props.C30_txouts_listing",
    "Verif.Props.C30_txouts_in_tx",
    "Verif.Props.C30_outputs_in_range",
    "Verif.Props.C30_is_used",
    "Verif.Props.C30_unused_spks",
    "Verif.Props.C30_unused_spks_no_panic",
    "Verif.Props.C30_scan",
    "Verif.Props.C30_scan_tx_finds",
    "Verif.Props.C30_mark_unmark",
    "Verif.Props.C30_never_inserted_is_used",
    "Verif.Props.C30_index_reuse_forgets"
   ],
   "note": "Needs each index given to one script only (C30_index_reuse_forgets shows why); C30_never_inserted_is_used documents the deviation of is_used."
  },
  {
   "property": "C31",
   "status": "proved",
   "theorems": [
    "Verif.Props.C31_sent_and_received",
    "Verif.Props.C31_net_value",
    "Verif.Props.C31_is_relevant"
   ],
   "note": ""
  },
  {
   "property": "C32",
   "status": "proved",
   "theorems": [
    "Verif.Props.C32_order_irrelevant",
    "Verif.Props.C32_tx_order_irrelevant",
    "Verif.Props.C32_rescan",
    "Verif.Props.C32_contradictory_outputs"
   ],
   "note": "Needs one output per outpoint (C32_contradictory_outputs)."
  },
  {
   "property": "C33",
   "status": "proved",
   "theorems": [
    "Verif.Props.C33_stored_contiguous",
    "Verif.Props.C33_unknown_keychain_empty",
    "Verif.Props.C33_index_of_stored",
    "Verif.Props.C33_no_panic",
    "Verif.Props.C33_same_descriptor_panics"
   ],
   "note": "AllDerivable: descriptors derive every index up to the code's bound. C33_same_descriptor_panics: two keychains with one descriptor panic."
  },
  {
   "property": "C34",
   "status": "proved",
   "theorems": [
    "Verif.Props.C34_reveal_to_target",
    "Verif.Props.C34_revealed_are_stored",
    "Verif.Props.C34_monotone",
    "Verif.Props.C34_reveal_next_spk",
    "Verif.Props.C34_next_index_agrees",
    "Verif.Props.C34_best_effort_fails"
   ],
   "note": "C34_best_effort_fails refutes the documented best effort when the lookahead already reaches the last index."
  },
  {
   "property": "C35",
   "status": "proved",
   "theorems": [
    "Verif.Props.C35_append_semilattice",
    "Verif.Props.C35_append_max",
    "Verif.Props.C35_log_is_state",
    "Verif.Props.C35_replay"
   ],
   "note": ""
  },
  {
   "property": "C36",
   "status": "proved",
   "theorems": [
    "Verif.Props.C36_lookahead_stored",
    "Verif.Props.C36_scan_finds",
    "Verif.Props.C36_scan_replenishes",
    "Verif.Props.C36_scan_txout_only_stored",
    "Verif.Props.C36_lookahead_to_target_none_stored",
    "Verif.Props.C36_lookahead_to_target_exact",
    "Verif.Props.C36_lookahead_to_target_misses"
   ],
   "note": "C36_lookahead_to_target_exact gives what lookahead_to_target really stores; C36_lookahead_to_target_misses refutes its documentation when lookahead is already stored."
  },
  {
   "property": "C37",
   "status": "proved",
   "theorems": [
    "Verif.Props.C37_next_unused_lowest",
    "Verif.Props.C37_next_unused_reveals",
    "Verif.Props.C37_found_is_used",
    "Verif.Props.C37_unmark_found",
    "Verif.Props.C37_reserve_distinct"
   ],
   "note": ""
  },
  {
   "property": "C38",
   "status": "proved",
   "theorems": [
    "Verif.Props.C38_max_index_value",
    "Verif.Props.C38_stored_bound",
    "Verif.Props.C38_revealed_bound",
    "Verif.Props.C38_reveal_beyond_bound"
   ],
   "note": "The code's constant is 2^30 (operator precedence). Revealed bound needs caller targets within it; C38_reveal_beyond_bound shows a panic otherwise."
  },
  {
   "property": "C39",
   "status": "proved",
   "theorems": [
    "Verif.Props.C39_full_txouts",
    "Verif.Props.C39_full_utxos",
    "Verif.Props.C39_buckets",
    "Verif.Props.C39_partition",
    "Verif.Props.C39_add",
    "Verif.Props.C39_totals",
    "Verif.Props.C39_trust_only_moves",
    "Verif.Props.C39_no_panic",
    "Verif.Props.C39_limit_zero_panics",
    "Verif.Props.C39_late_reveal_not_counted"
   ],
   "note": "C39_limit_zero_panics: a checkpoint limit of 0 makes the balance panic; C39_late_reveal_not_counted: outputs inserted before their script was revealed and scanned are not counted. Sums are checked u64."
  },
  {
   "property": "C40",
   "status": "proved",
   "theorems": [
    "Verif.Props.C40_spendable_iff",
    "Verif.Props.C40_spendable_monotone",
    "Verif.Props.C40_spent_stays_spent",
    "Verif.Props.C40_mature_iff",
    "Verif.Props.C40_panics_iff",
    "Verif.Props.C40_balance_at",
    "Verif.Props.C40_reorged_coinbase_panics"
   ],
   "note": "C40_reorged_coinbase_panics: balance_at panics (debug assertion) on an unconfirmed coinbase; C40_panics_iff says exactly when."
  },
  {
   "property": "C41",
   "status": "proved",
   "theorems": [
    "Verif.Props.C41_file_store",
    "Verif.Props.C41_confirmed_is_written",
    "Verif.Props.C41_no_fault_no_error",
    "Verif.Props.C41_empty_iff",
    "Verif.Props.C41_batches",
    "Verif.Props.C41_nothing_lost",
    "Verif.Props.C41_commit",
    "Verif.Props.C41_successful_commit_flushes"
   ],
   "note": "C41_batches for an arbitrary backend; C41_file_store instantiates the file store. C43_retry_corrupts shows what the file store does to a commit retried after a failed write."
  },
  {
   "property": "C42",
   "status": "proved",
   "theorems": [
    "Verif.Props.C42_bincode",
    "Verif.Props.C42_bincode_positions",
    "Verif.Props.C42_round_trip",
    "Verif.Props.C42_aggregate",
    "Verif.Props.C42_aggregate_all",
    "Verif.Props.C42_read_terminates",
    "Verif.Props.C42_doc_error_repeats",
    "Verif.Props.C42_wallet_survives"
   ],
   "note": "For any lawful encoding; C42_bincode proves the model of bincode's format lawful. C42_wallet_survives joins C55 and the store. C42_doc_error_repeats refutes the documented behaviour of the iterator after an error."
  },
  {
   "property": "C43",
   "status": "proved",
   "theorems": [
    "Verif.Props.C43_crash",
    "Verif.Props.C43_recover",
    "Verif.Props.C43_always_readable",
    "Verif.Props.C43_completed_survive",
    "Verif.Props.C43_unread_append_loses",
    "Verif.Props.C43_phantom_entry",
    "Verif.Props.C43_retry_corrupts"
   ],
   "note": "C43_phantom_entry, C43_retry_corrupts, C43_unread_append_loses document the limits, with proofs."
  },
  {
   "property": "C44",
   "status": "proved",
   "theorems": [
    "Verif.Props.C44_magic",
    "Verif.Props.C44_open_iff",
    "Verif.Props.C44_open_error",
    "Verif.Props.C44_create",
    "Verif.Props.C44_magic_kept",
    "Verif.Props.C44_crash_in_create"
   ],
   "note": "C44_crash_in_create: a crash during creation leaves a file that cannot be opened."
  },
  {
   "property": "C45",
   "status": "proved",
   "theorems": [
    "Verif.CoinSelect.C45_sound",
    "Verif.CoinSelect.C45_error_iff",
    "Verif.CoinSelect.C45_insufficient",
    "Verif.CoinSelect.C45_sufficient",
    "Verif.CoinSelect.C45_kinds",
    "Verif.CoinSelect.C45_split",
    "Verif.CoinSelect.C45_waste",
    "Verif.CoinSelect.C45_constructors",
    "Verif.CoinSelect.C45_best",
    "Verif.CoinSelect.C45_panic_iff",
    "Verif.CoinSelect.C45_panic_reachable",
    "Verif.CoinSelect.C45_in_range",
    "Verif.CoinSelect.C45_calls",
    "Verif.CoinSelect.C45_accessors"
   ],
   "note": "C45_panic_iff / C45_panic_reachable: the defect found (sweep with an absolute minimum fee). f32 arithmetic is modelled (C66); overflow of sums: C68; infinities and NaN: C76."
  },
  {
   "property": "C46",
   "status": "proved",
   "theorems": [
    "Verif.CoinSelect.C46_first_sufficient",
    "Verif.CoinSelect.C46_no_panic",
    "Verif.CoinSelect.C46_ok_iff",
    "Verif.CoinSelect.C46_any",
    "Verif.CoinSelect.C46_any_exact",
    "Verif.CoinSelect.C46_not_any"
   ],
   "note": "C46_not_any: witness that a coin costing more than it is worth, listed first, makes it fail although a selection exists."
  },
  {
   "property": "C47",
   "status": "proved",
   "theorems": [
    "Verif.CoinSelect.C47_no_panic",
    "Verif.CoinSelect.C47_terminates",
    "Verif.CoinSelect.C47_valid",
    "Verif.CoinSelect.C47_finishes",
    "Verif.CoinSelect.C47_finishes_exact",
    "Verif.CoinSelect.C47_engine"
   ],
   "note": "C66_bnb_one_short: a witness that finish can refuse the result for want of one satoshi, because f32 products are rounded part by part."
  },
  {
   "property": "C48",
   "status": "proved",
   "theorems": [
    "Verif.CoinSelect.C48_complete",
    "Verif.CoinSelect.C48_optimal",
    "Verif.CoinSelect.C48_minimal",
    "Verif.CoinSelect.C48_not_optimal",
    "Verif.CoinSelect.C48_negative_coins_ignored"
   ],
   "note": "Limits: C48_not_optimal (long term rate above target rate), C48_negative_coins_ignored (absolute minimum fee)."
  },
  {
   "property": "C49",
   "status": "proved",
   "theorems": [
    "Verif.Electrum.C49_update_connects",
    "Verif.Electrum.C49_fails_if_tip_drops",
    "Verif.Electrum.C49_wallet_follows_server"
   ],
   "note": "Server = an arbitrary time-indexed oracle; the retry loop of `scan` has a rounds bound with an explicit pending outcome."
  },
  {
   "property": "C50",
   "status": "proved",
   "theorems": [
    "Verif.Electrum.C50_scan_complete",
    "Verif.Electrum.C50_batch_size_irrelevant",
    "Verif.Electrum.C50_last_active_real",
    "Verif.Electrum.C50_last_active_current",
    "Verif.Electrum.C50_last_active_stale",
    "Verif.Electrum.C50_batch_size_zero",
    "Verif.Electrum.C50_reorg_loses_next_keychain",
    "Verif.Electrum.C50_reorg_loses_interrupted_keychain"
   ],
   "note": "C50_reorg_loses_next_keychain and C50_reorg_loses_interrupted_keychain are the defects found: after a reorg the retry only covers scripts already taken from the iterators."
  },
  {
   "property": "C51",
   "status": "proved",
   "theorems": [
    "Verif.Electrum.C51_height_reading",
    "Verif.Electrum.C51_positions_reported"
   ],
   "note": "Release build: debug_assert statements left out."
  },
  {
   "property": "C52",
   "status": "proved",
   "theorems": [
    "Verif.Planner.C52_plan_iff_affordable",
    "Verif.Planner.C52_key_path_first",
    "Verif.Planner.C52_picks_smallest_leaf",
    "Verif.Planner.C52_plan_keys_derive",
    "Verif.Planner.C52_witness_unlocks",
    "Verif.Planner.C52_try_complete_leaf",
    "Verif.Planner.C52_try_complete_key",
    "Verif.Planner.C52_requirements_exact",
    "Verif.Planner.C52_requires_preimages",
    "Verif.Planner.C52_after_ignores_maximum",
    "Verif.Planner.C52_conjunction_reversed",
    "Verif.Planner.C52_pkh_never_unlocks",
    "Verif.Planner.C52_panics_on_multi",
    "Verif.Planner.C52_after_shadows_key",
    "Verif.Planner.C52_older_meaningless_bits",
    "Verif.Planner.C52_not_the_lightest_leaf"
   ],
   "note": "Only taproot descriptors (all others are todo!() in the code). rust-miniscript / rust-bitcoin functions (script encoding, control block, key serialisation, signature check) are fields of `Lib` / `Ctx`; the witness is judged by an independent tapscript interpreter (Spec/Miniscript.lean) for the supported fragments. The exact statement is proved for plain leaves; the ways in which the unrestricted claim fails are separate theorems."
  },
  {
   "property": "C53",
   "status": "proved",
   "theorems": [
    "Verif.Planner.C53_weight_exact",
    "Verif.Planner.C53_weight_default",
    "Verif.Planner.C53_pkh_underestimated",
    "Verif.Planner.C53_sighash_underestimated"
   ],
   "note": "Exact formula; the two underestimates are shown as theorems of their own."
  },
  {
   "property": "C54",
   "status": "proved",
   "theorems": [
    "Verif.Cli.C54_in_sync",
    "Verif.Cli.C54_recoverable",
    "Verif.Cli.C54_loss_cases",
    "Verif.Cli.C54_send_lossless_if_unused",
    "Verif.Cli.C54_restart",
    "Verif.Cli.C54_persist_failure_silent",
    "Verif.Cli.C54_change_distinct",
    "Verif.Cli.C54_change_not_shown",
    "Verif.Cli.C54_broadcast_failure_frees",
    "Verif.Cli.C54_broadcast_success",
    "Verif.Cli.C54_inputs_not_reserved",
    "Verif.Cli.C54_retry_shows_unstored",
    "Verif.Cli.C54_failed_send_loses_change",
    "Verif.Props.C54_shown_right"
   ],
   "note": "Signatures and library functions are parameters; lock regions are atomic."
  },
  {
   "property": "C55",
   "status": "proved",
   "theorems": [
    "Verif.Props.C55_replay",
    "Verif.Props.C55_replay_balance",
    "Verif.Props.C55_add_keychain",
    "Verif.Props.C55_update_indices",
    "Verif.Props.C55_update_reveals",
    "Verif.Props.C55_append_loses_outputs",
    "Verif.Props.C55_append_parts"
   ],
   "note": "Replay of the emitted change sets one by one rebuilds the tracker up to mark_used flags, which are not in change sets. C55_append_loses_outputs refutes the documented equivalence for a merged change set. Keychains and lookahead fixed."
  },
  {
   "property": "C56",
   "status": "proved",
   "theorems": [
    "Verif.Planner.C56_path_to_child",
    "Verif.Planner.C56_source_hint",
    "Verif.Planner.C56_xpub_hint",
    "Verif.Planner.C56_single_hint",
    "Verif.Planner.C56_same_key_hint_wrong"
   ],
   "note": "BIP32 is a structure `Spec.Secrets` whose only law is that deriving in two steps is deriving along the joined path."
  },
  {
   "property": "C57",
   "status": "proved",
   "theorems": [
    "Verif.Planner.C57_signing_completes",
    "Verif.Planner.C57_signing_adds_only",
    "Verif.Planner.C57_key_spend",
    "Verif.Planner.C57_keyless_plan_panics"
   ],
   "note": "secp256k1 signing, tweaking and the sighash are fields of `Crypto`."
  },
  {
   "property": "C58",
   "status": "proved",
   "theorems": [
    "Verif.Props.C58_checkpoint_at",
    "Verif.Props.C58_latest_checkpoint",
    "Verif.Props.C58_range_checkpoints",
    "Verif.Props.C58_from_checkpoints",
    "Verif.Props.C58_chain_is_empty",
    "Verif.Props.C58_changeset_is_empty",
    "Verif.Props.C58_changeset_additions",
    "Verif.Props.C58_coinbase",
    "Verif.Props.C58_graph_is_empty",
    "Verif.Props.C58_full_transactions",
    "Verif.Props.C58_partial_transactions",
    "Verif.Props.C58_partial_transactions_complete",
    "Verif.Props.C58_txouts",
    "Verif.Props.C58_all_txouts",
    "Verif.Props.C58_additions",
    "Verif.Props.C58_chain_graph_changeset",
    "Verif.Props.C58_chain_graph_is_empty",
    "Verif.Props.C58_insert_txout",
    "Verif.Props.C58_set_checkpoint_limit",
    "Verif.Props.C58_insert_checkpoint",
    "Verif.Props.C58_failure_changes_nothing",
    "Verif.Props.C58_graph_new"
   ],
   "note": "All accessors of the chain, graph and chain graph not already covered by C04, C15, C20, C24, C27."
  },
  {
   "property": "C59",
   "status": "proved",
   "theorems": [
    "Verif.Props.C59_spks_of_keychain",
    "Verif.Props.C59_revealed_spks",
    "Verif.Props.C59_revealed_spks_derived",
    "Verif.Props.C59_unused_spks",
    "Verif.Props.C59_txouts_of_keychain",
    "Verif.Props.C59_last_used_index",
    "Verif.Props.C59_set_lookahead_for_all",
    "Verif.Props.C59_set_lookahead_for_all_ok",
    "Verif.Props.C59_last_used_indices",
    "Verif.Props.C59_revealed_spks_of_all",
    "Verif.Props.C59_lookaheads"
   ],
   "note": "An outpoint scanned several times with different outputs is listed under each index it matched; the recorded txout is the last (C30)."
  },
  {
   "property": "C61",
   "status": "proved",
   "theorems": [
    "Verif.Electrum.C61_missing_exact",
    "Verif.Electrum.C61_into_keychain_scan",
    "Verif.Electrum.C61_fetch_completes",
    "Verif.Electrum.C61_confirmation_times",
    "Verif.Electrum.C61_scan_then_times",
    "Verif.Electrum.C61_scan_without_keychain"
   ],
   "note": ""
  },
  {
   "property": "C60",
   "status": "proved",
   "theorems": [
    "Verif.Cli.C60_algo_option",
    "Verif.Cli.C60_weight_bip141",
    "Verif.Cli.C60_inputs",
    "Verif.Cli.C60_outputs",
    "Verif.Cli.C60_fee",
    "Verif.Cli.C60_change_decision",
    "Verif.Cli.C60_witnesses",
    "Verif.Cli.C60_succeeds",
    "Verif.Cli.C60_insufficient",
    "Verif.Cli.C60_preference",
    "Verif.Cli.C60_spends_immature_coinbase"
   ],
   "note": "Weights are exact for 64-byte signatures and leaves without pk_h (PlainKeys); C53 shows pk_h is underestimated. The fee statements are for transactions of weight up to 2^24 (consensus allows 4 000 000): beyond, f32 rounds the weight. C60_spends_immature_coinbase: create_tx does not check coinbase maturity. C60_algo_option: the coin selection option accepts exactly the five printed names."
  },
  {
   "property": "C62",
   "status": "proved",
   "theorems": [
    "Verif.Esplora.C62_status_reading",
    "Verif.Esplora.C62_positions_reported",
    "Verif.Esplora.C62_update_connects",
    "Verif.Esplora.C62_tip_confirmed",
    "Verif.Esplora.C62_last_active_real",
    "Verif.Esplora.C62_scan_complete",
    "Verif.Esplora.C62_wallet_follows_server",
    "Verif.Esplora.C62_gap_guarantee",
    "Verif.Esplora.C62_single_requests",
    "Verif.Esplora.C62_parallelism_matters",
    "Verif.Esplora.C62_behind_server_errors",
    "Verif.Esplora.C62_without_keychain",
    "Verif.Esplora.C62_reorg_looked_up_again",
    "Verif.Esplora.C62_reorg_loses_transaction"
   ],
   "note": "Lean: Model/Esplora.lean, Spec/Esplora.lean, Props/Esplora.lean. Rounds of the unbounded loops (paging, starting over) are explicit parameters; running out of them is a separate outcome about which only the absence of panics is claimed, and for a server that does not change one pass and one page request per confirmed transaction suffice. C62_parallelism_matters, C62_reorg_loses_transaction and C62_behind_server_errors are findings."
  },
  {
   "property": "C63",
   "status": "proved",
   "theorems": [
    "Verif.Sync.C63_flags",
    "Verif.Sync.C63_sync_request",
    "Verif.Sync.C63_scan_request",
    "Verif.Sync.C63_scan_succeeds",
    "Verif.Sync.C63_scan_finds",
    "Verif.Sync.C63_scan_shows_money",
    "Verif.Sync.C63_scan_spent_not_shown",
    "Verif.Sync.C63_scan_restores",
    "Verif.Sync.C63_scan_unknown",
    "Verif.Sync.C63_scan_unknown_money",
    "Verif.Sync.C63_scan_adds_only",
    "Verif.Sync.C63_sync_succeeds",
    "Verif.Sync.C63_sync_unconfirmed",
    "Verif.Sync.C63_sync_utxos",
    "Verif.Sync.C63_sync_shows_money",
    "Verif.Sync.C63_sync_settles",
    "Verif.Sync.C63_sync_unknown",
    "Verif.Sync.C63_sync_unknown_money",
    "Verif.Sync.C63_sync_adds_only",
    "Verif.Sync.C63_two_syncs",
    "Verif.Sync.C63_life_truth",
    "Verif.Sync.C63_life_commands_succeed",
    "Verif.Sync.C63_growing_chain",
    "Verif.Sync.C63_scan_misses_late_output",
    "Verif.Sync.C63_dropped_tx_stays",
    "Verif.Sync.C63_reorg_blocks_sync",
    "Verif.Sync.C63_one_sync_not_enough",
    "Verif.Sync.C63_money_not_shown"
   ],
   "note": "What the commands print is not modelled. The electrum example's flags and requests are the same definitions; its scan is covered by C49-C51 and C61."
  },
  {
   "property": "C64",
   "status": "proved",
   "theorems": [
    "Verif.Sync.C64_scan_succeeds",
    "Verif.Sync.C64_scan_finds",
    "Verif.Sync.C64_scan_shows_money",
    "Verif.Sync.C64_scan_spent_not_shown",
    "Verif.Sync.C64_scan_restores",
    "Verif.Sync.C64_scan_unknown",
    "Verif.Sync.C64_scan_unknown_money",
    "Verif.Sync.C64_scan_adds_only",
    "Verif.Sync.C64_sync_needs_delivery",
    "Verif.Sync.C64_sync_succeeds_iff",
    "Verif.Sync.C64_sync_unconfirmed",
    "Verif.Sync.C64_sync_utxos",
    "Verif.Sync.C64_sync_shows_money",
    "Verif.Sync.C64_sync_settles",
    "Verif.Sync.C64_sync_unknown",
    "Verif.Sync.C64_sync_unknown_money",
    "Verif.Sync.C64_sync_adds_only",
    "Verif.Sync.C64_scan_does_not_unblock",
    "Verif.Sync.C64_two_syncs",
    "Verif.Sync.C64_life_truth",
    "Verif.Sync.C64_life_commands_succeed",
    "Verif.Sync.C64_growing_chain",
    "Verif.Sync.C64_dropped_tx_blocks_sync"
   ],
   "note": "Servers that do not index some output scripts (OP_RETURN) do not satisfy `Mirrors.pays`; the server is taken not to change during one command (C49-C51 cover changing servers)."
  },
  {
   "property": "C65",
   "status": "proved",
   "theorems": [
    "Verif.Sync.C65_never_panics",
    "Verif.Sync.C65_refused_changes_nothing",
    "Verif.Sync.C65_stays_healthy",
    "Verif.Sync.C65_only_reported",
    "Verif.Sync.C65_nothing_forgotten",
    "Verif.Sync.C65_electrum_never_panics",
    "Verif.Sync.C65_electrum_refused_changes_nothing",
    "Verif.Sync.C65_electrum_stays_healthy",
    "Verif.Sync.C65_electrum_only_reported",
    "Verif.Sync.C65_electrum_nothing_forgotten",
    "Verif.Sync.C65_life_any",
    "Verif.Sync.C65_electrum_life_any",
    "Verif.Sync.C65_ahead_locked_out",
    "Verif.Sync.C65_electrum_ahead_locked_out",
    "Verif.Sync.C65_one_lie_locks_out",
    "Verif.Sync.C65_electrum_one_lie_locks_out",
    "Verif.Sync.C65_a_lie_stays"
   ],
   "note": "A tip at u32::MAX and electrum transactions without outputs (which make the code panic, C49/C51) are excluded by hypothesis."
  },
  {
   "property": "C66",
   "status": "proved",
   "theorems": [
    "Verif.CoinSelect.C66_rounding",
    "Verif.CoinSelect.C66_fee_exact_range",
    "Verif.CoinSelect.C66_fee_relative",
    "Verif.CoinSelect.C66_fee_exact",
    "Verif.CoinSelect.C66_fee_mono",
    "Verif.CoinSelect.C66_drain_fee",
    "Verif.CoinSelect.C66_reported_rate",
    "Verif.CoinSelect.C66_underpays",
    "Verif.CoinSelect.C66_bnb_one_short"
   ],
   "note": "C66_rounding: the model's rounding is the unique IEEE 754 binary32 round-to-nearest-even. C66_underpays and C66_bnb_one_short are findings with realistic rates."
  },
  {
   "property": "C67",
   "status": "proved",
   "theorems": [
    "Verif.Props.C67_fee",
    "Verif.Props.C67_fee_answers",
    "Verif.Props.C67_sent_received",
    "Verif.Props.C67_net_value",
    "Verif.Props.C67_balance_debug",
    "Verif.Props.C67_balance_release",
    "Verif.Props.C67_totals_release",
    "Verif.Props.C67_balance_at_release",
    "Verif.Props.C67_fee_overflow",
    "Verif.Props.C67_balance_overflow"
   ],
   "note": "C67_fee_overflow and C67_balance_overflow are findings: amounts are never checked on insertion."
  },
  {
   "property": "C68",
   "status": "proved",
   "theorems": [
    "Verif.CoinSelect.C68_quantities",
    "Verif.CoinSelect.C68_finish",
    "Verif.CoinSelect.C68_until",
    "Verif.CoinSelect.C68_bnb",
    "Verif.CoinSelect.C68_sums",
    "Verif.CoinSelect.C68_release_empty",
    "Verif.CoinSelect.C68_wraps"
   ],
   "note": "C68_release_empty and C68_wraps are findings. Infinite and NaN rates: C76."
  },
  {
   "property": "C69",
   "status": "proved",
   "theorems": [
    "Verif.Cli.C69_shown_known",
    "Verif.Cli.C69_change_known",
    "Verif.Cli.C69_written_kept",
    "Verif.Cli.C69_log",
    "Verif.Cli.C69_starts",
    "Verif.Cli.C69_in_range",
    "Verif.Cli.C69_resumes",
    "Verif.Cli.C69_torn_creation"
   ],
   "note": "C69_torn_creation is the finding (the magic bytes are written without a rename). C69_starts needs the absence of a double fault (Spec.CleanHistory): C43 shows that a torn write followed by another one can leave a phantom changeset. Argument and descriptor parsing and the network are outside of the model; what the server returns and the outcome of a broadcast are arbitrary."
  },
  {
   "property": "C70",
   "status": "proved",
   "theorems": [
    "Verif.Props.C70_reread",
    "Verif.Props.C70_results",
    "Verif.Props.C70_stale",
    "Verif.Props.C70_same_place",
    "Verif.Cli.C70_erased",
    "Verif.Cli.C70_forgotten_address"
   ],
   "note": "C70_reread and C70_results are the positive half, under the discipline of Spec.Disciplined; C70_stale, C70_same_place and C70_erased are universal statements of the loss, C70_forgotten_address is a concrete history of two programs in which C69_shown_known fails. Each call is one step here; C83 interleaves the system calls inside of appends."
  },
  {
   "property": "C71",
   "status": "proved",
   "theorems": [
    "Verif.Props.C71_debug",
    "Verif.Props.C71_release_same",
    "Verif.Props.C71_release_same_returns",
    "Verif.Props.C71_builds_agree",
    "Verif.Props.C71_attribution",
    "Verif.Props.C71_inner_history",
    "Verif.Props.C71_first_owner",
    "Verif.Props.C71_shared_script",
    "Verif.Props.C71_release_total",
    "Verif.Props.C71_release_scan_total",
    "Verif.Props.C71_release_reveal",
    "Verif.Props.C71_target_overflow",
    "Verif.Props.C71_huge_lookahead",
    "Verif.Props.C71_same_descriptor_release",
    "Verif.Props.C71_invalidation_bound",
    "Verif.Props.C71_prune",
    "Verif.Props.C71_tracker_debug",
    "Verif.Props.C71_tracker_release_same",
    "Verif.Props.C71_tracker_replay_release",
    "Verif.Props.C71_tracker_attribution",
    "Verif.Props.C71_tracker_release_apply",
    "Verif.Props.C71_tracker_release_update",
    "Verif.Props.C71_tracker_release_insert",
    "Verif.Props.C71_tracker_index_calls",
    "Verif.Props.C71_tracker_huge_index"
   ],
   "note": "C71_debug ties the parametrised model to the one of C33-C38, C71_release_same and C71_release_same_returns lift those properties to release builds. C71_shared_script is the universal form of the shared script finding, C71_same_descriptor_release and C71_huge_lookahead are concrete histories."
  },
  {
   "property": "C72",
   "status": "proved",
   "theorems": [
    "Verif.Cli.C72_balance_exact",
    "Verif.Cli.C72_balance_categories",
    "Verif.Cli.C72_balance_deterministic",
    "Verif.Cli.C72_txo_listed",
    "Verif.Cli.C72_txo_lines",
    "Verif.Cli.C72_lines_add_up",
    "Verif.Cli.C72_address_list",
    "Verif.Cli.C72_address_index",
    "Verif.Cli.C72_shown_is_known",
    "Verif.Cli.C72_confirmed_not_spendable"
   ],
   "note": "The content of the printed lines is modelled, their formatting is not; the address of a script is a parameter that may be missing. C72_confirmed_not_spendable is the finding."
  },
  {
   "property": "C73",
   "status": "proved",
   "theorems": [
    "Verif.Props.C73_unspent_after",
    "Verif.Props.C73_value",
    "Verif.Props.C73_again",
    "Verif.Props.C73_sent_and_received",
    "Verif.Props.C73_net_value",
    "Verif.Props.C73_payment",
    "Verif.Props.C73_update_unspent",
    "Verif.Props.C73_update_value",
    "Verif.Props.C73_update_no_news",
    "Verif.Props.C73_update_received"
   ],
   "note": "C73_unspent_after is the general form, with conflicts. The hypothesis of the net value theorems that no output pays a script derived only by this very call is needed: such an output is not recorded by a scan that reaches it first (C32). C73_update_unspent, C73_update_value and C73_update_no_news say the same of whole updates (apply_update), with any set of replaced transactions. C73_update_received: nothing paid to the wallet is missed."
  },
  {
   "property": "C74",
   "status": "proved",
   "theorems": [
    "Verif.Props.C74_chains_agree",
    "Verif.Props.C74_answer_accepted",
    "Verif.Props.C74_nothing_evicted",
    "Verif.Props.C74_agree_iff",
    "Verif.Props.C74_agree_after_three",
    "Verif.Props.C74_graphs_agree",
    "Verif.Props.C74_same_value",
    "Verif.Props.C74_orphan_survives"
   ],
   "note": "C74_chains_agree for sparse chains; C74_answer_accepted (the answer is always accepted, exact effect), C74_agree_iff, C74_nothing_evicted, C74_agree_after_three, C74_graphs_agree, C74_same_value for chain graphs; C74_orphan_survives is the counterexample that shows the condition on parents is needed for agreement after one exchange."
  },
  {
   "property": "C75",
   "status": "proved",
   "theorems": [
    "Verif.Props.C75_result",
    "Verif.Props.C75_order",
    "Verif.Props.C75_blocks_first",
    "Verif.Props.C75_acceptable_iff",
    "Verif.Props.C75_some_orders_refused",
    "Verif.Props.C75_incoherent_last_wins",
    "Verif.Props.C75_graph_result",
    "Verif.Props.C75_graph_order",
    "Verif.Props.C75_graph_blocks_first",
    "Verif.Props.C75_conflicts_last_wins",
    "Verif.Props.C75_with_limit",
    "Verif.Props.C75_order_any_limit",
    "Verif.Props.C75_result_limit",
    "Verif.Props.C75_blocks_first_any_limit",
    "Verif.Props.C75_acceptable_any_limit",
    "Verif.Props.C75_graph_order_any_limit",
    "Verif.Props.C75_graph_blocks_first_any_limit",
    "Verif.Props.C75_limit_zero"
   ],
   "note": "C75_result, C75_order, C75_acceptable_iff and C75_blocks_first for sparse chains; C75_graph_result, C75_graph_order, C75_graph_blocks_first for chain graphs; C75_some_orders_refused, C75_incoherent_last_wins and C75_conflicts_last_wins show that the hypotheses are needed; C75_with_limit, C75_order_any_limit, C75_result_limit, C75_blocks_first_any_limit, C75_acceptable_any_limit, C75_graph_order_any_limit, C75_graph_blocks_first_any_limit with a checkpoint limit, C75_limit_zero for the limit zero"
  },
  {
   "property": "C76",
   "status": "proved",
   "theorems": [
    "Verif.CoinSelect.C76_rounding",
    "Verif.CoinSelect.C76_finite",
    "Verif.CoinSelect.C76_fits",
    "Verif.CoinSelect.C76_debug_ok",
    "Verif.CoinSelect.C76_debug_error",
    "Verif.CoinSelect.C76_nan",
    "Verif.CoinSelect.C76_infinite_debug",
    "Verif.CoinSelect.C76_infinite_release",
    "Verif.CoinSelect.C76_waste_infinite",
    "Verif.CoinSelect.C76_negative"
   ],
   "note": "Model/Ieee has the f32 operations on finite values, infinities and NaN (the two zeros are one value); Model/IeeeSelect the selector on them. Released-build soundness at infinite rates fails (C76_infinite_release); that is the behaviour of the code."
  },
  {
   "property": "C77",
   "status": "proved",
   "theorems": [
    "Verif.Props.C77_recorded_revealed",
    "Verif.Props.C77_update_exact",
    "Verif.Props.C77_accepts",
    "Verif.Props.C77_exchange",
    "Verif.Props.C77_same_wallet",
    "Verif.Props.C77_three",
    "Verif.Props.C77_insert_tx_exact",
    "Verif.Props.C77_reveal_exact",
    "Verif.Props.C77_late_misses"
   ],
   "note": "C77_late_misses is the finding. The two devices without a checkpoint limit; exactness of the records is a hypothesis that C77_update_exact, C77_insert_tx_exact and C77_reveal_exact maintain from the empty wallet on."
  },
  {
   "property": "C78",
   "status": "proved",
   "theorems": [
    "Verif.Props.C78_set_limit",
    "Verif.Props.C78_update",
    "Verif.Props.C78_forgets_below",
    "Verif.Props.C78_limit_wallet",
    "Verif.Props.C78_step",
    "Verif.Props.C78_history",
    "Verif.Props.C78_reports",
    "Verif.Props.C78_deep_reorg",
    "Verif.Props.C78_refuses"
   ],
   "note": "C78_deep_reorg and C78_refuses are the findings; WithinReach is stated on checkpoint_at of the two chains."
  },
  {
   "property": "C79",
   "status": "proved",
   "theorems": [
    "Verif.Cli.C79_esplora_starts",
    "Verif.Cli.C79_esplora_truth",
    "Verif.Cli.C79_esplora_commands",
    "Verif.Cli.C79_esplora_atomic",
    "Verif.Cli.C79_esplora_restores",
    "Verif.Cli.C79_electrum_starts",
    "Verif.Cli.C79_electrum_truth",
    "Verif.Cli.C79_electrum_commands",
    "Verif.Cli.C79_electrum_atomic",
    "Verif.Cli.C79_electrum_restores"
   ],
   "note": "Composition of C63/C64 (what Scan and Sync do against an honest server) with C69 (runs of the program on the bytes of the file). The server's honesty, and that it is not behind the wallet, are hypotheses (Later / Follows), as in C63/C64; what the program does with other servers is C65."
  },
  {
   "property": "C80",
   "status": "proved",
   "theorems": [
    "Verif.Props.C80_index_call",
    "Verif.Props.C80_index_calls",
    "Verif.Props.C80_insert_checkpoint",
    "Verif.Props.C80_failed_call",
    "Verif.Props.C80_set_limit",
    "Verif.Props.C80_history"
   ],
   "note": "Adding a keychain after transactions have been scanned reports nothing new by itself: the transactions have to be scanned again (C32)."
  },
  {
   "property": "C81",
   "status": "proved",
   "theorems": [
    "Verif.Props.C81_only_watched",
    "Verif.Props.C81_quiet_is_complete",
    "Verif.Props.C81_confluent",
    "Verif.Props.C81_rescan_ends",
    "Verif.Props.C81_wallet",
    "Verif.Props.C81_one_scan_depends_on_order",
    "Verif.Props.C81_insertion_order_changes_balance"
   ],
   "note": "C81_one_scan_depends_on_order and C81_insertion_order_changes_balance are the findings that make the repeated scan necessary (compare C55_append_loses_outputs)."
  },
  {
   "property": "C82",
   "status": "proved",
   "theorems": [
    "Verif.Props.C82_history_adds_up",
    "Verif.Props.C82_net_values",
    "Verif.Props.C82_insertion_keeps_books",
    "Verif.Props.C82_rescan_completes",
    "Verif.Props.C82_evicted_parent",
    "Verif.Props.C82_late_reveal"
   ],
   "note": "C82_evicted_parent and C82_late_reveal are the findings. The records can also be made untrue by scanning invented outputs into the public txout_index."
  },
  {
   "property": "C83",
   "status": "proved",
   "theorems": [
    "Verif.Props.C83_earlier_stays",
    "Verif.Props.C83_mixture",
    "Verif.Props.C83_one_at_a_time",
    "Verif.Props.C83_dies_between",
    "Verif.Props.C83_same_changeset",
    "Verif.Props.C83_mixed",
    "Verif.Props.C83_lost_both"
   ],
   "note": "C83_mixed and C83_lost_both are concrete schedules with the bincode encoding of the examples' changesets."
  },
  {
   "property": "C84",
   "status": "proved",
   "theorems": [
    "Verif.Locks.C84_no_deadlock",
    "Verif.Locks.C84_finishes",
    "Verif.Locks.C84_all_done",
    "Verif.Locks.C84_protected",
    "Verif.Locks.C84_atomic",
    "Verif.Locks.C84_as_C54",
    "Verif.Locks.C84_killed",
    "Verif.Locks.C84_poisoned_frozen",
    "Verif.Props.C84_shown_right"
   ],
   "note": "C84_no_deadlock, C84_finishes, C84_all_done, C84_protected about every interleaving; C84_atomic and C84_as_C54: every state between sections is one that the program of C54 gets into with its sections as single steps; C84_poisoned_frozen: one panic under the lock disables everything after it."
  }
 ]
}
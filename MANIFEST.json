{
 "claims": [
  {
   "property": "C01",
   "status": "proved",
   "theorems": [
    "PF.Props.C01_root_of_contents",
    "PF.Props.C01_history_independent"
   ],
   "note": ""
  },
  {
   "property": "C02",
   "status": "proved",
   "theorems": [
    "PF.Props.C02_new_eq_incremental",
    "PF.Props.C02_new_empty"
   ],
   "note": ""
  },
  {
   "property": "C03",
   "status": "proved",
   "theorems": [
    "PF.Props.C03_membership_complete"
   ],
   "note": ""
  },
  {
   "property": "C04",
   "status": "proved",
   "theorems": [
    "PF.Props.C04_indexed_sound",
    "PF.Props.C04_two_paths",
    "PF.Props.C04_tree"
   ],
   "note": ""
  },
  {
   "property": "C05",
   "status": "proved",
   "theorems": [
    "PF.Props.C05_membership_sound",
    "PF.Props.C05_tree"
   ],
   "note": ""
  },
  {
   "property": "C06",
   "status": "proved",
   "theorems": [
    "PF.Props.C06_update_complete"
   ],
   "note": ""
  },
  {
   "property": "C07",
   "status": "proved",
   "theorems": [
    "PF.Props.C07_update_sound",
    "PF.Props.C07_tree"
   ],
   "note": ""
  },
  {
   "property": "C08",
   "status": "proved",
   "theorems": [
    "PF.Props.C08_out_of_range_rejected",
    "PF.Props.C08_panics"
   ],
   "note": ""
  },
  {
   "property": "C09",
   "status": "proved",
   "theorems": [
    "PF.Props.C09_validate",
    "PF.Props.C09_validate_ignores_root"
   ],
   "note": ""
  },
  {
   "property": "C10",
   "status": "proved",
   "theorems": [
    "PF.Props.C10_write_frame",
    "PF.Props.C10_write_never_refused",
    "PF.Props.C10_out_of_range",
    "PF.Props.C10_out_of_range_corrupts"
   ],
   "note": "Exact behaviour. The plain expectation 'out-of-range writes are refused' is refuted: C10_write_never_refused, C10_out_of_range_corrupts."
  },
  {
   "property": "C11",
   "status": "proved",
   "theorems": [
    "PF.Props.C11_wrong_leaf",
    "PF.Props.C11_unwritten_position",
    "PF.Props.C11_exact",
    "PF.Props.C11_proof_is_the_path"
   ],
   "note": "Exact decision. The plain expectation 'every wrong leaf is refused' is refuted on positions never given a leaf: C11_unwritten_position."
  },
  {
   "property": "C12",
   "status": "proved",
   "theorems": [
    "PF.Props.C12_indexed_gadget_iff_native"
   ],
   "note": ""
  },
  {
   "property": "C13",
   "status": "proved",
   "theorems": [
    "PF.Props.C13_conditional_gadgets"
   ],
   "note": ""
  },
  {
   "property": "C14",
   "status": "proved",
   "theorems": [
    "PF.Props.C14_update_gadget_iff_native"
   ],
   "note": ""
  },
  {
   "property": "C15",
   "status": "proved",
   "theorems": [
    "PF.Props.C15_index_binding",
    "PF.Props.C15_update_index_binding",
    "PF.Props.C15_one_position",
    "PF.Props.C15_index_aliasing",
    "PF.Props.C15_witness"
   ],
   "note": "Exact binding. The plain expectation 'out-of-range indices are rejected' is refuted: C15_index_aliasing, C15_witness."
  },
  {
   "property": "C16",
   "status": "proved",
   "theorems": [
    "PF.Props.C16_membership_gadget_iff_native"
   ],
   "note": ""
  },
  {
   "property": "C17",
   "status": "proved",
   "theorems": [
    "PF.Props.C17_tx_encoding_injective",
    "PF.Props.C17_tx_var_encoding_injective",
    "PF.Props.C17_circuit_encoding_eq",
    "PF.Props.C17_signed_message_injective"
   ],
   "note": ""
  },
  {
   "property": "C18",
   "status": "proved",
   "theorems": [
    "PF.Props.C18_digests_bind",
    "PF.Props.C18_gadgets_agree",
    "PF.Props.C18_tree_configs",
    "PF.Props.C18_tree_defaults",
    "PF.Props.C18_block_digest_ignores_lists"
   ],
   "note": ""
  },
  {
   "property": "C19",
   "status": "proved",
   "theorems": [
    "PF.Props.C19_by_value_encoding",
    "PF.Props.C19_witness"
   ],
   "note": "Exact. The plain expectation 'the by-value encoding determines the transaction' is refuted: C19_witness."
  },
  {
   "property": "C20",
   "status": "proved",
   "theorems": [
    "PF.Props.C20_is_valid_decision",
    "PF.Props.C20_dummies_irrelevant",
    "PF.Props.C20_default_sender"
   ],
   "note": ""
  },
  {
   "property": "C21",
   "status": "proved",
   "theorems": [
    "PF.Props.C21_conservation",
    "PF.Props.C21_witness"
   ],
   "note": "Exact decision in C20_is_valid_decision. Unconditional conservation is refuted in release builds: C21_witness."
  },
  {
   "property": "C22",
   "status": "proved",
   "theorems": [
    "PF.Props.C22_circuit_validity_iff_native",
    "PF.Props.C22_circuit_validity_exact"
   ],
   "note": ""
  },
  {
   "property": "C23",
   "status": "proved",
   "theorems": [
    "PF.Props.C23_enforce_valid_iff",
    "PF.Props.C23_range_needed"
   ],
   "note": ""
  },
  {
   "property": "C24",
   "status": "proved",
   "theorems": [
    "PF.Props.C24_get_signer",
    "PF.Props.C24_last_non_dummy"
   ],
   "note": ""
  },
  {
   "property": "C25",
   "status": "proved",
   "theorems": [
    "PF.Props.C25_sign_verifies",
    "PF.Props.C25_sign_progress"
   ],
   "note": ""
  },
  {
   "property": "C26",
   "status": "proved",
   "theorems": [
    "PF.Props.C26_special_soundness",
    "PF.Props.C26_unique_per_commitment"
   ],
   "note": ""
  },
  {
   "property": "C27",
   "status": "proved",
   "theorems": [
    "PF.Props.C27_verify_gadget_iff",
    "PF.Props.C27_is_valid_gadget",
    "PF.Props.C27_allocated_signatures"
   ],
   "note": ""
  },
  {
   "property": "C28",
   "status": "proved",
   "theorems": [
    "PF.Props.C28_enforce_lt_iff"
   ],
   "note": ""
  },
  {
   "property": "C29",
   "status": "proved",
   "theorems": [
    "PF.Props.C29_to_n_bits"
   ],
   "note": ""
  },
  {
   "property": "C30",
   "status": "proved",
   "theorems": [
    "PF.Props.C30_zero_key_exact",
    "PF.Props.C30_zero_key_forgery"
   ],
   "note": "Exact. 'Signatures under the identity key are rejected' is refuted: C30_zero_key_forgery."
  },
  {
   "property": "C31",
   "status": "proved",
   "theorems": [
    "PF.Props.C31_poseidon_accumulator",
    "PF.Props.C31_sha_accumulator"
   ],
   "note": ""
  },
  {
   "property": "C32",
   "status": "proved",
   "theorems": [
    "PF.Props.C32_gadgets_compute_native_bytes",
    "PF.Props.C32_points",
    "PF.Props.C32_bn254",
    "PF.Props.C32_field_bytes"
   ],
   "note": ""
  },
  {
   "property": "C33",
   "status": "proved",
   "theorems": [
    "PF.Props.C33_bookkeeping",
    "PF.Props.C33_witness",
    "PF.Props.C33_exact_debug",
    "PF.Props.C33_debug_decision",
    "PF.Props.C33_surplus",
    "PF.Props.C33_exact_release"
   ],
   "note": "Exact. 'The balance is always what the user owns' is refuted: C33_witness, exact surplus in C33_surplus."
  },
  {
   "property": "C34",
   "status": "proved",
   "theorems": [
    "PF.Props.C34_l1_conserved",
    "PF.Props.C34_l1_conserved_mod",
    "PF.Props.C34_release_wraps"
   ],
   "note": ""
  },
  {
   "property": "C35",
   "status": "proved",
   "theorems": [
    "PF.Props.C35_deposits_exact",
    "PF.Props.C35_deposit_panics_iff"
   ],
   "note": ""
  },
  {
   "property": "C36",
   "status": "proved",
   "theorems": [
    "PF.Props.C36_registry"
   ],
   "note": ""
  },
  {
   "property": "C37",
   "status": "proved",
   "theorems": [
    "PF.Props.C37_public_inputs_bind",
    "PF.Props.C37_indices",
    "PF.Props.C37_derivation_total",
    "PF.Props.C37_height_not_bound"
   ],
   "note": ""
  },
  {
   "property": "C38",
   "status": "proved",
   "theorems": [
    "PF.Props.C38_utxo_tree_mirrors"
   ],
   "note": ""
  },
  {
   "property": "C39",
   "status": "proved",
   "theorems": [
    "PF.Props.C39_accounting",
    "PF.Props.C39_history",
    "PF.Props.C39_history_iff_reach",
    "PF.Props.C39_no_double_spend",
    "PF.Props.C39_refused_iff",
    "PF.Props.C39_slots_used_once"
   ],
   "note": ""
  },
  {
   "property": "C40",
   "status": "proved",
   "theorems": [
    "PF.Props.C40_supply",
    "PF.Props.C40_unbacked_mint"
   ],
   "note": ""
  },
  {
   "property": "C41",
   "status": "proved",
   "theorems": [
    "PF.Props.C41_tx_tree",
    "PF.Props.C41_update_proofs"
   ],
   "note": ""
  },
  {
   "property": "C42",
   "status": "proved",
   "theorems": [
    "PF.Props.C42_unsigned_no_effect",
    "PF.Props.C42_records",
    "PF.Props.C42_absent_signature"
   ],
   "note": ""
  },
  {
   "property": "C43",
   "status": "proved",
   "theorems": [
    "PF.Props.C43_appends",
    "PF.Props.C43_outcome"
   ],
   "note": ""
  },
  {
   "property": "C44",
   "status": "proved",
   "theorems": [
    "PF.Props.C44_longest_valid_prefix"
   ],
   "note": ""
  },
  {
   "property": "C45",
   "status": "proved",
   "theorems": [
    "PF.Props.C45_transactions_failed",
    "PF.Props.C45_signatures_failed",
    "PF.Props.C45_utxo_lost",
    "PF.Props.C45_valid_prefix_stays"
   ],
   "note": ""
  },
  {
   "property": "C46",
   "status": "proved",
   "theorems": [
    "PF.Props.C46_removed_only_if_authorised",
    "PF.Props.C46_moved_without_signature"
   ],
   "note": ""
  },
  {
   "property": "C47",
   "status": "proved",
   "theorems": [
    "PF.Props.C47_reset",
    "PF.Props.C47_epoch_like_fresh",
    "PF.Props.C47_height_always_zero",
    "PF.Props.C47_signer_tree_kept"
   ],
   "note": ""
  },
  {
   "property": "C48",
   "status": "proved",
   "theorems": [
    "PF.Props.C48_produce_block"
   ],
   "note": ""
  },
  {
   "property": "C49",
   "status": "proved",
   "theorems": [
    "PF.Props.C49_split",
    "PF.Props.C49_second_call_repeats"
   ],
   "note": ""
  },
  {
   "property": "C50",
   "status": "proved",
   "theorems": [
    "PF.Props.C50_runs_are_ledger_transitions",
    "PF.Props.C50_honest_runs_accepted"
   ],
   "note": ""
  },
  {
   "property": "C51",
   "status": "proved",
   "theorems": [
    "PF.Props.C51_removed_only_by_owner",
    "PF.Props.C51_every_removal"
   ],
   "note": ""
  },
  {
   "property": "C52",
   "status": "proved",
   "theorems": [
    "PF.Props.C52_unauthorised_is_inert",
    "PF.Props.C52_created_only_if_authorised"
   ],
   "note": ""
  },
  {
   "property": "C53",
   "status": "proved",
   "theorems": [
    "PF.Props.C53_full_mode_conservation"
   ],
   "note": ""
  },
  {
   "property": "C54",
   "status": "proved",
   "theorems": [
    "PF.Props.C54_conservation_if_in_range",
    "PF.Props.C54_conservation_in_field",
    "PF.Props.C54_unsigned_mint_unrecorded",
    "PF.Props.C54_signed_inflation"
   ],
   "note": ""
  },
  {
   "property": "C55",
   "status": "proved",
   "theorems": [
    "PF.Props.C55_withdrawals_recorded",
    "PF.Props.C55_unsigned_withdrawal_from_nothing"
   ],
   "note": ""
  },
  {
   "property": "C56",
   "status": "proved",
   "theorems": [
    "PF.Props.C56_counter_and_final_root",
    "PF.Props.C56_transactions_listed",
    "PF.Props.C56_signers_listed",
    "PF.Props.C56_capacity"
   ],
   "note": ""
  },
  {
   "property": "C57",
   "status": "proved",
   "theorems": [
    "PF.Props.C57_first_epoch"
   ],
   "note": ""
  },
  {
   "property": "C58",
   "status": "proved",
   "theorems": [
    "PF.Props.C58_signer_tree_over_epochs",
    "PF.Props.C58_provable_on_free_positions",
    "PF.Props.C58_unprovable_on_signed_position"
   ],
   "note": ""
  },
  {
   "property": "C59",
   "status": "proved",
   "theorems": [
    "PF.Props.C59_no_double_spend",
    "PF.Props.C59_copies"
   ],
   "note": ""
  },
  {
   "property": "C60",
   "status": "proved",
   "theorems": [
    "PF.Props.C60_batching_irrelevant",
    "PF.Props.C60_batch_is_single_steps"
   ],
   "note": ""
  },
  {
   "property": "C61",
   "status": "proved",
   "theorems": [
    "PF.Props.C61_balance_and_nonce",
    "PF.Props.C61_exact_integers"
   ],
   "note": ""
  },
  {
   "property": "C62",
   "status": "proved",
   "theorems": [
    "PF.Props.C62_within_block",
    "PF.Props.C62_reentry",
    "PF.Props.C62_counted_twice",
    "PF.Props.C62_counted_once",
    "PF.Props.C62_counted_many_times"
   ],
   "note": "'Counted at most once' is refuted: C62_counted_many_times, C71_replay; proved are the exact exceptions."
  },
  {
   "property": "C63",
   "status": "proved",
   "theorems": [
    "PF.Props.C63_heights"
   ],
   "note": ""
  },
  {
   "property": "C64",
   "status": "proved",
   "theorems": [
    "PF.Props.C64_padding_inert",
    "PF.Props.C64_state_condition",
    "PF.Props.C64_identity_key"
   ],
   "note": ""
  },
  {
   "property": "C65",
   "status": "proved",
   "theorems": [
    "PF.Props.C65_identity"
   ],
   "note": ""
  },
  {
   "property": "C66",
   "status": "proved",
   "theorems": [
    "PF.Props.C66_inclusion"
   ],
   "note": ""
  },
  {
   "property": "C67",
   "status": "proved",
   "theorems": [
    "PF.Props.C67_signer_somewhere",
    "PF.Props.C67_unsigned_transaction_counted"
   ],
   "note": "'Signed at its own position' is refuted: C67_unsigned_transaction_counted; exact condition in C69_exact."
  },
  {
   "property": "C68",
   "status": "proved",
   "theorems": [
    "PF.Props.C68_exact",
    "PF.Props.C68_clean_transactions",
    "PF.Props.C68_dummy_output_mints"
   ],
   "note": "'Dummies contribute nothing' is refuted: C68_dummy_output_mints; exact in C68_exact."
  },
  {
   "property": "C69",
   "status": "proved",
   "theorems": [
    "PF.Props.C69_index_range",
    "PF.Props.C69_any_alias_accepted",
    "PF.Props.C69_exact"
   ],
   "note": "'The index is in range' is refuted: C69_any_alias_accepted; exact in C69_exact."
  },
  {
   "property": "C70",
   "status": "proved",
   "theorems": [
    "PF.Props.C70_every_position",
    "PF.Props.C70_first_position_never"
   ],
   "note": ""
  },
  {
   "property": "C71",
   "status": "proved",
   "theorems": [
    "PF.Props.C71_own_blocks",
    "PF.Props.C71_left_for_good",
    "PF.Props.C71_between",
    "PF.Props.C71_replay"
   ],
   "note": "'A block once left cannot be processed again' is refuted for equal heights: C71_replay."
  },
  {
   "property": "C72",
   "status": "proved",
   "theorems": [
    "PF.Props.C72_accumulator",
    "PF.Props.C72_accumulator_any_length",
    "PF.Props.C72_sha",
    "PF.Props.C72_poseidon_value",
    "PF.Props.C72_sha_value",
    "PF.Props.C72_poseidon",
    "PF.Props.C72_blocks"
   ],
   "note": ""
  },
  {
   "property": "C73",
   "status": "proved",
   "theorems": [
    "PF.Props.C73_deltas_sum_to_zero"
   ],
   "note": ""
  },
  {
   "property": "C74",
   "status": "proved",
   "theorems": [
    "PF.Props.C74_accepted_block",
    "PF.Props.C74_block_roots",
    "PF.Props.C74_block_value"
   ],
   "note": ""
  },
  {
   "property": "C75",
   "status": "proved",
   "theorems": [
    "PF.Props.C75_recorded_balance",
    "PF.Props.C75_funds_not_checked",
    "PF.Props.C75_balance_wraps"
   ],
   "note": "'Overspending is rejected' is refuted: C75_balance_wraps, C75_funds_not_checked."
  },
  {
   "property": "C76",
   "status": "proved",
   "theorems": [
    "PF.Props.C76_call",
    "PF.Props.C76_history",
    "PF.Props.C76_balance"
   ],
   "note": ""
  },
  {
   "property": "C77",
   "status": "proved",
   "theorems": [
    "PF.Props.C77_balance_is_ledger"
   ],
   "note": ""
  },
  {
   "property": "C78",
   "status": "proved",
   "theorems": [
    "PF.Props.C78_honest_client",
    "PF.Props.C78_accepted_transactions"
   ],
   "note": ""
  },
  {
   "property": "C79",
   "status": "proved",
   "theorems": [
    "PF.Props.C79_counted_listed",
    "PF.Props.C79_listed_countable",
    "PF.Props.C79_unexecuted_transaction_counted"
   ],
   "note": ""
  },
  {
   "property": "C80",
   "status": "proved",
   "theorems": [
    "PF.Props.C80_backed",
    "PF.Props.C80_balance_out_of_nothing"
   ],
   "note": "The unconditional statement is refuted: C80_balance_out_of_nothing."
  },
  {
   "property": "C81",
   "status": "proved",
   "theorems": [
    "PF.Props.C81_id_is_position",
    "PF.Props.C81_native_path_id",
    "PF.Props.C81_membership_agrees",
    "PF.Props.C81_id_binds_key",
    "PF.Props.C81_true_path_accepted"
   ],
   "note": ""
  },
  {
   "property": "C82",
   "status": "proved",
   "theorems": [
    "PF.Props.C82_update_sound",
    "PF.Props.C82_update_complete",
    "PF.Props.C82_result_must_be_enforced"
   ],
   "note": ""
  },
  {
   "property": "C83",
   "status": "proved",
   "theorems": [
    "PF.Props.C83_nonce_proof_accepted",
    "PF.Props.C83_nonce_bound"
   ],
   "note": ""
  },
  {
   "property": "C84",
   "status": "proved",
   "theorems": [
    "PF.Props.C84_wallet_drift",
    "PF.Props.C84_agree_iff",
    "PF.Props.C84_change_credited_too_much"
   ],
   "note": ""
  },
  {
   "property": "C85",
   "status": "proved",
   "theorems": [
    "PF.Props.C85_accepts_iff"
   ],
   "note": ""
  },
  {
   "property": "C86",
   "status": "proved",
   "theorems": [
    "PF.Props.C86_client_deterministic",
    "PF.Props.C86_aggregator_step_deterministic",
    "PF.Props.C86_aggregator_deterministic"
   ],
   "note": ""
  },
  {
   "property": "C87",
   "status": "proved",
   "theorems": [
    "PF.Props.C87_validate_exact",
    "PF.Props.C87_validate_sound",
    "PF.Props.C87_stray_node_accepted",
    "PF.Props.C87_tampered_ancestor",
    "PF.Props.C87_tampered_leaf"
   ],
   "note": "Without the condition on stray nodes it is refuted: C87_stray_node_accepted."
  },
  {
   "property": "C88",
   "status": "proved",
   "theorems": [
    "PF.Props.C88_binds_message",
    "PF.Props.C88_binds_key",
    "PF.Props.C88_zero_challenge",
    "PF.Props.C88_binds_block"
   ],
   "note": ""
  },
  {
   "property": "C89",
   "status": "proved",
   "theorems": [
    "PF.Props.C89_depends_on_transactions_only",
    "PF.Props.C89_replay",
    "PF.Props.C89_old_signature_spends_new_deposit"
   ],
   "note": ""
  },
  {
   "property": "C90",
   "status": "proved",
   "theorems": [
    "PF.Props.C90_client_vector_shape",
    "PF.Props.C90_client_step",
    "PF.Props.C90_client_run",
    "PF.Props.C90_aggregator_vector_shape",
    "PF.Props.C90_aggregator_run"
   ],
   "note": ""
  },
  {
   "property": "C91",
   "status": "proved",
   "theorems": [
    "PF.Props.C91_provable_if",
    "PF.Props.C91_provable_only_if",
    "PF.Props.C91_contract_holds_nothing",
    "PF.Props.C91_unsigned_withdrawal_blocks",
    "PF.Props.C91_unanswered_blocks",
    "PF.Props.C91_wrong_key_blocks",
    "PF.Props.C91_overflow_blocks",
    "PF.Props.C91_signed_deposit_blocks"
   ],
   "note": ""
  },
  {
   "property": "C92",
   "status": "proved",
   "theorems": [
    "PF.Props.C92_moduli_prime",
    "PF.Props.C92_coordinates",
    "PF.Props.C92_group_order",
    "PF.Props.C92_one_secret_per_key",
    "PF.Props.C92_sign"
   ],
   "note": ""
  },
  {
   "property": "C93",
   "status": "proved",
   "theorems": [
    "PF.Props.C93_sponge",
    "PF.Props.C93_lengths",
    "PF.Props.C93_same_length_collision",
    "PF.Props.C93_transactions",
    "PF.Props.C93_utxos",
    "PF.Props.C93_zeros_collide",
    "PF.Props.C93_leaf_is_node"
   ],
   "note": ""
  },
  {
   "property": "C94",
   "status": "proved",
   "theorems": [
    "PF.Props.C94_deposit_iff_contract",
    "PF.Props.C94_no_inputs",
    "PF.Props.C94_user_deposit"
   ],
   "note": ""
  },
  {
   "property": "C95",
   "status": "proved",
   "theorems": [
    "PF.Props.C95_user_signs",
    "PF.Props.C95_new_user",
    "PF.Props.C95_state_injective"
   ],
   "note": ""
  },
  {
   "property": "C96",
   "status": "proved",
   "theorems": [
    "PF.Props.C96_derivation_ignores_funds",
    "PF.Props.C96_unbacked_epoch"
   ],
   "note": ""
  },
  {
   "property": "C97",
   "status": "proved",
   "theorems": [
    "PF.Props.C97_refines",
    "PF.Props.C97_every_call",
    "PF.Props.C97_root_commits_to_pool"
   ],
   "note": ""
  },
  {
   "property": "C98",
   "status": "proved",
   "theorems": [
    "PF.Props.C98_prove_transactions",
    "PF.Props.C98_utxo_overflow",
    "PF.Props.C98_no_refusal",
    "PF.Props.C98_overfull_epoch",
    "PF.Props.C98_overfull_utxo_tree"
   ],
   "note": ""
  },
  {
   "property": "C99",
   "status": "proved",
   "theorems": [
    "PF.Props.C99_equal_roots",
    "PF.Props.C99_equal_blocks",
    "PF.Props.C99_transactions_exact",
    "PF.Props.C99_default_transaction_invisible"
   ],
   "note": ""
  },
  {
   "property": "C100",
   "status": "proved",
   "theorems": [
    "PF.Props.C100_enforce_lt",
    "PF.Props.C100_to_n_bits",
    "PF.Props.C100_membership",
    "PF.Props.C100_signature",
    "PF.Props.C100_aggregator",
    "PF.Props.C100_client",
    "PF.Props.C100_honest_epoch"
   ],
   "note": ""
  },
  {
   "property": "C101",
   "status": "proved",
   "theorems": [
    "PF.Props.C101_aggregator_panic",
    "PF.Props.C101_client_panic",
    "PF.Props.C101_recorded_inputs",
    "PF.Props.C101_default_inputs"
   ],
   "note": ""
  },
  {
   "property": "C102",
   "status": "proved",
   "theorems": [
    "PF.Props.C102_ledger",
    "PF.Props.C102_no_double_spend",
    "PF.Props.C102_copies",
    "PF.Props.C102_removed_only_by_owner",
    "PF.Props.C102_every_removal",
    "PF.Props.C102_value",
    "PF.Props.C102_solvency",
    "PF.Props.C102_insolvency"
   ],
   "note": ""
  },
  {
   "property": "C103",
   "status": "proved",
   "theorems": [
    "PF.Props.C103_child_wraps",
    "PF.Props.C103_width_agrees",
    "PF.Props.C103_in_range_agrees",
    "PF.Props.C103_overflow_debug",
    "PF.Props.C103_overflow_release",
    "PF.Props.C103_boundary_release"
   ],
   "note": ""
  },
  {
   "property": "C104",
   "status": "proved",
   "theorems": [
    "PF.Props.C104_only_multiples",
    "PF.Props.C104_driver_drops",
    "PF.Props.C104_padding",
    "PF.Props.C104_padded_epoch_provable"
   ],
   "note": ""
  },
  {
   "property": "C105",
   "status": "proved",
   "theorems": [
    "PF.Props.C105_key_balance",
    "PF.Props.C105_client_balance",
    "PF.Props.C105_backed"
   ],
   "note": ""
  },
  {
   "property": "C106",
   "status": "proved",
   "theorems": [
    "PF.Props.C106_deposit_sound",
    "PF.Props.C106_withdraw_sound",
    "PF.Props.C106_complete",
    "PF.Props.C106_root_binds",
    "PF.Props.C106_index_aliases"
   ],
   "note": ""
  },
  {
   "property": "C107",
   "status": "proved",
   "theorems": [
    "PF.Props.C107_default_membership",
    "PF.Props.C107_default_switched_off",
    "PF.Props.C107_default_user_step",
    "PF.Props.C107_default_aggregator_step"
   ],
   "note": ""
  },
  {
   "property": "C108",
   "status": "proved",
   "theorems": [
    "PF.Props.C108_block_lists",
    "PF.Props.C108_counted_listed",
    "PF.Props.C108_countable",
    "PF.Props.C108_balance_out_of_nothing"
   ],
   "note": ""
  },
  {
   "property": "C109",
   "status": "proved",
   "theorems": [
    "PF.Props.C109_lifetime_bound",
    "PF.Props.C109_at_most_4096",
    "PF.Props.C109_position_once",
    "PF.Props.C109_chain"
   ],
   "note": ""
  },
  {
   "property": "C110",
   "status": "proved",
   "theorems": [
    "PF.Props.C110_outcome",
    "PF.Props.C110_one_level_beyond",
    "PF.Props.C110_out_of_range_corrupts",
    "PF.Props.C110_overflow_debug",
    "PF.Props.C110_wraps_release"
   ],
   "note": ""
  },
  {
   "property": "C111",
   "status": "proved",
   "theorems": [
    "PF.Props.C111_claims",
    "PF.Props.C111_every_selection",
    "PF.Props.C111_own_positions",
    "PF.Props.C111_spending_omitted",
    "PF.Props.C111_income_multiplied",
    "PF.Props.C111_chain",
    "PF.Props.C111_produced_blocks"
   ],
   "note": ""
  },
  {
   "property": "C112",
   "status": "proved",
   "theorems": [
    "PF.Props.C112_order_matters",
    "PF.Props.C112_executes_iff",
    "PF.Props.C112_same_contents",
    "PF.Props.C112_submission_order",
    "PF.Props.C112_any_order",
    "PF.Props.C112_swap"
   ],
   "note": ""
  },
  {
   "property": "C113",
   "status": "proved",
   "theorems": [
    "PF.Props.C113_still_provable",
    "PF.Props.C113_withheld"
   ],
   "note": ""
  },
  {
   "property": "C114",
   "status": "proved",
   "theorems": [
    "PF.Props.C114_can_execute",
    "PF.Props.C114_frozen",
    "PF.Props.C114_capacity",
    "PF.Props.C114_spend"
   ],
   "note": ""
  },
  {
   "property": "C115",
   "status": "proved",
   "theorems": [
    "PF.Props.C115_plan",
    "PF.Props.C115_keeps_up",
    "PF.Props.C115_solvent",
    "PF.Props.C115_same_block"
   ],
   "note": ""
  },
  {
   "property": "C116",
   "status": "proved",
   "theorems": [
    "PF.Props.C116_writing_default_stores",
    "PF.Props.C116_stored",
    "PF.Props.C116_same",
    "PF.Props.C116_size",
    "PF.Props.C116_update"
   ],
   "note": ""
  },
  {
   "property": "C117",
   "status": "proved",
   "theorems": [
    "PF.Props.C117_stored",
    "PF.Props.C117_grows",
    "PF.Props.C117_not_freed"
   ],
   "note": ""
  },
  {
   "property": "C118",
   "status": "proved",
   "theorems": [
    "PF.Props.C118_exact",
    "PF.Props.C118_key_independent",
    "PF.Props.C118_nonce_reuse",
    "PF.Props.C118_nonce_known",
    "PF.Props.C118_simulated",
    "PF.Props.C118_rests_on_hash"
   ],
   "note": ""
  },
  {
   "property": "C119",
   "status": "proved",
   "theorems": [
    "PF.Props.C119_aggregator_program",
    "PF.Props.C119_client_program",
    "PF.Props.C119_recorded_inputs",
    "PF.Props.C119_client_setup",
    "PF.Props.C119_aggregator_values",
    "PF.Props.C119_client_values"
   ],
   "note": ""
  },
  {
   "property": "C120",
   "status": "proved",
   "theorems": [
    "PF.Props.C120_client_claims",
    "PF.Props.C120_client_every_selection",
    "PF.Props.C120_aggregator",
    "PF.Props.C120_client",
    "PF.Props.C120_aggregator_folded",
    "PF.Props.C120_client_folded",
    "PF.Props.C120_block_value"
   ],
   "note": ""
  },
  {
   "property": "C121",
   "status": "proved",
   "theorems": [
    "PF.Props.C121_aggregator",
    "PF.Props.C121_client",
    "PF.Props.C121_aggregator_inputs",
    "PF.Props.C121_client_inputs",
    "PF.Props.C121_aggregator_deterministic",
    "PF.Props.C121_client_deterministic",
    "PF.Props.C121_aggregator_folded_deterministic",
    "PF.Props.C121_client_folded_deterministic"
   ],
   "note": ""
  },
  {
   "property": "C122",
   "status": "proved",
   "theorems": [
    "PF.Props.C122_unique_response",
    "PF.Props.C122_response_modulo_order",
    "PF.Props.C122_second_string",
    "PF.Props.C122_accepted_strings",
    "PF.Props.C122_step_uses_validity_only",
    "PF.Props.C122_run_uses_validity_only",
    "PF.Props.C122_aggregator_uses_validity_only"
   ],
   "note": ""
  },
  {
   "property": "C123",
   "status": "proved",
   "theorems": [
    "PF.Props.C123_one_user_stops_an_epoch",
    "PF.Props.C123_unregistered_signer",
    "PF.Props.C123_one_user_uses_everything_up",
    "PF.Props.C123_then_nothing"
   ],
   "note": ""
  },
  {
   "property": "C124",
   "status": "proved",
   "theorems": [
    "PF.Props.C124_derivation_is_stable",
    "PF.Props.C124_production_is_stable",
    "PF.Props.C124_registry_does_not_matter",
    "PF.Props.C124_account_numbers_wrap",
    "PF.Props.C124_last_account_is_the_contract"
   ],
   "note": ""
  },
  {
   "property": "C125",
   "status": "proved",
   "theorems": [
    "PF.Props.C125_unused_inputs",
    "PF.Props.C125_slots_determine_the_result",
    "PF.Props.C125_any_slots",
    "PF.Props.C125_choice_shows"
   ],
   "note": ""
  },
  {
   "property": "C126",
   "status": "proved",
   "theorems": [
    "PF.Props.C126_same_for_every_rollup",
    "PF.Props.C126_replay_elsewhere",
    "PF.Props.C126_signature_spends_elsewhere",
    "PF.Props.C126_same_circuit"
   ],
   "note": ""
  },
  {
   "property": "C127",
   "status": "proved",
   "theorems": [
    "PF.Props.C127_aggregator_layout",
    "PF.Props.C127_aggregator_size",
    "PF.Props.C127_aggregator_calls",
    "PF.Props.C127_client_layout",
    "PF.Props.C127_client_size",
    "PF.Props.C127_client_calls"
   ],
   "note": ""
  },
  {
   "property": "C128",
   "status": "proved",
   "theorems": [
    "PF.Props.C128_accepted_iff",
    "PF.Props.C128_order_irrelevant",
    "PF.Props.C128_registration_order",
    "PF.Props.C128_same_public_inputs"
   ],
   "note": ""
  },
  {
   "property": "C129",
   "status": "proved",
   "theorems": [
    "PF.Props.C129_same_verdict",
    "PF.Props.C129_all_copies",
    "PF.Props.C129_one_signature_many_payments"
   ],
   "note": ""
  },
  {
   "property": "C130",
   "status": "proved",
   "theorems": [
    "PF.Props.C130_pay_any_amount",
    "PF.Props.C130_no_fewer"
   ],
   "note": ""
  }
 ]
}
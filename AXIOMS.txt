'PF.Props.C01_root_of_contents' depends on axioms: [propext, Classical.choice, Quot.sound]
'PF.Props.C01_history_independent' depends on axioms: [propext, Classical.choice, Quot.sound]
'PF.Props.C02_new_eq_incremental' depends on axioms: [propext, Classical.choice, Quot.sound]
'PF.Props.C02_new_empty' depends on axioms: [propext, Classical.choice, Quot.sound]
'PF.Props.C03_membership_complete' depends on axioms: [propext, Classical.choice, Quot.sound]
'PF.Props.C04_indexed_sound' depends on axioms: [propext, Classical.choice, Quot.sound]
'PF.Props.C04_two_paths' depends on axioms: [propext, Classical.choice, Quot.sound]
'PF.Props.C04_tree' depends on axioms: [propext, Classical.choice, Quot.sound]
'PF.Props.C05_membership_sound' depends on axioms: [propext, Classical.choice, Quot.sound]
'PF.Props.C05_tree' depends on axioms: [propext, Classical.choice, Quot.sound]
'PF.Props.C06_update_complete' depends on axioms: [propext, Classical.choice, Quot.sound]
'PF.Props.C07_update_sound' depends on axioms: [propext, Classical.choice, Quot.sound]
'PF.Props.C07_tree' depends on axioms: [propext, Classical.choice, Quot.sound]
'PF.Props.C08_out_of_range_rejected' depends on axioms: [propext, Classical.choice, Quot.sound]
'PF.Props.C08_panics' depends on axioms: [propext, Classical.choice, Quot.sound]
'PF.Props.C09_validate' depends on axioms: [propext, Classical.choice, Quot.sound]
'PF.Props.C09_validate_ignores_root' depends on axioms: [propext, Quot.sound]
'PF.Props.C10_write_frame' depends on axioms: [propext, Classical.choice, Quot.sound]
'PF.Props.C10_write_never_refused' depends on axioms: [propext, Classical.choice, Quot.sound]
'PF.Props.C10_out_of_range' depends on axioms: [propext, Classical.choice, Quot.sound]
'PF.Props.C10_out_of_range_corrupts' depends on axioms: [propext, Classical.choice, Quot.sound]
'PF.Props.C11_wrong_leaf' depends on axioms: [propext, Classical.choice, Quot.sound]
'PF.Props.C11_unwritten_position' depends on axioms: [propext, Classical.choice, Quot.sound]
'PF.Props.C11_exact' depends on axioms: [propext, Classical.choice, Quot.sound]
'PF.Props.C11_proof_is_the_path' depends on axioms: [propext, Classical.choice, Quot.sound]
'PF.Props.C12_indexed_gadget_iff_native' depends on axioms: [propext, Classical.choice, Quot.sound]
'PF.Props.C13_conditional_gadgets' depends on axioms: [propext, Classical.choice, Quot.sound]
'PF.Props.C14_update_gadget_iff_native' depends on axioms: [propext, Classical.choice, Quot.sound]
'PF.Props.C15_index_binding' depends on axioms: [propext, Classical.choice, Quot.sound]
'PF.Props.C15_update_index_binding' depends on axioms: [propext, Classical.choice, Quot.sound]
'PF.Props.C15_one_position' depends on axioms: [propext, Classical.choice, Quot.sound]
'PF.Props.C15_index_aliasing' depends on axioms: [propext, Classical.choice, Quot.sound]
'PF.Props.C15_witness' depends on axioms: [propext, Classical.choice, Quot.sound]
'PF.Props.C16_membership_gadget_iff_native' depends on axioms: [propext, Quot.sound]
'PF.Props.C17_tx_encoding_injective' depends on axioms: [propext, Classical.choice, Quot.sound]
'PF.Props.C17_tx_var_encoding_injective' depends on axioms: [propext, Classical.choice, Quot.sound]
'PF.Props.C17_circuit_encoding_eq' depends on axioms: [propext, Quot.sound]
'PF.Props.C17_signed_message_injective' depends on axioms: [propext, Classical.choice, Quot.sound]
'PF.Props.C18_digests_bind' depends on axioms: [propext, Classical.choice, Quot.sound]
'PF.Props.C18_gadgets_agree' depends on axioms: [propext, Classical.choice, Quot.sound]
'PF.Props.C18_tree_configs' depends on axioms: [propext, Classical.choice, Quot.sound]
'PF.Props.C18_tree_defaults' depends on axioms: [propext, Quot.sound]
'PF.Props.C18_block_digest_ignores_lists' depends on axioms: [propext, Quot.sound]
'PF.Props.C19_by_value_encoding' depends on axioms: [propext, Classical.choice, Quot.sound]
'PF.Props.C19_witness' depends on axioms: [propext, Quot.sound]
'PF.Props.C20_is_valid_decision' depends on axioms: [propext, Classical.choice, Quot.sound]
'PF.Props.C20_dummies_irrelevant' depends on axioms: [propext]
'PF.Props.C20_default_sender' depends on axioms: [propext]
'PF.Props.C21_conservation' depends on axioms: [propext, Classical.choice, Quot.sound]
'PF.Props.C21_witness' depends on axioms: [propext, Classical.choice, Quot.sound]
'PF.Props.C22_circuit_validity_iff_native' depends on axioms: [propext, Classical.choice, Quot.sound]
'PF.Props.C22_circuit_validity_exact' depends on axioms: [propext, Classical.choice, Quot.sound]
'PF.Props.C23_enforce_valid_iff' depends on axioms: [propext, Classical.choice, Quot.sound]
'PF.Props.C23_range_needed' depends on axioms: [propext, Quot.sound]
'PF.Props.C24_get_signer' depends on axioms: [propext, Quot.sound]
'PF.Props.C24_last_non_dummy' depends on axioms: [propext, Quot.sound]
'PF.Props.C25_sign_verifies' depends on axioms: [propext, Classical.choice, Quot.sound]
'PF.Props.C25_sign_progress' depends on axioms: [propext, Classical.choice, Quot.sound]
'PF.Props.C26_special_soundness' depends on axioms: [propext, Classical.choice, Quot.sound]
'PF.Props.C26_unique_per_commitment' depends on axioms: [propext, Classical.choice, Quot.sound]
'PF.Props.C27_verify_gadget_iff' depends on axioms: [propext, Classical.choice, Quot.sound]
'PF.Props.C27_is_valid_gadget' depends on axioms: [propext, Classical.choice, Quot.sound]
'PF.Props.C27_allocated_signatures' depends on axioms: [propext, Classical.choice, Quot.sound]
'PF.Props.C28_enforce_lt_iff' depends on axioms: [propext, Classical.choice, Quot.sound]
'PF.Props.C29_to_n_bits' depends on axioms: [propext, Classical.choice, Quot.sound]
'PF.Props.C30_zero_key_exact' depends on axioms: [propext, Quot.sound]
'PF.Props.C30_zero_key_forgery' depends on axioms: [propext, Quot.sound]
'PF.Props.C31_poseidon_accumulator' depends on axioms: [propext, Classical.choice, Quot.sound]
'PF.Props.C31_sha_accumulator' depends on axioms: [propext, Classical.choice, Quot.sound]
'PF.Props.C32_gadgets_compute_native_bytes' depends on axioms: [propext, Classical.choice, Quot.sound]
'PF.Props.C32_points' depends on axioms: [propext, Classical.choice, Quot.sound]
'PF.Props.C32_bn254' depends on axioms: [propext, Classical.choice, Quot.sound]
'PF.Props.C32_field_bytes' depends on axioms: [propext, Quot.sound]
'PF.Props.C33_bookkeeping' depends on axioms: [propext, Quot.sound]
'PF.Props.C33_witness' depends on axioms: [propext, Quot.sound]
'PF.Props.C33_exact_debug' depends on axioms: [propext, Quot.sound]
'PF.Props.C33_debug_decision' depends on axioms: [propext, Classical.choice, Quot.sound]
'PF.Props.C33_surplus' depends on axioms: [propext, Classical.choice, Quot.sound]
'PF.Props.C33_exact_release' depends on axioms: [propext, Classical.choice, Quot.sound]
'PF.Props.C34_l1_conserved' depends on axioms: [propext, Classical.choice, Quot.sound]
'PF.Props.C34_l1_conserved_mod' depends on axioms: [propext, Classical.choice, Quot.sound]
'PF.Props.C34_release_wraps' depends on axioms: [propext]
'PF.Props.C35_deposits_exact' depends on axioms: [propext, Classical.choice, Quot.sound]
'PF.Props.C35_deposit_panics_iff' depends on axioms: [propext, Classical.choice, Quot.sound]
'PF.Props.C36_registry' depends on axioms: [propext, Classical.choice, Quot.sound]
'PF.Props.C37_public_inputs_bind' depends on axioms: [propext, Classical.choice, Quot.sound]
'PF.Props.C37_indices' depends on axioms: [propext, Quot.sound]
'PF.Props.C37_derivation_total' depends on axioms: [propext, Classical.choice, Quot.sound]
'PF.Props.C37_height_not_bound' depends on axioms: [propext, Quot.sound]
'PF.Props.C38_utxo_tree_mirrors' depends on axioms: [propext, Classical.choice, Quot.sound]
'PF.Props.C39_accounting' depends on axioms: [propext, Classical.choice, Quot.sound]
'PF.Props.C39_history' depends on axioms: [propext, Classical.choice, Quot.sound]
'PF.Props.C39_history_iff_reach' depends on axioms: [propext, Classical.choice, Quot.sound]
'PF.Props.C39_no_double_spend' depends on axioms: [propext, Classical.choice, Quot.sound]
'PF.Props.C39_refused_iff' depends on axioms: [propext, Classical.choice, Quot.sound]
'PF.Props.C39_slots_used_once' depends on axioms: [propext, Classical.choice, Quot.sound]
'PF.Props.C40_supply' depends on axioms: [propext, Classical.choice, Quot.sound]
'PF.Props.C40_unbacked_mint' depends on axioms: [propext, Classical.choice, Quot.sound]
'PF.Props.C41_tx_tree' depends on axioms: [propext, Classical.choice, Quot.sound]
'PF.Props.C41_update_proofs' depends on axioms: [propext, Classical.choice, Quot.sound]
'PF.Props.C42_unsigned_no_effect' depends on axioms: [propext, Classical.choice, Quot.sound]
'PF.Props.C42_records' depends on axioms: [propext, Classical.choice, Quot.sound]
'PF.Props.C42_absent_signature' depends on axioms: [propext, Quot.sound]
'PF.Props.C43_appends' depends on axioms: [propext, Classical.choice, Quot.sound]
'PF.Props.C43_outcome' depends on axioms: [propext, Classical.choice, Quot.sound]
'PF.Props.C44_longest_valid_prefix' depends on axioms: [propext, Classical.choice, Quot.sound]
'PF.Props.C45_transactions_failed' depends on axioms: [propext, Quot.sound]
'PF.Props.C45_signatures_failed' depends on axioms: [propext, Classical.choice, Quot.sound]
'PF.Props.C45_utxo_lost' depends on axioms: [propext, Classical.choice, Quot.sound]
'PF.Props.C45_valid_prefix_stays' depends on axioms: [propext, Classical.choice, Quot.sound]
'PF.Props.C46_removed_only_if_authorised' depends on axioms: [propext, Classical.choice, Quot.sound]
'PF.Props.C46_moved_without_signature' depends on axioms: [propext, Classical.choice, Quot.sound]
'PF.Props.C47_reset' depends on axioms: [propext, Quot.sound]
'PF.Props.C47_epoch_like_fresh' depends on axioms: [propext, Classical.choice, Quot.sound]
'PF.Props.C47_height_always_zero' depends on axioms: [propext, Classical.choice, Quot.sound]
'PF.Props.C47_signer_tree_kept' depends on axioms: [propext, Classical.choice, Quot.sound]
'PF.Props.C48_produce_block' depends on axioms: [propext, Classical.choice, Quot.sound]
'PF.Props.C49_split' depends on axioms: [propext, Quot.sound]
'PF.Props.C49_second_call_repeats' depends on axioms: [propext, Classical.choice, Quot.sound]
'PF.Props.C50_runs_are_ledger_transitions' depends on axioms: [propext, Classical.choice, Quot.sound]
'PF.Props.C50_honest_runs_accepted' depends on axioms: [propext, Classical.choice, Quot.sound]
'PF.Props.C51_removed_only_by_owner' depends on axioms: [propext, Classical.choice, Quot.sound]
'PF.Props.C51_every_removal' depends on axioms: [propext, Classical.choice, Quot.sound]
'PF.Props.C52_unauthorised_is_inert' depends on axioms: [propext, Classical.choice, Quot.sound]
'PF.Props.C52_created_only_if_authorised' depends on axioms: [propext, Classical.choice, Quot.sound]
'PF.Props.C53_full_mode_conservation' depends on axioms: [propext, Classical.choice, Quot.sound]
'PF.Props.C54_conservation_if_in_range' depends on axioms: [propext, Classical.choice, Quot.sound]
'PF.Props.C54_conservation_in_field' depends on axioms: [propext, Classical.choice, Quot.sound]
'PF.Props.C54_unsigned_mint_unrecorded' depends on axioms: [propext, Classical.choice, Quot.sound]
'PF.Props.C54_signed_inflation' depends on axioms: [propext, Classical.choice, Quot.sound]
'PF.Props.C55_withdrawals_recorded' depends on axioms: [propext, Classical.choice, Quot.sound]
'PF.Props.C55_unsigned_withdrawal_from_nothing' depends on axioms: [propext, Classical.choice, Quot.sound]
'PF.Props.C56_counter_and_final_root' depends on axioms: [propext, Classical.choice, Quot.sound]
'PF.Props.C56_transactions_listed' depends on axioms: [propext, Classical.choice, Quot.sound]
'PF.Props.C56_signers_listed' depends on axioms: [propext, Classical.choice, Quot.sound]
'PF.Props.C56_capacity' depends on axioms: [propext, Classical.choice, Quot.sound]
'PF.Props.C57_first_epoch' depends on axioms: [propext, Classical.choice, Quot.sound]
'PF.Props.C58_signer_tree_over_epochs' depends on axioms: [propext, Classical.choice, Quot.sound]
'PF.Props.C58_provable_on_free_positions' depends on axioms: [propext, Classical.choice, Quot.sound]
'PF.Props.C58_unprovable_on_signed_position' depends on axioms: [propext, Classical.choice, Quot.sound]
'PF.Props.C59_no_double_spend' depends on axioms: [propext, Classical.choice, Quot.sound]
'PF.Props.C59_copies' depends on axioms: [propext, Classical.choice, Quot.sound]
'PF.Props.C60_batching_irrelevant' depends on axioms: [propext, Classical.choice, Quot.sound]
'PF.Props.C60_batch_is_single_steps' depends on axioms: [propext, Classical.choice, Quot.sound]
'PF.Props.C61_balance_and_nonce' depends on axioms: [propext, Classical.choice, Quot.sound]
'PF.Props.C61_exact_integers' depends on axioms: [propext, Classical.choice, Quot.sound]
'PF.Props.C62_within_block' depends on axioms: [propext, Classical.choice, Quot.sound]
'PF.Props.C62_reentry' depends on axioms: [propext, Classical.choice, Quot.sound]
'PF.Props.C62_counted_twice' depends on axioms: [propext, Classical.choice, Quot.sound]
'PF.Props.C62_counted_once' depends on axioms: [propext, Classical.choice, Quot.sound]
'PF.Props.C62_counted_many_times' depends on axioms: [propext, Classical.choice, Quot.sound]
'PF.Props.C63_heights' depends on axioms: [propext, Classical.choice, Quot.sound]
'PF.Props.C64_padding_inert' depends on axioms: [propext, Classical.choice, Quot.sound]
'PF.Props.C64_state_condition' depends on axioms: [propext, Classical.choice, Quot.sound]
'PF.Props.C64_identity_key' depends on axioms: [propext, Classical.choice, Quot.sound]
'PF.Props.C65_identity' depends on axioms: [propext, Classical.choice, Quot.sound]
'PF.Props.C66_inclusion' depends on axioms: [propext, Classical.choice, Quot.sound]
'PF.Props.C67_signer_somewhere' depends on axioms: [propext, Classical.choice, Quot.sound]
'PF.Props.C67_unsigned_transaction_counted' depends on axioms: [propext, Classical.choice, Quot.sound]
'PF.Props.C68_exact' depends on axioms: [propext, Classical.choice, Quot.sound]
'PF.Props.C68_clean_transactions' depends on axioms: [propext, Classical.choice, Quot.sound]
'PF.Props.C68_dummy_output_mints' depends on axioms: [propext, Classical.choice, Quot.sound]
'PF.Props.C69_index_range' depends on axioms: [propext, Classical.choice, Quot.sound]
'PF.Props.C69_any_alias_accepted' depends on axioms: [propext, Classical.choice, Quot.sound]
'PF.Props.C69_exact' depends on axioms: [propext, Classical.choice, Quot.sound]
'PF.Props.C70_every_position' depends on axioms: [propext, Classical.choice, Quot.sound]
'PF.Props.C70_first_position_never' depends on axioms: [propext, Classical.choice, Quot.sound]
'PF.Props.C71_own_blocks' depends on axioms: [propext, Classical.choice, Quot.sound]
'PF.Props.C71_left_for_good' depends on axioms: [propext, Classical.choice, Quot.sound]
'PF.Props.C71_between' depends on axioms: [propext, Classical.choice, Quot.sound]
'PF.Props.C71_replay' depends on axioms: [propext, Classical.choice, Quot.sound]
'PF.Props.C72_accumulator' depends on axioms: [propext, Classical.choice, Quot.sound]
'PF.Props.C72_accumulator_any_length' depends on axioms: [propext, Classical.choice, Quot.sound]
'PF.Props.C72_sha' depends on axioms: [propext, Classical.choice, Quot.sound]
'PF.Props.C72_poseidon_value' depends on axioms: [propext, Classical.choice, Quot.sound]
'PF.Props.C72_sha_value' depends on axioms: [propext, Classical.choice, Quot.sound]
'PF.Props.C72_poseidon' depends on axioms: [propext, Classical.choice, Quot.sound]
'PF.Props.C72_blocks' depends on axioms: [propext]
'PF.Props.C73_deltas_sum_to_zero' depends on axioms: [propext, Classical.choice, Quot.sound]
'PF.Props.C74_accepted_block' depends on axioms: [propext, Classical.choice, Quot.sound]
'PF.Props.C74_block_roots' depends on axioms: [propext, Classical.choice, Quot.sound]
'PF.Props.C74_block_value' depends on axioms: [propext, Classical.choice, Quot.sound]
'PF.Props.C75_recorded_balance' depends on axioms: [propext, Classical.choice, Quot.sound]
'PF.Props.C75_funds_not_checked' depends on axioms: [propext, Classical.choice, Quot.sound]
'PF.Props.C75_balance_wraps' depends on axioms: [propext, Classical.choice, Quot.sound]
'PF.Props.C76_call' depends on axioms: [propext, Classical.choice, Quot.sound]
'PF.Props.C76_history' depends on axioms: [propext, Classical.choice, Quot.sound]
'PF.Props.C76_balance' depends on axioms: [propext, Classical.choice, Quot.sound]
'PF.Props.C77_balance_is_ledger' depends on axioms: [propext, Classical.choice, Quot.sound]
'PF.Props.C78_honest_client' depends on axioms: [propext, Classical.choice, Quot.sound]
'PF.Props.C78_accepted_transactions' depends on axioms: [propext, Classical.choice, Quot.sound]
'PF.Props.C79_counted_listed' depends on axioms: [propext, Classical.choice, Quot.sound]
'PF.Props.C79_listed_countable' depends on axioms: [propext, Classical.choice, Quot.sound]
'PF.Props.C79_unexecuted_transaction_counted' depends on axioms: [propext, Classical.choice, Quot.sound]
'PF.Props.C80_backed' depends on axioms: [propext, Classical.choice, Quot.sound]
'PF.Props.C80_balance_out_of_nothing' depends on axioms: [propext, Classical.choice, Quot.sound]
'PF.Props.C81_id_is_position' depends on axioms: [propext, Classical.choice, Quot.sound]
'PF.Props.C81_native_path_id' depends on axioms: [propext, Classical.choice, Quot.sound]
'PF.Props.C81_membership_agrees' depends on axioms: [propext, Classical.choice, Quot.sound]
'PF.Props.C81_id_binds_key' depends on axioms: [propext, Classical.choice, Quot.sound]
'PF.Props.C81_true_path_accepted' depends on axioms: [propext, Classical.choice, Quot.sound]
'PF.Props.C82_update_sound' depends on axioms: [propext, Classical.choice, Quot.sound]
'PF.Props.C82_update_complete' depends on axioms: [propext, Classical.choice, Quot.sound]
'PF.Props.C82_result_must_be_enforced' depends on axioms: [propext, Classical.choice, Quot.sound]
'PF.Props.C83_nonce_proof_accepted' depends on axioms: [propext, Classical.choice, Quot.sound]
'PF.Props.C83_nonce_bound' depends on axioms: [propext, Classical.choice, Quot.sound]
'PF.Props.C84_wallet_drift' depends on axioms: [propext, Classical.choice, Quot.sound]
'PF.Props.C84_agree_iff' depends on axioms: [propext, Classical.choice, Quot.sound]
'PF.Props.C84_change_credited_too_much' depends on axioms: [propext, Classical.choice, Quot.sound]
'PF.Props.C85_accepts_iff' depends on axioms: [propext, Classical.choice, Quot.sound]
'PF.Props.C86_client_deterministic' depends on axioms: [propext, Classical.choice, Quot.sound]
'PF.Props.C86_aggregator_step_deterministic' depends on axioms: [propext, Classical.choice, Quot.sound]
'PF.Props.C86_aggregator_deterministic' depends on axioms: [propext, Classical.choice, Quot.sound]
'PF.Props.C87_validate_exact' depends on axioms: [propext, Classical.choice, Quot.sound]
'PF.Props.C87_validate_sound' depends on axioms: [propext, Classical.choice, Quot.sound]
'PF.Props.C87_stray_node_accepted' depends on axioms: [propext]
'PF.Props.C87_tampered_ancestor' depends on axioms: [propext, Classical.choice, Quot.sound]
'PF.Props.C87_tampered_leaf' depends on axioms: [propext, Classical.choice, Quot.sound]
'PF.Props.C88_binds_message' depends on axioms: [propext, Classical.choice, Quot.sound]
'PF.Props.C88_binds_key' depends on axioms: [propext, Classical.choice, Quot.sound]
'PF.Props.C88_zero_challenge' depends on axioms: [propext, Quot.sound]
'PF.Props.C88_binds_block' depends on axioms: [propext, Classical.choice, Quot.sound]
'PF.Props.C89_depends_on_transactions_only' depends on axioms: [propext, Classical.choice, Quot.sound]
'PF.Props.C89_replay' depends on axioms: [propext, Classical.choice, Quot.sound]
'PF.Props.C89_old_signature_spends_new_deposit' depends on axioms: [propext, Classical.choice, Quot.sound]
'PF.Props.C90_client_vector_shape' depends on axioms: [propext, Classical.choice, Quot.sound]
'PF.Props.C90_client_step' depends on axioms: [propext, Classical.choice, Quot.sound]
'PF.Props.C90_client_run' depends on axioms: [propext, Classical.choice, Quot.sound]
'PF.Props.C90_aggregator_vector_shape' depends on axioms: [propext, Classical.choice, Quot.sound]
'PF.Props.C90_aggregator_run' depends on axioms: [propext, Classical.choice, Quot.sound]
'PF.Props.C91_provable_if' depends on axioms: [propext, Classical.choice, Quot.sound]
'PF.Props.C91_provable_only_if' depends on axioms: [propext, Classical.choice, Quot.sound]
'PF.Props.C91_contract_holds_nothing' depends on axioms: [propext, Classical.choice, Quot.sound]
'PF.Props.C91_unsigned_withdrawal_blocks' depends on axioms: [propext, Classical.choice, Quot.sound]
'PF.Props.C91_unanswered_blocks' depends on axioms: [propext, Classical.choice, Quot.sound]
'PF.Props.C91_wrong_key_blocks' depends on axioms: [propext, Classical.choice, Quot.sound]
'PF.Props.C91_overflow_blocks' depends on axioms: [propext, Classical.choice, Quot.sound]
'PF.Props.C91_signed_deposit_blocks' depends on axioms: [propext, Classical.choice, Quot.sound]
'PF.Props.C92_moduli_prime' depends on axioms: [propext, Classical.choice, Quot.sound]
'PF.Props.C92_coordinates' depends on axioms: [propext, Classical.choice, Quot.sound]
'PF.Props.C92_group_order' depends on axioms: [propext, Classical.choice, Quot.sound]
'PF.Props.C92_one_secret_per_key' depends on axioms: [propext, Classical.choice, Quot.sound]
'PF.Props.C92_sign' depends on axioms: [propext, Classical.choice, Quot.sound]
'PF.Props.C93_sponge' depends on axioms: [propext, Classical.choice, Quot.sound]
'PF.Props.C93_lengths' depends on axioms: [propext, Quot.sound]
'PF.Props.C93_same_length_collision' depends on axioms: [propext, Classical.choice, Quot.sound]
'PF.Props.C93_transactions' depends on axioms: [propext, Classical.choice, Quot.sound]
'PF.Props.C93_utxos' depends on axioms: [propext, Classical.choice, Quot.sound]
'PF.Props.C93_zeros_collide' depends on axioms: [propext, Classical.choice, Quot.sound]
'PF.Props.C93_leaf_is_node' depends on axioms: [propext, Classical.choice, Quot.sound]
'PF.Props.C94_deposit_iff_contract' depends on axioms: [propext, Quot.sound]
'PF.Props.C94_no_inputs' depends on axioms: [propext, Classical.choice, Quot.sound]
'PF.Props.C94_user_deposit' depends on axioms: [propext, Quot.sound]
'PF.Props.C95_user_signs' depends on axioms: [propext, Classical.choice, Quot.sound]
'PF.Props.C95_new_user' depends on axioms: [propext, Quot.sound]
'PF.Props.C95_state_injective' depends on axioms: [propext, Classical.choice, Quot.sound]
'PF.Props.C96_derivation_ignores_funds' depends on axioms: [propext, Quot.sound]
'PF.Props.C96_unbacked_epoch' depends on axioms: [propext, Classical.choice, Quot.sound]
'PF.Props.C97_refines' depends on axioms: [propext, Classical.choice, Quot.sound]
'PF.Props.C97_every_call' depends on axioms: [propext, Classical.choice, Quot.sound]
'PF.Props.C97_root_commits_to_pool' depends on axioms: [propext, Classical.choice, Quot.sound]
'PF.Props.C98_prove_transactions' depends on axioms: [propext, Classical.choice, Quot.sound]
'PF.Props.C98_utxo_overflow' depends on axioms: [propext, Classical.choice, Quot.sound]
'PF.Props.C98_no_refusal' depends on axioms: [propext, Classical.choice, Quot.sound]
'PF.Props.C98_overfull_epoch' depends on axioms: [propext, Classical.choice, Quot.sound]
'PF.Props.C98_overfull_utxo_tree' depends on axioms: [propext, Classical.choice, Quot.sound]
'PF.Props.C99_equal_roots' depends on axioms: [propext, Classical.choice, Quot.sound]
'PF.Props.C99_equal_blocks' depends on axioms: [propext, Classical.choice, Quot.sound]
'PF.Props.C99_transactions_exact' depends on axioms: [propext, Quot.sound]
'PF.Props.C99_default_transaction_invisible' depends on axioms: [propext, Classical.choice, Quot.sound]
'PF.Props.C100_enforce_lt' depends on axioms: [propext, Classical.choice, Quot.sound]
'PF.Props.C100_to_n_bits' depends on axioms: [propext, Classical.choice, Quot.sound]
'PF.Props.C100_membership' depends on axioms: [propext, Quot.sound]
'PF.Props.C100_signature' depends on axioms: [propext, Classical.choice, Quot.sound]
'PF.Props.C100_aggregator' depends on axioms: [propext, Classical.choice, Quot.sound]
'PF.Props.C100_client' depends on axioms: [propext, Quot.sound]
'PF.Props.C100_honest_epoch' depends on axioms: [propext, Classical.choice, Quot.sound]
'PF.Props.C101_aggregator_panic' depends on axioms: [propext, Classical.choice, Quot.sound]
'PF.Props.C101_client_panic' depends on axioms: [propext, Classical.choice, Quot.sound]
'PF.Props.C101_recorded_inputs' depends on axioms: [propext, Classical.choice, Quot.sound]
'PF.Props.C101_default_inputs' depends on axioms: [propext, Classical.choice, Quot.sound]
'PF.Props.C102_ledger' depends on axioms: [propext, Classical.choice, Quot.sound]
'PF.Props.C102_no_double_spend' depends on axioms: [propext, Classical.choice, Quot.sound]
'PF.Props.C102_copies' depends on axioms: [propext, Classical.choice, Quot.sound]
'PF.Props.C102_removed_only_by_owner' depends on axioms: [propext, Classical.choice, Quot.sound]
'PF.Props.C102_every_removal' depends on axioms: [propext, Classical.choice, Quot.sound]
'PF.Props.C102_value' depends on axioms: [propext, Classical.choice, Quot.sound]
'PF.Props.C102_solvency' depends on axioms: [propext, Classical.choice, Quot.sound]
'PF.Props.C102_insolvency' depends on axioms: [propext, Classical.choice, Quot.sound]
'PF.Props.C103_child_wraps' depends on axioms: [propext, Quot.sound]
'PF.Props.C103_width_agrees' depends on axioms: [propext, Classical.choice, Quot.sound]
'PF.Props.C103_in_range_agrees' depends on axioms: [propext, Classical.choice, Quot.sound]
'PF.Props.C103_overflow_debug' depends on axioms: [propext, Quot.sound]
'PF.Props.C103_overflow_release' depends on axioms: [propext, Classical.choice, Quot.sound]
'PF.Props.C103_boundary_release' depends on axioms: [propext, Classical.choice, Quot.sound]
'PF.Props.C104_only_multiples' depends on axioms: [propext, Classical.choice, Quot.sound]
'PF.Props.C104_driver_drops' depends on axioms: [propext, Classical.choice, Quot.sound]
'PF.Props.C104_padding' depends on axioms: [propext, Classical.choice, Quot.sound]
'PF.Props.C104_padded_epoch_provable' depends on axioms: [propext, Classical.choice, Quot.sound]
'PF.Props.C105_key_balance' depends on axioms: [propext, Classical.choice, Quot.sound]
'PF.Props.C105_client_balance' depends on axioms: [propext, Classical.choice, Quot.sound]
'PF.Props.C105_backed' depends on axioms: [propext, Classical.choice, Quot.sound]
'PF.Props.C106_deposit_sound' depends on axioms: [propext, Classical.choice, Quot.sound]
'PF.Props.C106_withdraw_sound' depends on axioms: [propext, Classical.choice, Quot.sound]
'PF.Props.C106_complete' depends on axioms: [propext, Classical.choice, Quot.sound]
'PF.Props.C106_root_binds' depends on axioms: [propext, Classical.choice, Quot.sound]
'PF.Props.C106_index_aliases' depends on axioms: [propext, Classical.choice, Quot.sound]
'PF.Props.C107_default_membership' depends on axioms: [propext, Classical.choice, Quot.sound]
'PF.Props.C107_default_switched_off' depends on axioms: [propext, Classical.choice, Quot.sound]
'PF.Props.C107_default_user_step' depends on axioms: [propext, Classical.choice, Quot.sound]
'PF.Props.C107_default_aggregator_step' depends on axioms: [propext, Classical.choice, Quot.sound]
'PF.Props.C108_block_lists' depends on axioms: [propext, Classical.choice, Quot.sound]
'PF.Props.C108_counted_listed' depends on axioms: [propext, Classical.choice, Quot.sound]
'PF.Props.C108_countable' depends on axioms: [propext, Classical.choice, Quot.sound]
'PF.Props.C108_balance_out_of_nothing' depends on axioms: [propext, Classical.choice, Quot.sound]
'PF.Props.C109_lifetime_bound' depends on axioms: [propext, Classical.choice, Quot.sound]
'PF.Props.C109_at_most_4096' depends on axioms: [propext, Classical.choice, Quot.sound]
'PF.Props.C109_position_once' depends on axioms: [propext, Classical.choice, Quot.sound]
'PF.Props.C109_chain' depends on axioms: [propext, Classical.choice, Quot.sound]
'PF.Props.C110_outcome' depends on axioms: [propext, Classical.choice, Quot.sound]
'PF.Props.C110_one_level_beyond' depends on axioms: [propext, Classical.choice, Quot.sound]
'PF.Props.C110_out_of_range_corrupts' depends on axioms: [propext]
'PF.Props.C110_overflow_debug' depends on axioms: [propext, Classical.choice, Quot.sound]
'PF.Props.C110_wraps_release' depends on axioms: [propext]
'PF.Props.C111_claims' depends on axioms: [propext, Classical.choice, Quot.sound]
'PF.Props.C111_every_selection' depends on axioms: [propext, Classical.choice, Quot.sound]
'PF.Props.C111_own_positions' depends on axioms: [propext, Classical.choice, Quot.sound]
'PF.Props.C111_spending_omitted' depends on axioms: [propext, Classical.choice, Quot.sound]
'PF.Props.C111_income_multiplied' depends on axioms: [propext, Classical.choice, Quot.sound]
'PF.Props.C111_chain' depends on axioms: [propext, Classical.choice, Quot.sound]
'PF.Props.C111_produced_blocks' depends on axioms: [propext, Classical.choice, Quot.sound]
'PF.Props.C112_order_matters' depends on axioms: [propext, Classical.choice, Quot.sound]
'PF.Props.C112_executes_iff' depends on axioms: [propext, Classical.choice, Quot.sound]
'PF.Props.C112_same_contents' depends on axioms: [propext, Classical.choice, Quot.sound]
'PF.Props.C112_submission_order' depends on axioms: [propext, Classical.choice, Quot.sound]
'PF.Props.C112_any_order' depends on axioms: [propext, Classical.choice, Quot.sound]
'PF.Props.C112_swap' depends on axioms: [propext, Classical.choice, Quot.sound]
'PF.Props.C113_still_provable' depends on axioms: [propext, Classical.choice, Quot.sound]
'PF.Props.C113_withheld' depends on axioms: [propext, Classical.choice, Quot.sound]
'PF.Props.C114_can_execute' depends on axioms: [propext, Classical.choice, Quot.sound]
'PF.Props.C114_frozen' depends on axioms: [propext, Classical.choice, Quot.sound]
'PF.Props.C114_capacity' depends on axioms: [propext, Classical.choice, Quot.sound]
'PF.Props.C114_spend' depends on axioms: [propext, Classical.choice, Quot.sound]
'PF.Props.C115_plan' depends on axioms: [propext, Quot.sound]
'PF.Props.C115_keeps_up' depends on axioms: [propext, Classical.choice, Quot.sound]
'PF.Props.C115_solvent' depends on axioms: [propext, Classical.choice, Quot.sound]
'PF.Props.C115_same_block' depends on axioms: [propext, Classical.choice, Quot.sound]
'PF.Props.C116_writing_default_stores' depends on axioms: [propext]
'PF.Props.C116_stored' depends on axioms: [propext, Classical.choice, Quot.sound]
'PF.Props.C116_same' depends on axioms: [propext, Classical.choice, Quot.sound]
'PF.Props.C116_size' depends on axioms: [propext, Classical.choice, Quot.sound]
'PF.Props.C116_update' depends on axioms: [propext, Classical.choice, Quot.sound]
'PF.Props.C117_stored' depends on axioms: [propext, Classical.choice, Quot.sound]
'PF.Props.C117_grows' depends on axioms: [propext, Classical.choice, Quot.sound]
'PF.Props.C117_not_freed' depends on axioms: [propext, Classical.choice, Quot.sound]
'PF.Props.C118_exact' depends on axioms: [propext, Classical.choice, Quot.sound]
'PF.Props.C118_key_independent' depends on axioms: [propext, Classical.choice, Quot.sound]
'PF.Props.C118_nonce_reuse' depends on axioms: [propext, Classical.choice, Quot.sound]
'PF.Props.C118_nonce_known' depends on axioms: [propext, Classical.choice, Quot.sound]
'PF.Props.C118_simulated' depends on axioms: [propext, Quot.sound]
'PF.Props.C118_rests_on_hash' depends on axioms: [propext, Classical.choice, Quot.sound]
'PF.Props.C119_aggregator_program' depends on axioms: [propext, Classical.choice, Quot.sound]
'PF.Props.C119_client_program' depends on axioms: [propext, Classical.choice, Quot.sound]
'PF.Props.C119_recorded_inputs' depends on axioms: [propext, Classical.choice, Quot.sound]
'PF.Props.C119_client_setup' depends on axioms: [propext, Classical.choice, Quot.sound]
'PF.Props.C119_aggregator_values' depends on axioms: [propext, Classical.choice, Quot.sound]
'PF.Props.C119_client_values' depends on axioms: [propext, Classical.choice, Quot.sound]
'PF.Props.C120_client_claims' depends on axioms: [propext, Classical.choice, Quot.sound]
'PF.Props.C120_client_every_selection' depends on axioms: [propext, Classical.choice, Quot.sound]
'PF.Props.C120_aggregator' depends on axioms: [propext, Classical.choice, Quot.sound]
'PF.Props.C120_client' depends on axioms: [propext, Classical.choice, Quot.sound]
'PF.Props.C120_aggregator_folded' depends on axioms: [propext, Classical.choice, Quot.sound]
'PF.Props.C120_client_folded' depends on axioms: [propext, Classical.choice, Quot.sound]
'PF.Props.C120_block_value' depends on axioms: [propext, Classical.choice, Quot.sound]
'PF.Props.C121_aggregator' depends on axioms: [propext, Classical.choice, Quot.sound]
'PF.Props.C121_client' depends on axioms: [propext, Classical.choice, Quot.sound]
'PF.Props.C121_aggregator_inputs' depends on axioms: [propext, Classical.choice, Quot.sound]
'PF.Props.C121_client_inputs' depends on axioms: [propext, Classical.choice, Quot.sound]
'PF.Props.C121_aggregator_deterministic' depends on axioms: [propext, Classical.choice, Quot.sound]
'PF.Props.C121_client_deterministic' depends on axioms: [propext, Classical.choice, Quot.sound]
'PF.Props.C121_aggregator_folded_deterministic' depends on axioms: [propext, Classical.choice, Quot.sound]
'PF.Props.C121_client_folded_deterministic' depends on axioms: [propext, Classical.choice, Quot.sound]
'PF.Props.C122_unique_response' depends on axioms: [propext, Classical.choice, Quot.sound]
'PF.Props.C122_response_modulo_order' depends on axioms: [propext, Classical.choice, Quot.sound]
'PF.Props.C122_second_string' depends on axioms: [propext, Classical.choice, Quot.sound]
'PF.Props.C122_accepted_strings' depends on axioms: [propext, Classical.choice, Quot.sound]
'PF.Props.C122_step_uses_validity_only' depends on axioms: [propext, Classical.choice, Quot.sound]
'PF.Props.C122_run_uses_validity_only' depends on axioms: [propext, Classical.choice, Quot.sound]
'PF.Props.C122_aggregator_uses_validity_only' depends on axioms: [propext, Classical.choice, Quot.sound]
'PF.Props.C123_one_user_stops_an_epoch' depends on axioms: [propext, Classical.choice, Quot.sound]
'PF.Props.C123_unregistered_signer' depends on axioms: [propext, Classical.choice, Quot.sound]
'PF.Props.C123_one_user_uses_everything_up' depends on axioms: [propext, Classical.choice, Quot.sound]
'PF.Props.C123_then_nothing' depends on axioms: [propext, Classical.choice, Quot.sound]
'PF.Props.C124_derivation_is_stable' depends on axioms: [propext, Quot.sound]
'PF.Props.C124_production_is_stable' depends on axioms: [propext, Classical.choice, Quot.sound]
'PF.Props.C124_registry_does_not_matter' depends on axioms: [propext, Classical.choice, Quot.sound]
'PF.Props.C124_account_numbers_wrap' depends on axioms: [propext, Classical.choice, Quot.sound]
'PF.Props.C124_last_account_is_the_contract' depends on axioms: [propext, Classical.choice, Quot.sound]
'PF.Props.C125_unused_inputs' depends on axioms: [propext, Classical.choice, Quot.sound]
'PF.Props.C125_slots_determine_the_result' depends on axioms: [propext, Classical.choice, Quot.sound]
'PF.Props.C125_any_slots' depends on axioms: [propext, Classical.choice, Quot.sound]
'PF.Props.C125_choice_shows' depends on axioms: [propext, Classical.choice, Quot.sound]
'PF.Props.C126_same_for_every_rollup' depends on axioms: [propext, Quot.sound]
'PF.Props.C126_replay_elsewhere' depends on axioms: [propext, Classical.choice, Quot.sound]
'PF.Props.C126_signature_spends_elsewhere' depends on axioms: [propext, Classical.choice, Quot.sound]
'PF.Props.C126_same_circuit' depends on axioms: [propext, Classical.choice, Quot.sound]
'PF.Props.C127_aggregator_layout' depends on axioms: [propext, Classical.choice, Quot.sound]
'PF.Props.C127_aggregator_size' depends on axioms: [propext, Classical.choice, Quot.sound]
'PF.Props.C127_aggregator_calls' depends on axioms: [propext, Classical.choice, Quot.sound]
'PF.Props.C127_client_layout' depends on axioms: [propext, Classical.choice, Quot.sound]
'PF.Props.C127_client_size' depends on axioms: [propext, Classical.choice, Quot.sound]
'PF.Props.C127_client_calls' depends on axioms: [propext, Classical.choice, Quot.sound]
'PF.Props.C128_accepted_iff' depends on axioms: [propext, Classical.choice, Quot.sound]
'PF.Props.C128_order_irrelevant' depends on axioms: [propext, Classical.choice, Quot.sound]
'PF.Props.C128_registration_order' depends on axioms: [propext, Classical.choice, Quot.sound]
'PF.Props.C128_same_public_inputs' depends on axioms: [propext, Quot.sound]
'PF.Props.C129_same_verdict' depends on axioms: [propext, Classical.choice, Quot.sound]
'PF.Props.C129_all_copies' depends on axioms: [propext, Classical.choice, Quot.sound]
'PF.Props.C129_one_signature_many_payments' depends on axioms: [propext, Classical.choice, Quot.sound]
'PF.Props.C130_pay_any_amount' depends on axioms: [propext, Classical.choice, Quot.sound]
'PF.Props.C130_no_fewer' depends on axioms: [propext, Classical.choice, Quot.sound]

{
 "C10": "Exact behaviour. The plain expectation 'out-of-range writes are refused' is refuted: C10_write_never_refused, C10_out_of_range_corrupts.",
 "C11": "Exact decision. The plain expectation 'every wrong leaf is refused' is refuted on positions never given a leaf: C11_unwritten_position.",
 "C15": "Exact binding. The plain expectation 'out-of-range indices are rejected' is refuted: C15_index_aliasing, C15_witness.",
 "C19": "Exact. The plain expectation 'the by-value encoding determines the transaction' is refuted: C19_witness.",
 "C21": "Exact decision in C20_is_valid_decision. Unconditional conservation is refuted in release builds: C21_witness.",
 "C30": "Exact. 'Signatures under the identity key are rejected' is refuted: C30_zero_key_forgery.",
 "C33": "Exact. 'The balance is always what the user owns' is refuted: C33_witness, exact surplus in C33_surplus.",
 "C62": "'Counted at most once' is refuted: C62_counted_many_times, C71_replay; proved are the exact exceptions.",
 "C67": "'Signed at its own position' is refuted: C67_unsigned_transaction_counted; exact condition in C69_exact.",
 "C68": "'Dummies contribute nothing' is refuted: C68_dummy_output_mints; exact in C68_exact.",
 "C69": "'The index is in range' is refuted: C69_any_alias_accepted; exact in C69_exact.",
 "C71": "'A block once left cannot be processed again' is refuted for equal heights: C71_replay.",
 "C75": "'Overspending is rejected' is refuted: C75_balance_wraps, C75_funds_not_checked.",
 "C80": "The unconditional statement is refuted: C80_balance_out_of_nothing.",
 "C87": "Without the condition on stray nodes it is refuted: C87_stray_node_accepted."
}
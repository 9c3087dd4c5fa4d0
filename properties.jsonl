{"id": "C01", "title": "Sparse Merkle root is a function of the contents only", "statement": "After any sequence of in-range update_and_prove calls on a blank tree, root() equals the root of the perfect binary tree whose leaf i is the last leaf written at i (default leaf if none); hence two histories leaving the same contents give the same root, whatever their order or redundant writes.", "quantifier": "all tree heights, hash functions, leaf types and finite sequences of in-range writes", "why_tests_cant": "The set of inputs/histories is infinite (or astronomically large); a test samples a few and cannot exclude a bad one.", "anchors": ["plasma-fold/src/primitives/sparsemt/mod.rs: MerkleSparseTree::{blank,update_and_prove,root}"]}
{"id": "C02", "title": "Bulk construction agrees with incremental construction", "statement": "MerkleSparseTree::new(leaves) on a non-empty map of in-range indices returns a tree with the same root and the same observable proofs as a blank tree updated with those leaves one by one; on an empty map it returns an error.", "quantifier": "all heights, hash functions, finite maps of in-range indices", "why_tests_cant": "The set of inputs/histories is infinite (or astronomically large); a test samples a few and cannot exclude a bad one.", "anchors": ["plasma-fold/src/primitives/sparsemt/mod.rs: MerkleSparseTree::new"]}
{"id": "C03", "title": "Membership proofs verify", "statement": "After any history of in-range updates, generate_membership_proof(i) succeeds for every in-range i and the path verifies (with and without index) against root() for the leaf currently stored at i.", "quantifier": "all histories, all in-range indices", "why_tests_cant": "The set of inputs/histories is infinite (or astronomically large); a test samples a few and cannot exclude a bad one.", "anchors": ["plasma-fold/src/primitives/sparsemt/mod.rs: generate_membership_proof, generate_proof, MerkleSparseTreePath::{verify,verify_with_index}"]}
{"id": "C04", "title": "Indexed membership verification is sound", "statement": "If verify_with_index accepts (leaf, i) against the root of a tree reached by updates, then the leaf stored at i has the same leaf hash, or an explicit two-to-one hash collision can be read off the two paths. Two accepting paths for one index and root give equal leaf hashes or a collision.", "quantifier": "all adversarial paths, leaves, indices and histories", "why_tests_cant": "soundness quantifies over every adversarial path", "anchors": ["plasma-fold/src/primitives/sparsemt/mod.rs: MerkleSparseTreePath::verify_with_index"]}
{"id": "C05", "title": "Membership verification without index is sound", "statement": "If verify accepts a leaf against a tree's root, some position of the tree stores a leaf with that hash, or an explicit two-to-one collision exists.", "quantifier": "all adversarial paths, leaves and histories", "why_tests_cant": "soundness quantifies over every adversarial path", "anchors": ["plasma-fold/src/primitives/sparsemt/mod.rs: MerkleSparseTreePath::verify"]}
{"id": "C06", "title": "Update proofs verify", "statement": "The proof returned by update_and_prove(i, leaf) verifies against (root before, root after, leaf before, leaf, i).", "quantifier": "all histories, in-range indices and new leaves", "why_tests_cant": "The set of inputs/histories is infinite (or astronomically large); a test samples a few and cannot exclude a bad one.", "anchors": ["plasma-fold/src/primitives/sparsemt/mod.rs: update_and_prove, MerkleSparseTreeTwoPaths::verify"]}
{"id": "C07", "title": "Update proofs are sound and change nothing else", "statement": "If MerkleSparseTreeTwoPaths::verify accepts (old_root,new_root,old_leaf,new_leaf,i) and old_root is the root of contents c, then new_root is the root of c with exactly position i replaced by new_leaf (and the hash of old_leaf is that of c(i)), or an explicit collision exists.", "quantifier": "all adversarial sibling lists, leaves, indices and contents", "why_tests_cant": "soundness quantifies over every adversarial proof", "anchors": ["plasma-fold/src/primitives/sparsemt/mod.rs: MerkleSparseTreeTwoPaths::verify"]}
{"id": "C08", "title": "Verifiers reject out-of-range indices", "statement": "verify_with_index and the update-proof verifier never return true for an index at or beyond 2^(HEIGHT-1), for any u64 index, in debug (overflow panics) and release (overflow wraps) builds.", "quantifier": "all u64 indices, paths, roots, heights 2..=63, both build modes", "why_tests_cant": "The set of inputs/histories is infinite (or astronomically large); a test samples a few and cannot exclude a bad one.", "anchors": ["plasma-fold/src/primitives/sparsemt/mod.rs: verify_with_index, MerkleSparseTreeTwoPaths::verify"]}
{"id": "C09", "title": "validate accepts every tree built through the API", "statement": "validate() returns Ok(true) on every tree built by blank/new followed by any in-range updates.", "quantifier": "all histories", "why_tests_cant": "The set of inputs/histories is infinite (or astronomically large); a test samples a few and cannot exclude a bad one.", "anchors": ["plasma-fold/src/primitives/sparsemt/mod.rs: validate"]}
{"id": "C10", "title": "What update_and_prove does at any index", "statement": "At an index inside the tree update_and_prove changes exactly that position. At an index beyond the last leaf it is not refused: it returns Ok with a proof the verifier rejects, and the new root is the root of no contents at all, or of contents holding the new leaf at the position index mod capacity (or the two paths exhibit a hash collision). The expectation that such writes are refused and leave the tree unchanged is refuted by a concrete tree whose other proofs stop verifying.", "quantifier": "every configuration, every tree built through the API, every index and leaf", "why_tests_cant": "the bad index range is huge and never hit by the test-suite", "anchors": ["plasma-fold/src/primitives/sparsemt/mod.rs: update_and_prove, siblings"]}
{"id": "C11", "title": "Which leaves generate_proof accepts", "statement": "On a tree built through the API and an in-range index, generate_proof(i, leaf) returns Ok or Err, and Ok exactly when leaf has the digest of the leaf stored at i or no leaf was ever given for position i; the proof returned is the true path of i, so it verifies only for leaves with the digest of the content of i. The expectation that every wrong leaf is refused fails exactly on positions never given a leaf.", "quantifier": "every configuration, every tree built through the API, all indices and leaves", "why_tests_cant": "The set of inputs/histories is infinite (or astronomically large); a test samples a few and cannot exclude a bad one.", "anchors": ["plasma-fold/src/primitives/sparsemt/mod.rs: generate_proof"]}
{"id": "C12", "title": "Indexed membership gadget agrees with the native verifier", "statement": "For a path of length HEIGHT-1 and an in-range index, check_membership_with_index is satisfiable exactly when native verify_with_index returns true.", "quantifier": "all field elements, paths, heights, in-range indices", "why_tests_cant": "circuit/native equivalence over a whole prime field", "anchors": ["plasma-fold/src/primitives/sparsemt/constraints.rs: check_membership_with_index"]}
{"id": "C13", "title": "Conditional gadgets are inert when off and exact when on", "statement": "conditionally_check_membership, conditionally_check_membership_with_index and conditionally_check_update impose nothing when the condition is false and are equivalent to the unconditional gadget when true.", "quantifier": "all assignments", "why_tests_cant": "equivalence over a whole prime field", "anchors": ["plasma-fold/src/primitives/sparsemt/constraints.rs"]}
{"id": "C14", "title": "Update gadget agrees with the native verifier", "statement": "For a sibling list of length HEIGHT-1 and an in-range index, update_root / check_update are satisfiable for (old,new) exactly when the native update verifier accepts.", "quantifier": "all field elements, sibling lists, in-range indices", "why_tests_cant": "equivalence over a whole prime field", "anchors": ["plasma-fold/src/primitives/sparsemt/constraints.rs: update_root, check_update"]}
{"id": "C15", "title": "What the index gadgets bind", "statement": "For every field element as index, the indexed membership gadget and the update gadget accept exactly when the native verifier accepts at that index reduced modulo the number of leaves; a path without equal sibling digests is accepted for at most one position. The expectation that an index which is not an in-range position is rejected is refuted: every alias modulo the number of leaves is accepted.", "quantifier": "all field-element indices, all paths, siblings, roots and leaves", "why_tests_cant": "only out-of-range field elements show the problem", "anchors": ["plasma-fold/src/primitives/sparsemt/constraints.rs: conditionally_check_membership_with_index, update_root"]}
{"id": "C16", "title": "Un-indexed membership gadget agrees with the native verifier", "statement": "check_membership is satisfiable exactly when native verify returns true.", "quantifier": "all assignments", "why_tests_cant": "equivalence over a whole prime field", "anchors": ["plasma-fold/src/primitives/sparsemt/constraints.rs: check_membership"]}
{"id": "C17", "title": "Transaction encoding is injective and identical in and out of circuit", "statement": "Two transactions with the same field encoding (the message that is hashed and signed) are equal, provided amounts fit below the modulus; the in-circuit encoding of an allocated transaction equals the native encoding.", "quantifier": "all transactions", "why_tests_cant": "The set of inputs/histories is infinite (or astronomically large); a test samples a few and cannot exclude a bad one.", "anchors": ["plasma-fold/src/datastructures/transaction/mod.rs: From<&Transaction>", "plasma-fold/src/datastructures/transaction/constraints.rs"]}
{"id": "C18", "title": "UTXO, public key, nonce and block digests are computed over injective encodings, identically in circuit", "statement": "The field vectors absorbed by UTXOCRH, PublicKeyCRH, NonceCRH determine the hashed object, equal digests of different objects are hash collisions, and each gadget computes the native digest. BlockCRH determines its four committed fields.", "quantifier": "all objects", "why_tests_cant": "The set of inputs/histories is infinite (or astronomically large); a test samples a few and cannot exclude a bad one.", "anchors": ["plasma-fold/src/primitives/crh/mod.rs", "plasma-fold/src/primitives/crh/constraints.rs"]}
{"id": "C19", "title": "What the by-value transaction encoding determines", "statement": "Two transactions have the same by-value encoding exactly when their amounts and dummy flags agree position by position. The expectation that it determines the transaction as the by-reference encoding does (C17) is refuted: the keys are dropped, so transactions paying different people have the same by-value encoding.", "quantifier": "all pairs of transactions with amounts below the field order", "why_tests_cant": "The set of inputs/histories is infinite (or astronomically large); a test samples a few and cannot exclude a bad one.", "anchors": ["plasma-fold/src/datastructures/transaction/mod.rs: From<Transaction>"]}
{"id": "C20", "title": "Transaction validity decision", "statement": "is_valid(Some(sender)) returns InvalidPublicKey exactly when some non-dummy input is not owned by the sender. Otherwise, when both non-dummy sums fit in 64 bits, it returns InvalidAmounts exactly when they differ and Ok when they agree; when a sum does not fit, a debug build panics and a release build compares the sums modulo 2^64. Dummies never influence the result. is_valid(None) uses the key of input 0, dummy or not.", "quantifier": "all transactions and optional senders", "why_tests_cant": "The set of inputs/histories is infinite (or astronomically large); a test samples a few and cannot exclude a bad one.", "anchors": ["plasma-fold/src/datastructures/transaction/mod.rs: is_valid"]}
{"id": "C21", "title": "Accepted transactions conserve value", "statement": "If is_valid returns Ok then the non-dummy input and output amounts have the same total modulo 2^64; as natural numbers they are equal in every debug build, and in release builds when both totals fit in 64 bits. The condition cannot be dropped: in release builds is_valid accepts a transaction that consumes nothing and pays 2^64.", "quantifier": "all transactions and senders, debug and release builds", "why_tests_cant": "needs sums overflowing 64 bits", "anchors": ["plasma-fold/src/datastructures/transaction/mod.rs: is_valid"]}
{"id": "C22", "title": "Circuit transaction validity agrees with native", "statement": "enforce_valid on an allocated native transaction is satisfiable exactly when is_valid succeeds (sums not overflowing u64).", "quantifier": "all transactions", "why_tests_cant": "equivalence over a prime field", "anchors": ["plasma-fold/src/datastructures/transaction/constraints.rs: enforce_valid", "plasma-fold/src/datastructures/transaction/mod.rs: is_valid"]}
{"id": "C23", "title": "Field-level balance equation implies natural-number balance under 64-bit amounts", "statement": "If all amounts are below 2^64 and the field is larger than 2^66, enforce_valid implies equality of totals over the naturals; without the range bound it does not.", "quantifier": "all transactions with circuit amounts", "why_tests_cant": "The set of inputs/histories is infinite (or astronomically large); a test samples a few and cannot exclude a bad one.", "anchors": ["plasma-fold/src/datastructures/transaction/constraints.rs: enforce_valid"]}
{"id": "C24", "title": "Signer extraction", "statement": "get_signer returns the sender's key for every transaction accepted by enforce_valid that has a non-dummy input, and the default key when all inputs are dummy.", "quantifier": "all transactions", "why_tests_cant": "The set of inputs/histories is infinite (or astronomically large); a test samples a few and cannot exclude a bad one.", "anchors": ["plasma-fold/src/datastructures/transaction/constraints.rs: get_signer"]}
{"id": "C25", "title": "Schnorr completeness", "statement": "Every signature returned by sign verifies under the matching public key and message.", "quantifier": "all keys, messages, nonces, hash functions, any prime-order group", "why_tests_cant": "The set of inputs/histories is infinite (or astronomically large); a test samples a few and cannot exclude a bad one.", "anchors": ["plasma-fold/src/primitives/schnorr.rs: sign, verify"]}
{"id": "C26", "title": "Schnorr special soundness", "statement": "From two accepted signatures on the same commitment with different challenges the secret key is computable; a fixed (message, e) and key admit at most one response per commitment.", "quantifier": "all keys, messages and signatures", "why_tests_cant": "The set of inputs/histories is infinite (or astronomically large); a test samples a few and cannot exclude a bad one.", "anchors": ["plasma-fold/src/primitives/schnorr.rs: verify"]}
{"id": "C27", "title": "Signature gadgets agree with the native verifier", "statement": "SchnorrGadget::verify is satisfiable exactly when native verify accepts, and is_valid returns its truth value, for canonical signatures.", "quantifier": "all signatures, keys, messages", "why_tests_cant": "equivalence over a prime field", "anchors": ["plasma-fold/src/primitives/schnorr.rs: SchnorrGadget::{verify,is_valid}"]}
{"id": "C28", "title": "enforce_lt decides bit-string comparison", "statement": "enforce_lt(x,y) is satisfiable exactly when the little-endian integer x is smaller than y.", "quantifier": "all bit strings of equal length, all chunk widths that fit the field", "why_tests_cant": "The set of inputs/histories is infinite (or astronomically large); a test samples a few and cannot exclude a bad one.", "anchors": ["plasma-fold/src/primitives/schnorr.rs: enforce_lt"]}
{"id": "C29", "title": "to_n_bits is a range check", "statement": "to_n_bits(x, n) is satisfiable exactly when the canonical value of x is below 2^n, and the bits returned are its binary expansion.", "quantifier": "all field elements, all n up to the modulus size", "why_tests_cant": "The set of inputs/histories is infinite (or astronomically large); a test samples a few and cannot exclude a bad one.", "anchors": ["aggregator/src/circuit.rs: to_n_bits"]}
{"id": "C30", "title": "Signatures under the identity key", "statement": "verify accepts (s, e) under the identity public key exactly when e is the challenge of s times the generator and the message, a condition without any secret; so for every message and every s there is an accepted signature that anybody can compute. The expectation that such signatures are rejected is refuted.", "quantifier": "all messages and signatures, every curve and hash (existence of forgeries: base field not larger than the scalar field)", "why_tests_cant": "needs the adversary to choose the degenerate key", "anchors": ["plasma-fold/src/primitives/schnorr.rs: verify", "plasma-fold/src/datastructures/keypair/mod.rs"]}
{"id": "C31", "title": "Accumulators bind the whole history", "statement": "Equal accumulator values after equally long update sequences imply equal sequences, or an explicit hash collision.", "quantifier": "all sequences", "why_tests_cant": "The set of inputs/histories is infinite (or astronomically large); a test samples a few and cannot exclude a bad one.", "anchors": ["plasma-fold/src/primitives/accumulator/constraints.rs"]}
{"id": "C32", "title": "Accumulator gadget and contract/native computation agree", "statement": "The Sha256 accumulator update in circuit computes the byte-level digest truncated to 31 bytes of the concatenated inputs, identical to the native formula.", "quantifier": "all values", "why_tests_cant": "The set of inputs/histories is infinite (or astronomically large); a test samples a few and cannot exclude a bad one.", "anchors": ["plasma-fold/src/primitives/accumulator/mod.rs", "plasma-fold/src/primitives/accumulator/constraints.rs"]}
{"id": "C33", "title": "User bookkeeping", "statement": "spend_transaction and receive_transaction change the balance by exactly the real inputs of the spent transactions and the real outputs of the received ones, the nonce by the number of spends, and never the identity: exactly in debug builds, which panic exactly when a spend is not covered by the exact balance or a counter would overflow, and modulo 2^64 in release builds, which never fail. The balance therefore differs from the amounts owned by the user by exactly the outputs of others in received transactions minus the inputs of others in spent ones, and equals them when there are none.", "quantifier": "all sequences of spends and receives, debug and release builds", "why_tests_cant": "The set of inputs/histories is infinite (or astronomically large); a test samples a few and cannot exclude a bad one.", "anchors": ["plasma-fold/src/datastructures/user/mod.rs"]}
{"id": "C34", "title": "L1 funds are conserved by the contract", "statement": "Every sequence of join/deposit calls that does not panic keeps the total L1 balance of all registered accounts, increased only by joining accounts' initial balances (overflow checks on, or total funds below 2^64; modulo 2^64 in every build).", "quantifier": "all call sequences", "why_tests_cant": "The set of inputs/histories is infinite (or astronomically large); a test samples a few and cannot exclude a bad one.", "anchors": ["mock-contract/src/lib.rs: join, deposit, L1Account::transfer"]}
{"id": "C35", "title": "Deposits are recorded exactly", "statement": "After any sequence of calls that does not panic, the contract account holds the sum of all deposits, each account its initial balance minus its own deposits, and the pending amount recorded for a key is the sum of the deposits of the accounts registered under it; a deposit panics exactly for account 0, an unregistered index, or an overdraft.", "quantifier": "all call sequences", "why_tests_cant": "The set of inputs/histories is infinite (or astronomically large); a test samples a few and cannot exclude a bad one.", "anchors": ["mock-contract/src/lib.rs: deposit"]}
{"id": "C36", "title": "Registry is append-only and consistent", "statement": "join assigns consecutive indices, the assigned index holds the key, no earlier account's key or balance changes, and the key-to-index lookup returns the latest registration of a key and nothing for unregistered keys.", "quantifier": "all call sequences", "why_tests_cant": "The set of inputs/histories is infinite (or astronomically large); a test samples a few and cannot exclude a bad one.", "anchors": ["mock-contract/src/lib.rs: new, join"]}
{"id": "C37", "title": "Public inputs bind the block", "statement": "Two blocks that yield equal derive_public_inputs have equal roots and mean the same signer keys, deposits and withdrawals, or the SHA transcripts break truncated SHA (a collision, or a preimage of zero); for a duplicate-free registry without the zero point the index lists are equal too. The block height is not bound.", "quantifier": "all pairs of blocks", "why_tests_cant": "The set of inputs/histories is infinite (or astronomically large); a test samples a few and cannot exclude a bad one.", "anchors": ["mock-contract/src/lib.rs: derive_public_inputs"]}
{"id": "C38", "title": "Aggregator UTXO tree mirrors the UTXO set on every history", "statement": "After any sequence of aggregator API calls (including failing ones) the UTXO tree root is the root of contents where exactly the positions held in the UTXO map store their UTXO and every other position stores the dummy UTXO.", "quantifier": "all histories of API calls", "why_tests_cant": "The set of inputs/histories is infinite (or astronomically large); a test samples a few and cannot exclude a bad one.", "anchors": ["aggregator/src/lib.rs: process_signatures"]}
{"id": "C39", "title": "A UTXO cannot be spent twice through the aggregator", "statement": "In every history, the number of times a given UTXO value is consumed never exceeds the number of times it was created; a spend of a UTXO with no live copy is refused with UTXONonExisting/UTXOError.", "quantifier": "all histories", "why_tests_cant": "The set of inputs/histories is infinite (or astronomically large); a test samples a few and cannot exclude a bad one.", "anchors": ["aggregator/src/lib.rs: process_signatures"]}
{"id": "C40", "title": "Rollup supply equals deposits minus withdrawals", "statement": "Over any history of valid transactions (sums below 2^64; debug builds enforce this) in which each pair given to process_signatures names the owner of its transaction's inputs, the total of live UTXOs plus all recorded withdrawals equals all recorded deposits if no process_signatures call failed, and never exceeds them otherwise. The condition on the pairs is needed: the code does not check it, and an unbacked UTXO can be minted otherwise.", "quantifier": "all histories", "why_tests_cant": "The set of inputs/histories is infinite (or astronomically large); a test samples a few and cannot exclude a bad one.", "anchors": ["aggregator/src/lib.rs: process_transactions, process_signatures"]}
{"id": "C41", "title": "Transaction tree mirrors the transaction list", "statement": "After any history the transaction-tree root commits to exactly the accepted transactions at positions 0..n-1 and every proof from prove_transactions verifies at its index.", "quantifier": "all histories of at most 2^12 transactions per epoch", "why_tests_cant": "The set of inputs/histories is infinite (or astronomically large); a test samples a few and cannot exclude a bad one.", "anchors": ["aggregator/src/lib.rs: process_transactions, prove_transactions"]}
{"id": "C42", "title": "Unsigned transactions have no effect", "statement": "A transaction whose pair does not authorise it (invalid signature and key other than the contract's; a missing signature counts as the signature (0,0)) changes neither UTXO set, UTXO tree, signer tree, deposits nor withdrawals; it only appends signer None and one circuit input with default positions. Over a call, deposits and withdrawals recorded are exactly those of the authorised transactions.", "quantifier": "all states, signatures", "why_tests_cant": "The set of inputs/histories is infinite (or astronomically large); a test samples a few and cannot exclude a bad one.", "anchors": ["aggregator/src/lib.rs: process_signatures"]}
{"id": "C43", "title": "One signer entry and one circuit input per processed transaction", "statement": "After process_signatures succeeds on n pairs, exactly n entries were appended to the signer list and to the circuit inputs, in order, with the transaction at the same position. The outcome of each pair (ok, refused, panic) is determined exactly: panic iff there are more pairs than transactions or, in debug, the withdrawal sum of an authorised covered transaction overflows.", "quantifier": "all inputs", "why_tests_cant": "The set of inputs/histories is infinite (or astronomically large); a test samples a few and cannot exclude a bad one.", "anchors": ["aggregator/src/lib.rs: process_signatures"]}
{"id": "C44", "title": "process_transactions accepts exactly the longest valid prefix", "statement": "process_transactions appends exactly the transactions before the first invalid one, in order, and returns the first invalid one's error, Ok if none.", "quantifier": "all inputs", "why_tests_cant": "The set of inputs/histories is infinite (or astronomically large); a test samples a few and cannot exclude a bad one.", "anchors": ["aggregator/src/lib.rs: process_transactions"]}
{"id": "C45", "title": "Exact effect of failed calls", "statement": "If process_transactions fails, the state is that of the successful call on the transactions before the invalid one. If process_signatures fails, the state is that of the successful call on the pairs before the failing one, except that the failing key is recorded as a signer and the inputs of the failing transaction before the first uncovered one are consumed. Failed calls are therefore not atomic: a UTXO can be lost.", "quantifier": "all states and inputs", "why_tests_cant": "needs an error in the middle of a batch", "anchors": ["aggregator/src/lib.rs"]}
{"id": "C46", "title": "A UTXO leaves the ledger only through an authorised transaction spending it", "statement": "If a call removes a UTXO then it was process_signatures and one of its pairs authorised a transaction that spends it, all of whose real inputs belong to the UTXO's owner; if the pair names the owner, it carries the owner's valid signature over the transaction and the transaction root. The code does not check that the pair names the owner: presented under the contract's key a payment needs no signature.", "quantifier": "all states and inputs", "why_tests_cant": "adversarial pairs of keys and signatures", "anchors": ["aggregator/src/lib.rs: process_signatures"]}
{"id": "C47", "title": "A new epoch behaves like a fresh aggregator with the same UTXO set", "statement": "After reset_for_new_epoch any sequence of calls has the same outcomes and leaves the same state as a fresh aggregator with the same UTXO ledger, except for the signer tree, which is kept, and the signer paths in circuit inputs. The height is never incremented: it is 0 in every history.", "quantifier": "all histories", "why_tests_cant": "The set of inputs/histories is infinite (or astronomically large); a test samples a few and cannot exclude a bad one.", "anchors": ["aggregator/src/lib.rs: reset_for_new_epoch"]}
{"id": "C48", "title": "Produced blocks reflect the state", "statement": "produce_block returns the current roots, height and, for each signer/deposit/withdrawal, the registered index of its key; it panics iff some key is unregistered.", "quantifier": "all states and registries", "why_tests_cant": "The set of inputs/histories is infinite (or astronomically large); a test samples a few and cannot exclude a bad one.", "anchors": ["aggregator/src/lib.rs: produce_block"]}
{"id": "C49", "title": "process_signatures splits as a loop but not as calls", "statement": "process_signatures on a concatenation is the loop on the first part followed by the loop on the second part starting at the transaction index where the first stopped. A second call does not continue there: it starts again at transaction 0 and can execute the same deposit twice.", "quantifier": "all batches", "why_tests_cant": "The set of inputs/histories is infinite (or astronomically large); a test samples a few and cannot exclude a bad one.", "anchors": ["aggregator/src/lib.rs: process_signatures"]}
{"id": "C50", "title": "Aggregator circuit steps are ledger transitions", "statement": "A satisfied aggregator step maps the committed UTXO contents to contents obtained by removing the spent inputs at the witnessed positions and inserting the created outputs at empty positions (else a collision is exhibited).", "quantifier": "all witnesses, all contents", "why_tests_cant": "soundness over all adversarial witnesses", "anchors": ["aggregator/src/circuit.rs: generate_step_constraints"]}
{"id": "C51", "title": "The circuit removes a UTXO only with its owner's signature", "statement": "If an accepted run of circuit steps changes the content of a UTXO slot that held a UTXO, at the start or at any intermediate moment (so also a UTXO created earlier in the run), that UTXO is a real input of a transaction of the run, is owned by the transaction's sender, and the witnessed signature on the transaction and the final transaction root verifies under the sender's key (else a collision is exhibited).", "quantifier": "all witnesses", "why_tests_cant": "soundness over all adversarial witnesses", "anchors": ["aggregator/src/circuit.rs"]}
{"id": "C52", "title": "The circuit creates UTXOs only for authorised transactions", "statement": "A transaction that is neither validly signed nor sent by the contract leaves the UTXO root, the signer root and the deposit accumulator unchanged and adds the zero key to the signer accumulator; every UTXO that appears in a slot during an accepted run is a real output, not owned by the contract, of an authorised transaction.", "quantifier": "all witnesses", "why_tests_cant": "soundness over all adversarial witnesses", "anchors": ["aggregator/src/circuit.rs"]}
{"id": "C53", "title": "No inflation in full mode", "statement": "In an accepted full-mode run over a ledger with 64-bit amounts, ledger value after plus the amounts authorised transactions pay to the contract equals, as integers, ledger value before plus the recorded deposits; the accumulators record exactly those deposits and at least those withdrawals.", "quantifier": "all witnesses", "why_tests_cant": "soundness over all adversarial witnesses", "anchors": ["aggregator/src/circuit.rs"]}
{"id": "C54", "title": "Value in transfer-only mode", "statement": "In transfer-only mode value is conserved as integers if all output amounts are below 2^64, and in general only modulo the field characteristic and up to transactions that name the contract as sender; it is not conserved in general: without any signature a UTXO of any amount can be minted with nothing recorded, and a signed transaction can create outputs worth the field characteristic more than its inputs.", "quantifier": "all witnesses", "why_tests_cant": "soundness over all adversarial witnesses", "anchors": ["aggregator/src/circuit.rs"]}
{"id": "C55", "title": "What the withdrawal accumulator records", "statement": "In full mode the withdrawal accumulator records sender and amount of every transaction that pays to the contract, whether or not it is authorised; the recorded total equals the authorised total iff no unauthorised transaction pays to the contract. In particular a withdrawal of any amount can be recorded for any key without its signature and without spending anything.", "quantifier": "all witnesses", "why_tests_cant": "soundness over all adversarial witnesses", "anchors": ["aggregator/src/circuit.rs"]}
{"id": "C56", "title": "Step counter and final transaction root", "statement": "Every accepted run of n transactions increases the step counter by n and passes the final transaction root through unchanged; while the counter stays within 4096, transaction k is put at position step+k of the transaction tree (which held the default transaction), the sender of an authorised transaction at the same position of the signer tree (which held the zero key), nothing else in these trees changes, and from counter zero at most 4096 non-default transactions can be run (else a collision is exhibited).", "quantifier": "all witnesses and run lengths", "why_tests_cant": "The set of inputs/histories is infinite (or astronomically large); a test samples a few and cannot exclude a bad one.", "anchors": ["aggregator/src/circuit.rs"]}
{"id": "C57", "title": "Honest aggregators can prove, and the result is what the contract derives", "statement": "For a fresh aggregator, if processing the transactions and then the signatures succeeds, amounts are 64-bit with sums that do not wrap, each transaction is answered by its sender, the contract signs no transaction with real inputs and unapproved transactions pay nothing to the contract, then the recorded circuit inputs, batched in any way, are accepted by the circuit from the initial state, and the final circuit state is what the contract derives from the produced block.", "quantifier": "all transaction lists, all signature lists, all registries in which the block can be produced, all batchings", "why_tests_cant": "The set of inputs/histories is infinite (or astronomically large); a test samples a few and cannot exclude a bad one.", "anchors": ["aggregator/src/circuit.rs", "aggregator/src/lib.rs", "mock-contract/src/lib.rs"]}
{"id": "C58", "title": "Later epochs cannot be proved from the recorded inputs", "statement": "At any start of an epoch of any aggregator history: if every approved transaction falls on a position of the signer tree never signed before, the recorded inputs are accepted and yield the derived public inputs (under the conditions of C57); if some approved transaction falls on a position signed in an earlier epoch, the recorded inputs are not accepted however batched, or a hash collision is exhibited. The signer tree carries over from epoch to epoch.", "quantifier": "all histories of calls, all epochs, all batchings", "why_tests_cant": "tests exercise one epoch", "anchors": ["aggregator/src/circuit.rs", "aggregator/src/lib.rs"]}
{"id": "C59", "title": "No double spend across folded circuit steps", "statement": "Along any accepted run a position is erased only if it holds the erased UTXO: present initially or inserted earlier at that position, and not touched since; and for every UTXO, copies after + times spent = copies before + times created (else a collision is exhibited).", "quantifier": "all runs", "why_tests_cant": "The set of inputs/histories is infinite (or astronomically large); a test samples a few and cannot exclude a bad one.", "anchors": ["aggregator/src/circuit.rs"]}
{"id": "C60", "title": "Batching is equivalent to single steps", "statement": "A satisfied step with batch size n is the same as n satisfied steps with batch size one.", "quantifier": "all batch sizes", "why_tests_cant": "The set of inputs/histories is infinite (or astronomically large); a test samples a few and cannot exclude a bad one.", "anchors": ["aggregator/src/circuit.rs"]}
{"id": "C61", "title": "Client balance and nonce deltas are exact", "statement": "Along any run of satisfied client steps the balance changes by the sum, over all transactions of all steps, of the outputs carrying the user's key minus the inputs carrying it, and the nonce by the number of transactions signed by the user; as integers this is exact whenever the integer result lies between 0 and the field order, in particular nothing is lost for u64 amounts.", "quantifier": "all runs, all witnesses, all batch sizes", "why_tests_cant": "soundness over all adversarial witnesses", "anchors": ["client/src/circuits/mod.rs: update_balance"]}
{"id": "C62", "title": "When a transaction can be counted twice", "statement": "Within consecutive steps on one block the indices of counted transactions increase strictly. Along any accepted run, a (block, position) counted twice means that the later count uses an index beyond the capacity of the transaction tree, or that a different block of the same height was processed, or a hash collision. Hence none is counted twice if indices are positions and blocks of one height are one block. Neither condition is enforced: one step can count a transaction n times under aliases of its position.", "quantifier": "all runs of satisfied client steps", "why_tests_cant": "soundness over all adversarial witnesses and histories", "anchors": ["client/src/circuits/mod.rs"]}
{"id": "C63", "title": "Block heights never decrease", "statement": "Along any run of satisfied client steps the processed block heights are non-decreasing.", "quantifier": "all runs", "why_tests_cant": "The set of inputs/histories is infinite (or astronomically large); a test samples a few and cannot exclude a bad one.", "anchors": ["client/src/circuits/mod.rs"]}
{"id": "C64", "title": "Padding transactions are inert", "statement": "A padding transaction changes neither balance, nonce nor the last processed index, and needs no proofs, for every user whose key is not the identity; for the identity key it raises the nonce.", "quantifier": "all states", "why_tests_cant": "The set of inputs/histories is infinite (or astronomically large); a test samples a few and cannot exclude a bad one.", "anchors": ["client/src/circuits/mod.rs"]}
{"id": "C65", "title": "The client's identity is fixed", "statement": "Along any run the committed key hash is constant and every step is about one and the same key (or a hash collision is exhibited).", "quantifier": "all runs", "why_tests_cant": "The set of inputs/histories is infinite (or astronomically large); a test samples a few and cannot exclude a bad one.", "anchors": ["client/src/circuits/mod.rs"]}
{"id": "C66", "title": "Counted transactions are included in the block", "statement": "Each counted transaction hashes to the leaf at its (reduced) index of the tree whose root is in the block whose hash was accumulated, or a collision is exhibited.", "quantifier": "all witnesses", "why_tests_cant": "soundness over all adversarial witnesses", "anchors": ["client/src/circuits/mod.rs"]}
{"id": "C67", "title": "Signers of counted transactions", "statement": "The sender of each counted transaction appears in the block's signer tree at some position, or a hash collision is exhibited; and any position will do: a transaction can be counted although its own position in the signer tree is empty or holds another key. (The expectation that it appears at the transaction's own position is refuted.)", "quantifier": "all witnesses of client steps, all blocks committing to transactions and signers", "why_tests_cant": "soundness over all adversarial witnesses", "anchors": ["client/src/circuits/mod.rs"]}
{"id": "C68", "title": "Dummies in client balances", "statement": "Along any accepted run a client balance changes by the user's real outputs minus real inputs, plus its dummy outputs minus its dummy inputs: dummies count like real UTXOs. Hence dummies change nothing if they carry no amounts, but a dummy output that passes every validity check mints any amount for anyone.", "quantifier": "all runs and witnesses", "why_tests_cant": "adversarial transactions", "anchors": ["client/src/circuits/mod.rs"]}
{"id": "C69", "title": "Which transaction indices a client step accepts", "statement": "In a block not yet processed, a real transaction can be shown under index l exactly when l is positive, at most half the field order, the transaction is the content of position l mod 2^(TX_TREE_HEIGHT-1) and its signer is in the signer tree (necessity up to an exhibited hash collision); in general a counted index lies strictly above the last counted one. The expectation that l is an in-range position is refuted: every alias is accepted.", "quantifier": "all witnesses, states, blocks and field elements as index", "why_tests_cant": "adversarial indices", "anchors": ["client/src/circuits/mod.rs"]}
{"id": "C70", "title": "Every transaction except the reserved first position can be processed by its participants", "statement": "For every block and each position except the first, whose transaction's sender is in the signer tree, every user that has not processed the block yet has a satisfying client step counting that transaction under its own position with the right balance and nonce change; a transaction at the first position can never be counted under its own position, in any run.", "quantifier": "all blocks, positions, users and runs", "why_tests_cant": "The set of inputs/histories is infinite (or astronomically large); a test samples a few and cannot exclude a bad one.", "anchors": ["client/src/circuits/mod.rs", "aggregator/src/lib.rs"]}
{"id": "C71", "title": "When a block can be processed again", "statement": "Between two steps about the same block all processed blocks have that block's height (or a hash collision is exhibited); so a block cannot be processed again once a block of larger height was. With two blocks of equal height the run A, B, A is accepted and counts the same transaction of A twice. Since the aggregator gives every block the height zero, this applies to any two different blocks it produces.", "quantifier": "all runs of satisfied client steps", "why_tests_cant": "adversarial schedules", "anchors": ["client/src/circuits/mod.rs: update_balance", "aggregator/src/lib.rs: produce_block, height"]}
{"id": "C72", "title": "The client accumulator commits to the exact block sequence", "statement": "The accumulator after a run is the starting one with the hash of each processed block folded in, in order: by the two-to-one Poseidon hash (accumulator first) for the Poseidon client, by the native SHA-256 accumulator for the SHA client. Two runs of equal length with equal final accumulator processed the same sequence of block hashes (and, if the block hashes are equal, the same roots and heights), or a collision of the accumulator function (or of the block hash) on explicit inputs is exhibited; without the length condition the alternative also includes an input mapped to the starting value.", "quantifier": "all runs", "why_tests_cant": "The set of inputs/histories is infinite (or astronomically large); a test samples a few and cannot exclude a bad one.", "anchors": ["client/src/circuits/mod.rs"]}
{"id": "C73", "title": "Client deltas sum to zero over all users", "statement": "For a valid dummy-clean transaction, the sum over all users of the client balance deltas is zero.", "quantifier": "all transactions", "why_tests_cant": "The set of inputs/histories is infinite (or astronomically large); a test samples a few and cannot exclude a bad one.", "anchors": ["client/src/circuits/mod.rs", "plasma-fold/src/datastructures/transaction/constraints.rs"]}
{"id": "C74", "title": "What a block accepted by the contract stands for", "statement": "If the public inputs derived from a block equal the final state of an accepted full-mode run started from counter zero and empty accumulators, then the block's transaction root is the one all signatures of the run commit to and the root of exactly the processed transactions, its signers, deposits and withdrawals are those of the run, its UTXO root commits to the resulting ledger, and the ledger value changes by the block's deposits minus authorised withdrawals (else a hash is broken).", "quantifier": "all blocks, all runs, all witnesses", "why_tests_cant": "soundness over all adversarial witnesses and blocks", "anchors": ["aggregator/src/circuit.rs: generate_step_constraints", "mock-contract/src/lib.rs: derive_public_inputs"]}
{"id": "C75", "title": "Client balances are integers modulo the field order", "statement": "The balance recorded after a run is the exact integer balance modulo the field order, and equals it exactly when it is neither negative nor too large. No step is rejected for lack of funds: a run accepted from a state is accepted from that state with any balance, ending with the same shift. In particular a user of balance zero can count a valid transfer of m > 0 and records the field order minus m.", "quantifier": "all runs, all witnesses, all balances", "why_tests_cant": "Wrap-around needs witnesses no honest test builds; the claim ranges over every run.", "anchors": ["client/src/circuits/mod.rs:update_balance"]}
{"id": "C76", "title": "Balance of every key in the ledger", "statement": "After any sequence of calls (failing ones included), the total amount of the UTXOs a key holds in the UTXO tree is the total created for it minus the total consumed from it; a successful process_signatures changes it by exactly what the authorised transactions pay to the key minus what they take from it.", "quantifier": "all histories of API calls, all keys other than the contract's, all signature lists", "why_tests_cant": "Ranges over all histories and all keys at once.", "anchors": ["aggregator/src/lib.rs:process_signatures", "plasma-fold/src/datastructures/transaction/mod.rs"]}
{"id": "C77", "title": "Client balance equals ledger holdings", "statement": "If a client starting at balance zero has shown to its circuit exactly the authorised transactions that involve its key (in any order, split over any steps, with any padding), and dummies carry no amounts, its balance is the amount the aggregator's UTXO tree holds for its key.", "quantifier": "all histories of successful epochs, all keys, all ways of splitting the transactions over client steps", "why_tests_cant": "Relates two independent state machines over all histories.", "anchors": ["client/src/circuits/mod.rs:update_balance", "aggregator/src/lib.rs:process_signatures", "plasma-fold/src/datastructures/transaction/mod.rs"]}
{"id": "C78", "title": "Honest clients are never rejected", "statement": "A client that takes its Merkle paths from the aggregator's transaction and signer trees for transactions of a produced block, in block order, after the position already processed and not the first of the block, whose senders' keys are in the signer tree, is accepted by the client circuit with any amount of padding, and balance and nonce change as the transactions say.", "quantifier": "all reachable aggregator states, produced blocks, users, sets of positions and step sizes", "why_tests_cant": "Completeness over all states and selections.", "anchors": ["client/src/circuits/mod.rs:update_balance", "client/src/circuits/mod.rs:UserAux", "aggregator/src/lib.rs:produce_block"]}
{"id": "C79", "title": "Which transactions of a produced block a client can count", "statement": "A transaction counted in an accepted client step about a produced block was accepted into the epoch by process_transactions at the claimed position, and its sender's key occurs in the signer tree (or a hash collision is exhibited); conversely every such transaction after the first can be counted. (Consequence, proved: a transaction that was never authorised or executed is credited by the receiver's client if its sender's key occurs anywhere in the signer tree.)", "quantifier": "all reachable aggregator states, produced blocks, witnesses", "why_tests_cant": "All witnesses of an adversarial prover and all aggregator histories.", "anchors": ["client/src/circuits/mod.rs:update_balance", "aggregator/src/lib.rs:process_transactions", "aggregator/src/lib.rs:produce_block"]}
{"id": "C80", "title": "Client balances are backed by deposits", "statement": "The balances of different clients never add up to more than what was deposited minus what was withdrawn, if each client has shown exactly the authorised transactions involving its key, without amounts in dummies. The condition is not enforced and cannot be dropped: two transactions that nobody signs give any user any balance, with an empty ledger and no deposit.", "quantifier": "all histories of the aggregator, all sets of clients and their runs", "why_tests_cant": "A global conservation law over all histories, clients and witnesses.", "anchors": ["client/src/circuits/mod.rs:update_balance", "aggregator/src/lib.rs:process_signatures", "plasma-fold/src/datastructures/transaction/mod.rs", "contract/src/lib.rs"]}
{"id": "C81", "title": "User ids proved from a tree path are the position of the key", "statement": "compute_id_from_path_and_check accepts exactly one id for a path: the position the path points at, which for a path from generate_proof(i) is i. Together with the membership check under the public key root, the key shown with id n is the key registered at position n, or the shown path exhibits a hash collision; and the true path of every position passes both checks. The in-circuit membership check of an allocated path returns what the native verifier returns.", "quantifier": "all trees with fewer levels than the field has bits, all contents, all path variables (honest or not), ids, keys, hash functions", "why_tests_cant": "The test samples honest paths only; soundness is about every path a malicious prover may allocate.", "anchors": ["plasma-fold/src/circuits/gadgets/mod.rs: TreeGadgets::compute_id_from_path_and_check", "plasma-fold/src/datastructures/publickeymap/mod.rs: PublicKeyTreeConfig", "plasma-fold/src/datastructures/publickeymap/constraints.rs: PublicKeyTreeConfigGadget"]}
{"id": "C82", "title": "Dense tree update gadget", "statement": "TreeGadgets::update_and_check is satisfiable under the root of a tree only if the old leaf is the one at the path's position, and then it returns true exactly when the new root is the root after replacing that leaf and nothing else, or the shown path exhibits a collision; honest updates satisfy it. The new root is only compared, not enforced: with a wrong new root the gadget is still satisfiable and returns false.", "quantifier": "all heights, contents, positions, leaves, roots, path variables and hash functions", "why_tests_cant": "There is no test of it; soundness ranges over all path variables and contents.", "anchors": ["plasma-fold/src/circuits/gadgets/mod.rs: TreeGadgets::update_and_check, TreeUpdateProof, TreeUpdateProofVar"]}
{"id": "C83", "title": "Nonce tree proofs bind the user's nonce", "statement": "In every nonce tree built through the API the proof generated for user i passes the in-circuit indexed membership check with the user's nonce; and a 64-bit nonce variable accepted under the root for an in-range id is that user's nonce, or the proof exhibits a collision.", "quantifier": "all nonce trees (all histories of writes), users below 2^31, 64-bit nonces, proofs, hash functions", "why_tests_cant": "Tests use sixteen random nonces and honest proofs.", "anchors": ["plasma-fold/src/datastructures/noncemap/mod.rs: NonceTreeConfig", "plasma-fold/src/datastructures/noncemap/constraints.rs: NonceTreeConfigGadget", "plasma-fold/src/primitives/crh/mod.rs: NonceCRH"]}
{"id": "C84", "title": "Native wallet against the client circuit", "statement": "A wallet that calls spend_transaction for the transactions it signed and receive_transaction for those paying it, and the client circuit shown the same transactions, agree on the nonce, and the wallet's balance exceeds the circuit's by exactly what the received transactions pay to others; so they agree exactly when no transaction paying the user pays anybody else (a payment with change makes the wallet overstate its balance).", "quantifier": "all runs of the client circuit on native inputs, all wallets and transaction lists", "why_tests_cant": "A relation between two implementations over all histories.", "anchors": ["plasma-fold/src/datastructures/user/mod.rs: User::spend_transaction, User::receive_transaction", "client/src/circuits/mod.rs: update_balance"]}
{"id": "C85", "title": "Exactly which client steps are accepted", "statement": "On native inputs with in-range indices a step of the client circuit is satisfiable exactly when: there are as many transactions and proofs as the batch size, the key is the user's, the block is not older than the last one, every path has the right length, every non-padding transaction passes the native indexed verifier against the block's transaction root, its signer passes the native verifier against the signer root, and the indices of the non-padding transactions are strictly increasing starting after the last processed one.", "quantifier": "all states, native external inputs, batch sizes, hash functions", "why_tests_cant": "Both directions range over all states and inputs, including dishonest proofs.", "anchors": ["client/src/circuits/mod.rs: update_balance, UserAux"]}
{"id": "C86", "title": "Circuit steps are deterministic", "statement": "The state after any number of folded steps of the client circuit, and of the aggregator circuit with any batches, is determined by the initial state and the external inputs: internal witnesses (bits, comparison results, signature results) leave the prover no choice.", "quantifier": "all states, external inputs (allocated honestly or not), batches and numbers of steps", "why_tests_cant": "Tests only generate one satisfying assignment; a second one with another result is what has to be excluded.", "anchors": ["client/src/circuits/mod.rs: update_balance", "aggregator/src/circuit.rs: generate_step_constraints"]}
{"id": "C87", "title": "validate decides consistency of the store", "statement": "On a tree whose keys lie inside the tree, validate() always answers; true exactly when every ancestor of every stored leaf is stored with the hash of its two children. Hence a validated store in which no inner node stands above no leaf shows the Merkle root of its leaves (with such stray nodes it need not), and overwriting a written leaf's digest or any digest above it makes validate() answer false (or exhibits a collision). The field tree is public, so any store can be presented.", "quantifier": "every configuration, every node map with keys inside the tree, every tampered node", "why_tests_cant": "ranges over all stores and all single-node corruptions; the tests validate only honestly built trees", "anchors": ["plasma-fold/src/primitives/sparsemt/mod.rs: MerkleSparseTree::validate, MerkleSparseTree.tree"]}
{"id": "C88", "title": "Signatures bind message, key and block", "statement": "A signature accepted by verify for two messages under one key, or for one message under two keys (with non-zero challenge), exhibits two explicit hash inputs with the same truncated digest. A signature accepted for a transaction and transaction root cannot be reused for another transaction or a block with another transaction root. Exception: challenge zero is accepted under one key iff under every key.", "quantifier": "every curve, hash function, key, message, signature, transaction and root", "why_tests_cant": "a test tries a few wrong messages; binding ranges over all pairs of messages and keys", "anchors": ["plasma-fold/src/primitives/schnorr.rs: Schnorr::verify", "plasma-fold/src/datastructures/keypair/mod.rs: PublicKey::verify_signature", "aggregator/src/lib.rs: process_signatures"]}
{"id": "C89", "title": "Acceptance of signatures depends only on the epoch's transactions (replay)", "statement": "process_signatures decides acceptance from the current epoch's transaction list alone: after any two histories leading to the same list, the same pairs are recorded as signers, and whatever was accepted once is accepted again, with the same UTXO movements, wherever the ledger holds at least the same UTXOs. So an old signature spends a new UTXO of the same owner and amount when the list of transactions is repeated (concrete history given).", "quantifier": "all pairs of reachable histories, all lists of signed pairs, all ledgers", "why_tests_cant": "quantifies over pairs of arbitrary histories; the tests run one epoch", "anchors": ["aggregator/src/lib.rs: process_signatures, process_transactions, reset", "plasma-fold/src/datastructures/utxo/mod.rs: UTXO"]}
{"id": "C90", "title": "State vectors of the step circuits", "statement": "generate_step_constraints panics on vectors shorter than state_len, ignores extra elements and the step number, and returns exactly state_len elements in the documented order: client (balance, nonce, key hash, accumulator, last block hash, last height, last counted index), aggregator (count, UTXO root, transaction root, final transaction root, signer root, signer, deposit and withdrawal chains), each with the value determined by the external inputs.", "quantifier": "every input vector, every run of any length, every external input", "why_tests_cant": "tests compare the final vector for one run", "anchors": ["client/src/lib.rs: FCircuit for ClientCircuitPoseidon, ClientCircuitSha", "client/src/circuits/mod.rs: update_balance", "aggregator/src/circuit.rs: generate_step_constraints, state_len"]}
{"id": "C91", "title": "Exactly which executed epochs can be proved", "statement": "After an epoch in which process_transactions and process_signatures both succeed (at most one answer per transaction, 64-bit amounts), the recorded circuit inputs prove the produced block if and only if: every transaction was answered, except possibly default transactions at the end; the key of every answer owns the real inputs of its transaction (even of transactions that were not approved); the input and output totals of every transaction agree without wrapping; what a transaction pays to the contract fits 64 bits; transactions signed with the contract's key have no real inputs; unapproved transactions pay nothing to the contract; and approved transactions fall on signer-tree positions never signed before. The only-if direction holds unless the run exhibits a hash collision. The aggregator checks none of these conditions: there are executed epochs violating each (an unanswered transaction, an unsigned withdrawal, a wrong answer key, a wrapping total in release builds, a deposit signed with the contract's key).", "quantifier": "aggregator circuit in full mode, process_signatures always called with the circuit's contract key; for all histories of calls before the epoch, all lists of transactions and answers, all batchings of the recorded inputs, all contract histories and produced blocks", "why_tests_cant": "a test proves or fails to prove one epoch; the claim classifies every epoch, and its only-if direction quantifies over all accepted circuit runs", "anchors": ["aggregator/src/lib.rs: AggregatorState::process_signatures, produce_block", "aggregator/src/circuit.rs: AggregatorCircuit::generate_step_constraints", "plasma-fold/src/datastructures/transaction/constraints.rs: TransactionVar::is_valid", "plasma-fold/src/contract: derive public inputs"]}
{"id": "C92", "title": "The repository's curve and fields meet every assumption of the system", "statement": "With the types the repository uses (Grumpkin over the BN254 scalar field): both moduli are prime, the curve y^2 = x^3 - 17 is smooth and has exactly q points, so every point is the public key of exactly one secret key (no small-order or cofactor keys); signing with any non-zero nonce returns a signature that verifies under the signer's public key and panics only on the zero nonce; and complete epochs and balance proofs exist on this very curve.", "quantifier": "every point of the curve, every secret key, hash function, message and nonce", "why_tests_cant": "the group has about 2^254 elements; its order and the primality of the moduli need a certificate, not samples", "anchors": ["plasma-fold/src/primitives/schnorr.rs: Schnorr::key_gen, Schnorr::sign, Schnorr::verify", "aggregator/src/circuit.rs:445 (ark_grumpkin::Projective)", "client/tests/mod.rs:17"]}
{"id": "C93", "title": "Poseidon inputs of one type collide only if the permutation breaks", "statement": "The two Poseidon functions are the unpadded duplex sponge around one permutation. All values of one type (keys, UTXOs, transactions, blocks) are hashed as vectors of one fixed length, and two different vectors of the same length with the same hash exhibit a break of the permutation at explicit points of the two computations; so equal transaction or UTXO hashes mean equal values or such a break. What is not protected: trailing zeros within a block do not change the hash, so the leaf hash of a key equals the inner-node hash of its coordinates; leaves and nodes are told apart only by depth.", "quantifier": "every permutation, capacity and rate, every pair of inputs of any length", "why_tests_cant": "quantifies over all input pairs and permutations; a test hashes samples", "anchors": ["plasma-fold/src/primitives/crh/mod.rs: TransactionCRH, PublicKeyCRH, NonceCRH, UTXOCRH, BlockCRH", "plasma-fold/src/primitives/sparsemt/mod.rs:626"]}
{"id": "C94", "title": "tx_is_deposit against the sender of a valid transaction", "statement": "For a transaction that satisfies the circuit's validity check and has a real input, tx_is_deposit returns true exactly if the sender is the contract. Without real inputs it always returns true, whoever sends; such a transaction creates no value when its outputs are 64-bit amounts.", "quantifier": "every transaction, sender and contract key", "why_tests_cant": "all transactions and field values", "anchors": ["aggregator/src/circuit.rs: AggregatorCircuit::tx_is_deposit", "plasma-fold/src/datastructures/transaction/constraints.rs: TransactionVar::enforce_valid"]}
{"id": "C95", "title": "The user handle keeps its keys and signs for them", "statement": "A new user starts with balance and nonce zero; whatever sequence of spend_transaction and receive_transaction follows, its keys and id do not change and every signature it returns verifies under the public key it was created with; the in-circuit state of a user determines its balance, nonce and accumulator.", "quantifier": "every secret key, id, nonce, sequence of wallet calls, message and stream of signing nonces", "why_tests_cant": "all histories and messages", "anchors": ["plasma-fold/src/datastructures/user/mod.rs: User::new, User::sign, sample_user", "plasma-fold/src/datastructures/user/constraints.rs: UserVar"]}
{"id": "C96", "title": "L1 funds behind the deposits of a block are not checked", "statement": "What derive_public_inputs returns depends on the contract only through the registered keys, never on balances or recorded deposits; accordingly there are epochs, processed by the aggregator, proved and matching the contract's derived inputs, that credit deposits and pay withdrawals although no L1 account ever held or deposited anything.", "quantifier": "every pair of contract states with the same keys and every block; every curve and contract key for the unbacked epoch", "why_tests_cant": "a universal independence statement and an existence statement over full histories", "anchors": ["mock-contract/src/lib.rs: derive_public_inputs, deposit", "aggregator/src/lib.rs: process_signatures, produce_block"]}
{"id": "C97", "title": "The aggregator refines a capacity-free reference ledger", "statement": "On every history of aggregator calls (new epochs, transaction submissions, signature answers, in any order and number, calls may return errors), the aggregator behaves like a reference ledger made of a multiset of unspent UTXOs and the lists of the epoch: same unspent UTXOs with multiplicity, each on its own slot, same transactions, signers, deposits, withdrawals and recorded answers, and every further call has the same outcome, including which error is returned (a UTXO that never existed versus one that is already spent) and when a debug build panics. As long as at most 2^31 UTXOs were ever created, the UTXO root commits to that multiset, however many transactions and signers an epoch has.", "quantifier": "all sequences of calls of any length, all transactions, keys, signatures and builds", "why_tests_cant": "Agreement on every history needs an invariant relating the hash map, the tree and the multiset; a test fixes a history.", "anchors": ["aggregator/src/lib.rs: AggregatorState::{new, reset_for_new_epoch, process_transactions, process_signatures}"]}
{"id": "C98", "title": "What happens beyond the capacity of the trees", "statement": "No call is refused because a tree is full. An epoch may take more than 4096 transactions with Ok; prove_transactions then returns an error for all of them (with at most 4096 it returns verifying proofs). Slots of spent UTXOs are never reused: after 2^31 UTXOs were ever created, the next ones overwrite old positions, and the UTXO root then is not the root of the aggregator's UTXO set whenever the overwritten position belonged to another UTXO (or the run exhibits a hash collision). Both situations are reachable with deposits only.", "quantifier": "all histories of calls, all numbers of transactions and UTXOs", "why_tests_cant": "The UTXO limit needs 2^31 outputs, out of reach of a test, and the exact boundary must hold on every history.", "anchors": ["aggregator/src/lib.rs: process_transactions, prove_transactions, process_signatures (current_utxo_index)", "plasma-fold/src/primitives/sparsemt/mod.rs: update_and_prove, generate_proof"]}
{"id": "C99", "title": "Equal roots mean equal contents, equal blocks mean equal states", "statement": "Two sparse Merkle trees built through the API that have the same root hold the same leaf at every position, unless the two trees exhibit a hash collision at some position. Two aggregators, after any two histories, that produce the same block against the same contract agree on height, signers, deposits, withdrawals, the position and multiplicity of every UTXO, the signer leaves, and the transactions up to default transactions at the end of the list, unless their trees exhibit a collision. The exception is real: submitting the default transaction is always accepted and does not change the block.", "quantifier": "all pairs of trees and all pairs of aggregator histories, all contract histories", "why_tests_cant": "binding is a statement about every pair of histories; a test compares finitely many pairs and cannot exclude another preimage", "anchors": ["plasma-fold/src/primitives/sparsemt/mod.rs: MerkleSparseTree::root, update_and_prove, new", "aggregator/src/lib.rs: AggregatorState::produce_block", "plasma-fold/src/datastructures/block/mod.rs: Block"]}
{"id": "C100", "title": "The prover finds a satisfying assignment whenever one exists", "statement": "Synthesising a step circuit with the internal witnesses the code itself computes (comparison helper bits, chunk bits, to_n_bits decompositions, left/right bits of Merkle paths) leaves all constraints satisfied, with final state z', exactly if some assignment of the internal witnesses satisfies the constraints with final state z'. In particular enforce_lt succeeds on every pair of integers x < y, is_valid computes the verdict of verify on every allocated signature, and the recorded inputs of an honest first epoch synthesise, in any batches, to the state the contract derives from the block.", "quantifier": "all field sizes, chunk widths, bit strings, paths, leaves, keys, messages, signatures, circuit states, batches and runs of both circuits", "why_tests_cant": "a wrong hint (scan direction, missing break, wrong comparison) only shows on particular chunk patterns among 2^508 pairs; a test runs a handful of signatures", "anchors": ["plasma-fold/src/primitives/schnorr.rs:enforce_lt", "plasma-fold/src/primitives/schnorr.rs:SchnorrGadget::is_valid", "aggregator/src/circuit.rs:to_n_bits", "plasma-fold/src/primitives/sparsemt/constraints.rs:conditionally_check_membership", "aggregator/src/circuit.rs:generate_step_constraints", "client/src/circuits/mod.rs:update_balance"]}
{"id": "C101", "title": "Synthesis panics only on wrong shapes, never on recorded or default inputs", "statement": "Synthesising either step circuit panics exactly if a proof shown to it has not the length of its tree, a list has the wrong number of entries, or a signature string has not the size of the scalar field; values never matter. The inputs recorded by the aggregator after any sequence of calls (successful, failed, beyond capacity) and the default inputs used to set up the folding scheme have the right shape.", "quantifier": "all states, inputs, batches; all call histories of the aggregator; all batch sizes", "why_tests_cant": "tests synthesise a few successful epochs; a failed call in the middle of an epoch or an overfull tree is not exercised", "anchors": ["aggregator/src/lib.rs:process_signatures", "aggregator/src/lib.rs:process_transactions", "aggregator/src/circuit.rs:AggregatorCircuitInputs", "client/src/circuits/mod.rs:UserAux", "plasma-fold/src/primitives/sparsemt/mod.rs:MerkleSparseTreePath::default", "plasma-fold/src/primitives/sparsemt/constraints.rs"]}
{"id": "C102", "title": "A chain of accepted blocks", "statement": "For a chain of blocks in which every block is accepted on top of the UTXO root of the previous one (by whatever provers, with whatever transaction and signer trees): all ledger updates of all epochs form one legal history from the first ledger to the ledger committed to by the last block; nothing is spent twice across epochs; a UTXO disappears only through a transaction of some epoch sent and signed by its owner; in full mode final value plus authorised pay-outs equals initial value plus all deposits of the blocks, so from an empty ledger the contract's holdings exactly cover the ledger provided every transaction paying to the contract is authorised. Unless a hash collision is exhibited. Without that proviso the contract can be drained: any registered key can obtain a chain of any length that records no deposit, spends nothing and withdraws a chosen amount in every block.", "quantifier": "all chains of any length, all initial ledgers, all registries, all prover behaviours, all hash functions", "why_tests_cant": "ranges over unboundedly many epochs and adversarial provers; tests run one epoch with one prover", "anchors": ["aggregator/src/circuit.rs: generate_step_constraints", "mock-contract/src/lib.rs: derive public inputs, MockContract", "plasma-fold/src/datastructures/block/mod.rs: Block"]}
{"id": "C103", "title": "Tree operations with machine-width indices", "statement": "With the `u64` index arithmetic the code really has, building a tree, updating a position, generating a (membership) proof and validating behave exactly as with unbounded indices whenever `index + 2^(HEIGHT-1) < 2^64`, in both build profiles; this covers every position that exists, for every height up to 64. For every larger index the operations panic in a debug build; in a release build updating panics before anything changes and no proof is generated, with one exception: at the index `2^64 - 2^(HEIGHT-1)` the conversion wraps to node `2^64 - 1`, the update succeeds and installs a root computed from the new leaf and the old root as its neighbour, while no membership proof for that position can be generated before or after. Computing a child index of a node wraps modulo 2^64 in a release build, and panics in a debug build exactly when the true child index does not fit in 64 bits.", "quantifier": "every configuration (hashes, height up to 64), tree, leaf, index in u64, and both build profiles", "why_tests_cant": "the index ranges over all u64 values and the tree over all contents; the single index at which a release build corrupts the root is not found by sampling", "anchors": ["plasma-fold/src/primitives/sparsemt/mod.rs: convert_index_to_last_level, sibling, left_child, right_child, update_and_prove, siblings, generate_membership_proof, generate_proof, new, validate"]}
{"id": "C104", "title": "Epochs and the batch size of the circuit", "statement": "The step circuit takes exactly B transactions. (a) Whoever builds it, a chain of such steps is accepted by the contract's public-input check only for blocks whose number of signer entries is a multiple of B. (b) The driver that cuts the recorded inputs into arrays of B keeps exactly the first floor(n/B)*B of them; it keeps all of them iff B divides n. (c) Any epoch can be padded: after n answered transactions, m default transactions answered without a signature (by a key for which the empty signature is not accepted and which is not the contract's) are accepted, leave the transaction root, ledger, signer tree, deposits and withdrawals unchanged, and the produced block only gains m empty signer entries. (d) If the original epoch is provable and B divides n+m, the batches the driver cuts from the padded epoch prove the padded block.", "quantifier": "all batch sizes, all epochs (any number of transactions within the tree capacity, any signatures), all reachable start states of the aggregator, all hash functions and curves, all proofs (for (a))", "why_tests_cant": "The benchmark uses one epoch whose length happens to be a multiple of the batch size; that padding never disturbs the transaction root or the rest of the block, and that no proof of an unpadded epoch exists, are statements about all epochs and all witnesses.", "anchors": ["aggregator/src/circuit.rs: generate_step_constraints, test driver (array_chunks)", "aggregator/src/lib.rs: process_transactions, process_signatures, produce_block, ivc_inputs", "mock-contract/src/lib.rs: derive_public_inputs"]}
{"id": "C105", "title": "Balances of keys and clients along a chain of accepted blocks", "statement": "Take any chain of blocks, each accepted by the contract's public-input check for an accepted run of the aggregator circuit that starts from the UTXO root of the previous block. (a) The ledger committed to by the last block holds for every key other than the contract's exactly what it held before the chain plus what the authorised transactions pay to the key minus what they take from it. (b) If the chain starts from the empty ledger, a client that starts with balance zero and has shown exactly the authorised transactions mentioning its key (in any order, over any steps, among any other transactions) ends with that amount as balance. (c) In full mode the balances of any number of such clients with different keys plus everything paid out never exceed the deposits recorded in the blocks. In each case the alternative is an explicit collision of the tree hashes (or, for (c), of truncated SHA-256) on inputs named by the statement.", "quantifier": "all chains of any length, all provers (transactions, witnesses, trees), all client runs, all keys, hash functions and curves", "why_tests_cant": "blocks come from arbitrary provers and a chain has any length; tests only run the honest aggregator for one epoch", "anchors": ["aggregator/src/circuit.rs: generate_step_constraints", "mock-contract/src/lib.rs: derive_public_inputs", "client/src/circuits/mod.rs: update_balance", "client/src/lib.rs: generate_step_constraints"]}
{"id": "C106", "title": "Deposit and withdrawal trees bind transactions to positions", "statement": "In the deposit and the withdrawal tree the digest of a leaf is the hash of the full encoding of the transaction. Under the root of a tree with given transactions, every path of the right length that the verifier accepts for a transaction shows the transaction stored at the position given by the low bits of the path's index (the index itself is not range-checked: adding the number of leaves changes nothing); the true path of every position is accepted for its transaction; trees with equal roots hold the same transactions. The alternative in each case is an explicit collision.", "quantifier": "all hash functions, curves, tree heights, transactions, positions and paths", "why_tests_cant": "ranges over all paths an adversary can show and all contents of a tree", "anchors": ["plasma-fold/src/datastructures/deposits/mod.rs: DepositTreeConfig", "plasma-fold/src/datastructures/withdrawals/mod.rs: WithdrawTreeConfig", "plasma-fold/src/primitives/crh/mod.rs: TransactionCRH"]}
{"id": "C107", "title": "Default proofs and default witnesses", "statement": "A default membership or update proof has the length the verifiers ask for. A default membership path is accepted exactly if the leaf digest is the default digest, the default digest is its own compression (height at least 3) and the root is the compression of two default digests; switched-off checks accept default proofs for every root, leaf and index. A client step with the default witness is accepted exactly for a state of the identity key that has seen no block above height zero (and whose index is in the lower half of the field); it leaves the balance, folds in the all-zero block and raises the nonce by the number of transactions per step. A default aggregator step is accepted (contract key not the identity, empty signature not valid) exactly if the transaction root is the one computed from the default transaction with zero neighbours, and changes only the counter and the signer accumulator.", "quantifier": "all heights, digests, leaves, roots, states, batch positions, hash functions and curves", "why_tests_cant": "exact acceptance conditions over all states and all hash functions", "anchors": ["plasma-fold/src/primitives/sparsemt/mod.rs: Default for MerkleSparseTreePath, MerkleSparseTreeTwoPaths", "client/src/circuits/mod.rs: UserAux::default, update_balance", "aggregator/src/circuit.rs: AggregatorCircuitInputs::default, generate_step_constraints"]}
{"id": "C108", "title": "What clients count from blocks accepted from any prover", "statement": "Take any block accepted by the contract-side check together with an accepted run of the aggregator circuit, whoever made it. If the run starts from the empty transaction tree and has at most as many transactions as the tree holds, the block's transaction root commits to exactly the transactions of the run, in order and padded, and the signer root to the senders of the authorised ones over the initial signer tree (or a hash collision is exhibited). So what a client counts from the block is a transaction of the run at that very position whose signer is the sender of some authorised transaction of the epoch or a key left in the signer tree; and conversely every listed transaction after the first with such a signer, even if it is unsigned itself, can be counted by everyone. Finding: since the identity key stands in every unused signer leaf, on top of any ledger there is an accepted block with nothing signed, deposited, withdrawn or changed in the ledger from which a user counts any 64-bit amount.", "quantifier": "all accepted blocks, provers, runs, batches, initial signer trees, client states, witnesses, amounts, hash functions and curves", "why_tests_cant": "the prover is adversarial: all witnesses, transaction lists and client inputs must be covered", "anchors": ["aggregator/src/circuit.rs: generate_step_constraints", "client/src/circuits/mod.rs: UserCircuit::update_balance", "mock-contract/src/lib.rs: LayerOneBlockchain", "plasma-fold/src/datastructures/transaction/mod.rs: get_signer"]}
{"id": "C109", "title": "The lifetime of an aggregator: chains of proved epochs and their limit", "statement": "Take any sequence of epochs executed by one aggregator (reset_for_new_epoch, process_transactions, process_signatures and produce_block all succeed, within the capacity of the trees). If every epoch meets the exact conditions of C91, the produced blocks form a chain of accepted blocks proved by the recorded inputs, from the UTXO root at the start to the one at the end. Finding: since the signer tree is never reset, if the recorded inputs of all epochs are accepted, then for every k at most one epoch of the whole lifetime executes its k-th transaction, and all epochs together execute at most 4096 transactions (or a collision of the signer-tree hash is exhibited).", "quantifier": "all numbers of epochs, all lists of transactions and answers (keys other than the identity), all reachable starting states, batchings, hash functions and curves", "why_tests_cant": "the number of epochs is unbounded, and the limit shows only after the tree is used up", "anchors": ["aggregator/src/lib.rs: AggregatorState::reset_for_new_epoch, process_transactions, process_signatures, produce_block", "aggregator/src/circuit.rs: generate_step_constraints"]}
{"id": "C110", "title": "What MerkleSparseTree::new does with any map of leaves", "statement": "new panics exactly if it is given more leaves than the tree has positions; otherwise it succeeds exactly if some index is below three times the number of positions and returns an error exactly if none is: indices are not checked against the number of positions. If all indices lie between one and three times the number of positions, the root returned is that of a tree with one level more. The expectation that out-of-range indices are refused is refuted: the tree can have lost the leaves at valid positions. With u64 arithmetic, an index that overflows panics in a debug build; in a release build it can wrap to an inner node and the call succeeds.", "quantifier": "all configurations (hash functions, heights from 2), all finite maps from indices to leaves, both build profiles", "why_tests_cant": "The outcome must be characterised for every map of leaves, height and hash function; a test sees one map at a time, and the wrapping indices lie near 2^64.", "anchors": ["plasma-fold/src/primitives/sparsemt/mod.rs: MerkleSparseTree::new", "plasma-fold/src/primitives/sparsemt/mod.rs: parent, left_child, right_child, gen_empty_hashes"]}
{"id": "C111", "title": "Exactly which balances a client can claim for a list of published blocks", "statement": "If the accumulator a client ends with is the one that stands for a given list of published blocks, then the client made exactly one step per block, in that order, the block heights never decrease, and its balance and nonce changed by those of a selection: for each block at most n positions, whose transactions are not padding and have their signer somewhere in the block's signer tree (or a hash function is broken on explicit inputs). Conversely every such selection, in any order and with any repetitions, can be claimed by an accepted run with that accumulator. So a run A, B, A does not fit a list A, B; but a client may leave out everything it spent, and count one payment up to n times. If indices were positions, no position would be selected twice. The same holds for the blocks of any list of accepted epochs, whoever proved them, and for every list of blocks the aggregator produces.", "quantifier": "all lists of blocks, runs, witnesses, step sizes, starting states, selections, hash functions and curves", "why_tests_cant": "both directions range over all runs, all witnesses and all selections; the breaking ones use index aliases no test would try", "anchors": ["client/src/circuits/mod.rs: update_balance, UserAux", "client/src/lib.rs: ClientCircuitPoseidon, ClientCircuitSha", "plasma-fold/src/primitives/accumulator/mod.rs"]}
{"id": "C112", "title": "Which transactions execute, and in which order", "statement": "Submitting signatures succeeds exactly if there are no more of them than submitted transactions and, going through the approved transactions in order, each finds its inputs among the UTXOs in the ledger and those created by the approved transactions before it (in debug builds also: no approved transaction pays 2^64 or more to the contract). Two aggregators that executed the same transactions in any two orders, over any number of calls and epochs without a failed signature call, hold the same UTXOs, each the same number of times. Whether a list of transactions is accepted for submission does not depend on its order. If no approved transaction spends what another one creates, they execute in every order or in none, with the same holdings; and two neighbours may always be swapped unless the second spends what the first creates. Otherwise the order matters: a deposit followed by the payment of it executes, the payment followed by the deposit does not.", "quantifier": "all reachable states, lists of transactions and answers, permutations, builds, hash functions and curves", "why_tests_cant": "ranges over all orders of all lists of transactions from all reachable ledgers", "anchors": ["aggregator/src/lib.rs: AggregatorState::process_transactions, process_signatures"]}
{"id": "C113", "title": "Executing a signed transaction is the aggregator's choice", "statement": "Take any epoch that executes and can be proved. With any of its signatures left out, provided no approved transaction spends what another one creates, or with all of them left out, the same submitted transactions again execute; those whose signature was left out have no effect and no signer (unless they are sent with the contract's key); the signer entries of the answers kept as they were are the same; and the recorded inputs again prove the block produced, for the same contract. The exception is a transaction that pays to the contract: it cannot be left unapproved in a provable epoch. So a block and its proof say nothing about signatures the users sent (finding).", "quantifier": "all reachable start states, epochs, answers, choices of left-out signatures, batchings, contracts, hash functions and curves", "why_tests_cant": "ranges over every epoch and every subset of its signatures, with existence of the proof's witnesses", "anchors": ["aggregator/src/lib.rs: AggregatorState::process_signatures, produce_block", "aggregator/src/circuit.rs: generate_step_constraints", "mock-contract/src/lib.rs"]}
{"id": "C114", "title": "What can still be executed and proved: no UTXO is stuck while a leaf is free", "statement": "From every reachable aggregator state, any list of valid, overflow-free requests of registered users that find their inputs in order, at most as many as the signer tree has free leaves, can be executed in the next epoch, all of them and in this order, in an epoch whose recorded inputs prove the block: the aggregator lists them on the free positions with default transactions in between. In particular the holder of any UTXO can have it paid to any registered key, or withdrawn, as long as one leaf is free; and exactly as many deposits as there are free leaves (4096 for a new aggregator, so the bound of C109 is met) can be proved in one epoch. After that, all leaves being taken, no accepted epoch executes anything any more: the remaining UTXOs are frozen (finding; or a collision of the signer-tree hash is exhibited). The only exception to the positive part: (0, 0), which stands for a missing signature, is a valid signature of a transaction sent without one.", "quantifier": "all reachable states, lists of requests, keys, amounts, contract histories, batchings, hash functions and curves", "why_tests_cant": "existence of an executable and provable epoch from every reachable state, and impossibility over all later epochs", "anchors": ["aggregator/src/lib.rs: AggregatorState", "aggregator/src/circuit.rs: generate_step_constraints", "mock-contract/src/lib.rs"]}
{"id": "C115", "title": "An honest client keeps up with an honest aggregator for its whole lifetime", "statement": "Take any lifetime of an aggregator (epochs of reset, transactions, signatures and block, all successful) and a new client of a key k (neither the identity nor the contract) whose executed transactions are never listed first in an epoch, are approved by the key of their own signer and carry no amounts in dummies. If after each epoch the client asks the aggregator for paths to the executed transactions that involve k and processes them in any number of steps of any size about the epoch's block, passing over a block with the hash of the last one processed, then every request and every step succeeds, whatever the plan; its final balance is what the ledger holds for k, its nonce the number of transactions k signed in the epochs processed, its accumulator that of the blocks of its steps. The balances of any clients of different keys that kept up, plus all withdrawals listed in the blocks, never exceed all deposits listed, and equal them if the clients include all owners. Two epochs whose blocks have the same hash leave the same ledger, so passing over is right. (Statements on balances and ledgers hold unless two of the epochs exhibit a collision of block hashes or of UTXO trees.)", "quantifier": "all lifetimes with any number of epochs, keys, step sizes, ways to split the transactions into steps, builds, hash functions and curves", "why_tests_cant": "acceptance of every step and equality with the ledger over all histories and all ways of following them", "anchors": ["aggregator/src/lib.rs: AggregatorState", "client/src/circuits/mod.rs: update_balance, UserAux", "plasma-fold/src/datastructures/block"]}
{"id": "C116", "title": "What a sparse tree stores", "statement": "A tree of height at least two built through blank, new and update_and_prove (in-range indices) stores a digest for exactly the nodes on the paths from the positions ever written to the root, each once, in increasing order, and each stored digest is the digest the Merkle tree of the contents has at that node. Hence two trees with the same contents and the same written positions are equal as data structures, however they were built; n written positions cost between n + height - 1 (if n > 0) and n * height entries, never more than 2^height - 1; a write removes nothing, adds at most height entries, adds none exactly if the position was written before, and so writing the default leaf frees nothing (on a position never written it stores its path, although contents and root do not change).", "quantifier": "all configurations with height at least 2, all trees built through the API by any sequence of operations, all indices in range, all leaves", "why_tests_cant": "Ranges over all build sequences, contents and heights; equality of the data structures for all pairs of histories.", "anchors": ["plasma-fold/src/primitives/sparsemt/mod.rs: MerkleSparseTree::{blank,new,update_and_prove}, field tree"]}
{"id": "C117", "title": "The aggregator's stores only grow", "statement": "After any sequence of calls (successful or failed), as long as at most 2^31 UTXOs were created, utxo_tree.tree holds exactly the nodes on the paths of the slots 0, ..., n - 1 of the n UTXOs ever created, spent or not: the sum over the 32 levels of n / 2^level rounded up, between n and 2 n + 32 entries; utxos has an entry exactly for the UTXOs ever created, also when none is left; and transaction_tree.tree holds exactly the nodes on the paths of the transactions of the current epoch (up to 2^12). No call removes a node of utxo_tree or signer_tree; reset_for_new_epoch empties the transaction tree only. So the store is bounded by the UTXOs created, not by the unspent ones.", "quantifier": "all histories of calls, all transactions, signatures, curves and hashes; sizes as stated", "why_tests_cant": "An exact invariant of every history of calls, including failed ones, with no bound on their number.", "anchors": ["aggregator/src/lib.rs: AggregatorState::{new,process_transactions,process_signatures,reset_for_new_epoch}, fields utxos, utxo_tree, transaction_tree, signer_tree"]}
{"id": "C118", "title": "Signing, nonce by nonce", "statement": "Call the challenge of a sampled nonce k the low bits (one more than the bit size of the scalar field) of the hash of the coordinates of k·gen followed by the message; k is dropped if its challenge is not below the group order and used otherwise. sign returns (s, e) exactly if the first nonce that is not dropped is used with challenge e and s = k - sk·e; it keeps sampling exactly while every nonce so far was dropped, and panics exactly if the first nonce not dropped is zero. Which nonce is used and its challenge do not depend on the secret key, only on the message and the nonces. If one nonce is used for two messages under one key, the two signatures determine the secret key, (s - s') / (e' - e), unless the challenges agree, which for different messages is a collision of the cut hash; a known nonce (non-zero challenge) determines the key, and two keys that used the same nonce know each other. Conversely the pairs (k·gen, s) which signing with a given challenge produces over all nonces are exactly those that can be written down from the public key alone, each from one nonce, and every (s, e) with e below the base field order verifies under some hash function: unforgeability rests on the hash.", "quantifier": "all keys, messages, nonce streams, hash functions, any prime-order group", "why_tests_cant": "Quantifies over every stream of sampled nonces, every key and every hash function; a test runs one random stream.", "anchors": ["plasma-fold/src/primitives/schnorr.rs: Schnorr::{key_gen,sign,verify}", "plasma-fold/src/datastructures/keypair/mod.rs: SecretKey::sign, PublicKey::verify_signature"]}
{"id": "C119", "title": "All steps have one constraint program", "statement": "Folding needs one constraint system for all steps; it is generated once, from default inputs. For every batch size there is one straight-line program of allocations, library gadget calls and constraints, each with the variables and constants it is applied to, such that a step of the aggregator's circuit emits exactly this program and leaves the next state in the same variables, from any state and with any inputs, or panics; it panics exactly if the inputs do not have the lengths the source prescribes. The same holds for the client's step with a fixed number of transactions per step. In particular every batch of inputs the aggregator records, after any sequence of calls, and every satisfiable client step, emits the program of the set-up made from default inputs. The values assigned on the way satisfy the program and compute a next state exactly if some assignment satisfies the constraints of the step with that next state.", "quantifier": "all states, inputs, batch sizes, histories of calls, hash functions, curves", "why_tests_cant": "A branch on a witness value changes the program only for the inputs that take it; a test synthesises a few inputs.", "anchors": ["aggregator/src/circuit.rs: AggregatorCircuitInputs::default, AggregatorCircuitInputsVar, to_n_bits, generate_step_constraints", "client/src/circuits/mod.rs: UserAux::default, UserAuxVar, UserCircuit::update_balance", "client/src/lib.rs: ClientCircuitPoseidon, ClientCircuitSha", "plasma-fold/src/primitives/schnorr.rs: enforce_lt, SchnorrGadget::is_valid", "plasma-fold/src/primitives/sparsemt/constraints.rs: MerkleSparseTreeGadget", "plasma-fold/src/datastructures/transaction/constraints.rs: enforce_valid, get_signer"]}
{"id": "C120", "title": "What the constraint program says, for every assignment", "statement": "Read the gadget calls emitted at set-up as a constraint system: values may be assigned to its variables in any way, and each call relates the values of its operands to those of its results. For both step circuits and every number of transactions per step, an assignment that satisfies the program and has given values in the variables of the old state and the operands of the new state exists exactly if some inputs take the old state to the new one in the circuit's relation; and a folded run of any number of such steps exists exactly if a run of the relation with as many batches does. Consequently whatever values a prover of the aggregator assigns, a run from the initial state that ends in the public inputs of a block proves that the value of the UTXO tree changed by the deposits of the block and by at most the withdrawals it lists, unless a hash collides. Likewise, whatever values a client's prover assigns, a run that ends with the accumulator of a list of published blocks has one step per block and the balance and nonce of a selection of at most n countable transactions per block (or a hash breaks), and every such selection is the claim of some run.", "quantifier": "all batch sizes, all states, all assignments (also dishonest ones) to all variables of the program, all numbers of folded steps, all hash functions and curves meeting the size assumptions", "why_tests_cant": "A test checks the assignment the honest prover computes; soundness ranges over all assignments, and a wrong operand in one gadget call only shows with values the prover does not compute.", "anchors": ["aggregator/src/circuit.rs: AggregatorCircuit::generate_step_constraints", "client/src/circuits/mod.rs: UserCircuit::update_balance", "client/src/lib.rs: generate_step_constraints", "plasma-fold/src/primitives/sparsemt/constraints.rs", "plasma-fold/src/primitives/schnorr.rs", "plasma-fold/src/datastructures/transaction/constraints.rs: enforce_valid, get_signer", "plasma-fold/src/primitives/accumulator/constraints.rs"]}
{"id": "C121", "title": "The constraints leave the prover no choice besides the inputs", "statement": "The program of a step has variables for the old state, variables for the external inputs, allocated in a fixed order, and variables introduced by gadgets, some of which the prover may choose. For both step circuits and every number of transactions per step: for given state and inputs in their variables, values for the remaining variables that satisfy the program and give a new state exist exactly if the circuit's relation holds of state, inputs and new state; the inputs can be read off every satisfying assignment at their positions and satisfy the relation; two satisfying assignments that agree on the state and the input variables agree on the new state; and two folded runs from one state with the same inputs in every step end in the same state.", "quantifier": "all batch sizes, states, inputs of the right shape, pairs of assignments (also dishonest ones), numbers of folded steps, hash functions and curves meeting the size assumptions", "why_tests_cant": "An under-constrained variable shows only with values the honest prover never assigns; a test runs the honest prover.", "anchors": ["aggregator/src/circuit.rs: AggregatorCircuitInputsVar::new_variable, AggregatorCircuit::generate_step_constraints", "client/src/circuits/mod.rs: UserAuxVar::new_variable, UserCircuit::update_balance", "client/src/lib.rs: generate_step_constraints", "plasma-fold/src/primitives/schnorr.rs: enforce_lt", "plasma-fold/src/primitives/sparsemt/constraints.rs"]}
{"id": "C122", "title": "Only the validity of a signature matters; a response has several strings in the circuit but one residue", "statement": "For one key, message and challenge at most one response is accepted, or the hash, cut to the bit size of the group order, collides on two explicit inputs (curve without a point at (0, 0)). In the circuits the response string is read modulo the group order only: strings of the same residue are accepted, rejected or refused alike by both signature gadgets, so a response small enough has a second string of the same length that is accepted as well; the challenge string must be the canonical one. What a signature contributes beyond being accepted is nothing: exchanging signatures in the witness of a run of the aggregator's circuit for others that are accepted in the same places leaves the final state and the acceptance of the run as they are; and process_signatures called with the same keys and with signatures that approve the same transactions returns the same result and leaves the same state and the same block, except for the signatures stored with the circuit inputs.", "quantifier": "all keys, messages, pairs of signatures, bit strings, chunk widths, circuit runs and batch sizes, reachable aggregator states and pairs of answer lists, hash functions and curves", "why_tests_cant": "Tests use the one signature the signer produced and its canonical string; malleability and independence are about all the others.", "anchors": ["plasma-fold/src/primitives/schnorr.rs: Schnorr::verify, SchnorrGadget::verify, SchnorrGadget::is_valid", "plasma-fold/src/datastructures/keypair/constraints.rs: SignatureVar", "aggregator/src/circuit.rs: generate_step_constraints", "aggregator/src/lib.rs: process_signatures, produce_block"]}
{"id": "C123", "title": "What a single participant can do to everybody's epochs", "statement": "Findings about every reachable state. (1) Whatever the others submit in an epoch, the holder of any secret key, without funds, can submit a transaction that process_transactions accepts and that he can sign, such that process_signatures fails however the others answer once his signature is handed in; if his signature is left out, the call succeeds exactly when the other approved transactions can be executed, as if his were not there. (2) A key that is not registered can submit the empty transaction and sign it; once its signature is accepted, produce_block panics in this epoch. (3) One registered user without funds can use up the system: there is an epoch made of his transactions only, without inputs and with outputs of amount zero, that executes and whose recorded inputs prove its block; it takes all free leaves of the signer tree and four leaves of the UTXO tree for each transaction, and changes no other UTXO. (4) After that, no later epoch whose recorded inputs are accepted changes any UTXO, or the hash collides. (The exception in (3) is that (0, 0), which stands for a missing signature, is a valid one.)", "quantifier": "all reachable states, secret keys, transactions and answers of the others, registries, later epochs, builds, hash functions and curves", "why_tests_cant": "Tests run cooperative users; that one hostile transaction suffices, for every state and whatever the others do, is a statement about all of them.", "anchors": ["aggregator/src/lib.rs: process_transactions, process_signatures, produce_block", "plasma-fold/src/datastructures/transaction/mod.rs: is_valid", "aggregator/src/circuit.rs: generate_step_constraints"]}
{"id": "C124", "title": "Later registrations change nothing for blocks, up to 2^32 accounts", "statement": "What derive_public_inputs returns for a block is not changed by any later sequence of join and deposit calls, whatever the block. An aggregator state from which produce_block succeeds is one from which it succeeds after any such calls. The public inputs of the block of a state depend on the aggregator's state only: any two contracts of at most 2^32 registered keys that can produce it (other contract key, accounts joined in another order, repeatedly, before or after the epoch) derive the same public inputs from their blocks, though the account numbers written into the blocks differ. Finding: the bound is needed. Account numbers are written with 32 bits, so the account joined as number n appears as n mod 2^32; after 2^32 - 1 registrations the next account is written as account 0, and the contract reads its deposits as its own.", "quantifier": "all blocks, all sequences of contract calls, all reachable aggregator states, all pairs of registries", "why_tests_cant": "ranges over all registries and call sequences; the failure needs 2^32 registrations", "anchors": ["mock-contract/src/lib.rs: join, deposit, derive_public_inputs", "aggregator/src/lib.rs: produce_block"]}
{"id": "C125", "title": "What the prover of an epoch can choose: slots, and nothing else", "statement": "In a run of the aggregator's circuit everything that is switched off can be replaced without effect: slots and paths of dummies, of inputs of unsigned transactions, of outputs paid to the contract or of unauthorised transactions, signer paths of unauthorised transactions, the bits of a slot number above the 31st; the run stays accepted and ends in the same state. Of what is switched on, only the slots matter: two accepted runs from the same state over the same transactions, senders and signature decisions which name the same slots for the UTXOs really erased and inserted end in the same state, whatever their batches and paths, unless two of the paths exhibit a collision of the compression hash. Finding: the slots themselves are free. If a step is accepted from a state whose ledger root commits to contents c, then for every other choice of slots for which c holds the erased UTXOs and dummies where something is inserted there is an accepted witness that differs in slots and paths only; the next state differs in its ledger root only, and two choices that differ in some slot give different roots or exhibit a collision. So the ledger root that an epoch ends with is not a function of the ledger root it starts with and its transactions.", "quantifier": "all field sizes that fit the curve, all parameters, states, runs, batchings, witnesses, contents and slot choices", "why_tests_cant": "Ranges over all witnesses a malicious or merely different prover can supply, of which a test shows one; the honest aggregator always takes the first free slot, so its runs never exercise the freedom.", "anchors": ["aggregator/src/circuit.rs: AggregatorCircuit::generate_step_constraints", "plasma-fold/src/primitives/sparsemt/constraints.rs: MerkleSparseTreeGadget::check_update"]}
{"id": "C126", "title": "Signatures are not tied to a rollup", "statement": "For transactions none of whose UTXOs belongs to either of two contract keys, and pairs of other keys, process_signatures called with one contract key is the same function as with the other, and the aggregator circuits of two rollups (same hash functions and mode, other contract key) accept the same runs with the same states. Finding: nothing that a user signs names the rollup, so what was signed for one rollup is valid on every other: whatever process_signatures accepted on one rollup it accepts on another, with the same signatures and the same movements of UTXOs, in every reachable state whose epoch holds the same transactions and whose ledger holds at least as many copies of each UTXO. Concretely: a user who received 5 on two rollups and signs a payment of 5 on the first loses, to anybody who submits the same payment and signature, the 5 on the second.", "quantifier": "all pairs of contract keys, reachable states and signature lists; all pairs of circuits, states, runs and batchings; every user, receiver and pair of contract keys for the concrete replay", "why_tests_cant": "Every test has one contract and one aggregator; the statement relates two deployments over all inputs.", "anchors": ["aggregator/src/lib.rs: process_signatures", "aggregator/src/circuit.rs: AggregatorCircuit::generate_step_constraints"]}
{"id": "C127", "title": "The size of the step circuits is a fixed part plus a fixed part per transaction", "statement": "The list of gadget calls (gadgets, sorts of operands, constants, numbers of results) of the aggregator's step circuit for a batch is eight allocations followed by one and the same list per transaction for the inputs and one and the same list per transaction for the processing: it depends on the number of transactions only, not on state, inputs or position in the batch. So any measure of the circuit's size that adds up over the gadget calls (numbers of calls, of variables, of constraints) is eight field allocations plus a multiple of the batch size. Exactly: per transaction, padding included, 21 sponge hashes, 544 two-to-one hashes, two scalar multiplications, one point addition, 13 conditional equality constraints and one SHA-256 hash in transfer-only mode or six in full mode. The client's step circuit for n transactions has a fixed part plus a fixed part per transaction in the same sense: two sponge hashes and one accumulator call, plus three sponge hashes, 24 two-to-one hashes and 28 conditional equality constraints per transaction, used or not, and no curve operation.", "quantifier": "all batch sizes, states, inputs of the right shape, modes, hash functions, curves and contract keys; for the client all numbers of transactions per step and both accumulators", "why_tests_cant": "The tests print the number of constraints for single batch sizes and compare it with nothing; that it is affine in the batch size and that no input or branch changes it ranges over all sizes and inputs.", "anchors": ["aggregator/src/circuit.rs: AggregatorCircuit::generate_step_constraints, test_num_constraints_transfer_only_mode, test_num_constraints_full_mode", "client/src/circuits/mod.rs: UserCircuit::update_balance, UserAuxVar::new_variable", "plasma-fold/src/primitives/sparsemt/constraints.rs", "plasma-fold/src/primitives/schnorr.rs: SchnorrGadget::verify"]}
{"id": "C128", "title": "Which L1 calls go through, and that the order of deposits is irrelevant", "statement": "From a fresh contract, with total funds below 2^64, a sequence of join and deposit calls goes through exactly if every deposit comes from an account other than the contract's that has joined before, and no account deposits more in all than it joined with; otherwise some call panics. Two sequences with the same registrations in the same order and the same deposits in any order, interleaved in any way with accounts joining before they deposit, are both accepted or both refused and end in the same contract: keys, account numbers, balances, nonces, pending deposits, and hence the public inputs derived from every block. The order of registrations does matter: it decides the account numbers; and a deposit before the registration panics.", "quantifier": "all sequences of calls of any length, all interleavings, all keys and amounts with total funds below 2^64, both builds", "why_tests_cant": "The number of interleavings grows factorially; the tests make one deposit in one order.", "anchors": ["mock-contract/src/lib.rs: MockContract::join, MockContract::deposit, L1Account::transfer, MockContract::derive_public_inputs"]}
{"id": "C129", "title": "One signature answers every copy of a transaction in an epoch", "statement": "In a successful call of process_signatures, equal transactions answered by equal pairs get the same verdict, at whatever positions they are listed: all are executed and recorded under the answering key, or none. If an epoch consists of n copies of a transaction that does not create what it spends, then n times the same approving answer executes all of them exactly if the ledger holds n times what one takes (in debug builds also: if one pays less than 2^64 to the contract), and takes and creates n times as much. So (finding) a user who signed one payment once can see it executed n times in the same epoch, without further signatures, as long as the funds last: when the contract deposits n times a for him and the aggregator lists his payment of a n times (n up to 2048), all copies execute on the one signature, he has nothing left and the receiver n times a, and the epoch can be proved for the block derived from it.", "quantifier": "all reachable states, signature calls, positions, transactions and answers; all numbers of copies, amounts, signing keys, receivers, builds, hash functions, contracts and batchings", "why_tests_cant": "The signed message holds the transaction and the epoch's root but no position; that every number of copies goes through, with a proof, ranges over all epochs and all keys", "anchors": ["aggregator/src/lib.rs: AggregatorState::process_signatures, process_transactions", "plasma-fold/src/datastructures/transaction.rs", "aggregator/src/circuit.rs"]}
{"id": "C130", "title": "Any amount up to what a key holds can be paid, and how many transactions it takes", "statement": "From every reachable state with room in the UTXO and signer trees, the holder of n UTXOs in the ledger whose total is below 2^64 can have any amount up to this total paid to any registered key, or withdrawn, within one epoch that executes and has a proof, by 1 + floor((n-2)/3) transactions of four inputs each, all sent by him: the n UTXOs leave the ledger, and the amount enters it as one UTXO of the receiver and the rest, if there is any, as one of the owner, except that a payment to the contract becomes one withdrawal record of the block instead. The only exception is an epoch for which the pair (0,0) happens to be a valid signature of the default transaction under the owner's key. No fewer transactions do: if over any number of successive epochs in which nothing is withdrawn (in release builds: and no transaction has inputs or outputs whose total reaches 2^64) the only difference in the ledger's non-dummy UTXOs is that n ≥ 2 positive UTXOs of an owner became one with their total, at least that many transactions were executed.", "quantifier": "all reachable aggregator states, owners and keys, lists of held amounts, amounts to pay, receivers, builds, hash functions, curves, contracts; for the lower bound all lifetimes of any number of epochs", "why_tests_cant": "That every amount is payable, whatever the number and sizes of the UTXOs held, and that no schedule of transactions over any number of epochs does it with fewer, are claims over all ledgers and all histories", "anchors": ["aggregator/src/lib.rs: AggregatorState::process_transactions, process_signatures", "plasma-fold/src/datastructures/transaction.rs: TX_IO_SIZE, is_valid", "aggregator/src/circuit.rs", "plasma-fold/src/datastructures/block.rs"]}

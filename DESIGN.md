# Formal model of dmpierre/plasma-fold in Lean 4

## 1. Approach

* `/repo` is read as text. Every model definition cites the file and lines it models and says where it simplifies.
* Native code becomes total, computable functions. `Result` and panics are data:
  `Outcome ok | err | panic`. `&mut self` becomes a returned state (also on error paths,
  because several functions mutate before failing).
* Circuit code (R1CS gadgets) becomes *relations*: `FpVar<F>` is an element of `ZMod p`,
  `Boolean` a `Bool`, witness allocations are explicit (existential) values, `enforce_*` are
  conjuncts. A circuit is "satisfied" when the relation holds. So *soundness* theorems quantify
  over every adversarial witness, and *completeness* theorems produce a witness.
* Hash functions (Poseidon sponge, two-to-one Poseidon, SHA-256) are parameters. No theorem assumes a hash
  injective; binding properties are stated as "the claim, or these concrete distinct inputs — taken from a
  finite set of values hashed in the run — have the same hash" (`Collides`, `Collision`, `ChainBreak`,
  `TranscriptCollision`, `CutCollision`).
* Elliptic-curve points are an abstract commutative group (a module over `ZMod q` for Schnorr) with a
  coordinate map `xy` (`none` exactly at the identity, injective elsewhere). Curve arithmetic of ark-ec is
  not modelled.
* Unsigned machine integers: where overflow matters (`is_valid` sums, wallet and contract balances, recorded
  withdrawals, u64 tree indices in the verifiers) both the debug (panic) and the release (wrap) behaviour are
  modelled, selected by a `Build` parameter; elsewhere `Nat`, with the bound stated as a hypothesis.
* Where the plain expectation of a user is false of the code (C10, C11, C15, C19, C21, C30, C33, C62, C67-C69,
  C71, C75, C80, C87 and the findings of section 8), the statement in `properties.jsonl` says exactly what the
  code does, names the refuted expectation, and the theorems include both the exact characterisation and the
  counterexample. No `_partial` theorem is left.

## 2. Trusted base

* Lean 4.33.0 kernel; Mathlib as installed.
* Axioms: at most `propext`, `Classical.choice`, `Quot.sound` (section 6). No axiom is added.
* Faithfulness of the hand-written model to the Rust source (by citation), including recalled
  semantics of dependencies, which are not available in the sandbox:
  * `BTreeMap/HashMap/Vec`, iterators, integer arithmetic of Rust;
  * ark-r1cs-std `FpVar` (`is_eq`, `enforce_cmp`, `is_cmp` — including their range restriction to half the
    field —, `to_bits_le`, `select`, `conditional_enforce_equal`, `le_bits_to_fp`), `to_constraint_field`;
  * ark-crypto-primitives `Path`, `PathVar`, `Path::verify` and the update gadget: definitions marked
    "(library)" in `Model/TreeGadgets.lean`;
  * ark-ff `from_bigint`, `to_bytes_le`, `from_le_bytes_mod_order`.
  * (C119) the constraints a library gadget adds are a function of the variables and constants it is applied to, not of
    the values assigned to them; native folding of constants inside gadgets is part of this.
  * (C120) the constraints each library gadget adds mean what `Holds` in `Spec/Assignment.lean` says about its operands
    and results (one line per gadget). How a gadget is built from R1CS rows is not modelled.
* The specifications in `Verif/Spec/*.lean` and the definitions that appear in theorem statements.
* Field sizes are hypotheses (`Sizes`, `FieldOk`); `Proof/BnSizes.lean` shows that the BN254 scalar field and the
  Grumpkin scalar field meet them. Primality is a hypothesis where needed (`Fact q.Prime`); C92 proves
  it for the two concrete moduli (Pratt certificates) and builds Grumpkin itself as an instance of `Curve`, its
  group order certified in the kernel. The curve coefficient and generator are those of the external crate
  ark-grumpkin.

## 3. Modules

| module | content |
|---|---|
| `Basic` | outcomes, build modes, u64, ordered and hash maps, state monad |
| `Model/SparseMT` | native sparse Merkle tree (`primitives/sparsemt/mod.rs`) |
| `Model/SparseMTGadget` | its R1CS gadgets (`sparsemt/constraints.rs`) |
| `Model/Circuit` | R1CS vocabulary: bits, select, conditional equality, comparisons |
| `Model/Data` | UTXO, Transaction, User, Block, NonceTree and configs, encodings, CRHs and gadgets |
| `Model/Schnorr` | Schnorr signing, verification, gadgets, `enforce_lt`, `to_n_bits` |
| `Model/Accumulator` | byte encodings, SHA-256 field hash, Poseidon and SHA accumulators |
| `Model/Contract` | mock L1 contract |
| `Model/Aggregator` | aggregator state machine (`aggregator/src/lib.rs`) |
| `Model/AggregatorCircuit` | aggregator step circuit (`aggregator/src/circuit.rs`) |
| `Model/Client` | client step circuit (`client/src/circuits/mod.rs`) |
| `Model/StateVector` | both circuits as `FCircuit` step functions over state vectors |
| `Model/TreeGadgets` | gadgets over dense Merkle trees (`circuits/gadgets/mod.rs`) and the library paths they use |
| `Model/Sponge` | the duplex sponge behind the Poseidon functions, around an arbitrary permutation (library) |
| `Model/Witness` | both step circuits as synthesised by the code: computed hints, panics, satisfaction flag |
| `Model/Program` | both step circuits once more, recording the program of gadget calls with their operands |
| `Model/User` | user handle: creation, signing, in-circuit state |
| `Spec/Sponge` | blocks absorbed by a sponge, break of its permutation |
| `Spec/Merkle, Store, TreeUpdates, TreeGadgets` | perfect trees, what a store shows, sequences of updates, positions of paths |
| `Spec/Tx, Ledger, Aggregator, AggregatorBook, AggregatorCircuit` | ownership, totals, ledger contents, histories of API calls, effect of a circuit run |
| `Spec/Client, ClientAccept, EndToEnd` | exact books of a client, what a step must show, ledger balances |
| `Model/SparseMTWidth` | the tree operations with exact `u64` index arithmetic (debug / release) |
| `Model/Batches` | the driver's cut of the recorded inputs into arrays of `B` |
| `Spec/BlockChain` | epochs, accepted blocks, chains of blocks, their updates, deposits and withdrawals |
| `Spec/ChainBalances` | holdings of a key, what transactions pay to and take from it, what a client shows |
| `Spec/ClientChain` | what an accepted block lists |
| `Spec/Lifetime` | sequences of executed epochs |
| `Spec/Order` | what it takes to execute transactions one after the other, independence, left-out signatures |
| `Spec/Witness` | satisfied synthesis, shapes of circuit inputs |
| `Spec/Contract, Accumulator` | history of contract calls, hash chains and their collisions |
| `Proof/SparseMT*, Merkle, Validate, TreeUpdates, TreeGadgets` | tree lemmas |
| `Proof/Circuit, Data, Schnorr, Accumulator, Contract` | gadget, encoding, signature and contract lemmas |
| `Proof/Aggregator, AggregatorRun, AggregatorFacts, AggregatorCalls, AggregatorBooks, AggregatorOwner, AggregatorEpoch, AggregatorSigner, AggregatorBook` | invariants and consequences of aggregator calls |
| `Proof/AggregatorCircuit, AggregatorCircuitRun, AggregatorCircuitValue, AggregatorCircuitComplete, AggregatorCircuitPublic` | exact characterisation of the aggregator circuit, runs, value, completeness |
| `Proof/AggregatorHonest, AggregatorProvable` | recorded inputs satisfy the circuit |
| `Proof/Client, ClientRun, ClientHonest` | exact characterisation of the client circuit, runs, completeness |
| `Proof/EndToEnd, LedgerBalance, DepositsEpoch` | aggregator, contract and client together |
| `Proof/AggregatorDemo, AggregatorTri, AggregatorCircuitDemo, BnSizes` | concrete histories and parameters for examples |
| `Spec/Program`, `Proof/Program, ProgramValues` | what it means to emit a program; syntheses compared |
| `Spec/Assignment` | the program as a constraint system: assignments, meaning of each gadget, folded runs |
| `Spec/Layout` | which variables of a program hold the state and the external inputs, in order |
| `Proof/ProgramSound, ProgramComplete` | every satisfying assignment gives the relation; the computed values satisfy the program |
| `Spec/CallOrder` | acceptable sequences of L1 calls, contracts that cannot be told apart |
| `Spec/Gather` | UTXOs of an owner with given amounts, what a payment out of them leaves |
| `Spec/ProgramShape`, `Proof/ProgramShape, ProgramSize, ProgramBill` | programs up to variable numbers, repeated parts, counts of gadget calls |
| `Proof/Witness, Shapes` | computed hints against the relations, panics, shapes of recorded inputs |
| `Proof/Padding` | chunks; `process_signatures` does not look at later transactions |
| `Proof/ChainBalances` | holdings of keys over the updates of a chain |
| `Proof/Sponge` | the sponge computes its specification |
| `Proof/Primes, Grumpkin, GrumpkinCert` | primality of the moduli, group order of Grumpkin (the certificate is generated) |
| `Proof/CleanHash, CleanRun, CleanAccept` | a hash without collisions on the tree of a concrete circuit run, the run and its acceptance: in the examples that use them the collision alternatives are refuted |
| `Props/*` | the property theorems `Cxx_...`, counterexamples and non-vacuity examples |
| `Props/Cases*` | the property theorems applied to concrete, non-trivial cases, where these do not stand beside the theorem |

## 4. Per-property plan

Tree (native). Spec: `nodeAt h2 f l j`, digest of node j at level l of the perfect tree with leaf
digests `f`. Invariant: every (stored-or-empty) node equals `nodeAt`.
C01 C02 C03 C06 C09: invariant by induction over writes. C04 C05 C07: induction over path with collision extraction
(`C04_tree`, `C05_tree`, `C07_tree`: for every tree reached through the API, against its own root).
C08: exact u64 arithmetic in both builds. C10, C11: exact behaviour, counterexamples to the naive claims. C87: exact
decision of `validate` on arbitrary stores; soundness false with stray nodes.

Gadgets: C12 C13 C14 C16: equivalence with the native verifier by induction over the path. C15: false
(aliasing); exact characterisation (index mod 2^(H-1)) + counterexample. C81 C82: dense-tree gadgets, equivalence
with the library path plus collision extraction. C83: nonce tree as an instance. C106: instances for the
deposit and withdrawal trees, native verifier, with injectivity of the transaction encoding.
C107: default proofs by induction over the levels; default steps from the exact step characterisations.
C108: soundness of the circuit's transaction and signer updates (C56) composed with the client's inclusion
checks (C66, C67); the finding is a two-transaction epoch built from `one_complete_tx` and `picks_step`.
C109: induction over the epochs; C91 per epoch for the chain, C58 per epoch for the limit, counting the taken
leaves of the signer tree.
C110: induction over the levels of `new` (which nodes get a digest); one level beyond by comparing the run with that
of a configuration one level higher.
C111: the accumulator binds the list of block hashes (C72); per step the counted positions (C66, C67) give the
selection, padding contributes nothing; conversely one step per block with fresh aliases as indices (`picks_step`).
C112: `C44_longest_valid_prefix` at full length for the exact condition; the rest by list lemmas on counts of spent and
created UTXOs; holdings by induction over histories. C113: the approved transactions with signatures left out are a
sublist, C112 for execution, C91 for the proof, C48 for the block. C114: the requests are spread over the free leaves of the
signer tree (induction over the positions), then C112, C48 and C91; the converse is C109. C115: induction over the epochs;
within an epoch over the steps about its block (C78, with the exact index a step leaves behind); the balance by C76 per
epoch; a repeated block hash gives an equal UTXO root, hence an equal ledger or a collision.
C116: induction over the ways of building a tree for the exact set of stored keys (`PathsOf`), then the node digests are
those of the Merkle tree, so equal contents and written positions give equal ordered maps; sizes by counting. C117: the
set of stored nodes as an invariant of every call, whatever its outcome (`Keeps`), counted level by level. C118: induction over
the sampled nonces; field arithmetic for the key recovered from a reused nonce.
C119: a relation `Same` between two syntheses (equal programs and result variables, or both panic), closed under the
constructs of the source, from lengths only; a simulation `Sim` of the value-level synthesis of `Model/Witness`.
C120: two Hoare-style passes over the same program: `Snd` (what any satisfying assignment makes true of the operands) and
`Hon` (the values computed during synthesis satisfy it); the set-up's program by C119. Folded runs by induction.
C121: the variables allocated for state and inputs are a prefix of the program, with a layout that depends on the shape only
(`Lay`); `Hon` for that prefix alone and `Snd` for the rest give the relation for the inputs in place, C86 the determinism.
C122: uniqueness by dividing by the difference of the responses; the gadgets through the residue of the string (C27); the
circuit by exchanging the gadget's witness in each step; the aggregator by a relation `Blind` on computations (equal states
but for stored signatures stay so), closed under sequencing.
C123: a fresh amount of the attacker by counting occupied leaves (C38), then the exact condition of C112; C43 and C48; the
construction of C114 for transactions of one user; C114_frozen.
C124: the list of keys only grows (induction over calls), so lookups that succeeded stay; C48 and the closed form of the
derivation for a produced block (C57); the truncated index of C48 read back through the list.
C125: the updates of a run depend on the selected entries only, so exchanging the others leaves the facts of C50 as they
are; two chains of updates with the same positions and leaves agree or two paths to one root differ (induction along the
path); for chosen slots the true paths from the contents are a witness (completeness of C13).
C126: the contract key enters the aggregator and the circuit only in comparisons with keys of the input, all of which come
out negative on both sides; replay by C89.
C127: a third comparison of syntheses (same shape up to variable numbers, whatever the values), which also counts gadget calls
of chosen kinds. What a gadget call costs in constraints is not modelled: sizes are any sum over calls that looks at the gadget, the sorts
of its operands, constants and the number of results.
C128: acceptance by induction on the calls from C35; the order theorem follows, since books (C35) and registry (C36) are functions of the
registrations and the multiset of deposits.
C129: C43 and C112 on lists of copies; the provable epoch by C57.
C130: a plan that merges four UTXOs at a time, which the ledger affords in order; the epoch by C114. Lower bound: a transaction that
withdraws nothing lowers the number of positive UTXOs by at most three, summed over a lifetime.

Encodings C17 C18: injectivity of field vectors, using `xy` injective and amounts < p. C19: false; counterexample.

Transactions C20-C24: decision logic over lists, both builds. C21 exact; unconditional conservation false in release (witness).

Schnorr C25-C27, C30: module algebra; C30 false (forgery constructed). C28 C29: bit arithmetic over ZMod p.
C88: binding by collision extraction on challenge inputs, with the zero-challenge exception made explicit.
C89: the decision of `process_signatures` on signatures is a function of the epoch's transactions; replay constructed.

Accumulators C31 C32: induction over list with collision extraction.

User C33 exact in both builds; C84: wallet against the exact books (drift characterised). Contract C34-C37: induction over call
sequences; binding by collision extraction.

Aggregator C38-C49: invariants over op sequences (also after errors). C45, C46, C47, C49: exact behaviour and
counterexamples to the naive claims. C76: balances of keys from the accounting. C97: refinement of a reference ledger
(`Spec/AggregatorBook`) by induction over calls without any capacity hypothesis; C98: exact boundary of
`prove_transactions`, and what the UTXO root can commit to after 2^31 creations. C99: collision extraction on two
trees, then on the three trees behind a block.

Machine-width indices C103: each operation of `Model/SparseMTWidth` is rewritten to the unbounded one (bounds carried through
the loops); out-of-range indices by walking up from the wrapped node.
Batches C104: the step counter counts signer entries; signature processing commutes with appending transactions behind the
ones it looks at; default transactions do not change the transaction tree; then C91.
C51 C102 (`_every_removal`): the same for every UTXO present in any intermediate ledger, including those created on the way.
Chains of blocks C102: induction over the epochs; the updates of the epochs are concatenated (a collision in one
epoch is a collision of the whole), then the single-run lemmas on touched slots, copies and owners apply to the
concatenation; value by adding up C53 and C74; insolvency by constructing an accepted block with an unsigned
withdrawal (C55) and repeating it. C105: the holdings of a key over the concatenated updates, transaction by transaction;
the client side is C61 with the shown transactions permuted into those of the chain.

Witness generation C100 C101: a second, executable model of the gadgets with the values the closures compute; each
gadget's satisfied runs are shown to be exactly the relation (the `∃` of the relation is met by the computed hint), then
composed. Panics: exact shape condition; invariant over all aggregator calls for the recorded inputs.

Aggregator circuit C50-C60, C74, C86, C90: exact iff-characterisation of one step (`StepFacts`), then fold induction
(`RunFacts`); soundness through `UpdChain.sound` (legal updates or collision); completeness through
`run_complete`. C54, C55, C58: naive claims false, witnesses. C57 C58 C91: native recorded inputs are honest
updates; C91 gives necessary and sufficient conditions. C92: checked double-and-add with certified slopes,
Lagrange and the bound of 2p + 1 points. C93: blockwise induction from the last block back.
C94 C95: direct from the exact validity characterisation and C25. C96: independence, and the epoch of C57 run against a
contract without funds.

Client C61-C73, C75, C85, C86, C90: exact iff-characterisation of a step, fold induction; C62: the exact
exceptions to single counting; C67-C69, C71, C75: exact conditions, naive claims refuted by satisfying witnesses.

Together C76-C80: history of calls + client runs; C80 under its conditions, with a counterexample without them.

Every property listed in `properties.jsonl` is expressed in the model; none is marked not applicable.

## 5. Not modelled

Folding/IVC (sonobe Nova/CycleFold), proof verification (`verify_proof`, `add_block` are
`unimplemented!` in the source), Poseidon rounds, SHA and curve formulas of the libraries, R1CS synthesis modes and constraint counts, wasm
bindings, serialization, RNG quality, performance, benches and tests of the repository.

## 6. Axioms per theorem

Produced by `tools/axioms.py` (`#print axioms` on every theorem named in `MANIFEST.json`). Every theorem depends on
a subset of `propext`, `Classical.choice`, `Quot.sound`; the list is in `AXIOMS.txt`.

## 7. Tests against wrong programs

`seeded/mutants.py` lists edits of the model (definition, old text, new text, claim broken); `tools/mutate.py`
applies each in a scratch copy outside `/verif`, rebuilds, and records which theorems fail;
`seeded/LOG.jsonl` is the log. Mutants that survived and the theorems tightened or added because of them are marked
there.

`tools/automutate.py` complements the hand-written edits: it generates token-level edits of every definition
under `lean/Verif/Model` (comparison and boolean operators, constants, projections, swapped fields and arguments,
deleted lines, one identifier for another), rebuilds after each and reports survivors; `tools/autolog.py` turns its
output into `seeded/auto.jsonl`, which is appended to the log. Edits that are not well typed are discarded. First run:
662 well-typed edits, 13 survivors, of which 10 leave the definition unchanged in meaning and 3 (`mulU64`) led to
`C103_child_wraps`. Second run, after the model had grown: 415 well-typed edits, 8 survivors, of which 7 change nothing the
model says and one (`fieldBytes`, for moduli of 64·k bits) led to `C32_field_bytes`. Third run, over `Program`, `Accumulator`
and `Witness`: 103 well-typed edits, 2 survivors, both of which leave the definition as it is. Fourth run, over the
specification vocabulary under `lean/Verif/Spec`, where an edit that nothing refuses would show a definition no theorem
depends on: 187 well-typed edits, 2 survivors, both of which leave the definition as it is.

## 8. Findings (naive expectations refuted by a theorem)

Trees: writes beyond the capacity succeed and corrupt (C10; for `new` C110; for the aggregator's trees C98; in release builds also at the wrapping index `2^64 - 2^(HEIGHT-1)`, C103); any leaf gets a proof at a position never given one
(C11); circuit indices alias modulo the capacity (C15); `validate` ignores the cached root and stray nodes (C09, C87).
Data: the by-value encoding drops the keys (C19); block digests ignore signers, deposits, withdrawals (C18); release
builds accept wrapping sums (C21); the wallet credits outputs of others (C33, C84).
Signatures: forgeries under the identity key (C30, C64); zero challenges bind no key (C88); old signatures
are accepted again whenever the same transaction list recurs (C89).
Sponge: no length or domain separation (C93). Contract: see C35, C37. Aggregator: C40, C45, C46, C47, C49, C42
(a missing signature is (0,0)), C94 (input-less transactions count as deposits), C96 (deposits are not tied to L1 funds).
Aggregator circuit: C54, C55 (over chains of blocks: C102_insolvency), C58; C91 (epochs that cannot be proved although the ledger accepts them);
C104 (the driver drops the last `n mod B` transactions; such epochs are provable by nobody unless padded), C106 (a path's leaf index
is only compared modulo the number of leaves), C107 (default client witnesses raise the nonce of the identity key),
C108 (an accepted block in which nothing is signed lets a user count any amount), C109 (an aggregator can prove
at most 4096 executed transactions in its lifetime, and at most one epoch with an executed first transaction).
Client circuit: double counting by aliases and by blocks of equal height (C62, C71; between any two blocks of the aggregator, whose height is always zero, C71_own_blocks), signer at any position (C67), dummy
outputs mint (C68), first position never countable (C70), no check of funds (C75); together C79, C80. Even if the accumulator is checked against
the published blocks, spending can be left out and income multiplied (C111). The order of dependent transactions in an
epoch decides whether it executes (C112_order_matters); signed transactions can be left unexecuted at the aggregator's
choice, with a valid proof, except those that pay to the contract (C113). Once the 4096 leaves are taken, no UTXO can be
spent in a provable epoch any more (C114_frozen). Nothing is ever freed: writing the default leaf still stores its path (C116),
and the aggregator keeps a slot, its nodes and a map entry for every UTXO ever created (C117). Signing: a zero nonce panics, a nonce used twice reveals the key (C118);
the response string of a signature in the circuits is not unique (C122_second_string; harmless by C122_run_uses_validity_only).
One hostile user: any user can make the signature call of an epoch fail, any unregistered key can block the production of
a block, and one registered user without funds can take all signer leaves with empty transactions, for good (C123).
Account numbers are cut to 32 bits in blocks: the account after 2^32 - 1 others is read as the contract (C124).
The prover chooses the slots: the last ledger root of an epoch is not a function of the first one and the transactions (C125).
Signatures name no rollup: one given on one deployment spends on every other (C126).
Nor do they name a position: one signature executes every copy of the transaction the aggregator lists in the epoch, as long as
the user holds enough equal UTXOs, with a valid proof (C129).

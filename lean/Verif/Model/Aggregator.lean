import Verif.Model.Contract

/-!
# Model of the aggregator (native)

`/repo/aggregator/src/lib.rs`, `/repo/aggregator/src/errors.rs`.

`&mut self` methods return the new state together with the outcome, because they change the state
before failing. The fields `acc_signer`, `acc_pk` (never written except to zero) and `config` are
omitted. Vectors are lists, `HashMap<UTXO, Vec<usize>>` is an association list.
The two arrays `utxo_tree_*_positions` / `utxo_tree_*_proofs` of four entries are kept as one list of
four (position, proof) pairs. The three fields `utxos`, `utxo_tree`, `current_utxo_index` are grouped
in the sub-structure `Ledger`.
-/

namespace PF.Agg
open PF PF.MT PF.Schnorr
variable {p q : Nat} {G : Type}

/-- aggregator/src/errors.rs `AggregatorError` (variants that can be returned). -/
inductive AggError where
  | signatureError
  | utxoError
  | utxoTreeUpdateError
  | utxoNonExisting
deriving DecidableEq, Repr

/-- aggregator/src/circuit.rs:69-80 `AggregatorCircuitInputs`. -/
structure Inputs (p q : Nat) (G : Type) where
  tx : Tx Nat G
  txProof : List (ZMod p)
  dels : List (ZMod p × List (ZMod p))
  adds : List (ZMod p × List (ZMod p))
  signerProof : List (ZMod p)
  senderPk : G
  signature : ZMod q × ZMod q
deriving DecidableEq

/-- lib.rs:36-38: the fields `utxos`, `utxo_tree`, `current_utxo_index` of `AggregatorState`. -/
structure Ledger (p : Nat) (G : Type) where
  utxos : HMap (UTXO Nat G) (List Nat)
  tree : STree (ZMod p)
  next : Nat
deriving DecidableEq

/-- lib.rs:33-51 `AggregatorState`. -/
structure State (p q : Nat) (G : Type) where
  ledger : Ledger p G
  transactions : List (Tx Nat G)
  txTree : STree (ZMod p)
  deposits : List (G × Nat)
  withdrawals : List (G × Nat)
  signerTree : STree (ZMod p)
  signers : List (Option G)
  height : Nat
  txProofs : List (List (ZMod p))
  ivcInputs : List (Inputs p q G)
deriving DecidableEq

/-- `MerkleSparseTree::blank(..)` as a value (sparsemt/mod.rs:250-269); `blank` itself cannot fail, see
`Proof/Aggregator.lean: blank_eq`. -/
def blankTree {L D : Type} (cfg : Config L D) : STree D :=
  { tree := [], root := (genEmptyHashes cfg cfg.height)[cfg.height - 1]?,
    emptyHashes := genEmptyHashes cfg cfg.height }

/-- Continue with the value of a tree operation; its panic (it returns no `Err`) unwinds, leaving
state `s`.
Model of `.unwrap()` and `?` on tree operations at aggregator/src/lib.rs:86-111, 113-225. -/
def onOk {σ ε α β : Type} (x : Outcome Unit α) (s : σ) (f : α → σ × Outcome ε β) : σ × Outcome ε β :=
  match x with
  | .ok a => f a
  | _ => (s, .panic)

section
variable [AddCommGroup G] [Module (ZMod q) G] [DecidableEq G]

/-- lib.rs:54-72 `new`. -/
def new (q : Nat) {G : Type} [AddCommGroup G] [Module (ZMod q) G] (cv : Curve p q G) (hs : Hashes p) :
    State p q G :=
  { ledger := ⟨[], blankTree (utxoTreeCfg cv hs), 0⟩, transactions := [],
    txTree := blankTree (txTreeCfg cv hs), deposits := [], withdrawals := [],
    signerTree := blankTree (signerTreeCfg cv hs), signers := [], height := 0, txProofs := [],
    ivcInputs := [] }

/-- lib.rs:74-84 `reset_for_new_epoch`. -/
def reset (cv : Curve p q G) (hs : Hashes p) (s : State p q G) : State p q G :=
  { s with
    transactions := [], txTree := blankTree (txTreeCfg cv hs), deposits := [], withdrawals := [],
    signers := [], txProofs := [], ivcInputs := [] }

/-- lib.rs:90-98, one iteration of `process_transactions`. `TransactionTreeFailure` cannot occur
(`update_and_prove` returns `Ok` or panics). -/
def processTx (b : Build) (cv : Curve p q G) (hs : Hashes p) (sender : G) (tx : Tx Nat G) :
    SM (State p q G) TransactionError Unit := fun s =>
  match tx.isValid b (some sender) with
  | .err e => (s, .err e)
  | .panic => (s, .panic)
  | .ok () =>
    onOk (updateAndProve (txTreeCfg cv hs) s.txTree s.transactions.length tx) s fun r =>
      ({ s with txTree := r.1, txProofs := s.txProofs ++ [r.2], transactions := s.transactions ++ [tx] },
        .ok ())

/-- lib.rs:86-101 `process_transactions`. -/
def processTransactions (b : Build) (cv : Curve p q G) (hs : Hashes p) :
    List (G × Tx Nat G) → SM (State p q G) TransactionError Unit
  | [] => SM.pure ()
  | x :: rest => SM.bind (processTx b cv hs x.1 x.2) fun _ => processTransactions b cv hs rest

/-- Iteration of lib.rs:106-110: `enumerate` from `i`, `collect` stops at the first error. -/
def proveFrom (cv : Curve p q G) (hs : Hashes p) (t : STree (ZMod p)) :
    Nat → List (Tx Nat G) → Outcome Unit (List (List (ZMod p × ZMod p)))
  | _, [] => .ok []
  | i, tx :: rest => do
    let π ← genProof (txTreeCfg cv hs) t i tx
    let πs ← proveFrom cv hs t (i + 1) rest
    .ok (π :: πs)

/-- lib.rs:103-111 `prove_transactions`. -/
def proveTransactions (cv : Curve p q G) (hs : Hashes p) (s : State p q G) :
    Outcome Unit (List (List (ZMod p × ZMod p))) :=
  proveFrom cv hs s.txTree 0 s.transactions

/-- Default entries of the position and proof arrays, lib.rs:122-127. -/
def noUpdate (cv : Curve p q G) (hs : Hashes p) : ZMod p × List (ZMod p) :=
  (0, defaultTwoPaths 0 (utxoTreeCfg cv hs))

/-- lib.rs:144-170, one iteration of the loop over the inputs; result: deletion position and proof. -/
def deleteOne (cv : Curve p q G) (hs : Hashes p) (rollup : G) (u : UTXO Nat G) :
    SM (Ledger p G) AggError (ZMod p × List (ZMod p)) := fun l =>
  if u.isDummy then (l, .ok (noUpdate cv hs))
  else if u.pk ≠ rollup then
    match l.utxos.get u with
    | none => (l, .err .utxoNonExisting)
    | some v =>
      match v.getLast? with
      | none => (l, .err .utxoError)
      | some index =>
        onOk (updateAndProve (utxoTreeCfg cv hs) l.tree index UTXO.dummy)
          { l with utxos := l.utxos.insert u v.dropLast } fun r =>
          ({ l with utxos := l.utxos.insert u v.dropLast, tree := r.1 }, .ok ((index : ZMod p), r.2))
  else (l, .ok (noUpdate cv hs))

/-- lib.rs:144-170, the loop over the inputs. -/
def deleteInputs (cv : Curve p q G) (hs : Hashes p) (rollup : G) :
    List (UTXO Nat G) → SM (Ledger p G) AggError (List (ZMod p × List (ZMod p)))
  | [] => SM.pure []
  | u :: us => SM.bind (deleteOne cv hs rollup u) fun d =>
    SM.bind (deleteInputs cv hs rollup us) fun ds => SM.pure (d :: ds)

/-- Run a ledger operation inside the aggregator state.
Model of access to the fields `utxos` and `utxo_tree` of aggregator/src/lib.rs:33-51 in 140-215. -/
def onLedger {α : Type} (m : SM (Ledger p G) AggError α) : SM (State p q G) AggError α := fun s =>
  ({ s with ledger := (m s.ledger).1 }, (m s.ledger).2)

/-- lib.rs:185-196: add one UTXO to the map and the tree. -/
def insertOne (cv : Curve p q G) (hs : Hashes p) (u : UTXO Nat G) :
    SM (Ledger p G) AggError (ZMod p × List (ZMod p)) := fun l =>
  onOk (updateAndProve (utxoTreeCfg cv hs) l.tree l.next u)
    { l with utxos := l.utxos.insert u ((l.utxos.get u).getD [] ++ [l.next]) } fun r =>
    (⟨l.utxos.insert u ((l.utxos.get u).getD [] ++ [l.next]), r.1, l.next + 1⟩,
      .ok ((l.next : ZMod p), r.2))

/-- lib.rs:178-181: the outputs of the rollup contract are deposits. -/
def recordDeposit (rollup pk : G) (u : UTXO Nat G) : SM (State p q G) AggError Unit := fun s =>
  (if pk = rollup then { s with deposits := s.deposits ++ [(u.pk, u.amount)] } else s, .ok ())

/-- lib.rs:198: `withdrawal_amount += utxo.amount` (`u64`). -/
def addWithdrawal {σ : Type} (b : Build) (w a : Nat) : SM σ AggError Nat := fun s =>
  (s, addU64 b w a)

/-- lib.rs:172-200, one iteration of the loop over the outputs with running `withdrawal_amount`;
result: addition position and proof, and the new amount. -/
def addOne (b : Build) (cv : Curve p q G) (hs : Hashes p) (rollup pk : G) (u : UTXO Nat G) (w : Nat) :
    SM (State p q G) AggError ((ZMod p × List (ZMod p)) × Nat) :=
  if u.isDummy then SM.pure (noUpdate cv hs, w)
  else SM.bind (recordDeposit rollup pk u) fun _ =>
    if u.pk ≠ rollup then SM.bind (onLedger (insertOne cv hs u)) fun a => SM.pure (a, w)
    else SM.bind (addWithdrawal b w u.amount) fun w' => SM.pure (noUpdate cv hs, w')

/-- lib.rs:171-200, the loop over the outputs. -/
def addOutputs (b : Build) (cv : Curve p q G) (hs : Hashes p) (rollup pk : G) :
    List (UTXO Nat G) → Nat → SM (State p q G) AggError (List (ZMod p × List (ZMod p)) × Nat)
  | [], w => SM.pure ([], w)
  | u :: us, w => SM.bind (addOne b cv hs rollup pk u w) fun a =>
    SM.bind (addOutputs b cv hs rollup pk us a.2) fun r => SM.pure (a.1 :: r.1, r.2)

/-- lib.rs:130-137: the acceptance test of one pair. -/
def accepted (cv : Curve p q G) (hs : Hashes p) (rollup : G) (root : ZMod p) (tx : Tx Nat G) (pk : G)
    (sig : ZMod q × ZMod q) : Bool :=
  verify cv hs.crh pk (txEnc cv tx ++ [root]) sig || decide (pk = rollup)

/-- lib.rs:139-143: the accepted signer is appended to the signer list and tree. -/
def addSigner (cv : Curve p q G) (hs : Hashes p) (pk : G) :
    SM (State p q G) AggError (List (ZMod p)) := fun s =>
  onOk (updateAndProve (signerTreeCfg cv hs) s.signerTree s.signers.length pk) s fun r =>
    ({ s with signerTree := r.1, signers := s.signers ++ [some pk] }, .ok r.2)

/-- lib.rs:201-203: record the withdrawal. -/
def recordWithdrawal (pk : G) (w : Nat) : SM (State p q G) AggError Unit := fun s =>
  (if w > 0 then { s with withdrawals := s.withdrawals ++ [(pk, w)] } else s, .ok ())

/-- lib.rs:211-221: push the circuit inputs; `self.tx_tree_update_proofs[i]` panics out of range. -/
def pushInputs (i : Nat) (tx : Tx Nat G) (dels adds : List (ZMod p × List (ZMod p)))
    (sp : List (ZMod p)) (pk : G) (sig : ZMod q × ZMod q) : SM (State p q G) AggError Unit := fun s =>
  match s.txProofs[i]? with
  | some tp =>
    ({ s with ivcInputs := s.ivcInputs ++
        [{ tx := tx, txProof := tp, dels := dels, adds := adds, signerProof := sp,
           senderPk := pk, signature := sig }] }, .ok ())
  | none => (s, .panic)

/-- lib.rs:138-203, 211-221 for an accepted pair. -/
def applyAccepted (b : Build) (cv : Curve p q G) (hs : Hashes p) (rollup : G) (i : Nat) (tx : Tx Nat G)
    (pk : G) (sig : ZMod q × ZMod q) : SM (State p q G) AggError Unit :=
  SM.bind (addSigner cv hs pk) fun sp =>
  SM.bind (onLedger (deleteInputs cv hs rollup tx.inputs.toList)) fun dels =>
  SM.bind (addOutputs b cv hs rollup pk tx.outputs.toList 0) fun r =>
  SM.bind (recordWithdrawal pk r.2) fun _ =>
  pushInputs i tx dels r.1 sp pk sig

/-- lib.rs:121-128, 204-221 for a rejected pair. -/
def applyRejected (cv : Curve p q G) (hs : Hashes p) (i : Nat) (tx : Tx Nat G) (pk : G)
    (sig : ZMod q × ZMod q) : SM (State p q G) AggError Unit := fun s =>
  pushInputs i tx (List.replicate TX_IO_SIZE (noUpdate cv hs))
    (List.replicate TX_IO_SIZE (noUpdate cv hs)) (defaultTwoPaths 0 (signerTreeCfg cv hs)) pk sig
    { s with signers := s.signers ++ [none] }

/-- lib.rs:118-222, one iteration of `process_signatures`. -/
def processOne (b : Build) (cv : Curve p q G) (hs : Hashes p) (rollup : G) (i : Nat) (pk : G)
    (sig : Option (ZMod q × ZMod q)) : SM (State p q G) AggError Unit := fun s =>
  match s.transactions[i]?, s.txTree.root with
  | some tx, some root =>
    if accepted cv hs rollup root tx pk (sig.getD (0, 0)) then
      applyAccepted b cv hs rollup i tx pk (sig.getD (0, 0)) s
    else applyRejected cv hs i tx pk (sig.getD (0, 0)) s
  | _, _ => (s, .panic)

/-- The loop of `process_signatures` from transaction `i` on.
aggregator/src/lib.rs:113-225. -/
def processFrom (b : Build) (cv : Curve p q G) (hs : Hashes p) (rollup : G) :
    Nat → List (G × Option (ZMod q × ZMod q)) → SM (State p q G) AggError Unit
  | _, [] => SM.pure ()
  | i, x :: rest => SM.bind (processOne b cv hs rollup i x.1 x.2) fun _ =>
    processFrom b cv hs rollup (i + 1) rest

/-- lib.rs:113-225 `process_signatures`. -/
def processSignatures (b : Build) (cv : Curve p q G) (hs : Hashes p) (rollup : G)
    (inputs : List (G × Option (ZMod q × ZMod q))) (s : State p q G) :
    State p q G × Outcome AggError Unit :=
  processFrom b cv hs rollup 0 inputs s

/-- `onchain_state.pk_indices[pk] as u32`: panics for an unregistered key, truncates to 32 bits.
aggregator/src/lib.rs:235, 241, 246. -/
def indexOf (c : Contract.State G) (pk : G) : Outcome Unit Nat := do
  let i ← Outcome.unwrap (c.pkIndices.get pk)
  .ok (i % 2 ^ 32)

/-- lib.rs:232-236, one signer entry. -/
def signerIndex (c : Contract.State G) : Option G → Outcome Unit (Option Nat)
  | none => .ok none
  | some pk => do
    let i ← indexOf c pk
    .ok (some i)

/-- lib.rs:238-247, one deposit or withdrawal entry. -/
def amountIndex (c : Contract.State G) (e : G × Nat) : Outcome Unit (Nat × Nat) := do
  let i ← indexOf c e.1
  .ok (i, e.2)

/-- `iter().map(f).collect()` with a panicking `f`.
aggregator/src/lib.rs:232-248. -/
def mapO {α β : Type} (f : α → Outcome Unit β) : List α → Outcome Unit (List β)
  | [] => .ok []
  | a :: t => do
    let x ← f a
    let xs ← mapO f t
    .ok (x :: xs)

/-- lib.rs:227-249 `produce_block`. -/
def produceBlock (c : Contract.State G) (s : State p q G) : Outcome Unit (Block (ZMod p)) := do
  let ur ← s.ledger.tree.rootHash
  let tr ← s.txTree.rootHash
  let sr ← s.signerTree.rootHash
  let signers ← mapO (signerIndex c) s.signers
  let deposits ← mapO (amountIndex c) s.deposits
  let withdrawals ← mapO (amountIndex c) s.withdrawals
  .ok { utxoRoot := ur, txRoot := tr, signerRoot := sr, signers := signers, height := s.height,
        deposits := deposits, withdrawals := withdrawals }

end
end PF.Agg

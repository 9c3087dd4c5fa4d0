import Verif.Model.AggregatorCircuit
import Verif.Spec.TreeUpdates
import Verif.Spec.Ledger
import Verif.Spec.Contract

/-!
# Specification vocabulary for the aggregator circuit

What one transaction of a proof does to the ledger, the transaction tree, the signer tree and the
hash chains, in terms of the external inputs only.
-/

namespace PF.AggC
open PF PF.Spec PF.Contract
variable {p q : Nat} {G : Type} [AddCommGroup G] [Module (ZMod q) G]

/-- The sizes of the two fields the circuit relies on: large enough for four sums of 64-bit amounts,
and the scalar field not longer than the circuit field. -/
structure Sizes (p q : Nat) : Prop where
  large : 2 ^ 67 ≤ p
  pos : 0 < q
  bits : Circuit.modBits q ≤ Circuit.modBits p

/-- The witnessed signature is canonical and verifies under the sender key, on the transaction followed
by the final transaction root. -/
def CInputs.signed (cv : Curve p q G) (hs : Hashes p) (root : ZMod p) (i : CInputs p G) : Bool :=
  decide (Circuit.bitsVal i.sigE < q) &&
    Schnorr.verify cv hs.crh i.senderPk (txEncVar cv i.tx ++ [root])
      ((Circuit.bitsVal i.sigS : ZMod q), (Circuit.bitsVal i.sigE : ZMod q))

variable [DecidableEq G]

/-- Signed, or sent by the contract. -/
def CInputs.authorised (P : Params p G) (cv : Curve p q G) (root : ZMod p) (i : CInputs p G) : Bool :=
  i.signed cv P.hs root || decide (i.senderPk = P.contract)

/-- Erasures of ledger slots: the real inputs of a signed transaction. -/
def CInputs.erases (cv : Curve p q G) (hs : Hashes p) (root : ZMod p) (i : CInputs p G) :
    List (Upd (UTXO (ZMod p) G) (ZMod p)) :=
  ((i.tx.inputs.toList.zip i.dels).filter fun x => i.signed cv hs root && !x.1.isDummy).map fun x =>
    { idx := x.2.1.val % UTXO_CAP, old := x.1, new := UTXO.dummy, sibs := x.2.2 }

/-- Insertions into ledger slots: the real outputs of an authorised transaction, except those paid to
the contract. -/
def CInputs.inserts (P : Params p G) (cv : Curve p q G) (root : ZMod p) (i : CInputs p G) :
    List (Upd (UTXO (ZMod p) G) (ZMod p)) :=
  ((i.tx.outputs.toList.zip i.adds).filter fun x =>
      i.authorised P cv root && x.1.onLedger P.contract).map fun x =>
    { idx := x.2.1.val % UTXO_CAP, old := UTXO.dummy, new := x.1, sibs := x.2.2 }

/-- Ledger updates of a list of transactions. -/
def ledgerUpds (P : Params p G) (cv : Curve p q G) (root : ZMod p) (is : List (CInputs p G)) :
    List (Upd (UTXO (ZMod p) G) (ZMod p)) :=
  is.flatMap fun i => i.erases cv P.hs root ++ i.inserts P cv root

/-- Transaction tree updates: transaction `k` replaces the default at position `s + k`. -/
def txUpds : ZMod p → List (CInputs p G) → List (Upd (Tx (ZMod p) G) (ZMod p))
  | _, [] => []
  | s, i :: is => { idx := s.val % TX_CAP, old := Tx.default, new := i.tx, sibs := i.txProof } ::
      txUpds (s + 1) is

/-- Signer tree updates: the sender of authorised transaction `k` replaces the zero key at `s + k`. -/
def signerUpds (P : Params p G) (cv : Curve p q G) (root : ZMod p) :
    ZMod p → List (CInputs p G) → List (Upd G (ZMod p))
  | _, [] => []
  | s, i :: is =>
    (if i.authorised P cv root then
      [{ idx := s.val % TX_CAP, old := 0, new := i.senderPk, sibs := i.signerProof }] else []) ++
      signerUpds P cv root (s + 1) is

/-- The signers: the sender of each authorised transaction, the zero key for the others. -/
def signerList (P : Params p G) (cv : Curve p q G) (root : ZMod p) (is : List (CInputs p G)) : List G :=
  is.map fun i => if i.authorised P cv root then i.senderPk else 0

/-- Deposits: the real outputs of the transactions sent by the contract. -/
def depositList (P : Params p G) (is : List (CInputs p G)) : List (G × Nat) :=
  is.flatMap fun i =>
    if i.senderPk = P.contract then
      (i.tx.outputs.toList.filter fun u => !u.isDummy).map fun u => (u.pk, u.amount.val)
    else []

/-- Amount a transaction pays to the contract. -/
def CInputs.withdrawn (P : Params p G) (i : CInputs p G) : Nat :=
  totalVal (i.tx.outputs.toList.filter fun u => u.pk = P.contract)

/-- Withdrawals: for every transaction that pays to the contract, its sender and the amount. -/
def withdrawalList (P : Params p G) (is : List (CInputs p G)) : List (G × Nat) :=
  is.flatMap fun i => if i.withdrawn P = 0 then [] else [(i.senderPk, i.withdrawn P)]

/-- Total value of the first `n` ledger slots. -/
def valueOf (c : Nat → UTXO (ZMod p) G) (n : Nat) : Nat := totalVal ((List.range n).map c)

/-- Ledger contents as the circuit leaves them: real UTXOs have 64-bit amounts and never belong to the
contract. -/
def Healthy (contract : G) (c : Nat → UTXO (ZMod p) G) : Prop :=
  ∀ j, (c j).isDummy = false → (c j).amount.val < 2 ^ 64 ∧ (c j).pk ≠ contract

/-- Sum of the amounts that authorised transactions pay to the contract. -/
def authorisedWithdrawals (P : Params p G) (cv : Curve p q G) (root : ZMod p) (is : List (CInputs p G)) :
    Nat :=
  ((is.filter fun i => i.authorised P cv root).map fun i => i.withdrawn P).sum

/-- Sum of all deposit records. -/
def depositTotal (P : Params p G) (is : List (CInputs p G)) : Nat := ((depositList P is).map (·.2)).sum

/-- Sum of the outputs of the transactions that name the contract as sender and carry no valid
signature. -/
def unsignedMint (P : Params p G) (cv : Curve p q G) (root : ZMod p) (is : List (CInputs p G)) : Nat :=
  ((is.filter fun i => decide (i.senderPk = P.contract) && !i.signed cv P.hs root).map fun i =>
    totalVal i.tx.outputs.toList).sum

/-- UTXOs spent by a list of transactions: the real inputs of the signed ones. -/
def spentList (P : Params p G) (cv : Curve p q G) (root : ZMod p) (is : List (CInputs p G)) :
    List (UTXO (ZMod p) G) :=
  is.flatMap fun i => if i.signed cv P.hs root then i.tx.inputs.toList.filter (fun u => !u.isDummy) else []

/-- UTXOs created by a list of transactions: the real outputs of the authorised ones, except those paid
to the contract. -/
def createdList (P : Params p G) (cv : Curve p q G) (root : ZMod p) (is : List (CInputs p G)) :
    List (UTXO (ZMod p) G) :=
  is.flatMap fun i =>
    if i.authorised P cv root then i.tx.outputs.toList.filter (fun u => u.onLedger P.contract) else []

/-- One proof of 31 digests for each UTXO. -/
def ProofsShape (us : List (UTXO (ZMod p) G)) (ds : List (ZMod p × List (ZMod p))) : Prop :=
  us.length = ds.length ∧ ∀ d ∈ ds, d.2.length = 31

/-- Shape of the external inputs: array and proof lengths. -/
structure Shape (q : Nat) (i : CInputs p G) : Prop where
  sigS : i.sigS.length = Circuit.modBits q
  sigE : i.sigE.length = Circuit.modBits q
  dels : ProofsShape i.tx.inputs.toList i.dels
  adds : ProofsShape i.tx.outputs.toList i.adds
  tx : i.txProof.length = 12
  signer : i.signerProof.length = 12

end PF.AggC

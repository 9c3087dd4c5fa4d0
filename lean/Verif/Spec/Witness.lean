import Verif.Model.Witness

/-!
# Vocabulary of witness generation
-/

namespace PF.Wit
open PF PF.MT PF.Circuit
variable {p : Nat} {G : Type}

/-- The synthesis does not panic, all constraints are satisfied and the value computed is `a`. -/
def Syn.Sat {α : Type} (x : Syn α) (a : α) : Prop := x = .done true a

/-- The synthesis ends without a panic, whether or not the constraints are satisfied. -/
def Syn.Ends {α : Type} (x : Syn α) : Prop := x ≠ .panic

/-- The proofs shown to the aggregator circuit for one transaction have the length of the tree they are
about, there is one per input and output, and the signature has the size of the scalar field. -/
structure Shaped (q : Nat) (i : AggC.CInputs p G) : Prop where
  sigS : i.sigS.length = modBits q
  sigE : i.sigE.length = modBits q
  txProof : i.txProof.length = TX_TREE_HEIGHT - 1
  dels : i.dels.length = TX_IO_SIZE
  delPaths : ∀ d ∈ i.dels, d.2.length = UTXO_TREE_HEIGHT - 1
  adds : i.adds.length = TX_IO_SIZE
  addPaths : ∀ a ∈ i.adds, a.2.length = UTXO_TREE_HEIGHT - 1
  signerProof : i.signerProof.length = SIGNER_TREE_HEIGHT - 1

/-- The lists shown to the client circuit have `n` entries and the paths in them have the length of their
tree. -/
structure UserShaped (n : Nat) (a : Client.UserAuxVar p G) : Prop where
  txs : a.transactions.length = n
  txProofs : a.txProofs.length = n
  signerProofs : a.signerProofs.length = n
  txPaths : ∀ x ∈ a.txProofs, x.length = TX_TREE_HEIGHT - 1
  signerPaths : ∀ x ∈ a.signerProofs, x.length = SIGNER_TREE_HEIGHT - 1

end PF.Wit

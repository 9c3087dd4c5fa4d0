import Verif.Spec.AggregatorCircuit

/-!
# Specification: what two witnesses for the same transactions have in common
-/

namespace PF.AggC
open PF.Spec PF.MT
variable {p q : Nat} {G : Type} [AddCommGroup G] [Module (ZMod q) G] [DecidableEq G]

/-- Two circuit inputs for the same transaction of the same sender, whose signatures are accepted or rejected alike,
and which name the same slots of the ledger for every UTXO that is erased or inserted (the real inputs of a signed
transaction, the real outputs of an authorised one that are not paid to the contract). Nothing is said about paths,
about slots of other UTXOs, or about slot numbers beyond their 31 lower bits. -/
structure SameMoves (P : Params p G) (cv : Curve p q G) (root : ZMod p) (i i' : CInputs p G) : Prop where
  tx : i'.tx = i.tx
  sender : i'.senderPk = i.senderPk
  valid : i'.signed cv P.hs root = i.signed cv P.hs root
  erased : ∀ (k : Nat) (u : UTXO (ZMod p) G) (d d' : ZMod p × List (ZMod p)),
    i.signed cv P.hs root = true → i.tx.inputs.toList[k]? = some u → u.isDummy = false →
    i.dels[k]? = some d → i'.dels[k]? = some d' → d.1.val % UTXO_CAP = d'.1.val % UTXO_CAP
  inserted : ∀ (k : Nat) (u : UTXO (ZMod p) G) (d d' : ZMod p × List (ZMod p)),
    i.authorised P cv root = true → i.tx.outputs.toList[k]? = some u → u.isDummy = false → u.pk ≠ P.contract →
    i.adds[k]? = some d → i'.adds[k]? = some d' → d.1.val % UTXO_CAP = d'.1.val % UTXO_CAP

/-- Besides, the second input has the right shape and shows the same paths where they are used: for the transaction,
for every UTXO that is erased or inserted, and for the signer if the transaction is authorised. -/
structure SameUse (P : Params p G) (cv : Curve p q G) (root : ZMod p) (i i' : CInputs p G) : Prop
    extends SameMoves P cv root i i' where
  shape : Shape q i'
  txProof : i'.txProof = i.txProof
  erasedPath : ∀ (k : Nat) (u : UTXO (ZMod p) G) (d d' : ZMod p × List (ZMod p)),
    i.signed cv P.hs root = true → i.tx.inputs.toList[k]? = some u → u.isDummy = false →
    i.dels[k]? = some d → i'.dels[k]? = some d' → d.2 = d'.2
  insertedPath : ∀ (k : Nat) (u : UTXO (ZMod p) G) (d d' : ZMod p × List (ZMod p)),
    i.authorised P cv root = true → i.tx.outputs.toList[k]? = some u → u.isDummy = false → u.pk ≠ P.contract →
    i.adds[k]? = some d → i'.adds[k]? = some d' → d.2 = d'.2
  signerProof : i.authorised P cv root = true → i'.signerProof = i.signerProof

/-- Two sequences of updates show, for some update, two paths on which the compression hash collides. -/
def PathsClash {L : Type} (hs : Hashes p) (enc : L → List (ZMod p)) (us us' : List (Upd L (ZMod p))) : Prop :=
  ∃ (k : Nat) (u u' : Upd L (ZMod p)), us[k]? = some u ∧ us'[k]? = some u' ∧
    PathCollision hs.h2 (climbPairs hs.h2 u.sibs (hs.crh (enc u.old)) u.idx)
      (climbPairs hs.h2 u'.sibs (hs.crh (enc u'.old)) u'.idx)

/-- The inputs `i` with the slots `dp` for the transaction's inputs and `ap` for its outputs, without paths. -/
def CInputs.atSlots (i : CInputs p G) (dp ap : List (ZMod p)) : CInputs p G :=
  { i with dels := dp.map (·, []), adds := ap.map (·, []) }

end PF.AggC

import Verif.Spec.Client

/-!
# Specification: what a client step has to show
-/

set_option linter.unusedSectionVars false

namespace PF.Spec
open PF PF.Client PF.MT

variable {p q : Nat} {G : Type} [AddCommGroup G] [Module (ZMod q) G] [DecidableEq G]

/-- A transaction given to a step, with its index and its two paths. -/
structure Entry (p : Nat) (G : Type) where
  tx : Tx Nat G
  index : Nat
  txPath : List (ZMod p × ZMod p)
  signerPath : List (ZMod p × ZMod p)

/-- The transactions given to a step. -/
def entries (a : UserAux p G) : List (Entry p G) :=
  ((a.transactions.zip a.txProofs).zip a.signerProofs).map fun x => ⟨x.1.1.1, x.1.1.2, x.1.2, x.2⟩

/-- Not padding: the transaction does not hash like the default transaction. -/
def Entry.isReal (cv : Curve p q G) (hs : Hashes p) (e : Entry p G) : Bool :=
  decide (txCRH cv hs.crh e.tx ≠ txCRH cv hs.crh (Tx.default : Tx Nat G))

/-- Index from which a step continues: the last one processed if the block is the last one processed,
otherwise zero. -/
def continuesFrom (hs : Hashes p) (z : UState p) (b : Block (ZMod p)) : Nat :=
  if blockCRH hs.crh b = z.prevBlockHash then z.prevTxIndex.val else 0

/-- Everything a user has to show for a step with inputs `a` in state `z`, in terms of the native hash
functions and the native verifiers. -/
structure Acceptable (cv : Curve p q G) (hs : Hashes p) (n : Nat) (z : UState p) (a : UserAux p G) :
    Prop where
  /-- `n` transactions with their proofs -/
  txs : a.transactions.length = n
  txProofs : a.txProofs.length = n
  signerProofs : a.signerProofs.length = n
  /-- it is the user's own state -/
  key : pkCRH cv hs.crh a.pk = z.pkHash
  /-- the block is not older than the last one -/
  height : z.prevBlockNumber.val ≤ a.block.height
  /-- every path has twelve levels, padding included -/
  shape : ∀ e ∈ entries a, e.txPath.length = 12 ∧ e.signerPath.length = 12
  /-- every real transaction is in the block's transaction tree at its index -/
  included : ∀ e ∈ entries a, e.isReal cv hs = true →
    (verifyWithIndex .debug (txTreeCfg cv hs) e.txPath a.block.txRoot e.tx e.index : Outcome Unit Bool) = .ok true
  /-- the signer of every real transaction is in the block's signer tree -/
  signed : ∀ e ∈ entries a, e.isReal cv hs = true →
    verify (signerTreeCfg cv hs) e.signerPath a.block.signerRoot e.tx.getSigner = true
  /-- the real transactions come in strictly increasing order, after those already processed -/
  order : (continuesFrom hs z a.block ::
    ((entries a).filter fun e => e.isReal cv hs).map (·.index)).Pairwise (· < ·)

end PF.Spec

import Verif.Spec.BlockChain
import Verif.Model.Client

/-!
# Specification: balances of keys along a chain of accepted blocks
-/

namespace PF.AggC
open PF PF.Spec PF.Client
variable {p q : Nat} {G : Type} [AddCommGroup G] [Module (ZMod q) G] [DecidableEq G]

/-- What the first `n` slots of a ledger hold for key `k` (real UTXOs only). -/
def heldVal (c : Nat → UTXO (ZMod p) G) (n : Nat) (k : G) : Nat :=
  totalVal (((List.range n).map c).filter fun u => u.pk = k)

/-- Real outputs of a transaction to `k`. -/
def paysTo (k : G) (t : Tx (ZMod p) G) : Nat := totalVal (t.outputs.toList.filter fun u => u.pk = k)

/-- Real inputs of a transaction from `k`. -/
def takesFrom (k : G) (t : Tx (ZMod p) G) : Nat := totalVal (t.inputs.toList.filter fun u => u.pk = k)

/-- Some input or output of the transaction carries key `k`. -/
def Mentions (k : G) (t : Tx (ZMod p) G) : Bool := t.ios.any fun u => u.pk = k

/-- The authorised transactions of all epochs of a chain, in order. -/
def chainTxs (P : Params p G) (cv : Curve p q G) (es : List (Epoch p G)) : List (Tx (ZMod p) G) :=
  es.flatMap fun e => (e.txs.filter fun i => i.authorised P cv e.final).map fun i => i.tx

/-- All transactions a client shows to its circuit, over all its steps. -/
def shownVar (as : List (UserAuxVar p G)) : List (Tx (ZMod p) G) :=
  as.flatMap fun a => a.transactions.map (·.1)

end PF.AggC

import Verif.Model.Aggregator
import Verif.Spec.Merkle
import Verif.Spec.Tx

/-!
# Specification of the rollup ledger

The ledger is an array of slots, each holding a UTXO or the dummy. Which UTXOs a transaction spends,
creates, deposits and withdraws depends only on the transaction, the rollup key and the signer.
-/

namespace PF
variable {A G : Type} [DecidableEq G]

/-- A UTXO that lives in the ledger: real, and not owned by the rollup contract. -/
def UTXO.onLedger (rollup : G) (u : UTXO A G) : Bool := !u.isDummy && decide (u.pk ≠ rollup)

/-- UTXOs the transaction takes from the ledger. -/
def Tx.spends (rollup : G) (t : Tx A G) : List (UTXO A G) := t.inputs.toList.filter (·.onLedger rollup)

/-- UTXOs the transaction puts into the ledger. -/
def Tx.creates (rollup : G) (t : Tx A G) : List (UTXO A G) :=
  t.outputs.toList.filter (·.onLedger rollup)

/-- Deposits of a transaction sent by `sender`: all real outputs if the sender is the contract. -/
def Tx.depositsOf (rollup sender : G) (t : Tx Nat G) : List (G × Nat) :=
  if sender = rollup then (t.outputs.toList.filter (fun u => !u.isDummy)).map (fun u => (u.pk, u.amount))
  else []

/-- Amount a transaction pays back to the contract. -/
def Tx.withdrawn (rollup : G) (t : Tx Nat G) : Nat :=
  totalOf (t.outputs.toList.filter (fun u => u.pk = rollup))

/-- Withdrawal record of a transaction sent by `sender`. -/
def Tx.withdrawalsOf (rollup sender : G) (t : Tx Nat G) : List (G × Nat) :=
  if t.withdrawn rollup = 0 then [] else [(sender, t.withdrawn rollup)]

/-- Number of copies of `u` among the first `n` slots. -/
def copies [DecidableEq A] (c : Nat → UTXO A G) (n : Nat) (u : UTXO A G) : Nat :=
  (List.range n).countP (fun i => c i = u)

/-- Total amount held in the first `n` slots. -/
def ledgerValue (c : Nat → UTXO Nat G) (n : Nat) : Nat := totalOf ((List.range n).map c)

/-- Number of UTXO slots (leaves of the UTXO tree of height 32). -/
def UTXO_CAP : Nat := 2 ^ 31

/-- Number of transactions (and signers) per epoch (leaves of the trees of height 13). -/
def TX_CAP : Nat := 2 ^ 12

end PF

import Verif.Spec.Aggregator
import Verif.Spec.Contract

/-!
# Specification: the lifetime of an aggregator

A sequence of epochs executed by one aggregator: in each `reset_for_new_epoch`, `process_transactions`,
`process_signatures` and `produce_block`, all successful.
-/

namespace PF.Agg
open PF PF.Spec
variable {p q : Nat} {G : Type} [AddCommGroup G] [Module (ZMod q) G] [DecidableEq G]

/-- An executed epoch. -/
structure Executed (p q : Nat) (G : Type) where
  /-- State after `reset_for_new_epoch`. -/
  start : State p q G
  /-- State after `process_transactions`. -/
  mid : State p q G
  /-- State after `process_signatures`. -/
  fin : State p q G
  /-- Transactions with their senders. -/
  txs : List (G × Tx Nat G)
  /-- Answers of the senders. -/
  answers : List (Pair q G)
  /-- Contract state when the block is produced. -/
  reg : Contract.State G
  /-- The block produced. -/
  block : Block (ZMod p)

/-- `d` is an epoch executed from the state `s`, within the capacity of the trees. -/
structure Executed.From (b : Build) (cv : Curve p q G) (hs : Hashes p) (rollup : G) (s : State p q G)
    (d : Executed p q G) : Prop where
  reset : d.start = Agg.reset cv hs s
  submit : processTransactions b cv hs d.txs d.start = (d.mid, .ok ())
  sign : processSignatures b cv hs rollup d.answers d.mid = (d.fin, .ok ())
  produce : produceBlock d.reg d.fin = .ok d.block
  txCap : d.txs.length ≤ TX_CAP
  slots : d.start.ledger.next + TX_IO_SIZE * d.txs.length ≤ UTXO_CAP
  answered : d.answers.length ≤ d.txs.length

/-- The epochs `ds` are executed one after the other and take the aggregator from `s` to `s'`. -/
def Lifetime (b : Build) (cv : Curve p q G) (hs : Hashes p) (rollup : G) :
    State p q G → List (Executed p q G) → State p q G → Prop
  | s, [], s' => s' = s
  | s, d :: ds, s' => d.From b cv hs rollup s ∧ Lifetime b cv hs rollup d.fin ds s'

/-- Transactions of the epoch that are executed: the ones approved by their answers. -/
def Executed.executed (cv : Curve p q G) (hs : Hashes p) (rollup : G) (d : Executed p q G) :
    List (Tx Nat G × G) :=
  approvedTxs cv hs rollup (txRoot cv hs d.mid) (d.txs.map (·.2)) d.answers

/-- Number of positions of the signer tree below the capacity that hold a key. -/
def signedPositions (sc : Nat → G) : Nat := (List.range TX_CAP).countP fun j => sc j ≠ 0

end PF.Agg

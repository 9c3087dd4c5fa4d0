import Verif.Spec.AggregatorCircuit
import Verif.Spec.Contract
import Verif.Spec.Accumulator

/-!
# Specification: chains of accepted blocks

A chain of blocks, each of which comes with an accepted run of the aggregator circuit that starts from the
UTXO root of the previous block, whatever transactions, transaction trees and signer trees the provers of
the different epochs use.
-/

namespace PF.AggC
open PF PF.Spec PF.Contract
variable {p q : Nat} {G : Type} [AddCommGroup G] [Module (ZMod q) G] [DecidableEq G]

/-- An epoch: a block, the registry it was checked against and what its prover ran. -/
structure Epoch (p : Nat) (G : Type) where
  /-- Contract state when the block is checked. -/
  reg : Contract.State G
  /-- The block. -/
  block : Block (ZMod p)
  /-- Inputs of the circuit, step by step. -/
  batches : List (List (CInputs p G))
  /-- Transaction root to which the signatures refer, fixed in the initial state. -/
  final : ZMod p
  /-- Transaction root of the initial state. -/
  tx0 : ZMod p
  /-- Signer root of the initial state. -/
  signer0 : ZMod p

/-- The transactions of the epoch with their sides. -/
def Epoch.txs (e : Epoch p G) : List (CInputs p G) := e.batches.flatten

/-- The block of `e` is accepted on top of the UTXO root `u`: what the contract derives from the block is the
final state of an accepted run from counter zero, root `u` and empty accumulators. -/
def Epoch.Accepted (P : Params p G) (cv : Curve p q G) (u : ZMod p) (e : Epoch p G) : Prop :=
  BlockAmounts e.block ∧ ∃ z', runSteps P cv
    { step := 0, utxoRoot := u, txRoot := e.tx0, txRootFinal := e.final, signerRoot := e.signer0,
      signerAcc := 0, depositAcc := 0, withdrawalAcc := 0 } e.batches z' ∧
    derivePublicInputs cv P.sha e.reg e.block = .ok z'.toList

/-- A chain of accepted blocks from UTXO root `u` to UTXO root `u'`. -/
def Chain (P : Params p G) (cv : Curve p q G) : ZMod p → List (Epoch p G) → ZMod p → Prop
  | u, [], u' => u' = u
  | u, e :: es, u' => e.Accepted P cv u ∧ Chain P cv e.block.utxoRoot es u'

/-- All ledger updates of a chain, in order. -/
def chainUpds (P : Params p G) (cv : Curve p q G) (es : List (Epoch p G)) :
    List (Upd (UTXO (ZMod p) G) (ZMod p)) :=
  es.flatMap fun e => ledgerUpds P cv e.final e.txs

/-- All UTXOs spent along a chain. -/
def chainSpent (P : Params p G) (cv : Curve p q G) (es : List (Epoch p G)) : List (UTXO (ZMod p) G) :=
  es.flatMap fun e => spentList P cv e.final e.txs

/-- All UTXOs created along a chain. -/
def chainCreated (P : Params p G) (cv : Curve p q G) (es : List (Epoch p G)) : List (UTXO (ZMod p) G) :=
  es.flatMap fun e => createdList P cv e.final e.txs

/-- What the blocks of the chain say was deposited. -/
def chainDeposits (es : List (Epoch p G)) : Nat :=
  (es.map fun e => (e.block.deposits.map (·.2)).sum).sum

/-- What the blocks of the chain say was withdrawn. -/
def chainWithdrawals (es : List (Epoch p G)) : Nat :=
  (es.map fun e => (e.block.withdrawals.map (·.2)).sum).sum

/-- What authorised transactions of the chain pay to the contract. -/
def chainPaidOut (P : Params p G) (cv : Curve p q G) (es : List (Epoch p G)) : Nat :=
  (es.map fun e => authorisedWithdrawals P cv e.final e.txs).sum

/-- Truncated SHA-256 is broken by some block of the chain: its deposits or withdrawals differ from those
run, and yet have the same accumulator. -/
def ShaBroken (P : Params p G) (cv : Curve p q G) (es : List (Epoch p G)) : Prop :=
  ∃ e ∈ es, ∃ ds ds', ChainBreak (shaField p P.sha) (truncated p P.sha) (amountInput cv) 0 ds ds' ∧
    (e.block.deposits.map (entryOf e.reg.pks) = ds.map some ∧ ds' = depositList P e.txs ∨
     e.block.withdrawals.map (entryOf e.reg.pks) = ds.map some ∧ ds' = withdrawalList P e.txs)

end PF.AggC

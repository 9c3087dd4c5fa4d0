import Verif.Spec.Client
import Verif.Spec.Aggregator

/-!
# Specification vocabulary for properties about aggregator, contract and client together
-/

set_option linter.unusedSectionVars false

namespace PF.Spec
open PF PF.MT PF.Agg PF.Client

variable {p q : Nat} {G : Type} [AddCommGroup G] [Module (ZMod q) G] [DecidableEq G]

/-- Amount the real UTXOs of key `k` among the first `n` slots add up to. -/
def heldBy (c : Nat → UTXO Nat G) (n : Nat) (k : G) : Nat :=
  totalOf (((List.range n).map c).filter fun u => u.pk = k)

/-- Real outputs of a transaction to `k`. -/
def paidTo (k : G) (t : Tx Nat G) : Nat := totalOf (t.outputs.toList.filter fun u => u.pk = k)

/-- Real inputs of a transaction from `k`. -/
def paidBy (k : G) (t : Tx Nat G) : Nat := totalOf (t.inputs.toList.filter fun u => u.pk = k)

/-- What a user does to process transactions of a block produced from aggregator state `s`: for each chosen
pair of positions (of the transaction, and of its signer) it asks the two trees for their paths, and it pads
to `n` entries with what `UserAux::default` holds (client/src/circuits/mod.rs:91-118). -/
def assemble (cv : Curve p q G) (hs : Hashes p) (s : Agg.State p q G) (blk : Block (ZMod p)) (k : G) (n : Nat)
    (xs : List (Nat × Nat)) : Outcome Unit (UserAux p G) := do
  let txPaths ← mapO (fun x => genProof (txTreeCfg cv hs) s.txTree x.1 (s.transactions[x.1]?.getD Tx.default)) xs
  let signerPaths ← mapO (fun x => genMembershipProof (signerTreeCfg cv hs) s.signerTree x.2) xs
  let pad := UserAux.default p G (n - xs.length)
  .ok { txProofs := txPaths ++ pad.txProofs
        signerProofs := signerPaths ++ pad.signerProofs
        block := blk
        transactions := (xs.map fun x => (s.transactions[x.1]?.getD Tx.default, x.1)) ++ pad.transactions
        pk := k }

/-- Histories in which every `process_signatures` call succeeds and names the same contract key, with all
the transactions authorised so far, in order. -/
inductive Executed (b : Build) (cv : Curve p q G) (hs : Hashes p) (rollup : G) :
    Agg.State p q G → List (Tx Nat G) → Prop
  | new : Executed b cv hs rollup (Agg.new q cv hs) []
  | newEpoch {s ts} (h : Executed b cv hs rollup s ts) : Executed b cv hs rollup (Agg.reset cv hs s) ts
  | transactions {s ts} (l : List (G × Tx Nat G)) (h : Executed b cv hs rollup s ts)
      (hf : (Op.transactions l : Op q G).Fits s) (hr : (processTransactions b cv hs l s).2 ≠ .panic) :
      Executed b cv hs rollup (processTransactions b cv hs l s).1 ts
  | signatures {s s' ts} (l : List (Pair q G)) (h : Executed b cv hs rollup s ts)
      (hf : (Op.signatures rollup l).Fits s)
      (hr : processSignatures b cv hs rollup l s = (s', .ok ())) :
      Executed b cv hs rollup s'
        (ts ++ (approvedTxs cv hs rollup (txRoot cv hs s) s.transactions l).map (·.1))

/-- The transaction has an input or output carrying key `k`. -/
def Involves (k : G) (t : Tx Nat G) : Bool := t.ios.any fun u => u.pk = k

/-- Dummies carry no amount. -/
def CleanTx (t : Tx Nat G) : Prop := ∀ u ∈ t.ios, u.isDummy = true → u.amount = 0

/-- All transactions shown in the steps, in order. -/
def shownTxs (as : List (UserAux p G)) : List (Tx Nat G) := as.flatMap fun a => a.transactions.map (·.1)

end PF.Spec

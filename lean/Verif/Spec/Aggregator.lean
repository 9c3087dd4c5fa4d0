import Verif.Spec.Ledger

/-!
# Specification vocabulary for the aggregator: histories of API calls
-/

namespace PF.Agg
open PF PF.MT PF.Spec
variable {p q : Nat} {G : Type}

/-- A pair given to `process_signatures`. -/
abbrev Pair (q : Nat) (G : Type) := G × Option (ZMod q × ZMod q)

/-- A state-changing call. -/
inductive Op (q : Nat) (G : Type) where
  | newEpoch
  | transactions (l : List (G × Tx Nat G))
  | signatures (rollup : G) (l : List (Pair q G))

/-- The call stays within the capacity of the trees: 2^12 transactions and signers per epoch,
2^31 UTXO slots overall. -/
def Op.Fits (s : State p q G) : Op q G → Prop
  | .newEpoch => True
  | .transactions l => s.transactions.length + l.length ≤ TX_CAP
  | .signatures _ l => s.signers.length + l.length ≤ TX_CAP ∧
      s.ledger.next + TX_IO_SIZE * l.length ≤ UTXO_CAP

/-- Positions the UTXO map stores for `u`. -/
def positions [DecidableEq G] (s : State p q G) (u : UTXO Nat G) : List Nat :=
  (s.ledger.utxos.get u).getD []

section
variable [AddCommGroup G] [Module (ZMod q) G] [DecidableEq G]

/-- Perform a call; errors are not distinguished here. -/
def Op.run (b : Build) (cv : Curve p q G) (hs : Hashes p) (s : State p q G) :
    Op q G → State p q G × Outcome Unit Unit
  | .newEpoch => (reset cv hs s, .ok ())
  | .transactions l =>
    let r := processTransactions b cv hs l s
    (r.1, match r.2 with | .ok _ => .ok () | .err _ => .err () | .panic => .panic)
  | .signatures rollup l =>
    let r := processSignatures b cv hs rollup l s
    (r.1, match r.2 with | .ok _ => .ok () | .err _ => .err () | .panic => .panic)

/-- States reached from a new aggregator by any sequence of calls within capacity, including calls
that return an error (but not after a panic). -/
inductive Reach (b : Build) (cv : Curve p q G) (hs : Hashes p) : State p q G → Prop
  | new : Reach b cv hs (new q cv hs)
  | call (s : State p q G) (op : Op q G) (h : Reach b cv hs s) (hf : op.Fits s)
      (hr : (op.run b cv hs s).2 ≠ .panic) : Reach b cv hs (op.run b cv hs s).1

/-- Write the signers listed so far over earlier leaves. -/
def overlay (sc : Nat → G) (signers : List (Option G)) (j : Nat) : G :=
  match signers[j]? with
  | some (some pk) => pk
  | _ => sc j

/-- Leaves of the signer tree over a history of calls: a leaf holds the last key listed as signer at its
position, in this epoch or an earlier one, and the zero key if there was none. -/
inductive SignerLeaves (b : Build) (cv : Curve p q G) (hs : Hashes p) : State p q G → (Nat → G) → Prop
  | new : SignerLeaves b cv hs (new q cv hs) (fun _ => 0)
  | call (s : State p q G) (op : Op q G) (sc : Nat → G) (h : SignerLeaves b cv hs s sc) (hf : op.Fits s)
      (hr : (op.run b cv hs s).2 ≠ .panic) :
      SignerLeaves b cv hs (op.run b cv hs s).1 (overlay sc (op.run b cv hs s).1.signers)

/-- `c` is the array of UTXOs the aggregator holds: the UTXO-tree root commits to it, the UTXO map
lists exactly the slots of each real UTXO, and all other slots hold the dummy. -/
structure Represents (cv : Curve p q G) (hs : Hashes p) (s : State p q G) (c : Nat → UTXO Nat G) :
    Prop where
  root : (s.ledger.tree.rootHash : Outcome Unit (ZMod p)) =
    .ok (merkleRoot (utxoCRH cv hs.crh) hs.h2 32 c)
  slots : ∀ u : UTXO Nat G, u.isDummy = false → ∀ i, i ∈ positions s u ↔ c i = u
  dummies : ∀ i, (c i).isDummy = true → c i = UTXO.dummy

/-- The transaction root the aggregator would publish. -/
def txRoot (cv : Curve p q G) (hs : Hashes p) (s : State p q G) : ZMod p :=
  merkleRoot (txCRH cv hs.crh) hs.h2 13 (fun i => s.transactions[i]?.getD Tx.default)

/-- A pair authorises a transaction: its signature over the transaction and the transaction root
verifies under its key, or its key is the rollup contract's. -/
def Approves (cv : Curve p q G) (hs : Hashes p) (rollup : G) (r : ZMod p) (tx : Tx Nat G)
    (x : Pair q G) : Bool :=
  Schnorr.verify cv hs.crh x.1 (txEnc cv tx ++ [r]) (x.2.getD (0, 0)) || decide (x.1 = rollup)

/-- The transactions that are authorised by the pair at the same position, with the key given. -/
def approvedTxs (cv : Curve p q G) (hs : Hashes p) (rollup : G) (r : ZMod p) (txs : List (Tx Nat G))
    (l : List (Pair q G)) : List (Tx Nat G × G) :=
  ((txs.zip l).filter fun y => Approves cv hs rollup r y.1 y.2).map fun y => (y.1, y.2.1)

/-- UTXOs taken from the ledger by a list of transactions. -/
def spentBy (rollup : G) (as : List (Tx Nat G × G)) : List (UTXO Nat G) :=
  as.flatMap fun a => a.1.spends rollup

/-- UTXOs put into the ledger by a list of transactions. -/
def createdBy (rollup : G) (as : List (Tx Nat G × G)) : List (UTXO Nat G) :=
  as.flatMap fun a => a.1.creates rollup

/-- Deposit records of a list of authorised transactions. -/
def depositsBy (rollup : G) (as : List (Tx Nat G × G)) : List (G × Nat) :=
  as.flatMap fun a => a.1.depositsOf rollup a.2

/-- Withdrawal records of a list of authorised transactions. -/
def withdrawalsBy (rollup : G) (as : List (Tx Nat G × G)) : List (G × Nat) :=
  as.flatMap fun a => a.1.withdrawalsOf rollup a.2

/-- Sum of the amounts of a list of records. -/
def totalAmount (l : List (G × Nat)) : Nat := (l.map (·.2)).sum

/-- Number of live copies of `u`. -/
def live (s : State p q G) (u : UTXO Nat G) : Nat := (positions s u).length

/-- The ledger holds enough copies to spend all the ledger UTXOs of the list. -/
def Covers (rollup : G) (s : State p q G) (us : List (UTXO Nat G)) : Prop :=
  ∀ v, (us.filter (·.onLedger rollup)).count v ≤ live s v

/-- Histories of calls, with all the UTXOs consumed and created so far. A failed `process_signatures`
executes the pairs before the failing one, then consumes the inputs of the failing transaction up to the
first one that is no longer covered. -/
inductive History (b : Build) (cv : Curve p q G) (hs : Hashes p) :
    State p q G → List (UTXO Nat G) → List (UTXO Nat G) → Prop
  | new : History b cv hs (new q cv hs) [] []
  | newEpoch {s a m} (h : History b cv hs s a m) : History b cv hs (reset cv hs s) a m
  | transactions {s a m} (l : List (G × Tx Nat G)) (h : History b cv hs s a m)
      (hf : (Op.transactions l : Op q G).Fits s) (hr : (processTransactions b cv hs l s).2 ≠ .panic) :
      History b cv hs (processTransactions b cv hs l s).1 a m
  | signatures {s s' a m} (rollup : G) (l : List (Pair q G)) (h : History b cv hs s a m)
      (hf : (Op.signatures rollup l).Fits s)
      (hr : processSignatures b cv hs rollup l s = (s', .ok ())) :
      History b cv hs s'
        (a ++ spentBy rollup (approvedTxs cv hs rollup (txRoot cv hs s) s.transactions l))
        (m ++ createdBy rollup (approvedTxs cv hs rollup (txRoot cv hs s) s.transactions l))
  | failed {s s1 s' a m} (rollup : G) (done : List (Pair q G)) (x : Pair q G) (rest : List (Pair q G))
      (e : AggError) (tx : Tx Nat G) (us : List (UTXO Nat G)) (u : UTXO Nat G) (vs : List (UTXO Nat G))
      (h : History b cv hs s a m) (hf : (Op.signatures rollup (done ++ x :: rest)).Fits s)
      (hr : processSignatures b cv hs rollup (done ++ x :: rest) s = (s', .err e))
      (hr1 : processSignatures b cv hs rollup done s = (s1, .ok ()))
      (hr2 : processSignatures b cv hs rollup (done ++ [x]) s = (s', .err e))
      (htx : s.transactions[done.length]? = some tx) (hus : tx.inputs.toList = us ++ u :: vs)
      (hc : Covers rollup s1 us) (hnc : ¬ Covers rollup s1 (us ++ [u])) :
      History b cv hs s'
        (a ++ spentBy rollup (approvedTxs cv hs rollup (txRoot cv hs s) s.transactions done) ++
          us.filter (·.onLedger rollup))
        (m ++ createdBy rollup (approvedTxs cv hs rollup (txRoot cv hs s) s.transactions done))

/-- Histories in which transactions are honest: sums do not wrap (only a condition in release builds)
and each pair names the owner of the inputs of its transaction. `d` and `w` are the sums of all deposit
and withdrawal records ever made; `clean`: no `process_signatures` call has failed. -/
inductive Books (b : Build) (cv : Curve p q G) (hs : Hashes p) (rollup : G) :
    State p q G → (clean : Bool) → (d w : Nat) → Prop
  | new : Books b cv hs rollup (new q cv hs) true 0 0
  | newEpoch {s k d w} (h : Books b cv hs rollup s k d w) : Books b cv hs rollup (reset cv hs s) k d w
  | transactions {s k d w} (l : List (G × Tx Nat G)) (h : Books b cv hs rollup s k d w)
      (hf : (Op.transactions l : Op q G).Fits s) (hr : (processTransactions b cv hs l s).2 ≠ .panic)
      (hb : b = .debug ∨ ∀ x ∈ l, totalOf x.2.inputs.toList < U64 ∧ totalOf x.2.outputs.toList < U64) :
      Books b cv hs rollup (processTransactions b cv hs l s).1 k d w
  | signatures {s s' k d w o} (l : List (Pair q G)) (nd nw : List (G × Nat))
      (h : Books b cv hs rollup s k d w)
      (hf : (Op.signatures rollup l).Fits s)
      (hown : ∀ y ∈ s.transactions.zip l, OwnedBy y.2.1 y.1.inputs.toList)
      (hr : processSignatures b cv hs rollup l s = (s', o)) (hnp : o ≠ .panic)
      (hd : s'.deposits = s.deposits ++ nd) (hw : s'.withdrawals = s.withdrawals ++ nw) :
      Books b cv hs rollup s' (k && decide (o = .ok ())) (d + totalAmount nd) (w + totalAmount nw)

/-- Two aggregators that agree on everything but the signer tree and the signer-tree paths recorded in
the circuit inputs. -/
structure SameEpoch (s t : State p q G) : Prop where
  ledger : s.ledger = t.ledger
  transactions : s.transactions = t.transactions
  txTree : s.txTree = t.txTree
  deposits : s.deposits = t.deposits
  withdrawals : s.withdrawals = t.withdrawals
  signers : s.signers = t.signers
  height : s.height = t.height
  txProofs : s.txProofs = t.txProofs
  ivcInputs : s.ivcInputs.map (fun y => { y with signerProof := [] }) =
    t.ivcInputs.map (fun y => { y with signerProof := [] })

/-- Perform calls one after the other; final state and all outcomes. -/
def Op.runAll (b : Build) (cv : Curve p q G) (hs : Hashes p) :
    State p q G → List (Op q G) → State p q G × List (Outcome Unit Unit)
  | s, [] => (s, [])
  | s, op :: ops =>
    let r := op.run b cv hs s
    ((Op.runAll b cv hs r.1 ops).1, r.2 :: (Op.runAll b cv hs r.1 ops).2)

/-- All calls stay within capacity and none panics. -/
def Op.AllFit (b : Build) (cv : Curve p q G) (hs : Hashes p) : State p q G → List (Op q G) → Prop
  | _, [] => True
  | s, op :: ops => op.Fits s ∧ (op.run b cv hs s).2 ≠ .panic ∧ Op.AllFit b cv hs (op.run b cv hs s).1 ops

/-- A new aggregator that holds the given UTXO ledger. -/
def freshWith (cv : Curve p q G) (hs : Hashes p) (l : Ledger p G) : State p q G :=
  { new q cv hs with ledger := l }

end
end PF.Agg

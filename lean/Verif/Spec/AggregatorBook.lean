import Verif.Spec.Aggregator
import Mathlib.Data.Multiset.Count
import Mathlib.Data.Multiset.AddSub

/-!
# Reference ledger of the aggregator

What the aggregator is meant to do, without trees, positions or capacities: a multiset of UTXOs, the lists
of the epoch, and the outcome of every call. `C97` compares the aggregator with it on every history of
calls, however long.
-/

namespace PF.Agg
open PF PF.Spec
variable {p q : Nat} {G : Type}

/-- State of the reference ledger. `pool`: the unspent UTXOs; `ever`: all UTXOs ever created, in order;
`recorded`: transaction and answering key of every answered transaction of the epoch. -/
structure Book (G : Type) where
  pool : Multiset (UTXO Nat G)
  ever : List (UTXO Nat G)
  transactions : List (Tx Nat G)
  signers : List (Option G)
  deposits : List (G × Nat)
  withdrawals : List (G × Nat)
  recorded : List (Tx Nat G × G)

/-- The empty ledger. -/
def Book.empty : Book G := ⟨0, [], [], [], [], [], []⟩

/-- A new epoch keeps the unspent UTXOs only. -/
def Book.newEpoch (B : Book G) : Book G :=
  { B with transactions := [], signers := [], deposits := [], withdrawals := [], recorded := [] }

/-- Submitting transactions: the valid ones before the first invalid one are kept. -/
def Book.submit [DecidableEq G] (b : Build) : List (G × Tx Nat G) → Book G → Book G × Outcome TransactionError Unit
  | [], B => (B, .ok ())
  | x :: l, B =>
    match x.2.isValid b (some x.1) with
    | .ok () => Book.submit b l { B with transactions := B.transactions ++ [x.2] }
    | e => (B, e)

/-- Spending a list of UTXOs one after the other; those that are dummies or belong to the contract are
ignored; the first one that is not in the pool stops, with an error telling whether it ever existed. -/
def Book.spend [DecidableEq G] (rollup : G) : List (UTXO Nat G) → Book G → Book G × Outcome AggError Unit
  | [], B => (B, .ok ())
  | u :: us, B =>
    if u.onLedger rollup then
      if u ∈ B.pool then Book.spend rollup us { B with pool := B.pool.erase u }
      else (B, .err (if u ∈ B.ever then .utxoError else .utxoNonExisting))
    else Book.spend rollup us B

/-- Effect of an approved transaction once its inputs are spent. Its withdrawal is a 64-bit sum. -/
def Book.execute [DecidableEq G] (b : Build) (rollup : G) (tx : Tx Nat G) (pk : G) (B : Book G) :
    Book G × Outcome AggError Unit :=
  if b = .debug ∧ 2 ^ 64 ≤ tx.withdrawn rollup then (B, .panic)
  else
    ({ B with
        pool := B.pool + tx.creates rollup
        ever := B.ever ++ tx.creates rollup
        deposits := B.deposits ++ tx.depositsOf rollup pk
        withdrawals := B.withdrawals ++
          (if tx.withdrawn rollup % 2 ^ 64 = 0 then [] else [(pk, tx.withdrawn rollup % 2 ^ 64)])
        recorded := B.recorded ++ [(tx, pk)] }, .ok ())

/-- The answer `x` to transaction number `i`; `approves` decides which answers approve which transactions. -/
def Book.answer [DecidableEq G] (b : Build) (rollup : G) (approves : Tx Nat G → Pair q G → Bool) (i : Nat)
    (x : Pair q G) (B : Book G) : Book G × Outcome AggError Unit :=
  match B.transactions[i]? with
  | none => (B, .panic)
  | some tx =>
    if approves tx x then
      match Book.spend rollup tx.inputs.toList { B with signers := B.signers ++ [some x.1] } with
      | (B', .ok ()) => B'.execute b rollup tx x.1
      | r => r
    else ({ B with signers := B.signers ++ [none], recorded := B.recorded ++ [(tx, x.1)] }, .ok ())

/-- The answers of a call, in order, until the first failure. -/
def Book.answers [DecidableEq G] (b : Build) (rollup : G) (approves : Tx Nat G → Pair q G → Bool) :
    Nat → List (Pair q G) → Book G → Book G × Outcome AggError Unit
  | _, [], B => (B, .ok ())
  | i, x :: l, B =>
    match B.answer b rollup approves i x with
    | (B', .ok ()) => Book.answers b rollup approves (i + 1) l B'
    | r => r

/-- The aggregator state shows the reference state. -/
structure Shows [DecidableEq G] (s : State p q G) (B : Book G) : Prop where
  pool : ∀ u, (positions s u).length = B.pool.count u
  known : ∀ u, (s.ledger.utxos.get u).isSome = true ↔ u ∈ B.ever
  slot : ∀ u i, i ∈ positions s u → B.ever[i]? = some u
  nodup : ∀ u, (positions s u).Nodup
  next : s.ledger.next = B.ever.length
  transactions : s.transactions = B.transactions
  signers : s.signers = B.signers
  deposits : s.deposits = B.deposits
  withdrawals : s.withdrawals = B.withdrawals
  recorded : s.ivcInputs.map (fun y => (y.tx, y.senderPk)) = B.recorded

section
variable [AddCommGroup G] [Module (ZMod q) G] [DecidableEq G]

/-- The same calls made on a new aggregator and on the reference ledger: no bound on the number of
transactions, signers or UTXOs; calls may fail, but not panic. -/
inductive Histories (b : Build) (cv : Curve p q G) (hs : Hashes p) : State p q G → Book G → Prop
  | new : Histories b cv hs (new q cv hs) Book.empty
  | newEpoch {s : State p q G} {B : Book G} (h : Histories b cv hs s B) :
      Histories b cv hs (reset cv hs s) B.newEpoch
  | transactions {s : State p q G} {B : Book G} (h : Histories b cv hs s B) (l : List (G × Tx Nat G))
      (hr : (processTransactions b cv hs l s).2 ≠ .panic) :
      Histories b cv hs (processTransactions b cv hs l s).1 (B.submit b l).1
  | signatures {s : State p q G} {B : Book G} (h : Histories b cv hs s B) (rollup : G)
      (l : List (Pair q G)) (root : ZMod p) (hroot : (s.txTree.rootHash : Outcome Unit _) = .ok root)
      (hr : (processSignatures b cv hs rollup l s).2 ≠ .panic) :
      Histories b cv hs (processSignatures b cv hs rollup l s).1
        (B.answers b rollup (Approves cv hs rollup root) 0 l).1

end
end PF.Agg

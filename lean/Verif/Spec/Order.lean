import Verif.Spec.EndToEnd

/-!
# Orders of transactions

What it takes to execute transactions one after the other, in terms of the UTXOs at hand.
-/

namespace PF.Spec
open PF PF.Agg
variable {q : Nat} {G : Type} [DecidableEq G]

/-- UTXOs taken from the ledger by the transactions. -/
def spentUTXOs (rollup : G) (ts : List (Tx Nat G)) : List (UTXO Nat G) := ts.flatMap (·.spends rollup)

/-- UTXOs put into the ledger by the transactions. -/
def createdUTXOs (rollup : G) (ts : List (Tx Nat G)) : List (UTXO Nat G) := ts.flatMap (·.creates rollup)

/-- Starting with `have_ u` copies of each UTXO `u`, every transaction of the list finds its inputs: whatever is
spent up to and including a transaction was there at the start or was created by the transactions before it. -/
def Affordable (rollup : G) (have_ : UTXO Nat G → Nat) (ts : List (Tx Nat G)) : Prop :=
  ∀ done t rest, ts = done ++ t :: rest →
    ∀ u, (spentUTXOs rollup (done ++ [t])).count u ≤ have_ u + (createdUTXOs rollup done).count u

/-- No transaction of the list spends a UTXO equal to one that the list creates. -/
def Independent (rollup : G) (ts : List (Tx Nat G)) : Prop :=
  ∀ u ∈ spentUTXOs rollup ts, u ∉ createdUTXOs rollup ts

/-- Answers `l'` are the answers `l`, some of them with the signature left out. -/
def Withholds (l l' : List (Pair q G)) : Prop :=
  List.Forall₂ (fun x y => y = x ∨ y = (x.1, none)) l l'

end PF.Spec

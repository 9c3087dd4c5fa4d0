import Verif.Spec.EndToEnd
import Verif.Spec.Lifetime

/-!
# Specification: a client that keeps up with an aggregator

The honest user of key `k`: after each epoch it takes from the aggregator the transactions that were executed and
involve `k`, and processes them in steps about the block of the epoch. A block with the hash of the last block it
has processed is passed over.
-/

set_option linter.unusedSectionVars false

namespace PF.Spec
open PF PF.MT PF.Agg PF.Client

variable {p q : Nat} {G : Type} [AddCommGroup G] [Module (ZMod q) G] [DecidableEq G]

/-- Hash of the block of an epoch. -/
def blockHash (hs : Hashes p) (d : Agg.Executed p q G) : ZMod p := hs.crh (blockEncVar d.block.alloc)

/-- Transactions of an epoch with the answers at the same position. -/
def answeredTxs (d : Agg.Executed p q G) : List (Tx Nat G × Pair q G) := (d.txs.map (·.2)).zip d.answers

/-- Positions of the executed transactions of an epoch that involve key `k`. -/
def mine (cv : Curve p q G) (hs : Hashes p) (rollup k : G) (d : Agg.Executed p q G) : List Nat :=
  (List.range (answeredTxs d).length).filter fun i =>
    (answeredTxs d)[i]?.any fun y => Approves cv hs rollup (txRoot cv hs d.mid) y.1 y.2 && Involves k y.1

/-- The executed transactions of the epoch that involve `k` can be counted: the first position of the epoch does not
hold one, they were approved by the key of their own signer, and their dummies carry no amounts. -/
structure Accessible (cv : Curve p q G) (hs : Hashes p) (rollup k : G) (d : Agg.Executed p q G) : Prop where
  first : 0 ∉ mine cv hs rollup k d
  own : ∀ y ∈ answeredTxs d, Approves cv hs rollup (txRoot cv hs d.mid) y.1 y.2 = true → Involves k y.1 = true →
    y.2.1 = y.1.getSigner
  clean : ∀ y ∈ answeredTxs d, Approves cv hs rollup (txRoot cv hs d.mid) y.1 y.2 = true → Involves k y.1 = true →
    CleanTx y.1

/-- A way to keep up: for each epoch the lists of positions processed in one step each. A block with the hash of
the last block processed (`last`) gets no step; otherwise the steps, of at most `n` transactions, go through the
executed transactions that involve `k`, in order (a block without such transactions may get steps or not). -/
def Follows (cv : Curve p q G) (hs : Hashes p) (rollup k : G) (n : Nat) :
    Option (Agg.Executed p q G) → List (Agg.Executed p q G) → List (List (List Nat)) → Prop
  | _, [], [] => True
  | last, d :: ds, pl :: pls =>
    ((last.map (blockHash hs) = some (blockHash hs d) ∧ pl = []) ∨
      (last.map (blockHash hs) ≠ some (blockHash hs d) ∧ pl.flatten = mine cv hs rollup k d ∧
        ∀ c ∈ pl, c.length ≤ n)) ∧
    Follows cv hs rollup k n (if pl = [] then last else some d) ds pls
  | _, _, _ => False

/-- The steps of such a way, one after the other, each with the epoch whose block it is about. -/
def stepsOf (ds : List (Agg.Executed p q G)) (pls : List (List (List Nat))) :
    List (Agg.Executed p q G × List Nat) :=
  (ds.zip pls).flatMap fun x => x.2.map fun c => (x.1, c)

/-- A new client of key `k` that has kept up with the epochs `ds`, in steps of some size, is in the state `z`. -/
def KeptUp (P : Client.Params p) (cv : Curve p q G) (rollup k : G) (ds : List (Agg.Executed p q G))
    (z : UState p) : Prop :=
  ∃ (n : Nat) (pls : List (List (List Nat))) (as : List (UserAux p G)), Follows cv P.hs rollup k n none ds pls ∧
    List.Forall₂ (fun x a => assemble cv P.hs x.1.fin x.1.block k n (x.2.map fun i => (i, i)) = .ok a)
      (stepsOf ds pls) as ∧
    Client.runSteps P cv n ⟨0, 0, P.hs.crh (pkEncVar cv k), 0, 0, 0, 0⟩ (as.map UserAux.alloc) z

/-- Two of the epochs exhibit a collision of a hash function: in the hashes of their blocks or in the trees of
their ledgers. -/
def EpochClash (cv : Curve p q G) (hs : Hashes p) (l : List (Agg.Executed p q G)) : Prop :=
  ∃ d ∈ l, ∃ d' ∈ l, Collides hs.crh (blockEncVar d.block.alloc) (blockEncVar d'.block.alloc) ∨
    ∃ c c', Represents cv hs d.fin c ∧ Represents cv hs d'.fin c' ∧
      TreeClash (utxoCRH cv hs.crh) hs.h2 32 c c'

end PF.Spec

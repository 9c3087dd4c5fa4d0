import Verif.Spec.Assignment
import Verif.Spec.Witness

/-!
# Where the inputs of a step are

The variables of a step's program that the caller fills in: the state vector and the external inputs, in the order in
which they are allocated (aggregator/src/circuit.rs:134-200, client/src/circuits/mod.rs:137-184). All other variables are
introduced by gadgets.
-/

namespace PF.Prog
open PF PF.Circuit
variable {p q : Nat} {G : Type}

/-- A value for one variable. -/
inductive Value (p : Nat) (G : Type) where
  | field (c : ZMod p)
  | bool (c : Bool)
  | point (c : G)

/-- Variable number `n` has the value. -/
def Assignment.Has (e : Assignment p G) (n : Nat) : Value p G → Prop
  | .field c => e.field n = c
  | .bool c => e.bool n = c
  | .point c => e.point n = c

/-- The variables from number `n` on have the values. -/
def Assignment.Fills (e : Assignment p G) (n : Nat) (l : List (Value p G)) : Prop :=
  ∀ (k : Nat) (v : Value p G), l[k]? = some v → e.Has (n + k) v

/-- A UTXO takes three variables. -/
def utxoLayout (u : UTXO (ZMod p) G) : List (Value p G) := [.field u.amount, .point u.pk, .bool u.isDummy]

/-- A transaction: its inputs, then its outputs. -/
def txLayout (t : Tx (ZMod p) G) : List (Value p G) :=
  t.inputs.toList.flatMap utxoLayout ++ t.outputs.toList.flatMap utxoLayout

/-- The inputs of one transaction of the aggregator's circuit: transaction, its path, the paths of the deletions, their
positions, the paths of the additions, their positions, the path of the signer tree, the sender, the signature. -/
def inputsLayout (i : AggC.CInputs p G) : List (Value p G) :=
  txLayout i.tx ++ i.txProof.map .field ++ i.dels.flatMap (fun d => d.2.map .field) ++ i.dels.map (fun d => .field d.1) ++
    i.adds.flatMap (fun d => d.2.map .field) ++ i.adds.map (fun d => .field d.1) ++ i.signerProof.map .field ++
    [.point i.senderPk] ++ i.sigS.map .bool ++ i.sigE.map .bool

/-- The state vector and the inputs of a batch. -/
def aggregatorLayout (z : AggC.CState p) (is : List (AggC.CInputs p G)) : List (Value p G) :=
  z.toList.map .field ++ is.flatMap inputsLayout

/-- Pairs of siblings. -/
def pathLayout (l : List (ZMod p × ZMod p)) : List (Value p G) := l.flatMap fun x => [.field x.1, .field x.2]

/-- The inputs of a step of the client's circuit: the paths of the transactions, those of the signers, the block, the
transactions with their indices, the key. -/
def auxLayout (a : Client.UserAuxVar p G) : List (Value p G) :=
  a.txProofs.flatMap pathLayout ++ a.signerProofs.flatMap pathLayout ++
    [.field a.block.utxoRoot, .field a.block.txRoot, .field a.block.signerRoot, .field a.block.height] ++
    a.transactions.flatMap (fun x => txLayout x.1 ++ [.field x.2]) ++ [.point a.pk]

/-- The state vector and the inputs of a client's step. -/
def clientLayout (z : Client.UState p) (a : Client.UserAuxVar p G) : List (Value p G) := z.toList.map .field ++ auxLayout a

/-- The number of variables the inputs of one transaction take in the aggregator's circuit. -/
def inputVars (q : Nat) : Nat :=
  3 * (TX_IO_SIZE + TX_IO_SIZE) + (TX_TREE_HEIGHT - 1) + 2 * (TX_IO_SIZE * (UTXO_TREE_HEIGHT - 1) + TX_IO_SIZE) +
    (SIGNER_TREE_HEIGHT - 1) + 1 + 2 * modBits q

/-- The number of variables one transaction takes in the client's circuit, with its index and its two paths. -/
def clientTxVars : Nat :=
  2 * (TX_TREE_HEIGHT - 1) + 2 * (SIGNER_TREE_HEIGHT - 1) + 3 * (TX_IO_SIZE + TX_IO_SIZE) + 1

/-- The assignments give the same values to the variables from number `lo` to number `hi - 1`. -/
def Agree (lo hi : Nat) (e e' : Assignment p G) : Prop :=
  ∀ n, lo ≤ n → n < hi → e.field n = e'.field n ∧ e.bool n = e'.bool n ∧ e.point n = e'.point n

end PF.Prog

import Verif.Spec.Client
import Verif.Spec.ClientChain
import Verif.Spec.Accumulator

/-!
# Specification: what a client can claim about a list of published blocks

A client that ran over a list of published blocks shows the final accumulator, its key and its balance. Who
checks the accumulator knows the list of blocks, not the steps of the client.
-/

namespace PF.Client
open PF PF.Spec
variable {p q : Nat} {G : Type} [AddCommGroup G] [Module (ZMod q) G] [DecidableEq G]

/-- A published block, with the transactions and signers it lists. -/
structure Published (p : Nat) (G : Type) where
  block : BlockVar (ZMod p)
  txs : Nat → Tx (ZMod p) G
  signers : Nat → G

/-- The roots of the block are those of what it lists. -/
def Published.Lists (cv : Curve p q G) (hs : Hashes p) (b : Published p G) : Prop :=
  RootOf hs (txEncVar cv) 13 b.txs b.block.txRoot ∧ RootOf hs (pkEncVar cv) 13 b.signers b.block.signerRoot

/-- Hash of the block. -/
def Published.hash (hs : Hashes p) (b : Published p G) : ZMod p := hs.crh (blockEncVar b.block)

/-- The accumulator that stands for the blocks `bs` in this order, started from `a`. -/
def accOf (P : Params p) (a : ZMod p) (bs : List (Published p G)) : ZMod p :=
  (bs.map (·.hash P.hs)).foldl P.acc a

/-- Position `j` of the block holds a transaction that is not padding and whose signer stands somewhere in the
list of signers. -/
def Published.Countable (cv : Curve p q G) (hs : Hashes p) (b : Published p G) (j : Nat) : Prop :=
  j < CAP ∧ hs.crh (txEncVar cv (b.txs j)) ≠ hs.crh (txEncVar cv (Tx.default : Tx (ZMod p) G)) ∧
  ∃ l, l < CAP ∧ b.signers l = (b.txs j).getSigner

/-- A selection: for each block a list of at most `n` of its countable positions, in any order and with any
repetitions. -/
def Selection (cv : Curve p q G) (hs : Hashes p) (n : Nat) (bs : List (Published p G)) (sel : List (List Nat)) :
    Prop := List.Forall₂ (fun b l => l.length ≤ n ∧ ∀ j ∈ l, b.Countable cv hs j) bs sel

/-- The transactions selected. -/
def selected (bs : List (Published p G)) (sel : List (List Nat)) : List (Tx (ZMod p) G) :=
  (bs.zip sel).flatMap fun x => x.2.map x.1.txs

/-- Heights never decrease, from height `m` on, and are below half the field order. -/
def Rising (m : ZMod p) (bs : List (Published p G)) : Prop :=
  (m.val :: bs.map (·.block.height.val)).Pairwise (· ≤ ·) ∧ ∀ b ∈ bs, b.block.height.val + 1 ≤ (p - 1) / 2

/-- The steps `as` of user `k` from accumulator `a`, held against the blocks `bs`, break a hash function: the
accumulator, the sponge hash on two keys, on two blocks, on two transactions or on two signers, or the two-to-one
hash on a shown path and the true one. -/
def ClaimBreak (P : Params p) (cv : Curve p q G) (k : G) (a : ZMod p) (as : List (UserAuxVar p G))
    (bs : List (Published p G)) : Prop :=
  ChainBreak (fun x : ZMod p × ZMod p => P.acc x.1 x.2) (fun x : ZMod p × ZMod p => P.acc x.1 x.2) Prod.mk
      a (as.map (·.hash P.hs)) (bs.map (·.hash P.hs)) ∨
  ∃ s ∈ as, Collides P.hs.crh (pkEncVar cv s.pk) (pkEncVar cv k) ∨
    (∃ b ∈ bs, Collides P.hs.crh (blockEncVar s.block) (blockEncVar b.block)) ∨
    ∃ x ∈ s.shown, Collides P.hs.crh (txEncVar cv x.tx) (txEncVar cv (Tx.default : Tx (ZMod p) G)) ∨
      ∃ b ∈ bs, Collides P.hs.crh (txEncVar cv x.tx) (txEncVar cv (b.txs x.position)) ∨
        PathCollision P.hs.h2 x.txPath
          (truePath (fun t => P.hs.crh (txEncVar cv t)) P.hs.h2 13 b.txs x.position) ∨
        ∃ j, j < CAP ∧ (Collides P.hs.crh (pkEncVar cv x.tx.getSigner) (pkEncVar cv (b.signers j)) ∨
          PathCollision P.hs.h2 x.signerPath
            (truePath (fun k => P.hs.crh (pkEncVar cv k)) P.hs.h2 13 b.signers j))

/-- Block of an accepted epoch with what it lists: the transactions its prover ran, and the senders of the
authorised ones over the signer tree `g` it started from. -/
def published (Q : AggC.Params p G) (cv : Curve p q G) (e : AggC.Epoch p G) (g : Nat → G) : Published p G where
  block := e.block.alloc
  txs := e.txAt
  signers := e.signerAt Q cv g

/-- Epochs with the signer tree each starts from: each is accepted on some ledger, starts from the empty
transaction tree, and fits it. -/
def Published.FromProver (Q : AggC.Params p G) (cv : Curve p q G) (x : AggC.Epoch p G × (Nat → G)) : Prop :=
  (∃ u, x.1.Accepted Q cv u) ∧ x.1.txs.length ≤ TX_CAP ∧
  RootOf Q.hs (txEncVar cv) 13 (fun _ => Tx.default) x.1.tx0 ∧ RootOf Q.hs (pkEncVar cv) 13 x.2 x.1.signer0

end PF.Client

import Verif.Model.Client
import Verif.Spec.TreeUpdates
import Verif.Spec.Accumulator

/-!
# Specification vocabulary for the client circuit
-/

set_option linter.unusedSectionVars false

namespace PF.Client
open PF PF.Spec

variable {p q : Nat} {G : Type} [AddCommGroup G] [Module (ZMod q) G] [DecidableEq G]

/-- Size conditions on the circuit field. -/
structure FieldOk (p : Nat) : Prop where
  odd : p % 2 = 1
  large : 2 ^ 67 ≤ p

/-- Number of positions of the transaction tree and of the signer tree. -/
abbrev CAP : Nat := 4096

/-- A transaction shown to the circuit, with its index and its two paths. -/
structure Shown (p : Nat) (G : Type) where
  tx : Tx (ZMod p) G
  index : ZMod p
  txPath : List (ZMod p × ZMod p)
  signerPath : List (ZMod p × ZMod p)

/-- The transactions shown in a step. -/
def UserAuxVar.shown (a : UserAuxVar p G) : List (Shown p G) :=
  ((a.transactions.zip a.txProofs).zip a.signerProofs).map fun x => ⟨x.1.1.1, x.1.1.2, x.1.2, x.2⟩

/-- Hash of the block processed in a step. -/
def UserAuxVar.hash (hs : Hashes p) (a : UserAuxVar p G) : ZMod p := hs.crh (blockEncVar a.block)

/-- A shown transaction counts if its hash is not the hash of the padding transaction. -/
def Shown.counts (cv : Curve p q G) (hs : Hashes p) (x : Shown p G) : Bool :=
  decide (hs.crh (txEncVar cv x.tx) ≠ hs.crh (txEncVar cv (Tx.default : Tx (ZMod p) G)))

/-- Position in the tree that an index stands for. -/
def Shown.position (x : Shown p G) : Nat := x.index.val % CAP

/-- Amounts of all outputs carrying key `k`, dummies included. -/
def received (k : G) (t : Tx (ZMod p) G) : ZMod p :=
  ((t.outputs.toList.filter fun u => u.pk = k).map (·.amount)).sum

/-- Amounts of all inputs carrying key `k`, dummies included. -/
def spent (k : G) (t : Tx (ZMod p) G) : ZMod p :=
  ((t.inputs.toList.filter fun u => u.pk = k).map (·.amount)).sum

/-- What the outputs minus the inputs carrying key `k` amount to. -/
def delta (k : G) (t : Tx (ZMod p) G) : ZMod p := received k t - spent k t

/-- Number of transactions whose signer is `k`. -/
def signedBy (k : G) (ts : List (Tx (ZMod p) G)) : Nat := ts.countP fun t => k = t.getSigner

/-- Dummies carry no amount. -/
def Clean (t : Tx (ZMod p) G) : Prop := ∀ u ∈ t.ios, u.isDummy = true → u.amount = 0

/-- The steps at the end of a run that are about the block of its last step. -/
def lastBlockSteps (hs : Hashes p) (as : List (UserAuxVar p G)) (a : UserAuxVar p G) : List (UserAuxVar p G) :=
  ((as ++ [a]).reverse.takeWhile fun b => hs.crh (blockEncVar b.block) = hs.crh (blockEncVar a.block)).reverse

/-- Where a client stands in the block of its last step `a`, after the steps `as ++ [a]`: the index of the last
transaction counted in the steps about that block; if none was, the index it started with if it started in
that block and never left it, else zero. -/
def lastIndex (cv : Curve p q G) (hs : Hashes p) (hash index : ZMod p) (as : List (UserAuxVar p G))
    (a : UserAuxVar p G) : ZMod p :=
  ((((lastBlockSteps hs as a).flatMap (·.shown)).filter fun x => x.counts cv hs).getLast?.map
    (·.index)).getD
    (if (lastBlockSteps hs as a).length = as.length + 1 ∧ hs.crh (blockEncVar a.block) = hash then index else 0)

/-- The true paths of transaction `t` claimed at index `i` (a number), its signer being shown at position
`j` of the signer tree. -/
def honestShown (cv : Curve p q G) (hs : Hashes p) (c : Nat → Tx (ZMod p) G) (sc : Nat → G)
    (t : Tx (ZMod p) G) (i j : Nat) : Shown p G where
  tx := t
  index := (i : ZMod p)
  txPath := truePath (fun t => hs.crh (txEncVar cv t)) hs.h2 13 c (i % CAP)
  signerPath := truePath (fun k => hs.crh (pkEncVar cv k)) hs.h2 13 sc j

/-- External inputs with the given transactions. -/
def mkAux (blk : BlockVar (ZMod p)) (k : G) (xs : List (Shown p G)) : UserAuxVar p G where
  txProofs := xs.map (·.txPath)
  signerProofs := xs.map (·.signerPath)
  block := blk
  transactions := xs.map fun x => (x.tx, x.index)
  pk := k

end PF.Client

import Verif.Spec.BlockChain
import Verif.Spec.Client

/-!
# Specification: what an accepted block lists

What the roots of a block accepted from any prover stand for, told from the transactions its prover ran.
-/

namespace PF.AggC
open PF PF.Spec
variable {p q : Nat} {G : Type} [AddCommGroup G] [Module (ZMod q) G] [DecidableEq G]

/-- Transaction at position `j`: the `j`-th the prover ran, padding after the last one. -/
def Epoch.txAt (e : Epoch p G) (j : Nat) : Tx (ZMod p) G := (e.txs[j]?.map (·.tx)).getD Tx.default

/-- Signer leaf at position `j`: the sender if the `j`-th transaction is authorised (signed by its sender, or
sent by the contract), otherwise what the signer tree held before, `g`. -/
def Epoch.signerAt (P : Params p G) (cv : Curve p q G) (e : Epoch p G) (g : Nat → G) (j : Nat) : G :=
  match e.txs[j]? with
  | some i => if i.authorised P cv e.final then i.senderPk else g j
  | none => g j

end PF.AggC

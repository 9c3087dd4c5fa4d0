import Verif.Model.Program

/-!
# Vocabulary of constraint programs
-/

namespace PF.Prog
open PF PF.Circuit
variable {p : Nat} {G α : Type}

/-- The operands that hold the aggregator's state, in order. -/
def StateW.refs (z : StateW p) : List (Ref (ZMod p)) :=
  [z.step.ref, z.utxoRoot.ref, z.txRoot.ref, z.txRootFinal.ref, z.signerRoot.ref, z.signerAcc.ref, z.depositAcc.ref,
    z.withdrawalAcc.ref]

/-- The values assigned to them. -/
def StateW.val (z : StateW p) : AggC.CState p :=
  { step := z.step.val, utxoRoot := z.utxoRoot.val, txRoot := z.txRoot.val, txRootFinal := z.txRootFinal.val,
    signerRoot := z.signerRoot.val, signerAcc := z.signerAcc.val, depositAcc := z.depositAcc.val,
    withdrawalAcc := z.withdrawalAcc.val }

/-- The operands that hold the client's state, in order. -/
def UStateW.refs (z : UStateW p) : List (Ref (ZMod p)) :=
  [z.balance.ref, z.nonce.ref, z.pkHash.ref, z.acc.ref, z.prevBlockHash.ref, z.prevBlockNumber.ref, z.prevTxIndex.ref]

/-- The values assigned to them. -/
def UStateW.val (z : UStateW p) : Client.UState p :=
  { balance := z.balance.val, nonce := z.nonce.val, pkHash := z.pkHash.val, acc := z.acc.val,
    prevBlockHash := z.prevBlockHash.val, prevBlockNumber := z.prevBlockNumber.val, prevTxIndex := z.prevTxIndex.val }

/-- Synthesis `m` from an empty constraint system (first variable 0) does not panic, emits the program `prog` and returns its results
in the operands `out`. -/
def Emits (vars : α → List (Ref (ZMod p))) (m : Tr p G α) (prog : List (Instr p G)) (out : List (Ref (ZMod p))) : Prop :=
  ∃ a o, m 0 = some (a, o) ∧ o.log.map Entry.instr = prog ∧ vars a = out

/-- Synthesis `m` from an empty constraint system (first variable 0) does not panic, all constraints are satisfied by the values
assigned, and the values of the results are `v`. -/
def Computes {β : Type} (vals : α → β) (m : Tr p G α) (v : β) : Prop :=
  ∃ a o, m 0 = some (a, o) ∧ o.ok = true ∧ vals a = v

end PF.Prog

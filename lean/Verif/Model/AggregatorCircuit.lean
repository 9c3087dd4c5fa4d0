import Verif.Model.Aggregator
import Verif.Model.SparseMTGadget

/-!
# Model of the aggregator circuit

`/repo/aggregator/src/circuit.rs`. The step function is a relation between the old state, the external
inputs and the new state: the new state is the one output by `generate_step_constraints` and the
relation holds iff some assignment of the internal witnesses satisfies all constraints.

Simplifications: curve points are elements of `G` (allocation enforces the curve equation, external
crate); the folding scheme that iterates the circuit is not modelled, a folded computation is a list of
satisfied steps.
-/

namespace PF.AggC
open PF PF.Circuit PF.MT
variable {p q : Nat} {G : Type}

/-- circuit.rs:103-126 `AggregatorCircuitInputsVar`: values of the allocated variables. The position
and proof arrays are kept as lists of pairs, the signature is its two bit strings. -/
structure CInputs (p : Nat) (G : Type) where
  tx : Tx (ZMod p) G
  txProof : List (ZMod p)
  dels : List (ZMod p × List (ZMod p))
  adds : List (ZMod p × List (ZMod p))
  signerProof : List (ZMod p)
  senderPk : G
  sigS : List Bool
  sigE : List Bool

/-- circuit.rs:283-290: the eight field elements of the state vector. -/
structure CState (p : Nat) where
  step : ZMod p
  utxoRoot : ZMod p
  txRoot : ZMod p
  txRootFinal : ZMod p
  signerRoot : ZMod p
  signerAcc : ZMod p
  depositAcc : ZMod p
  withdrawalAcc : ZMod p
deriving DecidableEq

/-- circuit.rs:420-429: order of the state vector. -/
def CState.toList (z : CState p) : List (ZMod p) :=
  [z.step, z.utxoRoot, z.txRoot, z.txRootFinal, z.signerRoot, z.signerAcc, z.depositAcc,
    z.withdrawalAcc]

/-- circuit.rs:60-67: the constants of the circuit (`sha` is SHA-256). -/
structure Params (p : Nat) (G : Type) where
  hs : Hashes p
  sha : Sha
  contract : G
  transferOnly : Bool

section
variable [AddCommGroup G] [Module (ZMod q) G]

/-- circuit.rs:143-200: allocation of native inputs. -/
def CInputs.alloc (i : Agg.Inputs p q G) : CInputs p G :=
  { tx := i.tx.alloc p, txProof := i.txProof, dels := i.dels, adds := i.adds,
    signerProof := i.signerProof, senderPk := i.senderPk,
    sigS := (Schnorr.allocSig i.signature).1, sigE := (Schnorr.allocSig i.signature).2 }

/-- One conditional update of a tree root: circuit.rs:333-341 (and 367-376, 379-387).
`update_root` asserts the length of the proof. -/
def condUpdate {L : Type} (cfg : Config L (ZMod p)) (on : Bool) (pos : ZMod p) (proof : List (ZMod p))
    (old new : L) (r r' : ZMod p) : Prop :=
  proof.length = cfg.height - 1 ∧
  condEq on r (updateRoot cfg proof old new pos).1 ∧
  r' = select on (updateRoot cfg proof old new pos).2 r

/-- circuit.rs:330-342: the loop over the inputs, from root `r` to root `r'`. -/
def delLoop (cv : Curve p q G) (hs : Hashes p) (sigOk : Bool) :
    List (UTXO (ZMod p) G) → List (ZMod p × List (ZMod p)) → ZMod p → ZMod p → Prop
  | u :: us, d :: ds, r, r' => ∃ r1,
    condUpdate (utxoTreeCfgVar cv hs) (sigOk && !u.isDummy) d.1 d.2 u UTXO.dummy r r1 ∧
    delLoop cv hs sigOk us ds r1 r'
  | [], [], r, r' => r' = r
  | _, _, _, _ => False

variable [DecidableEq G]

/-- circuit.rs:348-362: the deposit accumulator after output `u`. -/
def depositStep (P : Params p G) (cv : Curve p q G) (senderIsContract : Bool) (u : UTXO (ZMod p) G)
    (dep dep' : ZMod p) : Prop :=
  if P.transferOnly then dep' = dep
  else ∃ bits, toNBits u.amount 64 bits ∧
    dep' = select (senderIsContract && !u.isDummy)
      (shaFieldVar p P.sha (fBytesVar dep ++ pkBytesVar cv u.pk ++ bytesOfBits bits)) dep

/-- circuit.rs:345-377: the loop over the outputs; `dep`, `w`, `r` are the deposit accumulator, the
withdrawal amount and the UTXO root. -/
def addLoop (P : Params p G) (cv : Curve p q G) (senderIsContract txOk : Bool) :
    List (UTXO (ZMod p) G) → List (ZMod p × List (ZMod p)) → (dep w r dep' w' r' : ZMod p) → Prop
  | u :: us, a :: as, dep, w, r, dep', w', r' => ∃ dep1 r1,
    depositStep P cv senderIsContract u dep dep1 ∧
    condUpdate (utxoTreeCfgVar cv P.hs) (txOk && !decide (u.pk = P.contract) && !u.isDummy) a.1 a.2
      UTXO.dummy u r r1 ∧
    addLoop P cv senderIsContract txOk us as dep1
      (w + select (decide (u.pk = P.contract) && !u.isDummy) u.amount 0) r1 dep' w' r'
  | [], [], dep, w, r, dep', w', r' => dep' = dep ∧ w' = w ∧ r' = r
  | _, _, _, _, _, _, _, _ => False

/-- circuit.rs:402-416: the withdrawal accumulator. -/
def withdrawalStep (P : Params p G) (cv : Curve p q G) (senderPk : G) (w acc acc' : ZMod p) : Prop :=
  if P.transferOnly then acc' = acc
  else ∃ bits, toNBits w 64 bits ∧
    acc' = select (decide (w = 0)) acc
      (shaFieldVar p P.sha (fBytesVar acc ++ pkBytesVar cv senderPk ++ bytesOfBits bits))

/-- circuit.rs:292-418: one transaction. The lengths of the signature strings are those allocated by
keypair/constraints.rs:67-83. -/
def stepOne (P : Params p G) (cv : Curve p q G) (z : CState p) (i : CInputs p G) (z' : CState p) :
    Prop :=
  i.sigS.length = modBits q ∧ i.sigE.length = modBits q ∧
  i.tx.enforceValid i.senderPk ∧
  condUpdate (txTreeCfgVar cv P.hs) true z.step i.txProof Tx.default i.tx z.txRoot z'.txRoot ∧
  ∃ sigOk r1 w,
    Schnorr.isValidGadget 32 cv P.hs.crh i.senderPk (txEncVar cv i.tx ++ [z.txRootFinal]) i.sigS
      i.sigE sigOk ∧
    delLoop cv P.hs sigOk i.tx.inputs.toList i.dels z.utxoRoot r1 ∧
    addLoop P cv (decide (i.senderPk = P.contract)) (sigOk || decide (i.senderPk = P.contract))
      i.tx.outputs.toList i.adds z.depositAcc 0 r1 z'.depositAcc w z'.utxoRoot ∧
    condUpdate (signerTreeCfgVar cv P.hs) (sigOk || decide (i.senderPk = P.contract)) z.step
      i.signerProof 0 i.senderPk z.signerRoot z'.signerRoot ∧
    z'.signerAcc = shaFieldVar p P.sha (fBytesVar z.signerAcc ++
      pkBytesVar cv (select (sigOk || decide (i.senderPk = P.contract)) i.senderPk 0)) ∧
    withdrawalStep P cv i.senderPk w z.withdrawalAcc z'.withdrawalAcc ∧
    z'.step = z.step + 1 ∧ z'.txRootFinal = z.txRootFinal

/-- circuit.rs:292-419: the loop of `generate_step_constraints` over a batch. -/
def stepBatch (P : Params p G) (cv : Curve p q G) : CState p → List (CInputs p G) → CState p → Prop
  | z, [], z' => z' = z
  | z, i :: is, z' => ∃ z1, stepOne P cv z i z1 ∧ stepBatch P cv z1 is z'

/-- Repeated application of the step circuit (test `test_aggregator_circuit_full_mode`,
circuit.rs:636-640; the folding scheme proves the same relation). -/
def runSteps (P : Params p G) (cv : Curve p q G) :
    CState p → List (List (CInputs p G)) → CState p → Prop
  | z, [], z' => z' = z
  | z, b :: bs, z' => ∃ z1, stepBatch P cv z b z1 ∧ runSteps P cv z1 bs z'

/-- circuit.rs:232-242 `tx_is_deposit` (not called by the circuit). -/
def txIsDeposit (t : Tx (ZMod p) G) (contract : G) : Bool :=
  t.inputs.toList.all fun u => u.isDummy || decide (u.pk = contract)

/-- circuit.rs:621-634: the state from which an epoch is proved, given the roots of the three trees
before the epoch and the transaction root the aggregator announces. -/
def initState (utxoRoot txRoot txFinal signerRoot : ZMod p) : CState p :=
  { step := 0, utxoRoot := utxoRoot, txRoot := txRoot, txRootFinal := txFinal,
    signerRoot := signerRoot, signerAcc := 0, depositAcc := 0, withdrawalAcc := 0 }

end
end PF.AggC

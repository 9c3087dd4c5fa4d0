import Verif.Model.Client
import Verif.Model.AggregatorCircuit

/-!
# The step circuits as seen by the folding scheme

`FCircuit::generate_step_constraints` takes and returns a plain vector of field elements
(`/repo/client/src/lib.rs:62-84, 120-142`, `/repo/aggregator/src/circuit.rs:268-430`). Indexing the vector
panics beyond its length; further elements are ignored.
-/

namespace PF

namespace Client
variable {p q : Nat} {G : Type} [AddCommGroup G] [Module (ZMod q) G] [DecidableEq G]

/-- client/src/lib.rs:62-64 and 120-122 `state_len`. -/
def stateLen : Nat := 7

/-- client/src/circuits/mod.rs:213-229: reading `z_i`. -/
def UState.ofVec (v : List (ZMod p)) : Outcome Unit (UState p) := do
  let balance ← Outcome.unwrap v[0]?
  let nonce ← Outcome.unwrap v[1]?
  let pkHash ← Outcome.unwrap v[2]?
  let acc ← Outcome.unwrap v[3]?
  let prevBlockHash ← Outcome.unwrap v[4]?
  let prevBlockNumber ← Outcome.unwrap v[5]?
  let prevTxIndex ← Outcome.unwrap v[6]?
  .ok ⟨balance, nonce, pkHash, acc, prevBlockHash, prevBlockNumber, prevTxIndex⟩

/-- client/src/lib.rs:65-84 and 123-142 `generate_step_constraints`; the step number `_i` is not used. -/
def stepVec (P : Params p) (cv : Curve p q G) (n _i : Nat) (v : List (ZMod p)) (a : UserAuxVar p G)
    (v' : List (ZMod p)) : Prop :=
  ∃ z z', UState.ofVec v = .ok z ∧ updateBalance P cv n z a z' ∧ v' = z'.toList

/-- The folding scheme's iteration: step `i`, `i + 1`, …
Library; driver: aggregator/src/circuit.rs:636-640. -/
def runVec (P : Params p) (cv : Curve p q G) (n : Nat) :
    Nat → List (ZMod p) → List (UserAuxVar p G) → List (ZMod p) → Prop
  | _, v, [], v' => v' = v
  | i, v, a :: as, v' => ∃ v1, stepVec P cv n i v a v1 ∧ runVec P cv n (i + 1) v1 as v'

end Client

namespace AggC
variable {p q : Nat} {G : Type} [AddCommGroup G] [Module (ZMod q) G] [DecidableEq G]

/-- aggregator/src/circuit.rs:268-270 `state_len`. -/
def stateLen : Nat := 8

/-- aggregator/src/circuit.rs:284-291: reading `z_i`. -/
def CState.ofVec (v : List (ZMod p)) : Outcome Unit (CState p) := do
  let step ← Outcome.unwrap v[0]?
  let utxoRoot ← Outcome.unwrap v[1]?
  let txRoot ← Outcome.unwrap v[2]?
  let txRootFinal ← Outcome.unwrap v[3]?
  let signerRoot ← Outcome.unwrap v[4]?
  let signerAcc ← Outcome.unwrap v[5]?
  let depositAcc ← Outcome.unwrap v[6]?
  let withdrawalAcc ← Outcome.unwrap v[7]?
  .ok ⟨step, utxoRoot, txRoot, txRootFinal, signerRoot, signerAcc, depositAcc, withdrawalAcc⟩

/-- aggregator/src/circuit.rs:272-430 `generate_step_constraints`; the step number is not used. -/
def stepVec (P : Params p G) (cv : Curve p q G) (_i : Nat) (v : List (ZMod p)) (b : List (CInputs p G))
    (v' : List (ZMod p)) : Prop :=
  ∃ z z', CState.ofVec v = .ok z ∧ stepBatch P cv z b z' ∧ v' = z'.toList

/-- The folding scheme's iteration: step `i`, `i + 1`, …
Library; driver: aggregator/src/circuit.rs:636-640. -/
def runVec (P : Params p G) (cv : Curve p q G) :
    Nat → List (ZMod p) → List (List (CInputs p G)) → List (ZMod p) → Prop
  | _, v, [], v' => v' = v
  | i, v, b :: bs, v' => ∃ v1, stepVec P cv i v b v1 ∧ runVec P cv (i + 1) v1 bs v'

end AggC
end PF
